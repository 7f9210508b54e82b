import Verif.StepDims.Model
/-
Which length a dim has for a sequence of the current batch: `Len`.  The current step is given by the heap before it (`n0` dims), the
extern data and the batch.
-/
namespace Verif.StepDims

open Verif.Py

/-- The result of an operation on sizes, as a function on numbers. -/
def opVal : Op → Nat → Nat → Nat
  | .add, a, b => a + b
  | .sub, a, b => a - b
  | .mul, a, b => a * b
  | .floordiv, a, b => a / b
  | .ceildiv, a, b => if b = 0 then 0 else if a % b = 0 then a / b else a / b + 1

/-- The step: the number of dims which existed before, the dynamic dims among them, the extern data and the batch. -/
structure Step where
  n0 : Nat
  dynamic : Nat → Bool
  ts : List Template
  raw : Dict String Raw
  B : Nat

/-- The sizes which come with the batch: those of the first entry of the extern data whose first axis (after the batch axis) is the
dynamic dim `d`. -/
def Step.given (S : Step) (d : Nat) : Option (List Nat) :=
  if S.dynamic d then
    match S.ts.find? (fun t => t.dims.head? == some d) with
    | none => none
    | some t => (S.raw.get? t.key).bind Raw.seqLen
  else none

/-- `Len S h i d n`: dim `d` has length `n` for the sequence `i` of the current batch. -/
inductive Len (S : Step) (h : Heap) (i : Nat) : Nat → Nat → Prop
  /-- a dim with a static size -/
  | static {d n} : (h.get d).op = none → (h.get d).static = some n → Len S h i d n
  /-- a dim of the extern data: the lengths of the batch -/
  | given {d l n} : S.given d = some l → l[i]? = some n → Len S h i d n
  /-- a dim which was created in this step with sizes -/
  | own {d l n} : S.given d = none → S.n0 ≤ d → (h.get d).op = none → (h.get d).static = none → (h.get d).sizes = some l →
      l[i]? = some n → Len S h i d n
  /-- a dim which is derived from others -/
  | opInt {d o a c x} : S.given d = none → (h.get d).op = some (o, a, .int c) → Len S h i a x → Len S h i d (opVal o x c)
  | opDim {d o a b x y} : S.given d = none → (h.get d).op = some (o, a, .dim b) → Len S h i a x → Len S h i b y →
      Len S h i d (opVal o x y)

/-- The dims of the current step: static ones, those which are given by the batch, those created in this step with sizes, and those
which are derived in this step from dims of the current step. -/
inductive Fresh (S : Step) (h : Heap) : Nat → Prop
  | static {d n} : (h.get d).static = some n → Fresh S h d
  | given {d l} : S.given d = some l → Fresh S h d
  | own {d l} : S.n0 ≤ d → (h.get d).op = none → (h.get d).sizes = some l → Fresh S h d
  | opInt {d o a c} : S.n0 ≤ d → (h.get d).op = some (o, a, .int c) → Fresh S h a → Fresh S h d
  | opDim {d o a b} : S.n0 ≤ d → (h.get d).op = some (o, a, .dim b) → Fresh S h a → Fresh S h b → Fresh S h d

/-- An operand: a number, or a dim of the current step. -/
def FreshArg (S : Step) (h : Heap) : Arg → Prop
  | .int _ => True
  | .dim d => Fresh S h d

/-- An operand which exists. -/
def Arg.lt (n : Nat) : Arg → Prop
  | .int _ => True
  | .dim d => d < n

/-- What user code does: operations on dims, reading sizes, new dims. -/
inductive Act (B : Nat) : Heap → Heap → Prop
  | derive (h : Heap) (o : Op) (a : Nat) (b : Arg) : a < h.objs.length → b.lt h.objs.length → Act B h (derive h o a b).1
  | read (h : Heap) (d : Nat) : Act B h (read h d)
  | new (h : Heap) (static : Option Nat) (sizes : Option (List Nat)) : (∀ l, sizes = some l → l.length = B) →
      Act B h { objs := h.objs ++ [{ static := static, sizes := sizes }] }

/-- Any number of actions. -/
inductive Run (B : Nat) : Heap → Heap → Prop
  | refl (h : Heap) : Run B h h
  | tail {h h1 h2 : Heap} : Run B h h1 → Act B h1 h2 → Run B h h2

/-- All histories: starting without dims, any actions, and any number of steps. -/
inductive Hist : Heap → Prop
  | start : Hist { objs := [] }
  | act {B : Nat} {h h' : Heap} : Hist h → Act B h h' → Hist h'
  | step {ts : List Template} {raw : Dict String Raw} {h h' : Heap} : Hist h → startStep ts raw h = .ok h' → Hist h'

/-- The step which starts in heap `h`. -/
def stepOf (h : Heap) (ts : List Template) (raw : Dict String Raw) (B : Nat) : Step :=
  { n0 := h.objs.length, dynamic := fun d => (h.get d).static.isNone, ts := ts, raw := raw, B := B }

/-- The extern data refers to dims which exist, and all lengths of the batch are for its `B` sequences. -/
structure ValidBatch (h : Heap) (ts : List Template) (raw : Dict String Raw) (B : Nat) : Prop where
  exist : ∀ t ∈ ts, ∀ d ∈ t.dims, d < h.objs.length
  num : ∀ k r l, raw.get? k = some r → r.seqLen = some l → l.length = B

end Verif.StepDims
