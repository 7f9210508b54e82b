import Verif.Util.Dict
/-
Sizes of dims from one training step to the next (PyTorch backend): `raw_dict_to_extern_data` (`returnn/torch/data/extern_data.py` 28-98)
resets the dims of the extern data and sets their sizes for the new batch; dims which are derived from them by arithmetic
(`returnn/tensor/_dim_extra.py`) are cached (`_CacheDimMath` 2908-3022), and keep their sizes (`complete_dyn_size` 1099-1290,
`reset_raw` 373-409).

Dims are numbered objects.  Simplifications: an operation on dims creates one new dim (the simplification of terms is modelled in
`DimMath`); no `same_as`, no batch and control flow contexts; sizes as one number per sequence; caches do not lose entries by garbage
collection; a dim without sizes and without operation stays without.
-/
namespace Verif.StepDims

open Verif.Py

inductive Op
  | add | sub | mul | floordiv | ceildiv
  deriving DecidableEq

/-- The second operand of an operation: a number or a dim. -/
inductive Arg
  | int (n : Nat) | dim (d : Nat)
  deriving DecidableEq

/-- A dim: its static size; the operation from which it is derived; the sizes of the sequences of the batch, if set
(`dyn_size_ext.raw_tensor`); and `cache_dim_math`. -/
structure Obj where
  static : Option Nat := none
  op : Option (Op × Nat × Arg) := none
  sizes : Option (List Nat) := none
  cache : List ((Op × Arg) × Nat) := []

/-- All dims which exist. -/
structure Heap where
  objs : List Obj

def Heap.get (h : Heap) (d : Nat) : Obj := h.objs.getD d {}

def Heap.put (h : Heap) (d : Nat) (o : Obj) : Heap := { objs := h.objs.set d o }

/-- One size. -/
def Op.app : Op → Nat → Nat → Nat
  | .add, a, b => a + b
  | .sub, a, b => a - b
  | .mul, a, b => a * b
  | .floordiv, a, b => a / b
  | .ceildiv, a, b => (a + b - 1) / b

/-- An operand while sizes are combined: a number for all sequences, or sizes. -/
inductive Size
  | all (n : Nat) | each (l : List Nat)
  deriving DecidableEq

/-- `_bin_op` (_dim_extra.py 1210-1255): with broadcasting. -/
def combine (o : Op) : Size → Size → Size
  | .all a, .all b => .all (o.app a b)
  | .all a, .each l => .each (l.map (fun b => o.app a b))
  | .each l, .all b => .each (l.map (fun a => o.app a b))
  | .each l, .each l' => .each (List.zipWith o.app l l')

/-- The size of an object, if known. -/
def Obj.size (x : Obj) : Option Size :=
  match x.static with
  | some n => some (.all n)
  | none => x.sizes.map Size.each

/-- The size of an operand, if known. -/
def argSize (h : Heap) : Arg → Option Size
  | .int n => some (.all n)
  | .dim d => (h.get d).size

/-- Sizes of one object from those of the operands. -/
def calcSize (h : Heap) (o : Op) (a : Nat) (b : Arg) : Option Size :=
  match (h.get a).size, argSize h b with
  | some x, some y => some (combine o x y)
  | _, _ => none

/-- The sizes to store. -/
def Size.toList? : Size → Option (List Nat)
  | .all _ => none
  | .each l => some l

/-- `complete_dyn_size` for an operand which may be a number. -/
def completeArg (f : Heap → Nat → Heap) (h : Heap) : Arg → Heap
  | .int _ => h
  | .dim d => f h d

/-- Stores the sizes. -/
def store (h : Heap) (d : Nat) (s : Option Size) : Heap :=
  match s with
  | some (.each l) => h.put d { h.get d with sizes := some l }
  | _ => h

/-- `complete_dyn_size` (_dim_extra.py 1099-1290): nothing to do for static dims and if there are sizes already; otherwise first for the
inputs of the operation, then the sizes are calculated.  The first argument bounds the depth; inputs are older objects. -/
def complete : Nat → Heap → Nat → Heap
  | 0, h, _ => h
  | fuel + 1, h, d =>
    if (h.get d).static.isSome then h
    else if (h.get d).sizes.isSome then h
    else match (h.get d).op with
      | none => h
      | some (o, a, b) =>
        let h1 := complete fuel h a
        let h2 := completeArg (complete fuel) h1 b
        store h2 d (calcSize h2 o a b)

/-- Reading the sizes of a dim. -/
def read (h : Heap) (d : Nat) : Heap := complete (d + 1) h d

/-- The static size of a new dim (`_math_get_dim_via_bin_op` 2343-2346, `new_div_dim` 2650-2670). -/
def staticOf (h : Heap) (o : Op) (a : Nat) (b : Arg) : Option Nat :=
  match (h.get a).static, b with
  | some x, .int n => some (o.app x n)
  | some x, .dim d => (h.get d).static.map (fun y => o.app x y)
  | none, _ => none

/-- `_CacheDimMath.get` (2966-2974). -/
def lookup (c : List ((Op × Arg) × Nat)) (k : Op × Arg) : Option Nat := (c.find? (fun e => e.1 == k)).map Prod.snd

/-- Whether two keys are in the same dict of `_CacheDimMath`: the same operation, and both operands numbers or both dims. -/
def sameDict (k k' : Op × Arg) : Bool :=
  match k.2, k'.2 with
  | .int _, .int _ => decide (k.1 = k'.1)
  | .dim _, .dim _ => decide (k.1 = k'.1)
  | _, _ => false

/-- `_CacheDimMath.__setitem__` (2927-2939) for a key which is not there: a dict with five entries is cleared first. -/
def insert (c : List ((Op × Arg) × Nat)) (k : Op × Arg) (v : Nat) : List ((Op × Arg) × Nat) :=
  if 5 ≤ (c.filter (fun e => sameDict e.1 k)).length then c.filter (fun e => !sameDict e.1 k) ++ [(k, v)] else c ++ [(k, v)]

/-- The operators on dims, like `__add__` and `__mul__` (_dim_extra.py 2077-2280): the cached result, or a new dim. -/
def derive (h : Heap) (o : Op) (a : Nat) (b : Arg) : Heap × Nat :=
  match lookup (h.get a).cache (o, b) with
  | some d => (read h d, d)
  | none =>
    let d := h.objs.length
    let new : Obj := { static := staticOf h o a b, op := some (o, a, b) }
    let h1 : Heap := { objs := h.objs ++ [new] }
    (h1.put a { h1.get a with cache := insert (h1.get a).cache (o, b) d }, d)

/-- `reset_raw` (_dim_extra.py 373-409) for a dynamic dim.  The cache is cleared before the loop over its values, so that no other dim
is visited. -/
def reset (h : Heap) (d : Nat) : Heap := h.put d { h.get d with sizes := none, cache := [] }

/-- One entry of the extern data: its name and its dims after the batch dim. -/
structure Template where
  key : String
  dims : List Nat

/-- One entry of the batch: its shape after the batch axis, and `key:seq_len`. -/
structure Raw where
  shape : List Nat
  seqLen : Option (List Nat)

/-- `_get_dyn_dims_from_extern_data` (extern_data.py 155-163). -/
def dynDims (h : Heap) (ts : List Template) : List Nat :=
  dedup ((ts.flatMap Template.dims).filter (fun d => (h.get d).static.isNone))
where
  /-- Every dim once. -/
  dedup (l : List Nat) : List Nat := l.foldl (fun acc d => if acc.contains d then acc else acc ++ [d]) []

/-- The check of the shape (extern_data.py 52-58). -/
def shapeOk (h : Heap) (dims shape : List Nat) : Bool :=
  decide (dims.length = shape.length) && (dims.zip shape).all (fun p => match (h.get p.1).static with
    | some n => decide (n = p.2)
    | none => true)

/-- The sizes of the first axis after the batch axis (extern_data.py 76-94). -/
def setTime (h : Heap) (dims : List Nat) (r : Raw) : Res Heap :=
  match dims with
  | [] => .ok h
  | d :: _ =>
    if (h.get d).static.isNone && (h.get d).sizes.isNone then
      match r.seqLen with
      | none => .error .assertion
      | some l => .ok (h.put d { h.get d with sizes := some l })
    else .ok h

/-- One entry (extern_data.py 49-96). -/
def setEntry (raw : Dict String Raw) (h : Heap) (t : Template) : Res Heap := do
  let r ← raw.getItem t.key
  if shapeOk h t.dims r.shape then setTime h t.dims r else .error .assertion

/-- `raw_dict_to_extern_data` (extern_data.py 28-98). -/
def startStep (ts : List Template) (raw : Dict String Raw) (h : Heap) : Res Heap :=
  ts.foldlM (setEntry raw) ((dynDims h ts).foldl reset h)

end Verif.StepDims
