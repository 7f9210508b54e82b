import Verif.Util.Dict
/-
Model of the allophone states of `returnn/datasets/lm.py`: `AllophoneState`, `StateTying`, the context and the states of `PhoneSeqGenerator`.

Simplifications for the whole file:
* a phone is a list of character codes;
* the phones of a sequence are all in the lexicon, and what the lexicon says about them is a function;
* random decisions are given: how often a state is repeated.
-/
namespace Verif.Allo
open Verif Verif.Py

abbrev Phone := List Nat

/-- `AllophoneState`. /repo/returnn/datasets/lm.py:790-809. -/
structure Allo where
  id : Phone
  hist : List Phone
  fut : List Phone
  boundary : Nat
  state : Option Nat
deriving DecidableEq

/-- `AllophoneState()` with an id. /repo/returnn/datasets/lm.py:795-809. -/
def Allo.new (id : Phone) : Allo := ⟨id, [], [], 0, none⟩

/-- `mark_initial`. /repo/returnn/datasets/lm.py:838-842. -/
def Allo.markInitial (a : Allo) : Allo := { a with boundary := a.boundary ||| 1 }

/-- `mark_final`. /repo/returnn/datasets/lm.py:844-848. -/
def Allo.markFinal (a : Allo) : Allo := { a with boundary := a.boundary ||| 2 }

/-- `phoneme`. /repo/returnn/datasets/lm.py:850-887. -/
def Allo.phoneme (a : Allo) (off : Int) : Option Phone :=
  if off = 0 then some a.id
  else if off > 0 then a.fut[(off - 1).toNat]?
  else a.hist[(-off - 1).toNat]?

/-- `set_phoneme`. /repo/returnn/datasets/lm.py:889-902. -/
def Allo.setPhoneme (a : Allo) (off : Int) (p : Phone) : Res Allo :=
  if off = 0 then .ok { a with id := p }
  else if off > 0 then do
    pyAssert ((off - 1).toNat == a.fut.length)
    .ok { a with fut := a.fut ++ [p] }
  else do
    pyAssert ((-off - 1).toNat == a.hist.length)
    .ok { a with hist := a.hist ++ [p] }

/-- `phone_idx`. /repo/returnn/datasets/lm.py:904-914. -/
def Allo.phoneIdx (a : Allo) (off : Int) (idxs : Dict Phone Nat) : Res Nat :=
  match a.phoneme off with
  | none => .ok 0
  | some p =>
    match idxs.get? p with
    | none => .error .keyError
    | some i => .ok (i + 1)

/-- The position of loop index `i`: 0, -1, 1, -2, 2, ... /repo/returnn/datasets/lm.py:934-936, 993-995. -/
def pos (i : Nat) : Int := if i % 2 = 1 then -((i / 2 : Nat) : Int) - 1 else ((i / 2 : Nat) : Int)

/-- `max(l)`. -/
def pyMax : List Nat → Res Nat
  | [] => .error .valueError
  | a :: t => .ok (t.foldl max a)

/-- The loop of `index` over the positions. /repo/returnn/datasets/lm.py:932-938. -/
def indexLoop (a : Allo) (idxs : Dict Phone Nat) (base : Nat) : List Nat → Nat → Res Nat
  | [], result => .ok result
  | i :: t, result => do
    let p ← a.phoneIdx (pos i) idxs
    indexLoop a idxs base t (result * base + p)

/-- `index`. /repo/returnn/datasets/lm.py:916-943. -/
def Allo.index (a : Allo) (idxs : Dict Phone Nat) (numStates ctxLen : Nat) : Res Nat := do
  pyAssert (max a.hist.length a.fut.length ≤ ctxLen)
  pyAssert (a.boundary < 4)
  match a.state with
  | none => .error .typeError
  | some s => do
    pyAssert (s < numStates)
    let n ← pyMax idxs.values
    let result ← indexLoop a idxs (n + 1 + 1) (List.range (2 * ctxLen + 1)) 0
    .ok ((result * numStates + s) * 4 + a.boundary)

/-- The phone of a number in an index. /repo/returnn/datasets/lm.py:998. -/
def phoneOf (ids : Dict Nat Phone) (i : Nat) : Res Phone :=
  if i = 0 then .ok [] else
  match ids.get? (i - 1) with
  | none => .error .keyError
  | some p => .ok p

/-- The loop of `from_index`. /repo/returnn/datasets/lm.py:992-998. -/
def fromLoop (ids : Dict Nat Phone) (base : Nat) : List Nat → Nat → Allo → Res Allo
  | [], _, a => .ok a
  | i :: t, code, a => do
    let p ← phoneOf ids (code % base)
    let a ← a.setPhoneme (pos i) p
    fromLoop ids base t (code / base) a

/-- `from_index`. /repo/returnn/datasets/lm.py:945-999. -/
def fromIndex (index : Nat) (ids : Dict Nat Phone) (numStates ctxLen : Nat) : Res Allo := do
  let n ← pyMax ids.keys
  fromLoop ids (n + 1 + 1) (List.range (2 * ctxLen + 1)) (index / 4 / numStates) ⟨[], [], [], index % 4, some (index / 4 % numStates)⟩

/-- The loop of `from_classic_index`, `k` more states are possible. /repo/returnn/datasets/lm.py:1018-1024. -/
def classicLoop : Nat → Nat → Nat → Nat × Nat
  | 0, emission, state => (emission, state)
  | k + 1, emission, state => if 2 ^ 26 ≤ emission then classicLoop k (emission - 2 ^ 26) (state + 1) else (emission, state)

/-- `from_classic_index`. /repo/returnn/datasets/lm.py:1001-1027. -/
def fromClassic (index : Nat) (allos : Dict Nat Allo) (maxStates : Nat) : Res Allo :=
  match allos.get? (classicLoop maxStates index 0).1 with
  | none => .error .keyError
  | some a => .ok { a with state := some (classicLoop maxStates index 0).2 }

/-! ## Context -/

/-- `l[-n:]`. -/
def lastN {α : Type} (n : Nat) (l : List α) : List α := if n = 0 then l else l.drop (l.length - n)

/-- The first loop of `_allos_set_context`. /repo/returnn/datasets/lm.py:1308-1315. -/
def histLoop (isCtx : Phone → Bool) (n : Nat) : List Phone → List Allo → List Allo
  | _, [] => []
  | ctx, a :: t =>
    if isCtx a.id then { a with hist := ctx } :: histLoop isCtx n (lastN n (ctx ++ [a.id])) t
    else a :: histLoop isCtx n [] t

/-- The second loop of `_allos_set_context`, over the reversed list. /repo/returnn/datasets/lm.py:1316-1323. -/
def futLoop (isCtx : Phone → Bool) (n : Nat) : List Phone → List Allo → List Allo
  | _, [] => []
  | ctx, a :: t =>
    if isCtx a.id then { a with fut := ctx.reverse } :: futLoop isCtx n (lastN n (ctx ++ [a.id])) t
    else a :: futLoop isCtx n [] t

/-- `_allos_set_context`. /repo/returnn/datasets/lm.py:1302-1323. -/
def setContext (isCtx : Phone → Bool) (n : Nat) (allos : List Allo) : List Allo :=
  if n = 0 then allos
  else (futLoop isCtx n [] (histLoop isCtx n [] allos).reverse).reverse

/-! ## States -/

/-- Silence. /repo/returnn/datasets/lm.py:1271-1282. -/
def silence (phone : Phone) : Allo := { (Allo.new phone).markInitial.markFinal with state := some 0 }

/-- `_allos_add_states` for one allophone; `reps k` more times for the `k`-th state. /repo/returnn/datasets/lm.py:1284-1300. -/
def addStates (si : Phone) (numStates : Nat) (reps : Nat → Nat) (a : Allo) : List Allo :=
  if a.id = si then List.replicate (reps 0 + 1) (silence a.id)
  else (List.range numStates).flatMap (fun s => List.replicate (reps s + 1) ⟨a.id, a.hist, a.fut, a.boundary, some s⟩)

/-- The allophones of one word. /repo/returnn/datasets/lm.py:1333-1336. -/
def wordAllos (phones : List Phone) : Res (List Allo) :=
  match (phones.map Allo.new) with
  | [] => .error .indexError
  | a :: t =>
    let l := a.markInitial :: t
    .ok (l.modify (l.length - 1) Allo.markFinal)

/-- `allos += ...` for all words. /repo/returnn/datasets/lm.py:1331-1336. -/
def allWords : List (List Phone) → Res (List Allo)
  | [] => .ok []
  | w :: t => do
    let a ← wordAllos w
    let r ← allWords t
    .ok (a ++ r)

/-- `generate_seq`, given the pronunciations of the words and silences. `reps i k`: repetitions of state `k` of allophone `i`.
/repo/returnn/datasets/lm.py:1325-1340. -/
def generateSeq (isCtx : Phone → Bool) (si : Phone) (numStates ctxLen : Nat) (reps : Nat → Nat → Nat) (words : List (List Phone)) : Res (List Allo) := do
  let allos ← allWords words
  let allos := setContext isCtx ctxLen allos
  .ok ((allos.zipIdx).flatMap (fun p => addStates si numStates (reps p.2) p.1))

/-! ## State tying -/

/-- `StateTying`. -/
structure Tying where
  alloMap : Dict Phone Nat
  classMap : Dict Nat (List Phone)

/-- One line. /repo/returnn/datasets/lm.py:1116-1121. -/
def tyingStep (t : Tying) (line : Phone × Nat) : Res Tying := do
  pyAssert (!t.alloMap.contains line.1)
  .ok ⟨t.alloMap.set line.1 line.2, t.classMap.set line.2 (((t.classMap.get? line.2).getD []) ++ [line.1])⟩

/-- All lines. -/
def tyingLoop : List (Phone × Nat) → Tying → Res Tying
  | [], t => .ok t
  | x :: r, t => do
    let t ← tyingStep t x
    tyingLoop r t

/-- `min(l)`. -/
def pyMin : List Nat → Res Nat
  | [] => .error .valueError
  | a :: t => .ok (t.foldl min a)

/-- `StateTying.__init__`: a line is an allophone state and a class (not negative). /repo/returnn/datasets/lm.py:1110-1126. -/
def mkTying (lines : List (Phone × Nat)) : Res Tying := do
  let t ← tyingLoop lines ⟨[], []⟩
  let lo ← pyMin t.classMap.keys
  let hi ← pyMax t.classMap.keys
  pyAssert (lo == 0)
  pyAssert ((hi : Int) == (t.classMap.length : Int) - 1)
  .ok t

end Verif.Allo
