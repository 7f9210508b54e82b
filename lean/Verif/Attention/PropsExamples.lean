import Verif.Attention.PropsRun
import Mathlib.Data.Rat.Defs
import Mathlib.Algebra.Field.Rat
/-!
Concrete cases: two heads, key dim 2, value dim 1, all kinds of self attention; batches with different lengths and garbage in the padding; a decoder with two layers and cross attention.
`exp` is replaced by `x ↦ 1 + x²` here.
-/

namespace Verif.Attention.Ex
open Verif.Py Verif.RfSeq Verif.Attention

def ex (x : ℚ) : ℚ := 1 + x * x

/-- The features of a frame are [x, y]; the layer gives 2 heads of q (2), k (2), v (1). -/
def lin (x : Frame ℚ) : Frame ℚ :=
  let a := x.getD 0 0
  let b := x.getD 1 0
  [a, b, b, a, a + b, a - b, b, 2 * a, b, a]

def att : Att ℚ := { H := 2, dk := 2, dv := 1, scale := 1 / 2, qkv := lin, proj := id }

def pe (p : Nat) : List ℚ := [p, 1 - p]

def emb (i : Int) : Heads ℚ := [[i, 1], [2, i]]

def rel : Kind ℚ := .rel (some [[1, 0], [0, 1]]) none emb

/-- Two sequences, of lengths 2 and 3, with garbage in the padding. -/
def x : Padded (Frame ℚ) := { T := 3, masked := true, seqs := [(2, [[1, 2], [3, 4], [77, 78]]), (3, [[1, 0], [0, 1], [1, 1]])] }

example : x.Ok := by unfold Padded.Ok; decide

def outOf (r : Res (Padded (Frame ℚ) × State ℚ)) : List (List (Frame ℚ)) := match r with | .ok p => p.1.valid | .error _ => []
def stepsOf (r : Res (List (List (Frame ℚ)) × State ℚ)) : List (List (Frame ℚ)) := match r with | .ok p => p.1 | .error _ => []
def stateOf (r : Res (Padded (Frame ℚ) × State ℚ)) : State ℚ := match r with | .ok p => p.2 | .error _ => initState ℚ 2

/-- The frames of sequence `b` of `x`, then of the steps. -/
def f (b : Nat) : List (Frame ℚ) := if b = 0 then [[1, 2], [3, 4]] else [[1, 0], [0, 1], [1, 1]]

example : x.valid = batch 2 f := by decide

/-- The sequences, as single steps. -/
def steps : List (Nat → Frame ℚ) := [fun b => if b = 0 then [1, 2] else [1, 0], fun b => if b = 0 then [3, 4] else [0, 1]]

example : (outOf (callSeq ex att rel x none (some (initState ℚ 2)))).map (fun l => l.take 2) =
    [(stepsOf (attSteps ex att rel (steps.map (batch 2)) (initState ℚ 2))).map (fun l => l.getD 0 []), (stepsOf (attSteps ex att rel (steps.map (batch 2)) (initState ℚ 2))).map (fun l => l.getD 1 [])] := by
  decide +kernel

example : outOf (callSeq ex att rel x none none) = [[[3, 1], [7715 / 1201, 113 / 39]], [[1, 1], [1, 29 / 33], [13 / 8, 16 / 21]]] := by decide +kernel
example : outOf (callSeq ex att .plain x none none) = [[[3, 1], [1093 / 171, 22 / 9]], [[1, 1], [1, 8 / 13], [13 / 9, 9 / 14]]] := by decide +kernel
example : outOf (callSeq ex att (.rope pe) x none none) = [[[3, 1], [143 / 21, 2]], [[1, 1], [1, 8 / 13], [109 / 57, 49 / 57]]] := by decide +kernel

/-- A sequence, then two steps. -/
example : stepsOf (attSteps ex att (.rope pe) (steps.map (batch 2)) (stateOf (callSeq ex att (.rope pe) x none none))) =
    [[[3127 / 737, 187 / 113], [40 / 23, 993 / 1001]], [[120931 / 17929, 1749 / 650], [528 / 443, 1749 / 2383]]] := by decide +kernel

example : causal ex att (.rope pe) [[1, 0], [0, 1], [1, 1], [1, 0], [0, 1]] 4 = [528 / 443, 1749 / 2383] := by decide +kernel

/-- Relative positions without a causal mask. -/
example : (match callFull ex att rel x with | .ok o => o.valid | .error _ => []) = [(List.range 2).map (fun t => attend ex att rel [[1, 2], [3, 4]] 2 t), (List.range 3).map (fun t => attend ex att rel [[1, 0], [0, 1], [1, 1]] 3 t)] := by
  decide +kernel

def cross : Cross ℚ where
  H := 1
  dk := 1
  dv := 2
  scale := 1
  kv := fun x => [x.getD 0 0, 1, x.getD 1 0]
  q := fun x => [x.getD 0 0]
  proj := id

/-- A layer with cross attention. -/
def layer (kind : Kind ℚ) : Layer ℚ where
  saLn := fun x => x.map (fun y => 2 * y)
  att := att
  kind := kind
  cross := some (fun x => x, cross)
  ffLn := id
  ff := fun x => x.reverse

def dec : Dec ℚ where
  embed := fun (l : Nat) => [(l : ℚ), 1]
  embScale := 3
  posEnc := some (fun (p : Nat) => [(p : ℚ), 0])
  inProj := id
  layers := [layer rel, layer .plain]
  outLn := id
  logits := fun x => [x.getD 0 0]

/-- Encoder output of the two sequences, of lengths 1 and 2. -/
def enc : Padded (Frame ℚ) := { T := 2, masked := true, seqs := [(1, [[1, 2], [55, 66]]), (2, [[1, 1], [2, 0]])] }

def labels : Padded Nat := { T := 2, masked := true, seqs := [(1, [5, 99]), (2, [1, 4])] }

def encs : Option (List (Option (Enc ℚ))) := match decEncoder dec enc with | .ok e => some e | .error _ => none

def seqOut (r : Res (Padded (Frame ℚ) × DecState ℚ)) : List (List (Frame ℚ)) := match r with | .ok p => p.1.valid | .error _ => []
def seqSt (r : Res (Padded (Frame ℚ) × DecState ℚ)) : DecState ℚ := match r with | .ok p => p.2 | .error _ => { pos := [], layers := [] }
def decOut (r : Res (List (List (Frame ℚ)) × DecState ℚ)) : List (List (Frame ℚ)) := match r with | .ok p => p.1 | .error _ => []

example : enc.Ok ∧ labels.Ok := by unfold Padded.Ok; decide
example : enc.valid = batch 2 (fun b => if b = 0 then [[1, 2]] else [[1, 1], [2, 0]]) := by decide
example : ∃ es, decEncoder dec enc = .ok es := ⟨_, rfl⟩

/-- Labels as a sequence, then a step: the same as the specification on all labels. -/
example : decOut (decSteps ex dec encs [[3, 2]] (seqSt (decSeq ex dec encs labels none (decInit dec 2)))) =
    [[(decSpec ex dec [[1, 2]] [5, 3]).getD 1 [], (decSpec ex dec [[1, 1], [2, 0]] [1, 4, 2]).getD 2 []]] := by decide +kernel

example : seqOut (decSeq ex dec encs labels none (decInit dec 2)) = [decSpec ex dec [[1, 2]] [5], decSpec ex dec [[1, 1], [2, 0]] [1, 4]] := by decide +kernel

example : (seqOut (decSeq ex dec encs labels none (decInit dec 2))).map (fun l => l.take 1) = [[[699]], [[23045663796655863 / 113635004711641]]] := by decide +kernel

end Verif.Attention.Ex
