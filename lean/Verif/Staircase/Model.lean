import Verif.Util.Py
/-
Model of `fast_bw_fsa_staircase` (`returnn/util/fsa.py`).

Simplifications for the whole file: a skip limit of `None` is 0 (the code tests it by truth value only); the weights, which are all 0, are left out; the arrays are lists.
-/
namespace Verif.Staircase
open Verif Verif.Py

/-- `(from, to, emission_idx, sequence_idx)`, /repo/returnn/util/fsa.py:1245. -/
abbrev Edge := Nat × Nat × Nat × Nat

/-- The arguments for one sequence: length and limits, /repo/returnn/util/fsa.py:1237-1244. -/
structure Seq where
  len : Nat
  maxSkip : Nat := 0
  startMaxSkip : Nat := 0
  endMaxSkip : Nat := 0
  deriving DecidableEq

/-- `cur_max_skip` after its second line, /repo/returnn/util/fsa.py:1264-1266. -/
def skipStart (q : Seq) (i : Nat) : Nat := if i = 0 then q.startMaxSkip else 0

/-- And after the third, /repo/returnn/util/fsa.py:1267-1268. -/
def skipEnd (q : Seq) (i : Nat) : Nat :=
  if skipStart q i = 0 ∧ q.endMaxSkip ≠ 0 ∧ q.len ≤ i + q.endMaxSkip then q.endMaxSkip else skipStart q i

/-- `cur_max_skip`, /repo/returnn/util/fsa.py:1264-1270. -/
def curSkip (q : Seq) (i : Nat) : Nat := if skipEnd q i = 0 then q.maxSkip else skipEnd q i

/-- `j_max`, /repo/returnn/util/fsa.py:1271-1273. -/
def jMax (q : Seq) (i : Nat) : Nat := if curSkip q i = 0 then q.len else min q.len (i + curSkip q i)

/-- The edges to `j`, /repo/returnn/util/fsa.py:1278-1291. -/
def edgesTo (loop : Bool) (q : Seq) (off b i j : Nat) : List Edge :=
  if 0 < i then [(off + i, off + j, i, b)]
  else ((List.range j).filter fun t => decide (¬ (loop = true ∧ t = 0 ∧ j < q.len))).map (fun t => (off + i, off + j, t, b)) ++
    (if loop = true ∧ j < q.len then [(off + i, off + j, j, b)] else [])

/-- The edges from state `i`, /repo/returnn/util/fsa.py:1262-1292. -/
def edgesAt (loop : Bool) (q : Seq) (off b i : Nat) : List Edge :=
  (if loop then [(off + i, off + i, i, b)] else []) ++ (List.range' (i + 1) (jMax q i - i)).flatMap (edgesTo loop q off b i)

/-- The loop over the batch, /repo/returnn/util/fsa.py:1252-1295: edges, and start and end states. -/
def build (loop : Bool) : Nat → Nat → List Seq → Res (List Edge × List (Nat × Nat))
  | _, _, [] => .ok ([], [])
  | off, b, q :: qs => do
    if q.len = 0 then .error .assertion
    let (es, se) ← build loop (off + q.len + 1) (b + 1) qs
    .ok ((List.range q.len).flatMap (edgesAt loop q off b) ++ es, (off, off + q.len) :: se)

/-- `fast_bw_fsa_staircase`, /repo/returnn/util/fsa.py:1224-1301. -/
def staircase (loop : Bool) (qs : List Seq) : Res (List Edge × List (Nat × Nat)) := build loop 0 0 qs

end Verif.Staircase
