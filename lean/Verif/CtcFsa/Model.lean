import Verif.CtcFsa.Spec
/-
Model of `get_ctc_fsa_fast_bw` (util/fsa.py 1151-1221) and of the native op `GetCtcFsaFastBwOp` (native_op.py 4847-5202).

Simplifications: a row of `targets` is a list, indices into it are in range by the checks on `seq_lens`; weights are all zero and left out.
Native op: each index of `edges` is written by exactly one thread, so threads are not modelled.
-/
namespace Verif.CtcFsa
open Verif.Py

variable {A : Type} [DecidableEq A]

/-! ### util/fsa.py -/

/-- 1193-1199: skip over blank. -/
def skipEdges (blank : A) (row : List A) (L b s i : Nat) : List (Edge A) :=
  if i + 1 ≠ L ∧ row.getD i blank ≠ row.getD (i + 1) blank then
    ⟨s + 1, s + 3, row.getD (i + 1) blank, b⟩ :: (if i + 2 = L then [⟨s + 1, s + 5, row.getD (i + 1) blank, b⟩] else [])
  else []

/-- 1181-1213: the edges for one label; `s` is `state_idx` before. -/
def labelEdges (blank : A) (row : List A) (L b s i : Nat) : List (Edge A) :=
  [⟨s, s + 1, row.getD i blank, b⟩] ++ (if i + 1 = L then [⟨s, s + 3, row.getD i blank, b⟩] else []) ++
  [⟨s + 1, s + 1, row.getD i blank, b⟩, ⟨s + 1, s + 2, blank, b⟩] ++ skipEdges blank row L b s i ++
  (if i + 1 = L then [⟨s + 1, s + 3, row.getD i blank, b⟩, ⟨s + 1, s + 3, blank, b⟩] else []) ++
  [⟨s + 2, s + 2, blank, b⟩] ++ (if i + 1 = L then [⟨s + 2, s + 3, blank, b⟩] else [])

/-- 1180-1213: `n` more labels from label `i`; the edges and `state_idx`. -/
def labelsFrom (blank : A) (row : List A) (L b : Nat) : Nat → Nat → Nat → List (Edge A) × Nat
  | 0, _, s => ([], s)
  | n + 1, i, s =>
    let r := labelsFrom blank row L b n (i + 1) (s + 2 + (if i + 1 = L then 1 else 0))
    (labelEdges blank row L b s i ++ r.1, r.2)

/-- 1176-1216: the sequences from index `b` on. -/
def seqsFrom (blank : A) (nTime : Nat) : List (List A × Nat) → Nat → Nat → Res (Fsa A)
  | [], _, _ => .ok ⟨[], []⟩
  | q :: qs, b, s =>
    if q.2 ≤ nTime then
      let r := labelsFrom blank q.1 q.2 b q.2 0 s
      (seqsFrom blank nTime qs (b + 1) (r.2 + 1)).bind (fun f => .ok ⟨(⟨s, s, blank, b⟩ :: r.1) ++ f.edges, (s, r.2) :: f.startEnd⟩)
    else .error .assertion

/-- 1151-1221 `get_ctc_fsa_fast_bw`; without sequences the arrays have the wrong shape. -/
def getCtcFsa (targets : List (List A)) (nTime : Nat) (seqLens : List Nat) (blank : A) : Res (Fsa A) :=
  if seqLens.length = targets.length ∧ targets ≠ [] then seqsFrom blank nTime (targets.zip seqLens) 0 0 else .error .assertion

/-! ### native_op.py -/

/-- An edge relative to the states of the sequence: from, to, emission. -/
abbrev RelEdge (A : Type) := Nat × Nat × A

/-- 4952-4970: no labels. -/
def kernel0 (blank : A) (rel : Nat) : RelEdge A :=
  if rel = 0 then (0, 0, blank)
  else if rel = 1 then (0, 2, blank)
  else (1, 1, blank)

/-- 4971-5029: one label. -/
def kernel1 (loop : Bool) (blank : A) (row : List A) (rel : Nat) : RelEdge A :=
  let label := row.getD 0 blank
  if rel < 3 then
    if rel = 0 then (0, 0, blank)
    else if rel = 1 then (0, 1, label)
    else (0, 4, label)
  else if rel < 7 then
    if rel - 3 = 0 then (1, if loop then 1 else 3, label)
    else if rel - 3 = 1 then (1, 2, blank)
    else if rel - 3 = 2 then (1, if loop then 4 else 3, label)
    else (1, 4, blank)
  else if rel < 9 then
    if rel - 7 = 0 then (2, 2, blank) else (2, 4, blank)
  else (3, 3, blank)

/-- 5032-5069: edges up to the label before the last. -/
def kernelInner (loop : Bool) (blank : A) (row : List A) (L rel : Nat) : RelEdge A :=
  let t := rel / 5
  let label := row.getD t blank
  let next := row.getD (t + 1) blank
  if rel % 5 < 2 then
    if rel % 5 = 0 then (2 * t, 2 * t, blank) else (2 * t, 2 * t + 1, label)
  else
    if rel % 5 - 2 = 0 then (2 * t + 1, if loop then 2 * t + 1 else L * 2 + 1, label)
    else if rel % 5 - 2 = 1 then (2 * t + 1, 2 * t + 2, blank)
    else if label ≠ next ∨ loop = false then (2 * t + 1, 2 * t + 3, next)
    else (2 * t + 1, L * 2 + 1, blank)

/-- 5030-5141: at least two labels. -/
def kernel2 (loop : Bool) (blank : A) (row : List A) (L rel : Nat) : RelEdge A :=
  let last := row.getD (L - 1) blank
  if rel < 5 * (L - 1) then kernelInner loop blank row L rel
  else if rel = 5 * (L - 1) then
    if row.getD (L - 2) blank ≠ row.getD (L - 2 + 1) blank ∨ loop = false then ((L - 2) * 2 + 1, L * 2 + 2, row.getD (L - 2 + 1) blank)
    else ((L - 2) * 2 + 1, L * 2 + 1, blank)
  else if rel ≤ 5 * (L - 1) + 3 then
    if rel - (5 * (L - 1) + 1) = 0 then ((L - 1) * 2, (L - 1) * 2, blank)
    else if rel - (5 * (L - 1) + 1) = 1 then ((L - 1) * 2, (L - 1) * 2 + 1, last)
    else ((L - 1) * 2, L * 2 + 2, last)
  else if rel ≤ 5 * (L - 1) + 7 then
    if rel - (5 * (L - 1) + 4) = 0 then ((L - 1) * 2 + 1, if loop then (L - 1) * 2 + 1 else L * 2 + 1, last)
    else if rel - (5 * (L - 1) + 4) = 1 then ((L - 1) * 2 + 1, (L - 1) * 2 + 1 + 1, blank)
    else if rel - (5 * (L - 1) + 4) = 2 then ((L - 1) * 2 + 1, if loop then L * 2 + 2 else L * 2 + 1, last)
    else ((L - 1) * 2 + 1, L * 2 + 2, blank)
  else if rel ≤ 5 * (L - 1) + 9 then
    if rel - (5 * (L - 1) + 8) = 0 then ((L - 1) * 2 + 2, (L - 1) * 2 + 2, blank) else ((L - 1) * 2 + 2, L * 2 + 2, blank)
  else (L * 2 + 1, L * 2 + 1, blank)

/-- 4932-5149: one edge of a sequence. -/
def kernelEdge (loop : Bool) (blank : A) (row : List A) (L rel : Nat) : RelEdge A :=
  if L = 0 then kernel0 blank rel
  else if L = 1 then kernel1 loop blank row rel
  else kernel2 loop blank row L rel

/-- 4930-4934, 5143-5146: the edge at index `idx`, with `per` edges per sequence. -/
def nativeEdge (loop : Bool) (blank : A) (targets : List (List A)) (nTime : Nat) (seqLens : List Nat) (per idx : Nat) : Edge A :=
  let b := idx / per
  let e := kernelEdge loop blank (targets.getD b []) (seqLens.getD b 0) (idx % per)
  let off := (nTime * 2 + 3) * b
  ⟨off + e.1, off + e.2.1, e.2.2, b⟩

/-- `GetCtcFsaFastBwOp`, with `n_batch * (5 * (n_time - 1) + 10)` edges (tf/native_op.py 1499; as natural numbers `5 * n_time + 5`). -/
def nativeFsa (loop : Bool) (targets : List (List A)) (nTime : Nat) (seqLens : List Nat) (blank : A) : Res (Fsa A) :=
  if seqLens.length = targets.length then
    .ok ⟨(List.range (targets.length * (5 * nTime + 5))).map (nativeEdge loop blank targets nTime seqLens (5 * nTime + 5)),
         (List.range targets.length).map (fun b => ((nTime * 2 + 3) * b, (nTime * 2 + 3) * b + (seqLens.getD b 0 * 2 + 2)))⟩
  else .error .assertion

end Verif.CtcFsa
