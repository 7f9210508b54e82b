import Verif.Util.Py
/-
What a CTC FSA means: strings (one symbol per frame) and the labels they stand for; paths in an FSA given by its edges.
-/
namespace Verif.CtcFsa

/-- Merge repeated symbols. -/
def squash {A : Type} [DecidableEq A] : List A → List A
  | [] => []
  | [a] => [a]
  | a :: b :: l => if a = b then squash (b :: l) else a :: squash (b :: l)

/-- The labels of a string. CTC: merge repetitions, then remove blanks. Without label loop (RNA): only remove blanks. -/
def labels {A : Type} [DecidableEq A] (loop : Bool) (blank : A) (w : List A) : List A :=
  (if loop then squash w else w).filter (fun a => decide (a ≠ blank))

/-- An edge: from, to, emission, index of the sequence in the batch. -/
structure Edge (A : Type) where
  src : Nat
  dst : Nat
  label : A
  seq : Nat
  deriving DecidableEq

/-- All edges, and (start, end) of each sequence in the batch. -/
structure Fsa (A : Type) where
  edges : List (Edge A)
  startEnd : List (Nat × Nat)

/-- `p` (indices of edges) is a path from `s` to `t` which emits `w`. -/
def IsPath {A : Type} (edges : List (Edge A)) : Nat → List A → List Nat → Nat → Prop
  | s, [], [], t => s = t
  | s, a :: w, e :: p, t => ∃ x, edges[e]? = some x ∧ x.src = s ∧ x.label = a ∧ IsPath edges x.dst w p t
  | _, _, _, _ => False

/-- In the FSA of sequence `b`, the strings in `P` have exactly one path from start to end, all others none; only edges of the sequence are used. -/
def ExactlyOnePath {A : Type} (f : Fsa A) (b : Nat) (P : List A → Prop) : Prop :=
  ∃ s t, f.startEnd[b]? = some (s, t) ∧ ∀ w,
    (P w → ∃ p, IsPath f.edges s w p t ∧ (∀ e ∈ p, ∃ x, f.edges[e]? = some x ∧ x.seq = b) ∧ ∀ p', IsPath f.edges s w p' t → p' = p) ∧
    (¬ P w → ∀ p, ¬ IsPath f.edges s w p t)

end Verif.CtcFsa
