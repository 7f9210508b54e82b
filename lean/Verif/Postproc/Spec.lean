import Verif.Postproc.Model
import Mathlib.Data.List.Forall2
import Mathlib.Data.Rat.Defs
/-
What a user of `PostprocessingDataset` expects.
-/
namespace Verif.Postproc

open Verif.Py

variable {V R : Type}

/-- The function is applied to the sequences in their order, the random state going from one call to the next. -/
inductive Mapped (f : Nat → Nat → R → TD V → Res (TD V × R)) (epoch : Nat) : List (Seq V) → Nat → R → List (TD V) → Prop where
  | nil (i : Nat) (rng : R) : Mapped f epoch [] i rng []
  | cons {s : Seq V} {r : List (Seq V)} {i : Nat} {rng rng' : R} {t : TD V} {ts : List (TD V)}
      (h : f epoch i rng ⟨s.data, some s.frac, some s.tag⟩ = .ok (t, rng')) (hr : Mapped f epoch r (i + 1) rng' ts) :
      Mapped f epoch (s :: r) i rng (t :: ts)

/-- What is expected for sequence `i`, `s` in the wrapped dataset, which was mapped to `t`: what the function gives, and tag and
fraction of the wrapped dataset if it gives none. -/
def expected (i : Nat) (s : Seq V) (t : TD V) : DSeq V := ⟨i, t.tag.getD s.tag, t.data, t.frac.getD s.frac⟩

/-- Fractions of an epoch: between 0 and 1, and not going down. -/
def Fracs (l : List Rat) : Prop := (∀ x ∈ l, 0 ≤ x ∧ x ≤ 1) ∧ l.Pairwise (· ≤ ·)

/-- The expected sequences of an epoch. -/
def expectedAll : Nat → List (Seq V) → List (TD V) → List (DSeq V)
  | i, s :: ss, t :: ts => expected i s t :: expectedAll (i + 1) ss ts
  | _, _, _ => []

end Verif.Postproc
