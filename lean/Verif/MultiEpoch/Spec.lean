/-
Specification of `MultiEpochDataset`. Independent of the model.
-/
namespace Verif.MultiEpoch.Spec

/-- The sequences of the inner epochs `(e - 1) * m + 1, .., e * m`, one after the other. -/
def wanted {α : Type} (inner : Option Int → List α) (m : Nat) (e : Int) : List α :=
  (List.range m).flatMap (fun j : Nat => inner (some ((e - 1) * m + 1 + j)))

/-- Requests as the base class makes them if no sequence is skipped: always the next sequence, and after the end any index
after the end, as often as one likes. `next` is the number of sequences so far, `total` of all sequences. -/
def Legit (total : Nat) : Nat → List Nat → Prop
  | _, [] => True
  | next, i :: is => (i = next ∧ next < total ∧ Legit total (next + 1) is) ∨ (total ≤ i ∧ next = total ∧ Legit total next is)

end Verif.MultiEpoch.Spec
