/-
Specification of `CombinedDataset`. Independent of the model.
-/
namespace Verif.Combined.Spec

/-- All sequences of the sub-datasets one after the other, every sequence with the number of its sub-dataset
(beginning with `d`). -/
def flatFrom {α : Type} : Nat → List (List α) → List (Nat × α)
  | _, [] => []
  | d, o :: rest => o.map (fun x => (d, x)) ++ flatFrom (d + 1) rest

/-- The default order: all sequences of the first sub-dataset, then of the second, ... -/
def flat {α : Type} (subs : List (List α)) : List (Nat × α) := flatFrom 0 subs

/-- How many sequences of the sub-dataset `d` there are in `l`. -/
def countOf {β : Type} (d : Nat) (l : List (Nat × β)) : Nat := l.countP (fun p => p.1 == d)

end Verif.Combined.Spec
