/-
Specification vocabulary for the sequence ordering properties. Independent of the model.
-/
namespace Verif.SeqOrder.Spec

/-- `l` is sorted by `key`, and equal keys keep the corpus order (ascending index). -/
def StableSorted (key : Nat → Int) (l : List Nat) : Prop :=
  l.Pairwise (fun i j => key i < key j ∨ (key i = key j ∧ i < j))

/-- The keys do not decrease along `l`. -/
def Ascending (key : Nat → Int) (l : List Nat) : Prop := l.Pairwise (fun i j => key i ≤ key j)

/-- The keys do not increase along `l`. -/
def Descending (key : Nat → Int) (l : List Nat) : Prop := l.Pairwise (fun i j => key i ≥ key j)

/-- Number of the full epoch (counting from 0) to which the (1-based) epoch `e` belongs. -/
def fullEpoch (P : Nat) (e : Nat) : Nat := (e - 1) / P

/-- Keep the first element of every tag. -/
def FirstOfEachTag {Tag : Type} (tag : Nat → Tag) (l out : List Nat) : Prop :=
  out.Sublist l ∧ (out.map tag).Nodup ∧
  ∀ pre i post, l = pre ++ i :: post → (i ∈ out ∨ ∃ j ∈ pre, tag j = tag i)

/-- The tag of corpus seq `i` is one of `flt`. -/
def tagIn {Tag : Type} [DecidableEq Tag] (tags flt : List Tag) (i : Nat) : Bool :=
  match tags[i]? with
  | some t => decide (t ∈ flt)
  | none => false

end Verif.SeqOrder.Spec
