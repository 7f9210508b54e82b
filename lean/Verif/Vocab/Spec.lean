import Verif.Vocab.Model
/-
Specification of vocabularies.
-/
namespace Verif.Vocab

/-- A label which survives whitespace tokenization. -/
def IsWord (s : Str) : Prop := s ≠ [] ∧ ∀ c ∈ s, isSpace c = false

/-- Every id has its label: the list gives the label of the id, and the dict gives the id of that label. -/
def Consistent (V : Vocab) : Prop := ∀ (i : Nat) (l : Str), V.labels[i]? = some l → V.vocab.get? l = some (i : Int)

/-- The dict has exactly the labels of the list, with the right ids. -/
def Bijective (V : Vocab) : Prop := ∀ (i : Int) (l : Str), V.vocab.get? l = some i ↔ 0 ≤ i ∧ V.labels[i.toNat]? = some l

end Verif.Vocab
