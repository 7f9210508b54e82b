import Verif.TransData.Model
/-
What `TranslationDataset` is about.
-/
namespace Verif.TransData
open Verif Verif.Py

/-- A corpus which can be used: all files have as many lines as the source file, and all lines can be processed. -/
def GoodCorpus {Line D : Type} (c : Corpus Line D) : Prop :=
  ∀ k ∈ c.keys, (c.file k).length = (c.file .source).length ∧ ∀ l ∈ c.file k, ∃ d, c.proc k l = some d

/-- `d` is what line number `i` of the file of `k` stands for. -/
def IsLine {Line D : Type} (c : Corpus Line D) (k : Key) (i : Nat) (d : D) : Prop := ∃ l, (c.file k)[i]? = some l ∧ c.proc k l = some d

/-- The tag of a line. -/
def tag (n : Nat) : List Nat := [108, 105, 110, 101, 45] ++ str n

end Verif.TransData
