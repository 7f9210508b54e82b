import Verif.Bpe.Model
/-
Specification of byte pair encoding.
-/
namespace Verif.Bpe
open Verif.Py

/-- `a` and `b` are neighbours in the word. -/
def Adj (w : List Str) (a b : Str) : Prop := ∃ pre post, w = pre ++ a :: b :: post

/-- `w'` is `w` with all occurrences of the pair merged, from left to right. -/
inductive Merged (first second : Str) : List Str → List Str → Prop
  | nil : Merged first second [] []
  | hit {l l' : List Str} : Merged first second l l' →
      Merged first second (first :: second :: l) ((first ++ second) :: l')
  | skip {a : Str} {l l' : List Str} : ¬ (a = first ∧ l.head? = some second) → Merged first second l l' →
      Merged first second (a :: l) (a :: l')

/-- The pair comes first in the list of merge operations, of all pairs in the word. -/
def First (lines : List (Str × Str)) (w : List Str) (a b : Str) : Prop :=
  Adj w a b ∧ ∃ before after, lines = before ++ (a, b) :: after ∧ ∀ p ∈ before, ¬ Adj w p.1 p.2

/-- Byte pair encoding: merge the pair which comes first in the list, as long as there is one. -/
inductive Encodes (lines : List (Str × Str)) : List Str → List Str → Prop
  | done {w : List Str} : (∀ p ∈ lines, ¬ Adj w p.1 p.2) → Encodes lines w w
  | step {w w' out : List Str} {a b : Str} : First lines w a b → Merged a b w w' → Encodes lines w' out →
      Encodes lines w out

/-- A codes file: no empty items, and the end-of-word symbol is not torn apart. -/
def CodesOk (lines : List (Str × Str)) : Prop :=
  ∀ p ∈ lines, p.1 ≠ [] ∧ p.2 ≠ [] ∧ (eow <:+ p.1 ++ p.2 → eow <:+ p.2)

/-- No merge operation gives this segment. -/
def Atomic (lines : List (Str × Str)) (s : Str) : Prop := ∀ p ∈ lines, p.1 ++ p.2 ≠ s

/-- Every segment is in the vocabulary (with separator, if it is not the last one), or it cannot be split further. -/
def InVocab (lines : List (Str × Str)) (vocab : List Str) (segs : List Str) : Prop :=
  ∃ inner last, segs = inner ++ [last] ∧ (∀ s ∈ inner, s ++ sep ∈ vocab ∨ Atomic lines s) ∧
    (last ∈ vocab ∨ Atomic lines (last ++ eow))

/-- No category words in the sentence. -/
def Plain (ws : List Str) : Prop := ∀ w ∈ ws, w.head? ≠ some '$' ∨ w.length ≤ 1

/-- The text of the tokens of a word: the separators are removed. -/
def Detok (w : Str) (toks : List Str) : Prop :=
  ∃ (inner : List Str) (last : Str), toks = inner.map (fun s => s ++ sep) ++ [last] ∧ inner.flatten ++ last = w

end Verif.Bpe
