import Verif.Bpe.ModelTree
import Mathlib.Data.List.Forall2
/-
Specification of the splits of a word into labels.
-/
namespace Verif.BpeTree

/-- The merge symbol has at least two characters, the word prefix symbol has one, and the merge symbol does not start
with it. -/
structure OptsOk (opts : Opts) : Prop where
  merge : ∀ m, opts.merge = some m → 2 ≤ m.length
  wordPrefix : ∀ wp, opts.wordPrefix = some wp → ∃ c, wp = [c]
  differ : ∀ m c, opts.merge = some m → opts.wordPrefix = some [c] → m.head? ≠ some c

/-- A label which ends a word or stands for itself: it does not end with the merge symbol. -/
def Whole (opts : Opts) (label : Str) : Prop := ∀ m, opts.merge = some m → ¬ m <:+ label

/-- The token of a piece which is not the last one: with the merge symbol, or, with a word prefix symbol, as it is. -/
def Inner (opts : Opts) (labels : List Str) (piece token : Str) : Prop :=
  token ∈ labels ∧ ((∃ m, opts.merge = some m ∧ token = piece ++ m) ∨
    (opts.wordPrefix ≠ none ∧ token = piece ∧ Whole opts token))

/-- The tokens are labels, and their text is the word (after the word prefix symbol). -/
def Split (opts : Opts) (labels : List Str) (word : Str) (tokens : List Str) : Prop :=
  ∃ (pieces inner : List Str) (last : Str), tokens = inner ++ [last] ∧ List.Forall₂ (Inner opts labels) pieces inner ∧
    last ∈ labels ∧ last ≠ [] ∧ Whole opts last ∧ pieces.flatten ++ last = opts.wordPrefix.getD [] ++ word

end Verif.BpeTree
