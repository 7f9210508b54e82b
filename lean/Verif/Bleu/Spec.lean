import Mathlib.Analysis.SpecialFunctions.Log.Basic
import Mathlib.Algebra.BigOperators.Group.Finset.Basic
/-
The definition of BLEU (Papineni et al. 2002), for one reference per sentence, without the program.
-/
namespace Verif.Bleu.Spec
variable {τ : Type} [DecidableEq τ]

/-- All n-grams of a sentence, by position. -/
def windows (s : List τ) (n : Nat) : List (List τ) := (List.range (s.length + 1 - n)).map fun i => (s.drop i).take n

/-- How often an n-gram occurs. -/
def occ (s g : List τ) : Nat := (windows s g.length).count g

/-- Clipped matches of one pair: every distinct n-gram counts at most as often as it occurs in the reference. -/
def clipped (n : Nat) (ref tr : List τ) : Nat := ∑ g ∈ (windows ref n).toFinset, min (occ ref g) (occ tr g)

/-- Clipped matches of order `n` over the corpus. -/
def matched (n : Nat) (pairs : List (List τ × List τ)) : Nat := (pairs.map fun p => clipped n p.1 p.2).sum

/-- Number of n-grams in the translations. -/
def possible (n : Nat) (pairs : List (List τ × List τ)) : Nat := (pairs.map fun p => p.2.length + 1 - n).sum

end Verif.Bleu.Spec
