import Mathlib.Algebra.Order.Field.Rat
/-
Specification: the moments of a list of numbers.
-/
namespace Verif.Stats

/-- `m` is the mean: the sum of all deviations is 0. -/
def IsMean (l : List ℚ) (m : ℚ) : Prop := (l.map (fun x => x - m)).sum = 0

/-- `v` is the mean of the squared deviations from the mean `m`. -/
def IsVar (l : List ℚ) (m v : ℚ) : Prop := (l.map (fun x => (x - m) ^ 2)).sum = v * l.length

def IsMin (l : List ℚ) (m : ℚ) : Prop := m ∈ l ∧ ∀ x ∈ l, m ≤ x
def IsMax (l : List ℚ) (m : ℚ) : Prop := m ∈ l ∧ ∀ x ∈ l, x ≤ m

end Verif.Stats
