import Mathlib.Data.Rat.Lemmas
/-
The function through given points which is linear between them and constant outside.
-/
namespace Verif.RfPcw

/-- `y` is the value at `x`: on the line through the points around `x`, and the value of the first or last point outside. -/
def Interp (points : List (ℚ × ℚ)) (x y : ℚ) : Prop :=
  (∀ a va b vb : ℚ, (a, va) ∈ points → (b, vb) ∈ points → a < b → (∀ p ∈ points, p.1 ≤ a ∨ b ≤ p.1) → a ≤ x → x ≤ b →
    (y - va) * (b - a) = (x - a) * (vb - va)) ∧
  (∀ a va : ℚ, (a, va) ∈ points → (∀ p ∈ points, a ≤ p.1) → x ≤ a → y = va) ∧
  (∀ b vb : ℚ, (b, vb) ∈ points → (∀ p ∈ points, p.1 ≤ b) → b ≤ x → y = vb)

end Verif.RfPcw
