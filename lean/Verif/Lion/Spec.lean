import Mathlib.Algebra.Order.Field.Basic
import Mathlib.Algebra.BigOperators.Group.List.Basic
/-
The Lion rule (arXiv 2302.06675, Algorithm 2) for one number, without the program.
-/
namespace Verif.Lion.Spec

/-- What one step does with one number: learning rate, weight decay, the two factors, and the gradient. -/
structure In (α : Type) where
  lr : α
  wd : α
  b1 : α
  b2 : α
  g : α

/-- The direction: the sign of the interpolation of momentum and gradient. -/
def IsSign {α : Type} [Field α] [LinearOrder α] (x s : α) : Prop := (0 < x ∧ s = 1) ∨ (x < 0 ∧ s = -1) ∨ (x = 0 ∧ s = 0)

/-- `w` and `m` become `w'` and `m'`: `c = β1 m + (1-β1) g`, `w' = w - lr (sign c + wd w)`, `m' = β2 m + (1-β2) g`. -/
def Step {α : Type} [Field α] [LinearOrder α] (x : In α) (w m w' m' : α) : Prop :=
  ∃ s, IsSign (x.b1 * m + (1 - x.b1) * x.g) s ∧ w' = w - x.lr * (s + x.wd * w) ∧ m' = x.b2 * m + (1 - x.b2) * x.g

/-- Many steps. -/
inductive Steps {α : Type} [Field α] [LinearOrder α] : List (In α) → α → α → α → α → Prop
  | nil (w m : α) : Steps [] w m w m
  | cons (x : In α) (xs : List (In α)) (w m w1 m1 w' m' : α) (h1 : Step x w m w1 m1) (h2 : Steps xs w1 m1 w' m') : Steps (x :: xs) w m w' m'

end Verif.Lion.Spec
