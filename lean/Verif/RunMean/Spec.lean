import Mathlib.Algebra.Field.Defs
import Mathlib.Algebra.BigOperators.Group.List.Basic
/-
What an exponential moving average is, without the program.
-/
namespace Verif.RunMean.Spec

/-- The average after the values `xs` (oldest first), from `m`: the k-th newest value has the weight `α (1-α)^k`, the start has `(1-α)^n`. -/
def ema {α : Type} [Field α] (a m : α) (xs : List α) : α :=
  (1 - a) ^ xs.length * m + ((xs.reverse.zipIdx).map fun p => a * (1 - a) ^ p.2 * p.1).sum

end Verif.RunMean.Spec
