import Verif.FastBw.Spec
import Mathlib.Order.BoundedOrder.Basic
/-
What Viterbi is to compute: a best path of an FSA. Scores are in +log space here as in the code: any linear order with a least element (-infinity) and an
addition which is monotone in the left argument. Floats with rounding, without NaN and +infinity, are like this.
-/
namespace Verif.Viterbi
open Verif.CtcFsa Verif.FastBw

variable {V : Type} [LinearOrder V] [OrderBot V]

/-- What is needed from the addition of scores. -/
structure ScoreLaws (add : V → V → V) (zero : V) : Prop where
  mono : ∀ a b c, a ≤ b → add a c ≤ add b c
  bot : ∀ c, add ⊥ c = ⊥
  zero : zero ≠ ⊥

/-- Score of a path from frame `t` on, added up from left to right. -/
def pathScore (add : V → V → V) (edges : List (Edge Nat)) (w : Nat → V) (am : Nat → Nat → Nat → V) : Nat → V → List Nat → V
  | _, acc, [] => acc
  | t, acc, e :: p => pathScore add edges w am (t + 1) ((edges[e]?).elim ⊥ (fun x => add (add acc (w e)) (am t x.seq x.label))) p

end Verif.Viterbi
