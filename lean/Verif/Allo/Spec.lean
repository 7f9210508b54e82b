import Verif.Allo.Model
/-
What allophone states are about.
-/
namespace Verif.Allo
open Verif Verif.Py

/-- `p` is the phone `k` places to the right of place `i`, and all phones until there have context. -/
def Right (isCtx : Phone → Bool) (ids : List Phone) (i k : Nat) (p : Phone) : Prop :=
  ids[i + k]? = some p ∧ ∀ j, 1 ≤ j → j ≤ k → ∃ q, ids[i + j]? = some q ∧ isCtx q = true

/-- `p` is the phone `k` places to the left of place `i`, and all phones until there have context. -/
def Left (isCtx : Phone → Bool) (ids : List Phone) (i k : Nat) (p : Phone) : Prop :=
  k ≤ i ∧ ids[i - k]? = some p ∧ ∀ j, 1 ≤ j → j ≤ k → ∃ q, ids[i - j]? = some q ∧ isCtx q = true

/-- The second list is the first one, every element once or more times. -/
inductive Repeats {α : Type} : List α → List α → Prop
  | nil : Repeats [] []
  | cons (x : α) (k : Nat) {l r : List α} (h : Repeats l r) : Repeats (x :: l) (List.replicate (k + 1) x ++ r)

/-- 1 at the begin and 2 at the end of a word. -/
def flags (j len : Nat) : Nat := (if j = 0 then 1 else 0) + (if j + 1 = len then 2 else 0)

/-- Phone, boundary flags and state of all states of the words. Silence has one state, and both flags. -/
def wantedStates (si : Phone) (numStates : Nat) (words : List (List Phone)) : List (Phone × Nat × Option Nat) :=
  words.flatMap (fun w => w.zipIdx.flatMap (fun p =>
    if p.1 = si then [(p.1, 3, some 0)] else (List.range numStates).map (fun s => (p.1, flags p.2 w.length, some s))))

end Verif.Allo
