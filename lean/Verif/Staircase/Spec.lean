/-
Specification: paths of an automaton, given as a list of edges (from, to, emission, sequence).
-/
namespace Verif.Staircase.Spec

/-- A path from `s` to `t`, as the list of its emissions and next states. -/
def Run (E : List (Nat × Nat × Nat × Nat)) : Nat → List (Nat × Nat) → Nat → Prop
  | s, [], t => s = t
  | s, (e, m) :: r, t => (∃ b, (s, m, e, b) ∈ E) ∧ Run E m r t

/-- The emissions of some path from `s` to `t`. -/
def Accepts (E : List (Nat × Nat × Nat × Nat)) (s t : Nat) (w : List Nat) : Prop := ∃ r, Run E s r t ∧ r.map Prod.fst = w

/-- Each element of `a :: l` and the next one are related. -/
def Steps (R : Nat → Nat → Prop) : Nat → List Nat → Prop
  | _, [] => True
  | a, b :: l => R a b ∧ Steps R b l

/-- The step from `a` to `b` keeps the limit which applies at `a`: the one for the start, else the one for the end if `a` is within it, else the general one; 0 is no
limit. -/
def Allowed (len general start final a b : Nat) : Prop :=
  if a = 0 ∧ start ≠ 0 then b ≤ start
  else if final ≠ 0 ∧ len ≤ a + final then b ≤ a + final
  else if general ≠ 0 then b ≤ a + general
  else True

end Verif.Staircase.Spec
