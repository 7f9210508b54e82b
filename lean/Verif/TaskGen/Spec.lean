/-
Specification of the generated tasks, without the model.
-/
namespace Verif.TaskGen.Spec

/-- The last character of the list which is one of the given ones. -/
def lastOf (which : List Char) (cs : List Char) : Option Char := cs.reverse.find? fun c => decide (c ∈ which)

/-- The 12AX rule: after the history `h`, the character `c` asks for `R`: it ends `A..X` while the last of the digits 1, 2 is 1, or `B..Y` while it is 2, with no
other of A, B, X, Y in between. -/
def WantsR (h : List Char) (c : Char) : Prop :=
  (lastOf ['1', '2'] h = some '1' ∧ lastOf ['A', 'B', 'X', 'Y'] h = some 'A' ∧ c = 'X') ∨
  (lastOf ['1', '2'] h = some '2' ∧ lastOf ['A', 'B', 'X', 'Y'] h = some 'B' ∧ c = 'Y')

instance (h : List Char) (c : Char) : Decidable (WantsR h c) := inferInstanceAs (Decidable (_ ∨ _))

/-- The number which digits stand for, the most significant first. -/
def value (base : Nat) (ds : List Nat) : Nat := ds.foldl (fun n d => n * base + d) 0

end Verif.TaskGen.Spec
