/-
Specification: the edit distance (Levenshtein) is the least number of single edits (insert, delete or substitute one symbol) which turn
one list into the other.
-/
namespace Verif.EditDist

variable {α : Type}

/-- One edit at some position. -/
inductive Edit : List α → List α → Prop
  | ins (p s : List α) (x : α) : Edit (p ++ s) (p ++ x :: s)
  | del (p s : List α) (x : α) : Edit (p ++ x :: s) (p ++ s)
  | sub (p s : List α) (x y : α) : Edit (p ++ x :: s) (p ++ y :: s)

/-- `n` edits turn the first list into the second. -/
inductive Edits : List α → List α → Nat → Prop
  | refl (a : List α) : Edits a a 0
  | step {a b c : List α} {n : Nat} : Edits a b n → Edit b c → Edits a c (n + 1)

/-- The edit distance. -/
def IsDist (a b : List α) (n : Int) : Prop := (∃ m : Nat, n = m ∧ Edits a b m) ∧ ∀ m, Edits a b m → n ≤ m

end Verif.EditDist
