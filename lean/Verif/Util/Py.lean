/-
Small vocabulary for the Python constructs used by the models: slicing, exceptions.
No RETURNN code is modelled here.
-/
namespace Verif.Py

/-- Python exceptions which the modelled code can raise. -/
inductive Err where
  | assertion
  | valueError
  | typeError
  | keyError
  | indexError
  | zeroDivision
  | notImplemented
  | eof
  | other (msg : String)
deriving DecidableEq, Repr

/-- Result of a Python call: value or exception. -/
abbrev Res (α : Type _) := Except Err α

/-- Python `assert c`. -/
def pyAssert (c : Bool) : Res Unit := if c then .ok () else .error .assertion

/-- Python `l[a:b]` for non-negative `a`, `b` (both are clamped to `len(l)`). -/
def slice {α : Type _} (l : List α) (a b : Nat) : List α := (l.take b).drop a

/-- Python `l[i]` for non-negative `i`. -/
def getItem {α : Type _} (l : List α) (i : Nat) : Res α :=
  match l[i]? with
  | some x => .ok x
  | none => .error .indexError

instance {ε α : Type _} [DecidableEq ε] [DecidableEq α] : DecidableEq (Except ε α) := fun a b =>
  match a, b with
  | .ok x, .ok y => if h : x = y then isTrue (by rw [h]) else isFalse (by intro e; injection e; contradiction)
  | .error x, .error y =>
    if h : x = y then isTrue (by rw [h]) else isFalse (by intro e; injection e; contradiction)
  | .ok _, .error _ => isFalse (by intro e; cases e)
  | .error _, .ok _ => isFalse (by intro e; cases e)

/-- Insert before the first element which is not strictly smaller. -/
def insertBy {α : Type _} (le : α → α → Bool) (a : α) : List α → List α
  | [] => [a]
  | b :: l => if le a b then a :: b :: l else b :: insertBy le a l

/-- Stable sort, as Python's `list.sort(key=...)` and `numpy.argsort(kind="stable")`. -/
def stableSort {α : Type _} (le : α → α → Bool) (l : List α) : List α := l.foldr (insertBy le) []

end Verif.Py
