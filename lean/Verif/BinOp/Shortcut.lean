import Mathlib.Data.Rat.Floor
import Mathlib.Algebra.Order.Ring.Rat
/-
Model of the shortcuts of the Python `rf.combine` for numbers (`returnn/frontend/math_.py`), which are used if the native
module is not available.  Elements of tensors are rationals here (no rounding, no infinities), booleans are 0 and 1.
-/
namespace Verif.BinOp.Shortcut

/-- `kind` (math_.py 175-176), after `_CombineMap` (math_.py 152-162). -/
inductive Kind where
  | add | sub | mul | truediv | floordiv | mod | pow | maximum | minimum | logicalAnd | logicalOr | squaredDifference
deriving DecidableEq, Repr

/-- A boolean as number. -/
def ofBool (b : Bool) : ℚ := if b then 1 else 0

/-- The element-wise operation of the backend (torch/frontend/_backend.py 839-860, what torch computes).
`pow` for exponents which are not integers is left open. -/
def op (pow : ℚ → ℚ → ℚ) : Kind → ℚ → ℚ → ℚ
  | .add, a, b => a + b
  | .sub, a, b => a - b
  | .mul, a, b => a * b
  | .truediv, a, b => a / b
  | .floordiv, a, b => (⌊a / b⌋ : ℚ)
  | .mod, a, b => a - b * (⌊a / b⌋ : ℚ)
  | .pow, a, b => pow a b
  | .maximum, a, b => max a b
  | .minimum, a, b => min a b
  | .logicalAnd, a, b => ofBool (decide (a ≠ 0) && decide (b ≠ 0))
  | .logicalOr, a, b => ofBool (decide (a ≠ 0) || decide (b ≠ 0))
  | .squaredDifference, a, b => (a - b) * (a - b)

/-- `kind in {"truediv", "floordiv", "pow", "mul"}`. -/
def isMulLike : Kind → Bool
  | .truediv | .floordiv | .pow | .mul => true
  | _ => false

/-- `kind in {"add", "sub"}`. -/
def isAddLike : Kind → Bool
  | .add | .sub => true
  | _ => false

/-- `kind in {"logical_and", "logical_or"}`. -/
def isLogical : Kind → Bool
  | .logicalAnd | .logicalOr => true
  | _ => false

/-- The shortcuts if `b` is a number (math_.py 188-196). -/
def shortB (k : Kind) (a b : ℚ) : Option ℚ :=
  if b = 1 ∧ isMulLike k then some a
  else if b = -1 ∧ isMulLike k then some (-a)
  else if b = 0 ∧ isAddLike k then some a
  else if b ≠ 0 ∧ isLogical k then some a
  else none

/-- The shortcuts if `a` is a number (math_.py 197-205). -/
def shortA (k : Kind) (a b : ℚ) : Option ℚ :=
  if a = 1 ∧ k = .pow then some a
  else if a = 1 ∧ k = .mul then some b
  else if a = 0 ∧ isAddLike k then some b
  else if a ≠ 0 ∧ isLogical k then some b
  else none

/-- The element of `rf.combine(a, kind, b)` (math_.py 165-213); `aNum`, `bNum`: this operand is a number, not a
tensor. -/
def combine (pow : ℚ → ℚ → ℚ) (k : Kind) (aNum bNum : Bool) (a b : ℚ) : ℚ :=
  match (if bNum then shortB k a b else none) with
  | some v => v
  | none =>
    match (if aNum then shortA k a b else none) with
    | some v => v
    | none => op pow k a b

end Verif.BinOp.Shortcut
