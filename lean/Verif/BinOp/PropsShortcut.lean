import Verif.BinOp.Shortcut
import Mathlib.Tactic.Linarith
import Mathlib.Tactic.NormNum
/-
C85: the shortcuts of `rf.combine` for numbers.
-/
namespace Verif.BinOp.Shortcut

/-- `pow` is the power for the exponents 1 and -1 and the base 1. -/
structure PowOk (pow : ℚ → ℚ → ℚ) : Prop where
  one : ∀ a, pow a 1 = a
  inv : ∀ a, pow a (-1) = a⁻¹
  base : ∀ b, pow 1 b = 1

/-- The operands: a tensor and a number; the elements of a boolean operation are booleans; no `0 ** -1`. -/
structure Operands (k : Kind) (aNum bNum : Bool) (a b : ℚ) : Prop where
  one : aNum = true → bNum = false
  logicalA : isLogical k = true → aNum = false → a = 0 ∨ a = 1
  logicalB : isLogical k = true → bNum = false → b = 0 ∨ b = 1
  pow : k = .pow → b = -1 → a ≠ 0

/-- Where the shortcuts give a wrong value: `a ** -1`, `0 - b`, `a or True`, `True or b`, and `a // 1`, `a // -1` if `a`
is not an integer. -/
def Wrong (k : Kind) (aNum bNum : Bool) (a b : ℚ) : Prop :=
  (k = .pow ∧ bNum = true ∧ b = -1) ∨
  (k = .sub ∧ aNum = true ∧ a = 0 ∧ b ≠ 0) ∨
  (k = .logicalOr ∧ bNum = true ∧ b ≠ 0 ∧ a = 0) ∨
  (k = .logicalOr ∧ aNum = true ∧ a ≠ 0 ∧ b = 0) ∨
  (k = .floordiv ∧ bNum = true ∧ (b = 1 ∨ b = -1) ∧ ∀ n : ℤ, a ≠ n)

theorem floor_eq_self {a : ℚ} : ((⌊a⌋ : ℤ) : ℚ) = a ↔ ∃ n : ℤ, a = n := by
  constructor
  · intro h; exact ⟨⌊a⌋, h.symm⟩
  · rintro ⟨n, rfl⟩; simp

/-- A number on the right. -/
theorem combine_right {pow : ℚ → ℚ → ℚ} (hp : PowOk pow) (k : Kind) (a b : ℚ) (h : Operands k false true a b) :
    combine pow k false true a b = op pow k a b ↔ ¬ Wrong k false true a b := by
  have inv_ne : ∀ a : ℚ, a ≠ 0 → -a ≠ a⁻¹ := by
    intro a ha he
    have h1 : -a * a = 1 := by rw [he]; exact inv_mul_cancel₀ ha
    nlinarith [mul_self_nonneg a]
  have hla := h.logicalA
  cases k with
  | logicalAnd =>
    rcases hla rfl rfl with rfl | rfl <;> by_cases hb : b = 0 <;>
      simp [combine, shortB, op, isMulLike, isAddLike, isLogical, Wrong, hb, ofBool]
  | logicalOr =>
    rcases hla rfl rfl with rfl | rfl <;> by_cases hb : b = 0 <;>
      simp [combine, shortB, op, isMulLike, isAddLike, isLogical, Wrong, hb, ofBool]
  | pow =>
    have hpow := h.pow rfl
    by_cases h1 : b = 1
    · subst h1
      simp [combine, shortB, op, isMulLike, Wrong, hp.one]
      norm_num
    · by_cases h2 : b = -1
      · subst h2
        have := inv_ne a (hpow rfl)
        simp [combine, shortB, op, isMulLike, Wrong, hp.inv, h1, this]
      · simp [combine, shortB, op, isMulLike, isAddLike, isLogical, Wrong, h1, h2]
  | floordiv =>
    by_cases h1 : b = 1
    · subst h1
      simp only [combine, shortB, op, isMulLike, Wrong]
      simp
      rw [eq_comm, floor_eq_self]
    · by_cases h2 : b = -1
      · subst h2
        simp only [combine, shortB, op, isMulLike, Wrong]
        simp [h1]
        rw [div_neg, div_one, eq_comm, floor_eq_self]
        constructor
        · rintro ⟨n, hn⟩; exact ⟨-n, by push_cast; linarith⟩
        · rintro ⟨n, hn⟩; exact ⟨-n, by push_cast; linarith⟩
      · simp [combine, shortB, op, isMulLike, isAddLike, isLogical, Wrong, h1, h2]
  | truediv =>
    by_cases h1 : b = 1
    · subst h1; simp [combine, shortB, op, isMulLike, Wrong]
    · by_cases h2 : b = -1
      · subst h2; simp [combine, shortB, op, isMulLike, Wrong, h1, div_neg]
      · simp [combine, shortB, op, isMulLike, isAddLike, isLogical, Wrong, h1, h2]
  | mul =>
    by_cases h1 : b = 1
    · subst h1; simp [combine, shortB, op, isMulLike, Wrong]
    · by_cases h2 : b = -1
      · subst h2; simp [combine, shortB, op, isMulLike, Wrong, h1]
      · simp [combine, shortB, op, isMulLike, isAddLike, isLogical, Wrong, h1, h2]
  | add => by_cases h1 : b = 0 <;> simp [combine, shortB, op, isMulLike, isAddLike, isLogical, Wrong, h1]
  | sub => by_cases h1 : b = 0 <;> simp [combine, shortB, op, isMulLike, isAddLike, isLogical, Wrong, h1]
  | mod => simp [combine, shortB, op, isMulLike, isAddLike, isLogical, Wrong]
  | maximum => simp [combine, shortB, op, isMulLike, isAddLike, isLogical, Wrong]
  | minimum => simp [combine, shortB, op, isMulLike, isAddLike, isLogical, Wrong]
  | squaredDifference => simp [combine, shortB, op, isMulLike, isAddLike, isLogical, Wrong]

/-- A number on the left. -/
theorem combine_left {pow : ℚ → ℚ → ℚ} (hp : PowOk pow) (k : Kind) (a b : ℚ) (h : Operands k true false a b) :
    combine pow k true false a b = op pow k a b ↔ ¬ Wrong k true false a b := by
  have hlb := h.logicalB
  cases k with
  | logicalAnd =>
    rcases hlb rfl rfl with rfl | rfl <;> by_cases ha : a = 0 <;>
      simp [combine, shortA, op, isAddLike, isLogical, Wrong, ha, ofBool]
  | logicalOr =>
    rcases hlb rfl rfl with rfl | rfl <;> by_cases ha : a = 0 <;>
      simp [combine, shortA, op, isAddLike, isLogical, Wrong, ha, ofBool]
  | pow =>
    by_cases h1 : a = 1
    · subst h1; simp [combine, shortA, op, Wrong, hp.base]
    · simp [combine, shortA, op, isAddLike, isLogical, Wrong, h1]
  | mul =>
    by_cases h1 : a = 1
    · subst h1; simp [combine, shortA, op, Wrong]
    · simp [combine, shortA, op, isAddLike, isLogical, Wrong, h1]
  | add => by_cases h1 : a = 0 <;> simp [combine, shortA, op, isAddLike, isLogical, Wrong, h1]
  | sub =>
    by_cases h1 : a = 0
    · subst h1
      simp [combine, shortA, op, isAddLike, Wrong]
      rw [self_eq_neg]
    · simp [combine, shortA, op, isAddLike, isLogical, Wrong, h1]
  | floordiv => simp [combine, shortA, op, isAddLike, isLogical, Wrong]
  | truediv => simp [combine, shortA, op, isAddLike, isLogical, Wrong]
  | mod => simp [combine, shortA, op, isAddLike, isLogical, Wrong]
  | maximum => simp [combine, shortA, op, isAddLike, isLogical, Wrong]
  | minimum => simp [combine, shortA, op, isAddLike, isLogical, Wrong]
  | squaredDifference => simp [combine, shortA, op, isAddLike, isLogical, Wrong]

/-- C85 (partial): for each operation and each number, `rf.combine` without the native module gives the value of the
operation, except for `a ** -1`, `0 - b`, `a or True`, `True or b` and `a // ±1` with `a` not an integer.
Missing: these cases, in which the value is wrong (so this is exact). -/
theorem shortcut_partial {pow : ℚ → ℚ → ℚ} (hp : PowOk pow) (k : Kind) (aNum bNum : Bool) (a b : ℚ)
    (h : Operands k aNum bNum a b) :
    combine pow k aNum bNum a b = op pow k a b ↔ ¬ Wrong k aNum bNum a b := by
  cases aNum with
  | true =>
    have : bNum = false := h.one rfl
    subst this
    exact combine_left hp k a b h
  | false =>
    cases bNum with
    | true => exact combine_right hp k a b h
    | false => simp [combine, Wrong]

/-- C85 (negation): `0 - 5` gives 5, `3 ** -1` gives -3, `False or True` gives `False`, `7/2 // 1` gives `7/2`. -/
theorem shortcut_wrong {pow : ℚ → ℚ → ℚ} :
    combine pow .sub true false 0 5 = 5 ∧ combine pow .pow false true 3 (-1) = -3 ∧
    combine pow .logicalOr false true 0 1 = 0 ∧ combine pow .floordiv false true (7 / 2) 1 = 7 / 2 := by
  refine ⟨?_, ?_, ?_, ?_⟩ <;> simp [combine, shortA, shortB, isMulLike, isAddLike, isLogical] <;> norm_num

/-- The hypotheses are met: a power function, and `7 * 1`, `1 * 7`. -/
example : PowOk (fun a b => if b = 1 then a else if b = -1 then a⁻¹ else if a = 1 then 1 else 0) := by
  refine ⟨?_, ?_, ?_⟩
  · intro a; simp
  · intro a; norm_num
  · intro b; by_cases h : b = 1 <;> by_cases h2 : b = -1 <;> simp [h, h2]

example : Operands .mul false true 7 1 ∧ ¬ Wrong .mul false true 7 1 ∧ Operands .logicalOr false true 0 1 ∧
    Wrong .logicalOr false true 0 1 := by
  refine ⟨⟨by simp, by simp [isLogical], by simp [isLogical], by simp⟩, by simp [Wrong],
    ⟨by simp, by simp, by simp, by simp⟩, by simp [Wrong]⟩

end Verif.BinOp.Shortcut
