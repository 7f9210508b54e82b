import Verif.Augment.Spec
import Mathlib.Tactic.Ring
import Mathlib.Tactic.FieldSimp
import Mathlib.Tactic.Linarith
import Mathlib.Algebra.Order.Field.Rat
import Mathlib.Tactic.Positivity
import Mathlib.Algebra.BigOperators.Group.List.Basic
import Mathlib.Algebra.BigOperators.Ring.List
/-
C107: dropout zeroes or scales, and keeps the mean.
-/
namespace Verif.Augment
open Verif.Py

/-- C107: the factor is either 0 or `1 / keep`: 0 with exactly the share `1 - keep` of the random numbers. -/
theorem noise_right {keep u : Rat} (h0 : 0 < keep) (h1 : keep < 1) (hu0 : 0 ≤ u) (hu1 : u < 1) : noiseFactor keep u = if u < 1 - keep then 0 else 1 / keep := by
  unfold noiseFactor
  by_cases h : u < 1 - keep
  · have hf : Rat.floor (keep + u) = 0 := by
      apply le_antisymm
      · rw [← Int.lt_add_one_iff, ← not_le, Rat.le_floor_iff]
        push_cast; linarith
      · rw [Rat.le_floor_iff]
        push_cast; linarith
    rw [hf, if_pos h]
    simp
  · have hf : Rat.floor (keep + u) = 1 := by
      apply le_antisymm
      · rw [← Int.lt_add_one_iff, ← not_le, Rat.le_floor_iff]
        push_cast; linarith
      · rw [Rat.le_floor_iff]
        push_cast; linarith
    rw [hf, if_neg h]
    simp

/-- C107: in training, each value is dropped or scaled, with one decision for all positions which only differ in the broadcast axes. -/
theorem dropout_train {ι ν : Type} (proj : ι → ν) {p : Rat} (h0 : 0 < p) (h1 : p < 1) (onForward : Bool) (train : Bool) (htr : train = true ∨ onForward = true) (noise : ν → Rat)
    (hn : ∀ j, 0 ≤ noise j ∧ noise j < 1) (x : ι → Rat) :
    ∃ y, dropout proj p onForward train noise x = .ok y ∧ ∃ drop : ν → Bool, (∀ j, drop j = true ↔ noise j < p) ∧ ∀ i, y i = if drop (proj i) then 0 else x i / (1 - p) := by
  refine ⟨fun i => x i * noiseFactor (1 - p) (noise (proj i)), ?_, fun j => decide (noise j < p), fun j => by simp, ?_⟩
  · unfold dropout
    simp only
    rw [if_neg (by rw [not_not]; constructor <;> linarith), if_neg (by linarith), if_pos (by rcases htr with h | h <;> simp [h])]
  · intro i
    simp only
    rw [noise_right (by linarith) (by linarith) (hn _).1 (hn _).2]
    simp only [sub_sub_cancel, decide_eq_true_eq]
    split
    · simp
    · ring

/-- C107: outside of training, or without dropout, nothing changes. -/
theorem dropout_eval {ι ν : Type} (proj : ι → ν) {p : Rat} (h0 : 0 ≤ p) (h1 : p < 1) (noise : ν → Rat) (x : ι → Rat) :
    dropout proj p false false noise x = .ok x ∧ ∀ f t, dropout proj 0 f t noise x = .ok x := by
  constructor
  · unfold dropout
    simp only
    rw [if_neg (by rw [not_not]; constructor <;> linarith)]
    split <;> simp
  · intro f t
    simp [dropout]

/-- C107: a probability outside of [0, 1) raises, also outside of training. -/
theorem dropout_range {ι ν : Type} (proj : ι → ν) {p : Rat} (h : p < 0 ∨ 1 ≤ p) (f t : Bool) (noise : ν → Rat) (x : ι → Rat) : dropout proj p f t noise x = .error .valueError := by
  unfold dropout
  simp only
  rw [if_pos]
  rintro ⟨h1, h2⟩
  rcases h with h | h <;> linarith

/-- The sum of the factors over the numbers `0 / n, 1 / n, ..., (k - 1) / n`. -/
theorem sum_factors {n m : Nat} (hm0 : 0 < m) (hm : m < n) : ∀ k, k ≤ n →
    (((List.range k).map (fun (i : Nat) => noiseFactor ((m : Rat) / n) ((i : Rat) / n))).sum = ((k - (n - m) : Nat) : Rat) * ((n : Rat) / m)) := by
  have hn : (0 : Rat) < n := by exact_mod_cast (show 0 < n by omega)
  have hm' : (0 : Rat) < m := by exact_mod_cast hm0
  intro k
  induction k with
  | zero => intro _; simp
  | succ k ih =>
    intro hk
    rw [List.range_succ, List.map_append, List.sum_append, ih (by omega)]
    simp only [List.map_cons, List.map_nil, List.sum_cons, List.sum_nil, add_zero]
    rw [noise_right (div_pos hm' hn) (by rw [div_lt_one hn]; exact_mod_cast hm) (by positivity) (by rw [div_lt_one hn]; exact_mod_cast hk)]
    have e : (k : Rat) / n < 1 - m / n ↔ k < n - m := by
      rw [lt_sub_iff_add_lt, ← add_div, div_lt_one hn]
      constructor
      · intro h
        have : k + m < n := by exact_mod_cast h
        omega
      · intro h
        have : k + m < n := by omega
        exact_mod_cast this
    by_cases h : k < n - m
    · rw [if_pos (e.2 h)]
      have h1 : k - (n - m) = 0 := by omega
      have h2 : k + 1 - (n - m) = 0 := by omega
      rw [h1, h2]
      simp
    · rw [if_neg (fun h' => h (e.1 h'))]
      have h2 : k + 1 - (n - m) = (k - (n - m)) + 1 := by omega
      rw [h2, one_div_div]
      push_cast
      ring

/-- C107: the mean of the output over evenly spread random numbers is the input. -/
theorem dropout_mean {n m : Nat} (hm0 : 0 < m) (hm : m < n) (x : Rat) :
    ((List.range n).map (fun (i : Nat) => x * noiseFactor ((m : Rat) / n) ((i : Rat) / n))).sum = n * x := by
  have hm' : (m : Rat) ≠ 0 := by exact_mod_cast (show m ≠ 0 by omega)
  have h := sum_factors hm0 hm n (le_refl _)
  rw [List.sum_map_mul_left, h]
  have : n - (n - m) = m := by omega
  rw [this]
  field_simp

/-! ### Example -/

/-- Half of the values, one decision per frame (position, feature) ↦ position. -/
example : ∃ y, dropout (Prod.fst : Nat × Nat → Nat) (1 / 2) false true (fun t => if t = 0 then 1 / 4 else 3 / 4) (fun _ => 1) = .ok y ∧ y (0, 0) = 0 ∧ y (0, 7) = 0 ∧ y (1, 0) = 2 := by
  obtain ⟨y, h, d, hd, hy⟩ := dropout_train (Prod.fst : Nat × Nat → Nat) (p := 1 / 2) (by norm_num) (by norm_num) false true (Or.inl rfl) (fun t => if t = 0 then 1 / 4 else 3 / 4)
    (by intro j; split <;> norm_num) (fun _ => 1)
  have h0 : d 0 = true := by rw [hd]; norm_num
  have h1 : d 1 = false := by rw [Bool.eq_false_iff]; intro h'; rw [hd] at h'; norm_num at h'
  refine ⟨y, h, ?_, ?_, ?_⟩
  · rw [hy]; simp [h0]
  · rw [hy]; simp [h0]
  · rw [hy]; simp [h1]; norm_num

end Verif.Augment
