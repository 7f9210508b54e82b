import Verif.Dropout.Model
import Mathlib.Algebra.Order.Floor.Ring
import Mathlib.MeasureTheory.Measure.Lebesgue.Basic
import Mathlib.MeasureTheory.Integral.Bochner.Set
import Mathlib.Tactic.Linarith
import Mathlib.Tactic.FieldSimp
/-
C134: dropout.
-/
namespace Verif.Dropout
open Verif Verif.Py

variable {α : Type} [Field α] [LinearOrder α] [IsStrictOrderedRing α] [FloorRing α]

/-- The dims over which the mask is drawn, in words of the documentation: the given axes, or all dims of the source. -/
def MaskDims (src : List Nat) (axis : Axis) (nd : List Nat) : Prop :=
  (axis = .none ∧ nd = src) ∨ (axis = .false ∧ nd = src) ∨ (∃ d, axis = .dim d ∧ nd = [d]) ∨ (axis = .dims nd)

theorem noise_of (src : List Nat) (axis : Axis) (nd : List Nat) : noiseDims src axis = .ok nd ↔ MaskDims src axis nd := by
  unfold MaskDims
  cases axis <;> simp [noiseDims, eq_comm]

omit [IsStrictOrderedRing α] in
theorem all_in (nd : List Nat) (s : List Nat) (h : ∀ d ∈ nd, d ∈ s) : (nd.all fun d => decide (d ∈ s)) = true := by
  simpa [List.all_eq_true] using h

theorem floor_one (keep u : α) (h1 : keep ≤ 1) (hu : 0 ≤ u ∧ u < 1) (hk : 1 - keep ≤ u) : ⌊keep + u⌋ = 1 := by
  rw [Int.floor_eq_iff]; push_cast; constructor <;> linarith [hu.1, hu.2]

theorem floor_zero (keep u : α) (h0 : 0 < keep) (hu : 0 ≤ u ∧ u < 1) (hk : u < 1 - keep) : ⌊keep + u⌋ = 0 := by
  rw [Int.floor_eq_iff]; push_cast; constructor <;> linarith [hu.1, hu.2]

/-- Where dropout is applied (in training, or everywhere if asked for), every cell is either dropped to zero, or the value over the keep probability; which of
both depends only on the random number of its indices at the mask dims: dropped exactly below the drop probability. The dims stay. -/
theorem each_cell (x : T α) (drop : α) (axis : Axis) (nd : List Nat) (onForward train : Bool) (rnd : List Nat → List Nat → α) (hax : MaskDims x.dims axis nd)
    (hsub : ∀ d ∈ nd, d ∈ x.dims) (h0 : 0 < drop) (h1 : drop < 1) (hon : onForward = true ∨ train = true) (hr : ∀ k, 0 ≤ rnd nd k ∧ rnd nd k < 1) :
    ∃ y, dropout x drop axis onForward train rnd = .ok y ∧ y.dims = x.dims ∧
      ∀ i, (rnd nd (nd.map i) < drop → y.val i = 0) ∧ (drop ≤ rnd nd (nd.map i) → y.val i = x.val i / (1 - drop)) := by
  refine ⟨apply x (1 - drop) nd (rnd nd), ?_, rfl, ?_⟩
  · simp only [dropout, (noise_of _ _ _).2 hax]
    rw [if_pos (all_in nd x.dims hsub), if_pos ⟨by linarith, by linarith⟩, if_neg (by intro h; linarith)]
    rcases hon with h | h
    · simp [h]
    · simp [h]
  · intro i
    have hu := hr (nd.map i)
    constructor
    · intro h
      have := floor_zero (1 - drop) (rnd nd (nd.map i)) (by linarith) hu (by linarith)
      simp only [apply, this]; simp
    · intro h
      have := floor_one (1 - drop) (rnd nd (nd.map i)) (by linarith) hu (by linarith)
      simp only [apply, this]; push_cast; ring

/-- Cells with the same indices at the mask dims are dropped together: along the other dims the mask is shared. -/
theorem shared_mask (x : T α) (drop : α) (axis : Axis) (nd : List Nat) (onForward train : Bool) (rnd : List Nat → List Nat → α) (y : T α)
    (hax : MaskDims x.dims axis nd) (hr : ∀ k, 0 ≤ rnd nd k ∧ rnd nd k < 1) (hy : dropout x drop axis onForward train rnd = .ok y)
    (i j : Nat → Nat) (hij : ∀ d ∈ nd, i d = j d) (hx : x.val j ≠ 0) (hz : y.val i = 0) (hxi : x.val i ≠ 0) : y.val j = 0 := by
  have hm : nd.map i = nd.map j := List.map_congr_left hij
  simp only [dropout, (noise_of _ _ _).2 hax] at hy
  have happ : ∀ k : α, 0 < k → (apply x k nd (rnd nd)).val i = 0 → (apply x k nd (rnd nd)).val j = 0 := by
    intro k hk h
    simp only [apply, hm] at h ⊢
    rcases mul_eq_zero.1 h with h | h
    · exact absurd h hxi
    · rw [h, mul_zero]
  split at hy
  · split at hy
    · rename_i hk
      split at hy
      · cases hy; exact absurd hz hxi
      · split at hy
        · cases hy; exact happ _ hk.1 hz
        · split at hy
          · cases hy; exact happ _ hk.1 hz
          · cases hy; exact absurd hz hxi
    · cases hy
  · cases hy

/-- Without training (and `on_forward`), or with probability 0, the source comes back as it is, whatever the random numbers are. -/
theorem unchanged (x : T α) (drop : α) (axis : Axis) (nd : List Nat) (onForward train : Bool) (rnd : List Nat → List Nat → α) (hax : MaskDims x.dims axis nd)
    (hsub : ∀ d ∈ nd, d ∈ x.dims) (h0 : 0 ≤ drop) (h1 : drop < 1) (hoff : drop = 0 ∨ (onForward = false ∧ train = false)) :
    dropout x drop axis onForward train rnd = .ok x := by
  simp only [dropout, (noise_of _ _ _).2 hax]
  rw [if_pos (all_in nd x.dims hsub), if_pos ⟨by linarith, by linarith⟩]
  rcases hoff with h | ⟨h, h'⟩
  · rw [if_pos (by rw [h]; ring)]
  · simp [h, h']

/-- Wrong arguments are refused, in training or not: axes which the source does not have, `axis=True`, and probabilities outside of [0, 1). In particular the
probability 1, which the documentation allows, is refused. -/
theorem refused (x : T α) (drop : α) (axis : Axis) (onForward train : Bool) (rnd : List Nat → List Nat → α)
    (h : axis = .true ∨ (∃ nd, MaskDims x.dims axis nd ∧ ∃ d ∈ nd, d ∉ x.dims) ∨ drop < 0 ∨ 1 ≤ drop) :
    dropout x drop axis onForward train rnd = .error .valueError := by
  cases hn : noiseDims x.dims axis with
  | error e =>
    have : e = .valueError := by cases axis <;> simp [noiseDims] at hn; exact hn.symm
    simp only [dropout, hn, this]
  | ok nd =>
    simp only [dropout, hn]
    rcases h with h | ⟨nd', hnd, d, hd, hs⟩ | h | h
    · rw [h] at hn; simp [noiseDims] at hn
    · have e := (noise_of _ _ _).2 hnd
      rw [hn] at e; cases e
      rw [if_neg (by rw [List.all_eq_true]; intro ha; exact hs (by simpa using ha d hd))]
    · split
      · rw [if_neg (by intro hc; linarith [hc.2])]
      · rfl
    · split
      · rw [if_neg (by intro hc; linarith [hc.1])]
      · rfl

/-- The value of a cell of the result, 0 if there is an error. -/
noncomputable def cellOf (r : Res (T ℝ)) (i : Nat → Nat) : ℝ :=
  match r with
  | .ok y => y.val i
  | .error _ => 0

/-- For any source, and a random number of the cell which is uniform in [0,1), whatever the random numbers elsewhere are: the expected value of the cell after
dropout is the value of the source, and a cell which is not zero survives with exactly the keep probability. -/
theorem expectation (x : T ℝ) (drop : ℝ) (axis : Axis) (nd : List Nat) (onForward train : Bool) (r : List Nat → ℝ) (hax : MaskDims x.dims axis nd)
    (hsub : ∀ d ∈ nd, d ∈ x.dims) (h0 : 0 < drop) (h1 : drop < 1) (hon : onForward = true ∨ train = true) (hr : ∀ k, 0 ≤ r k ∧ r k < 1) (i : Nat → Nat) :
    (∫ u in Set.Ico (0 : ℝ) 1, cellOf (dropout x drop axis onForward train fun _ k => if k = nd.map i then u else r k) i) = x.val i ∧
    (x.val i ≠ 0 → MeasureTheory.volume {u : ℝ | u ∈ Set.Ico 0 1 ∧
      cellOf (dropout x drop axis onForward train fun _ k => if k = nd.map i then u else r k) i ≠ 0} = ENNReal.ofReal (1 - drop)) := by
  have hc : (1 - drop) ≠ 0 := by intro h; linarith
  have hcell : ∀ u ∈ Set.Ico (0 : ℝ) 1, cellOf (dropout x drop axis onForward train fun _ k => if k = nd.map i then u else r k) i =
      (Set.Ico drop 1).indicator (fun _ => x.val i / (1 - drop)) u := by
    intro u hu
    obtain ⟨y, hy, _, hv⟩ := each_cell x drop axis nd onForward train (fun _ k => if k = nd.map i then u else r k) hax hsub h0 h1 hon (by
      intro k
      by_cases hk : k = nd.map i
      · simp only [hk, if_true]; exact ⟨hu.1, hu.2⟩
      · simp only [if_neg hk]; exact hr k)
    simp only [hy, cellOf]
    have hvi := hv i
    simp only [if_true] at hvi
    by_cases hd : drop ≤ u
    · have hmem : u ∈ Set.Ico drop 1 := Set.mem_Ico.2 ⟨hd, hu.2⟩
      rw [Set.indicator_of_mem hmem]; exact hvi.2 hd
    · rw [Set.indicator_of_notMem (fun h : u ∈ Set.Ico drop 1 => hd h.1)]; exact hvi.1 (not_le.1 hd)
  constructor
  · rw [MeasureTheory.setIntegral_congr_fun measurableSet_Ico hcell, MeasureTheory.setIntegral_indicator measurableSet_Ico, Set.Ico_inter_Ico,
      MeasureTheory.setIntegral_const]
    rw [max_eq_right h0.le, min_self, Real.volume_real_Ico_of_le h1.le, smul_eq_mul]
    field_simp
  · intro hx
    have hset : {u : ℝ | u ∈ Set.Ico 0 1 ∧ cellOf (dropout x drop axis onForward train fun _ k => if k = nd.map i then u else r k) i ≠ 0} = Set.Ico drop 1 := by
      ext u
      constructor
      · rintro ⟨hu, hn⟩
        rw [hcell u hu] at hn
        by_contra hnot
        exact hn (Set.indicator_of_notMem hnot _)
      · intro hu
        have hu' : u ∈ Set.Ico (0 : ℝ) 1 := ⟨h0.le.trans hu.1, hu.2⟩
        refine ⟨hu', ?_⟩
        rw [hcell u hu', Set.indicator_of_mem hu]
        exact div_ne_zero hx hc
    rw [hset, Real.volume_Ico]

/-- The hypotheses are met: a mask on dim 7, shared over dim 3. -/
def exT : T ℚ := { dims := [3, 7], val := fun i => 1 + i 3 + 10 * i 7 }
def exRnd : List Nat → List Nat → ℚ := fun _ k => if k = [1] then 1 / 4 else 3 / 4
def exAt (r : Res (T ℚ)) (a b : Nat) : Option ℚ :=
  match r with
  | .ok y => some (y.val fun d => if d = 3 then a else b)
  | .error _ => none
example : exAt (dropout exT (1 / 2) (.dim 7) false true exRnd) 0 1 = some 0 := by decide +kernel
example : exAt (dropout exT (1 / 2) (.dim 7) false true exRnd) 1 1 = some 0 := by decide +kernel
example : exAt (dropout exT (1 / 2) (.dim 7) false true exRnd) 1 2 = some 44 := by decide +kernel
example : exAt (dropout exT (1 / 2) (.dim 7) false false exRnd) 1 2 = some 22 := by decide +kernel
example : exAt (dropout exT 1 (.dim 7) false true exRnd) 1 2 = none := by decide +kernel

end Verif.Dropout
