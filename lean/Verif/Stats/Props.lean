import Verif.Stats.Model
import Verif.Stats.Spec
import Mathlib.Tactic.Linarith
import Mathlib.Tactic.FieldSimp
import Mathlib.Tactic.Ring
import Mathlib.Algebra.BigOperators.Group.List.Basic
import Mathlib.Data.List.Induction
/-
C34: `Stats` collects the exact moments.
-/
namespace Verif.Stats
open Verif.Py

/-- Sum of squares. -/
def sq (l : List ℚ) : ℚ := (l.map (fun x => x * x)).sum

theorem sum_dev (l : List ℚ) (m : ℚ) : (l.map (fun x => x - m)).sum = l.sum - m * l.length := by
  induction l with
  | nil => simp
  | cons a l ih => simp only [List.map_cons, List.sum_cons, List.length_cons, ih]; push_cast; ring

theorem sum_dev2 (l : List ℚ) (m : ℚ) :
    (l.map (fun x => (x - m) ^ 2)).sum = sq l - 2 * m * l.sum + m * m * l.length := by
  unfold sq
  induction l with
  | nil => simp
  | cons a l ih => simp only [List.map_cons, List.sum_cons, List.length_cons, ih]; push_cast; ring

theorem sum_dev2' (l : List ℚ) (m : ℚ) :
    (l.map (fun x => (x - m) * (x - m))).sum = sq l - 2 * m * l.sum + m * m * l.length := by
  rw [← sum_dev2]; congr 1; apply List.map_congr_left; intro x _; ring

theorem sq_append (a b : List ℚ) : sq (a ++ b) = sq a + sq b := by unfold sq; simp

theorem npMin_spec {l : List ℚ} (h : l ≠ []) : IsMin l (npMin l) := by
  cases l with
  | nil => exact absurd rfl h
  | cons x l =>
    have key : ∀ (l : List ℚ) (x : ℚ), IsMin (x :: l) (l.foldl Min.min x) := by
      intro l
      induction l with
      | nil => intro x; exact ⟨by simp, by simp⟩
      | cons y l ih =>
        intro x
        obtain ⟨h1, h2⟩ := ih (Min.min x y)
        rw [List.foldl_cons]
        refine ⟨?_, ?_⟩
        · rcases List.mem_cons.1 h1 with h1 | h1
          · rcases min_choice x y with h | h <;> (rw [h1, h]; simp)
          · simp [h1]
        · intro z hz
          have h0 := h2 (Min.min x y) (by simp)
          rcases List.mem_cons.1 hz with rfl | hz
          · exact h0.trans (min_le_left _ _)
          · rcases List.mem_cons.1 hz with rfl | hz
            · exact h0.trans (min_le_right _ _)
            · exact h2 z (by simp [hz])
    exact key l x

theorem npMax_spec {l : List ℚ} (h : l ≠ []) : IsMax l (npMax l) := by
  cases l with
  | nil => exact absurd rfl h
  | cons x l =>
    have key : ∀ (l : List ℚ) (x : ℚ), IsMax (x :: l) (l.foldl Max.max x) := by
      intro l
      induction l with
      | nil => intro x; exact ⟨by simp, by simp⟩
      | cons y l ih =>
        intro x
        obtain ⟨h1, h2⟩ := ih (Max.max x y)
        rw [List.foldl_cons]
        refine ⟨?_, ?_⟩
        · rcases List.mem_cons.1 h1 with h1 | h1
          · rcases max_choice x y with h | h <;> (rw [h1, h]; simp)
          · simp [h1]
        · intro z hz
          have h0 := h2 (Max.max x y) (by simp)
          rcases List.mem_cons.1 hz with rfl | hz
          · exact (le_max_left _ _).trans h0
          · rcases List.mem_cons.1 hz with rfl | hz
            · exact (le_max_right _ _).trans h0
            · exact h2 z (by simp [hz])
    exact key l x

/-- What the fields mean for the data `l` so far. -/
structure Holds (s : St) (l : List ℚ) : Prop where
  len : s.totalLen = l.length
  mean : s.mean * l.length = l.sum
  meanSq : s.meanSq * l.length = sq l
  var : s.var * l.length = sq l - s.mean * l.sum
  min : if l = [] then s.min = none else ∃ m, s.min = some m ∧ IsMin l m
  max : if l = [] then s.max = none else ∃ m, s.max = some m ∧ IsMax l m

theorem collect_holds {s : St} {l data : List ℚ} (h : Holds s l) : Holds (collect s data) (l ++ data) := by
  unfold collect
  split
  · rename_i h0
    rw [List.length_eq_zero_iff] at h0
    rw [h0, List.append_nil]; exact h
  · rename_i h0
    have hne : data ≠ [] := fun h' => h0 (by simp [h'])
    have hd : (0 : ℚ) < (data.length : ℚ) := by exact_mod_cast Nat.pos_of_ne_zero h0
    have hl : (0 : ℚ) ≤ (l.length : ℚ) := by positivity
    have hsum : (l.length : ℚ) + data.length ≠ 0 := by linarith
    have hnd : (data.length : ℚ) ≠ 0 := ne_of_gt hd
    have hmean : (s.mean + (data.sum - s.mean * data.length) / ((l.length : ℚ) + data.length)) * ((l.length : ℚ) + data.length)
        = l.sum + data.sum := by
      rw [add_mul, div_mul_cancel₀ _ hsum, ← h.mean]; ring
    have hne2 : l ++ data ≠ [] := by simp [hne]
    refine ⟨?_, ?_, ?_, ?_, ?_, ?_⟩
    · simp [h.len]
    · simp only [h.len, List.length_append, Nat.cast_add, List.sum_append]
      exact hmean
    · simp only [h.len, List.length_append, Nat.cast_add, sq_append]
      rw [add_mul, div_mul_cancel₀ _ hsum, ← h.meanSq]; unfold sq; ring
    · simp only [h.len, List.length_append, Nat.cast_add, sq_append, List.sum_append]
      rw [div_mul_cancel₀ _ hsum, h.var]
      have hb : npVar data * data.length = sq data - data.sum * data.sum / data.length := by
        unfold npVar
        rw [div_mul_cancel₀ _ hnd, sum_dev2']
        unfold npMean
        field_simp
        ring
      rw [hb]
      have hm : s.mean + (data.sum - s.mean * data.length) / ((l.length : ℚ) + data.length) =
          (l.sum + data.sum) / ((l.length : ℚ) + data.length) := by
        rw [eq_div_iff hsum]; exact hmean
      rw [hm, ← h.mean]
      unfold npMean
      field_simp
      ring
    · rw [if_neg hne2]
      have hmin := npMin_spec hne
      have hs := h.min
      split at hs
      · rename_i hl0
        subst hl0
        exact ⟨npMin data, by simp [hs], by simpa using hmin⟩
      · obtain ⟨m, hm, h1, h2⟩ := hs
        refine ⟨Min.min m (npMin data), by simp [hm], ?_, fun x hx => ?_⟩
        · rcases min_choice m (npMin data) with h' | h' <;> rw [h', List.mem_append]
          · exact Or.inl h1
          · exact Or.inr hmin.1
        · rcases List.mem_append.1 hx with hx | hx
          · exact (min_le_left _ _).trans (h2 x hx)
          · exact (min_le_right _ _).trans (hmin.2 x hx)
    · rw [if_neg hne2]
      have hmax := npMax_spec hne
      have hs := h.max
      have hsm := h.min
      split at hs
      · rename_i hl0
        subst hl0
        exact ⟨npMax data, by simp [hs], by simpa using hmax⟩
      · rename_i hl0
        rw [if_neg hl0] at hsm
        obtain ⟨m', hm', _⟩ := hsm
        obtain ⟨m, hm, h1, h2⟩ := hs
        refine ⟨Max.max m (npMax data), by simp [hm, hm'], ?_, fun x hx => ?_⟩
        · rcases max_choice m (npMax data) with h' | h' <;> rw [h', List.mem_append]
          · exact Or.inl h1
          · exact Or.inr hmax.1
        · rcases List.mem_append.1 hx with hx | hx
          · exact (h2 x hx).trans (le_max_left _ _)
          · exact (hmax.2 x hx).trans (le_max_right _ _)

theorem collectAll_holds (chunks : List (List ℚ)) : Holds (collectAll chunks) chunks.flatten := by
  unfold collectAll
  induction chunks using List.reverseRecOn with
  | nil => exact ⟨rfl, by simp, by simp [sq], by simp [sq], by simp, by simp⟩
  | append_singleton cs c ih =>
    rw [List.foldl_append, List.flatten_append]
    simp only [List.foldl_cons, List.foldl_nil, List.flatten_cons, List.flatten_nil, List.append_nil]
    exact collect_holds ih

theorem numSeqs_eq (chunks : List (List ℚ)) :
    (collectAll chunks).numSeqs = (chunks.filter (fun c => decide (c ≠ []))).length := by
  unfold collectAll
  induction chunks using List.reverseRecOn with
  | nil => rfl
  | append_singleton cs c ih =>
    rw [List.foldl_append, List.filter_append, List.length_append, ← ih]
    simp only [List.foldl_cons, List.foldl_nil]
    cases c with
    | nil => simp [collect]
    | cons a l => simp [collect]

theorem flatten_ne_nil {chunks : List (List ℚ)} (h : chunks.flatten ≠ []) : 0 < (collectAll chunks).numSeqs := by
  rw [numSeqs_eq]
  obtain ⟨x, hx⟩ := List.exists_mem_of_ne_nil _ h
  obtain ⟨c, hc, hxc⟩ := List.mem_flatten.1 hx
  apply List.length_pos_of_mem (a := c)
  rw [List.mem_filter]
  exact ⟨hc, by simp; rintro rfl; cases hxc⟩

/-- C34. However the data is split into chunks, `get_mean` is the exact mean of all data and `get_std_dev` (before the
square root) is the exact variance; total length, number of chunks with data, minimum and maximum are right. -/
theorem stats_exact (chunks : List (List ℚ)) (h : chunks.flatten ≠ []) :
    ∃ m v, getMean (collectAll chunks) = .ok m ∧ IsMean chunks.flatten m ∧
      getVar (collectAll chunks) = .ok v ∧ IsVar chunks.flatten m v ∧
      (collectAll chunks).totalLen = chunks.flatten.length ∧
      (collectAll chunks).numSeqs = (chunks.filter (fun c => decide (c ≠ []))).length ∧
      (∃ a, (collectAll chunks).min = some a ∧ IsMin chunks.flatten a) ∧
      (∃ b, (collectAll chunks).max = some b ∧ IsMax chunks.flatten b) := by
  have H := collectAll_holds chunks
  have hn := flatten_ne_nil h
  have hmin := H.min
  have hmax := H.max
  rw [if_neg h] at hmin hmax
  refine ⟨_, _, by unfold getMean; rw [if_pos hn], ?_, by unfold getVar; rw [if_pos hn], ?_, H.len, numSeqs_eq chunks, hmin, hmax⟩
  · unfold IsMean; rw [sum_dev, H.mean]; ring
  · unfold IsVar; rw [sum_dev2, H.var, ← H.mean]; ring

/-- C34. The field `mean_sq` is the exact mean of the squares (so variance = mean_sq - mean²). -/
theorem mean_sq_exact (chunks : List (List ℚ)) (h : chunks.flatten ≠ []) :
    IsMean (chunks.flatten.map (fun x => x ^ 2)) (collectAll chunks).meanSq ∧
      (collectAll chunks).var = (collectAll chunks).meanSq - (collectAll chunks).mean ^ 2 := by
  have H := collectAll_holds chunks
  have hpos : ((chunks.flatten.length : Nat) : ℚ) ≠ 0 := by
    have : chunks.flatten.length ≠ 0 := fun h0 => h (List.length_eq_zero_iff.1 h0)
    exact_mod_cast this
  constructor
  · unfold IsMean
    rw [sum_dev, List.length_map, H.meanSq]
    unfold sq
    have : (List.map (fun x : ℚ => x ^ 2) chunks.flatten) = List.map (fun x => x * x) chunks.flatten :=
      List.map_congr_left (fun x _ => by ring)
    rw [this]; ring
  · apply mul_right_cancel₀ hpos
    rw [H.var, sub_mul, H.meanSq, ← H.mean]; ring

/-- The mean and the variance in `IsMean` and `IsVar` are unique: the result does not depend on the split. -/
theorem stats_split_independent (c₁ c₂ : List (List ℚ)) (h : c₁.flatten = c₂.flatten) (hne : c₁.flatten ≠ []) :
    getMean (collectAll c₁) = getMean (collectAll c₂) ∧ getVar (collectAll c₁) = getVar (collectAll c₂) ∧
      (collectAll c₁).min = (collectAll c₂).min ∧ (collectAll c₁).max = (collectAll c₂).max := by
  have H1 := collectAll_holds c₁
  have H2 := collectAll_holds c₂
  have hpos : ((c₂.flatten.length : Nat) : ℚ) ≠ 0 := by
    have : c₂.flatten.length ≠ 0 := fun h0 => hne (by rw [h]; exact List.length_eq_zero_iff.1 h0)
    exact_mod_cast this
  rw [h] at H1
  have hm : (collectAll c₁).mean = (collectAll c₂).mean := mul_right_cancel₀ hpos (by rw [H1.mean, H2.mean])
  have hv : (collectAll c₁).var = (collectAll c₂).var := mul_right_cancel₀ hpos (by rw [H1.var, H2.var, hm])
  have hne2 : c₂.flatten ≠ [] := h ▸ hne
  refine ⟨?_, ?_, ?_, ?_⟩
  · unfold getMean; rw [if_pos (flatten_ne_nil hne), if_pos (flatten_ne_nil hne2), hm]
  · unfold getVar; rw [if_pos (flatten_ne_nil hne), if_pos (flatten_ne_nil hne2), hv]
  · have a := H1.min; have b := H2.min
    rw [if_neg hne2] at a b
    obtain ⟨x, hx, hx1, hx2⟩ := a
    obtain ⟨y, hy, hy1, hy2⟩ := b
    rw [hx, hy, le_antisymm (hx2 y hy1) (hy2 x hx1)]
  · have a := H1.max; have b := H2.max
    rw [if_neg hne2] at a b
    obtain ⟨x, hx, hx1, hx2⟩ := a
    obtain ⟨y, hy, hy1, hy2⟩ := b
    rw [hx, hy, le_antisymm (hy2 x hx1) (hx2 y hy1)]

/-- Without data, `get_mean` and `get_std_dev` fail with AssertionError. -/
theorem stats_no_data (chunks : List (List ℚ)) (h : chunks.flatten = []) :
    getMean (collectAll chunks) = .error .assertion ∧ getVar (collectAll chunks) = .error .assertion := by
  have hn : (collectAll chunks).numSeqs = 0 := by
    rw [numSeqs_eq, List.length_eq_zero_iff, List.filter_eq_nil_iff]
    intro c hc
    have := List.flatten_eq_nil_iff.1 h c hc
    simp [this]
  unfold getMean getVar
  rw [hn]; simp

example : collectAll [[1, 2], [], [3, 6]] =
    { mean := 3, meanSq := 25 / 2, var := 7 / 2, min := some 1, max := some 6, totalLen := 4, numSeqs := 2 } := by
  decide +kernel

end Verif.Stats
