import Verif.WavFrames.Model
/-
C143: frames of raw wave files.
-/
namespace Verif.WavFrames
open Verif Verif.Py

variable {α : Type}

theorem frames_bounds (t l s : Nat) (hs : 0 < s) :
    0 ≤ padLength t l s ∧ padLength t l s < s := by
  unfold padLength numFrames
  have h := Int.mul_ediv_add_emod ((l : Int) - t) s
  have h1 := Int.emod_nonneg ((l : Int) - t) (b := (s : Int)) (by omega)
  have h2 := Int.emod_lt_of_pos ((l : Int) - t) (b := (s : Int)) (by omega)
  have e : (-(((l : Int) - t) / (s : Int)) + 1 - 1) * (s : Int) = -((s : Int) * (((l : Int) - t) / (s : Int))) := by
    rw [Int.add_sub_cancel, Int.neg_mul, Int.mul_comm]
  rw [e]
  omega

theorem frames_pos (t l s : Nat) (hs : 0 < s) : 1 ≤ numFrames t l s ↔ l < t + s := by
  have hb := frames_bounds t l s hs
  unfold padLength at hb
  constructor
  · intro h
    have : 0 ≤ (numFrames t l s - 1) * s := Int.mul_nonneg (by omega) (by omega)
    omega
  · intro h
    apply Classical.byContradiction
    intro hn
    have : (numFrames t l s - 1) * s ≤ (-1) * s := Int.mul_le_mul_of_nonneg_right (by omega) (by omega)
    omega

/-- The frames of a signal, and that they are at least one: the number, and what is in them: sample `i * s + j` of the signal, and zero behind its end. -/
theorem frames_content (zero : α) (x : List α) (l s : Nat) (hs : 0 < s) (hlen : l < x.length + s) :
    ∃ fs, inputFeatures zero x l s = .ok fs ∧ 1 ≤ fs.length ∧ (fs.length - 1) * s + l < x.length + s ∧ x.length ≤ (fs.length - 1) * s + l ∧
      (∀ f ∈ fs, f.length = l) ∧
      ∀ i j f, fs[i]? = some f → j < l → f[j]? = some (x[i * s + j]?.getD zero) := by
  have hb := frames_bounds x.length l s hs
  have hn := (frames_pos x.length l s hs).2 hlen
  obtain ⟨n, hn'⟩ : ∃ n : Nat, numFrames x.length l s = (n : Int) + 1 := ⟨(numFrames x.length l s - 1).toNat, by omega⟩
  have hpad : padLength x.length l s = (n * s + l : Nat) - (x.length : Int) := by
    unfold padLength; rw [hn', Int.add_sub_cancel]; simp
  have hpl : (padded zero x l s).length = n * s + l := by
    rw [padded, List.length_append, List.length_replicate, hpad]
    rw [hpad] at hb
    omega
  have htn : (numFrames x.length l s).toNat = n + 1 := by rw [hn']; omega
  rw [hpad] at hb
  have hcont : ∀ i j, i ≤ n → j < l → (frame (padded zero x l s) l s i)[j]? = some (x[i * s + j]?.getD zero) := by
    intro i j hi hj
    have hmul : i * s ≤ n * s := Nat.mul_le_mul_right s hi
    rw [frame, List.getElem?_take, if_pos hj, List.getElem?_drop, padded]
    by_cases hx : i * s + j < x.length
    · rw [List.getElem?_append_left hx, List.getElem?_eq_getElem hx]; rfl
    · have hx' : x.length ≤ i * s + j := by omega
      have hlt : i * s + j - x.length < (padLength x.length l s).toNat := by rw [hpad]; omega
      rw [List.getElem?_append_right hx', List.getElem?_replicate, if_pos hlt, List.getElem?_eq_none hx']; rfl
  refine ⟨(List.range (n + 1)).map (frame (padded zero x l s) l s), ?_, by simp, ?_, ?_, ?_, ?_⟩
  · unfold inputFeatures
    rw [if_neg (by omega), if_neg (by omega), htn]
  · simp only [List.length_map, List.length_range, Nat.add_sub_cancel]; omega
  · simp only [List.length_map, List.length_range, Nat.add_sub_cancel]; omega
  · intro f hf
    obtain ⟨i, hi, rfl⟩ := List.mem_map.1 hf
    have hi' : i ≤ n := by have := List.mem_range.1 hi; omega
    have hmul : i * s ≤ n * s := Nat.mul_le_mul_right s hi'
    rw [frame, List.length_take, List.length_drop, hpl]; omega
  · intro i j f hf hj
    rw [List.getElem?_map] at hf
    cases hr : (List.range (n + 1))[i]? with
    | none => rw [hr] at hf; cases hf
    | some i' =>
      rw [hr] at hf
      have hlt : i < n + 1 := by
        have := (List.getElem?_eq_some_iff.1 hr).1
        simpa using this
      rw [List.getElem?_range hlt] at hr
      cases hr
      simp only [Option.map_some, Option.some.injEq] at hf
      rw [← hf]
      exact hcont i j (by omega) hj

/-- No sample is lost: if the shift is at most the length of a frame, every sample is in some frame. -/
theorem no_sample_lost (zero : α) (x : List α) (l s : Nat) (hs : 0 < s) (hsl : s ≤ l) (hlen : l < x.length + s) (k : Nat) (hk : k < x.length) :
    ∃ fs, inputFeatures zero x l s = .ok fs ∧ ∃ i f j, fs[i]? = some f ∧ j < l ∧ k = i * s + j ∧ f[j]? = x[k]? := by
  obtain ⟨fs, h1, h2, h3, h4, _, h6⟩ := frames_content zero x l s hs hlen
  refine ⟨fs, h1, ?_⟩
  have key : ∃ i j, i < fs.length ∧ j < l ∧ k = i * s + j := by
    by_cases hq : k / s < fs.length
    · refine ⟨k / s, k % s, hq, ?_, ?_⟩
      · have := Nat.mod_lt k hs; omega
      · rw [Nat.mul_comm]; exact (Nat.div_add_mod k s).symm
    · have hle : (fs.length - 1) * s ≤ k := by
        have h' : (fs.length - 1) * s ≤ (k / s) * s := Nat.mul_le_mul_right s (by omega)
        have := Nat.div_mul_le_self k s
        omega
      exact ⟨fs.length - 1, k - (fs.length - 1) * s, by omega, by omega, by omega⟩
  obtain ⟨i, j, hi, hj, hkij⟩ := key
  refine ⟨i, fs[i], j, List.getElem?_eq_getElem hi, hj, hkij, ?_⟩
  rw [h6 i j _ (List.getElem?_eq_getElem hi) hj, ← hkij, List.getElem?_eq_getElem hk]; rfl

/-- A signal which is shorter than a frame by the shift or more is lost: there are no frames at all, or it is even a ValueError (if it is shorter by two shifts or more). -/
theorem short_signal_lost (zero : α) (x : List α) (l s : Nat) (hs : 0 < s) (hlen : x.length + s ≤ l) :
    (l < x.length + 2 * s → inputFeatures zero x l s = .ok []) ∧ (x.length + 2 * s ≤ l → inputFeatures zero x l s = .error .valueError) := by
  have hdiv : ∀ c : Nat, (c : Int) * s ≤ (l : Int) - x.length → (l : Int) - x.length < (c + 1) * s → numFrames x.length l s = 1 - c := by
    intro c h1 h2
    have : ((l : Int) - x.length) / (s : Int) = c := by
      apply Int.le_antisymm
      · have := Int.ediv_lt_of_lt_mul (a := (l : Int) - x.length) (b := (c : Int) + 1) (c := s) (by omega) h2
        omega
      · exact Int.le_ediv_of_mul_le (by omega) h1
    unfold numFrames
    rw [this]; omega
  constructor
  · intro h
    have hn := hdiv 1 (by simp; omega) (by simp; omega)
    unfold inputFeatures
    rw [if_neg (by omega), hn]
    rfl
  · intro h
    have hq : 2 ≤ ((l : Int) - x.length) / (s : Int) := Int.le_ediv_of_mul_le (by omega) (by omega)
    have hn : numFrames x.length l s < 0 := by unfold numFrames; omega
    unfold inputFeatures
    rw [if_neg (by omega), if_pos hn]

/-- No shift is an error. -/
theorem zero_shift (zero : α) (x : List α) (l : Nat) : inputFeatures zero x l 0 = .error .zeroDivision := rfl

example : inputFeatures 0 [1, 2, 3, 4, 5] 3 1 = .ok [[1, 2, 3], [2, 3, 4], [3, 4, 5]] := by decide +kernel
example : inputFeatures 0 [1, 2, 3, 4, 5] 2 2 = .ok [[1, 2], [3, 4], [5, 0]] := by decide +kernel
example : inputFeatures 0 [1, 2] 4 3 = .ok [[1, 2, 0, 0]] ∧ inputFeatures 0 [1, 2] 4 2 = .ok [] ∧ inputFeatures 0 [1, 2] 4 1 = .error .valueError := by decide +kernel

end Verif.WavFrames
