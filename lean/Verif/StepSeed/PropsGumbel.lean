import Verif.StepSeed.Props
import Mathlib.Analysis.SpecialFunctions.Pow.Real
import Mathlib.Analysis.SpecialFunctions.Integrals.Basic
import Mathlib.MeasureTheory.Constructions.Pi
import Mathlib.MeasureTheory.Measure.Lebesgue.Basic
/-
C140: the sample without replacement has the right probability (Gumbel-max).
-/
namespace Verif.StepSeed
open MeasureTheory

/-- One score is higher than another exactly if the one random number is smaller than a power of the other. -/
theorem score_lt_iff {n : Nat} (p u : Fin n → ℝ) (i j : Fin n) (hi : 0 < p i) (hj : 0 < p j) (hui : 0 < u i ∧ u i < 1) (huj : 0 < u j ∧ u j < 1) :
    score (fun k => Real.log (p k)) u 1 j < score (fun k => Real.log (p k)) u 1 i ↔ u j < u i ^ (p j / p i) := by
  have li : 0 < -Real.log (u i) := by have := Real.log_neg hui.1 hui.2; linarith
  have lj : 0 < -Real.log (u j) := by have := Real.log_neg huj.1 huj.2; linarith
  have e1 : ∀ k, score (fun k => Real.log (p k)) u 1 k = Real.log (p k) - Real.log (-Real.log (u k)) := by
    intro k; simp [score, scaled, noise, sub_eq_add_neg]
  rw [e1, e1, ← Real.log_div hj.ne' lj.ne', ← Real.log_div hi.ne' li.ne', Real.log_lt_log_iff (div_pos hj lj) (div_pos hi li),
    div_lt_div_iff₀ lj li, ← Real.log_lt_log_iff huj.1 (Real.rpow_pos_of_pos hui.1 _), Real.log_rpow hui.1, div_mul_eq_mul_div, lt_div_iff₀ hi]
  constructor <;> intro h <;> nlinarith

/-- The random numbers, all strictly between zero and one, for which `i` has the highest score. -/
def Wins {n : Nat} (p : Fin n → ℝ) (i : Fin n) : Set (Fin n → ℝ) :=
  {u | (∀ j, 0 < u j ∧ u j < 1) ∧ ∀ j, j ≠ i → score (fun k => Real.log (p k)) u 1 j < score (fun k => Real.log (p k)) u 1 i}

/-- The same, with the random number of `i` first. -/
def Region {n : Nat} (c : Fin n → ℝ) : Set (ℝ × (Fin n → ℝ)) :=
  {z | (0 < z.1 ∧ z.1 < 1) ∧ ∀ j, 0 < z.2 j ∧ z.2 j < z.1 ^ c j}

theorem measurable_region {n : Nat} (c : Fin n → ℝ) : MeasurableSet (Region c) := by
  have h1 : Measurable fun z : ℝ × (Fin n → ℝ) => z.1 := measurable_fst
  have h2 : ∀ j, Measurable fun z : ℝ × (Fin n → ℝ) => z.2 j := fun j => (measurable_pi_apply j).comp measurable_snd
  have h3 : ∀ j, Measurable fun z : ℝ × (Fin n → ℝ) => z.1 ^ c j := fun j => h1.pow_const _
  have e : Region c = ({z | 0 < z.1} ∩ {z | z.1 < 1}) ∩ ⋂ j, ({z | 0 < z.2 j} ∩ {z | z.2 j < z.1 ^ c j}) := by
    ext z; simp [Region]
  rw [e]
  exact ((measurableSet_lt measurable_const h1).inter (measurableSet_lt h1 measurable_const)).inter
    (MeasurableSet.iInter fun j => (measurableSet_lt measurable_const (h2 j)).inter (measurableSet_lt (h2 j) (h3 j)))

theorem integral_pow (C : ℝ) (hC : 0 ≤ C) : ∫⁻ x in Set.Ioo (0 : ℝ) 1, ENNReal.ofReal (x ^ C) = ENNReal.ofReal (1 / (C + 1)) := by
  have hint : IntervalIntegrable (fun x : ℝ => x ^ C) volume 0 1 := intervalIntegral.intervalIntegrable_rpow' (by linarith)
  have hval : ∫ x in (0 : ℝ)..1, x ^ C = 1 / (C + 1) := by
    rw [integral_rpow (Or.inl (by linarith)), Real.one_rpow, Real.zero_rpow (by linarith), sub_zero]
  rw [setLIntegral_congr Ioo_ae_eq_Ioc, ← ofReal_integral_eq_lintegral_ofReal]
  · rw [← intervalIntegral.integral_of_le zero_le_one, hval]
  · exact (intervalIntegrable_iff_integrableOn_Ioc_of_le zero_le_one).1 hint
  · exact (ae_restrict_iff' measurableSet_Ioc).2 (Filter.Eventually.of_forall fun x hx => Real.rpow_nonneg hx.1.le _)

theorem volume_region {n : Nat} (c : Fin n → ℝ) (hc : ∀ j, 0 ≤ c j) :
    (volume : Measure (ℝ × (Fin n → ℝ))) (Region c) = ENNReal.ofReal (1 / ((∑ j, c j) + 1)) := by
  have hslice : ∀ x : ℝ, (volume : Measure (Fin n → ℝ)) (Prod.mk x ⁻¹' Region c) =
      (Set.Ioo (0 : ℝ) 1).indicator (fun x => ENNReal.ofReal (x ^ ∑ j, c j)) x := by
    intro x
    by_cases hx : x ∈ Set.Ioo (0 : ℝ) 1
    · rw [Set.indicator_of_mem hx]
      have e : Prod.mk x ⁻¹' Region c = Set.pi Set.univ fun j => Set.Ioo ((fun _ => 0 : Fin n → ℝ) j) (x ^ c j) := by
        ext y
        have hx' : 0 < x ∧ x < 1 := hx
        simp [Region, hx', Set.mem_pi]
      rw [e, Real.volume_pi_Ioo, Real.rpow_sum_of_pos hx.1, ENNReal.ofReal_prod_of_nonneg fun j _ => Real.rpow_nonneg hx.1.le _]
      simp
    · rw [Set.indicator_of_notMem hx]
      have e : Prod.mk x ⁻¹' Region c = ∅ := by
        ext y
        simp only [Region, Set.mem_preimage, Set.mem_setOf_eq, Set.mem_empty_iff_false, iff_false]
        intro h; exact hx h.1
      rw [e, measure_empty]
  rw [Measure.volume_eq_prod, Measure.prod_apply (measurable_region c)]
  simp_rw [hslice]
  rw [lintegral_indicator measurableSet_Ioo, integral_pow _ (Finset.sum_nonneg fun j _ => hc j)]

/-- The volume of the random numbers for which `i` wins is its share of the probabilities. -/
theorem wins_volume {n : Nat} (p : Fin (n + 1) → ℝ) (hp : ∀ j, 0 < p j) (i : Fin (n + 1)) :
    MeasurableSet (Wins p i) ∧ volume (Wins p i) = ENNReal.ofReal (p i / ∑ j, p j) := by
  have hmp := volume_preserving_piFinSuccAbove (fun _ : Fin (n + 1) => ℝ) i
  have e : Wins p i = MeasurableEquiv.piFinSuccAbove (fun _ : Fin (n + 1) => ℝ) i ⁻¹' Region fun j : Fin n => p (i.succAbove j) / p i := by
    ext u
    have e1 : MeasurableEquiv.piFinSuccAbove (fun _ : Fin (n + 1) => ℝ) i u = (u i, fun j => u (i.succAbove j)) := rfl
    simp only [Set.mem_preimage, e1, Region, Wins, Set.mem_setOf_eq]
    constructor
    · rintro ⟨h1, h2⟩
      refine ⟨h1 i, fun j => ⟨(h1 _).1, ?_⟩⟩
      exact (score_lt_iff p u i _ (hp _) (hp _) (h1 i) (h1 _)).1 (h2 _ (Fin.succAbove_ne i j))
    · rintro ⟨h1, h2⟩
      have h3 : ∀ j, 0 < u j ∧ u j < 1 := by
        intro j
        by_cases hj : j = i
        · rw [hj]; exact h1
        · obtain ⟨k, rfl⟩ := Fin.exists_succAbove_eq hj
          exact ⟨(h2 k).1, (h2 k).2.trans (Real.rpow_lt_one h1.1.le h1.2 (div_pos (hp _) (hp _)))⟩
      refine ⟨h3, ?_⟩
      intro j hj
      obtain ⟨k, rfl⟩ := Fin.exists_succAbove_eq hj
      exact (score_lt_iff p u i _ (hp _) (hp _) h1 (h3 _)).2 (h2 k).2
  refine ⟨by rw [e]; exact hmp.measurable (measurable_region _), ?_⟩
  rw [e, hmp.measure_preimage (measurable_region _).nullMeasurableSet, volume_region _ fun j => (div_pos (hp _) (hp _)).le]
  congr 1
  rw [Fin.sum_univ_succAbove p i, ← Finset.sum_div]
  have := hp i
  field_simp
  ring

/-- Sampling one index with independent uniform random numbers gives every index with its probability: the volume of the random numbers in the unit cube for which the
sample is `i` is `p i / sum p`. -/
theorem sample_probability {n : Nat} (p : Fin (n + 1) → ℝ) (hp : ∀ j, 0 < p j) (i : Fin (n + 1)) :
    volume {u : Fin (n + 1) → ℝ | (∀ j, 0 < u j ∧ u j < 1) ∧ choice (fun k => Real.log (p k)) u 1 1 = .ok [i]} = ENNReal.ofReal (p i / ∑ j, p j) := by
  have hsum : 0 < ∑ j, p j := Finset.sum_pos (fun j _ => hp j) ⟨i, Finset.mem_univ i⟩
  have hcube : volume (Set.pi Set.univ fun _ : Fin (n + 1) => Set.Ioo (0 : ℝ) 1) = 1 := by
    rw [Real.volume_pi_Ioo (a := fun _ => 0) (b := fun _ => 1)]; simp
  have hsub : ∀ j u, u ∈ Wins p j → choice (fun k => Real.log (p k)) u 1 1 = .ok [j] := fun j u hu => first_is_best _ u 1 j hu.2
  apply le_antisymm
  · let A := {u : Fin (n + 1) → ℝ | (∀ j, 0 < u j ∧ u j < 1) ∧ choice (fun k => Real.log (p k)) u 1 1 = .ok [i]}
    let U := ⋃ j ∈ Finset.univ.erase i, Wins p j
    have hUm : MeasurableSet U := Finset.measurableSet_biUnion _ fun j _ => (wins_volume p hp j).1
    have hUv : volume U = ∑ j ∈ Finset.univ.erase i, ENNReal.ofReal (p j / ∑ j, p j) := by
      rw [measure_biUnion_finset _ fun j _ => (wins_volume p hp j).1]
      · exact Finset.sum_congr rfl fun j _ => (wins_volume p hp j).2
      · intro a _ b _ hab
        refine Set.disjoint_left.2 fun u ha hb => hab ?_
        have h := (hsub a u ha).symm.trans (hsub b u hb)
        simpa using h
    have hd : Disjoint A U := by
      refine Set.disjoint_left.2 fun u ha hu => ?_
      simp only [U, Set.mem_iUnion] at hu
      obtain ⟨j, hj, hw⟩ := hu
      have h := ha.2.symm.trans (hsub j u hw)
      have : i = j := by simpa using h
      exact (Finset.mem_erase.1 hj).1 this.symm
    have hle : volume (A ∪ U) ≤ 1 := by
      rw [← hcube]
      apply measure_mono
      rintro u (hu | hu)
      · exact fun j _ => hu.1 j
      · simp only [U, Set.mem_iUnion] at hu
        obtain ⟨j, _, hw⟩ := hu
        exact fun k _ => hw.1 k
    rw [measure_union hd hUm, hUv] at hle
    have hone : (1 : ENNReal) = ENNReal.ofReal (p i / ∑ j, p j) + ∑ j ∈ Finset.univ.erase i, ENNReal.ofReal (p j / ∑ j, p j) := by
      rw [Finset.add_sum_erase Finset.univ (fun j => ENNReal.ofReal (p j / ∑ j, p j)) (Finset.mem_univ i),
        ← ENNReal.ofReal_sum_of_nonneg fun j _ => (div_pos (hp j) hsum).le, ← Finset.sum_div, div_self hsum.ne', ENNReal.ofReal_one]
    rw [hone] at hle
    exact (ENNReal.add_le_add_iff_right (ENNReal.sum_ne_top.2 fun j _ => ENNReal.ofReal_ne_top)).1 hle
  · rw [← (wins_volume p hp i).2]
    exact measure_mono fun u hu => ⟨hu.1, hsub i u hu⟩

/-- For example with the weights 1, 2, 3 the last one is sampled half of the time. -/
example : volume {u : Fin 3 → ℝ | (∀ j, 0 < u j ∧ u j < 1) ∧ choice (fun k : Fin 3 => Real.log ((k : ℝ) + 1)) u 1 1 = .ok [2]} = ENNReal.ofReal (1 / 2) := by
  rw [sample_probability (fun k : Fin 3 => (k : ℝ) + 1) (fun j => by positivity) 2]
  congr 1
  simp [Fin.sum_univ_succ]
  norm_num

end Verif.StepSeed
