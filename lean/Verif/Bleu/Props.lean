import Verif.Bleu.Lemmas
import Mathlib.Tactic.Linarith
import Mathlib.Tactic.FieldSimp
import Mathlib.Tactic.Positivity
import Mathlib.Tactic.NormNum
import Mathlib.Algebra.Order.BigOperators.Group.List
/-
C136: BLEU.
-/
namespace Verif.Bleu
open Verif Verif.Py

variable {τ : Type} [DecidableEq τ]

/-- The loop counts what BLEU is defined by: for every order the clipped matches and the number of n-grams of the translations, and the lengths. -/
theorem counts (N : Nat) (refs trs : List (List τ)) :
    (collect N refs trs).refLen = ((refs.zip trs).map fun p => p.1.length).sum ∧ (collect N refs trs).trLen = ((refs.zip trs).map fun p => p.2.length).sum ∧
    (collect N refs trs).matched = (List.range N).map (fun n => Spec.matched (n + 1) (refs.zip trs)) ∧
    (collect N refs trs).possible = (List.range N).map (fun n => Spec.possible (n + 1) (refs.zip trs)) := by
  obtain ⟨h1, h2, h3, h4, h5⟩ := fold_spec N (refs.zip trs) ⟨0, 0, List.replicate N 0, List.replicate N 0⟩ (by simp) (by simp)
  refine ⟨by simpa [collect] using h1, by simpa [collect] using h2, ?_, ?_⟩
  · apply List.ext_getElem?
    intro n
    by_cases hn : n < N
    · have := (h5 n hn).1
      simp only [collect, this, List.getElem?_map, List.getElem?_replicate, List.getElem?_range hn, if_pos hn]; simp
    · rw [List.getElem?_eq_none (by simp only [collect]; rw [h3]; omega), List.getElem?_eq_none (by simp; omega)]
  · apply List.ext_getElem?
    intro n
    by_cases hn : n < N
    · have := (h5 n hn).2
      simp only [collect, this, List.getElem?_map, List.getElem?_replicate, List.getElem?_range hn, if_pos hn]; simp
    · rw [List.getElem?_eq_none (by simp only [collect]; rw [h4]; omega), List.getElem?_eq_none (by simp; omega)]

theorem zip_counts (N : Nat) (refs trs : List (List τ)) :
    (collect N refs trs).matched.zip (collect N refs trs).possible =
      (List.range N).map fun n => (Spec.matched (n + 1) (refs.zip trs), Spec.possible (n + 1) (refs.zip trs)) := by
  obtain ⟨_, _, h3, h4⟩ := counts N refs trs
  rw [h3, h4, List.zip_map']

theorem precisions_length (l : List (Nat × Nat)) (s : ℝ) : (precisions l s).length = l.length := by
  induction l generalizing s with
  | nil => rfl
  | cons x t ih =>
    obtain ⟨m, p⟩ := x
    simp only [precisions]
    split
    · split <;> simp [ih]
    · simp [ih]

theorem precisions_range (l : List (Nat × Nat)) (s : ℝ) (hs : 1 ≤ s) (hl : ∀ x ∈ l, x.1 ≤ x.2) : ∀ q ∈ precisions l s, 0 ≤ q ∧ q ≤ 1 := by
  induction l generalizing s with
  | nil => simp [precisions]
  | cons x t ih =>
    obtain ⟨m, p⟩ := x
    have hmp : m ≤ p := hl (m, p) (by simp)
    have ht : ∀ x ∈ t, x.1 ≤ x.2 := fun y hy => hl y (by simp [hy])
    simp only [precisions]
    split
    · rename_i hp
      have hp' : (0 : ℝ) < p := by exact_mod_cast hp
      split
      · intro q hq
        rcases List.mem_cons.1 hq with rfl | hq
        · refine ⟨by positivity, ?_⟩
          rw [div_le_one hp']; exact_mod_cast hmp
        · exact ih s hs ht q hq
      · intro q hq
        rcases List.mem_cons.1 hq with rfl | hq
        · have hp1 : (1 : ℝ) ≤ p := by exact_mod_cast hp
          have : 1 ≤ s * 2 * p := by nlinarith
          refine ⟨by positivity, ?_⟩
          rw [div_le_one (by linarith)]; exact this
        · exact ih (s * 2) (by linarith) ht q hq
    · intro q hq
      rcases List.mem_cons.1 hq with rfl | hq
      · norm_num
      · exact ih s hs ht q hq

theorem sum_nonpos (l : List ℝ) (h : ∀ x ∈ l, x ≤ 0) : l.sum ≤ 0 := by
  induction l with
  | nil => simp
  | cons x t ih =>
    have h1 := h x (by simp)
    have h2 := ih fun y hy => h y (by simp [hy])
    rw [List.sum_cons]; linarith

theorem geoMean_range (ps : List ℝ) (N : Nat) (h : ∀ q ∈ ps, 0 ≤ q ∧ q ≤ 1) : 0 ≤ geoMean ps N ∧ geoMean ps N ≤ 1 := by
  unfold geoMean
  split
  · refine ⟨(Real.exp_pos _).le, ?_⟩
    rw [Real.exp_le_one_iff]
    apply div_nonpos_of_nonpos_of_nonneg
    · apply sum_nonpos
      intro y hy
      obtain ⟨q, hq, rfl⟩ := List.mem_map.1 hy
      have hq' := h q (List.mem_filter.1 hq).1
      exact Real.log_nonpos hq'.1 hq'.2
    · positivity
  · norm_num

theorem penalty_range (r : ℝ) : 0 ≤ penalty r ∧ penalty r ≤ 1 := by
  unfold penalty
  split
  · norm_num
  · split
    · rename_i h1 h2
      refine ⟨(Real.exp_pos _).le, ?_⟩
      rw [Real.exp_le_one_iff]
      have hr : 0 < r := lt_of_lt_of_le (by positivity) (not_lt.1 h1)
      have : 1 ≤ 1 / r := by rw [le_div_iff₀ hr]; linarith
      linarith
    · norm_num

/-- When there is a result, and when not: no order at all is a ValueError, references without any token are a division by zero if the brevity penalty is used. -/
theorem result_or_error (refs trs : List (List τ)) (N : Nat) (bp : Bool) :
    (N = 0 → computeBleu refs trs N bp = .error .valueError) ∧
    (0 < N → bp = true → ((refs.zip trs).map fun p => p.1.length).sum = 0 → computeBleu refs trs N bp = .error .zeroDivision) ∧
    (0 < N → (bp = false ∨ 0 < ((refs.zip trs).map fun p => p.1.length).sum) → ∃ b, computeBleu refs trs N bp = .ok b) := by
  have hlen : (precisions ((collect N refs trs).matched.zip (collect N refs trs).possible) 1).length = N := by
    rw [precisions_length, zip_counts]; simp
  have hr := (counts N refs trs).1
  refine ⟨?_, ?_, ?_⟩
  · intro h
    have : (precisions ((collect N refs trs).matched.zip (collect N refs trs).possible) 1) = [] := by
      apply List.eq_nil_of_length_eq_zero; rw [hlen, h]
    simp only [computeBleu, this, List.isEmpty_nil, if_true]
  · intro h hb h0
    have : ¬ (precisions ((collect N refs trs).matched.zip (collect N refs trs).possible) 1).isEmpty = true := by
      rw [List.isEmpty_iff]; intro e; rw [e] at hlen; simp at hlen; omega
    simp only [computeBleu, if_neg this, hb, if_true, hr, h0]
  · intro h hb
    have : ¬ (precisions ((collect N refs trs).matched.zip (collect N refs trs).possible) 1).isEmpty = true := by
      rw [List.isEmpty_iff]; intro e; rw [e] at hlen; simp at hlen; omega
    simp only [computeBleu, if_neg this]
    cases bp with
    | false => exact ⟨_, rfl⟩
    | true =>
      rcases hb with hb | hb
      · cases hb
      · rw [if_pos rfl, hr, if_neg (by omega)]; exact ⟨_, rfl⟩

/-- Every score is between 0 and 1. -/
theorem score_range (refs trs : List (List τ)) (N : Nat) (bp : Bool) (b : ℝ) (h : computeBleu refs trs N bp = .ok b) : 0 ≤ b ∧ b ≤ 1 := by
  have hp : ∀ q ∈ precisions ((collect N refs trs).matched.zip (collect N refs trs).possible) 1, 0 ≤ q ∧ q ≤ 1 := by
    apply precisions_range _ _ (le_refl 1)
    rw [zip_counts]
    intro x hx
    obtain ⟨n, _, rfl⟩ := List.mem_map.1 hx
    exact matched_le (n + 1) (by omega) _
  have hg := geoMean_range _ N hp
  simp only [computeBleu] at h
  split at h
  · cases h
  · split at h
    · split at h
      · cases h
      · cases h
        have hpen := penalty_range (((collect N refs trs).trLen : ℝ) / (collect N refs trs).refLen)
        exact ⟨mul_nonneg hg.1 hpen.1, mul_le_one₀ hg.2 hpen.1 hpen.2⟩
    · cases h
      rw [mul_one]; exact hg

/-- The score depends only on the multiset of pairs: the order of the sentences is irrelevant. -/
theorem order_irrelevant (refs trs refs' trs' : List (List τ)) (N : Nat) (bp : Bool) (h : (refs.zip trs).Perm (refs'.zip trs')) :
    computeBleu refs trs N bp = computeBleu refs' trs' N bp := by
  have hm : ∀ n, Spec.matched n (refs.zip trs) = Spec.matched n (refs'.zip trs') := fun n => (h.map _).sum_eq
  have hp : ∀ n, Spec.possible n (refs.zip trs) = Spec.possible n (refs'.zip trs') := fun n => (h.map _).sum_eq
  have e : collect N refs trs = collect N refs' trs' := by
    obtain ⟨a1, a2, a3, a4⟩ := counts N refs trs
    obtain ⟨b1, b2, b3, b4⟩ := counts N refs' trs'
    have c1 : (collect N refs trs).refLen = (collect N refs' trs').refLen := by rw [a1, b1]; exact (h.map _).sum_eq
    have c2 : (collect N refs trs).trLen = (collect N refs' trs').trLen := by rw [a2, b2]; exact (h.map _).sum_eq
    have c3 : (collect N refs trs).matched = (collect N refs' trs').matched := by rw [a3, b3]; simp only [hm]
    have c4 : (collect N refs trs).possible = (collect N refs' trs').possible := by rw [a4, b4]; simp only [hp]
    cases hx : collect N refs trs
    cases hy : collect N refs' trs'
    rw [hx, hy] at c1 c2 c3 c4
    simp_all
  simp only [computeBleu, e]

theorem precisions_all (l : List (Nat × Nat)) (s : ℝ) (h : ∀ x ∈ l, 0 < x.1 ∧ x.1 ≤ x.2) : precisions l s = l.map fun x => (x.1 : ℝ) / x.2 := by
  induction l generalizing s with
  | nil => rfl
  | cons x t ih =>
    obtain ⟨m, p⟩ := x
    have hx := h (m, p) (by simp)
    simp only [precisions, List.map_cons]
    rw [if_pos (by have := hx.1; have := hx.2; simp only at *; omega), if_pos hx.1, ih s (fun y hy => h y (by simp [hy]))]

/-- When every order has a match, the score is the BLEU of the definition: the geometric mean of the clipped precisions, times the brevity penalty, 1 for
translations as long as the references and `exp(1 - r/c)` for shorter ones (references of less than 10^30 tokens). -/
theorem standard_bleu (refs trs : List (List τ)) (N : Nat) (hN : 0 < N) (hm : ∀ n, 1 ≤ n → n ≤ N → 0 < Spec.matched n (refs.zip trs)) (r c : Nat)
    (hr : r = ((refs.zip trs).map fun p => p.1.length).sum) (hc : c = ((refs.zip trs).map fun p => p.2.length).sum) (hr0 : 0 < r) (hc0 : 0 < c) (hr1 : r < 10 ^ 30) :
    computeBleu refs trs N true = .ok
      (Real.exp ((((List.range N).map fun n => Real.log ((Spec.matched (n + 1) (refs.zip trs) : ℝ) / Spec.possible (n + 1) (refs.zip trs))).sum) / N) *
        if r ≤ c then 1 else Real.exp (1 - (r : ℝ) / c)) := by
  have hz := zip_counts N refs trs
  have hall : ∀ x ∈ (List.range N).map (fun n => (Spec.matched (n + 1) (refs.zip trs), Spec.possible (n + 1) (refs.zip trs))), 0 < x.1 ∧ x.1 ≤ x.2 := by
    intro x hx
    obtain ⟨n, hn, rfl⟩ := List.mem_map.1 hx
    exact ⟨hm (n + 1) (by omega) (by have := List.mem_range.1 hn; omega), matched_le (n + 1) (by omega) _⟩
  have hps := precisions_all _ 1 hall
  obtain ⟨h1, h2, _, _⟩ := counts N refs trs
  have hne : ¬ (((List.range N).map (fun n => (Spec.matched (n + 1) (refs.zip trs), Spec.possible (n + 1) (refs.zip trs)))).map
      fun x => (x.1 : ℝ) / x.2).isEmpty = true := by
    rw [List.isEmpty_iff]; intro e
    have := congrArg List.length e; simp at this; omega
  have hpos : ∀ q ∈ ((List.range N).map (fun n => (Spec.matched (n + 1) (refs.zip trs), Spec.possible (n + 1) (refs.zip trs)))).map
      (fun x => (x.1 : ℝ) / x.2), 0 < q := by
    intro q hq
    obtain ⟨x, hx, rfl⟩ := List.mem_map.1 hq
    obtain ⟨ha, hb⟩ := hall x hx
    have ha' : (0 : ℝ) < x.1 := by exact_mod_cast ha
    have hb' : (0 : ℝ) < x.2 := by exact_mod_cast (lt_of_lt_of_le ha hb)
    exact div_pos ha' hb'
  simp only [computeBleu, hz, hps, if_neg hne, if_true, h1, h2, ← hr, ← hc, if_neg (show ¬ r = 0 by omega)]
  congr 1
  congr 1
  · unfold geoMean
    rw [if_pos, List.filter_eq_self.2]
    · rw [List.map_map, List.map_map]; rfl
    · intro q hq; simpa using (hpos q hq).ne'
    · cases N with
      | zero => omega
      | succ N =>
        refine ⟨(Spec.matched 1 (refs.zip trs) : ℝ) / Spec.possible 1 (refs.zip trs), ?_, ?_⟩
        · rw [List.map_map, List.mem_map]; exact ⟨0, by simp, rfl⟩
        · apply hpos; rw [List.map_map, List.mem_map]; exact ⟨0, by simp, rfl⟩
  · have hrR : (0 : ℝ) < r := by exact_mod_cast hr0
    have hcR : (0 : ℝ) < c := by exact_mod_cast hc0
    have hc1 : (1 : ℝ) ≤ c := by exact_mod_cast hc0
    have hr30 : (r : ℝ) < 10 ^ 30 := by exact_mod_cast hr1
    unfold penalty
    rw [if_neg]
    · by_cases hrc : r ≤ c
      · rw [if_pos hrc, if_neg]
        rw [not_lt, le_div_iff₀ hrR, one_mul]; exact_mod_cast hrc
      · have hcr : (c : ℝ) < r := by exact_mod_cast (not_le.1 hrc)
        rw [if_neg hrc, if_pos (by rw [div_lt_one hrR]; exact hcr), one_div_div]
    · rw [not_lt, div_le_div_iff₀ (by positivity) hrR]
      nlinarith

theorem precisions_perfect (l : List (Nat × Nat)) (s : ℝ) (h : ∀ x ∈ l, x.1 = x.2) : ∀ q ∈ precisions l s, q = 0 ∨ q = 1 := by
  induction l generalizing s with
  | nil => simp [precisions]
  | cons x t ih =>
    obtain ⟨m, p⟩ := x
    have hx : m = p := h (m, p) (by simp)
    have ht := ih s (fun y hy => h y (by simp [hy]))
    subst hx
    simp only [precisions]
    split
    · rename_i hp
      intro q hq
      rcases List.mem_cons.1 hq with rfl | hq
      · right; exact div_self (by exact_mod_cast hp.ne')
      · exact ht q hq
    · intro q hq
      rcases List.mem_cons.1 hq with rfl | hq
      · left; rfl
      · exact ht q hq

theorem geoMean_perfect (ps : List ℝ) (N : Nat) (h : ∀ q ∈ ps, q = 0 ∨ q = 1) (h1 : (1 : ℝ) ∈ ps) : geoMean ps N = 1 := by
  unfold geoMean
  rw [if_pos ⟨1, h1, by norm_num⟩]
  have : ((ps.filter fun p => p ≠ 0).map Real.log).sum = 0 := by
    apply List.sum_eq_zero
    intro y hy
    obtain ⟨q, hq, rfl⟩ := List.mem_map.1 hy
    obtain ⟨ha, hb⟩ := List.mem_filter.1 hq
    rcases h q ha with e | e
    · simp [e] at hb
    · rw [e, Real.log_one]
  rw [this, zero_div, Real.exp_zero]

theorem mem_precisions_first (m : Nat) (t : List (Nat × Nat)) (s : ℝ) (hm : 0 < m) : (1 : ℝ) ∈ precisions ((m, m) :: t) s := by
  simp only [precisions, if_pos hm]
  rw [div_self (by exact_mod_cast hm.ne')]; simp

/-- A perfect translation gets exactly 1, also when its sentences are shorter than the highest order, as soon as there is one token. -/
theorem perfect (refs : List (List τ)) (N : Nat) (bp : Bool) (hN : 0 < N) (hne : ∃ s ∈ refs, s ≠ []) : computeBleu refs refs N bp = .ok 1 := by
  have hzip : refs.zip refs = refs.map fun s => (s, s) := by
    induction refs with
    | nil => rfl
    | cons x t ih =>
      cases hx : t with
      | nil => rfl
      | cons y t' =>
        have : t.zip t = t.map fun s => (s, s) := by
          clear ih hne hx
          induction t with
          | nil => rfl
          | cons z t ih => simp [ih]
        rw [hx] at this
        simp [List.zip_cons_cons] at this ⊢
        exact this
  have heq : ∀ n, 0 < n → Spec.matched n (refs.zip refs) = Spec.possible n (refs.zip refs) := by
    intro n hn
    rw [hzip]
    simp only [Spec.matched, Spec.possible, List.map_map]
    congr 1
    apply List.map_congr_left
    intro s _
    exact clipped_self n hn s
  have hlen : 0 < ((refs.zip refs).map fun p => p.1.length).sum := by
    rw [hzip, List.map_map]
    obtain ⟨s, hs, hs0⟩ := hne
    have h1 : s.length ≤ (refs.map ((fun p : List τ × List τ => p.1.length) ∘ fun s => (s, s))).sum :=
      List.single_le_sum (by simp) _ (List.mem_map.2 ⟨s, hs, rfl⟩)
    have h2 : 0 < s.length := List.length_pos_iff.2 hs0
    omega
  have hposs : Spec.possible 1 (refs.zip refs) = ((refs.zip refs).map fun p => p.2.length).sum := by
    unfold Spec.possible; simp
  have hlen2 : ((refs.zip refs).map fun p => p.2.length).sum = ((refs.zip refs).map fun p => p.1.length).sum := by
    rw [hzip, List.map_map, List.map_map]; rfl
  have hz := zip_counts N refs refs
  have h01 : ∀ q ∈ precisions ((collect N refs refs).matched.zip (collect N refs refs).possible) 1, q = 0 ∨ q = 1 := by
    apply precisions_perfect
    rw [hz]
    intro x hx
    obtain ⟨n, _, rfl⟩ := List.mem_map.1 hx
    exact heq (n + 1) (by omega)
  have hmem : (1 : ℝ) ∈ precisions ((collect N refs refs).matched.zip (collect N refs refs).possible) 1 := by
    rw [hz]
    cases N with
    | zero => omega
    | succ N =>
      rw [List.range_succ_eq_map, List.map_cons, heq (0 + 1) (by omega)]
      apply mem_precisions_first
      show 0 < Spec.possible 1 (refs.zip refs)
      rw [hposs, hlen2]; exact hlen
  have hg := geoMean_perfect _ N h01 hmem
  obtain ⟨c1, c2, _, _⟩ := counts N refs refs
  have hne' : ¬ (precisions ((collect N refs refs).matched.zip (collect N refs refs).possible) 1).isEmpty = true := by
    rw [List.isEmpty_iff]; intro e; rw [e] at hmem; cases hmem
  simp only [computeBleu, if_neg hne', hg]
  cases bp with
  | false => simp
  | true =>
    rw [if_pos rfl, c1, c2, hlen2, if_neg (by omega)]
    have hR : ((((refs.zip refs).map fun p => p.1.length).sum : Nat) : ℝ) ≠ 0 := by exact_mod_cast hlen.ne'
    rw [div_self hR]
    have : penalty 1 = 1 := by unfold penalty; norm_num
    rw [this, mul_one]

/-- Orders for which the translations have no n-gram at all are left out of the mean, so a single right word for a long reference gets the perfect score without
the brevity penalty; by the definition (all orders) it would be 0. -/
theorem short_translation_perfect : computeBleu [[0, 1, 2, 3]] [[0]] 4 false = .ok 1 := by
  have hz : (collect 4 [[0, 1, 2, 3]] [[0]]).matched.zip (collect 4 [[0, 1, 2, 3]] [[0]]).possible = [(1, 1), (0, 0), (0, 0), (0, 0)] := by decide +kernel
  have hg := geoMean_perfect (precisions [(1, 1), (0, 0), (0, 0), (0, 0)] 1) 4 (precisions_perfect _ _ (by decide)) (mem_precisions_first 1 _ 1 (by decide))
  have hne : ¬ (precisions [(1, 1), (0, 0), (0, 0), (0, 0)] 1).isEmpty = true := by
    rw [List.isEmpty_iff]; intro e; have := congrArg List.length e; rw [precisions_length] at this; cases this
  simp only [computeBleu, hz, if_neg hne, hg]
  simp

/-- The hypotheses of `standard_bleu` are met: two pairs, with repeated words which are clipped. -/
example : ∀ n, 1 ≤ n → n ≤ 2 → 0 < Spec.matched n ([[0, 1, 2, 3], [5, 6]].zip [[0, 1, 1, 2], [5, 6, 6]]) := by
  intro n h1 h2
  have : n = 1 ∨ n = 2 := by omega
  rcases this with rfl | rfl <;> decide +kernel
example : collect 2 [[0, 1, 2, 3], [5, 6]] [[0, 1, 1, 2], [5, 6, 6]] = ⟨6, 7, [5, 3], [7, 5]⟩ := by decide +kernel

end Verif.Bleu
