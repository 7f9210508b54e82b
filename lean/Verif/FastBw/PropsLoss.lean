import Verif.FastBw.CtcLoss
import Mathlib.Algebra.Field.Rat
/-
C63: the gradient of `ctc_loss`.
-/
namespace Verif.FastBw
open Verif.CtcFsa

noncomputable section

attribute [local instance] Classical.propDecidable

/-- The logits with `h` added in one place. -/
def bump (x : Nat → Nat → Nat → ℝ) (t0 b0 a0 : Nat) (h : ℝ) : Nat → Nat → Nat → ℝ := fun t b a =>
  if t = t0 ∧ b = b0 ∧ a = a0 then x t b a + h else x t b a

/-! ### Sums of positive numbers -/

theorem lsum_nonneg {α : Type} {l : List α} {f : α → ℝ} (h : ∀ a ∈ l, 0 ≤ f a) : 0 ≤ lsum l f := by
  unfold lsum
  refine List.sum_nonneg ?_
  intro r hr
  obtain ⟨a, ha, rfl⟩ := List.mem_map.1 hr
  exact h a ha

theorem lsum_pos {α : Type} {l : List α} {f : α → ℝ} (hne : l ≠ []) (h : ∀ a ∈ l, 0 < f a) : 0 < lsum l f := by
  cases l with
  | nil => exact (hne rfl).elim
  | cons a l =>
    have h1 := h a (by simp)
    have h2 := lsum_nonneg (l := l) (f := f) (fun c hc => (h c (by simp [hc])).le)
    unfold lsum at *
    rw [List.map_cons, List.sum_cons]
    linarith

theorem softmax_pos {dim : Nat} (hd : 0 < dim) (x : Nat → ℝ) : 0 < lsum (List.range dim) (fun c => Real.exp (x c)) :=
  lsum_pos (by simp; omega) (fun _ _ => Real.exp_pos _)

theorem ctcProbs_pos {normalize : Bool} {dim : Nat} (hd : 0 < dim) (x : Nat → Nat → Nat → ℝ) (t b a : Nat) : 0 < ctcProbs normalize dim x t b a := by
  unfold ctcProbs
  split
  · exact div_pos (Real.exp_pos _) (softmax_pos hd _)
  · exact Real.exp_pos _

theorem strWeight_pos {am : Nat → Nat → Nat → ℝ} {b : Nat} (h : ∀ t a, 0 < am t b a) : ∀ (w : List Nat) (t : Nat), 0 < strWeight am b t w
  | [], _ => one_pos
  | a :: w, t => mul_pos (h t a) (strWeight_pos h w (t + 1))

/-! ### How the sum depends on one place -/

theorem strWeight_change {am am' : Nat → Nat → Nat → ℝ} {b t0 : Nat} {c : Nat → ℝ}
    (h : ∀ t a, am' t b a = am t b a * (if t = t0 then c a else 1)) : ∀ (w : List Nat) (t : Nat),
    strWeight am' b t w = strWeight am b t w * (if t ≤ t0 then (w[t0 - t]?).elim 1 c else 1)
  | [], t => by simp [strWeight]
  | a :: w, t => by
    simp only [strWeight]
    rw [strWeight_change h w (t + 1), h]
    by_cases h1 : t = t0
    · subst h1
      rw [if_pos rfl, if_neg (by omega), if_pos le_rfl]
      simp
      ring
    · by_cases h2 : t ≤ t0
      · rw [if_neg h1, if_pos (by omega), if_pos h2]
        obtain ⟨k, hk⟩ : ∃ k, t0 - t = k + 1 := ⟨t0 - t - 1, by omega⟩
        rw [hk, List.getElem?_cons_succ, show t0 - (t + 1) = k by omega]
        ring
      · rw [if_neg h1, if_neg (by omega), if_neg h2]
        ring

theorem lsum_split {l : List (List Nat)} (g : List Nat → ℝ) (P : List Nat → Bool) (u v : ℝ) :
    lsum l (fun w => g w * (if P w then u else v)) = lsum (l.filter P) g * u + (lsum l g - lsum (l.filter P) g) * v := by
  induction l with
  | nil => simp [lsum]
  | cons w l ih =>
    unfold lsum at *
    rw [List.map_cons, List.sum_cons, ih, List.map_cons, List.sum_cons]
    cases hP : P w
    · rw [List.filter_cons_of_neg (by simp [hP])]
      simp
      ring
    · rw [List.filter_cons_of_pos hP, List.map_cons, List.sum_cons]
      simp
      ring

theorem lsum_bump {dim : Nat} {x : Nat → ℝ} {a0 : Nat} (ha : a0 < dim) (h : ℝ) :
    lsum (List.range dim) (fun c => Real.exp (if c = a0 then x c + h else x c)) =
      lsum (List.range dim) (fun c => Real.exp (x c)) + Real.exp (x a0) * (Real.exp h - 1) := by
  have key : ∀ (l : List Nat), l.Nodup → lsum l (fun c => Real.exp (if c = a0 then x c + h else x c)) =
      lsum l (fun c => Real.exp (x c)) + if a0 ∈ l then Real.exp (x a0) * (Real.exp h - 1) else 0 := by
    intro l hl
    induction l with
    | nil => simp [lsum]
    | cons c l ih =>
      obtain ⟨h1, h2⟩ := List.nodup_cons.1 hl
      have ih := ih h2
      unfold lsum at *
      rw [List.map_cons, List.sum_cons, ih, List.map_cons, List.sum_cons]
      by_cases hc : c = a0
      · subst hc
        rw [if_pos rfl, if_neg h1, if_pos (by simp), Real.exp_add]
        ring
      · have : (a0 ∈ c :: l) ↔ a0 ∈ l := by simp [Ne.symm hc]
        rw [if_neg hc]
        simp only [this]
        ring
  rw [key _ List.nodup_range, if_pos (List.mem_range.2 ha)]

/-- The sum over all strings after a change of one logit. -/
theorem alignSum_bump {normalize : Bool} {dim T : Nat} {x : Nat → Nat → Nat → ℝ} {t0 b a0 : Nat} (hd : 0 < dim) (ha : a0 < dim) (ht : t0 < T) (h : ℝ)
    {l : List (List Nat)} (hl : ∀ w ∈ l, w.length = T) :
    lsum l (strWeight (ctcProbs normalize dim (bump x t0 b a0 h)) b 0) =
      (lsum (l.filter (fun w => decide (w[t0]? = some a0))) (strWeight (ctcProbs normalize dim x) b 0) * Real.exp h +
        (lsum l (strWeight (ctcProbs normalize dim x) b 0) -
          lsum (l.filter (fun w => decide (w[t0]? = some a0))) (strWeight (ctcProbs normalize dim x) b 0))) *
      (if normalize then 1 / (1 + ctcProbs normalize dim x t0 b a0 * (Real.exp h - 1)) else 1) := by
  set q : ℝ := if normalize then 1 / (1 + ctcProbs normalize dim x t0 b a0 * (Real.exp h - 1)) else 1 with hq
  have hch : ∀ t a, ctcProbs normalize dim (bump x t0 b a0 h) t b a =
      ctcProbs normalize dim x t b a * (if t = t0 then (if a = a0 then Real.exp h else 1) * q else 1) := by
    intro t a
    by_cases htt : t = t0
    · subst htt
      rw [if_pos rfl]
      have hbx : ∀ c, bump x t b a0 h t b c = if c = a0 then x t b c + h else x t b c := by
        intro c; unfold bump; simp
      cases normalize with
      | false =>
        simp only [ctcProbs, hbx, hq]
        by_cases haa : a = a0
        · simp [haa, Real.exp_add]
        · simp [haa]
      | true =>
        have hS := softmax_pos hd (x t b)
        have hS' := softmax_pos hd (fun c => if c = a0 then x t b c + h else x t b c)
        rw [lsum_bump (x := x t b) ha h] at hS'
        simp only [ctcProbs, hbx, hq, if_true]
        rw [lsum_bump (x := x t b) ha h]
        set S := lsum (List.range dim) (fun c => Real.exp (x t b c))
        have e1 : 1 + Real.exp (x t b a0) / S * (Real.exp h - 1) = (S + Real.exp (x t b a0) * (Real.exp h - 1)) / S := by
          field_simp
        rw [e1]
        by_cases haa : a = a0
        · subst haa
          rw [if_pos rfl, if_pos rfl, Real.exp_add]
          field_simp
        · rw [if_neg haa, if_neg haa]
          field_simp
    · rw [if_neg htt, mul_one]
      unfold ctcProbs bump
      simp [htt]
  have hw : ∀ w ∈ l, strWeight (ctcProbs normalize dim (bump x t0 b a0 h)) b 0 w =
      strWeight (ctcProbs normalize dim x) b 0 w * (if decide (w[t0]? = some a0) then Real.exp h * q else q) := by
    intro w hwl
    rw [strWeight_change hch w 0, if_pos (Nat.zero_le _), Nat.sub_zero, List.getElem?_eq_getElem (by rw [hl w hwl]; exact ht)]
    simp only [Option.elim_some, Option.some.injEq, decide_eq_true_eq]
    by_cases h1 : w[t0]'(by rw [hl w hwl]; exact ht) = a0
    · rw [if_pos h1, if_pos h1]
    · rw [if_neg h1, if_neg h1, one_mul]
  rw [lsum_congr hw, lsum_split]
  ring

theorem lsum_filter_le {l : List (List Nat)} {P : List Nat → Bool} {g : List Nat → ℝ} (h : ∀ w ∈ l, 0 ≤ g w) : lsum (l.filter P) g ≤ lsum l g := by
  have e := lsum_split (l := l) g P 0 1
  have : 0 ≤ lsum l (fun w => g w * (if P w then (0 : ℝ) else 1)) := by
    refine lsum_nonneg ?_
    intro w hw
    refine mul_nonneg (h w hw) ?_
    split <;> norm_num
  rw [e] at this
  linarith

/-- Derivative of the negative logarithm of the sum. -/
theorem alignSum_deriv {normalize : Bool} {dim T : Nat} {x : Nat → Nat → Nat → ℝ} {t0 b a0 : Nat} (hd : 0 < dim) (ha : a0 < dim) (ht : t0 < T)
    {l : List (List Nat)} (hl : ∀ w ∈ l, w.length = T) (hne : l ≠ []) :
    HasDerivAt (fun h => -Real.log (lsum l (strWeight (ctcProbs normalize dim (bump x t0 b a0 h)) b 0)))
      ((if normalize then ctcProbs normalize dim x t0 b a0 else 0) -
        lsum (l.filter (fun w => decide (w[t0]? = some a0))) (strWeight (ctcProbs normalize dim x) b 0) / lsum l (strWeight (ctcProbs normalize dim x) b 0)) 0 := by
  have hpos : ∀ w ∈ l, 0 < strWeight (ctcProbs normalize dim x) b 0 w := fun w _ => strWeight_pos (fun t a => ctcProbs_pos hd x t b a) w 0
  have hZ := lsum_pos hne hpos
  set Z := lsum l (strWeight (ctcProbs normalize dim x) b 0) with hZdef
  set A := lsum (l.filter (fun w => decide (w[t0]? = some a0))) (strWeight (ctcProbs normalize dim x) b 0) with hA
  set p := ctcProbs normalize dim x t0 b a0 with hp
  have hfun : (fun h => -Real.log (lsum l (strWeight (ctcProbs normalize dim (bump x t0 b a0 h)) b 0))) =
      fun h => -Real.log ((A * Real.exp h + (Z - A)) * (if normalize then 1 / (1 + p * (Real.exp h - 1)) else 1)) := by
    funext h
    rw [alignSum_bump hd ha ht h hl]
  rw [hfun]
  have h1 : HasDerivAt (fun h : ℝ => A * Real.exp h + (Z - A)) (A * Real.exp 0) 0 := ((Real.hasDerivAt_exp 0).const_mul A).add_const _
  cases normalize with
  | false =>
    simp only [Bool.false_eq_true, if_false, mul_one, zero_sub]
    have h2 := (h1.log (by simp; exact hZ.ne')).neg
    exact h2.congr_deriv (by simp)
  | true =>
    simp only [if_true]
    have h3 : HasDerivAt (fun h : ℝ => 1 / (1 + p * (Real.exp h - 1))) (-p) 0 := by
      have h4 : HasDerivAt (fun h : ℝ => 1 + p * (Real.exp h - 1)) (p * Real.exp 0) 0 := by
        exact (((Real.hasDerivAt_exp 0).sub_const 1).const_mul p).const_add 1
      have h5 := h4.inv (by simp)
      simp only [one_div]
      exact h5.congr_deriv (by simp)
    have h2 := ((h1.mul h3).log (by simp; exact hZ.ne')).neg
    refine h2.congr_deriv ?_
    simp
    field_simp
    ring

theorem strWeight_congr {am am' : Nat → Nat → Nat → ℝ} {b T : Nat} (h : ∀ t a, t < T → am t b a = am' t b a) : ∀ (w : List Nat) (t : Nat),
    t + w.length ≤ T → strWeight am b t w = strWeight am' b t w
  | [], _, _ => rfl
  | a :: w, t, hl => by
    simp only [List.length_cons] at hl
    simp only [strWeight]
    rw [h t a (by omega), strWeight_congr h w (t + 1) (by omega)]

theorem ctcProbs_bump_other {normalize : Bool} {dim : Nat} {x : Nat → Nat → Nat → ℝ} {t0 b0 a0 t b a : Nat} {h : ℝ} (hne : ¬ (t = t0 ∧ b = b0)) :
    ctcProbs normalize dim (bump x t0 b0 a0 h) t b a = ctcProbs normalize dim x t b a := by
  have : ∀ c, bump x t0 b0 a0 h t b c = x t b c := by
    intro c
    unfold bump
    rw [if_neg (fun hc => hne ⟨hc.1, hc.2.1⟩)]
  unfold ctcProbs
  simp only [this]

/-- What `ctcLoss` gives for one sequence. -/
theorem ctcLoss_spec {loop normalize gradSm : Bool} {targets : List (List Nat)} {nTime : Nat} {targetLens lens : List Nat} {dim blank nFrames : Nat} {sc : Sched}
    (hshape : ∀ row ∈ targets, row.length = nTime) (htl : targetLens.length = targets.length) (htn : ∀ L ∈ targetLens, L ≤ nTime) (hblank : blank < dim)
    (hsc : sc.Ok (targets.length * (5 * nTime + 5)) nFrames) (hlens : ∀ T ∈ lens, T ≤ nFrames)
    {b L T : Nat} {row : List Nat} (hrow : targets[b]? = some row) (hL : targetLens[b]? = some L) (hTb : lens[b]? = some T) (hT : 0 < T)
    (hno : blank ∉ row.take L) (hdim : ∀ a ∈ row.take L, a < dim) (x : Nat → Nat → Nat → ℝ) :
    ∃ loss grad, ctcLoss loop normalize gradSm targets nTime targetLens lens dim blank nFrames sc x = .ok (loss, grad) ∧
      (alignments loop blank dim T (row.take L) ≠ [] →
        loss b = -Real.log (lsum (alignments loop blank dim T (row.take L)) (strWeight (ctcProbs normalize dim x) b 0)) ∧
        ∀ t a, grad t b a = if t < T then (if gradSm then ctcProbs normalize dim x t b a else 0) -
          lsum ((alignments loop blank dim T (row.take L)).filter (fun w => decide (w[t]? = some a))) (strWeight (ctcProbs normalize dim x) b 0) /
          lsum (alignments loop blank dim T (row.take L)) (strWeight (ctcProbs normalize dim x) b 0) else 0) ∧
      (alignments loop blank dim T (row.take L) = [] →
        loss b = 0 ∧ ∀ t a, grad t b a = if t < T ∧ gradSm = true then ctcProbs normalize dim x t b a else 0) := by
  obtain ⟨f, hf, hfe⟩ : ∃ f, nativeFsa loop targets nTime targetLens blank = .ok f ∧ f.edges.length = targets.length * (5 * nTime + 5) := by
    unfold nativeFsa
    rw [if_pos htl]
    exact ⟨_, rfl, by simp⟩
  have hgetT : lens.getD b 0 = T := by rw [List.getD_eq_getElem?_getD, hTb]; rfl
  have hmask : ∀ t, seqMask lens t b = decide (t < T) := by intro t; unfold seqMask; rw [hgetT]
  have hle : ∀ b', lens.getD b' 0 ≤ nFrames := by
    intro b'
    rw [List.getD_eq_getElem?_getD]
    cases h : lens[b']? with
    | none => simp
    | some v => exact hlens v (List.mem_of_getElem? h)
  have key := fun t ht => ctc_loss_correct (K := ℝ) (am := ctcProbs normalize dim x) (index := seqMask lens) (nFrames := nFrames) (sc := sc) (T := fun b => lens.getD b 0)
    hshape htn hblank hf (by rw [hfe]; exact hsc) (fun b' _ => hle b') (fun t b' _ _ => rfl) hrow hL hno hdim t ht
  simp only [hgetT] at key
  have hd : 0 < dim := by omega
  unfold ctcLoss
  rw [hf]
  refine ⟨_, _, rfl, ?_, ?_⟩
  · intro hne
    have hZ := lsum_pos hne (fun w _ => strWeight_pos (fun t a => ctcProbs_pos (normalize := normalize) hd x t b a) w 0)
    refine ⟨?_, ?_⟩
    · rw [((key 0 hT).1 hZ.ne').1]
    · intro t a
      simp only [hmask, decide_eq_true_eq]
      by_cases ht : t < T
      · rw [if_pos ht, if_pos ht, ((key t ht).1 hZ.ne').2 a]
        cases gradSm <;> simp
      · rw [if_neg ht, if_neg ht]
  · intro he
    rw [he] at key
    refine ⟨?_, ?_⟩
    · rw [((key 0 hT).2 rfl).1, Real.log_one, neg_zero]
    · intro t a
      simp only [hmask, decide_eq_true_eq]
      by_cases ht : t < T
      · rw [if_pos ht, ((key t ht).2 rfl).2 a]
        cases gradSm <;> simp [ht]
      · rw [if_neg ht, if_neg (fun h => ht h.1)]

/-- C63: the error signal of `ctc_loss` is the gradient of its loss: for logits which are normalized by the function, with `grad_wrt_softmax_in`,
and for log probabilities, without. For every batch, all logits, every place in them, and every order of the threads, as long as some string of
the sequence's length stands for its labels. In particular the loss of a sequence depends neither on its padded frames nor on other sequences. -/
theorem ctc_loss_gradient {loop normalize : Bool} {targets : List (List Nat)} {nTime : Nat} {targetLens lens : List Nat} {dim blank nFrames : Nat} {sc : Sched}
    (hshape : ∀ row ∈ targets, row.length = nTime) (htl : targetLens.length = targets.length) (htn : ∀ L ∈ targetLens, L ≤ nTime) (hblank : blank < dim)
    (hsc : sc.Ok (targets.length * (5 * nTime + 5)) nFrames) (hlens : ∀ T ∈ lens, T ≤ nFrames)
    {b L T : Nat} {row : List Nat} (hrow : targets[b]? = some row) (hL : targetLens[b]? = some L) (hTb : lens[b]? = some T) (hT : 0 < T)
    (hno : blank ∉ row.take L) (hdim : ∀ a ∈ row.take L, a < dim) (hal : alignments loop blank dim T (row.take L) ≠ []) :
    ∃ (loss : (Nat → Nat → Nat → ℝ) → Nat → ℝ) (grad : (Nat → Nat → Nat → ℝ) → Nat → Nat → Nat → ℝ),
      (∀ x, ctcLoss loop normalize normalize targets nTime targetLens lens dim blank nFrames sc x = .ok (loss x, grad x)) ∧
      (∀ x, loss x b = -Real.log (lsum (alignments loop blank dim T (row.take L)) (strWeight (fun t b a =>
        if normalize then Real.exp (x t b a) / lsum (List.range dim) (fun c => Real.exp (x t b c)) else Real.exp (x t b a)) b 0))) ∧
      ∀ x t0 b0 a0, a0 < dim → HasDerivAt (fun h => loss (bump x t0 b0 a0 h) b) (if b0 = b then grad x t0 b a0 else 0) 0 := by
  have hspec := fun x => ctcLoss_spec (loop := loop) (normalize := normalize) (gradSm := normalize) hshape htl htn hblank hsc hlens hrow hL hTb hT hno hdim x
  choose loss grad hok hpos _ using hspec
  refine ⟨loss, grad, hok, fun x => (hpos x hal).1, ?_⟩
  intro x t0 b0 a0 ha
  have hfun : (fun h => loss (bump x t0 b0 a0 h) b) = fun h =>
      -Real.log (lsum (alignments loop blank dim T (row.take L)) (strWeight (ctcProbs normalize dim (bump x t0 b0 a0 h)) b 0)) := by
    funext h
    rw [(hpos _ hal).1]
  have hlen : ∀ w ∈ alignments loop blank dim T (row.take L), w.length = T := by
    intro w hw
    exact (mem_seqs.1 (List.mem_filter.1 hw).1).1
  rw [hfun]
  by_cases hin : b0 = b ∧ t0 < T
  · obtain ⟨rfl, ht⟩ := hin
    rw [if_pos rfl, (hpos x hal).2 t0 a0, if_pos ht]
    exact alignSum_deriv (by omega) ha ht hlen hal
  · have hz : (if b0 = b then grad x t0 b a0 else 0) = 0 := by
      by_cases hb : b0 = b
      · rw [if_pos hb, (hpos x hal).2 t0 a0, if_neg (fun h => hin ⟨hb, h⟩)]
      · rw [if_neg hb]
    rw [hz]
    have hc : ∀ h, lsum (alignments loop blank dim T (row.take L)) (strWeight (ctcProbs normalize dim (bump x t0 b0 a0 h)) b 0) =
        lsum (alignments loop blank dim T (row.take L)) (strWeight (ctcProbs normalize dim x) b 0) := by
      intro h
      refine lsum_congr ?_
      intro w hw
      refine strWeight_congr (T := T) ?_ w 0 (by rw [hlen w hw]; omega)
      intro t a htT
      refine ctcProbs_bump_other ?_
      rintro ⟨rfl, rfl⟩
      exact hin ⟨rfl, htT⟩
    simp only [hc]
    exact hasDerivAt_const _ _

/-- What the code does if no string of the sequence's length stands for its labels: the loss is zero for all logits, not infinite; but the error signal
for normalized logits is the softmax itself, so neither the gradient of the reported loss nor zero. -/
theorem ctc_loss_no_alignment {loop : Bool} {targets : List (List Nat)} {nTime : Nat} {targetLens lens : List Nat} {dim blank nFrames : Nat} {sc : Sched}
    (hshape : ∀ row ∈ targets, row.length = nTime) (htl : targetLens.length = targets.length) (htn : ∀ L ∈ targetLens, L ≤ nTime) (hblank : blank < dim)
    (hsc : sc.Ok (targets.length * (5 * nTime + 5)) nFrames) (hlens : ∀ T ∈ lens, T ≤ nFrames)
    {b L T : Nat} {row : List Nat} (hrow : targets[b]? = some row) (hL : targetLens[b]? = some L) (hTb : lens[b]? = some T) (hT : 0 < T)
    (hno : blank ∉ row.take L) (hdim : ∀ a ∈ row.take L, a < dim) (hal : alignments loop blank dim T (row.take L) = []) (x : Nat → Nat → Nat → ℝ) :
    ∃ loss grad, ctcLoss loop true true targets nTime targetLens lens dim blank nFrames sc x = .ok (loss, grad) ∧ loss b = 0 ∧
      ∀ t a, t < T → grad t b a = Real.exp (x t b a) / lsum (List.range dim) (fun c => Real.exp (x t b c)) ∧ 0 < grad t b a := by
  obtain ⟨loss, grad, h1, _, h3⟩ := ctcLoss_spec (loop := loop) (normalize := true) (gradSm := true) hshape htl htn hblank hsc hlens hrow hL hTb hT hno hdim x
  refine ⟨loss, grad, h1, (h3 hal).1, ?_⟩
  intro t a ht
  rw [(h3 hal).2 t a, if_pos ⟨ht, rfl⟩]
  exact ⟨rfl, ctcProbs_pos (by omega) x t b a⟩

end

/-! ### Examples -/

def exAm : Nat → Nat → Nat → ℚ := fun t b a => ((t + 2 * b + 3 * a + 1 : Nat) : ℚ) / 10

/-- Threads in another order in every frame. -/
def exSched (n m : Nat) : Sched :=
  { fwd := fun t => if t % 2 = 0 then (List.range n).reverse else List.range n, bwd := fun _ => (List.range n).reverse, out := (List.range (m * n)).reverse }

theorem exSched_ok (n m : Nat) : (exSched n m).Ok n m := by
  refine ⟨?_, fun _ => List.reverse_perm _, List.reverse_perm _⟩
  intro t
  unfold exSched
  simp only
  split
  · exact List.reverse_perm _
  · exact List.Perm.refl _

def exFsa : Fsa Nat := ((nativeFsa true [[1], [1]] 1 [1, 0] 0).toOption).getD ⟨[], []⟩

example : exFsa.edges.length = 20 ∧ nativeFsa true [[1], [1]] 1 [1, 0] 0 = .ok exFsa := ⟨by decide +kernel, rfl⟩

/-- Two frames, label 1: the strings 11, 10, 01. -/
example : (fastBw exFsa (fun _ => 1) exAm (fun t b => decide (t < 2 - b)) 2 (exSched 20 2)).2 0 0 = 33 / 100 ∧
    lsum (alignments true 0 2 2 [1]) (strWeight exAm 0 0) = 33 / 100 ∧
    (fastBw exFsa (fun _ => 1) exAm (fun t b => decide (t < 2 - b)) 2 (exSched 20 2)).1 0 0 1 = 28 / 33 ∧
    (fastBw exFsa (fun _ => 1) exAm (fun t b => decide (t < 2 - b)) 2 (exSched 20 2)).2 1 1 = 1 := by
  refine ⟨?_, ?_, ?_, ?_⟩ <;> decide +kernel

example : alignments true 0 2 2 [1] = [[0, 1], [1, 0], [1, 1]] ∧ alignments true 0 2 2 [1, 1] = [] ∧ alignments false 0 2 2 [1, 1] = [[1, 1]] := by decide +kernel

/-- The hypotheses of `ctc_loss_gradient` for the first sequence of that batch. -/
example := ctc_loss_gradient (loop := true) (normalize := true) (targets := [[1], [1]]) (nTime := 1) (targetLens := [1, 0]) (lens := [2, 1]) (dim := 2) (blank := 0)
  (nFrames := 2) (sc := exSched 20 2) (b := 0) (L := 1) (T := 2) (row := [1]) (by decide) rfl (by decide) (by decide) (exSched_ok 20 2) (by decide) rfl rfl rfl (by decide)
  (by decide) (by decide) (by decide +kernel)

/-- The hypotheses of `ctc_loss_no_alignment`: a repeated label needs three frames. -/
example := ctc_loss_no_alignment (loop := true) (targets := [[1, 1]]) (nTime := 2) (targetLens := [2]) (lens := [2]) (dim := 2) (blank := 0)
  (nFrames := 2) (sc := exSched 15 2) (b := 0) (L := 2) (T := 2) (row := [1, 1]) (by decide) rfl (by decide) (by decide) (exSched_ok 15 2) (by decide) rfl rfl rfl (by decide)
  (by decide) (by decide) (by decide +kernel)

end Verif.FastBw
