import Verif.Lion.Model
import Verif.Lion.Spec
import Mathlib.Algebra.Order.Field.Basic
import Mathlib.Algebra.Order.Field.Rat
import Mathlib.Algebra.BigOperators.Ring.List
import Mathlib.Data.List.Nodup
import Mathlib.Tactic.Ring
import Mathlib.Tactic.Linarith
import Mathlib.Tactic.FieldSimp
import Mathlib.Algebra.Order.Ring.Abs
/-
C133: the Lion optimizer.
-/
namespace Verif.Lion
open Verif Verif.Py

variable {ι α : Type} [Field α] [LinearOrder α]

theorem stepParam_other (c : Cfg α) (grad : Nat → Option (ι → α)) (o : Opt α) (s : St ι α) (k j : Nat) (h : j ≠ k) :
    (stepParam c grad o s k).val j = s.val j ∧ (stepParam c grad o s k).expAvg j = s.expAvg j := by
  unfold stepParam
  cases grad k with
  | none => exact ⟨rfl, rfl⟩
  | some g => simp [h]

theorem fold_other (c : Cfg α) (grad : Nat → Option (ι → α)) (o : Opt α) (ks : List Nat) (s : St ι α) (j : Nat) (h : j ∉ ks ∨ grad j = none) :
    (ks.foldl (stepParam c grad o) s).val j = s.val j ∧ (ks.foldl (stepParam c grad o) s).expAvg j = s.expAvg j := by
  induction ks generalizing s with
  | nil => exact ⟨rfl, rfl⟩
  | cons k t ih =>
    have h1 : (stepParam c grad o s k).val j = s.val j ∧ (stepParam c grad o s k).expAvg j = s.expAvg j := by
      by_cases hk : j = k
      · subst hk
        rcases h with h | h
        · simp at h
        · simp [stepParam, h]
      · exact stepParam_other c grad o s k j hk
    have h2 := ih (stepParam c grad o s k) (by
      rcases h with h | h
      · left; simp only [List.mem_cons, not_or] at h; exact h.2
      · right; exact h)
    rw [List.foldl_cons]
    exact ⟨h2.1.trans h1.1, h2.2.trans h1.2⟩

theorem step_other (c : Cfg α) (grad : Nat → Option (ι → α)) (gs : List (Opt α × List Nat)) (s : St ι α) (j : Nat)
    (h : (∀ g ∈ gs, j ∉ g.2) ∨ grad j = none) : (step c grad gs s).val j = s.val j ∧ (step c grad gs s).expAvg j = s.expAvg j := by
  unfold step
  induction gs generalizing s with
  | nil => exact ⟨rfl, rfl⟩
  | cons g t ih =>
    have h1 := fold_other c grad g.1 g.2 s j (h.imp (fun h => h g (by simp)) id)
    have h2 := ih (stepGroup c grad s g) (h.imp (fun h g' hg => h g' (by simp [hg])) id)
    rw [List.foldl_cons]
    exact ⟨h2.1.trans h1.1, h2.2.trans h1.2⟩

/-- A parameter without gradient, or in no group, is not changed by a step, and gets no state. -/
theorem untouched (c : Cfg α) (grad : Nat → Option (ι → α)) (gs : List (Opt α × List Nat)) (s : St ι α) (j : Nat)
    (h : (∀ g ∈ gs, j ∉ g.2) ∨ grad j = none) : (step c grad gs s).val j = s.val j ∧ (step c grad gs s).expAvg j = s.expAvg j :=
  step_other c grad gs s j h

theorem fold_once (c : Cfg α) (grad : Nat → Option (ι → α)) (o : Opt α) (ks : List Nat) (s : St ι α) (j : Nat) (hj : j ∈ ks) (hnd : ks.Nodup) :
    (ks.foldl (stepParam c grad o) s).val j = (stepParam c grad o s j).val j ∧
      (ks.foldl (stepParam c grad o) s).expAvg j = (stepParam c grad o s j).expAvg j := by
  induction ks generalizing s with
  | nil => cases hj
  | cons k t ih =>
    rw [List.nodup_cons] at hnd
    rw [List.foldl_cons]
    by_cases hk : j = k
    · subst hk
      exact fold_other c grad o t _ j (Or.inl hnd.1)
    · have hjt : j ∈ t := by
        rcases List.mem_cons.1 hj with h | h
        · exact absurd h hk
        · exact h
      have h1 := ih (stepParam c grad o s k) hjt hnd.2
      have h2 := stepParam_other c grad o s k j hk
      refine ⟨h1.1.trans ?_, h1.2.trans ?_⟩ <;>
      · unfold stepParam at h2 ⊢
        cases hg : grad j with
        | none => simp only [h2]
        | some g => simp only [if_true, h2]

theorem sign_spec (x : α) : Spec.IsSign x (sign x) := by
  unfold Spec.IsSign sign
  rcases lt_trichotomy x 0 with h | h | h
  · right; left; exact ⟨h, by rw [if_neg (not_lt.2 h.le), if_pos h]⟩
  · subst h; right; right; simp
  · left; exact ⟨h, by rw [if_pos h]⟩

/-- The numbers which one step sees for a cell of a parameter of a group with options `o`. -/
def inOf (c : Cfg α) (o : Opt α) (g : α) : Spec.In α :=
  { lr := o.lr, wd := if c.decoupled then o.wd / c.initLr else o.wd, b1 := o.beta1, b2 := o.beta2, g := g }

theorem cell_spec (c : Cfg α) (o : Opt α) (p g m : α) :
    Spec.Step (inOf c o g) p m (cell o (effWd c o.wd) p g m).1 (cell o (effWd c o.wd) p g m).2 := by
  refine ⟨sign (m * o.beta1 + (1 - o.beta1) * g), ?_, ?_, ?_⟩
  · have := sign_spec (m * o.beta1 + (1 - o.beta1) * g)
    simp only [inOf]; rw [mul_comm o.beta1 m]; exact this
  · simp only [cell, inOf, effWd]; ring
  · simp only [cell, inOf]; ring

/-- A parameter with gradient, in one group of a correct optimizer (no parameter twice), makes exactly a step of the Lion rule in every cell, with the options
of its group, whatever the other parameters and groups are; its average starts with zero. With decoupled weight decay the decay is divided by the initial
learning rate. -/
theorem step_rule (c : Cfg α) (grad : Nat → Option (ι → α)) (gs : List (Opt α × List Nat)) (s : St ι α) (o : Opt α) (ks : List Nat) (j : Nat)
    (hg : (o, ks) ∈ gs) (hj : j ∈ ks) (hnd : (gs.map Prod.snd).flatten.Nodup) (g : ι → α) (hgr : grad j = some g) :
    ∃ m', (step c grad gs s).expAvg j = some m' ∧
      ∀ i, Spec.Step (inOf c o (g i)) (s.val j i) ((s.expAvg j).elim 0 (fun m => m i)) ((step c grad gs s).val j i) (m' i) := by
  have key : (step c grad gs s).val j = (stepParam c grad o s j).val j ∧ (step c grad gs s).expAvg j = (stepParam c grad o s j).expAvg j := by
    unfold step
    induction gs generalizing s with
    | nil => cases hg
    | cons x t ih =>
      simp only [List.map_cons, List.flatten_cons] at hnd
      obtain ⟨hn1, hn2, hdis⟩ := List.nodup_append.1 hnd
      rw [List.foldl_cons]
      rcases List.mem_cons.1 hg with he | ht
      · subst he
        have h1 := fold_once c grad o ks s j hj hn1
        have h2 := step_other c grad t (stepGroup c grad s (o, ks)) j (Or.inl (by
          intro g' hg' hc
          exact hdis j hj j (List.mem_flatten.2 ⟨g'.2, List.mem_map.2 ⟨g', hg', rfl⟩, hc⟩) rfl))
        exact ⟨h2.1.trans h1.1, h2.2.trans h1.2⟩
      · have hnx : j ∉ x.2 := by
          intro hc
          exact hdis j hc j (List.mem_flatten.2 ⟨ks, List.mem_map.2 ⟨(o, ks), ht, rfl⟩, hj⟩) rfl
        have h1 := ih (stepGroup c grad s x) ht hn2
        have h2 := fold_other c grad x.1 x.2 s j (Or.inl hnx)
        have e1 : (stepGroup c grad s x).val j = s.val j := h2.1
        have e2 : (stepGroup c grad s x).expAvg j = s.expAvg j := h2.2
        refine ⟨h1.1.trans ?_, h1.2.trans ?_⟩ <;> simp only [stepParam, hgr, e1, e2, if_true]
  rw [key.1, key.2]
  refine ⟨fun i => (cell o (effWd c o.wd) (s.val j i) (g i) (avgOf (s.expAvg j) i)).2, ?_, ?_⟩
  · simp only [stepParam, hgr, if_true]
  · intro i
    have he : avgOf (s.expAvg j) i = (s.expAvg j).elim 0 (fun m => m i) := by cases s.expAvg j <;> rfl
    simp only [stepParam, hgr, if_true]
    rw [← he]
    exact cell_spec c o (s.val j i) (g i) (avgOf (s.expAvg j) i)

/-- What a history contains for cell `i` of parameter `j`: the steps in which it has a gradient, with the options of its group. -/
inductive Inputs (c : Cfg α) (j : Nat) (i : ι) : List (List (Opt α × List Nat) × (Nat → Option (ι → α))) → List (Spec.In α) → Prop
  | nil : Inputs c j i [] []
  | skip (gs : List (Opt α × List Nat)) (grad : Nat → Option (ι → α)) (rest : List (List (Opt α × List Nat) × (Nat → Option (ι → α)))) (xs : List (Spec.In α))
      (hno : (∀ g ∈ gs, j ∉ g.2) ∨ grad j = none) (h : Inputs c j i rest xs) : Inputs c j i ((gs, grad) :: rest) xs
  | step (gs : List (Opt α × List Nat)) (grad : Nat → Option (ι → α)) (rest : List (List (Opt α × List Nat) × (Nat → Option (ι → α)))) (xs : List (Spec.In α))
      (o : Opt α) (ks : List Nat) (g : ι → α) (hg : (o, ks) ∈ gs) (hj : j ∈ ks) (hnd : (gs.map Prod.snd).flatten.Nodup) (hgr : grad j = some g)
      (h : Inputs c j i rest xs) : Inputs c j i ((gs, grad) :: rest) (inOf c o (g i) :: xs)

/-- Every history of steps of a correct optimizer is, for every cell of every parameter, a run of the Lion rule over exactly the steps with a gradient. -/
theorem history_rule (c : Cfg α) (j : Nat) (i : ι) (h : List (List (Opt α × List Nat) × (Nat → Option (ι → α)))) (xs : List (Spec.In α)) (s : St ι α)
    (hin : Inputs c j i h xs) : ∃ m', (((steps c h s).expAvg j).elim 0 fun m => m i) = m' ∧
      Spec.Steps xs (s.val j i) ((s.expAvg j).elim 0 fun m => m i) ((steps c h s).val j i) m' := by
  induction hin generalizing s with
  | nil => exact ⟨_, rfl, .nil _ _⟩
  | skip gs grad rest xs hno _ ih =>
    obtain ⟨m', h1, h2⟩ := ih (step c grad gs s)
    have hu := step_other c grad gs s j hno
    rw [hu.1, hu.2] at h2
    exact ⟨m', h1, h2⟩
  | step gs grad rest xs o ks g hg hj hnd hgr _ ih =>
    obtain ⟨m', h1, h2⟩ := ih (step c grad gs s)
    obtain ⟨m1, e1, e2⟩ := step_rule c grad gs s o ks j hg hj hnd g hgr
    rw [e1] at h2
    exact ⟨m', h1, .cons _ _ _ _ _ _ _ _ (e2 i) h2⟩

/-- For all histories the inputs exist, so `history_rule` says something for every training of a correct optimizer. -/
theorem inputs_exist (c : Cfg α) (j : Nat) (i : ι) (h : List (List (Opt α × List Nat) × (Nat → Option (ι → α))))
    (hnd : ∀ p ∈ h, (p.1.map Prod.snd).flatten.Nodup) : ∃ xs, Inputs c j i h xs := by
  induction h with
  | nil => exact ⟨[], .nil⟩
  | cons p rest ih =>
    obtain ⟨xs, hx⟩ := ih (fun q hq => hnd q (by simp [hq]))
    obtain ⟨gs, grad⟩ := p
    cases hgr : grad j with
    | none => exact ⟨xs, .skip gs grad rest xs (Or.inr hgr) hx⟩
    | some g =>
      by_cases hex : ∃ y ∈ gs, j ∈ y.2
      · obtain ⟨⟨o, ks⟩, hy, hj⟩ := hex
        exact ⟨_, .step gs grad rest xs o ks g hy hj (hnd (gs, grad) (by simp)) hgr hx⟩
      · exact ⟨xs, .skip gs grad rest xs (Or.inl (fun y hy hj => hex ⟨y, hy, hj⟩)) hx⟩

section Bounds
variable [IsStrictOrderedRing α]

theorem sign_abs (x s : α) (h : Spec.IsSign x s) : |s| ≤ 1 := by
  rcases h with h | h | h <;> rw [h.2] <;> simp

/-- Without weight decay, a number moves by at most the sum of the learning rates, whatever the gradients are. -/
theorem moves_at_most (xs : List (Spec.In α)) (w m w' m' : α) (h : Spec.Steps xs w m w' m') (h0 : ∀ x ∈ xs, 0 ≤ x.lr ∧ x.wd = 0) :
    |w' - w| ≤ (xs.map Spec.In.lr).sum := by
  induction h with
  | nil => simp
  | cons x xs w m w1 m1 w' m' h1 _ ih =>
    have h2 := ih (fun y hy => h0 y (by simp [hy]))
    obtain ⟨hlr, hwd⟩ := h0 x (by simp)
    obtain ⟨s, hs, hw, _⟩ := h1
    have hs1 := sign_abs _ _ hs
    have : |w1 - w| ≤ x.lr := by
      have e : w1 - w = -(x.lr * s) := by rw [hw, hwd]; ring
      rw [e, abs_neg, abs_mul, abs_of_nonneg hlr]
      calc x.lr * |s| ≤ x.lr * 1 := mul_le_mul_of_nonneg_left hs1 hlr
        _ = x.lr := mul_one _
    rw [List.map_cons, List.sum_cons]
    calc |w' - w| = |(w' - w1) + (w1 - w)| := by ring_nf
      _ ≤ |w' - w1| + |w1 - w| := abs_add_le _ _
      _ ≤ x.lr + (xs.map Spec.In.lr).sum := by linarith

/-- With weight decay λ > 0, and learning rates for which the decay does not overshoot, no number ever leaves the larger of its start and 1/λ, whatever the
gradients are. -/
theorem stays_bounded (lam : α) (hl : 0 < lam) (xs : List (Spec.In α)) (w m w' m' : α) (h : Spec.Steps xs w m w' m')
    (h0 : ∀ x ∈ xs, x.wd = lam ∧ 0 ≤ x.lr ∧ x.lr * lam ≤ 1) (b : α) (hw : |w| ≤ b) (hb : 1 / lam ≤ b) : |w'| ≤ b := by
  induction h with
  | nil => exact hw
  | cons x xs w m w1 m1 w' m' h1 _ ih =>
    refine ih (fun y hy => h0 y (by simp [hy])) ?_
    obtain ⟨hwd, hlr, hov⟩ := h0 x (by simp)
    obtain ⟨s, hs, hw1, _⟩ := h1
    have hs1 := sign_abs _ _ hs
    have hbl : 1 ≤ b * lam := by
      rw [div_le_iff₀ hl] at hb; exact hb
    have e : w1 = (1 - x.lr * lam) * w - x.lr * s := by rw [hw1, hwd]; ring
    rw [e]
    have h2 : 0 ≤ 1 - x.lr * lam := by linarith
    calc |(1 - x.lr * lam) * w - x.lr * s| ≤ |(1 - x.lr * lam) * w| + |x.lr * s| := abs_sub _ _
      _ = (1 - x.lr * lam) * |w| + x.lr * |s| := by rw [abs_mul, abs_mul, abs_of_nonneg h2, abs_of_nonneg hlr]
      _ ≤ (1 - x.lr * lam) * b + x.lr * 1 := add_le_add (mul_le_mul_of_nonneg_left hw h2) (mul_le_mul_of_nonneg_left hs1 hlr)
      _ ≤ b := by
        have := mul_le_mul_of_nonneg_left hbl hlr
        nlinarith

theorem sign_scale (k x s : α) (hk : 0 < k) (h : Spec.IsSign x s) : Spec.IsSign (k * x) s := by
  rcases h with ⟨h, e⟩ | ⟨h, e⟩ | ⟨h, e⟩
  · exact Or.inl ⟨mul_pos hk h, e⟩
  · exact Or.inr (Or.inl ⟨mul_neg_of_pos_of_neg hk h, e⟩)
  · exact Or.inr (Or.inr ⟨by rw [h, mul_zero], e⟩)

/-- The scale of the loss does not matter: all gradients (and the average) times a positive number give the same parameters. -/
theorem scale_free (k : α) (hk : 0 < k) (xs : List (Spec.In α)) (w m w' m' : α) (h : Spec.Steps xs w m w' m') :
    Spec.Steps (xs.map fun x => { x with g := k * x.g }) w (k * m) w' (k * m') := by
  induction h with
  | nil => exact .nil _ _
  | cons x xs w m w1 m1 w' m' h1 _ ih =>
    obtain ⟨s, hs, hw1, hm1⟩ := h1
    refine .cons _ _ _ _ _ _ _ _ ⟨s, ?_, hw1, ?_⟩ ih
    · have := sign_scale k _ _ hk hs
      have e : x.b1 * (k * m) + (1 - x.b1) * (k * x.g) = k * (x.b1 * m + (1 - x.b1) * x.g) := by ring
      show Spec.IsSign (x.b1 * (k * m) + (1 - x.b1) * (k * x.g)) s
      rw [e]; exact this
    · show k * m1 = x.b2 * (k * m) + (1 - x.b2) * (k * x.g)
      rw [hm1]; ring

theorem sign_unique (x s t : α) (h : Spec.IsSign x s) (h' : Spec.IsSign x t) : s = t := by
  rcases h with ⟨h, e⟩ | ⟨h, e⟩ | ⟨h, e⟩ <;> rcases h' with ⟨h', e'⟩ | ⟨h', e'⟩ | ⟨h', e'⟩ <;> (try rw [e, e']) <;> exfalso <;> linarith

/-- The rule is a function: from the same start and inputs there is one result, so the statements about the rule are statements about the program. -/
theorem rule_unique (xs : List (Spec.In α)) (w m w1 m1 w2 m2 : α) (h : Spec.Steps xs w m w1 m1) (h' : Spec.Steps xs w m w2 m2) : w1 = w2 ∧ m1 = m2 := by
  induction h with
  | nil => cases h'; exact ⟨rfl, rfl⟩
  | cons x xs w m wa ma w' m' ha _ ih =>
    cases h' with
    | cons _ _ _ _ wb mb _ _ hb hrest =>
      obtain ⟨s, hs, e1, e2⟩ := ha
      obtain ⟨t, ht, f1, f2⟩ := hb
      have := sign_unique _ _ _ hs ht
      subst this
      rw [← e1] at f1; rw [← e2] at f2
      subst f1; subst f2
      exact ih hrest

theorem inputs_opts (c : Cfg α) (j : Nat) (i : ι) (h : List (List (Opt α × List Nat) × (Nat → Option (ι → α)))) (xs : List (Spec.In α))
    (hin : Inputs c j i h xs) : ∀ x ∈ xs, ∃ p ∈ h, ∃ y ∈ p.1, ∃ g, x = inOf c y.1 g := by
  induction hin with
  | nil => intro x hx; cases hx
  | skip gs grad rest xs _ _ ih =>
    intro x hx
    obtain ⟨p, hp, hr⟩ := ih x hx
    exact ⟨p, by simp [hp], hr⟩
  | step gs grad rest xs o ks g hg hj hnd hgr _ ih =>
    intro x hx
    rcases List.mem_cons.1 hx with he | hx
    · exact ⟨(gs, grad), by simp, (o, ks), hg, g i, he⟩
    · obtain ⟨p, hp, hr⟩ := ih x hx
      exact ⟨p, by simp [hp], hr⟩

/-- So in every training of a correct optimizer with (not decoupled) weight decay λ > 0 and learning rates of at most 1/λ, every number of every parameter stays
within the larger of its start and 1/λ, whatever the gradients, the groups and the schedule of learning rates are. -/
theorem training_bounded (c : Cfg α) (hc : c.decoupled = false) (lam : α) (hl : 0 < lam) (h : List (List (Opt α × List Nat) × (Nat → Option (ι → α))))
    (hnd : ∀ p ∈ h, (p.1.map Prod.snd).flatten.Nodup) (ho : ∀ p ∈ h, ∀ y ∈ p.1, y.1.wd = lam ∧ 0 ≤ y.1.lr ∧ y.1.lr ≤ 1 / lam) (s : St ι α) (j : Nat)
    (i : ι) : |(steps c h s).val j i| ≤ max |s.val j i| (1 / lam) := by
  obtain ⟨xs, hx⟩ := inputs_exist c j i h hnd
  obtain ⟨m', _, hs⟩ := history_rule c j i h xs s hx
  refine stays_bounded lam hl xs _ _ _ _ hs ?_ _ (le_max_left _ _) (le_max_right _ _)
  intro x hxm
  obtain ⟨p, hp, y, hy, g, rfl⟩ := inputs_opts c j i h xs hx x hxm
  obtain ⟨h1, h2, h3⟩ := ho p hp y hy
  refine ⟨by simp [inOf, hc, h1], h2, ?_⟩
  rw [le_div_iff₀ hl] at h3
  exact h3

end Bounds

/-- Decoupled weight decay: with the initial learning rate, one step shrinks by the given weight decay itself. -/
theorem decoupled_decay (c : Cfg α) (o : Opt α) (p g m : α) (hd : c.decoupled = true) (hl : o.lr = c.initLr) (h0 : c.initLr ≠ 0) :
    (cell o (effWd c o.wd) p g m).1 = (1 - o.wd) * p - o.lr * sign (o.beta1 * m + (1 - o.beta1) * g) := by
  simp only [cell, effWd, hd, if_true, hl]
  have : c.initLr * (o.wd / c.initLr) = o.wd := by field_simp
  rw [this, mul_comm m]; ring

/-- The hypotheses are met: two groups, three parameters, one without gradient, two steps. -/
def exO (lr : ℚ) : Opt ℚ := { lr := lr, wd := 1 / 2, beta1 := 9 / 10, beta2 := 99 / 100 }
def exH : List (List (Opt ℚ × List Nat) × (Nat → Option (Unit → ℚ))) :=
  [([(exO 1, [0, 1]), (exO (1 / 2), [2])], fun k => if k = 1 then none else some fun _ => 1 - (k : ℚ)),
   ([(exO (1 / 2), [0, 1]), (exO (1 / 4), [2])], fun _ => some fun _ => -1)]
def exC : Cfg ℚ := { initLr := 1, decoupled := false }
def exS : St Unit ℚ := { val := fun _ _ => 1, expAvg := fun _ => none }
example : (steps exC exH exS).val 0 () = 1 / 8 := by decide +kernel
example : (steps exC exH exS).val 1 () = 5 / 4 := by decide +kernel
example : ∀ p ∈ exH, (p.1.map Prod.snd).flatten.Nodup := by
  intro p hp
  simp only [exH, List.mem_cons, List.not_mem_nil, or_false] at hp
  rcases hp with rfl | rfl <;> decide

end Verif.Lion
