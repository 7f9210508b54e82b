import Verif.LearningRate.Props
import Mathlib.Data.List.Nodup
/-
Properties of whole trainings: all histories of scores.
-/
namespace Verif.LearningRate
open Verif.Py Verif.ListLemmas

/-! ### Effects of the calls -/

theorem setError_old {k : Control} {c : Cfg} {d d' : Data} {e : Int} {err : Dict String Score} (he : e ∈ d.keys)
    (h : setError k c d e err = .ok d') :
    ∃ x er, d.get? e = some x ∧ d' = d.set e ⟨x.lr, er⟩ := by
  unfold setError at h
  have hc : d.contains e = true := by unfold Dict.contains; exact (Dict.get?_isSome d e).2 he
  obtain ⟨x, hx⟩ := exists_get? he
  simp only [hc, if_true, bind, Except.bind, pure, Except.pure] at h
  split at h
  · cases h
  · rw [getItem_ok.2 hx] at h
    injection h with h
    exact ⟨x, _, hx, h.symm⟩

/-- A call of `getLr` or `setError` for an epoch: the epoch data exists afterwards with its rate, and nothing else is
touched. -/
theorem getLr_effect {k : Control} {c : Cfg} {d d' : Data} {e : Int} {lr : ℚ} (h : getLr k c d e = .ok (lr, d')) :
    (∃ x, d'.get? e = some x ∧ x.lr = lr) ∧ (∀ e', e' ≠ e → d'.get? e' = d.get? e') ∧
    (∀ x, d.get? e = some x → d' = d ∧ lr = x.lr) := by
  by_cases he : e ∈ d.keys
  · obtain ⟨x, hx⟩ := exists_get? he
    unfold getLr at h
    rw [hx] at h
    simp only [bind, Except.bind, pure, Except.pure] at h
    split at h
    · cases h
    · injection h with h; injection h with h1 h2
      subst h1 h2
      refine ⟨⟨x, hx, rfl⟩, fun _ _ => rfl, fun y hy => ?_⟩
      rw [hx] at hy; injection hy with hy; exact ⟨rfl, by rw [hy]⟩
  · obtain ⟨h1, h2, _⟩ := getLr_new he h
    subst h2
    refine ⟨⟨⟨lr, []⟩, by rw [get?_setDefault_new he, if_pos rfl], rfl⟩, ?_, ?_⟩
    · intro e' hne; rw [get?_setDefault_new he, if_neg (fun h => hne h.symm)]
    · intro x hx; rw [(Dict.get?_eq_none d e).2 he] at hx; cases hx

theorem wf_getLr {k : Control} {c : Cfg} {d d' : Data} {e : Int} {lr : ℚ} (hw : d.Wf)
    (h : getLr k c d e = .ok (lr, d')) : d'.Wf := by
  by_cases he : e ∈ d.keys
  · obtain ⟨x, hx⟩ := exists_get? he
    rw [((getLr_effect h).2.2 x hx).1]; exact hw
  · obtain ⟨_, h2, _⟩ := getLr_new he h
    rw [h2]; exact wf_setDefault hw _ _

/-- `set_epoch_error` first makes sure that the epoch has a rate. -/
theorem setError_eq {k : Control} {c : Cfg} {d d' : Data} {e : Int} {err : Dict String Score} (he : e ∉ d.keys)
    (h : setError k c d e err = .ok d') :
    ∃ lr d1, getLr k c d e = .ok (lr, d1) ∧ setError k c d1 e err = .ok d' := by
  have hc : d.contains e = false := by
    unfold Dict.contains; rw [(Dict.get?_eq_none d e).2 he]; rfl
  unfold setError at h
  simp only [hc, Bool.false_eq_true, if_false, bind, Except.bind, pure, Except.pure] at h
  cases hg : getLr k c d e with
  | error _ => rw [hg] at h; cases h
  | ok r =>
    refine ⟨r.1, r.2, rfl, ?_⟩
    rw [hg] at h
    obtain ⟨x, hx, _⟩ := (getLr_effect (lr := r.1) (d' := r.2) hg).1
    have hc : r.2.contains e = true := by unfold Dict.contains; rw [hx]; rfl
    unfold setError
    simp only [hc, if_true, bind, Except.bind, pure, Except.pure]
    exact h

/-- All rates satisfy `P`. -/
def AllLr (P : ℚ → Prop) (d : Data) : Prop := ∀ e x, d.get? e = some x → P x.lr

theorem allLr_set {P : ℚ → Prop} {d : Data} (h : AllLr P d) {e : Int} {x : EpochData} (hx : P x.lr) :
    AllLr P (d.set e x) := by
  intro e' y hy
  rw [Dict.get?_set] at hy
  split at hy
  · injection hy with hy; rw [← hy]; exact hx
  · exact h e' y hy

theorem allLr_setDefault {P : ℚ → Prop} {d : Data} (h : AllLr P d) {e : Int} {lr : ℚ} (hlr : P lr) :
    AllLr P (setDefault d e lr) := by
  unfold setDefault
  split
  · split
    · exact allLr_set h hlr
    · exact h
  · exact allLr_set h hlr

theorem allLr_initData {P : ℚ → Prop} {lrs : List (Int × ℚ)} : ∀ {d : Data}, AllLr P d → (∀ p ∈ lrs, P p.2) →
    AllLr P (initData d lrs) := by
  unfold initData
  induction lrs with
  | nil => intro d h _; exact h
  | cons p l ih =>
    intro d h hp
    exact ih (allLr_setDefault h (hp p (by simp))) (fun q hq => hp q (by simp [hq]))

/-- Closed under the configured changes. -/
def ClosedUnder (c : Cfg) (P : ℚ → Prop) : Prop :=
  P c.defaultLr ∧ (∀ x, P x → P (max (upd c.decay x) c.minLr)) ∧ (∀ x, P x → P (upd c.growth x))

theorem allLr_getLr {P : ℚ → Prop} {k : Control} {c : Cfg} (hc : ClosedUnder c P) {d d' : Data} (hw : d.Wf)
    {e : Int} {lr : ℚ} (h : AllLr P d) (hg : getLr k c d e = .ok (lr, d')) : AllLr P d' := by
  by_cases he : e ∈ d.keys
  · obtain ⟨x, hx⟩ := exists_get? he
    rw [((getLr_effect hg).2.2 x hx).1]; exact h
  · obtain ⟨h1, h2, _⟩ := getLr_new he hg
    rw [h2]
    apply allLr_setDefault h
    rcases calcNewLr_cases hw h1 with ⟨_, h3⟩ | ⟨p, x, _, hx, h3⟩
    · rw [h3]; exact hc.1
    · have hx' := h p x hx
      rcases h3 with h3 | ⟨y, h3, h4⟩ | h3
      · rw [h3]; exact hx'
      · rw [h4, calcUpdate_ok h3]; exact hc.2.1 _ hx'
      · rw [calcUpdate_ok h3]; exact hc.2.2 _ hx'

theorem allLr_step {P : ℚ → Prop} {k : Control} {c : Cfg} (hc : ClosedUnder c P) {d d' : Data} (hw : d.Wf) {o : Op}
    (ho : ∀ e lr, o = .setDefault e lr → P lr) (h : AllLr P d) (hs : step k c d o = .ok d') : AllLr P d' ∧ d'.Wf := by
  cases o with
  | getLr e =>
    simp only [step, bind, Except.bind, pure, Except.pure] at hs
    cases hg : getLr k c d e with
    | error _ => rw [hg] at hs; cases hs
    | ok r =>
      rw [hg] at hs; injection hs with hs; subst hs
      exact ⟨allLr_getLr hc hw h hg, wf_getLr hw hg⟩
  | setError e err =>
    simp only [step] at hs
    have key : ∀ d1 : Data, d1.Wf → AllLr P d1 → e ∈ d1.keys → setError k c d1 e err = .ok d' → AllLr P d' ∧ d'.Wf := by
      intro d1 hw1 h1 he1 hs1
      obtain ⟨x, er, hx, h2⟩ := setError_old he1 hs1
      rw [h2]
      exact ⟨allLr_set h1 (h1 e x hx), Dict.wf_set hw1 _ _⟩
    by_cases he : e ∈ d.keys
    · exact key d hw h he hs
    · obtain ⟨lr, d1, hg, hs1⟩ := setError_eq he hs
      obtain ⟨x, hx, _⟩ := (getLr_effect hg).1
      exact key d1 (wf_getLr hw hg) (allLr_getLr hc hw h hg) ((Dict.get?_isSome d1 e).1 (by rw [hx]; rfl)) hs1
  | setDefault e lr =>
    simp only [step] at hs
    injection hs with hs; subst hs
    exact ⟨allLr_setDefault h (ho e lr rfl), wf_setDefault hw _ _⟩

theorem allLr_runOps {P : ℚ → Prop} {k : Control} {c : Cfg} (hc : ClosedUnder c P) : ∀ {ops : List Op} {d d' : Data},
    d.Wf → (∀ e lr, .setDefault e lr ∈ ops → P lr) → AllLr P d → runOps k c d ops = .ok d' → AllLr P d' ∧ d'.Wf := by
  intro ops
  induction ops with
  | nil => intro d d' hw _ h hr; simp only [runOps] at hr; injection hr with hr; subst hr; exact ⟨h, hw⟩
  | cons o os ih =>
    intro d d' hw ho h hr
    simp only [runOps, bind, Except.bind] at hr
    cases hs : step k c d o with
    | error _ => rw [hs] at hr; cases hr
    | ok d1 =>
      rw [hs] at hr
      obtain ⟨h1, h2⟩ := allLr_step hc hw (fun e lr he => ho e lr (by simp [he])) h hs
      exact ih h2 (fun e lr he => ho e lr (by simp [he])) h1 hr

/-- C31 (lower bound). No history of calls leads to a learning rate below `min_learning_rate`: if the configured rates
(default rate, explicit rates, loaded rates) are not below it, and the growth setting does not lower a rate below it,
then no rate which is ever computed is below it. There is no condition on the decay setting. -/
theorem lr_ge_min {k : Control} {c : Cfg} {loaded : Data} {lrs : List (Int × ℚ)} {ops : List Op} {d : Data}
    (hw : loaded.Wf) (hload : ∀ e x, loaded.get? e = some x → c.minLr ≤ x.lr) (hlrs : ∀ p ∈ lrs, c.minLr ≤ p.2)
    (hops : ∀ e lr, .setDefault e lr ∈ ops → c.minLr ≤ lr)
    (hdef : c.minLr ≤ c.defaultLr) (hgrow : ∀ x, c.minLr ≤ x → c.minLr ≤ upd c.growth x)
    (hrun : runOps k c (initData loaded lrs) ops = .ok d) :
    ∀ e x, d.get? e = some x → c.minLr ≤ x.lr :=
  (allLr_runOps (P := fun x => c.minLr ≤ x) ⟨hdef, fun _ _ => le_max_right _ _, hgrow⟩ (wf_initData hw lrs) hops
    (allLr_initData hload hlrs) hrun).1

/-- C31 (upper bound). Without growth, and with a decay setting which does not raise a rate, no rate ever exceeds the
largest configured one. -/
theorem lr_le_max {k : Control} {c : Cfg} {loaded : Data} {lrs : List (Int × ℚ)} {ops : List Op} {d : Data} {M : ℚ}
    (hw : loaded.Wf) (hload : ∀ e x, loaded.get? e = some x → x.lr ≤ M) (hlrs : ∀ p ∈ lrs, p.2 ≤ M)
    (hops : ∀ e lr, .setDefault e lr ∈ ops → lr ≤ M)
    (hdef : c.defaultLr ≤ M) (hmin : c.minLr ≤ M) (hdecay : ∀ x ≤ M, upd c.decay x ≤ M)
    (hgrow : ∀ x ≤ M, upd c.growth x ≤ M)
    (hrun : runOps k c (initData loaded lrs) ops = .ok d) :
    ∀ e x, d.get? e = some x → x.lr ≤ M :=
  (allLr_runOps (P := fun x => x ≤ M) ⟨hdef, fun x hx => max_le (hdecay x hx) hmin, hgrow⟩ (wf_initData hw lrs) hops
    (allLr_initData hload hlrs) hrun).1

/-! ### Rates are fixed once computed -/

/-- Once an epoch has a rate, no later call changes it, except `set_default_learning_rate_for_epoch` on a zero rate. -/
theorem step_keeps {k : Control} {c : Cfg} {d d' : Data} {o : Op} {e : Int} {x : EpochData} (hx : d.get? e = some x)
    (hz : x.lr ≠ 0 ∨ ∀ lr, o ≠ .setDefault e lr) (hs : step k c d o = .ok d') :
    ∃ y, d'.get? e = some y ∧ y.lr = x.lr := by
  have hk : e ∈ d.keys := (Dict.get?_isSome d e).1 (by rw [hx]; rfl)
  cases o with
  | getLr e2 =>
    simp only [step, bind, Except.bind, pure, Except.pure] at hs
    cases hg : getLr k c d e2 with
    | error _ => rw [hg] at hs; cases hs
    | ok r =>
      rw [hg] at hs; injection hs with hs; subst hs
      obtain ⟨h1, h2, h3⟩ := getLr_effect (lr := r.1) (d' := r.2) hg
      by_cases h : e = e2
      · subst h; rw [(h3 x hx).1]; exact ⟨x, hx, rfl⟩
      · rw [h2 e h]; exact ⟨x, hx, rfl⟩
  | setError e2 err =>
    simp only [step] at hs
    by_cases he : e2 ∈ d.keys
    · obtain ⟨y, er, hy, h2⟩ := setError_old he hs
      rw [h2, Dict.get?_set]
      split
      · rename_i h; subst h; rw [hx] at hy; injection hy with hy; exact ⟨_, rfl, by rw [hy]⟩
      · exact ⟨x, hx, rfl⟩
    · obtain ⟨lr, d1, hg, hs1⟩ := setError_eq he hs
      obtain ⟨⟨z, hz1, _⟩, h2, _⟩ := getLr_effect hg
      obtain ⟨y, er, hy, h3⟩ := setError_old ((Dict.get?_isSome d1 e2).1 (by rw [hz1]; rfl)) hs1
      have hne : e ≠ e2 := fun h => he (h ▸ hk)
      rw [h3, Dict.get?_set, if_neg (fun h => hne h.symm), h2 e hne]
      exact ⟨x, hx, rfl⟩
  | setDefault e2 lr =>
    simp only [step] at hs
    injection hs with hs; subst hs
    unfold setDefault
    by_cases h : e2 = e
    · subst h
      rw [hx]
      simp only
      rcases hz with hz | hz
      · rw [if_neg hz]; exact ⟨x, hx, rfl⟩
      · exact absurd rfl (hz lr)
    · split
      · split
        · rw [Dict.get?_set, if_neg h]; exact ⟨x, hx, rfl⟩
        · exact ⟨x, hx, rfl⟩
      · rw [Dict.get?_set, if_neg h]; exact ⟨x, hx, rfl⟩

/-- The rate of an epoch, once there, is what every later query returns, over every history of calls. -/
theorem rate_stable {k : Control} {c : Cfg} {e : Int} (he : 1 ≤ e) : ∀ {ops : List Op} {d d' : Data} {x : EpochData},
    d.get? e = some x → x.lr ≠ 0 → runOps k c d ops = .ok d' → ∃ d'', getLr k c d' e = .ok (x.lr, d'') := by
  intro ops
  induction ops with
  | nil =>
    intro d d' x hx _ hr
    simp only [runOps] at hr; injection hr with hr; subst hr
    refine ⟨d, ?_⟩
    unfold getLr
    rw [hx]
    simp [pyAssert, he, bind, Except.bind, pure, Except.pure]
  | cons o os ih =>
    intro d d' x hx hz hr
    simp only [runOps, bind, Except.bind] at hr
    cases hs : step k c d o with
    | error _ => rw [hs] at hr; cases hr
    | ok d1 =>
      rw [hs] at hr
      obtain ⟨y, hy, hyx⟩ := step_keeps hx (Or.inl hz) hs
      rw [← hyx]
      exact ih hy (by rw [hyx]; exact hz) hr

theorem initData_keeps {e : Int} {lrs : List (Int × ℚ)} : ∀ {d : Data} {x : EpochData}, d.get? e = some x →
    x.lr ≠ 0 → (initData d lrs).get? e = some x := by
  unfold initData
  induction lrs with
  | nil => intro d x h _; exact h
  | cons p l ih =>
    intro d x h hz
    refine ih ?_ hz
    show (setDefault d p.1 p.2).get? e = some x
    unfold setDefault
    by_cases hp : p.1 = e
    · rw [hp, h]; simp only; rw [if_neg hz]; exact h
    · split
      · split
        · rw [Dict.get?_set, if_neg hp]; exact h
        · exact h
      · rw [Dict.get?_set, if_neg hp]; exact h

/-- An explicitly configured (non-zero) rate of an epoch (`learning_rates`) is used, whatever happens in the other epochs:
unless the loaded file already has this epoch. -/
theorem explicit_rate {k : Control} {c : Cfg} {e : Int} (he : 1 ≤ e) {loaded : Data} {l1 l2 : List (Int × ℚ)} {lr : ℚ}
    (hlr : lr ≠ 0) (hload : e ∉ loaded.keys) (h1 : ∀ p ∈ l1, p.1 ≠ e) {ops : List Op} {d : Data}
    (hr : runOps k c (initData loaded (l1 ++ (e, lr) :: l2)) ops = .ok d) :
    ∃ d'', getLr k c d e = .ok (lr, d'') := by
  have hfirst : ∀ (l : List (Int × ℚ)) (d0 : Data), e ∉ d0.keys → (∀ p ∈ l, p.1 ≠ e) → e ∉ (initData d0 l).keys := by
    intro l
    unfold initData
    induction l with
    | nil => intro d0 h _; exact h
    | cons p l ih =>
      intro d0 h hp
      refine ih _ ?_ (fun q hq => hp q (by simp [hq]))
      have hpe := hp p (by simp)
      rw [← Dict.get?_eq_none] at h ⊢
      show (setDefault d0 p.1 p.2).get? e = none
      unfold setDefault
      split
      · split
        · rw [Dict.get?_set, if_neg hpe]; exact h
        · exact h
      · rw [Dict.get?_set, if_neg hpe]; exact h
  have hi : (initData loaded (l1 ++ (e, lr) :: l2)).get? e = some ⟨lr, []⟩ := by
    unfold initData
    rw [List.foldl_append, List.foldl_cons]
    refine initData_keeps (lrs := l2) ?_ hlr
    have := get?_setDefault_new (lr := lr) (hfirst l1 loaded hload h1) e
    rw [if_pos rfl] at this
    exact this
  exact rate_stable he hi hlr hr

/-! ### Trainings from scratch -/

theorem lrsOf_mem {d : Data} {l : List Int} {r : List ℚ} (h : lrsOf d l = .ok r) {v : ℚ} (hv : v ∈ r) :
    ∃ e x, d.get? e = some x ∧ x.lr = v := by
  have hf := lrsOf_ok h
  clear h
  induction hf with
  | nil => simp at hv
  | cons h1 _ ih =>
    rcases List.mem_cons.1 hv with rfl | hv
    · exact ⟨_, h1⟩
    · exact ih hv

theorem forall₂_getLast {α β : Type _} {R : α → β → Prop} {l : List α} {r : List β} (h : List.Forall₂ R l r) :
    ∀ {p}, l.getLast? = some p → ∃ v, r.getLast? = some v ∧ R p v := by
  induction h with
  | nil => intro p hp; simp at hp
  | @cons a b l r h1 h2 ih =>
    intro p hp
    cases h2 with
    | nil => simp at hp ⊢; subst hp; exact h1
    | cons h3 h4 =>
      rw [List.getLast?_cons_cons] at hp ⊢
      exact ih hp

theorem train_wf {k : Control} {c : Cfg} {n : Int} {d : Data} (h : Train k c n d) :
    d.Wf ∧ 0 ≤ n ∧ ∀ e, e ∈ d.keys ↔ 1 ≤ e ∧ e ≤ n := by
  induction h with
  | init => refine ⟨by simp [Dict.Wf, Dict.keys], le_refl _, fun e => ?_⟩; simp [Dict.keys]; omega
  | @epoch n d lr d' _ hg ih =>
    obtain ⟨hw, hn, hk⟩ := ih
    refine ⟨wf_getLr hw hg, by omega, fun e => ?_⟩
    have hnew : n + 1 ∉ d.keys := by rw [hk]; omega
    obtain ⟨_, h2, _⟩ := getLr_new hnew hg
    rw [← Dict.get?_isSome, h2, get?_setDefault_new hnew]
    split
    · rename_i h; simp; omega
    · rename_i h; rw [Dict.get?_isSome, hk]; omega
  | @score n d err d' _ h1 hs ih =>
    obtain ⟨hw, hn, hk⟩ := ih
    obtain ⟨x, er, hx, h2⟩ := setError_old ((hk n).2 (by omega)) hs
    refine ⟨by rw [h2]; exact Dict.wf_set hw _ _, hn, fun e => ?_⟩
    rw [h2, Dict.keys_set, if_pos ((hk n).2 (by omega)), hk]

theorem prev_of_train {k : Control} {c : Cfg} {n : Int} {d : Data} (h : Train k c n d) {e : Int} (h1 : 2 ≤ e)
    (h2 : e ≤ n + 1) : IsPrev d e (e - 1) := by
  obtain ⟨_, _, hk⟩ := train_wf h
  refine ⟨(hk _).2 (by omega), by omega, fun q hq hqe => by omega⟩

theorem isPrev_unique {d : Data} {e p q : Int} (hp : IsPrev d e p) (hq : IsPrev d e q) : p = q := by
  have := hp.2.2 q hq.1 hq.2.1
  have := hq.2.2 p hp.1 hp.2.1
  omega

/-- A fact about the data of the epochs `e-1`, `e`, and the rate of `e+1`, which holds when epoch `e+1` starts,
holds for the whole training. -/
theorem train_inv {k : Control} {c : Cfg} (R : Option EpochData → EpochData → ℚ → Prop)
    (hR : ∀ n d lr d', Train k c n d → 1 ≤ n → getLr k c d (n + 1) = .ok (lr, d') → ∀ x, d.get? n = some x →
      R (d.get? (n - 1)) x lr) {n : Int} {d : Data} (h : Train k c n d) :
    ∀ e, 1 ≤ e → e < n → ∃ x z, d.get? e = some x ∧ d.get? (e + 1) = some z ∧ R (d.get? (e - 1)) x z.lr := by
  induction h with
  | init => intro e h1 h2; omega
  | @epoch n d lr d' ht hg ih =>
    intro e h1 h2
    obtain ⟨⟨z, hz, hzl⟩, hoth, _⟩ := getLr_effect hg
    by_cases he : e < n
    · obtain ⟨x, z, hx, hz, hr⟩ := ih e h1 he
      refine ⟨x, z, ?_, ?_, ?_⟩
      · rw [hoth e (by omega)]; exact hx
      · rw [hoth (e + 1) (by omega)]; exact hz
      · rw [hoth (e - 1) (by omega)]; exact hr
    · have : e = n := by omega
      subst this
      obtain ⟨x, hx⟩ := exists_get? (((train_wf ht).2.2 e).2 (by omega))
      refine ⟨x, z, ?_, hz, ?_⟩
      · rw [hoth e (by omega)]; exact hx
      · rw [hoth (e - 1) (by omega), hzl]; exact hR e d lr d' ht h1 hg x hx
  | @score n d err d' ht hn hs ih =>
    intro e h1 h2
    obtain ⟨y, er, hy, h3⟩ := setError_old (((train_wf ht).2.2 n).2 (by omega)) hs
    obtain ⟨x, z, hx, hz, hr⟩ := ih e h1 h2
    rw [h3]
    rw [Dict.get?_set, if_neg (by omega), Dict.get?_set, Dict.get?_set, if_neg (by omega : ¬ n = e - 1)]
    by_cases he : n = e + 1
    · rw [if_pos he]
      refine ⟨x, _, hx, rfl, ?_⟩
      rw [← he, hy] at hz; injection hz with hz; rw [hz]; exact hr
    · rw [if_neg he]; exact ⟨x, z, hx, hz, hr⟩

/-- C31 (decay exactly by the criterion), relative Newbob. In every training without `min_num_epochs_per_new_lr`, the
rate of every epoch from the third on is: the previous rate decayed (but not below the minimum) if the relative error
between the last two epochs is above the threshold, and with the growth applied otherwise; it is unchanged if one of
the two epochs has no score or they have different score keys. -/
theorem relative_train {c : Cfg} {thr : ℚ} (hN : c.minNum ≤ 1) {n : Int} {d : Data}
    (h : Train (.relative thr) c n d) (e : Int) (h1 : 2 ≤ e) (h2 : e < n) :
    ∃ y x z, d.get? (e - 1) = some y ∧ d.get? e = some x ∧ d.get? (e + 1) = some z ∧ z.lr = relativeNext c thr y x := by
  have key := train_inv (k := .relative thr) (c := c)
    (fun o x lr => ∀ y, o = some y → lr = relativeNext c thr y x) ?_ h e (by omega) h2
  · obtain ⟨x, z, hx, hz, hr⟩ := key
    obtain ⟨y, hy⟩ := exists_get? (((train_wf h).2.2 (e - 1)).2 (by omega))
    exact ⟨y, x, z, hy, hx, hz, hr y hy⟩
  · intro m d lr d' ht hm hg x hx y hy
    obtain ⟨hw, _, hk⟩ := train_wf ht
    have hnew : m + 1 ∉ d.keys := by rw [hk]; omega
    obtain ⟨hc, _, _⟩ := getLr_new hnew hg
    unfold calcNewLr at hc
    rw [if_neg (by omega)] at hc
    have hm2 : 1 ≤ m - 1 := ((hk (m - 1)).1 ((Dict.get?_isSome d (m - 1)).1 (by rw [hy]; rfl))).1
    have hp : IsPrev d (m + 1) m := by simpa using prev_of_train ht (e := m + 1) (by omega) (by omega)
    have hq : IsPrev d m (m - 1) := prev_of_train ht (by omega) (by omega)
    rcases relative_calc hw hc with ⟨hno, _⟩ | ⟨p, x', hp', hx', hcase⟩
    · exact absurd hp.2.1 (hno m hp.1)
    · have := isPrev_unique hp hp'; subst this
      rw [hx] at hx'; injection hx' with hx'; subst hx'
      rcases hcase with ⟨hno, _⟩ | ⟨q, y', hq', hy', hl⟩
      · exact absurd hq.2.1 (hno _ hq.1)
      · have := isPrev_unique hq hq'; subst this
        rw [hy] at hy'; injection hy' with hy'; subst hy'
        exact hl

/-- C31 (decay exactly by the criterion), absolute Newbob. -/
theorem abs_train {c : Cfg} {thr : ℚ} (hN : c.minNum ≤ 1) {n : Int} {d : Data}
    (h : Train (.abs thr) c n d) (e : Int) (h1 : 2 ≤ e) (h2 : e < n) :
    ∃ y x z, d.get? (e - 1) = some y ∧ d.get? e = some x ∧ d.get? (e + 1) = some z ∧ z.lr = absNext c thr y x := by
  have key := train_inv (k := .abs thr) (c := c)
    (fun o x lr => ∀ y, o = some y → lr = absNext c thr y x) ?_ h e (by omega) h2
  · obtain ⟨x, z, hx, hz, hr⟩ := key
    obtain ⟨y, hy⟩ := exists_get? (((train_wf h).2.2 (e - 1)).2 (by omega))
    exact ⟨y, x, z, hy, hx, hz, hr y hy⟩
  · intro m d lr d' ht hm hg x hx y hy
    obtain ⟨hw, _, hk⟩ := train_wf ht
    have hnew : m + 1 ∉ d.keys := by rw [hk]; omega
    obtain ⟨hc, _, _⟩ := getLr_new hnew hg
    unfold calcNewLr at hc
    rw [if_neg (by omega)] at hc
    have hm2 : 1 ≤ m - 1 := ((hk (m - 1)).1 ((Dict.get?_isSome d (m - 1)).1 (by rw [hy]; rfl))).1
    have hp : IsPrev d (m + 1) m := by simpa using prev_of_train ht (e := m + 1) (by omega) (by omega)
    have hq : IsPrev d m (m - 1) := prev_of_train ht (by omega) (by omega)
    rcases abs_calc hc with ⟨hno, _⟩ | ⟨p, x', hp', hx', hcase⟩
    · exact absurd hp.2.1 (hno m hp.1)
    · have := isPrev_unique hp hp'; subst this
      rw [hx] at hx'; injection hx' with hx'; subst hx'
      rcases hcase with ⟨hno, _⟩ | ⟨q, y', hq', hy', hl⟩
      · exact absurd hq.2.1 (hno _ hq.1)
      · have := isPrev_unique hq hq'; subst this
        rw [hy] at hy'; injection hy' with hy'; subst hy'
        exact hl

/-- The first epoch has the default rate, for every control. -/
theorem train_first {k : Control} {c : Cfg} {n : Int} {d : Data} (h : Train k c n d) (hn : 1 ≤ n) :
    ∃ x, d.get? 1 = some x ∧ x.lr = c.defaultLr := by
  induction h with
  | init => omega
  | @epoch n d lr d' ht hg ih =>
    obtain ⟨⟨z, hz, hzl⟩, hoth, _⟩ := getLr_effect hg
    obtain ⟨hw, h0, hk⟩ := train_wf ht
    by_cases h1 : 1 ≤ n
    · rw [hoth 1 (by omega)]; exact ih h1
    · have : n = 0 := by omega
      subst this
      refine ⟨z, by simpa using hz, ?_⟩
      have hnew : (0 : Int) + 1 ∉ d.keys := by rw [hk]; omega
      obtain ⟨hc, _, _⟩ := getLr_new hnew hg
      rcases calcNewLr_cases hw hc with ⟨_, h3⟩ | ⟨p, x, hp, _, _⟩
      · rw [hzl, h3]
      · have := (hk p).1 hp.1; omega
  | @score n d err d' ht hm hs ih =>
    obtain ⟨x, hx, hxl⟩ := ih hn
    obtain ⟨y, er, hy, h3⟩ := setError_old (((train_wf ht).2.2 n).2 (by omega)) hs
    rw [h3, Dict.get?_set]
    split
    · rename_i h; subst h; rw [hx] at hy; injection hy with hy; exact ⟨_, rfl, by rw [← hy]; exact hxl⟩
    · exact ⟨x, hx, hxl⟩

/-- The constant control keeps the rate in every training. -/
theorem constant_train {c : Cfg} {n : Int} {d : Data} (h : Train .constant c n d) :
    ∀ e x, d.get? e = some x → x.lr = c.defaultLr := by
  induction h with
  | init => intro e x hx; simp [Dict.get?] at hx
  | @epoch n d lr d' ht hg ih =>
    intro e x hx
    obtain ⟨⟨z, hz, hzl⟩, hoth, _⟩ := getLr_effect hg
    obtain ⟨hw, h0, hk⟩ := train_wf ht
    by_cases he : e = n + 1
    · subst he
      rw [hz] at hx; injection hx with hx; subst hx
      have hnew : n + 1 ∉ d.keys := by rw [hk]; omega
      obtain ⟨hc, _, _⟩ := getLr_new hnew hg
      rw [hzl]
      have hcl : ∀ e l, calcLr .constant c d e = .ok l → l = c.defaultLr := by
        intro e l hl
        simp only [calcLr] at hl
        cases hg : getLastEpoch d e with
        | none => rw [hg] at hl; injection hl with hl; exact hl.symm
        | some p =>
          obtain ⟨y, hy⟩ := exists_get? ((getLastEpoch_some d e p).1 hg).1
          simp only [hg, getItem_ok.2 hy, bind, Except.bind, pure, Except.pure] at hl
          injection hl with hl; rw [← hl]; exact ih p y hy
      unfold calcNewLr at hc
      split at hc
      · simp only [bind, Except.bind, pure, Except.pure] at hc
        split at hc
        · cases hc
        · rename_i lrs hlrs
          split at hc
          · split at hc
            · rename_i v hv
              injection hc with hc; subst hc
              have hm := List.mem_of_getLast? hv
              obtain ⟨q, y, hy, hyv⟩ := lrsOf_mem hlrs hm
              rw [← hyv]; exact ih q y hy
            · cases hc
          · exact hcl _ _ hc
      · exact hcl _ _ hc
    · rw [hoth e he] at hx; exact ih e x hx
  | @score n d err d' ht hm hs ih =>
    intro e x hx
    obtain ⟨y, er, hy, h3⟩ := setError_old (((train_wf ht).2.2 n).2 (by omega)) hs
    rw [h3, Dict.get?_set] at hx
    split at hx
    · injection hx with hx; rw [← hx]; exact ih n y hy
    · exact ih e x hx

/-- C31 (no growth). In every training with a control whose growth and decay settings do not raise a rate (e.g. a growth
of `None` or `1.0`, and a decay factor of at most 1 on non-negative rates), and with the default rate at or above the
minimum, the rates never increase. -/
theorem train_antitone {k : Control} {c : Cfg} (hdef : c.minLr ≤ c.defaultLr)
    (hdecay : ∀ x, c.minLr ≤ x → upd c.decay x ≤ x) (hgrow : ∀ x, c.minLr ≤ x → upd c.growth x ≤ x)
    (hgrow' : ∀ x, c.minLr ≤ x → c.minLr ≤ upd c.growth x) {n : Int} {d : Data} (h : Train k c n d) :
    ∀ e x z, 1 ≤ e → d.get? e = some x → d.get? (e + 1) = some z → z.lr ≤ x.lr ∧ c.minLr ≤ z.lr := by
  have hclosed : ClosedUnder c (fun x => c.minLr ≤ x) := ⟨hdef, fun _ _ => le_max_right _ _, hgrow'⟩
  have hall : ∀ {n d}, Train k c n d → AllLr (fun x => c.minLr ≤ x) d := by
    intro n d h
    induction h with
    | init => intro e x hx; simp [Dict.get?] at hx
    | epoch ht hg ih => exact allLr_getLr hclosed (train_wf ht).1 ih hg
    | score ht hm hs ih =>
      obtain ⟨y, er, hy, h3⟩ := setError_old (((train_wf ht).2.2 _).2 (by omega)) hs
      rw [h3]; exact allLr_set ih (ih _ y hy)
  intro e x z h1 hx hz
  have hen : e + 1 ≤ n := (((train_wf h).2.2 (e + 1)).1 ((Dict.get?_isSome d (e + 1)).1 (by rw [hz]; rfl))).2
  have key := train_inv (k := k) (c := c) (fun _ x lr => lr ≤ x.lr) ?_ h e h1 (by omega)
  · obtain ⟨x', z', hx', hz', hr⟩ := key
    rw [hx] at hx'; injection hx' with hx'; subst hx'
    rw [hz] at hz'; injection hz' with hz'; subst hz'
    exact ⟨hr, hall h _ _ hz⟩
  · intro m d lr d' ht hm hg x hx
    obtain ⟨hw, _, hk⟩ := train_wf ht
    have hnew : m + 1 ∉ d.keys := by rw [hk]; omega
    obtain ⟨hc, _, _⟩ := getLr_new hnew hg
    have hp : IsPrev d (m + 1) m := by simpa using prev_of_train ht (e := m + 1) (by omega) (by omega)
    have hxm := hall ht m x hx
    rcases calcNewLr_cases hw hc with ⟨hno, _⟩ | ⟨p, x', hp', hx', hcase⟩
    · exact absurd hp.2.1 (hno m hp.1)
    · have := isPrev_unique hp hp'; subst this
      rw [hx] at hx'; injection hx' with hx'; subst hx'
      rcases hcase with h3 | ⟨y, h3, h4⟩ | h3
      · exact le_of_eq h3
      · rw [h4, calcUpdate_ok h3]; exact max_le (hdecay _ hxm) hxm
      · rw [calcUpdate_ok h3]; exact hgrow _ hxm

/-! ### `min_num_epochs_per_new_learning_rate` -/

theorem atLeastTwo_false {l : List ℚ} (h : atLeastTwo l = false) : ∀ x ∈ l, ∀ y ∈ l, x = y := by
  unfold atLeastTwo at h
  intro x hx y hy
  rw [List.any_eq_false] at h
  have := h x hx
  simp at this
  exact this y hy

theorem lrsOf_get {d : Data} {l : List Int} {r : List ℚ} (h : lrsOf d l = .ok r) {e : Int} (he : e ∈ l) :
    ∃ x, d.get? e = some x ∧ x.lr ∈ r := by
  have hf := lrsOf_ok h
  clear h
  induction hf with
  | nil => simp at he
  | cons h1 _ ih =>
    rcases List.mem_cons.1 he with rfl | he
    · obtain ⟨x, hx, hxv⟩ := h1; exact ⟨x, hx, by simp [hxv]⟩
    · obtain ⟨x, hx, hm⟩ := ih he; exact ⟨x, hx, by simp [hm]⟩

/-- In general (also with gaps between the epochs): if the rate of a new epoch differs from the one of the previous
epoch, then the `N` most recent epochs all have the same rate. -/
theorem hold_step {k : Control} {c : Cfg} {d : Data} (hw : d.Wf) (hN : 1 < c.minNum) {e p : Int} {x : EpochData} {lr : ℚ}
    (hp : IsPrev d e p) (hx : d.get? p = some x) (h : calcNewLr k c d e = .ok lr) (hne : lr ≠ x.lr) :
    ((lastEpochs d e c.minNum.toNat).length : Int) = c.minNum ∧
    ∀ q ∈ lastEpochs d e c.minNum.toNat, ∃ y, d.get? q = some y ∧ y.lr = x.lr := by
  have hlast : (lastEpochs d e c.minNum.toNat).getLast? = some p := by
    rw [lastEpochs_getLast? (by omega)]; exact (getLastEpoch_some d e p).2 hp
  obtain ⟨r, hr⟩ := lrsOf_total (d := d) (l := lastEpochs d e c.minNum.toNat) (fun q hq => (lastEpochs_mem hq).1)
  have hlen : r.length = (lastEpochs d e c.minNum.toNat).length := (List.Forall₂.length_eq (lrsOf_ok hr)).symm
  have hpos : 0 < r.length := by
    rw [hlen]; obtain ⟨l, hl⟩ := List.getLast?_eq_some_iff.1 hlast; rw [hl]; simp
  unfold calcNewLr at h
  rw [if_pos hN] at h
  simp only [hr, bind, Except.bind, pure, Except.pure] at h
  -- the rate of `p` is the last one
  have hrl : r.getLast? = some x.lr := by
    obtain ⟨v, hv, y, hy, hyv⟩ := forall₂_getLast (lrsOf_ok hr) hlast
    rw [hx] at hy; injection hy with hy
    rw [hv, ← hyv, hy]
  split at h
  · rw [hrl] at h; injection h with h; exact absurd h.symm hne
  · rename_i hcond
    rw [Bool.not_eq_true, Bool.or_eq_false_iff] at hcond
    obtain ⟨h1, h2⟩ := hcond
    have hmin := lastEpochs_length d e c.minNum.toNat
    refine ⟨?_, fun q hq => ?_⟩
    · simp only [Bool.and_eq_false_iff, decide_eq_false_iff_not] at h2
      rcases h2 with h2 | h2
      · exact absurd hpos h2
      · rw [← hlen]; rw [← hlen] at hmin; omega
    · obtain ⟨y, hy, hm⟩ := lrsOf_get hr hq
      exact ⟨y, hy, atLeastTwo_false h1 _ hm _ (List.mem_of_getLast? hrl)⟩

theorem epochsBefore_train {k : Control} {c : Cfg} {n : Int} {d : Data} (h : Train k c n d) :
    epochsBefore d (n + 1) = (List.range n.toNat).map (fun i : Nat => (i : Int) + 1) := by
  obtain ⟨hw, h0, hk⟩ := train_wf h
  have hp : (epochsBefore d (n + 1)).Perm ((List.range n.toNat).map (fun i : Nat => (i : Int) + 1)) := by
    rw [List.perm_ext_iff_of_nodup (epochsBefore_nodup hw _)]
    · intro a
      rw [mem_epochsBefore, hk]
      simp only [List.mem_map, List.mem_range]
      constructor
      · intro h1; exact ⟨(a - 1).toNat, by omega, by omega⟩
      · rintro ⟨i, hi, rfl⟩; omega
    · refine List.Nodup.map ?_ List.nodup_range
      intro a b h; simp only at h; omega
  refine hp.eq_of_pairwise (fun a b _ _ h1 h2 => le_antisymm h1 h2) (epochsBefore_sorted d _) ?_
  rw [List.pairwise_map]
  exact List.pairwise_lt_range.imp (fun h => by omega)

/-- C31 (rates are held). In every training with `min_num_epochs_per_new_learning_rate = N > 1`, for every control: if
the rate changes from epoch `e` to `e+1`, then the `N` epochs `e-N+1, ..., e` exist and have had the same rate. -/
theorem train_hold {k : Control} {c : Cfg} (hN : 1 < c.minNum) {n : Int} {d : Data} (h : Train k c n d) :
    ∀ e x z, 1 ≤ e → d.get? e = some x → d.get? (e + 1) = some z → z.lr ≠ x.lr →
      c.minNum ≤ e ∧ ∀ q, e - c.minNum < q → q ≤ e → ∃ y, d.get? q = some y ∧ y.lr = x.lr := by
  induction h with
  | init => intro e x z _ hx; simp [Dict.get?] at hx
  | @epoch n d lr d' ht hg ih =>
    obtain ⟨⟨z0, hz0, hzl⟩, hoth, _⟩ := getLr_effect hg
    obtain ⟨hw, h0, hk⟩ := train_wf ht
    have hk' := (train_wf (Train.epoch ht hg)).2.2
    intro e x z h1 hx hz hne
    have hen := ((hk' (e + 1)).1 ((Dict.get?_isSome d' (e + 1)).1 (by rw [hz]; rfl))).2
    by_cases he : e = n
    · subst he
      rw [hz0] at hz; injection hz with hz; subst hz
      rw [hoth e (by omega)] at hx
      have hnew : e + 1 ∉ d.keys := by rw [hk]; omega
      obtain ⟨hc, _, _⟩ := getLr_new hnew hg
      have hp : IsPrev d (e + 1) e := by simpa using prev_of_train ht (e := e + 1) (by omega) (by omega)
      obtain ⟨h3, h4⟩ := hold_step hw hN hp hx hc (by rw [← hzl]; exact hne)
      have hmin := lastEpochs_length d (e + 1) c.minNum.toNat
      have heq := epochsBefore_train ht
      have hL : (epochsBefore d (e + 1)).length = e.toNat := by rw [heq]; simp
      refine ⟨by omega, fun q hq1 hq2 => ?_⟩
      rw [hoth q (by omega)]
      apply h4
      unfold lastEpochs
      rw [hL, heq]
      rw [List.mem_iff_getElem]
      refine ⟨(q - (e - c.minNum) - 1).toNat, by simp; omega, ?_⟩
      simp
      omega
    · rw [hoth (e + 1) (by omega)] at hz
      rw [hoth e (by omega)] at hx
      obtain ⟨h3, h4⟩ := ih e x z h1 hx hz hne
      refine ⟨h3, fun q hq1 hq2 => ?_⟩
      rw [hoth q (by omega)]
      exact h4 q hq1 hq2
  | @score n d err d' ht hm hs ih =>
    obtain ⟨y, er, hy, h3⟩ := setError_old (((train_wf ht).2.2 n).2 (by omega)) hs
    have hlr : ∀ q w', d'.get? q = some w' → ∃ w, d.get? q = some w ∧ w.lr = w'.lr := by
      intro q w hq
      rw [h3, Dict.get?_set] at hq
      split at hq
      · rename_i hnq; subst hnq; injection hq with hq; exact ⟨y, hy, by rw [← hq]⟩
      · exact ⟨w, hq, rfl⟩
    have hlr' : ∀ q w, d.get? q = some w → ∃ w', d'.get? q = some w' ∧ w'.lr = w.lr := by
      intro q w hq
      rw [h3, Dict.get?_set]
      split
      · rename_i hnq; subst hnq; rw [hy] at hq; injection hq with hq; exact ⟨_, rfl, by rw [hq]⟩
      · exact ⟨w, hq, rfl⟩
    intro e x z h1 hx hz hne
    obtain ⟨x', hx', hxl⟩ := hlr _ _ hx
    obtain ⟨z', hz', hzl⟩ := hlr _ _ hz
    obtain ⟨h4, h5⟩ := ih e x' z' h1 hx' hz' (by rw [hxl, hzl]; exact hne)
    refine ⟨h4, fun q hq1 hq2 => ?_⟩
    obtain ⟨w, hw, hwl⟩ := h5 q hq1 hq2
    obtain ⟨w', hw', hwl'⟩ := hlr' _ _ hw
    exact ⟨w', hw', by rw [hwl', hwl, hxl]⟩

end Verif.LearningRate
