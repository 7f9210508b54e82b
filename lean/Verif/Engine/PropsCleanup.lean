import Verif.Engine.Props
import Verif.MathUtil.Props
import Mathlib.Data.List.Perm.Subperm
/-
C32: `cleanup_old_models` removes exactly what need not be kept.
-/
namespace Verif.Engine
open Verif.Py Verif.ListLemmas

/-! ### The default pattern -/

theorem mem_countLoop {f : Nat → Int} (hf : ∀ i, f i < f (i + 1)) (last : Int) (x : Int) :
    ∀ fuel i, (x ∈ countLoop f last i fuel ↔ ∃ j, i ≤ j ∧ j < i + fuel ∧ f j = x ∧ x ≤ last) := by
  have hmono : ∀ i j, i ≤ j → f i ≤ f j := by
    intro i j hij
    induction j, hij using Nat.le_induction with
    | base => exact le_rfl
    | succ j _ ih => exact ih.trans (hf j).le
  intro fuel
  induction fuel with
  | zero => intro i; simp only [countLoop, List.not_mem_nil, false_iff]; rintro ⟨j, h1, h2, _⟩; omega
  | succ fuel ih =>
    intro i
    simp only [countLoop]
    split
    · rename_i hgt
      simp only [List.not_mem_nil, false_iff]
      rintro ⟨j, h1, _, rfl, h4⟩
      have := hmono i j h1; omega
    · rename_i hle
      rw [List.mem_cons, ih]
      constructor
      · rintro (rfl | ⟨j, h1, h2, h3, h4⟩)
        · exact ⟨i, le_rfl, by omega, rfl, by omega⟩
        · exact ⟨j, by omega, by omega, h3, h4⟩
      · rintro ⟨j, h1, h2, h3, h4⟩
        rcases Nat.eq_or_lt_of_le h1 with rfl | hlt
        · exact Or.inl h3.symm
        · exact Or.inr ⟨j, by omega, by omega, h3, h4⟩

theorem keepParams_pos (last : Int) : 0 < (keepParams last).1 ∧ 0 < (keepParams last).2 := by
  unfold keepParams
  split
  · simp
  · split
    · simp
    · split
      · simp
      · have : 0 < MathUtil.nextPowerOfTwo (1 + last / 240) := by unfold MathUtil.nextPowerOfTwo; positivity
        exact ⟨by simp only; omega, by simp⟩

theorem mem_keepPattern (last x : Int) : x ∈ keepPattern last ↔ DefaultKeep last x := by
  have hp := keepParams_pos last
  have hdef : DefaultKeep last x ↔ x ≤ last ∧ ((0 < x ∧ (keepParams last).1 ∣ x) ∨
      ∃ i : Nat, x = (keepParams last).2 * 2 ^ i) := Iff.rfl
  rw [hdef]
  unfold keepPattern
  generalize keepParams last = p at *
  obtain ⟨every, base⟩ := p
  simp only at *
  rw [List.mem_append, mem_countLoop (by intro i; push_cast; nlinarith),
    mem_countLoop (by intro i; rw [pow_succ]; have : (0:Int) < 2 ^ i := by positivity
                      nlinarith)]
  constructor
  · rintro (⟨j, h1, h2, rfl, h4⟩ | ⟨j, h1, h2, rfl, h4⟩)
    · refine ⟨h4, Or.inl ⟨?_, ⟨_, rfl⟩⟩⟩
      have : (1:Int) ≤ j := by omega
      nlinarith
    · exact ⟨h4, Or.inr ⟨j, rfl⟩⟩
  · rintro ⟨h1, ⟨h2, k, rfl⟩ | ⟨i, rfl⟩⟩
    · left
      have hk : 0 < k := by
        by_contra hk
        push Not at hk
        nlinarith
      have hk2 : k ≤ last := by nlinarith
      exact ⟨k.toNat, by omega, by omega, by rw [Int.toNat_of_nonneg hk.le], h1⟩
    · right
      have h2 : ((i : Int)) < 2 ^ i := by exact_mod_cast Nat.lt_two_pow_self
      exact ⟨i, by omega, by have : ((i:Int)) < last := by nlinarith
                             omega, rfl, h1⟩

/-! ### The last epochs -/

theorem mem_drop_last {epochs : List Int} (hs : epochs.Pairwise (· < ·)) (n : Nat) (e : Int) :
    e ∈ epochs.drop (epochs.length - n) ↔ AmongLast epochs n e := by
  unfold AmongLast
  induction epochs with
  | nil => simp
  | cons a l ih =>
    have hs' := (List.pairwise_cons.1 hs)
    have ih := ih hs'.2
    by_cases hn : l.length + 1 ≤ n
    · have h0 : (a :: l).length - n = 0 := by simp only [List.length_cons]; omega
      rw [h0, List.drop_zero]
      refine ⟨fun h => ⟨h, ?_⟩, fun h => h.1⟩
      rcases List.mem_cons.1 h with rfl | h
      · rw [List.filter_cons_of_neg (by simp)]
        exact lt_of_le_of_lt (List.length_filter_le _ _) (by omega)
      · have h1 := hs'.1 e h
        rw [List.filter_cons_of_neg (by simp; omega)]
        have := ((ih).1 (by rw [show l.length - n = 0 by omega]; exact h)).2
        exact this
    · have h0 : (a :: l).length - n = (l.length - n) + 1 := by simp only [List.length_cons]; omega
      rw [h0, List.drop_succ_cons, ih]
      constructor
      · rintro ⟨h1, h2⟩
        have h3 := hs'.1 e h1
        exact ⟨by simp [h1], by rw [List.filter_cons_of_neg (by simp; omega)]; exact h2⟩
      · rintro ⟨h1, h2⟩
        rcases List.mem_cons.1 h1 with rfl | h
        · rw [List.filter_cons_of_neg (by simp), List.filter_eq_self.2 (fun x hx => by simpa using hs'.1 x hx)] at h2
          omega
        · have h3 := hs'.1 e h
          rw [List.filter_cons_of_neg (by simp; omega)] at h2
          exact ⟨h, h2⟩

/-! ### The scores -/

theorem epochScores_spec {d : LearningRate.Data} : ∀ {epochs : List Int} {ss : List (Dict String ℚ)},
    epochScores d epochs = .ok ss →
    ss = epochs.filterMap (fun e => (d.get? e).map (fun x => x.error)) ∧ ∀ e ∈ epochs, ∃ x, d.get? e = some x := by
  intro epochs
  induction epochs with
  | nil => intro ss h; injection h with h; subst h; exact ⟨rfl, by simp⟩
  | cons e l ih =>
    intro ss h
    simp only [epochScores, Dict.getItem, bind, Except.bind, pure, Except.pure] at h
    cases hx : d.get? e with
    | none => simp only [hx] at h; cases h
    | some x =>
      simp only [hx] at h
      split at h
      · cases h
      · rename_i r hr
        injection h with h; subst h
        obtain ⟨h1, h2⟩ := ih hr
        refine ⟨by rw [List.filterMap_cons, hx, h1]; rfl, ?_⟩
        intro e' he'
        rcases List.mem_cons.1 he' with rfl | he'
        · exact ⟨x, hx⟩
        · exact h2 e' he'

theorem epochScores_ok {d : LearningRate.Data} : ∀ {epochs : List Int}, (∀ e ∈ epochs, ∃ x, d.get? e = some x) →
    ∃ ss, epochScores d epochs = .ok ss := by
  intro epochs
  induction epochs with
  | nil => intro _; exact ⟨[], rfl⟩
  | cons e l ih =>
    intro h
    obtain ⟨x, hx⟩ := h e (by simp)
    obtain ⟨r, hr⟩ := ih (fun e he => h e (by simp [he]))
    exact ⟨x.error :: r, by simp only [epochScores, Dict.getItem, hx, hr, bind, Except.bind, pure, Except.pure]⟩

/-- The scores of the stored epochs for one key. -/
theorem mem_scores {d : LearningRate.Data} {epochs : List Int} {key : String} {v : ℚ} :
    v ∈ (epochs.filterMap (fun e => (d.get? e).map (fun x => x.error))).filterMap (fun s => s.get? key) ↔
      ∃ e ∈ epochs, ∃ x, d.get? e = some x ∧ x.error.get? key = some v := by
  simp only [List.mem_filterMap, Option.map_eq_some_iff]
  constructor
  · rintro ⟨s, ⟨e, he, x, hx, rfl⟩, hv⟩; exact ⟨e, he, x, hx, hv⟩
  · rintro ⟨e, he, x, hx, hv⟩; exact ⟨x.error, ⟨e, he, x, hx, rfl⟩, hv⟩

theorem useful_iff (l : List ℚ) : useful l = true ↔ ∃ a ∈ l, ∃ b ∈ l, a ≠ b := by
  cases l with
  | nil => simp [useful]
  | cons x l =>
    simp only [useful, List.any_eq_true, decide_eq_true_eq]
    constructor
    · rintro ⟨y, hy, hne⟩; exact ⟨y, by simp [hy], x, by simp, hne⟩
    · rintro ⟨a, ha, b, hb, hne⟩
      by_contra hcon
      push Not at hcon
      have h1 : ∀ z ∈ x :: l, z = x := by
        intro z hz; rcases List.mem_cons.1 hz with rfl | hz
        · rfl
        · exact hcon z hz
      exact hne ((h1 a ha).trans (h1 b hb).symm)

theorem maxOf_spec {l : List ℚ} (h : l ≠ []) : maxOf l ∈ l ∧ ∀ x ∈ l, x ≤ maxOf l := by
  cases l with
  | nil => exact absurd rfl h
  | cons x l =>
    have key : ∀ (l : List ℚ) (m : ℚ), (l.foldl max m = m ∨ l.foldl max m ∈ l) ∧ m ≤ l.foldl max m ∧
        ∀ y ∈ l, y ≤ l.foldl max m := by
      intro l
      induction l with
      | nil => intro m; simp
      | cons a l ih =>
        intro m
        rw [List.foldl_cons]
        obtain ⟨h1, h2, h3⟩ := ih (max m a)
        refine ⟨?_, (le_max_left m a).trans h2, ?_⟩
        · rcases h1 with h1 | h1
          · rcases max_choice m a with h | h
            · left; rw [h1, h]
            · right; rw [h1, h]; simp
          · right; simp [h1]
        · intro y hy
          rcases List.mem_cons.1 hy with rfl | hy
          · exact (le_max_right m y).trans h2
          · exact h3 y hy
    obtain ⟨h1, h2, h3⟩ := key l x
    refine ⟨?_, ?_⟩
    · rcases h1 with h1 | h1
      · simp [maxOf, h1]
      · simp [maxOf, h1]
    · intro y hy
      rcases List.mem_cons.1 hy with rfl | hy
      · exact h2
      · exact h3 y hy

/-- The score used in the ranking. -/
def rankScore (d : LearningRate.Data) (worst : ℚ) (key : String) (e : Int) : ℚ :=
  ((d.get? e).bind (fun x => x.error.get? key)).getD worst

theorem isScore_iff {d : LearningRate.Data} {epochs : List Int} {key : String}
    (hne : ∃ e ∈ epochs, ∃ x v, d.get? e = some x ∧ x.error.get? key = some v) (e : Int) (v : ℚ) :
    IsScore d epochs key e v ↔
      v = rankScore d (maxOf ((epochs.filterMap (fun e => (d.get? e).map (fun x => x.error))).filterMap
        (fun s => s.get? key))) key e := by
  have hm := maxOf_spec (l := (epochs.filterMap (fun e => (d.get? e).map (fun x => x.error))).filterMap
      (fun s => s.get? key)) (by
        obtain ⟨e0, he0, x, w, hx, hw⟩ := hne
        intro h0
        have := (mem_scores (d := d) (epochs := epochs) (key := key) (v := w)).2 ⟨e0, he0, x, hx, hw⟩
        rw [h0] at this; cases this)
  generalize hW : maxOf ((epochs.filterMap (fun e => (d.get? e).map (fun x => x.error))).filterMap
      (fun s => s.get? key)) = W at hm ⊢
  obtain ⟨hm1, hm2⟩ := hm
  rw [mem_scores] at hm1
  have hm2' : ∀ e' ∈ epochs, ∀ x w, d.get? e' = some x → x.error.get? key = some w → w ≤ W :=
    fun e' he' x w hx hw => hm2 w (mem_scores.2 ⟨e', he', x, hx, hw⟩)
  unfold rankScore
  by_cases hex : ∃ x w, d.get? e = some x ∧ x.error.get? key = some w
  · obtain ⟨x, w, hx, hw⟩ := hex
    rw [hx, Option.bind_some, hw, Option.getD_some]
    constructor
    · intro h; exact h.has x w hx hw
    · rintro rfl
      refine ⟨fun x' w' hx' hw' => ?_, fun h => absurd hw (h x v hx)⟩
      rw [hx] at hx'; injection hx' with hx'; subst hx'
      rw [hw] at hw'; injection hw'
  · have hnone : (d.get? e).bind (fun x => x.error.get? key) = none := by
      cases hx : d.get? e with
      | none => rfl
      | some x =>
        cases hw : x.error.get? key with
        | none => simp [hw]
        | some w => exact absurd ⟨x, w, hx, hw⟩ hex
    rw [hnone, Option.getD_none]
    have hmiss : ∀ x w, d.get? e = some x → x.error.get? key ≠ some w := fun x w hx hw => hex ⟨x, w, hx, hw⟩
    constructor
    · intro h
      obtain ⟨⟨e1, he1, x1, hx1, hv1⟩, hmax⟩ := h.missing hmiss
      obtain ⟨e2, he2, x2, hx2, hv2⟩ := hm1
      exact le_antisymm (hm2' e1 he1 x1 v hx1 hv1) (hmax e2 he2 x2 W hx2 hv2)
    · rintro rfl
      exact ⟨fun x w hx hw => absurd hw (hmiss x w hx), fun _ => ⟨hm1, hm2'⟩⟩

theorem rank_trans : ∀ a b c : ℚ × Int, decide (a.1 < b.1 ∨ (a.1 = b.1 ∧ a.2 ≤ b.2)) = true →
    decide (b.1 < c.1 ∨ (b.1 = c.1 ∧ b.2 ≤ c.2)) = true → decide (a.1 < c.1 ∨ (a.1 = c.1 ∧ a.2 ≤ c.2)) = true := by
  intro a b c h1 h2
  simp only [decide_eq_true_eq] at *
  rcases h1 with h1 | ⟨h1, h1'⟩ <;> rcases h2 with h2 | ⟨h2, h2'⟩
  · left; linarith
  · left; linarith
  · left; linarith
  · right; exact ⟨h1.trans h2, h1'.trans h2'⟩

theorem rank_total : ∀ a b : ℚ × Int, (decide (a.1 < b.1 ∨ (a.1 = b.1 ∧ a.2 ≤ b.2)) ||
    decide (b.1 < a.1 ∨ (b.1 = a.1 ∧ b.2 ≤ a.2))) = true := by
  intro a b
  simp only [Bool.or_eq_true, decide_eq_true_eq]
  rcases lt_trichotomy a.1 b.1 with h | h | h
  · left; left; exact h
  · rcases le_total a.2 b.2 with h' | h'
    · left; right; exact ⟨h, h'⟩
    · right; right; exact ⟨h.symm, h'⟩
  · right; left; exact h

/-- The first `n` of the ranking. -/
theorem mem_take_rank {f : Int → ℚ} {epochs : List Int} (hnd : epochs.Nodup) (n : Nat) (e : Int) (he : e ∈ epochs) :
    e ∈ ((stableSort (fun a b : ℚ × Int => decide (a.1 < b.1 ∨ (a.1 = b.1 ∧ a.2 ≤ b.2)))
      (epochs.map (fun e => (f e, e)))).take n).map Prod.snd ↔
    ∃ better : List Int, better.length < n ∧ ∀ e' ∈ epochs, e' ≠ e → (f e' < f e ∨ (f e' = f e ∧ e' < e)) → e' ∈ better := by
  have hperm := stableSort_perm (epochs.map (fun e => (f e, e)))
    (fun a b : ℚ × Int => decide (a.1 < b.1 ∨ (a.1 = b.1 ∧ a.2 ≤ b.2)))
  have hpw := stableSort_pairwise rank_trans rank_total (epochs.map (fun e => (f e, e)))
  generalize stableSort (fun a b : ℚ × Int => decide (a.1 < b.1 ∨ (a.1 = b.1 ∧ a.2 ≤ b.2)))
      (epochs.map (fun e => (f e, e))) = R at hperm hpw
  have hsnd : (R.map Prod.snd).Perm epochs := by
    have := hperm.map Prod.snd
    simpa [List.map_map, Function.comp_def] using this
  have hRnd : (R.map Prod.snd).Nodup := hsnd.nodup_iff.2 hnd
  have hmem : ∀ p ∈ R, p.1 = f p.2 := by
    intro p hp
    obtain ⟨e', _, rfl⟩ := List.mem_map.1 (hperm.mem_iff.1 hp)
    rfl
  have heR : e ∈ R.map Prod.snd := hsnd.mem_iff.2 he
  rw [List.map_take]
  have hpw' : (R.map Prod.snd).Pairwise (fun a b => f a < f b ∨ (f a = f b ∧ a ≤ b)) := by
    rw [List.pairwise_map]
    refine hpw.imp_of_mem ?_
    intro a b ha hb h
    simp only [decide_eq_true_eq] at h
    rw [hmem a ha, hmem b hb] at h
    exact h
  generalize R.map Prod.snd = S at *
  constructor
  · intro h
    obtain ⟨i, hi, hie⟩ := List.mem_iff_getElem.1 h
    rw [List.length_take] at hi
    rw [List.getElem_take] at hie
    refine ⟨S.take i, by rw [List.length_take]; omega, fun e' he' hne hlt => ?_⟩
    obtain ⟨j, hj, hje⟩ := List.mem_iff_getElem.1 (hsnd.mem_iff.2 he')
    have hji : j < i := by
      by_contra hji
      have hne' : i ≠ j := by rintro rfl; exact hne (hje.symm.trans hie)
      have := List.pairwise_iff_getElem.1 hpw' i j (by omega) hj (by omega)
      rw [hie, hje] at this
      rcases this with h1 | ⟨h1, h2⟩ <;> rcases hlt with h3 | ⟨h3, h4⟩
      · linarith
      · linarith
      · linarith
      · omega
    rw [List.mem_take_iff_getElem]
    exact ⟨j, by omega, hje⟩
  · rintro ⟨better, hlen, hb⟩
    by_contra hcon
    obtain ⟨i, hi, hie⟩ := List.mem_iff_getElem.1 heR
    have hin : n ≤ i := by
      by_contra hlt
      exact hcon (List.mem_take_iff_getElem.2 ⟨i, by omega, hie⟩)
    have hsub : S.take n ⊆ better := by
      intro e' he'
      obtain ⟨j, hj, hje⟩ := List.mem_take_iff_getElem.1 he'
      have hji : j < i := by omega
      have h1 := List.pairwise_iff_getElem.1 hpw' j i (by omega) hi hji
      rw [hie, hje] at h1
      have hne : e' ≠ e := by
        rintro rfl
        have := (List.Nodup.getElem_inj_iff hRnd).1 (hje.trans hie.symm)
        omega
      refine hb e' (hsnd.mem_iff.1 (List.mem_of_mem_take he')) hne ?_
      rcases h1 with h1 | ⟨h1, h2⟩
      · exact Or.inl h1
      · exact Or.inr ⟨h1, by omega⟩
    have h2 := (List.Nodup.subperm (hRnd.sublist (List.take_sublist n S)) hsub).length_le
    rw [List.length_take] at h2
    omega

theorem mem_bestFor {d : LearningRate.Data} {epochs : List Int} {key : String} (hnd : epochs.Nodup)
    (hne : ∃ e ∈ epochs, ∃ x v, d.get? e = some x ∧ x.error.get? key = some v) (n : Nat) (e : Int) (he : e ∈ epochs) :
    e ∈ bestFor d epochs (epochs.filterMap (fun e => (d.get? e).map (fun x => x.error))) key n ↔
      AmongBest d epochs key n e := by
  unfold bestFor AmongBest
  have := mem_take_rank (f := rankScore d (maxOf ((epochs.filterMap (fun e => (d.get? e).map (fun x => x.error))).filterMap
        (fun s => s.get? key))) key) hnd n e he
  simp only [rankScore] at this
  simp only
  rw [this]
  have hS := isScore_iff hne
  constructor
  · rintro ⟨better, h1, h2⟩
    refine ⟨better, h1, fun e' he' hn => ?_⟩
    rintro ⟨v, v', hv, hv', hlt⟩
    rw [hS] at hv hv'
    subst hv hv'
    exact h2 e' he' hn hlt
  · rintro ⟨better, h1, h2⟩
    exact ⟨better, h1, fun e' he' hn hlt => h2 e' he' hn ⟨_, _, (hS _ _).2 rfl, (hS _ _).2 rfl, hlt⟩⟩

theorem mem_scoreKeys {d : LearningRate.Data} {key : String} :
    key ∈ scoreKeys d ↔ ∃ p ∈ d, key ∈ p.2.error.keys := by
  unfold scoreKeys
  rw [(stableSort_perm _ _).mem_iff, List.mem_dedup, List.mem_flatMap]

/-! ### The result -/

theorem mem_keepList {o : CleanupOpts} {d : LearningRate.Data} {epochs : List Int} {last : Int}
    {scores : List (Dict String ℚ)} (hs : epochs.Pairwise (· < ·))
    (hsc : scores = epochs.filterMap (fun e => (d.get? e).map (fun x => x.error))) (e : Int) (he : e ∈ epochs) :
    e ∈ keepList o d epochs last scores ↔ MustKeep o d epochs last e := by
  unfold keepList
  simp only
  rw [List.mem_append, List.mem_append, mem_drop_last hs, List.mem_flatMap]
  unfold MustKeep
  have h1 : e ∈ o.keep.getD (keepPattern last) ↔
      ((∃ ks, o.keep = some ks ∧ e ∈ ks) ∨ (o.keep = none ∧ DefaultKeep last e)) := by
    cases ho : o.keep with
    | none => simp [mem_keepPattern]
    | some ks => simp
  have h2 : (∃ a ∈ (scoreKeys d).filter (fun k => useful (scores.filterMap (fun s => s.get? k))),
      e ∈ bestFor d epochs scores a o.keepBestN.toNat) ↔
      ∃ key, Informative d epochs key ∧ AmongBest d epochs key o.keepBestN.toNat e := by
    constructor
    · rintro ⟨key, hk, hb⟩
      obtain ⟨_, hu⟩ := List.mem_filter.1 hk
      rw [hsc, useful_iff] at hu
      obtain ⟨a, ha, b, hb', hne⟩ := hu
      obtain ⟨e1, he1, x1, hx1, hv1⟩ := mem_scores.1 ha
      obtain ⟨e2, he2, x2, hx2, hv2⟩ := mem_scores.1 hb'
      refine ⟨key, ⟨e1, he1, e2, he2, x1, x2, a, b, hx1, hx2, hv1, hv2, hne⟩, ?_⟩
      rw [hsc] at hb
      exact (mem_bestFor (hs.imp (fun h => ne_of_lt h)) ⟨e1, he1, x1, a, hx1, hv1⟩ _ e he).1 hb
    · rintro ⟨key, ⟨e1, he1, e2, he2, x1, x2, a, b, hx1, hx2, hv1, hv2, hne⟩, hb⟩
      refine ⟨key, List.mem_filter.2 ⟨?_, ?_⟩, ?_⟩
      · rw [mem_scoreKeys]
        refine ⟨(e1, x1), Dict.mem_of_get? hx1, ?_⟩
        exact List.mem_map.2 ⟨_, Dict.mem_of_get? hv1, rfl⟩
      · rw [hsc, useful_iff]
        exact ⟨a, mem_scores.2 ⟨e1, he1, x1, hx1, hv1⟩, b, mem_scores.2 ⟨e2, he2, x2, hx2, hv2⟩, hne⟩
      · rw [hsc]
        exact (mem_bestFor (hs.imp (fun h => ne_of_lt h)) ⟨e1, he1, x1, a, hx1, hv1⟩ _ e he).2 hb
  rw [h1, h2, or_assoc, or_assoc]

/-- C32. What is removed: nothing if there are no more epochs than the numbers to keep, else exactly the stored epochs
which need not be kept. -/
theorem cleanup_spec {o : CleanupOpts} {d : LearningRate.Data} {epochs rs : List Int} {last : Int}
    (hs : epochs.Pairwise (· < ·)) (hlast : epochs.getLast? = some last) (hdry : o.dryRun = false)
    (h : cleanup o d epochs = .ok rs) :
    if (epochs.length : Int) ≤ max o.keepLastN o.keepBestN then rs = []
    else rs.Pairwise (· < ·) ∧ ∀ e, e ∈ rs ↔ e ∈ epochs ∧ ¬ MustKeep o d epochs last e := by
  unfold cleanup at h
  rw [hlast] at h
  simp only [bind, Except.bind, pure, Except.pure, pyAssert] at h
  split at h
  · cases h
  · rename_i hok
    split at h
    · rename_i hmax
      rw [if_pos hmax]; injection h with h; exact h.symm
    · rename_i hmax
      rw [if_neg hmax]
      split at h
      · cases h
      · split at h
        · cases h
        · rename_i scores hscores
          obtain ⟨hsc, hdata⟩ := epochScores_spec hscores
          have hres : ∀ e, e ∈ epochs.filter (fun e => !(keepList o d epochs last scores).contains e) ↔
              e ∈ epochs ∧ ¬ MustKeep o d epochs last e := by
            intro e
            rw [List.mem_filter]
            refine and_congr_right (fun he => ?_)
            rw [← mem_keepList hs hsc e he]
            simp
          split at h
          · rename_i hemp
            injection h with h; subst h
            rw [List.isEmpty_iff] at hemp
            rw [hemp] at hres
            exact ⟨List.Pairwise.nil, hres⟩
          · split at h
            · cases h
            · rw [hdry] at h
              simp only [Bool.false_eq_true, if_false] at h
              injection h with h; subst h
              exact ⟨List.Pairwise.filter _ hs, hres⟩

/-- C32. A dry run removes nothing. -/
theorem cleanup_dry {o : CleanupOpts} {d : LearningRate.Data} {epochs rs : List Int} (hdry : o.dryRun = true)
    (h : cleanup o d epochs = .ok rs) : rs = [] := by
  unfold cleanup at h
  split at h
  · injection h with h; exact h.symm
  · simp only [bind, Except.bind, pure, Except.pure, pyAssert] at h
    split at h
    · cases h
    · split at h
      · injection h with h; exact h.symm
      · split at h
        · cases h
        · split at h
          · cases h
          · split at h
            · injection h with h; exact h.symm
            · split at h
              · cases h
              · injection h with h; exact h.symm

/-- C32. Only stored epochs are removed, and never the last one. -/
theorem cleanup_keeps_last {o : CleanupOpts} {d : LearningRate.Data} {epochs rs : List Int} {last : Int}
    (hs : epochs.Pairwise (· < ·)) (hlast : epochs.getLast? = some last)
    (h : cleanup o d epochs = .ok rs) : (∀ e ∈ rs, e ∈ epochs) ∧ last ∉ rs := by
  cases hdry : o.dryRun with
  | true => rw [cleanup_dry hdry h]; simp
  | false =>
    have hsp := cleanup_spec hs hlast hdry h
    split at hsp
    · rw [hsp]; simp
    · refine ⟨fun e he => ((hsp.2 e).1 he).1, fun hl => ?_⟩
      have hn : 1 ≤ o.keepLastN := by
        unfold cleanup at h
        rw [hlast] at h
        simp only [bind, Except.bind, pyAssert] at h
        split at h
        · cases h
        · rename_i hok
          split at hok
          · rename_i hk
            simp only [Bool.and_eq_true, decide_eq_true_eq] at hk
            exact hk.1
          · cases hok
      refine ((hsp.2 last).1 hl).2 (Or.inr (Or.inr (Or.inl ⟨((hsp.2 last).1 hl).1, ?_⟩)))
      have : epochs.filter (fun e' => decide (last < e')) = [] := by
        rw [List.filter_eq_nil_iff]
        intro a ha
        obtain ⟨l, rfl⟩ := List.getLast?_eq_some_iff.1 hlast
        rcases List.mem_append.1 ha with ha | ha
        · have := (List.pairwise_append.1 hs).2.2 a ha last (by simp)
          simp; omega
        · simp at ha; simp; omega
      rw [this]; simp; omega

/-- C32. The cleanup does not fail if the options are valid and all stored epochs are in the learning rate file,
with some score. -/
theorem cleanup_ok {o : CleanupOpts} {d : LearningRate.Data} {epochs : List Int} (h1 : 1 ≤ o.keepLastN)
    (h2 : 0 ≤ o.keepBestN) (hu : o.unknownOpts = false) (hd : ∀ e ∈ epochs, ∃ x, d.get? e = some x)
    (hk : ∃ p ∈ d, p.2.error ≠ []) : ∃ rs, cleanup o d epochs = .ok rs := by
  unfold cleanup
  split
  · exact ⟨_, rfl⟩
  · have hkeys : (!(scoreKeys d).isEmpty) = true := by
      obtain ⟨p, hp, hne⟩ := hk
      cases he : p.2.error with
      | nil => exact absurd he hne
      | cons q l =>
        have : q.1 ∈ scoreKeys d := mem_scoreKeys.2 ⟨p, hp, by rw [he]; simp [Dict.keys]⟩
        cases hz : scoreKeys d with
        | nil => rw [hz] at this; cases this
        | cons _ _ => rfl
    obtain ⟨ss, hss⟩ := epochScores_ok hd
    simp only [pyAssert, h1, h2, ge_iff_le, decide_true, Bool.and_self, if_true, bind, Except.bind, pure, Except.pure,
      hkeys, hss, hu, Bool.not_false]
    split
    · exact ⟨_, rfl⟩
    · split
      · exact ⟨_, rfl⟩
      · split
        · exact ⟨_, rfl⟩
        · exact ⟨_, rfl⟩

/-- C32. A stored epoch without an entry in the learning rate file makes the cleanup fail with KeyError. -/
theorem cleanup_keyError {o : CleanupOpts} {d : LearningRate.Data} {epochs : List Int} (h1 : 1 ≤ o.keepLastN)
    (h2 : 0 ≤ o.keepBestN) (hk : ∃ p ∈ d, p.2.error ≠ []) (hlen : max o.keepLastN o.keepBestN < epochs.length)
    {e : Int} (he : e ∈ epochs) (hd : d.get? e = none) : cleanup o d epochs = .error .keyError := by
  have hfail : ∀ l : List Int, e ∈ l → epochScores d l = .error .keyError := by
    intro l
    induction l with
    | nil => intro h; cases h
    | cons a l ih =>
      intro h
      simp only [epochScores, Dict.getItem, bind, Except.bind]
      cases ha : d.get? a with
      | none => simp only
      | some x =>
        simp only
        rcases List.mem_cons.1 h with rfl | h
        · rw [hd] at ha; cases ha
        · rw [ih h]
  unfold cleanup
  split
  · rename_i hl; rw [List.getLast?_eq_none_iff] at hl; subst hl; cases he
  · have hkeys : (!(scoreKeys d).isEmpty) = true := by
      obtain ⟨p, hp, hne⟩ := hk
      cases he : p.2.error with
      | nil => exact absurd he hne
      | cons q l =>
        have : q.1 ∈ scoreKeys d := mem_scoreKeys.2 ⟨p, hp, by rw [he]; simp [Dict.keys]⟩
        cases hz : scoreKeys d with
        | nil => rw [hz] at this; cases this
        | cons _ _ => rfl
    simp only [pyAssert, h1, h2, ge_iff_le, decide_true, Bool.and_self, if_true, bind, Except.bind, pure, Except.pure,
      hkeys, hfail epochs he]
    rw [if_neg (by omega)]

/-! ### Examples -/

def exData : LearningRate.Data :=
  (epochRange 9).map (fun e => (e, ⟨1, [("dev", if e = 3 then 1 else if e = 7 then 2 else 10)]⟩))

/-- Stored: 1 to 9. Kept: 3, 7 (best), 9 (last), 4, 8 (pattern), 5 (doubles). -/
example : cleanup { keepLastN := 1, keepBestN := 2 } exData (epochRange 9) = .ok [1, 2, 6] := by decide +kernel
example : cleanup { keepLastN := 1, keepBestN := 2, keep := some [1] } exData (epochRange 9) = .ok [2, 4, 5, 6, 8] := by
  decide +kernel

end Verif.Engine
