import Verif.LearningRate.Spec
import Mathlib.Tactic.NormNum
/-
Properties of the learning rate schedule.
-/
namespace Verif.LearningRate
open Verif.Py Verif.ListLemmas

theorem calcUpdate_ok {lr r : ℚ} {u : Update} (h : calcUpdate lr u = .ok r) : r = upd u lr := by
  cases u <;> simp only [calcUpdate, upd] at h ⊢ <;> first | (injection h with h; exact h.symm) | cases h

theorem decayOrGrow_none {c : Cfg} {lr r : ℚ} {P : Prop} [Decidable P]
    (h : decayOrGrow c lr (decide P) none = .ok r) : r = change c P lr := by
  unfold decayOrGrow at h
  unfold change
  have hmax : ∀ y : ℚ, (if y < c.minLr then c.minLr else y) = max y c.minLr := by
    intro y; split
    · rw [max_eq_right]; exact le_of_lt ‹_›
    · rw [max_eq_left]; exact not_lt.1 ‹_›
  by_cases hP : P <;> simp [hP, pyAssert, bind, Except.bind, pure, Except.pure] at h ⊢
  · cases hy : calcUpdate lr c.decay with
    | error e => rw [hy] at h; simp at h
    | ok y => rw [hy] at h; simp at h; rw [← calcUpdate_ok hy, ← h, hmax]
  · exact calcUpdate_ok h

/-! ### The score key (lines 379-419) -/

theorem mem_keys_iff_contains {V : Type _} (d : Dict String V) (k : String) : d.contains k = true ↔ k ∈ d.keys := by
  unfold Dict.contains; exact Dict.get?_isSome d k

theorem mem_sortedKeys {l : List String} {k : String} : k ∈ sortedKeys l ↔ k ∈ l := (stableSort_perm _ _).mem_iff

/-- If there are scores at all, a key of them is chosen (so that the assertions of lines 440-441 and 459-460 never fail,
unless a score is named by the empty string). -/
theorem error_key_exists (c : Cfg) {err : Dict String ℚ} (h : err ≠ []) : ∃ k ∈ err.keys, errorKeyOf c err = some k := by
  unfold errorKeyOf
  rw [if_neg (by simpa using h)]
  split
  · rename_i h1
    simp only [Bool.and_eq_true] at h1
    exact ⟨_, (mem_keys_iff_contains _ _).1 h1.2, rfl⟩
  · have hc : ∀ l : List String, ∀ k, l.find? (fun k => err.contains k) = some k → k ∈ err.keys := by
      intro l k hk
      exact (mem_keys_iff_contains _ _).1 (by simpa using List.find?_some hk)
    have hs : ∀ (p : String → Bool) k, (sortedKeys err.keys).find? p = some k → k ∈ err.keys := by
      intro p k hk
      exact mem_sortedKeys.1 (List.mem_of_find?_eq_some hk)
    have hh : ∃ k ∈ err.keys, (sortedKeys err.keys).head? = some k := by
      cases hk : sortedKeys err.keys with
      | nil =>
        exfalso
        cases err with
        | nil => exact h rfl
        | cons e l =>
          have : e.1 ∈ sortedKeys (Dict.keys (e :: l)) := mem_sortedKeys.2 (by simp [Dict.keys])
          rw [hk] at this; simp at this
      | cons a l => exact ⟨a, mem_sortedKeys.1 (by rw [hk]; simp), rfl⟩
    have key : ∀ (a b : Option String), (∀ k, a = some k → k ∈ err.keys) → (∃ k ∈ err.keys, b = some k) →
        ∃ k ∈ err.keys, a.or b = some k := by
      intro a b h1 h2
      cases a with
      | none => simpa using h2
      | some x => exact ⟨x, h1 x rfl, rfl⟩
    exact key _ _ (hc _) <| key _ _ (hs _) <| key _ _ (hs _) <| key _ _ (hs _) <| key _ _ (hc _) hh

/-- A configured measure which exists among the scores is used (it must only not be hidden by the old format). -/
theorem error_key_configured {c : Cfg} {err : Dict String ℚ} {k : String} (hc : c.errKey = .one k)
    (hk : k ∈ err.keys) (hold : "old_format_score" ∉ err.keys) : errorKeyOf c err = some k := by
  unfold errorKeyOf
  have h0 : err ≠ [] := by rintro rfl; simp [Dict.keys] at hk
  rw [if_neg (by simpa using h0), if_neg]
  · have : (candidateKeys c).find? (fun k => err.contains k) = some k := by
      simp [candidateKeys, hc, (mem_keys_iff_contains _ _).2 hk]
    rw [this]; rfl
  · simp only [Bool.and_eq_true]
    rintro ⟨_, h⟩; exact hold ((mem_keys_iff_contains _ _).1 h)

/-- Of a configured list, the first measure which exists among the scores is used, if no earlier one has a
`..._output` score. -/
theorem error_key_configured_list {c : Cfg} {err : Dict String ℚ} {k : String} {l1 l2 : List String}
    (hc : c.errKey = .many (l1 ++ k :: l2)) (h1 : ∀ j ∈ l1, j ∉ err.keys ∧ j ++ "_output" ∉ err.keys)
    (hk : k ∈ err.keys) (hold : "old_format_score" ∉ err.keys) : errorKeyOf c err = some k := by
  unfold errorKeyOf
  have h0 : err ≠ [] := by rintro rfl; simp [Dict.keys] at hk
  rw [if_neg (by simpa using h0), if_neg]
  · have : (candidateKeys c).find? (fun k => err.contains k) = some k := by
      simp only [candidateKeys, hc, List.flatMap_append, List.flatMap_cons, List.append_assoc]
      rw [List.find?_append, List.find?_eq_none.2]
      · simp [(mem_keys_iff_contains _ _).2 hk]
      · intro x hx
        simp only [List.mem_flatMap] at hx
        obtain ⟨j, hj, hx⟩ := hx
        have := h1 j hj
        rw [mem_keys_iff_contains]
        simp at hx
        rcases hx with rfl | rfl
        · exact this.1
        · exact this.2
    rw [this]; rfl
  · simp only [Bool.and_eq_true]
    rintro ⟨_, h⟩; exact hold ((mem_keys_iff_contains _ _).1 h)

/-- Without a usable configured measure and without `dev_score`, a score on the dev set is preferred over all others. -/
theorem error_key_dev {c : Cfg} {err : Dict String ℚ} {k : String} (h : errorKeyOf c err = some k)
    (hold : "old_format_score" ∉ err.keys) (hcand : ∀ j ∈ candidateKeys c, j ∉ err.keys)
    (hdev : ∃ j ∈ err.keys, startsWith "dev_" j = true) : startsWith "dev_" k = true := by
  unfold errorKeyOf at h
  obtain ⟨j, hj, hdj⟩ := hdev
  have h0 : err ≠ [] := by rintro rfl; simp [Dict.keys] at hj
  rw [if_neg (by simpa using h0), if_neg] at h
  · have hc : (candidateKeys c).find? (fun k => err.contains k) = none := by
      rw [List.find?_eq_none]; intro x hx hx'; exact hcand x hx ((mem_keys_iff_contains _ _).1 hx')
    rw [hc] at h
    simp only [Option.none_or] at h
    have hpre : ∀ (pre s : String), startsWith pre s = true → "dev_".toList <+: pre.toList → startsWith "dev_" s = true := by
      intro pre s hs hp
      unfold startsWith at *
      rw [List.isPrefixOf_iff_prefix] at *
      exact hp.trans hs
    rcases Option.or_eq_some_iff.1 h with h1 | ⟨_, h⟩
    · have := List.find?_some h1
      simp only [Bool.or_eq_true, decide_eq_true_eq] at this
      rcases this with rfl | h2
      · decide
      · exact hpre _ _ h2 (by decide)
    · rcases Option.or_eq_some_iff.1 h with h1 | ⟨_, h⟩
      · exact hpre _ _ (List.find?_some h1) (by decide)
      · rcases Option.or_eq_some_iff.1 h with h1 | ⟨h1, h⟩
        · exact List.find?_some h1
        · exact absurd hdj (List.find?_eq_none.1 h1 j (mem_sortedKeys.2 hj))
  · simp only [Bool.and_eq_true]
    rintro ⟨_, h⟩; exact hold ((mem_keys_iff_contains _ _).1 h)

theorem scoreOf_none {c : Cfg} {x : EpochData} (h : x.error = []) : scoreOf c x = none := by
  unfold scoreOf; rw [h]; rfl

theorem errorKeyValue_ok {c : Cfg} {d : Data} {e : Int} {x : EpochData} {r : Option (String × ℚ)}
    (hx : d.get? e = some x) (h : errorKeyValue c d e = .ok r) : r = scoreOf c x := by
  unfold errorKeyValue at h
  rw [hx] at h
  simp only at h
  unfold scoreOf
  by_cases he : x.error = []
  · simp [he] at h ⊢; rw [← h]; rfl
  · rw [if_neg (by simpa using he)] at h
    cases hk : errorKeyOf c x.error with
    | none => rw [hk] at h; cases h
    | some k =>
      rw [hk] at h
      simp only at h
      split at h
      · cases h
      · cases hv : x.error.get? k with
        | none => rw [hv] at h; cases h
        | some v => rw [hv] at h; injection h with h; rw [← h]; simp [hv]

theorem calcRelativeError_ok {c : Cfg} {d : Data} (hw : d.Wf) {q p : Int} {y x : EpochData} {r : Option ℚ}
    (hy : d.get? q = some y) (hx : d.get? p = some x) (h : calcRelativeError c d q p = .ok r) :
    r = match scoreOf c y, scoreOf c x with
      | some (k1, v1), some (k2, v2) => if k1 = k2 then some (relError c v1 v2 x.lr) else none
      | _, _ => none := by
  have hlr : mostRecentLr c d p false = x.lr := by
    refine mostRecentLr_eq hw c p false (p := p) ⟨?_, ?_, ?_⟩ hx
    · exact (Dict.get?_isSome d p).1 (by rw [hx]; rfl)
    · simp
    · intro q _ h; simp at h; omega
  unfold calcRelativeError at h
  simp only [bind, Except.bind, pure, Except.pure] at h
  cases ho : errorKeyValue c d q with
  | error _ => rw [ho] at h; cases h
  | ok o =>
  cases hn : errorKeyValue c d p with
  | error _ => rw [ho, hn] at h; cases h
  | ok n =>
  rw [ho, hn] at h
  rw [← errorKeyValue_ok hy ho, ← errorKeyValue_ok hx hn]
  rcases o with _ | ⟨k1, v1⟩ <;> rcases n with _ | ⟨k2, v2⟩
  · injection h with h; exact h.symm
  · injection h with h; exact h.symm
  · injection h with h; exact h.symm
  simp only at h ⊢
  by_cases hk : k1 = k2
  · simp only [hk, ne_eq, not_true, if_false, if_true] at h ⊢
    rw [hlr] at h
    unfold relError
    cases hdo : c.divByOld <;> cases hrl : c.relLr <;> simp only [hdo, hrl, fdiv, if_true, Bool.false_eq_true, if_false,
        false_and, true_and] at h ⊢
    · split at h
      · cases h
      · rename_i heq
        split at heq
        · cases heq
        · injection heq with heq; injection h with h; rw [← h, ← heq]
    · split at h
      · cases h
      · rename_i heq
        split at heq
        · cases heq
        · injection heq with heq
          split at h
          · rename_i hpos
            rw [if_pos hpos]
            split at h
            · cases h
            · rename_i heq2
              split at heq2
              · cases heq2
              · injection heq2 with heq2
                split at h
                · cases h
                · rename_i heq3
                  split at heq3
                  · cases heq3
                  · injection heq3 with heq3; injection h with h; rw [← h, ← heq3, ← heq2, ← heq]
          · rename_i hpos
            rw [if_neg hpos]
            injection h with h; rw [← h, ← heq]
    · split at h
      · cases h
      · rename_i heq
        split at heq
        · cases heq
        · injection heq with heq; injection h with h; rw [← h, ← heq]
    · split at h
      · cases h
      · rename_i heq
        split at heq
        · cases heq
        · injection heq with heq
          split at h
          · rename_i hpos
            rw [if_pos hpos]
            split at h
            · cases h
            · rename_i heq2
              split at heq2
              · cases heq2
              · injection heq2 with heq2
                split at h
                · cases h
                · rename_i heq3
                  split at heq3
                  · cases heq3
                  · injection heq3 with heq3; injection h with h; rw [← h, ← heq3, ← heq2, ← heq]
          · rename_i hpos
            rw [if_neg hpos]
            injection h with h; rw [← h, ← heq]
  · simp only [hk, ne_eq, not_false_iff, if_true, if_false] at h ⊢
    injection h with h; exact h.symm

/-! ### One new epoch -/

theorem get?_setDefault_new {d : Data} {e : Int} {lr : ℚ} (hnew : e ∉ d.keys) (e' : Int) :
    (setDefault d e lr).get? e' = if e = e' then some ⟨lr, []⟩ else d.get? e' := by
  unfold setDefault
  rw [(Dict.get?_eq_none d e).2 hnew]
  exact Dict.get?_set _ _ _ _

theorem getLr_new {k : Control} {c : Cfg} {d : Data} {e : Int} {lr : ℚ} {d' : Data} (hnew : e ∉ d.keys)
    (h : getLr k c d e = .ok (lr, d')) : calcNewLr k c d e = .ok lr ∧ d' = setDefault d e lr ∧ 1 ≤ e := by
  unfold getLr at h
  rw [(Dict.get?_eq_none d e).2 hnew] at h
  simp only [bind, Except.bind, pure, Except.pure, pyAssert] at h
  split at h
  · cases h
  · rename_i h1
    split at h
    · cases h
    · rename_i lr' hlr
      injection h with h
      injection h with h2 h3
      subst h2 h3
      refine ⟨hlr, rfl, ?_⟩
      by_contra hcon
      rw [if_neg (by simpa using hcon)] at h1; cases h1

/-- `NewbobRelative`: the rate of a new epoch follows the specification. -/
theorem relative_calc {c : Cfg} {d : Data} (hw : d.Wf) {e : Int} {thr lr : ℚ}
    (h : calcLr (.relative thr) c d e = .ok lr) :
    (NoPrev d e ∧ lr = c.defaultLr) ∨
    ∃ p x, IsPrev d e p ∧ d.get? p = some x ∧
      ((NoPrev d p ∧ lr = x.lr) ∨ ∃ q y, IsPrev d p q ∧ d.get? q = some y ∧ lr = relativeNext c thr y x) := by
  simp only [calcLr] at h
  cases hg : getLastEpoch d e with
  | none => rw [hg] at h; injection h with h; exact Or.inl ⟨(getLastEpoch_none d e).1 hg, h.symm⟩
  | some p =>
    right
    have hp := (getLastEpoch_some d e p).1 hg
    obtain ⟨x, hx⟩ := exists_get? hp.1
    refine ⟨p, x, hp, hx, ?_⟩
    simp only [hg, getItem_ok.2 hx, bind, Except.bind, pure, Except.pure] at h
    cases hg2 : getLastEpoch d p with
    | none => rw [hg2] at h; injection h with h; exact Or.inl ⟨(getLastEpoch_none d p).1 hg2, h.symm⟩
    | some q =>
      right
      have hq := (getLastEpoch_some d p q).1 hg2
      obtain ⟨y, hy⟩ := exists_get? hq.1
      refine ⟨q, y, hq, hy, ?_⟩
      rw [hg2] at h
      simp only at h
      cases hr : calcRelativeError c d q p with
      | error _ => rw [hr] at h; cases h
      | ok r =>
        rw [hr] at h
        have hr' := calcRelativeError_ok hw hy hx hr
        unfold relativeNext
        rcases hsy : scoreOf c y with _ | ⟨k1, v1⟩ <;> rcases hsx : scoreOf c x with _ | ⟨k2, v2⟩ <;>
          rw [hsy, hsx] at hr' <;> simp only at hr' ⊢
        · subst hr'; injection h with h; exact h.symm
        · subst hr'; injection h with h; exact h.symm
        · subst hr'; injection h with h; exact h.symm
        · split at hr'
          · rename_i hk; rw [if_pos hk]; subst hr'; exact decayOrGrow_none h
          · rename_i hk; rw [if_neg hk]; subst hr'; injection h with h; exact h.symm

/-- `NewbobAbs`: the rate of a new epoch follows the specification. -/
theorem abs_calc {c : Cfg} {d : Data} {e : Int} {thr lr : ℚ}
    (h : calcLr (.abs thr) c d e = .ok lr) :
    (NoPrev d e ∧ lr = c.defaultLr) ∨
    ∃ p x, IsPrev d e p ∧ d.get? p = some x ∧
      ((NoPrev d p ∧ lr = x.lr) ∨ ∃ q y, IsPrev d p q ∧ d.get? q = some y ∧ lr = absNext c thr y x) := by
  simp only [calcLr] at h
  cases hg : getLastEpoch d e with
  | none => rw [hg] at h; injection h with h; exact Or.inl ⟨(getLastEpoch_none d e).1 hg, h.symm⟩
  | some p =>
    right
    have hp := (getLastEpoch_some d e p).1 hg
    obtain ⟨x, hx⟩ := exists_get? hp.1
    refine ⟨p, x, hp, hx, ?_⟩
    simp only [hg, getItem_ok.2 hx, bind, Except.bind, pure, Except.pure] at h
    cases hg2 : getLastEpoch d p with
    | none => rw [hg2] at h; injection h with h; exact Or.inl ⟨(getLastEpoch_none d p).1 hg2, h.symm⟩
    | some q =>
      right
      have hq := (getLastEpoch_some d p q).1 hg2
      obtain ⟨y, hy⟩ := exists_get? hq.1
      refine ⟨q, y, hq, hy, ?_⟩
      rw [hg2] at h
      simp only at h
      cases ho : errorKeyValue c d q with
      | error _ => rw [ho] at h; cases h
      | ok o =>
      cases hn : errorKeyValue c d p with
      | error _ => rw [ho, hn] at h; cases h
      | ok n =>
      rw [ho, hn] at h
      unfold absNext
      rw [← errorKeyValue_ok hy ho, ← errorKeyValue_ok hx hn]
      rcases o with _ | ⟨k1, v1⟩ <;> rcases n with _ | ⟨k2, v2⟩ <;> simp only at h ⊢
      · injection h with h; exact h.symm
      · injection h with h; exact h.symm
      · injection h with h; exact h.symm
      · by_cases hk : k1 = k2
        · simp only [hk, ne_eq, not_true, if_false, if_true] at h ⊢; exact decayOrGrow_none h
        · simp only [hk, ne_eq, not_false_iff, if_true, if_false] at h ⊢; injection h with h; exact h.symm

end Verif.LearningRate
