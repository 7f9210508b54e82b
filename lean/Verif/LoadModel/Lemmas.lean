import Verif.LoadModel.Spec
import Verif.Util.ListLemmas
import Mathlib.Tactic.Common
/-
The loop over the entries.
-/
namespace Verif.LoadModel

open Verif.Py

theorem contains_iff (st : State) (k : Name) : st.contains k = true ↔ k ∈ st.keys := by
  unfold Dict.contains; exact Dict.get?_isSome st k

theorem contains_false (st : State) (k : Name) : st.contains k = false ↔ k ∉ st.keys := by
  rw [← contains_iff]; cases st.contains k <;> simp

theorem newVal_fst (st : State) (kv : Name × Val) : (newVal st kv).1 = kv.1 := by
  unfold newVal; cases st.get? kv.1 <;> rfl

theorem keys_new (st params : State) : Dict.keys (params.map (newVal st)) = params.keys := by
  unfold Dict.keys
  rw [List.map_map]
  apply List.map_congr_left
  intro kv _
  exact newVal_fst st kv

theorem get_new (st : State) (k : Name) :
    ∀ params : State, Dict.get? (params.map (newVal st)) k = if k ∈ params.keys then (st.get? k).or (params.get? k) else none
  | [] => by simp [Dict.get?, Dict.keys]
  | (k0, v0) :: params => by
    have ih := get_new st k params
    have e : newVal st (k0, v0) = (k0, (st.get? k0).getD v0) := by
      unfold newVal; cases h : st.get? k0 <;> simp only [h] <;> rfl
    rw [List.map_cons, e]
    simp only [Dict.get?, Dict.keys, List.map_cons, List.mem_cons] at ih ⊢
    by_cases hk : k0 = k
    · subst hk
      simp only [if_true, true_or]
      cases st.get? k0 <;> rfl
    · have hk' : ¬ k = k0 := fun h => hk h.symm
      simp only [hk, hk', if_false, false_or]
      exact ih

theorem loadState_ok {params st p : State} (h : loadState params st = .ok p) :
    p = params.map (newVal st) ∧ shapeMismatch params st = false := by
  unfold loadState at h
  by_cases hm : shapeMismatch params st = true
  · rw [if_pos hm] at h; cases h
  · rw [if_neg hm] at h
    cases h
    exact ⟨rfl, by simpa using hm⟩

theorem shape_false {params st : State} (hw : params.Wf) :
    shapeMismatch params st = false ↔ ∀ k v w, st.get? k = some v → params.get? k = some w → v.shape = w.shape := by
  unfold shapeMismatch
  rw [List.any_eq_false]
  constructor
  · intro h k v w hv hp
    have := h (k, w) (Dict.mem_of_get? hp)
    simp only [hv, decide_eq_true_eq, ne_eq, not_not] at this
    exact this
  · intro h kv hkv
    cases hs : st.get? kv.1 with
    | none => simp
    | some v =>
      simp only [decide_eq_true_eq, ne_eq, not_not]
      exact h kv.1 v kv.2 hs (Dict.get?_of_mem hw hkv)

/-- One entry. -/
theorem step_ok {t : Task} {l l' : L} {e : Entry} (h : step t l e = .ok l') :
    (active t e = .ok false ∧ l' = l) ∨ (active t e = .ok true ∧ e.src = none ∧ l' = skipRandom e l)
    ∨ (active t e = .ok true ∧ ∃ file st, e.src = some file ∧ prepared e file = .ok st ∧ loadEntry e st l = .ok l') := by
  unfold step at h
  cases ha : active t e with
  | error x => rw [ha] at h; cases h
  | ok a =>
    rw [ha] at h
    cases a with
    | false => left; cases h; exact ⟨rfl, rfl⟩
    | true =>
      right
      simp only [bind, Except.bind, if_true] at h
      unfold useEntry at h
      cases hs : e.src with
      | none => rw [hs] at h; left; cases h; exact ⟨rfl, rfl, rfl⟩
      | some file =>
        rw [hs] at h
        simp only [bind, Except.bind] at h
        cases hp : prepared e file with
        | error x => rw [hp] at h; cases h
        | ok st =>
          rw [hp] at h
          exact Or.inr ⟨rfl, file, st, rfl, hp, h⟩

theorem loadEntry_ok {e : Entry} {st : State} {l l' : L} (h : loadEntry e st l = .ok l') :
    shapeMismatch l.params st = false ∧ l'.params = l.params.map (newVal st) ∧ l'.loaded = l.loaded ++ st.keys
    ∧ l'.missing = addMissing e l'.params st (l.loaded ++ st.keys) l.missing ∧ l'.ignore = addIgnore e l.params st l.ignore
    ∧ ∃ k ∈ prefixKeys e l'.params, k ∈ st.keys := by
  unfold loadEntry at h
  simp only [bind, Except.bind] at h
  cases hl : loadState l.params st with
  | error x => rw [hl] at h; cases h
  | ok p =>
    rw [hl] at h
    obtain ⟨hp, hm⟩ := loadState_ok hl
    simp only at h
    split at h
    · cases h
    · split at h
      · cases h
      · rename_i h2
        cases h
        refine ⟨hm, hp, rfl, rfl, rfl, ?_⟩
        simp only [Bool.not_eq_true', Bool.not_eq_false] at h2
        rw [List.any_eq_true] at h2
        obtain ⟨k, hk, hc⟩ := h2
        exact ⟨k, hk, (contains_iff _ _).1 hc⟩

theorem foldlM_cons_ok {σ α : Type} {f : σ → α → Res σ} {s s' : σ} {a : α} {as : List α} (h : (a :: as).foldlM f s = .ok s') :
    ∃ m, f s a = .ok m ∧ as.foldlM f m = .ok s' := by
  rw [List.foldlM_cons] at h
  cases hf : f s a with
  | error x => rw [hf] at h; cases h
  | ok m => rw [hf] at h; exact ⟨m, rfl, h⟩

/-- Names are not changed by an entry; values are those of the entry if it provides some. -/
theorem step_params {t : Task} {l l' : L} {e : Entry} (h : step t l e = .ok l') :
    l'.params.keys = l.params.keys
    ∧ (∀ k, (¬ ∃ v, Provides t e k v) → l'.params.get? k = l.params.get? k)
    ∧ (∀ k v, k ∈ l.params.keys → Provides t e k v → l'.params.get? k = some v) := by
  rcases step_ok h with ⟨ha, rfl⟩ | ⟨ha, hs, rfl⟩ | ⟨ha, file, st, hs, hp, hl⟩
  · refine ⟨rfl, fun _ _ => rfl, ?_⟩
    intro k v _ hpr
    have h0 := hpr.1; rw [ha] at h0; cases h0
  · refine ⟨rfl, fun _ _ => rfl, ?_⟩
    intro k v _ hpr
    obtain ⟨_, f, st, hf, _⟩ := hpr
    rw [hs] at hf; cases hf
  · obtain ⟨_, hpar, _⟩ := loadEntry_ok hl
    rw [hpar]
    refine ⟨keys_new _ _, ?_, ?_⟩
    · intro k hno
      have hn : st.get? k = none := by
        cases hg : st.get? k with
        | none => rfl
        | some v => exact absurd ⟨v, ha, file, st, hs, hp, hg⟩ hno
      rw [get_new, hn]
      by_cases hk : k ∈ l.params.keys
      · rw [if_pos hk]; rfl
      · rw [if_neg hk]; exact ((Dict.get?_eq_none _ _).2 hk).symm
    · intro k v hk hpr
      obtain ⟨_, f', st', hf', hp', hg'⟩ := hpr
      rw [hs] at hf'; cases hf'
      rw [hp] at hp'; cases hp'
      rw [get_new, if_pos hk, hg']; rfl

theorem fold_params {t : Task} : ∀ (es : List Entry) {l l' : L}, es.foldlM (step t) l = .ok l' →
    l'.params.keys = l.params.keys
    ∧ (∀ k, (∀ e ∈ es, ¬ ∃ v, Provides t e k v) → l'.params.get? k = l.params.get? k)
    ∧ (∀ a e b k v, es = a ++ e :: b → k ∈ l.params.keys → Provides t e k v → (∀ e' ∈ b, ¬ ∃ v', Provides t e' k v') →
        l'.params.get? k = some v)
  | [], l, l', h => by
    cases h
    refine ⟨rfl, fun _ _ => rfl, ?_⟩
    intro a e b k v he
    cases a <;> simp at he
  | e0 :: es, l, l', h => by
    obtain ⟨m, h1, h2⟩ := foldlM_cons_ok h
    obtain ⟨k1, n1, p1⟩ := step_params h1
    obtain ⟨k2, n2, p2⟩ := fold_params es h2
    refine ⟨k2.trans k1, ?_, ?_⟩
    · intro k hk
      rw [n2 k (fun e he => hk e (List.mem_cons_of_mem _ he)), n1 k (hk e0 (List.mem_cons_self ..))]
    · intro a e b k v he hk hp hb
      cases a with
      | nil =>
        simp only [List.nil_append, List.cons.injEq] at he
        obtain ⟨rfl, rfl⟩ := he
        rw [n2 k hb]
        exact p1 k v hk hp
      | cons a0 a =>
        simp only [List.cons_append, List.cons.injEq] at he
        obtain ⟨rfl, rfl⟩ := he
        exact p2 a e b k v rfl (by rw [k1]; exact hk) hp hb

/-- Missing, loaded and ignored names after an entry. -/
theorem step_sets {t : Task} {l l' : L} {e : Entry} (h : step t l e = .ok l') :
    (∀ k, k ∈ l'.loaded ↔ k ∈ l.loaded ∨ ∃ v, Provides t e k v)
    ∧ (∀ k, k ∈ l.missing → k ∈ l'.missing ∨ (∃ v, Provides t e k v) ∨ Random t e k)
    ∧ (∀ k, k ∈ l.params.keys → Requires t e k → k ∈ l.loaded ∨ (∃ v, Provides t e k v) ∨ k ∈ l'.missing)
    ∧ (∀ k, k ∈ l'.missing → k ∈ l.missing ∨ (k ∈ l.params.keys ∧ k ∉ l'.loaded))
    ∧ (∀ k, k ∈ l'.missing → ¬ ∃ v, Provides t e k v)
    ∧ (∀ k, k ∈ l'.ignore ↔ k ∈ l.ignore ∨ (e.init = .always ∧ k ∈ l.params.keys ∧ ∃ v, Provides t e k v)) := by
  rcases step_ok h with ⟨ha, rfl⟩ | ⟨ha, hs, rfl⟩ | ⟨ha, file, st, hs, hp, hl⟩
  · have hno : ∀ k, ¬ ∃ v, Provides t e k v := by
      rintro k ⟨v, hpr, _⟩
      rw [ha] at hpr; cases hpr
    refine ⟨fun k => ?_, fun k hk => Or.inl hk, fun k _ hr => ?_, fun k hk => Or.inl hk, fun k _ => hno k, fun k => ?_⟩
    · simp [hno k]
    · have := hr.1; rw [ha] at this; cases this
    · simp [hno k]
  · have hno : ∀ k, ¬ ∃ v, Provides t e k v := by
      rintro k ⟨v, _, f, st, hf, _⟩
      rw [hs] at hf; cases hf
    refine ⟨fun k => ?_, fun k hk => ?_, fun k _ hr => ?_, fun k hk => ?_, fun k _ => hno k, fun k => ?_⟩
    · simp [hno k, skipRandom]
    · unfold skipRandom
      by_cases hpat : e.pattern k = true
      · exact Or.inr (Or.inr ⟨ha, hs, hpat⟩)
      · left
        rw [List.mem_filter]
        exact ⟨hk, by simp [hpat]⟩
    · have := hr.2.1; rw [hs] at this; cases this
    · left
      unfold skipRandom at hk
      exact (List.mem_filter.1 hk).1
    · simp [hno k, skipRandom]
  · obtain ⟨_, hpar, hload, hmiss, hign, _⟩ := loadEntry_ok hl
    have hpv : ∀ k, (∃ v, Provides t e k v) ↔ k ∈ st.keys := by
      intro k
      rw [← Dict.get?_isSome]
      constructor
      · rintro ⟨v, _, f', st', hf', hp', hg'⟩
        rw [hs] at hf'; cases hf'
        rw [hp] at hp'; cases hp'
        rw [hg']; rfl
      · intro hg
        obtain ⟨v, hv⟩ := Option.isSome_iff_exists.1 hg
        exact ⟨v, ha, file, st, hs, hp, hv⟩
    have hkeys : l'.params.keys = l.params.keys := by rw [hpar]; exact keys_new _ _
    refine ⟨fun k => ?_, fun k hk => ?_, fun k hkp hr => ?_, fun k hk => ?_, fun k hk => ?_, fun k => ?_⟩
    · rw [hload, List.mem_append, hpv]
    · by_cases hc : k ∈ st.keys
      · exact Or.inr (Or.inl ((hpv k).2 hc))
      · left
        have hm : k ∈ l.missing.filter (fun k => !st.contains k) := by
          rw [List.mem_filter]; exact ⟨hk, by rw [(contains_false _ _).2 hc]; rfl⟩
        rw [hmiss]
        unfold addMissing
        cases e.ignoreMissing
        · exact List.mem_append_left _ hm
        · exact hm
    · by_cases hc : k ∈ st.keys
      · exact Or.inr (Or.inl ((hpv k).2 hc))
      · by_cases hld : k ∈ l.loaded
        · exact Or.inl hld
        · right; right
          rw [hmiss]
          unfold addMissing
          rw [hr.2.2.1]
          apply List.mem_append_right
          rw [List.mem_filter]
          refine ⟨?_, ?_⟩
          · unfold prefixKeys
            rw [List.mem_filter, hkeys]
            exact ⟨hkp, List.isPrefixOf_iff_prefix.2 hr.2.2.2⟩
          · rw [(contains_false _ _).2 hc]
            simp only [Bool.not_false, Bool.true_and, Bool.not_eq_true']
            rw [Bool.eq_false_iff, ne_eq, List.contains_iff_mem, List.mem_append]
            tauto
    · rw [hmiss] at hk
      unfold addMissing at hk
      cases him : e.ignoreMissing with
      | true =>
        rw [him] at hk
        left
        exact (List.mem_filter.1 hk).1
      | false =>
        rw [him] at hk
        rcases List.mem_append.1 hk with hk | hk
        · left
          exact (List.mem_filter.1 hk).1
        · right
          obtain ⟨h1, h2⟩ := List.mem_filter.1 hk
          unfold prefixKeys at h1
          refine ⟨by rw [← hkeys]; exact (List.mem_filter.1 h1).1, ?_⟩
          rw [hload]
          simp only [Bool.and_eq_true, Bool.not_eq_true', Bool.eq_false_iff, ne_eq, List.contains_iff_mem] at h2
          exact h2.2
    · rw [hpv]
      rw [hmiss] at hk
      unfold addMissing at hk
      have hf : ∀ x : List Name, k ∈ x.filter (fun k => !st.contains k) → k ∉ st.keys := by
        intro x hx
        have := (List.mem_filter.1 hx).2
        rw [← contains_false]
        simpa using this
      cases him : e.ignoreMissing with
      | true => rw [him] at hk; exact hf _ hk
      | false =>
        rw [him] at hk
        rcases List.mem_append.1 hk with hk | hk
        · exact hf _ hk
        · have := (List.mem_filter.1 hk).2
          rw [← contains_false]
          simp only [Bool.and_eq_true, Bool.not_eq_true'] at this
          exact this.1
    · rw [hign, hpv]
      unfold addIgnore
      by_cases hal : e.init = .always
      · rw [if_pos hal, List.mem_append, List.mem_filter, contains_iff]
        tauto
      · rw [if_neg hal]; tauto

/-- The sets after all entries. -/
theorem fold_sets {t : Task} : ∀ (es : List Entry) {l l' : L}, es.foldlM (step t) l = .ok l' →
    (∀ k, k ∈ l.missing → k ∈ l'.missing ∨ (∃ e ∈ es, ∃ v, Provides t e k v) ∨ ∃ e ∈ es, Random t e k)
    ∧ (∀ k e, e ∈ es → k ∈ l.params.keys → Requires t e k →
        k ∈ l.loaded ∨ k ∈ l'.missing ∨ (∃ e ∈ es, ∃ v, Provides t e k v) ∨ ∃ e ∈ es, Random t e k)
    ∧ ((∀ k, k ∈ l.missing → k ∈ l.params.keys ∧ k ∉ l.loaded) →
        ∀ k, k ∈ l'.missing → k ∈ l.params.keys ∧ k ∉ l.loaded ∧ ∀ e ∈ es, ¬ ∃ v, Provides t e k v)
    ∧ (∀ k, k ∈ l'.ignore ↔ k ∈ l.ignore ∨ (k ∈ l.params.keys ∧ ∃ e ∈ es, e.init = .always ∧ ∃ v, Provides t e k v))
  | [], l, l', h => by
    cases h
    refine ⟨fun k hk => Or.inl hk, fun k e he => ?_, fun hi k hk => ?_, fun k => ?_⟩
    · cases he
    · obtain ⟨h1, h2⟩ := hi k hk
      exact ⟨h1, h2, fun e he => by cases he⟩
    · simp
  | e0 :: es, l, l', h => by
    obtain ⟨m, h1, h2⟩ := foldlM_cons_ok h
    obtain ⟨sl, sm, sr, sm2, sp, si⟩ := step_sets h1
    obtain ⟨k1, _, _⟩ := step_params h1
    obtain ⟨fm, fr, fm2, fi⟩ := fold_sets es h2
    have A : ∀ k, k ∈ m.missing →
        k ∈ l'.missing ∨ (∃ e ∈ e0 :: es, ∃ v, Provides t e k v) ∨ ∃ e ∈ e0 :: es, Random t e k := by
      intro k hk
      rcases fm k hk with h | ⟨e, he, h⟩ | ⟨e, he, h⟩
      · exact Or.inl h
      · exact Or.inr (Or.inl ⟨e, List.mem_cons_of_mem _ he, h⟩)
      · exact Or.inr (Or.inr ⟨e, List.mem_cons_of_mem _ he, h⟩)
    refine ⟨fun k hk => ?_, fun k e he hkp hr => ?_, fun hi k hk => ?_, fun k => ?_⟩
    · rcases sm k hk with h | h | h
      · exact A k h
      · exact Or.inr (Or.inl ⟨e0, List.mem_cons_self .., h⟩)
      · exact Or.inr (Or.inr ⟨e0, List.mem_cons_self .., h⟩)
    · rcases List.mem_cons.1 he with rfl | he
      · rcases sr k hkp hr with h | h | h
        · exact Or.inl h
        · exact Or.inr (Or.inr (Or.inl ⟨e, List.mem_cons_self .., h⟩))
        · exact Or.inr (A k h)
      · rcases fr k e he (by rw [k1]; exact hkp) hr with h | h | ⟨e', he', h⟩ | ⟨e', he', h⟩
        · rcases (sl k).1 h with h | h
          · exact Or.inl h
          · exact Or.inr (Or.inr (Or.inl ⟨e0, List.mem_cons_self .., h⟩))
        · exact Or.inr (Or.inl h)
        · exact Or.inr (Or.inr (Or.inl ⟨e', List.mem_cons_of_mem _ he', h⟩))
        · exact Or.inr (Or.inr (Or.inr ⟨e', List.mem_cons_of_mem _ he', h⟩))
    · have hi' : ∀ k, k ∈ m.missing → k ∈ m.params.keys ∧ k ∉ m.loaded := by
        intro k hk
        have hno := sp k hk
        rcases sm2 k hk with h | ⟨h, h'⟩
        · obtain ⟨a, b⟩ := hi k h
          refine ⟨by rw [k1]; exact a, ?_⟩
          rw [sl]; tauto
        · exact ⟨by rw [k1]; exact h, h'⟩
      obtain ⟨a, b, c⟩ := fm2 hi' k hk
      rw [sl] at b
      refine ⟨by rw [← k1]; exact a, fun h => b (Or.inl h), ?_⟩
      intro e he
      rcases List.mem_cons.1 he with rfl | he
      · exact fun h => b (Or.inr h)
      · exact c e he
    · rw [fi, si, k1]
      simp only [List.mem_cons, exists_eq_or_imp]
      tauto

end Verif.LoadModel
