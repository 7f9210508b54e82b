import Verif.LoadModel.Lemmas
/-
Loading a model: where each parameter comes from, that missing ones are noticed, and that training can be resumed.
-/
namespace Verif.LoadModel

open Verif.Py Verif.ListLemmas

theorem order_perm (es : List Entry) : (order es).Perm es :=
  (List.reverse_perm _).trans (stableSort_perm es _)

theorem order_sorted (es : List Entry) : (order es).Pairwise (fun a b => b.key ≤ a.key) := by
  unfold order
  rw [List.pairwise_reverse]
  have := stableSort_pairwise (le := fun a b : Entry => decide (a.key ≤ b.key))
    (by intro a b c; simp only [decide_eq_true_eq]; omega)
    (by intro a b; simp only [Bool.or_eq_true, decide_eq_true_eq]; omega) es
  exact this.imp (by intro a b h; simpa using h)

theorem load_split {net : Net} {t : Task} {main : Option State} {es : List Entry} {p : State} {ig : List Name}
    (h : load net t main es = .ok (p, ig)) :
    ∃ l0 l, loadMain net main = .ok l0 ∧ (order es).foldlM (step t) l0 = .ok l ∧ finish net l = .ok l ∧ l.params = p ∧ l.ignore = ig := by
  unfold load at h
  simp only [bind, Except.bind] at h
  cases h0 : loadMain net main with
  | error x => rw [h0] at h; cases h
  | ok l0 =>
    rw [h0] at h
    simp only at h
    cases h1 : (order es).foldlM (step t) l0 with
    | error x => rw [h1] at h; cases h
    | ok l =>
      rw [h1] at h
      simp only at h
      have hf : ∀ l2, finish net l = .ok l2 → l2 = l := by
        intro l2 h2
        unfold finish at h2
        split at h2
        · cases h2
        · split at h2
          · cases h2; rfl
          · cases h2
      cases h2 : finish net l with
      | error x => rw [h2] at h; cases h
      | ok l2 =>
        rw [h2] at h
        have := hf l2 h2
        subst this
        cases h
        exact ⟨l0, l2, rfl, h1, h2, rfl, rfl⟩

theorem loadMain_facts {net : Net} {main : Option State} {l0 : L} (h : loadMain net main = .ok l0) :
    l0.params.keys = net.init.keys
    ∧ (∀ k ∈ net.init.keys, l0.params.get? k = (main.bind (fun s => s.get? k)).or (net.init.get? k))
    ∧ (∀ k, k ∈ l0.loaded ↔ ∃ s, main = some s ∧ k ∈ s.keys)
    ∧ (∀ k, k ∈ l0.missing ↔ ∃ s, main = some s ∧ k ∈ net.init.keys ∧ k ∉ s.keys)
    ∧ l0.ignore = [] := by
  cases main with
  | none =>
    cases h
    refine ⟨rfl, fun k _ => rfl, ?_, ?_, rfl⟩ <;> intro k <;> simp
  | some s =>
    simp only [loadMain, bind, Except.bind] at h
    cases hl : loadState net.init s with
    | error x => rw [hl] at h; cases h
    | ok p =>
      rw [hl] at h
      cases h
      obtain ⟨rfl, _⟩ := loadState_ok hl
      refine ⟨keys_new _ _, fun k hk => ?_, ?_, ?_, rfl⟩
      · show Dict.get? (net.init.map (newVal s)) k = _
        rw [get_new, if_pos hk]; rfl
      · intro k
        constructor
        · intro hk; exact ⟨s, rfl, hk⟩
        · rintro ⟨s', he, hk⟩; cases he; exact hk
      · intro k
        show k ∈ missingOf net.init s ↔ _
        unfold missingOf
        rw [List.mem_filter]
        simp only [Bool.not_eq_true', contains_false]
        constructor
        · rintro ⟨a, b⟩; exact ⟨s, rfl, a, b⟩
        · rintro ⟨s', he, a, b⟩; cases he; exact ⟨a, b⟩

/-- **Where each parameter comes from.**  After loading, a parameter has the value of the entry of `preload_from_files` with the smallest
key among those which are used and have it; otherwise the value of the checkpoint; otherwise its initial value.  No name is added or
removed. -/
theorem load_value {net : Net} {t : Task} {main : Option State} {es : List Entry} {p : State} {ig : List Name}
    (hnd : (es.map Entry.key).Nodup) (h : load net t main es = .ok (p, ig)) :
    p.keys = net.init.keys
    ∧ ∀ k ∈ net.init.keys,
        (∀ e ∈ es, ∀ v, Provides t e k v → (∀ e' ∈ es, e'.key < e.key → ¬ ∃ v', Provides t e' k v') → p.get? k = some v)
        ∧ ((∀ e ∈ es, ¬ ∃ v, Provides t e k v) → p.get? k = (main.bind (fun s => s.get? k)).or (net.init.get? k)) := by
  obtain ⟨l0, l, hm, hf, _, rfl, _⟩ := load_split h
  obtain ⟨hk0, hv0, _⟩ := loadMain_facts hm
  obtain ⟨fk, fn, fp⟩ := fold_params _ hf
  refine ⟨fk.trans hk0, ?_⟩
  intro k hk
  constructor
  · intro e he v hp hsm
    have hmem : e ∈ order es := (order_perm es).mem_iff.2 he
    obtain ⟨a, b, hab⟩ := List.append_of_mem hmem
    apply fp a e b k v hab (by rw [hk0]; exact hk) hp
    intro e' he'
    have hso := order_sorted es
    rw [hab] at hso
    have h1 : e'.key ≤ e.key := by
      have := (List.pairwise_append.1 hso).2.1
      exact (List.pairwise_cons.1 this).1 e' he'
    have hnd' : ((order es).map Entry.key).Nodup := ((order_perm es).map _).nodup_iff.2 hnd
    rw [hab, List.map_append, List.map_cons] at hnd'
    have h2 : e'.key ≠ e.key := by
      have := (List.nodup_append.1 hnd').2.1
      have := (List.nodup_cons.1 this).1
      intro heq
      exact this (List.mem_map.2 ⟨e', he', heq⟩)
    apply hsm e' _ (by omega)
    rw [← (order_perm es).mem_iff, hab]
    simp [he']
  · intro hno
    rw [fn k (fun e he => hno e ((order_perm es).mem_iff.1 he)), hv0 k hk]

/-- **Nothing is forgotten.**  If loading succeeds, every parameter which had to be loaded (every one if there is a checkpoint, and those
with the prefix of an entry without `ignore_missing`) was loaded, from the checkpoint or an entry, or is declared as not to be loaded, or
is not critical. -/
theorem load_accounted {net : Net} {t : Task} {main : Option State} {es : List Entry} {p : State} {ig : List Name}
    (h : load net t main es = .ok (p, ig)) (k : Name) (hk : k ∈ net.init.keys)
    (hreq : main.isSome ∨ ∃ e ∈ es, Requires t e k) :
    (∃ s, main = some s ∧ k ∈ s.keys) ∨ (∃ e ∈ es, ∃ v, Provides t e k v) ∨ (∃ e ∈ es, Random t e k) ∨ k ∈ net.nonCritical := by
  obtain ⟨l0, l, hm, hf, hfin, rfl, _⟩ := load_split h
  obtain ⟨hk0, _, hld, hms, _⟩ := loadMain_facts hm
  obtain ⟨fm, fr, _, _⟩ := fold_sets _ hf
  have hmem : ∀ {P : Entry → Prop}, (∃ e ∈ order es, P e) → ∃ e ∈ es, P e := by
    rintro P ⟨e, he, hp⟩
    exact ⟨e, (order_perm es).mem_iff.1 he, hp⟩
  have hend : k ∈ l.missing → k ∈ net.nonCritical := by
    intro hkm
    unfold finish at hfin
    split at hfin
    · cases hfin
    · split at hfin
      · rename_i hemp
        rw [List.isEmpty_iff, List.filter_eq_nil_iff] at hemp
        have := hemp k hkm
        simpa [List.contains_iff_mem] using this
      · cases hfin
  rcases hreq with hreq | ⟨e, he, hr⟩
  · obtain ⟨s, rfl⟩ := Option.isSome_iff_exists.1 hreq
    by_cases hs : k ∈ s.keys
    · exact Or.inl ⟨s, rfl, hs⟩
    · rcases fm k ((hms k).2 ⟨s, rfl, hk, hs⟩) with h | h | h
      · exact Or.inr (Or.inr (Or.inr (hend h)))
      · exact Or.inr (Or.inl (hmem h))
      · exact Or.inr (Or.inr (Or.inl (hmem h)))
  · rcases fr k e ((order_perm es).mem_iff.2 he) (by rw [hk0]; exact hk) hr with h | h | h | h
    · exact Or.inl ((hld k).1 h)
    · exact Or.inr (Or.inr (Or.inr (hend h)))
    · exact Or.inr (Or.inl (hmem h))
    · exact Or.inr (Or.inr (Or.inl (hmem h)))

/-- The parameters which are not trained and not saved are those which an entry with `"always"` has. -/
theorem load_ignored {net : Net} {t : Task} {main : Option State} {es : List Entry} {p : State} {ig : List Name}
    (h : load net t main es = .ok (p, ig)) (k : Name) :
    k ∈ ig ↔ k ∈ net.init.keys ∧ ∃ e ∈ es, e.init = .always ∧ ∃ v, Provides t e k v := by
  obtain ⟨l0, l, hm, hf, hfin, _, rfl⟩ := load_split h
  obtain ⟨hk0, _, _, _, hig⟩ := loadMain_facts hm
  obtain ⟨_, _, _, fi⟩ := fold_sets _ hf
  rw [fi, hig, hk0]
  simp only [List.not_mem_nil, false_or, (order_perm es).mem_iff]

/-! ### When loading succeeds -/

theorem fold_ok {net : Net} (hw : net.init.Wf) {t : Task} : ∀ (es : List Entry) (l : L),
    (∀ e ∈ es, Usable net t e) → SameShapes l.params net.init → ∃ l', es.foldlM (step t) l = .ok l'
  | [], l, _, _ => ⟨l, rfl⟩
  | e :: es, l, hu, hs => by
    have hsk : ∀ {a b : State}, SameShapes a b → a.keys = b.keys := by
      intro a b hab
      have := congrArg (List.map Prod.fst) hab
      unfold Dict.keys
      rw [List.map_map, List.map_map] at this
      exact this
    suffices H : ∃ m, step t l e = .ok m ∧ SameShapes m.params net.init by
      obtain ⟨m, h1, h2⟩ := H
      obtain ⟨l', h3⟩ := fold_ok hw es m (fun e' he' => hu e' (List.mem_cons_of_mem _ he')) h2
      refine ⟨l', ?_⟩
      rw [List.foldlM_cons, h1]
      exact h3
    rcases hu e (List.mem_cons_self ..) with ha | ⟨ha, hf⟩
    · refine ⟨l, ?_, hs⟩
      unfold step; rw [ha]; rfl
    · cases hsrc : e.src with
      | none =>
        refine ⟨skipRandom e l, ?_, hs⟩
        unfold step useEntry; rw [ha, hsrc]; rfl
      | some file =>
        obtain ⟨st, hp, hsh, k, hk, hpre, hkst⟩ := hf file hsrc
        have hkeys := hsk hs
        have hwl : l.params.Wf := by unfold Dict.Wf; rw [hkeys]; exact hw
        -- shapes
        have hget : ∀ (a b : State), SameShapes a b → ∀ k w, a.get? k = some w → ∃ w', b.get? k = some w' ∧ w.shape = w'.shape := by
          intro a
          induction a with
          | nil => intro b _ k w h; cases h
          | cons kv a ih =>
            intro b hab k w h
            cases b with
            | nil => cases hab
            | cons kv' b =>
              unfold SameShapes at hab
              simp only [List.map_cons, List.cons.injEq, Prod.mk.injEq] at hab
              obtain ⟨⟨e1, e2⟩, e3⟩ := hab
              obtain ⟨k1, v1⟩ := kv
              obtain ⟨k2, v2⟩ := kv'
              simp only at e1 e2
              subst e1
              simp only [Dict.get?] at h ⊢
              by_cases hk : k1 = k
              · rw [if_pos hk] at h ⊢
                cases h
                exact ⟨v2, rfl, e2⟩
              · rw [if_neg hk] at h ⊢
                exact ih b e3 k w h
        have hmis : shapeMismatch l.params st = false := by
          rw [shape_false hwl]
          intro k v w hv hpw
          obtain ⟨w', hw', hse⟩ := hget _ _ hs k w hpw
          rw [hse]
          exact hsh k v w' hv hw'
        have hload : loadState l.params st = .ok (l.params.map (newVal st)) := by
          unfold loadState; rw [hmis]; rfl
        have hkp : k ∈ prefixKeys e (l.params.map (newVal st)) := by
          unfold prefixKeys
          rw [List.mem_filter, keys_new, hkeys]
          exact ⟨hk, List.isPrefixOf_iff_prefix.2 hpre⟩
        refine ⟨{ params := l.params.map (newVal st), loaded := l.loaded ++ st.keys,
                  missing := addMissing e (l.params.map (newVal st)) st (l.loaded ++ st.keys) l.missing,
                  ignore := addIgnore e l.params st l.ignore }, ?_, ?_⟩
        · unfold step useEntry
          rw [ha, hsrc]
          simp only [bind, Except.bind, if_true, hp]
          unfold loadEntry
          simp only [bind, Except.bind, hload]
          rw [if_neg, if_neg]
          · simp only [Bool.not_eq_true', Bool.not_eq_false]
            rw [List.any_eq_true]
            exact ⟨k, hkp, (contains_iff _ _).2 hkst⟩
          · simp only [Bool.and_eq_true, not_and, Bool.not_eq_true]
            intro hemp
            rw [List.isEmpty_iff] at hemp
            rw [hemp] at hkp
            cases hkp
        · unfold SameShapes at hs ⊢
          rw [← hs, List.map_map]
          apply List.map_congr_left
          intro kv hkv
          simp only [Function.comp]
          unfold newVal
          cases hg : st.get? kv.1 with
          | none => rfl
          | some v =>
            simp only [Prod.mk.injEq, true_and]
            exact (shape_false hwl).1 hmis kv.1 v kv.2 hg (Dict.get?_of_mem hwl hkv)

/-- **Loading succeeds** if all files are fine, and every critical parameter is in the checkpoint or in one of the files. -/
theorem load_ok {net : Net} (hw : net.init.Wf) {t : Task} {main : Option State} {es : List Entry}
    (hmain : ∀ s, main = some s → ∀ k v w, s.get? k = some v → net.init.get? k = some w → v.shape = w.shape)
    (hu : ∀ e ∈ es, Usable net t e)
    (hpar : ∀ e ∈ es, e.init = .always → ∀ k ∈ net.init.keys, (∃ v, Provides t e k v) → net.isParam k = true)
    (hall : ∀ k ∈ net.init.keys, (∃ s, main = some s ∧ k ∈ s.keys) ∨ (∃ e ∈ es, ∃ v, Provides t e k v) ∨ k ∈ net.nonCritical) :
    ∃ p ig, load net t main es = .ok (p, ig) := by
  have hm : ∃ l0, loadMain net main = .ok l0 ∧ SameShapes l0.params net.init := by
    cases main with
    | none => exact ⟨_, rfl, rfl⟩
    | some s =>
      have hmis : shapeMismatch net.init s = false := (shape_false hw).2 (hmain s rfl)
      refine ⟨{ params := net.init.map (newVal s), loaded := s.keys, missing := missingOf net.init s, ignore := [] }, ?_, ?_⟩
      · simp only [loadMain, loadState, hmis, bind, Except.bind]; rfl
      · unfold SameShapes
        rw [List.map_map]
        apply List.map_congr_left
        intro kv hkv
        simp only [Function.comp]
        unfold newVal
        cases hg : s.get? kv.1 with
        | none => rfl
        | some v =>
          simp only [Prod.mk.injEq, true_and]
          exact (shape_false hw).1 hmis kv.1 v kv.2 hg (Dict.get?_of_mem hw hkv)
  obtain ⟨l0, h0, hs0⟩ := hm
  obtain ⟨l, hl⟩ := fold_ok hw (order es) l0 (fun e he => hu e ((order_perm es).mem_iff.1 he)) hs0
  obtain ⟨hk0, _, hld, hms, hig⟩ := loadMain_facts h0
  obtain ⟨_, _, fm2, fi⟩ := fold_sets _ hl
  have hfin : finish net l = .ok l := by
    unfold finish
    rw [if_neg, if_pos]
    · rw [List.isEmpty_iff, List.filter_eq_nil_iff]
      intro k hk
      obtain ⟨a, b, c⟩ := fm2 (by
        intro k hk
        obtain ⟨s, hs, h1, h2⟩ := (hms k).1 hk
        refine ⟨by rw [hk0]; exact h1, ?_⟩
        rw [hld]
        rintro ⟨s', hs', h3⟩
        rw [hs] at hs'; cases hs'
        exact h2 h3) k hk
      rw [hk0] at a
      rw [hld] at b
      rcases hall k a with h | ⟨e, he, h⟩ | h
      · exact absurd h b
      · exact absurd h (c e ((order_perm es).mem_iff.2 he))
      · simp [h]
    · rw [Bool.not_eq_true, List.any_eq_false]
      intro k hk
      rw [fi, hig] at hk
      rcases hk with hk | ⟨hk, e, he, ha, hp⟩
      · cases hk
      · rw [hpar e ((order_perm es).mem_iff.1 he) ha k (by rw [← hk0]; exact hk) hp]; decide
  refine ⟨l.params, l.ignore, ?_⟩
  unfold load
  simp only [bind, Except.bind, h0, hl, hfin]

end Verif.LoadModel
