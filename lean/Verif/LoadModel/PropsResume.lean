import Verif.LoadModel.Props
import Mathlib.Data.Nat.Find
/-
Resuming training, and what is in the state of an entry; where the result may surprise.
-/
namespace Verif.LoadModel

open Verif.Py

theorem step_usable {net : Net} (hw : net.init.Wf) {t : Task} {l l' : L} {e : Entry} (hs : SameShapes l.params net.init)
    (h : step t l e = .ok l') : Usable net t e ∧ SameShapes l'.params net.init := by
  have hsk : ∀ {a b : State}, SameShapes a b → a.keys = b.keys := by
    intro a b hab
    have := congrArg (List.map Prod.fst) hab
    unfold Dict.keys
    rw [List.map_map, List.map_map] at this
    exact this
  rcases step_ok h with ⟨ha, rfl⟩ | ⟨ha, hsrc, rfl⟩ | ⟨ha, file, st, hsrc, hp, hl⟩
  · exact ⟨Or.inl ha, hs⟩
  · refine ⟨Or.inr ⟨ha, ?_⟩, hs⟩
    intro f hf; rw [hsrc] at hf; cases hf
  · obtain ⟨hmis, hpar, _, _, _, k, hk, hkst⟩ := loadEntry_ok hl
    have hwl : l.params.Wf := by unfold Dict.Wf; rw [hsk hs]; exact hw
    have hs' : SameShapes l'.params net.init := by
      unfold SameShapes at hs ⊢
      rw [← hs, hpar, List.map_map]
      apply List.map_congr_left
      intro kv hkv
      simp only [Function.comp]
      unfold newVal
      cases hg : st.get? kv.1 with
      | none => rfl
      | some v =>
        simp only [Prod.mk.injEq, true_and]
        exact (shape_false hwl).1 hmis kv.1 v kv.2 hg (Dict.get?_of_mem hwl hkv)
    refine ⟨Or.inr ⟨ha, ?_⟩, hs'⟩
    intro f hf
    rw [hsrc] at hf; cases hf
    refine ⟨st, hp, ?_, ?_⟩
    · intro k v w hv hw'
      have hget : ∀ (a b : State), SameShapes a b → ∀ k w, a.get? k = some w → ∃ w', b.get? k = some w' ∧ w.shape = w'.shape := by
        intro a
        induction a with
        | nil => intro b _ k w h; cases h
        | cons kv a ih =>
          intro b hab k w h
          cases b with
          | nil => cases hab
          | cons kv' b =>
            unfold SameShapes at hab
            simp only [List.map_cons, List.cons.injEq, Prod.mk.injEq] at hab
            obtain ⟨⟨e1, e2⟩, e3⟩ := hab
            obtain ⟨k1, v1⟩ := kv
            obtain ⟨k2, v2⟩ := kv'
            simp only at e1 e2
            subst e1
            simp only [Dict.get?] at h ⊢
            by_cases hk : k1 = k
            · rw [if_pos hk] at h ⊢
              cases h
              exact ⟨v2, rfl, e2⟩
            · rw [if_neg hk] at h ⊢
              exact ih b e3 k w h
      obtain ⟨w', hw'', hse⟩ := hget _ _ hs.symm k w hw'
      rw [hse]
      exact (shape_false hwl).1 hmis k v w' hv hw''
    · unfold prefixKeys at hk
      rw [List.mem_filter, hsk hs'] at hk
      exact ⟨k, hk.1, List.isPrefixOf_iff_prefix.1 hk.2, hkst⟩

theorem fold_usable {net : Net} (hw : net.init.Wf) {t : Task} : ∀ (es : List Entry) {l l' : L}, SameShapes l.params net.init →
    es.foldlM (step t) l = .ok l' → (∀ e ∈ es, Usable net t e) ∧ SameShapes l'.params net.init
  | [], l, l', hs, h => by cases h; exact ⟨fun e he => (by cases he), hs⟩
  | e :: es, l, l', hs, h => by
    obtain ⟨m, h1, h2⟩ := foldlM_cons_ok h
    obtain ⟨u1, s1⟩ := step_usable hw hs h1
    obtain ⟨u2, s2⟩ := fold_usable hw es s1 h2
    refine ⟨?_, s2⟩
    intro e' he'
    rcases List.mem_cons.1 he' with rfl | he'
    · exact u1
    · exact u2 e' he'

/-- A model which was loaded has the names and shapes of the model, and all entries could be used. -/
theorem load_usable {net : Net} (hw : net.init.Wf) {t : Task} {main : Option State} {es : List Entry} {p : State} {ig : List Name}
    (h : load net t main es = .ok (p, ig)) : (∀ e ∈ es, Usable net t e) ∧ SameShapes p net.init := by
  obtain ⟨l0, l, hm, hf, _, rfl, _⟩ := load_split h
  have hs0 : SameShapes l0.params net.init := by
    cases main with
    | none => cases hm; rfl
    | some s =>
      simp only [loadMain, bind, Except.bind] at hm
      cases hl : loadState net.init s with
      | error x => rw [hl] at hm; cases hm
      | ok q =>
        rw [hl] at hm
        cases hm
        obtain ⟨rfl, hmis⟩ := loadState_ok hl
        unfold SameShapes
        rw [List.map_map]
        apply List.map_congr_left
        intro kv hkv
        simp only [Function.comp]
        unfold newVal
        cases hg : s.get? kv.1 with
        | none => rfl
        | some v =>
          simp only [Prod.mk.injEq, true_and]
          exact (shape_false hw).1 hmis kv.1 v kv.2 hg (Dict.get?_of_mem hw hkv)
  obtain ⟨u, s⟩ := fold_usable hw _ hs0 hf
  exact ⟨fun e he => u e ((order_perm es).mem_iff.2 he), s⟩

theorem get_filter (st : State) (q : Name → Bool) (k : Name) :
    Dict.get? (st.filter (fun kv => q kv.1)) k = if q k then st.get? k else none := by
  induction st with
  | nil => simp [Dict.get?]
  | cons kv st ih =>
    obtain ⟨k0, v0⟩ := kv
    rw [List.filter_cons]
    by_cases h0 : q k0 = true
    · simp only [h0, if_true, Dict.get?, ih]
      by_cases hk : k0 = k
      · subst hk; simp [h0]
      · simp [hk]
    · simp only [h0, Bool.false_eq_true, if_false, ih, Dict.get?]
      by_cases hk : k0 = k
      · subst hk; simp [h0]
      · simp [hk]

theorem get_saved (p : State) (ig : List Name) (k : Name) :
    Dict.get? (saved p ig) k = if ig.contains k then none else p.get? k := by
  unfold saved
  rw [get_filter p (fun k => !ig.contains k) k]
  cases ig.contains k <;> rfl

theorem sameShapes_keys {a b : State} (hab : SameShapes a b) : a.keys = b.keys := by
  have := congrArg (List.map Prod.fst) hab
  unfold Dict.keys
  rw [List.map_map, List.map_map] at this
  exact this

/-- **Training can be resumed.**  Training starts (`load` succeeds, with or without a checkpoint), changes the parameters which are
trained, and saves the model.  Then loading this checkpoint with the same config succeeds, and gives every parameter the value which it
had, and the same parameters are not trained.  This is for configs where no entry without `"always"` replaces what an entry with
`"always"` has. -/
theorem resume_partial {net : Net} (hw : net.init.Wf) {t : Task} (htr : t.training = true) {main : Option State} {es : List Entry}
    (hnd : (es.map Entry.key).Nodup) {p p' : State} {ig : List Name} (h : load net t main es = .ok (p, ig))
    (hshape : SameShapes p' p) (hsame : ∀ k ∈ ig, p'.get? k = p.get? k)
    (hprio : ∀ k, ∀ e ∈ es, e.init = .always → (∃ v, Provides t e k v) →
      ∀ e' ∈ es, e'.init ≠ .always → (∃ v, Provides t e' k v) → e.key < e'.key) :
    ∃ p'' ig'', load net ⟨true, false⟩ (some (saved p' ig)) es = .ok (p'', ig'')
      ∧ (∀ k ∈ net.init.keys, p''.get? k = p'.get? k) ∧ ∀ k, k ∈ ig'' ↔ k ∈ ig := by
  obtain ⟨hus, hsp⟩ := load_usable hw h
  have hs' : SameShapes p' net.init := hshape.trans hsp
  have hkeys' := sameShapes_keys hs'
  have hnb : ∀ e ∈ es, e.init ≠ .bad := by
    intro e he hb
    rcases hus e he with ha | ⟨ha, _⟩ <;> (unfold active at ha; rw [hb] at ha; cases ha)
  have hact : ∀ e ∈ es, active ⟨true, false⟩ e = .ok (decide (e.init = .always)) := by
    intro e he
    have := hnb e he
    unfold active
    cases hi : e.init <;> simp_all
  have halw : ∀ e, e.init = .always → active t e = .ok true := by
    intro e hi; unfold active; rw [hi]
  have hprov : ∀ e ∈ es, ∀ k v, Provides ⟨true, false⟩ e k v ↔ e.init = .always ∧ Provides t e k v := by
    intro e he k v
    unfold Provides
    rw [hact e he]
    constructor
    · rintro ⟨h1, h2⟩
      have hi : e.init = .always := by
        injection h1 with h1; simpa using h1
      exact ⟨hi, halw e hi, h2⟩
    · rintro ⟨hi, _, h2⟩
      exact ⟨by simp [hi], h2⟩
  have higk := load_ignored h
  have hpar : ∀ k ∈ ig, net.isParam k = true := by
    obtain ⟨l0, l, _, _, hfin, _, rfl⟩ := load_split h
    intro k hk
    unfold finish at hfin
    split at hfin
    · cases hfin
    · rename_i hany
      rw [Bool.not_eq_true, List.any_eq_false] at hany
      simpa using hany k hk
  have hok : ∃ p'' ig'', load net ⟨true, false⟩ (some (saved p' ig)) es = .ok (p'', ig'') := by
    apply load_ok hw
    · intro s he k v w hv hw'
      cases he
      rw [get_saved] at hv
      split at hv
      · cases hv
      · have hmis : shapeMismatch net.init p' = false := by
          unfold shapeMismatch
          rw [List.any_eq_false]
          have hnodup : Dict.Wf p' := by unfold Dict.Wf; rw [hkeys']; exact hw
          -- names and shapes agree
          have hmem : ∀ kv ∈ net.init, ∃ kv' ∈ p', kv'.1 = kv.1 ∧ kv'.2.shape = kv.2.shape := by
            intro kv hkv
            have : (kv.1, kv.2.shape) ∈ p'.map (fun kv => (kv.1, kv.2.shape)) := by
              rw [hs']; exact List.mem_map.2 ⟨kv, hkv, rfl⟩
            obtain ⟨kv', h1, h2⟩ := List.mem_map.1 this
            injection h2 with h2 h3
            exact ⟨kv', h1, h2, h3⟩
          intro kv hkv
          obtain ⟨kv', h1, h2, h3⟩ := hmem kv hkv
          have : p'.get? kv.1 = some kv'.2 := by
            rw [← h2]; exact Dict.get?_of_mem hnodup h1
          rw [this]
          simp [h3]
        exact (shape_false hw).1 hmis k v w hv hw'
    · intro e he
      by_cases hi : e.init = .always
      · right
        refine ⟨by rw [hact e he]; simp [hi], ?_⟩
        rcases hus e he with ha | ⟨_, hf⟩
        · rw [halw e hi] at ha; cases ha
        · exact hf
      · left; rw [hact e he]; simp [hi]
    · intro e he hi k hk hp
      apply hpar
      rw [higk]
      obtain ⟨v, hv⟩ := hp
      exact ⟨hk, e, he, hi, v, ((hprov e he k v).1 hv).2⟩
    · intro k hk
      by_cases hkig : k ∈ ig
      · right; left
        obtain ⟨_, e, he, hi, v, hv⟩ := (higk k).1 hkig
        exact ⟨e, he, v, (hprov e he k v).2 ⟨hi, hv⟩⟩
      · left
        refine ⟨_, rfl, ?_⟩
        rw [← Dict.get?_isSome, get_saved]
        have : ig.contains k = false := by
          rw [Bool.eq_false_iff, ne_eq, List.contains_iff_mem]; exact hkig
        rw [this]
        simp only [Bool.false_eq_true, if_false]
        rw [Dict.get?_isSome, hkeys']; exact hk
  obtain ⟨p'', ig'', h2⟩ := hok
  refine ⟨p'', ig'', h2, ?_, ?_⟩
  · intro k hk
    obtain ⟨_, hv2⟩ := load_value hnd h2
    obtain ⟨ha, hb⟩ := hv2 k hk
    by_cases hkig : k ∈ ig
    · rw [hsame k hkig]
      -- the entry with the smallest key among those with "always" which have it
      have hex : ∃ n e, e ∈ es ∧ e.key = n ∧ e.init = .always ∧ ∃ v, Provides t e k v := by
        obtain ⟨_, e, he, hi, hv⟩ := (higk k).1 hkig
        exact ⟨e.key, e, he, rfl, hi, hv⟩
      classical
      obtain ⟨e, he, hek, hi, v, hv⟩ := Nat.find_spec hex
      have hmin : ∀ e' ∈ es, e'.key < e.key → e'.init = .always → ¬ ∃ v', Provides t e' k v' := by
        intro e' he' hlt hi' hv'
        exact Nat.find_min hex (by rw [← hek]; exact hlt) ⟨e', he', rfl, hi', hv'⟩
      obtain ⟨_, hv1⟩ := load_value hnd h
      rw [(hv1 k hk).1 e he v hv, ha e he v ((hprov e he k v).2 ⟨hi, hv⟩)]
      · rintro e' he' hlt ⟨v', hv'⟩
        obtain ⟨hi', hv''⟩ := (hprov e' he' k v').1 hv'
        exact hmin e' he' hlt hi' ⟨v', hv''⟩
      · rintro e' he' hlt ⟨v', hv'⟩
        by_cases hi' : e'.init = .always
        · exact hmin e' he' hlt hi' ⟨v', hv'⟩
        · have := hprio k e he hi ⟨v, hv⟩ e' he' hi' ⟨v', hv'⟩
          omega
    · rw [hb]
      · have hc : ig.contains k = false := by
          rw [Bool.eq_false_iff, ne_eq, List.contains_iff_mem]; exact hkig
        simp only [Option.bind_some]
        rw [get_saved, hc]
        simp only [Bool.false_eq_true, if_false]
        have hsome : (p'.get? k).isSome := by rw [Dict.get?_isSome, hkeys']; exact hk
        cases hg : p'.get? k with
        | none => rw [hg] at hsome; cases hsome
        | some x => rfl
      · rintro e he ⟨v, hv⟩
        obtain ⟨hi, hv'⟩ := (hprov e he k v).1 hv
        exact hkig ((higk k).2 ⟨hk, e, he, hi, v, hv'⟩)
  · intro k
    rw [load_ignored h2, higk]
    constructor
    · rintro ⟨hk, e, he, hi, v, hv⟩
      exact ⟨hk, e, he, hi, v, ((hprov e he k v).1 hv).2⟩
    · rintro ⟨hk, e, he, hi, v, hv⟩
      exact ⟨hk, e, he, hi, v, (hprov e he k v).2 ⟨hi, hv⟩⟩

/-! ### What an entry provides -/

theorem get_addPrefix (q : Name) (st : State) (k : Name) :
    (addPrefix q st).get? k = if q <+: k then st.get? (k.drop q.length) else none := by
  unfold addPrefix
  by_cases hq : q = []
  · subst hq; simp
  · rw [if_neg hq]
    induction st with
    | nil => simp [Dict.get?]
    | cons kv st ih =>
      obtain ⟨k0, v0⟩ := kv
      simp only [List.map_cons, Dict.get?, ih]
      by_cases hp : q <+: k
      · obtain ⟨r, rfl⟩ := hp
        simp
      · rw [if_neg hp, if_neg hp]
        rw [if_neg]
        intro he
        exact hp ⟨k0, he⟩

open Classical in
/-- Without renaming: a name is provided iff it is the prefix and a name of the file, and neither in the list of ignored names nor starts
with an ignored prefix. -/
theorem prepared_plain (e : Entry) (st : State) (hm : e.mapping = []) :
    ∃ s, prepared e (.ok st) = .ok s
      ∧ ∀ k, s.get? k = if k ∈ e.ignoreParams ∨ ∃ q ∈ e.ignorePrefixes, q <+: k then none
          else if e.prefix_ <+: k then st.get? (k.drop e.prefix_.length) else none := by
  refine ⟨(addPrefix e.prefix_ st).filter (fun kv => !ignored e kv.1), ?_, ?_⟩
  · unfold prepared
    rw [hm]
    rfl
  · intro k
    rw [get_filter _ (fun k => !ignored e k), get_addPrefix]
    have hi : ignored e k = true ↔ (k ∈ e.ignoreParams ∨ ∃ q ∈ e.ignorePrefixes, q <+: k) := by
      unfold ignored
      simp [List.any_eq_true, List.isPrefixOf_iff_prefix]
    by_cases hk : k ∈ e.ignoreParams ∨ ∃ q ∈ e.ignorePrefixes, q <+: k
    · rw [if_pos hk, hi.mpr hk]
      rfl
    · rw [if_neg hk]
      have hf : ignored e k = false := by
        cases hc : ignored e k with
        | false => rfl
        | true => exact absurd (hi.mp hc) hk
      rw [hf]
      simp only [Bool.not_false, if_true]

theorem rename_get {st s : State} (hw : st.Wf) {m : Name × Name} (h : rename st m = .ok s) :
    s.Wf ∧ m.2 ∈ st.keys ∧ ∀ k, s.get? k = if k = m.1 then st.get? m.2 else if k = m.2 then none else st.get? k := by
  unfold rename Dict.getItem at h
  cases hg : st.get? m.2 with
  | none => rw [hg] at h; cases h
  | some v =>
    rw [hg] at h
    cases h
    refine ⟨Dict.wf_set (Dict.wf_erase hw _) _ _, ?_, ?_⟩
    · rw [← Dict.get?_isSome, hg]; rfl
    · intro k
      rw [Dict.get?_set, Dict.get?_erase hw]
      by_cases h1 : k = m.1
      · subst h1; simp
      · rw [if_neg (fun h => h1 h.symm), if_neg h1]
        by_cases h2 : k = m.2
        · subst h2; simp
        · rw [if_neg (fun h => h2 h.symm), if_neg h2]

/-- Renaming (`var_name_mapping`) where no name is both new and old: every new name gets the value of its old name, the old names are
gone, and all others stay. -/
theorem mapping_right : ∀ (mp : List (Name × Name)) {st s : State}, st.Wf → (mp.map Prod.fst).Nodup → (mp.map Prod.snd).Nodup →
    (∀ n ∈ mp.map Prod.fst, n ∉ mp.map Prod.snd) → mp.foldlM rename st = .ok s →
    (∀ m ∈ mp, (st.get? m.2).isSome ∧ s.get? m.1 = st.get? m.2)
    ∧ (∀ k, k ∉ mp.map Prod.fst → k ∈ mp.map Prod.snd → s.get? k = none)
    ∧ (∀ k, k ∉ mp.map Prod.fst → k ∉ mp.map Prod.snd → s.get? k = st.get? k)
  | [], st, s, _, _, _, _, h => by
    cases h
    refine ⟨fun m hm => (by cases hm), fun k _ hk => (by cases hk), fun k _ _ => rfl⟩
  | m0 :: mp, st, s, hw, hn, ho, hd, h => by
    obtain ⟨q, h1, h2⟩ := foldlM_cons_ok h
    obtain ⟨hwq, hin, hget⟩ := rename_get hw h1
    simp only [List.map_cons, List.nodup_cons, List.mem_cons, forall_eq_or_imp, not_or] at hn ho hd
    obtain ⟨i1, i2, i3⟩ := mapping_right mp hwq hn.2 ho.2 (fun n hx => (hd.2 n hx).2) h2
    have hne : m0.1 ∉ mp.map Prod.fst := hn.1
    have hno : m0.1 ∉ mp.map Prod.snd := hd.1.2
    refine ⟨?_, ?_, ?_⟩
    · intro m hm
      rcases List.mem_cons.1 hm with rfl | hm
      · refine ⟨by rw [Dict.get?_isSome]; exact hin, ?_⟩
        rw [i3 m.1 hne hno, hget, if_pos rfl]
      · obtain ⟨a, b⟩ := i1 m hm
        have hmo : m.2 ∈ mp.map Prod.snd := List.mem_map.2 ⟨m, hm, rfl⟩
        have e1 : m.2 ≠ m0.1 := fun he => hno (he ▸ hmo)
        have e2 : m.2 ≠ m0.2 := fun he => ho.1 (he ▸ hmo)
        have e3 : q.get? m.2 = st.get? m.2 := by rw [hget, if_neg e1, if_neg e2]
        rw [e3] at a b
        exact ⟨a, b⟩
    · intro k hk hk'
      simp only [List.map_cons, List.mem_cons, not_or] at hk hk'
      by_cases hkm : k ∈ mp.map Prod.snd
      · exact i2 k hk.2 hkm
      · rcases hk' with rfl | hk'
        · rw [i3 _ hk.2 hkm, hget, if_neg hk.1, if_pos rfl]
        · exact absurd hk' hkm
    · intro k hk hk'
      simp only [List.map_cons, List.mem_cons, not_or] at hk hk'
      rw [i3 k hk.2 hk'.2, hget, if_neg hk.1, if_neg hk'.1]

/-! ### Where the result may surprise -/

def a : Name := ['e', '.', 'a']
def b : Name := ['d', '.', 'b']
def v (n : Nat) : Val := ⟨[1], n⟩

/-- A model with two parameters, with initial values 100 and 200. -/
def net2 : Net := { init := [(a, v 100), (b, v 200)], isParam := fun _ => true, nonCritical := [] }

def train1 : Task := ⟨true, true⟩
def recog : Task := ⟨false, false⟩

/-- An entry of priority over an `"always"` entry in the first epoch: after resuming, the parameter has another value (7 in the first
epoch, and 8 afterwards). -/
theorem resume_changes :
    let es : List Entry := [{ key := 0, src := some (.ok [(a, v 7)]), init := .yes, ignoreMissing := true },
                            { key := 1, src := some (.ok [(a, v 8)]), init := .always, ignoreMissing := true }]
    load net2 train1 none es = .ok ([(a, v 7), (b, v 200)], [a])
    ∧ load net2 ⟨true, false⟩ (some (saved [(a, v 7), (b, v 201)] [a])) es = .ok ([(a, v 8), (b, v 201)], [a]) := by
  decide +kernel

/-- The declaration that a parameter is initialised at random has an effect only if its key is before the one of the other entries. -/
theorem random_order :
    let pat : Name → Bool := fun k => decide (k = b)
    load net2 train1 none [{ key := 0, src := none, init := .yes, pattern := pat }, { key := 1, src := some (.ok [(a, v 7)]), init := .yes }]
      = .ok ([(a, v 7), (b, v 200)], [])
    ∧ load net2 train1 none
        [{ key := 1, src := none, init := .yes, pattern := pat }, { key := 0, src := some (.ok [(a, v 7)]), init := .yes }]
      = .error (.other "Any missing key is an error.") := by
  decide +kernel

/-- Recognition without checkpoint, with an entry for one part of the model: the other part keeps its random values, without error. -/
theorem recog_random :
    load net2 recog none [{ key := 0, src := some (.ok [(['a'], v 7)]), init := .no, prefix_ := ['e', '.'] }]
      = .ok ([(a, v 7), (b, v 200)], []) := by
  decide +kernel

/-- An `"always"` entry with a buffer of the model cannot be used. -/
theorem always_buffer_raises :
    load { net2 with isParam := fun k => decide (k = b) } train1 none
      [{ key := 0, src := some (.ok [(a, v 7), (b, v 8)]), init := .always }] = .error .valueError := by
  decide +kernel

/-- Exchanging two names by `var_name_mapping`: one value is lost. -/
theorem mapping_swap :
    prepared { key := 0, src := none, init := .no, mapping := [(a, b), (b, a)] } (.ok [(a, v 1), (b, v 2)]) = .ok [(b, v 2)] := by
  decide +kernel

/-! ### Examples -/

/-- Two entries have the parameter: the one with the smaller key; the other parameter is in the checkpoint. -/
theorem ex_load :
    load net2 recog (some [(b, v 9)])
      [{ key := 2, src := some (.ok [(['a'], v 1)]), init := .no, prefix_ := ['e', '.'] },
       { key := 1, src := some (.ok [(a, v 2)]), init := .no }] = .ok ([(a, v 2), (b, v 9)], []) := by
  decide +kernel

/-- A missing parameter is an error. -/
theorem ex_missing : load net2 recog (some [(b, v 9)]) [] = .error (.other "Any missing key is an error.") := by
  decide +kernel

/-- Another shape is an error. -/
theorem ex_shape : load net2 recog (some [(a, v 1), (b, ⟨[2], 9⟩)]) [] = .error (.other "size mismatch") := by
  decide +kernel

/-- The hypotheses of `resume_partial`. -/
example : load net2 train1 none [{ key := 1, src := some (.ok [(a, v 8)]), init := .always, ignoreMissing := true }]
      = .ok ([(a, v 8), (b, v 200)], [a])
    ∧ SameShapes [(a, v 8), (b, v 201)] [(a, v 8), (b, v 200)]
    ∧ load net2 ⟨true, false⟩ (some (saved [(a, v 8), (b, v 201)] [a]))
        [{ key := 1, src := some (.ok [(a, v 8)]), init := .always, ignoreMissing := true }]
      = .ok ([(a, v 8), (b, v 201)], [a]) := by
  refine ⟨by decide +kernel, by unfold SameShapes; decide +kernel, by decide +kernel⟩

/-- The hypotheses of `mapping_right`. -/
example : [(['x'], a)].foldlM rename [(a, v 1), (b, v 2)] = (.ok [(b, v 2), (['x'], v 1)] : Res State) := by decide +kernel

end Verif.LoadModel
