import Verif.Updater.Model
import Mathlib.Data.List.Forall2
import Mathlib.Data.List.Nodup
/-!
C75: the optimizer state is restored by the names of the parameters.
-/

namespace Verif.Updater
open Verif.Py

/-! ### Specification -/

/-- The parameter named `n` is in the optimizer and has the state `s`. -/
def HasState {G S : Type} (o : Opt G S) (net : Net) (n : String) (s : S) : Prop := ∃ p ∈ o.params, net.names.get? p = some n ∧ o.state.get? p = some s

/-- The parameter named `n` is in the group `i`. -/
def InGroup {G S : Type} (o : Opt G S) (net : Net) (i : Nat) (n : String) : Prop := ∃ g, o.groups[i]? = some g ∧ ∃ p ∈ g.2, net.names.get? p = some n

/-- The parameter named `n` is trainable. -/
def Trainable (net : Net) (n : String) : Prop := ∃ p, net.names.get? p = some n ∧ net.requiresGrad p = true

/-- A regular optimizer of a network: no parameter twice, all are parameters of the network, whose names are distinct, and the state is about its parameters. -/
structure Ok {G S : Type} (o : Opt G S) (net : Net) : Prop where
  nodup : o.params.Nodup
  named : ∀ p ∈ o.params, ∃ n, net.names.get? p = some n
  netWf : net.names.Wf
  inj : ∀ p q n, net.names.get? p = some n → net.names.get? q = some n → p = q
  stateWf : o.state.Wf
  stateOf : ∀ p ∈ o.state.keys, p ∈ o.params

/-! ### Lists and dicts -/

theorem mapM_forall₂ {α β : Type} {f : α → Res β} : ∀ {l : List α} {r : List β}, l.mapM f = .ok r → List.Forall₂ (fun a b => f a = .ok b) l r
  | [], r, h => by
    simp only [List.mapM_nil, pure, Except.pure, Except.ok.injEq] at h
    subst h; exact .nil
  | a :: l, r, h => by
    rw [List.mapM_cons] at h
    cases ha : f a with
    | error e => simp [ha, bind, Except.bind] at h
    | ok b =>
      cases hl : l.mapM f with
      | error e => simp [ha, hl, bind, Except.bind] at h
      | ok bs =>
        simp only [ha, hl, bind, Except.bind, pure, Except.pure, Except.ok.injEq] at h
        subst h
        exact .cons ha (mapM_forall₂ hl)

theorem mapM_of_forall₂ {α β : Type} {f : α → Res β} {l : List α} {r : List β} (h : List.Forall₂ (fun a b => f a = .ok b) l r) : l.mapM f = .ok r := by
  induction h with
  | nil => rfl
  | cons h1 _ ih => rw [List.mapM_cons, h1, ih]; rfl

theorem mapM_total {α β : Type} {f : α → Res β} : ∀ {l : List α}, (∀ a ∈ l, ∃ b, f a = .ok b) → ∃ r, l.mapM f = .ok r
  | [], _ => ⟨[], rfl⟩
  | a :: l, h => by
    obtain ⟨b, hb⟩ := h a List.mem_cons_self
    obtain ⟨r, hr⟩ := mapM_total (l := l) (fun x hx => h x (List.mem_cons_of_mem _ hx))
    exact ⟨b :: r, by rw [List.mapM_cons, hb, hr]; rfl⟩

theorem forall₂_get {α β : Type} {R : α → β → Prop} {l : List α} {r : List β} (h : List.Forall₂ R l r) : ∀ (i : Nat) (a : α), l[i]? = some a → ∃ b, r[i]? = some b ∧ R a b := by
  induction h with
  | nil => intro i a h; simp at h
  | cons h1 _ ih =>
    intro i a ha
    cases i with
    | zero => simp only [List.getElem?_cons_zero, Option.some.injEq] at ha ⊢; subst ha; exact ⟨_, rfl, h1⟩
    | succ i => simp only [List.getElem?_cons_succ] at ha ⊢; exact ih i a ha

theorem forall₂_get' {α β : Type} {R : α → β → Prop} {l : List α} {r : List β} (h : List.Forall₂ R l r) : ∀ (i : Nat) (b : β), r[i]? = some b → ∃ a, l[i]? = some a ∧ R a b := by
  intro i b hb
  exact forall₂_get h.flip i b hb

theorem getItem_ok {K V : Type} [DecidableEq K] {d : Dict K V} {k : K} {v : V} : d.getItem k = .ok v ↔ d.get? k = some v := by
  unfold Dict.getItem
  cases d.get? k <;> simp

theorem foldl_set {K V : Type} [DecidableEq K] : ∀ (l : List (K × V)) (d : Dict K V), (l.map Prod.fst).Nodup → (∀ k ∈ l.map Prod.fst, k ∉ d.keys) →
    l.foldl (fun d e => d.set e.1 e.2) d = d ++ l
  | [], d, _, _ => by simp
  | e :: l, d, h, hd => by
    have he : ∀ (d : Dict K V), e.1 ∉ d.keys → d.set e.1 e.2 = d ++ [e] := by
      intro d
      induction d with
      | nil => intro _; rfl
      | cons x d ih =>
        intro hx
        obtain ⟨k, v⟩ := x
        have h1 : k ≠ e.1 := by intro hk; exact hx (by simp [Dict.keys, hk])
        have h2 : e.1 ∉ Dict.keys d := by intro hk; exact hx (by simp only [Dict.keys, List.map_cons]; exact List.mem_cons_of_mem _ hk)
        unfold Dict.set
        rw [if_neg h1, ih h2]; rfl
    rw [List.foldl_cons, he d (hd _ (by simp)), foldl_set l]
    · simp
    · exact (List.nodup_cons.1 h).2
    · intro k hk hk2
      unfold Dict.keys at hk2
      rw [List.map_append, List.mem_append] at hk2
      rcases hk2 with hk2 | hk2
      · exact hd k (by rw [List.map_cons]; exact List.mem_cons_of_mem _ hk) hk2
      · simp only [List.map_cons, List.map_nil, List.mem_singleton] at hk2
        subst hk2
        exact (List.nodup_cons.1 h).1 hk

theorem mkDict_eq {K V : Type} [DecidableEq K] {l : List (K × V)} (h : (l.map Prod.fst).Nodup) : mkDict l = l := by
  unfold mkDict
  rw [foldl_set l [] h (by intro k _ hk; simp [Dict.keys] at hk)]; rfl

theorem get?_iff {K V : Type} [DecidableEq K] {d : Dict K V} (h : d.Wf) (k : K) (v : V) : d.get? k = some v ↔ (k, v) ∈ d :=
  ⟨Dict.mem_of_get?, Dict.get?_of_mem h⟩

theorem indexDict_get {N : List String} (h : N.Nodup) (n : String) (j : Nat) : (indexDict N).get? n = some j ↔ N[j]? = some n := by
  have hk : (N.zipIdx.map Prod.fst).Nodup := by rw [List.zipIdx_map_fst]; exact h
  unfold indexDict
  rw [mkDict_eq hk, get?_iff hk, List.mem_zipIdx_iff_getElem?]

theorem nodup_get {α : Type} {l : List α} (h : l.Nodup) {i j : Nat} {a : α} (hi : l[i]? = some a) (hj : l[j]? = some a) : i = j := by
  have hi' := (List.getElem?_eq_some_iff.1 hi)
  have hj' := (List.getElem?_eq_some_iff.1 hj)
  obtain ⟨h1, e1⟩ := hi'
  obtain ⟨h2, e2⟩ := hj'
  exact (List.Nodup.getElem_inj_iff h).1 (e1.trans e2.symm)

theorem idxOf_eq_iff {l : List Nat} (h : l.Nodup) {p : Nat} (hp : p ∈ l) (i : Nat) : l.idxOf p = i ↔ l[i]? = some p := by
  have h0 : l[l.idxOf p]? = some p := by
    rw [List.getElem?_eq_some_iff]
    exact ⟨List.idxOf_lt_length_of_mem hp, List.getElem_idxOf _⟩
  constructor
  · rintro rfl; exact h0
  · intro hi; exact nodup_get h h0 hi

/-! ### Names -/

/-- The names of the parameters of a regular optimizer. -/
theorem optNames_ok {G S : Type} {o : Opt G S} {net : Net} (h : Ok o net) :
    ∃ N, optNames o net = .ok N ∧ N.Nodup ∧ List.Forall₂ (fun p n => net.names.get? p = some n) o.params N := by
  obtain ⟨N, hN⟩ := mapM_total (f := net.names.getItem) (l := o.params) (fun p hp => by
    obtain ⟨n, hn⟩ := h.named p hp
    exact ⟨n, getItem_ok.2 hn⟩)
  have hf : List.Forall₂ (fun p n => net.names.get? p = some n) o.params N := (mapM_forall₂ hN).imp (fun _ _ h => getItem_ok.1 h)
  refine ⟨N, hN, ?_, hf⟩
  rw [List.nodup_iff_getElem?_ne_getElem?]
  intro i j hij hj e
  have h1 : N[i]? = some (N[i]'(by omega)) := List.getElem?_eq_getElem _
  obtain ⟨p, hp, hpn⟩ := forall₂_get' hf i _ h1
  obtain ⟨q, hq, hqn⟩ := forall₂_get' hf j _ (e ▸ h1)
  have := h.inj p q _ hpn hqn
  subst this
  have := nodup_get h.nodup hp hq
  omega

theorem stateDict_groups {G S : Type} (o : Opt G S) (h : o.params.Nodup) : (stateDict o).1.flatMap Prod.snd = List.range o.params.length := by
  have e : (stateDict o).1.flatMap Prod.snd = o.params.map (fun p => o.params.idxOf p) := by
    unfold stateDict
    simp only []
    rw [List.flatMap_map]
    generalize o.params.idxOf = f
    unfold Opt.params
    rw [List.map_flatMap]
  rw [e]
  apply List.ext_getElem?
  intro i
  rw [List.getElem?_map]
  by_cases hi : i < o.params.length
  · have hp : o.params[i]? = some o.params[i] := List.getElem?_eq_getElem hi
    rw [hp, Option.map_some, (idxOf_eq_iff h (List.mem_of_getElem? hp) i).2 hp, List.getElem?_range hi]
  · rw [List.getElem?_eq_none (by omega), List.getElem?_eq_none (by simpa using hi)]; rfl

/-- The state in the file, by position. -/
theorem mem_stateDict {G S : Type} {o : Opt G S} {net : Net} (h : Ok o net) {N : List String} (hf : List.Forall₂ (fun p n => net.names.get? p = some n) o.params N) (n : String) (s : S) :
    HasState o net n s ↔ ∃ i, N[i]? = some n ∧ (i, s) ∈ (stateDict o).2 := by
  unfold HasState stateDict
  simp only [List.mem_map, Prod.mk.injEq, Prod.exists]
  constructor
  · rintro ⟨p, hp, hn, hs⟩
    have h1 := (idxOf_eq_iff h.nodup hp _).1 rfl
    obtain ⟨n', h2, h3⟩ := forall₂_get hf _ _ h1
    rw [hn, Option.some.injEq] at h3
    subst h3
    exact ⟨_, h2, p, s, Dict.mem_of_get? hs, rfl, rfl⟩
  · rintro ⟨i, hi, p, s', hm, e1, e2⟩
    subst e2
    have hp : p ∈ o.params := h.stateOf p (List.mem_map.2 ⟨_, hm, rfl⟩)
    have h1 := (idxOf_eq_iff h.nodup hp _).1 e1
    obtain ⟨q, hq, hqn⟩ := forall₂_get' hf i _ hi
    rw [h1, Option.some.injEq] at hq
    subst hq
    exact ⟨p, hp, hqn, Dict.get?_of_mem h.stateWf hm⟩

theorem stateDict_wf {G S : Type} {o : Opt G S} {net : Net} (h : Ok o net) : (stateDict o).2.Wf := by
  unfold stateDict Dict.Wf Dict.keys
  simp only [List.map_map]
  have : (o.state.map (Prod.fst ∘ fun e => (List.idxOf e.1 o.params, e.2))) = o.state.keys.map (fun p => o.params.idxOf p) := by
    unfold Dict.keys; rw [List.map_map]; rfl
  rw [this]
  refine List.Nodup.map_on ?_ h.stateWf
  intro p hp q hq e
  have h1 := (idxOf_eq_iff h.nodup (h.stateOf p hp) _).1 e
  have h2 := (idxOf_eq_iff h.nodup (h.stateOf q hq) _).1 rfl
  rw [h1, Option.some.injEq] at h2
  exact h2

/-- `load_state_dict` with all positions in order. -/
theorem loadStateDict_ok {G S : Type} {o : Opt G S} {net : Net} (h : Ok o net) {N : List String} (hf : List.Forall₂ (fun p n => net.names.get? p = some n) o.params N)
    {groups : List (G × List Nat)} {state : Dict Nat S} (hg : groups.flatMap Prod.snd = List.range o.params.length) (hs : state.Wf) {o3 : Opt G S}
    (hl : loadStateDict o groups state = .ok o3) :
    o3.groups.map Prod.fst = groups.map Prod.fst ∧ o3.groups.map Prod.snd = o.groups.map Prod.snd ∧ o.groups.map (fun g => g.2.length) = groups.map (fun g => g.2.length) ∧
      Ok o3 net ∧ ∀ n s, HasState o3 net n s ↔ ∃ i, N[i]? = some n ∧ (i, s) ∈ state := by
  unfold loadStateDict at hl
  split at hl
  · cases hl
  rename_i h1
  split at hl
  · cases hl
  rename_i h2
  have h1 : o.groups.length = groups.length := not_not.1 h1
  have h2 := not_not.1 h2
  simp only [Except.ok.injEq] at hl
  have hz : ((List.range o.params.length).zip o.params).map Prod.fst = List.range o.params.length := by
    rw [List.map_fst_zip (by simp)]
  have hget : ∀ i p, (mkDict ((List.range o.params.length).zip o.params)).get? i = some p ↔ o.params[i]? = some p := by
    intro i p
    have hn : (((List.range o.params.length).zip o.params).map Prod.fst).Nodup := by rw [hz]; exact List.nodup_range
    rw [mkDict_eq hn, get?_iff hn, List.mem_iff_getElem?]
    constructor
    · rintro ⟨j, hj⟩
      obtain ⟨ha, hb⟩ := List.getElem?_zip_eq_some.1 hj
      have hj' : j < o.params.length := (List.getElem?_eq_some_iff.1 hb).1
      rw [List.getElem?_range hj', Option.some.injEq] at ha
      subst ha; exact hb
    · intro hp
      have hi : i < o.params.length := (List.getElem?_eq_some_iff.1 hp).1
      exact ⟨i, List.getElem?_zip_eq_some.2 ⟨List.getElem?_range hi, hp⟩⟩
  have hmem : ∀ p s, (p, s) ∈ stateEntries (mkDict ((List.range o.params.length).zip o.params)) state ↔ ∃ i, o.params[i]? = some p ∧ (i, s) ∈ state := by
    intro p s
    unfold stateEntries
    rw [List.mem_filterMap]
    constructor
    · rintro ⟨⟨i, s'⟩, hm, he⟩
      simp only [Option.map_eq_some_iff, Prod.mk.injEq] at he
      obtain ⟨q, hq, rfl, rfl⟩ := he
      exact ⟨i, (hget i q).1 hq, hm⟩
    · rintro ⟨i, hi, hm⟩
      exact ⟨(i, s), hm, by simp [(hget i p).2 hi]⟩
  have hwf : ((stateEntries (mkDict ((List.range o.params.length).zip o.params)) state).map Prod.fst).Nodup := by
    generalize hD : mkDict ((List.range o.params.length).zip o.params) = D at hget
    have : ∀ st : Dict Nat S, st.Wf → ((stateEntries D st).map Prod.fst).Nodup := by
      intro st
      induction st with
      | nil => intro _; exact List.nodup_nil
      | cons e st ih =>
        intro hw
        have hw' : e.1 ∉ Dict.keys st ∧ Dict.Wf st := List.nodup_cons.1 hw
        unfold stateEntries at ih ⊢
        rw [List.filterMap_cons]
        cases hq : D.get? e.1 with
        | none => exact ih hw'.2
        | some q =>
          simp only [Option.map_some, List.map_cons, List.nodup_cons]
          refine ⟨?_, ih hw'.2⟩
          intro hc
          obtain ⟨⟨q', s'⟩, hc1, hc2⟩ := List.mem_map.1 hc
          simp only at hc2
          subst hc2
          obtain ⟨⟨i, s''⟩, hm, he⟩ := List.mem_filterMap.1 hc1
          simp only [Option.map_eq_some_iff, Prod.mk.injEq] at he
          obtain ⟨q2, hq2, rfl, _⟩ := he
          have := nodup_get h.nodup ((hget _ _).1 hq) ((hget _ _).1 hq2)
          exact hw'.1 (this ▸ List.mem_map.2 ⟨_, hm, rfl⟩)
    exact this state hs
  have hsnd : ∀ (a b : List (G × List Nat)), a.length = b.length → (List.zipWith (fun g c => ((c.1, g.2) : G × List Nat)) a b).map Prod.fst = b.map Prod.fst ∧
      (List.zipWith (fun g c => ((c.1, g.2) : G × List Nat)) a b).map Prod.snd = a.map Prod.snd := by
    intro a
    induction a with
    | nil => intro b hb; cases b with
      | nil => simp
      | cons _ _ => simp at hb
    | cons x a ih => intro b hb; cases b with
      | nil => simp at hb
      | cons y b =>
        obtain ⟨i1, i2⟩ := ih b (by simpa using hb)
        simp only [List.zipWith_cons_cons, List.map_cons, i1, i2, and_self]
  obtain ⟨g1, g2⟩ := hsnd o.groups groups h1
  have hparams : o3.params = o.params := by
    rw [← hl]
    unfold Opt.params
    simp only [List.flatMap_def]
    rw [g2]
  rw [hg] at hl
  rw [mkDict_eq hwf] at hl
  have hst : o3.state = stateEntries (mkDict ((List.range o.params.length).zip o.params)) state := by rw [← hl]
  have hw3 : o3.state.Wf := by rw [hst]; exact hwf
  refine ⟨by rw [← hl]; exact g1, by rw [← hl]; exact g2, h2, ⟨hparams ▸ h.nodup, hparams ▸ h.named, h.netWf, h.inj, hw3, ?_⟩, ?_⟩
  · intro p hp
    obtain ⟨⟨p', s⟩, hm, rfl⟩ := List.mem_map.1 hp
    rw [hst, hmem] at hm
    obtain ⟨i, hi, _⟩ := hm
    rw [hparams]
    exact List.mem_of_getElem? hi
  · intro n s
    unfold HasState
    rw [hparams]
    constructor
    · rintro ⟨p, _, hn, hs'⟩
      rw [get?_iff hw3, hst, hmem] at hs'
      obtain ⟨i, hi, hm⟩ := hs'
      obtain ⟨n', hn', he⟩ := forall₂_get hf i p hi
      rw [hn, Option.some.injEq] at he
      subst he
      exact ⟨i, hn', hm⟩
    · rintro ⟨i, hi, hm⟩
      obtain ⟨p, hp, hn⟩ := forall₂_get' hf i n hi
      exact ⟨p, List.mem_of_getElem? hp, hn, by rw [get?_iff hw3, hst, hmem]; exact ⟨i, hp, hm⟩⟩

/-! ### The theorems -/

theorem save_ok {G S : Type} {o : Opt G S} {net : Net} (h : Ok o net) {ck : Ckpt G S} (hs : save o net = .ok ck) :
    ∃ N, optNames o net = .ok N ∧ N.Nodup ∧ List.Forall₂ (fun p n => net.names.get? p = some n) o.params N ∧
      ck = { names := some N, groups := (stateDict o).1, state := (stateDict o).2 } := by
  obtain ⟨N, hN, hnd, hf⟩ := optNames_ok h
  unfold save at hs
  simp only [hN, bind, Except.bind, pure, Except.pure, Except.ok.injEq] at hs
  exact ⟨N, hN, hnd, hf, hs.symm⟩

theorem requiresGradName_iff {net : Net} (hw : net.names.Wf) (hinj : ∀ p q n, net.names.get? p = some n → net.names.get? q = some n → p = q) (n : String) :
    requiresGradName net n = true ↔ Trainable net n := by
  unfold requiresGradName Trainable
  cases hf : net.names.find? (fun e => e.2 == n) with
  | none =>
    rw [List.find?_eq_none] at hf
    simp only [Bool.false_eq_true, false_iff]
    rintro ⟨p, hp, _⟩
    exact hf _ (Dict.mem_of_get? hp) (by simp)
  | some e =>
    have h1 := List.mem_of_find?_eq_some hf
    have h2 : e.2 = n := by simpa using List.find?_some hf
    have h3 : net.names.get? e.1 = some n := by rw [get?_iff hw, ← h2]; exact h1
    simp only []
    constructor
    · intro h; exact ⟨e.1, h3, h⟩
    · rintro ⟨p, hp, hr⟩
      rw [hinj e.1 p n h3 hp]; exact hr

/-- Names of a group. -/
theorem group_names {G S : Type} {o : Opt G S} {net : Net} (h : Ok o net) {g : G × List Nat} (hg : g ∈ o.groups) :
    ∃ L, g.2.mapM net.names.getItem = .ok L ∧ List.Forall₂ (fun p n => net.names.get? p = some n) g.2 L := by
  obtain ⟨L, hL⟩ := mapM_total (f := net.names.getItem) (l := g.2) (fun p hp => by
    obtain ⟨n, hn⟩ := h.named p (List.mem_flatMap.2 ⟨g, hg, hp⟩)
    exact ⟨n, getItem_ok.2 hn⟩)
  exact ⟨L, hL, (mapM_forall₂ hL).imp (fun _ _ h => getItem_ok.1 h)⟩

theorem mem_forall₂ {α β : Type} {R : α → β → Prop} {l : List α} {r : List β} (h : List.Forall₂ R l r) {b : β} (hb : b ∈ r) : ∃ a ∈ l, R a b := by
  obtain ⟨i, hi⟩ := List.mem_iff_getElem?.1 hb
  obtain ⟨a, ha, hr⟩ := forall₂_get' h i b hi
  exact ⟨a, List.mem_of_getElem? ha, hr⟩

theorem mem_forall₂' {α β : Type} {R : α → β → Prop} {l : List α} {r : List β} (h : List.Forall₂ R l r) {a : α} (ha : a ∈ l) : ∃ b ∈ r, R a b := by
  obtain ⟨i, hi⟩ := List.mem_iff_getElem?.1 ha
  obtain ⟨b, hb, hr⟩ := forall₂_get h i a hi
  exact ⟨b, List.mem_of_getElem? hb, hr⟩

/-- What a remapped group is: it exists exactly if the trainable parameters are the same ones. -/
theorem remapGroup_iff {G S : Type} {o1 o2 : Opt G S} {net1 net2 : Net} (h1 : Ok o1 net1) (h2 : Ok o2 net2) {N1 N2 : List String}
    (f1 : List.Forall₂ (fun p n => net1.names.get? p = some n) o1.params N1) (f2 : List.Forall₂ (fun p n => net2.names.get? p = some n) o2.params N2) (hn2 : N2.Nodup)
    {g1 g2 : G × List Nat} (hg1 : g1 ∈ o1.groups) (hg2 : g2 ∈ o2.groups) :
    ((∀ n ∈ N2, Trainable net2 n → ((∃ p ∈ g1.2, net1.names.get? p = some n) ↔ ∃ p ∈ g2.2, net2.names.get? p = some n)) ∧
      remapGroup net2 N2 N1 (g1.1, g1.2.map (fun p => o1.params.idxOf p)) g2 = .ok (g1.1, g2.2.map (fun p => o2.params.idxOf p))) ∨
    (¬ (∀ n ∈ N2, Trainable net2 n → ((∃ p ∈ g1.2, net1.names.get? p = some n) ↔ ∃ p ∈ g2.2, net2.names.get? p = some n)) ∧
      remapGroup net2 N2 N1 (g1.1, g1.2.map (fun p => o1.params.idxOf p)) g2 = .error .valueError) := by
  obtain ⟨L1, e1, k1⟩ := group_names h1 hg1
  obtain ⟨L2, e2, k2⟩ := group_names h2 hg2
  have hmem : ∀ {p g}, g ∈ o1.groups → p ∈ g.2 → p ∈ o1.params := fun hg hp => List.mem_flatMap.2 ⟨_, hg, hp⟩
  have hmem2 : ∀ {p g}, g ∈ o2.groups → p ∈ g.2 → p ∈ o2.params := fun hg hp => List.mem_flatMap.2 ⟨_, hg, hp⟩
  have hc : (g1.2.map (fun p => o1.params.idxOf p)).mapM (getItem N1) = .ok L1 := by
    apply mapM_of_forall₂
    rw [List.forall₂_map_left_iff]
    refine List.Forall₂.imp ?_ (List.forall₂_and_left (p := fun p => p ∈ g1.2) g1.2 L1 |>.2 ⟨fun p hp => hp, k1⟩)
    rintro p n ⟨hp, hn⟩
    have hx := (idxOf_eq_iff h1.nodup (hmem hg1 hp) _).1 rfl
    obtain ⟨n', hn', hr⟩ := forall₂_get f1 _ _ hx
    rw [hn, Option.some.injEq] at hr
    subst hr
    unfold getItem
    rw [hn']
  have hi : L2.mapM (indexDict N2).getItem = .ok (g2.2.map (fun p => o2.params.idxOf p)) := by
    apply mapM_of_forall₂
    rw [List.forall₂_map_right_iff]
    refine List.Forall₂.flip ?_
    refine List.Forall₂.imp ?_ (List.forall₂_and_left (p := fun p => p ∈ g2.2) g2.2 L2 |>.2 ⟨fun p hp => hp, k2⟩)
    rintro p n ⟨hp, hn⟩
    have hx := (idxOf_eq_iff h2.nodup (hmem2 hg2 hp) _).1 rfl
    obtain ⟨n', hn', hr⟩ := forall₂_get f2 _ _ hx
    rw [hn, Option.some.injEq] at hr
    subst hr
    exact getItem_ok.2 ((indexDict_get hn2 _ _).2 hn')
  have m1 : ∀ n, n ∈ L1 ↔ ∃ p ∈ g1.2, net1.names.get? p = some n := by
    intro n
    constructor
    · intro h; exact mem_forall₂ k1 h
    · rintro ⟨p, hp, hn⟩
      obtain ⟨n', h', hr⟩ := mem_forall₂' k1 hp
      rw [hn, Option.some.injEq] at hr; subst hr; exact h'
  have m2 : ∀ n, n ∈ L2 ↔ ∃ p ∈ g2.2, net2.names.get? p = some n := by
    intro n
    constructor
    · intro h; exact mem_forall₂ k2 h
    · rintro ⟨p, hp, hn⟩
      obtain ⟨n', h', hr⟩ := mem_forall₂' k2 hp
      rw [hn, Option.some.injEq] at hr; subst hr; exact h'
  have hcond : ((critical net2 N2).all (fun n => decide (n ∈ L1) == decide (n ∈ L2)) = true) ↔
      (∀ n ∈ N2, Trainable net2 n → ((∃ p ∈ g1.2, net1.names.get? p = some n) ↔ ∃ p ∈ g2.2, net2.names.get? p = some n)) := by
    rw [List.all_eq_true]
    unfold critical
    constructor
    · intro h n hn ht
      have := h n (List.mem_filter.2 ⟨hn, (requiresGradName_iff h2.netWf h2.inj n).2 ht⟩)
      rw [beq_iff_eq, decide_eq_decide] at this
      rw [← m1, ← m2]; exact this
    · intro h n hn
      obtain ⟨ha, hb⟩ := List.mem_filter.1 hn
      rw [beq_iff_eq, decide_eq_decide, m1, m2]
      exact h n ha ((requiresGradName_iff h2.netWf h2.inj n).1 hb)
  unfold remapGroup
  simp only [e2, hc, bind, Except.bind]
  by_cases hcc : (critical net2 N2).all (fun n => decide (n ∈ L1) == decide (n ∈ L2)) = true
  · left
    refine ⟨hcond.1 hcc, ?_⟩
    rw [if_pos hcc, hi]
    rfl
  · right
    refine ⟨fun h => hcc (hcond.2 h), ?_⟩
    rw [if_neg hcc]

/-- The groups in the file, remapped: exactly if in all pairs of groups the trainable parameters are the same ones. -/
theorem remapGroups_iff {G S : Type} {o1 o2 : Opt G S} {net1 net2 : Net} (h1 : Ok o1 net1) (h2 : Ok o2 net2) {N1 N2 : List String}
    (f1 : List.Forall₂ (fun p n => net1.names.get? p = some n) o1.params N1) (f2 : List.Forall₂ (fun p n => net2.names.get? p = some n) o2.params N2) (hn2 : N2.Nodup) :
    ∀ (l1 l2 : List (G × List Nat)), (∀ g ∈ l1, g ∈ o1.groups) → (∀ g ∈ l2, g ∈ o2.groups) → l1.length = l2.length →
    ((∀ (i : Nat) (g1 g2 : G × List Nat), l1[i]? = some g1 → l2[i]? = some g2 → ∀ n ∈ N2, Trainable net2 n → ((∃ p ∈ g1.2, net1.names.get? p = some n) ↔ ∃ p ∈ g2.2, net2.names.get? p = some n)) ∧
      ((l1.map (fun g => (g.1, g.2.map (fun p => o1.params.idxOf p)))).zip l2).mapM (fun p => remapGroup net2 N2 N1 p.1 p.2) =
        .ok (List.zipWith (fun g1 g2 => (g1.1, g2.2.map (fun p => o2.params.idxOf p))) l1 l2)) ∨
    (¬ (∀ (i : Nat) (g1 g2 : G × List Nat), l1[i]? = some g1 → l2[i]? = some g2 → ∀ n ∈ N2, Trainable net2 n → ((∃ p ∈ g1.2, net1.names.get? p = some n) ↔ ∃ p ∈ g2.2, net2.names.get? p = some n)) ∧
      ((l1.map (fun g => (g.1, g.2.map (fun p => o1.params.idxOf p)))).zip l2).mapM (fun p => remapGroup net2 N2 N1 p.1 p.2) = .error .valueError) := by
  intro l1
  induction l1 with
  | nil =>
    intro l2 _ _ hl
    cases l2 with
    | nil => left; exact ⟨by intro i g1 g2 h; simp at h, rfl⟩
    | cons _ _ => simp at hl
  | cons a l1 ih =>
    intro l2 m1 m2 hl
    cases l2 with
    | nil => simp at hl
    | cons b l2 =>
      simp only [List.map_cons, List.zip_cons_cons, List.mapM_cons, List.zipWith_cons_cons]
      rcases remapGroup_iff h1 h2 f1 f2 hn2 (m1 a List.mem_cons_self) (m2 b List.mem_cons_self) with ⟨c, e⟩ | ⟨c, e⟩
      · rw [e]
        rcases ih l2 (fun g hg => m1 g (List.mem_cons_of_mem _ hg)) (fun g hg => m2 g (List.mem_cons_of_mem _ hg)) (by simpa using hl) with ⟨c', e'⟩ | ⟨c', e'⟩
        · left
          refine ⟨?_, by rw [e']; rfl⟩
          intro i g1 g2 hg1 hg2
          cases i with
          | zero =>
            simp only [List.getElem?_cons_zero, Option.some.injEq] at hg1 hg2
            subst hg1; subst hg2; exact c
          | succ i => exact c' i g1 g2 (by simpa using hg1) (by simpa using hg2)
        · right
          refine ⟨fun h => c' (fun i g1 g2 hg1 hg2 => h (i + 1) g1 g2 (by simpa using hg1) (by simpa using hg2)), by rw [e']; rfl⟩
      · right
        exact ⟨fun h => c (h 0 a b (by simp) (by simp)), by rw [e]; rfl⟩

/-- The state in the file, remapped. -/
theorem mem_remapState {S : Type} {N1 N2 : List String} (hn1 : N1.Nodup) (hn2 : N2.Nodup) {state : Dict Nat S} (hs : state.Wf) :
    (remapState N2 N1 state).Wf ∧ ∀ j s, (j, s) ∈ remapState N2 N1 state ↔ ∃ i n, N1[i]? = some n ∧ N2[j]? = some n ∧ (i, s) ∈ state := by
  have hmem : ∀ (st : Dict Nat S) j s, (j, s) ∈ st.filterMap (fun e => (N1[e.1]?).bind (fun n => ((indexDict N2).get? n).map (fun j => (j, e.2)))) ↔
      ∃ i n, N1[i]? = some n ∧ N2[j]? = some n ∧ (i, s) ∈ st := by
    intro st j s
    rw [List.mem_filterMap]
    constructor
    · rintro ⟨⟨i, s'⟩, hm, he⟩
      simp only [Option.bind_eq_some_iff, Option.map_eq_some_iff, Prod.mk.injEq] at he
      obtain ⟨n, hn, j', hj, rfl, rfl⟩ := he
      exact ⟨i, n, hn, (indexDict_get hn2 _ _).1 hj, hm⟩
    · rintro ⟨i, n, hi, hj, hm⟩
      refine ⟨(i, s), hm, ?_⟩
      simp only [hi, Option.bind_some, (indexDict_get hn2 _ _).2 hj, Option.map_some]
  have hnd : ∀ st : Dict Nat S, st.Wf → ((st.filterMap (fun e => (N1[e.1]?).bind (fun n => ((indexDict N2).get? n).map (fun j => (j, e.2))))).map Prod.fst).Nodup := by
    intro st
    induction st with
    | nil => intro _; exact List.nodup_nil
    | cons e st ih =>
      intro hw
      have hw' : e.1 ∉ Dict.keys st ∧ Dict.Wf st := List.nodup_cons.1 hw
      rw [List.filterMap_cons]
      cases hq : (N1[e.1]?).bind (fun n => ((indexDict N2).get? n).map (fun j => (j, e.2))) with
      | none => exact ih hw'.2
      | some q =>
        simp only [List.map_cons, List.nodup_cons]
        refine ⟨?_, ih hw'.2⟩
        intro hc
        obtain ⟨⟨q', s'⟩, hc1, hc2⟩ := List.mem_map.1 hc
        simp only at hc2
        subst hc2
        obtain ⟨i, n, hi, hj, hm⟩ := (hmem st _ _).1 hc1
        simp only [Option.bind_eq_some_iff, Option.map_eq_some_iff] at hq
        obtain ⟨n', hn', j', hj', rfl⟩ := hq
        have hj2 := (indexDict_get hn2 _ _).1 hj'
        simp only at hj
        rw [hj, Option.some.injEq] at hj2
        subst hj2
        have := nodup_get hn1 hi hn'
        exact hw'.1 (this ▸ List.mem_map.2 ⟨_, hm, rfl⟩)
  unfold remapState
  rw [mkDict_eq (hnd state hs)]
  exact ⟨hnd state hs, hmem state⟩

theorem zipWith_groups {G : Type} (f : Nat → Nat) : ∀ (l1 l2 : List (G × List Nat)), l1.length = l2.length →
    (List.zipWith (fun g1 g2 => ((g1.1, g2.2.map f) : G × List Nat)) l1 l2).flatMap Prod.snd = (l2.flatMap Prod.snd).map f ∧
    (List.zipWith (fun g1 g2 => ((g1.1, g2.2.map f) : G × List Nat)) l1 l2).map Prod.fst = l1.map Prod.fst ∧
    (List.zipWith (fun g1 g2 => ((g1.1, g2.2.map f) : G × List Nat)) l1 l2).map (fun g => g.2.length) = l2.map (fun g => g.2.length) ∧
    (List.zipWith (fun g1 g2 => ((g1.1, g2.2.map f) : G × List Nat)) l1 l2).length = l2.length
  | [], [], _ => ⟨rfl, rfl, rfl, rfl⟩
  | [], _ :: _, h => by simp at h
  | _ :: _, [], h => by simp at h
  | a :: l1, b :: l2, h => by
    obtain ⟨h1, h2, h3, h4⟩ := zipWith_groups f l1 l2 (by simpa using h)
    simp only [List.zipWith_cons_cons, List.flatMap_cons, List.map_cons, List.map_append, h1, h2, h3, h4, List.length_cons, List.length_map, and_self]

theorem idxOf_range {l : List Nat} (h : l.Nodup) : l.map (fun p => l.idxOf p) = List.range l.length := by
  apply List.ext_getElem?
  intro i
  rw [List.getElem?_map]
  by_cases hi : i < l.length
  · have hp : l[i]? = some l[i] := List.getElem?_eq_getElem hi
    rw [hp, Option.map_some, (idxOf_eq_iff h (List.mem_of_getElem? hp) i).2 hp, List.getElem?_range hi]
  · rw [List.getElem?_eq_none (by omega), List.getElem?_eq_none (by simpa using hi)]; rfl

/-- The trainable parameters of the optimizer `o2` are those of `o1` with these names, group by group. -/
def SameTrainable {G S : Type} (o1 o2 : Opt G S) (net1 net2 : Net) : Prop :=
  ∀ n, Trainable net2 n → (∃ p ∈ o2.params, net2.names.get? p = some n) → (∃ p ∈ o1.params, net1.names.get? p = some n) ∧ ∀ i, InGroup o1 net1 i n ↔ InGroup o2 net2 i n

/-- The parameters of both are, by name, the same list. -/
def SameNames {G S : Type} (o1 o2 : Opt G S) (net1 net2 : Net) : Prop := List.Forall₂ (fun p q => net1.names.get? p = net2.names.get? q) o1.params o2.params

theorem sameNames_iff {G S : Type} {o1 o2 : Opt G S} {net1 net2 : Net} {N1 N2 : List String} (f1 : List.Forall₂ (fun p n => net1.names.get? p = some n) o1.params N1)
    (f2 : List.Forall₂ (fun p n => net2.names.get? p = some n) o2.params N2) : SameNames o1 o2 net1 net2 ↔ N2 = N1 := by
  unfold SameNames
  generalize o1.params = a at f1 ⊢
  generalize o2.params = b at f2 ⊢
  induction f1 generalizing b N2 with
  | nil =>
    cases f2 with
    | nil => simp
    | cons _ _ => simp
  | cons h _ ih =>
    cases f2 with
    | nil => simp
    | cons h' f2' =>
      rw [List.forall₂_cons, ih _ f2', h, h']
      simp only [Option.some.injEq, List.cons.injEq]
      constructor
      · rintro ⟨e1, e2⟩; exact ⟨e1.symm, e2⟩
      · rintro ⟨e1, e2⟩; exact ⟨e1.symm, e2⟩

/-- The condition of the groups and of the missing parameters is the one of the specification. -/
theorem sameTrainable_iff {G S : Type} {o1 o2 : Opt G S} {net1 net2 : Net} {N1 N2 : List String} (hlen : o1.groups.length = o2.groups.length)
    (f1 : List.Forall₂ (fun p n => net1.names.get? p = some n) o1.params N1) (f2 : List.Forall₂ (fun p n => net2.names.get? p = some n) o2.params N2) :
    SameTrainable o1 o2 net1 net2 ↔ (∀ n ∈ N2, Trainable net2 n → n ∈ N1) ∧
      (∀ (i : Nat) (g1 g2 : G × List Nat), o1.groups[i]? = some g1 → o2.groups[i]? = some g2 → ∀ n ∈ N2, Trainable net2 n → ((∃ p ∈ g1.2, net1.names.get? p = some n) ↔ ∃ p ∈ g2.2, net2.names.get? p = some n)) := by
  have m1 : ∀ n, n ∈ N1 ↔ ∃ p ∈ o1.params, net1.names.get? p = some n := by
    intro n
    constructor
    · intro h; exact mem_forall₂ f1 h
    · rintro ⟨p, hp, hn⟩
      obtain ⟨n', h', hr⟩ := mem_forall₂' f1 hp
      rw [hn, Option.some.injEq] at hr; subst hr; exact h'
  have m2 : ∀ n, n ∈ N2 ↔ ∃ p ∈ o2.params, net2.names.get? p = some n := by
    intro n
    constructor
    · intro h; exact mem_forall₂ f2 h
    · rintro ⟨p, hp, hn⟩
      obtain ⟨n', h', hr⟩ := mem_forall₂' f2 hp
      rw [hn, Option.some.injEq] at hr; subst hr; exact h'
  unfold SameTrainable InGroup
  constructor
  · intro h
    refine ⟨fun n hn ht => (m1 n).2 (h n ht ((m2 n).1 hn)).1, ?_⟩
    intro i g1 g2 hg1 hg2 n hn ht
    have := (h n ht ((m2 n).1 hn)).2 i
    simpa only [hg1, hg2, Option.some.injEq, exists_eq_left'] using this
  · rintro ⟨ha, hb⟩ n ht hn
    refine ⟨(m1 n).1 (ha n ((m2 n).2 hn) ht), ?_⟩
    intro i
    by_cases hi : i < o1.groups.length
    · have e1 : o1.groups[i]? = some o1.groups[i] := List.getElem?_eq_getElem hi
      have e2 : o2.groups[i]? = some (o2.groups[i]'(by omega)) := List.getElem?_eq_getElem (by omega)
      have := hb i _ _ e1 e2 n ((m2 n).2 hn) ht
      simpa only [e1, e2, Option.some.injEq, exists_eq_left'] using this
    · have e1 : o1.groups[i]? = none := List.getElem?_eq_none (by omega)
      have e2 : o2.groups[i]? = none := List.getElem?_eq_none (by omega)
      simp [e1, e2]

theorem forall₂_append {α β : Type} {R : α → β → Prop} : ∀ {a b : List α} {c d : List β}, a.length = c.length → List.Forall₂ R (a ++ b) (c ++ d) → List.Forall₂ R a c ∧ List.Forall₂ R b d
  | [], b, [], d, _, h => ⟨.nil, h⟩
  | [], _, _ :: _, _, h, _ => by simp at h
  | _ :: _, _, [], _, h, _ => by simp at h
  | x :: a, b, y :: c, d, hl, h => by
    rw [List.cons_append, List.cons_append, List.forall₂_cons] at h
    obtain ⟨h1, h2⟩ := forall₂_append (by simpa using hl) h.2
    exact ⟨.cons h.1 h1, h2⟩

theorem forall₂_groups {G : Type} {R : Nat → Nat → Prop} : ∀ (l1 l2 : List (G × List Nat)), l2.map (fun g => g.2.length) = l1.map (fun g => g.2.length) →
    List.Forall₂ R (l1.flatMap Prod.snd) (l2.flatMap Prod.snd) → ∀ (i : Nat) (g1 g2 : G × List Nat), l1[i]? = some g1 → l2[i]? = some g2 → List.Forall₂ R g1.2 g2.2
  | [], _, _, _, i, g1, g2, h, _ => by simp at h
  | _ :: _, [], h, _, _, _, _, _, _ => by simp at h
  | a :: l1, b :: l2, hl, h, i, g1, g2, hg1, hg2 => by
    simp only [List.map_cons, List.cons.injEq] at hl
    rw [List.flatMap_cons, List.flatMap_cons] at h
    obtain ⟨h1, h2⟩ := forall₂_append hl.1.symm h
    cases i with
    | zero =>
      simp only [List.getElem?_cons_zero, Option.some.injEq] at hg1 hg2
      subst hg1; subst hg2; exact h1
    | succ i => exact forall₂_groups l1 l2 hl.2 h2 i g1 g2 (by simpa using hg1) (by simpa using hg2)

/-- All cases of `load` of a saved file. -/
theorem load_save_cases {G S : Type} {o1 o2 : Opt G S} {net1 net2 : Net} (h1 : Ok o1 net1) (h2 : Ok o2 net2) {ck : Ckpt G S} (hs : save o1 net1 = .ok ck) :
    (load o2 net2 ck = .error .valueError ∧ ¬ (o1.groups.length = o2.groups.length ∧ SameTrainable o1 o2 net1 net2 ∧
        (SameNames o1 o2 net1 net2 → o1.groups.map (fun g => g.2.length) = o2.groups.map (fun g => g.2.length)))) ∨
    (∃ o3, load o2 net2 ck = .ok o3 ∧ (o1.groups.length = o2.groups.length ∧ SameTrainable o1 o2 net1 net2 ∧
        (SameNames o1 o2 net1 net2 → o1.groups.map (fun g => g.2.length) = o2.groups.map (fun g => g.2.length))) ∧
      o3.groups.map Prod.fst = o1.groups.map Prod.fst ∧ o3.groups.map Prod.snd = o2.groups.map Prod.snd ∧ Ok o3 net2 ∧
      ∀ n s, HasState o3 net2 n s ↔ HasState o1 net1 n s ∧ ∃ p ∈ o2.params, net2.names.get? p = some n) := by
  obtain ⟨N1, e1, nd1, f1, rfl⟩ := save_ok h1 hs
  obtain ⟨N2, e2, nd2, f2⟩ := optNames_ok h2
  have hcl : (stateDict o1).1.map (fun g => g.2.length) = o1.groups.map (fun g => g.2.length) := by
    unfold stateDict; simp only [List.map_map, Function.comp_def, List.length_map]
  have hcl2 : (stateDict o1).1.length = o1.groups.length := by unfold stateDict; simp
  have hcf : (stateDict o1).1.map Prod.fst = o1.groups.map Prod.fst := by
    unfold stateDict; simp only [List.map_map, Function.comp_def]
  have m2 : ∀ n, n ∈ N2 ↔ ∃ p ∈ o2.params, net2.names.get? p = some n := by
    intro n
    constructor
    · intro h; exact mem_forall₂ f2 h
    · rintro ⟨p, hp, hn⟩
      obtain ⟨n', h', hr⟩ := mem_forall₂' f2 hp
      rw [hn, Option.some.injEq] at hr; subst hr; exact h'
  unfold load
  simp only []
  by_cases hlen : o2.groups.length = o1.groups.length
  swap
  · left
    rw [if_pos (by rw [hcl2]; exact hlen)]
    exact ⟨rfl, fun h => hlen h.1.symm⟩
  rw [if_neg (by rw [hcl2]; exact not_not.2 hlen)]
  simp only [e2, bind, Except.bind]
  by_cases hN : N2 = N1
  · rw [if_pos hN]
    by_cases hgl : o2.groups.map (fun g => g.2.length) = o1.groups.map (fun g => g.2.length)
    · right
      obtain ⟨o3, ho3⟩ : ∃ o3, loadStateDict o2 (stateDict o1).1 (stateDict o1).2 = .ok o3 := by
        unfold loadStateDict
        rw [if_neg (by rw [hcl2]; exact not_not.2 hlen), if_neg (by rw [hcl]; exact not_not.2 hgl)]
        exact ⟨_, rfl⟩
      have hpl : o1.params.length = o2.params.length := by rw [f1.length_eq, f2.length_eq, hN]
      obtain ⟨a1, a2, a3, a4, a5⟩ := loadStateDict_ok h2 f2 (by rw [stateDict_groups o1 h1.nodup, hpl]) (stateDict_wf h1) ho3
      refine ⟨o3, ho3, ⟨hlen.symm, ?_, fun _ => hgl.symm⟩, by rw [a1, hcf], a2, a4, ?_⟩
      · rw [sameTrainable_iff hlen.symm f1 f2]
        refine ⟨fun n hn _ => hN ▸ hn, ?_⟩
        intro i g1 g2 hg1 hg2 n _ _
        have hnames := forall₂_groups o1.groups o2.groups hgl ((sameNames_iff f1 f2).2 hN) i g1 g2 hg1 hg2
        constructor
        · rintro ⟨p, hp, hn⟩
          obtain ⟨q, hq, hr⟩ := mem_forall₂' hnames hp
          exact ⟨q, hq, hr ▸ hn⟩
        · rintro ⟨p, hp, hn⟩
          obtain ⟨q, hq, hr⟩ := mem_forall₂ hnames hp
          exact ⟨q, hq, hr ▸ hn⟩
      · intro n s
        rw [a5, mem_stateDict h1 f1, ← m2]
        constructor
        · rintro ⟨i, hi, hm⟩; exact ⟨⟨i, hN ▸ hi, hm⟩, List.mem_of_getElem? hi⟩
        · rintro ⟨⟨i, hi, hm⟩, _⟩; exact ⟨i, hN ▸ hi, hm⟩
    · left
      refine ⟨?_, fun h => hgl (h.2.2 ((sameNames_iff f1 f2).2 hN)).symm⟩
      unfold loadStateDict
      rw [if_neg (by rw [hcl2]; exact not_not.2 hlen), if_pos (by rw [hcl]; exact hgl)]
  · rw [if_neg hN]
    have hmiss : ((critical net2 N2).all (fun n => ((indexDict N1).get? n).isSome) = true) ↔ ∀ n ∈ N2, Trainable net2 n → n ∈ N1 := by
      have hmem : ∀ n, ((indexDict N1).get? n).isSome = true ↔ n ∈ N1 := by
        intro n
        rw [Option.isSome_iff_exists, List.mem_iff_getElem?]
        exact exists_congr (fun j => indexDict_get nd1 n j)
      rw [List.all_eq_true]
      unfold critical
      constructor
      · intro h n hn ht
        exact (hmem n).1 (h n (List.mem_filter.2 ⟨hn, (requiresGradName_iff h2.netWf h2.inj n).2 ht⟩))
      · intro h n hn
        obtain ⟨ha, hb⟩ := List.mem_filter.1 hn
        exact (hmem n).2 (h n ha ((requiresGradName_iff h2.netWf h2.inj n).1 hb))
    unfold remap
    by_cases hm : (critical net2 N2).all (fun n => ((indexDict N1).get? n).isSome) = true
    · rw [if_pos hm]
      rcases remapGroups_iff h1 h2 f1 f2 nd2 o1.groups o2.groups (fun _ h => h) (fun _ h => h) hlen.symm with ⟨c, e⟩ | ⟨c, e⟩
      · right
        obtain ⟨z1, z2, z3, z4⟩ := zipWith_groups (fun p => o2.params.idxOf p) o1.groups o2.groups hlen.symm
        have e' : ((stateDict o1).1.zip o2.groups).mapM (fun p => remapGroup net2 N2 N1 p.1 p.2) = .ok (List.zipWith (fun g1 g2 => (g1.1, g2.2.map (fun p => o2.params.idxOf p))) o1.groups o2.groups) := e
        simp only [e', bind, Except.bind, pure, Except.pure]
        obtain ⟨w, hw⟩ := mem_remapState nd1 nd2 (stateDict_wf h1)
        obtain ⟨o3, ho3⟩ : ∃ o3, loadStateDict o2 (List.zipWith (fun g1 g2 => (g1.1, g2.2.map (fun p => o2.params.idxOf p))) o1.groups o2.groups) (remapState N2 N1 (stateDict o1).2) = .ok o3 := by
          unfold loadStateDict
          rw [if_neg (by rw [z4]; exact not_not.2 rfl), if_neg (by rw [z3]; exact not_not.2 rfl)]
          exact ⟨_, rfl⟩
        obtain ⟨a1, a2, a3, a4, a5⟩ := loadStateDict_ok h2 f2 (by rw [z1]; exact idxOf_range h2.nodup) w ho3
        refine ⟨o3, ho3, ⟨hlen.symm, (sameTrainable_iff hlen.symm f1 f2).2 ⟨hmiss.1 hm, c⟩, fun h => (hN ((sameNames_iff f1 f2).1 h)).elim⟩, by rw [a1, z2], a2, a4, ?_⟩
        intro n s
        rw [a5, mem_stateDict h1 f1, ← m2]
        constructor
        · rintro ⟨j, hj, hm'⟩
          obtain ⟨i, n', hi, hj', hm''⟩ := (hw _ _).1 hm'
          rw [hj, Option.some.injEq] at hj'
          subst hj'
          exact ⟨⟨i, hi, hm''⟩, List.mem_of_getElem? hj⟩
        · rintro ⟨⟨i, hi, hm'⟩, hn⟩
          obtain ⟨j, hj⟩ := List.mem_iff_getElem?.1 hn
          exact ⟨j, hj, (hw _ _).2 ⟨i, n, hi, hj, hm'⟩⟩
      · left
        have e' : ((stateDict o1).1.zip o2.groups).mapM (fun p => remapGroup net2 N2 N1 p.1 p.2) = .error .valueError := e
        simp only [e', bind, Except.bind]
        exact ⟨by first | rfl | trivial, fun h => c ((sameTrainable_iff hlen.symm f1 f2).1 h.2.1).2⟩
    · left
      rw [if_neg hm]
      exact ⟨rfl, fun h => hm (hmiss.2 ((sameTrainable_iff hlen.symm f1 f2).1 h.2.1).1)⟩

/-- C75: after loading, exactly those parameters have a state which have one in the file under the same name, and it is this state. The groups have the options of the file and keep
their parameters. -/
theorem load_restores {G S : Type} {o1 o2 o3 : Opt G S} {net1 net2 : Net} (h1 : Ok o1 net1) (h2 : Ok o2 net2) {ck : Ckpt G S} (hs : save o1 net1 = .ok ck)
    (hl : load o2 net2 ck = .ok o3) :
    (∀ n s, HasState o3 net2 n s ↔ HasState o1 net1 n s ∧ ∃ p ∈ o2.params, net2.names.get? p = some n) ∧
    o3.groups.map Prod.fst = o1.groups.map Prod.fst ∧ o3.groups.map Prod.snd = o2.groups.map Prod.snd ∧ Ok o3 net2 := by
  rcases load_save_cases h1 h2 hs with ⟨e, _⟩ | ⟨o3', e, _, a, b, c, d⟩
  · rw [e] at hl; cases hl
  · rw [e, Except.ok.injEq] at hl
    subst hl
    exact ⟨d, a, b, c⟩

/-- C75: a trainable parameter is, after loading, in the group with the options of its group when it was saved. -/
theorem load_group {G S : Type} {o1 o2 o3 : Opt G S} {net1 net2 : Net} (h1 : Ok o1 net1) (h2 : Ok o2 net2) {ck : Ckpt G S} (hs : save o1 net1 = .ok ck)
    (hl : load o2 net2 ck = .ok o3) (n : String) (ht : Trainable net2 n) (i : Nat) (hi : InGroup o3 net2 i n) : InGroup o1 net1 i n := by
  rcases load_save_cases h1 h2 hs with ⟨e, _⟩ | ⟨o3', e, ⟨_, b, _⟩, _, d, _⟩
  · rw [e] at hl; cases hl
  · rw [e, Except.ok.injEq] at hl
    subst hl
    have hi2 : InGroup o2 net2 i n := by
      obtain ⟨g, hg, p, hp, hn⟩ := hi
      have := congrArg (fun l : List (List Nat) => l[i]?) d
      simp only [List.getElem?_map, hg, Option.map_some] at this
      cases hg2 : o2.groups[i]? with
      | none => rw [hg2] at this; cases this
      | some g2 =>
        rw [hg2, Option.map_some, Option.some.injEq] at this
        exact ⟨g2, hg2, p, this ▸ hp, hn⟩
    obtain ⟨g, hg, p, hp, hn⟩ := hi2
    exact ((b n ht ⟨p, List.mem_flatMap.2 ⟨g, List.mem_of_getElem? hg, hp⟩, hn⟩).2 i).2 ⟨g, hg, p, hp, hn⟩

/-- C75: loading works exactly if there are as many groups, all trainable parameters are in the file in the same group and, with an identical list of names, the groups have the same
sizes; otherwise there is a ValueError. -/
theorem load_ok_iff {G S : Type} {o1 o2 : Opt G S} {net1 net2 : Net} (h1 : Ok o1 net1) (h2 : Ok o2 net2) {ck : Ckpt G S} (hs : save o1 net1 = .ok ck) :
    ((∃ o3, load o2 net2 ck = .ok o3) ↔ o1.groups.length = o2.groups.length ∧ SameTrainable o1 o2 net1 net2 ∧
      (SameNames o1 o2 net1 net2 → o1.groups.map (fun g => g.2.length) = o2.groups.map (fun g => g.2.length))) ∧
    (∀ e, load o2 net2 ck = .error e → e = .valueError) := by
  rcases load_save_cases h1 h2 hs with ⟨e, c⟩ | ⟨o3', e, c, _⟩
  · refine ⟨⟨?_, fun h => (c h).elim⟩, ?_⟩
    · rintro ⟨o3, h⟩; rw [e] at h; cases h
    · intro e' h; rw [e, Except.error.injEq] at h; exact h.symm
  · refine ⟨⟨fun _ => c, fun _ => ⟨o3', e⟩⟩, ?_⟩
    intro e' h; rw [e] at h; cases h

/-- C75: saving always works, and a new optimizer with the same groups gets everything back. -/
theorem save_load_same {G S : Type} {o1 o2 : Opt G S} {net : Net} (h1 : Ok o1 net) (h2 : Ok o2 net) (hg : o1.groups.map Prod.snd = o2.groups.map Prod.snd) :
    ∃ ck o3, save o1 net = .ok ck ∧ load o2 net ck = .ok o3 ∧ o3.groups = o1.groups ∧ ∀ p, o3.state.get? p = o1.state.get? p := by
  have hs : ∃ ck, save o1 net = .ok ck := by
    obtain ⟨N, hN, _⟩ := optNames_ok h1
    unfold save
    simp only [hN, bind, Except.bind, pure, Except.pure]
    exact ⟨_, rfl⟩
  obtain ⟨ck, hs⟩ := hs
  have hp : o1.params = o2.params := by unfold Opt.params; rw [List.flatMap_def, List.flatMap_def, hg]
  have hgl : o1.groups.length = o2.groups.length := by simpa using congrArg List.length hg
  have hgi : ∀ i n, InGroup o1 net i n ↔ InGroup o2 net i n := by
    intro i n
    have hget : ∀ i : Nat, (o1.groups[i]?).map Prod.snd = (o2.groups[i]?).map Prod.snd := by
      intro i; rw [← List.getElem?_map, ← List.getElem?_map, hg]
    unfold InGroup
    have := hget i
    cases e1 : o1.groups[i]? <;> cases e2 : o2.groups[i]? <;> rw [e1, e2] at this <;> simp_all
  obtain ⟨o3, hl⟩ := (load_ok_iff h1 h2 hs).1.2 ⟨hgl, fun n _ hn => ⟨hp ▸ hn, fun i => hgi i n⟩, fun _ => by
    have := congrArg (List.map List.length) hg
    simpa only [List.map_map, Function.comp_def] using this⟩
  obtain ⟨a, b, c, d⟩ := load_restores h1 h2 hs hl
  refine ⟨ck, o3, hs, hl, ?_, ?_⟩
  · have hzip : ∀ l : List (G × List Nat), l = (l.map Prod.fst).zip (l.map Prod.snd) := by
      intro l; induction l with
      | nil => rfl
      | cons x l ih => simp only [List.map_cons, List.zip_cons_cons, ← ih]
    rw [hzip o3.groups, hzip o1.groups, b, c, hg]
  · intro p
    have hp3 : o3.params = o2.params := by unfold Opt.params; rw [List.flatMap_def, List.flatMap_def, c]
    have key : ∀ s, o3.state.get? p = some s ↔ o1.state.get? p = some s := by
      intro s
      constructor
      · intro h
        have hm : p ∈ o3.params := d.stateOf p ((Dict.get?_isSome _ _).1 (by rw [h]; rfl))
        obtain ⟨n, hn⟩ := d.named p hm
        obtain ⟨⟨q, _, hqn, hqs⟩, _⟩ := (a n s).1 ⟨p, hm, hn, h⟩
        rw [h1.inj p q n hn hqn]; exact hqs
      · intro h
        have hm : p ∈ o1.params := h1.stateOf p ((Dict.get?_isSome _ _).1 (by rw [h]; rfl))
        obtain ⟨n, hn⟩ := h1.named p hm
        obtain ⟨q, _, hqn, hqs⟩ := (a n s).2 ⟨⟨p, hm, hn, h⟩, p, hp ▸ hm, hn⟩
        rw [h1.inj p q n hn hqn]; exact hqs
    exact Option.ext key

/-! ### Examples -/

/-- A network with a weight and a bias, and a frozen embedding. -/
def exNet : Net := { names := [(10, "w"), (11, "b"), (12, "emb")], requiresGrad := fun p => p != 12 }

/-- The network after a change of the code: other order, a new frozen parameter instead of the embedding. -/
def exNet2 : Net := { names := [(21, "b"), (20, "w"), (23, "pos")], requiresGrad := fun p => p != 23 }

def exOpt : Opt String String := { groups := [("wd", [10]), ("nowd", [11, 12])], state := [(10, "state w"), (11, "state b"), (12, "state emb")] }
def exOpt2 : Opt String String := { groups := [("wd new", [23, 20]), ("nowd new", [21])], state := [] }

/-- `Ok` from checks. -/
theorem Ok.of {G S : Type} {o : Opt G S} {net : Net} (h1 : o.params.Nodup) (h2 : o.params.all (fun p => (net.names.get? p).isSome) = true) (h3 : (net.names.map Prod.fst).Nodup)
    (h4 : ∀ p q n, net.names.get? p = some n → net.names.get? q = some n → p = q) (h5 : (o.state.map Prod.fst).Nodup) (h6 : ∀ p ∈ o.state.map Prod.fst, p ∈ o.params) : Ok o net :=
  ⟨h1, fun p hp => Option.isSome_iff_exists.1 (List.all_eq_true.1 h2 p hp), h3, h4, h5, h6⟩

theorem exOpt_ok : Ok exOpt exNet := by
  refine Ok.of (by decide) (by decide) (by decide) ?_ (by decide) (by decide)
  intro p q n hp hq
  have h1 := Dict.mem_of_get? hp
  have h2 := Dict.mem_of_get? hq
  simp only [exNet, List.mem_cons, Prod.mk.injEq, List.not_mem_nil, or_false] at h1 h2
  rcases h1 with ⟨rfl, rfl⟩ | ⟨rfl, rfl⟩ | ⟨rfl, rfl⟩ <;> rcases h2 with ⟨rfl, h⟩ | ⟨rfl, h⟩ | ⟨rfl, h⟩ <;> first | rfl | exact absurd h (by decide)

theorem exOpt2_ok : Ok exOpt2 exNet2 := by
  refine Ok.of (by decide) (by decide) (by decide) ?_ (by decide) (by decide)
  intro p q n hp hq
  have h1 := Dict.mem_of_get? hp
  have h2 := Dict.mem_of_get? hq
  simp only [exNet2, List.mem_cons, Prod.mk.injEq, List.not_mem_nil, or_false] at h1 h2
  rcases h1 with ⟨rfl, rfl⟩ | ⟨rfl, rfl⟩ | ⟨rfl, rfl⟩ <;> rcases h2 with ⟨rfl, h⟩ | ⟨rfl, h⟩ | ⟨rfl, h⟩ <;> first | rfl | exact absurd h (by decide)

example : ((save exOpt exNet).bind (load exOpt2 exNet2)).map (fun o => (o.groups, o.state)) =
    .ok ([("wd", [23, 20]), ("nowd", [21])], [(20, "state w"), (21, "state b")]) := by decide

/-- C75 does not hold for files without names (old format): only the sizes of the groups are compared, so the state goes to the wrong parameter if the order has changed. -/
theorem load_old_format_wrong : ∃ (o1 o2 o3 : Opt String String) (net1 net2 : Net), Ok o1 net1 ∧ Ok o2 net2 ∧
    load o2 net2 { names := none, groups := (stateDict o1).1, state := (stateDict o1).2 } = .ok o3 ∧ HasState o1 net1 "w" "state w" ∧ HasState o3 net2 "w" "state b" := by
  refine ⟨{ exOpt with groups := [("", [10, 11, 12])] }, { exOpt2 with groups := [("", [21, 20, 23])] }, { groups := [("", [21, 20, 23])], state := [(21, "state w"), (20, "state b"), (23, "state emb")] },
    exNet, exNet2, ?_, ?_, by rfl, ⟨10, by decide, by decide, by decide⟩, ⟨20, by decide, by decide, by decide⟩⟩
  · exact Ok.of (by decide) (by decide) (by decide) exOpt_ok.inj (by decide) (by decide)
  · exact Ok.of (by decide) (by decide) (by decide) exOpt2_ok.inj (by decide) (by decide)

end Verif.Updater
