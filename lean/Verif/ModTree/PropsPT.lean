import Verif.ModTree.Props
/-
C100, continued: the PyTorch module, and `set_deep`.
-/
namespace Verif.ModTree

open Verif.Py

theorem mem_ownParams {g : Graph} {m : Nat} {a : String} {p : Nat} : (a, p) ∈ ownParams g m ↔ (a, Val.param p) ∈ g.vars m := by
  unfold ownParams
  rw [List.mem_filterMap]
  constructor
  · rintro ⟨⟨b, v⟩, he, h⟩
    cases v with
    | param p' => simp only [Option.some.injEq, Prod.mk.injEq] at h; rw [← h.1, ← h.2]; exact he
    | mod _ => simp at h
    | other => simp at h
  · exact fun h => ⟨_, h, rfl⟩

theorem mem_ownMods {g : Graph} {m : Nat} {a : String} {c : Nat} : (a, c) ∈ ownMods g m ↔ (a, Val.mod c) ∈ g.vars m := by
  unfold ownMods
  rw [List.mem_filterMap]
  constructor
  · rintro ⟨⟨b, v⟩, he, h⟩
    cases v with
    | mod p' => simp only [Option.some.injEq, Prod.mk.injEq] at h; rw [← h.1, ← h.2]; exact he
    | param _ => simp at h
    | other => simp at h
  · exact fun h => ⟨_, h, rfl⟩

theorem names_own {l : List (String × Val)} (hn : (l.map Prod.fst).Nodup) (k : Val → Option Nat) :
    ((l.filterMap (fun e => (k e.2).map (fun x => (e.1, x)))).map Prod.fst).Nodup := by
  refine List.Nodup.sublist ?_ hn
  induction l with
  | nil => simp
  | cons e l ih =>
    have ih := ih (List.nodup_cons.mp hn).2
    cases hk : k e.2 with
    | none =>
      rw [List.filterMap_cons_none (by rw [hk]; rfl)]
      exact ih.cons _
    | some x =>
      rw [List.filterMap_cons_some (by rw [hk]; rfl)]
      exact ih.cons₂ _

theorem ownParams_nodup {g : Graph} (hw : g.Wf) (m : Nat) : ((ownParams g m).map Prod.fst).Nodup := by
  have := names_own (hw.names m) (fun v => match v with | .param p => some p | _ => none)
  refine (congrArg (fun l => (List.map Prod.fst l).Nodup) ?_).mp this
  unfold ownParams
  congr 1
  funext e
  cases e.2 <;> rfl

theorem ownMods_nodup {g : Graph} (hw : g.Wf) (m : Nat) : ((ownMods g m).map Prod.fst).Nodup := by
  have := names_own (hw.names m) (fun v => match v with | .mod p => some p | _ => none)
  refine (congrArg (fun l => (List.map Prod.fst l).Nodup) ?_).mp this
  unfold ownMods
  congr 1
  funext e
  cases e.2 <;> rfl

/-- **C100, PyTorch.**  Without cycles, the `state_dict()` of the PyTorch module has exactly the names which lead to parameters of the
model, with these parameters, each name once; the buffers are the auxiliary parameters, if wanted. -/
theorem pt_right {g : Graph} (hw : g.Wf) {height : Nat → Nat} (hac : Acyclic g height) {auxAsBuffers : Bool} : ∀ (f m : Nat), height m < f →
    ∃ L, toPT g auxAsBuffers f m = .ok L ∧ (L.map Prod.fst).Nodup
      ∧ ∀ q p b, (q, p, b) ∈ L ↔ Path g m q (.param p) ∧ (b = true ↔ g.aux p = true ∧ auxAsBuffers = true) := by
  intro f
  induction f with
  | zero => exact fun m h => absurd h (by omega)
  | succ f ih =>
    intro m hm
    have hlt : ∀ e ∈ ownMods g m, height e.2 < f := by
      intro e he
      have := hac m e.1 e.2 (mem_ownMods.mp he)
      omega
    obtain ⟨sub, hsub, hmem⟩ := concatM_ok (f := fun e : String × Nat => do
      let l ← toPT g auxAsBuffers f e.2
      .ok (l.map (fun x => (e.1 :: x.1, x.2)))) (ownMods g m) (fun e he => by
        obtain ⟨l, hl, -⟩ := ih e.2 (hlt e he)
        exact ⟨l.map (fun x => (e.1 :: x.1, x.2)), by simp only [hl]; rfl⟩)
    have hpart : ∀ (e : String × Nat) l, (do
      let l ← toPT g auxAsBuffers f e.2
      .ok (l.map (fun x => (e.1 :: x.1, x.2)))) = Except.ok (ε := Err) l →
        ∃ l0, toPT g auxAsBuffers f e.2 = .ok l0 ∧ l = l0.map (fun x => (e.1 :: x.1, x.2)) := by
      intro e l h
      cases ht : toPT g auxAsBuffers f e.2 with
      | error err => rw [ht] at h; cases h
      | ok l0 => rw [ht] at h; cases h; exact ⟨l0, rfl, rfl⟩
    refine ⟨_, by rw [toPT, hsub]; rfl, ?_, fun q p b => ?_⟩
    · rw [List.map_append, List.map_append, List.map_map, List.map_map]
      have hne : ∀ q ∈ sub.map Prod.fst, ∃ e ∈ ownMods g m, ∃ r, r ≠ [] ∧ q = e.1 :: r := by
        intro q hq
        obtain ⟨x, hx, rfl⟩ := List.mem_map.mp hq
        obtain ⟨e, he, l, h1, h2⟩ := (hmem x).mp hx
        obtain ⟨l0, hl0, rfl⟩ := hpart e l h1
        obtain ⟨x0, hx0, rfl⟩ := List.mem_map.mp h2
        refine ⟨e, he, x0.1, ?_, rfl⟩
        obtain ⟨l', hl', -, hm'⟩ := ih e.2 (hlt e he)
        rw [hl0] at hl'
        cases hl'
        obtain ⟨q0, p0, b0⟩ := x0
        have := ((hm' q0 p0 b0).mp hx0).1
        intro h0
        simp only at h0
        subst h0
        cases this
      have hown : ∀ (P : String × Nat → Bool) q, q ∈ ((ownParams g m).filter P).map (Prod.fst ∘ fun e => ([e.1], e.2, false)) →
          ∃ e ∈ ownParams g m, P e = true ∧ q = [e.1] := by
        intro P q hq
        obtain ⟨e, he, rfl⟩ := List.mem_map.mp hq
        exact ⟨e, (List.mem_filter.mp he).1, (List.mem_filter.mp he).2, rfl⟩
      have hnod : ∀ P : String × Nat → Bool, (((ownParams g m).filter P).map (Prod.fst ∘ fun e => (([e.1] : Name), e.2, false))).Nodup := by
        intro P
        have h1 : (((ownParams g m).filter P).map Prod.fst).Nodup :=
          List.Nodup.sublist (List.Sublist.map _ List.filter_sublist) (ownParams_nodup hw m)
        have h2 := h1.map (f := fun a => ([a] : Name)) (fun a b h => by simpa using h)
        rw [List.map_map] at h2
        exact h2
      refine List.nodup_append.mpr ⟨List.nodup_append.mpr ⟨hnod _, hnod _, fun x hx y hy hxy => ?_⟩, ?_, fun x hx y hy hxy => ?_⟩
      · subst hxy
        obtain ⟨e, he, hp, h1⟩ := hown _ _ hx
        obtain ⟨e', he', hp', h2⟩ := hown _ _ hy
        rw [h1] at h2
        have h3 := List.inj_on_of_nodup_map (ownParams_nodup hw m) he he' (by simpa using h2)
        subst h3
        rw [hp'] at hp
        cases hp
      · -- children
        have hmap : ∀ (xs : List (String × Nat)) (L : List (Name × Nat × Bool)), (∀ e ∈ xs, e ∈ ownMods g m) → (xs.map Prod.fst).Nodup →
            concatM (fun e : String × Nat => do
              let l ← toPT g auxAsBuffers f e.2
              .ok (l.map (fun x => (e.1 :: x.1, x.2)))) xs = .ok L → (L.map Prod.fst).Nodup
              ∧ ∀ q ∈ L.map Prod.fst, ∃ e ∈ xs, ∃ r, q = e.1 :: r := by
          intro xs
          induction xs with
          | nil => intro L _ _ h; cases h; simp
          | cons e xs ihx =>
            intro L hin hnd h
            rw [concatM] at h
            obtain ⟨l0, hl0, hn0, -⟩ := ih e.2 (hlt e (hin e (by simp)))
            simp only [hl0] at h
            cases hr : concatM (fun e : String × Nat => do
              let l ← toPT g auxAsBuffers f e.2
              .ok (l.map (fun x => (e.1 :: x.1, x.2)))) xs with
            | error err => rw [hr] at h; cases h
            | ok L' =>
              rw [hr] at h
              cases h
              rw [List.map_cons, List.nodup_cons] at hnd
              obtain ⟨i1, i2⟩ := ihx L' (fun e he => hin e (List.mem_cons_of_mem _ he)) hnd.2 hr
              rw [List.map_append, List.map_map]
              have hc : (l0.map (Prod.fst ∘ fun x => (e.1 :: x.1, x.2))).Nodup := by
                have := hn0.map (f := fun r => e.1 :: r) (fun a b h => by simpa using h)
                rw [List.map_map] at this
                exact this
              refine ⟨List.nodup_append.mpr ⟨hc, i1, fun x hx y hy hxy => ?_⟩, fun q hq => ?_⟩
              · subst hxy
                obtain ⟨x0, -, rfl⟩ := List.mem_map.mp hx
                obtain ⟨e', he', r, h'⟩ := i2 _ hy
                simp only [Function.comp, List.cons.injEq] at h'
                exact hnd.1 (List.mem_map.mpr ⟨e', he', h'.1.symm⟩)
              · rcases List.mem_append.mp hq with hq | hq
                · obtain ⟨x0, -, rfl⟩ := List.mem_map.mp hq
                  exact ⟨e, by simp, _, rfl⟩
                · obtain ⟨e', he', r, h'⟩ := i2 _ hq
                  exact ⟨e', List.mem_cons_of_mem _ he', r, h'⟩
        exact (hmap _ _ (fun _ h => h) (ownMods_nodup hw m) hsub).1
      · subst hxy
        obtain ⟨e, he, r, hr, h1⟩ := hne _ hy
        rcases List.mem_append.mp hx with hx | hx
        · obtain ⟨e', -, -, h2⟩ := hown _ _ hx
          rw [h1] at h2
          simp at h2
          exact hr h2.2
        · obtain ⟨e', -, -, h2⟩ := hown _ _ hx
          rw [h1] at h2
          simp at h2
          exact hr h2.2
    · rw [List.mem_append, List.mem_append]
      constructor
      · rintro ((h | h) | h)
        · obtain ⟨e, he, h'⟩ := List.mem_map.mp h
          cases h'
          obtain ⟨h1, h2⟩ := List.mem_filter.mp he
          refine ⟨.leaf (mem_ownParams.mp h1), ?_⟩
          unfold isBuffer at h2
          cases h3 : g.aux e.2 <;> cases auxAsBuffers <;> simp [h3] at h2 ⊢
        · obtain ⟨e, he, h'⟩ := List.mem_map.mp h
          cases h'
          obtain ⟨h1, h2⟩ := List.mem_filter.mp he
          refine ⟨.leaf (mem_ownParams.mp h1), ?_⟩
          unfold isBuffer at h2
          simpa using h2
        · obtain ⟨e, he, l, h1, h2⟩ := (hmem _).mp h
          obtain ⟨l0, hl0, rfl⟩ := hpart e l h1
          obtain ⟨x0, hx0, hx⟩ := List.mem_map.mp h2
          obtain ⟨l', hl', -, hm'⟩ := ih e.2 (hlt e he)
          rw [hl0] at hl'
          cases hl'
          obtain ⟨q0, p0, b0⟩ := x0
          simp only [Prod.mk.injEq] at hx
          obtain ⟨rfl, rfl, rfl⟩ := hx
          obtain ⟨h3, h4⟩ := (hm' q0 p0 b0).mp hx0
          refine ⟨.cons (mem_ownMods.mp he) ?_ h3, h4⟩
          intro h0
          subst h0
          cases h3
      · rintro ⟨hp, hb⟩
        cases hp with
        | leaf ha =>
          left
          cases b with
          | false =>
            left
            refine List.mem_map.mpr ⟨(_, p), List.mem_filter.mpr ⟨mem_ownParams.mpr ha, ?_⟩, rfl⟩
            unfold isBuffer
            have hb' : ¬(g.aux p = true ∧ auxAsBuffers = true) := fun h => Bool.false_ne_true (hb.mpr h)
            show (!(g.aux p && auxAsBuffers)) = true
            cases h1 : g.aux p with
            | false => rfl
            | true =>
              cases h2 : auxAsBuffers with
              | false => rfl
              | true => exact absurd ⟨h1, h2⟩ hb'
          | true =>
            right
            refine List.mem_map.mpr ⟨(_, p), List.mem_filter.mpr ⟨mem_ownParams.mpr ha, ?_⟩, rfl⟩
            unfold isBuffer
            have := hb.mp rfl
            simp [this.1, this.2]
        | cons ha hq hp' =>
          rename_i c a q'
          right
          have he := mem_ownMods.mpr ha
          obtain ⟨l', hl', -, hm'⟩ := ih c (hlt _ he)
          refine (hmem _).mpr ⟨(a, c), he, l'.map (fun x => (a :: x.1, x.2)), by simp only [hl']; rfl, ?_⟩
          exact List.mem_map.mpr ⟨(q', p, b), (hm' q' p b).mpr ⟨hp', hb⟩, rfl⟩

/-- All names of the model are names of the PyTorch module, for the same parameters. -/
theorem pt_has_names {g : Graph} (hw : g.Wf) {height : Nat → Nat} (hac : Acyclic g height) {auxAsBuffers : Bool} {f root : Nat}
    (hr : root < g.mods.length) (hf : height root < f) {L : List (Name × Nat × Bool)} (hL : toPT g auxAsBuffers f root = .ok L) :
    ∀ e ∈ namedParameters g true root, (e.1, e.2, g.aux e.2 && auxAsBuffers) ∈ L := by
  intro e he
  obtain ⟨L', hL', -, hm⟩ := pt_right hw hac (auxAsBuffers := auxAsBuffers) f root hf
  rw [hL] at hL'
  cases hL'
  exact (hm _ _ _).mpr ⟨(getDeep_iff hw _ _ _).mp ((parameters_once hw hr).2.2 e he), by simp⟩

/-- If nothing is shared, the names are the same. -/
theorem pt_same_names {g : Graph} (hw : g.Wf) {height : Nat → Nat} (hac : Acyclic g height) {auxAsBuffers : Bool} {f root : Nat}
    (hr : root < g.mods.length) (hf : height root < f) (ht : IsTree g root) {L : List (Name × Nat × Bool)}
    (hL : toPT g auxAsBuffers f root = .ok L) (q : Name) (p : Nat) :
    (∃ b, (q, p, b) ∈ L) ↔ (q, p) ∈ namedParameters g true root := by
  constructor
  · rintro ⟨b, hb⟩
    obtain ⟨L', hL', -, hm⟩ := pt_right hw hac (auxAsBuffers := auxAsBuffers) f root hf
    rw [hL] at hL'
    cases hL'
    have hp := ((hm _ _ _).mp hb).1
    obtain ⟨-, p2, p3⟩ := parameters_once hw hr
    obtain ⟨e, he, rfl⟩ := List.mem_map.mp ((p2 p).mpr ⟨q, hp⟩)
    have := ht _ _ _ (by simp) hp ((getDeep_iff hw _ _ _).mp (p3 e he))
    rw [this]
    exact he
  · exact fun h => ⟨_, pt_has_names hw hac hr hf hL (q, p) h⟩

theorem firstOf_spec (l : List (Name × Nat)) : ∀ memo : List Nat,
    (memo.Nodup → (memo ++ (firstOf l memo).map Prod.snd).Nodup) ∧ (∀ e ∈ firstOf l memo, e ∈ l)
    ∧ ∀ e ∈ l, e.2 ∈ memo ++ (firstOf l memo).map Prod.snd := by
  induction l with
  | nil => exact fun memo => ⟨fun h => by simpa [firstOf] using h, by simp [firstOf], by simp⟩
  | cons x l ih =>
    intro memo
    by_cases hx : x.2 ∈ memo
    · obtain ⟨i1, i2, i3⟩ := ih memo
      simp only [firstOf, if_pos hx]
      refine ⟨i1, fun e he => List.mem_cons_of_mem _ (i2 e he), fun e he => ?_⟩
      rcases List.mem_cons.mp he with rfl | he
      · exact List.mem_append_left _ hx
      · exact i3 e he
    · obtain ⟨i1, i2, i3⟩ := ih (memo ++ [x.2])
      simp only [firstOf, if_neg hx, List.map_cons]
      have heq : memo ++ x.2 :: (firstOf l (memo ++ [x.2])).map Prod.snd = (memo ++ [x.2]) ++ (firstOf l (memo ++ [x.2])).map Prod.snd := by simp
      rw [heq]
      refine ⟨fun hn => i1 (List.nodup_append.mpr ⟨hn, by simp, fun a ha b hb => by
          rw [List.mem_singleton] at hb
          subst hb
          exact fun h => hx (h ▸ ha)⟩), fun e he => ?_, fun e he => ?_⟩
      · rcases List.mem_cons.mp he with rfl | he
        · simp
        · exact List.mem_cons_of_mem _ (i2 e he)
      · rcases List.mem_cons.mp he with rfl | he
        · simp
        · exact i3 e he

/-- The parameters of the PyTorch module (what the optimizer gets): every parameter of the model which is not a buffer, once, with a name
which leads to it. -/
theorem pt_parameters_once {g : Graph} (hw : g.Wf) {height : Nat → Nat} (hac : Acyclic g height) {auxAsBuffers : Bool} {f root : Nat}
    (hf : height root < f) {L : List (Name × Nat × Bool)} (hL : toPT g auxAsBuffers f root = .ok L) :
    ((ptNamedParameters L).map Prod.snd).Nodup
    ∧ (∀ p, p ∈ (ptNamedParameters L).map Prod.snd ↔ Owns g root p ∧ ¬(g.aux p = true ∧ auxAsBuffers = true))
    ∧ ∀ e ∈ ptNamedParameters L, getDeep g root e.1 = .ok (.param e.2) := by
  obtain ⟨L', hL', -, hm⟩ := pt_right hw hac (auxAsBuffers := auxAsBuffers) f root hf
  rw [hL] at hL'
  cases hL'
  obtain ⟨f1, f2, f3⟩ := firstOf_spec ((L.filter (fun x => !x.2.2)).map (fun x => (x.1, x.2.1))) []
  have hs : ∀ e ∈ (L.filter (fun x => !x.2.2)).map (fun x => (x.1, x.2.1)),
      Path g root e.1 (.param e.2) ∧ ¬(g.aux e.2 = true ∧ auxAsBuffers = true) := by
    intro e he
    obtain ⟨⟨q, p, b⟩, hx, rfl⟩ := List.mem_map.mp he
    obtain ⟨h1, h2⟩ := List.mem_filter.mp hx
    obtain ⟨h3, h4⟩ := (hm q p b).mp h1
    refine ⟨h3, fun h => ?_⟩
    rw [h4.mpr h] at h2
    simp at h2
  refine ⟨f1 List.nodup_nil, fun p => ⟨fun hp => ?_, fun ⟨⟨q, hq⟩, hn⟩ => ?_⟩, fun e he => ?_⟩
  · obtain ⟨e, he, rfl⟩ := List.mem_map.mp hp
    obtain ⟨h1, h2⟩ := hs e (f2 e he)
    exact ⟨⟨e.1, h1⟩, h2⟩
  · refine f3 (q, p) (List.mem_map.mpr ⟨(q, p, false), List.mem_filter.mpr ⟨(hm q p false).mpr ⟨hq, ?_⟩, rfl⟩, rfl⟩)
    constructor
    · intro h; cases h
    · exact fun h => absurd h hn
  · exact (getDeep_iff hw _ _ _).mpr (hs e (f2 e he)).1

/-! ### `set_deep` -/

theorem find_setVars (l : List (String × Val)) (a : String) (v : Val) :
    (setVars l a v).find? (fun e => e.1 == a) = some (a, v) := by
  induction l with
  | nil => simp [setVars]
  | cons e l ih =>
    unfold setVars
    by_cases h : e.1 = a
    · rw [if_pos h]
      simp
    · rw [if_neg h, List.find?_cons_of_neg (by simpa using h)]
      exact ih

theorem getattr_setattr {g : Graph} {m : Nat} {a : String} {v : Val} (hm : m < g.mods.length) : getattr (setattr g m a v) m a = .ok v := by
  unfold getattr
  have : (setattr g m a v).vars m = setVars (g.vars m) a v := by
    unfold setattr Graph.vars
    simp [List.getD, hm]
  rw [this, find_setVars]

theorem getattr_setattr_ne {g : Graph} {m m' : Nat} {a b : String} {v : Val} (hm : m' ≠ m) : getattr (setattr g m a v) m' b = getattr g m' b := by
  unfold getattr
  have : (setattr g m a v).vars m' = g.vars m' := by
    unfold setattr Graph.vars
    simp [List.getD, List.getElem?_set_ne hm.symm]
  rw [this]

/-- **C100, `set_deep`**, for names with at most one dot: then `get_deep` gives the new value.  (Missing: longer names, see
`set_long_raises`.) -/
theorem set_get_partial {g g' : Graph} {m : Nat} {v : Val} {q : Name} (hc : ∀ m a m', (a, Val.mod m') ∈ g.vars m → m' < g.mods.length)
    (hs : ∀ m a, (a, Val.mod m) ∉ g.vars m) (hm : m < g.mods.length) (h : setDeep g m q v = .ok g') : getDeep g' m q = .ok v := by
  match q, h with
  | [], h => cases h
  | [a], h =>
    cases h
    exact getattr_setattr hm
  | [a, b], h =>
    unfold setDeep at h
    simp only [getDeep] at h
    cases ha : getattr g m a with
    | error e => rw [ha] at h; cases h
    | ok w =>
      rw [ha] at h
      cases w with
      | param p => cases h
      | other => cases h
      | mod m' =>
        cases h
        have hmem : (a, Val.mod m') ∈ g.vars m := by
          unfold getattr at ha
          cases hf : (g.vars m).find? (fun e => e.1 == a) with
          | none => rw [hf] at ha; cases ha
          | some e =>
            rw [hf] at ha
            simp only [Except.ok.injEq] at ha
            have h1 := List.mem_of_find?_eq_some hf
            have h2 : e.1 = a := by simpa using List.find?_some hf
            rw [← h2, ← ha]
            exact h1
        have hne : m ≠ m' := fun h => hs m a (by rw [h] at hmem ⊢; exact hmem)
        simp only [getDeep]
        rw [getattr_setattr_ne hne, ha]
        exact getattr_setattr (hc m a m' hmem)

/-- **Violation.**  `set_deep` raises for every name with two dots or more. -/
theorem set_long_raises (g : Graph) (m : Nat) (v : Val) {q : Name} (hq : 3 ≤ q.length) : setDeep g m q v = .error .valueError := by
  match q, hq with
  | _ :: _ :: _ :: _, _ => rfl

/-! ### Examples -/

/-- An encoder (1) with two layers (2, 3); parameter 3 is auxiliary; the decoder (4) has the output layer twice and shares a layer with the
encoder. -/
def net : Graph := {
  mods := [[("enc", .mod 1), ("dec", .mod 4), ("name", .other)], [("l0", .mod 2), ("l1", .mod 3)], [("w", .param 0), ("b", .param 1)],
    [("w", .param 2), ("mean", .param 3)], [("l", .mod 3), ("out", .mod 5), ("out2", .mod 5)], [("w", .param 4), ("w2", .param 0)]]
  aux := fun p => p == 3 }

example : namedParameters net true 0 = [(["enc", "l0", "w"], 0), (["enc", "l0", "b"], 1), (["enc", "l1", "w"], 2),
    (["enc", "l1", "mean"], 3), (["dec", "out", "w"], 4)] := by decide +kernel

example : applyOrder net 4 0 = .ok [2, 3, 1, 3, 5, 4, 0] := rfl

example : toPT net true 4 1 = .ok [(["l0", "w"], 0, false), (["l0", "b"], 1, false), (["l1", "w"], 2, false), (["l1", "mean"], 3, true)] := rfl

/-- A height of the modules of the example. -/
def netHeight : Nat → Nat := fun m => if m = 0 then 3 else if m = 1 ∨ m = 4 then 2 else 1

/-- The hypotheses hold for the example. -/
theorem net_wf : net.Wf ∧ Acyclic net netHeight := by
  have hv : ∀ m, m < 6 ∨ net.vars m = [] := by
    intro m
    by_cases h : m < 6
    · exact .inl h
    · right
      unfold Graph.vars
      rw [List.getD, List.getElem?_eq_none (by simp only [net, List.length_cons, List.length_nil]; omega)]
      rfl
  refine ⟨⟨fun m => ?_, fun m a m' h => ?_⟩, fun m a m' h => ?_⟩
  · rcases hv m with h | h
    · revert m
      decide +kernel
    · rw [h]
      simp
  · rcases hv m with h0 | h0
    · have : ∀ m < 6, ∀ e ∈ net.vars m, ∀ m', e.2 = Val.mod m' → m' < 6 := by
        intro m hm e he m' hm'
        have key : ∀ m < 6, ∀ e ∈ net.vars m, (match e.2 with | .mod m' => decide (m' < 6) | _ => true) = true := by decide +kernel
        have := key m hm e he
        rw [hm'] at this
        simpa using this
      exact this m h0 _ h m' rfl
    · rw [h0] at h
      simp at h
  · rcases hv m with h0 | h0
    · have key : ∀ m < 6, ∀ e ∈ net.vars m, (match e.2 with | .mod m' => decide (netHeight m' < netHeight m) | _ => true) = true := by
        decide +kernel
      have := key m h0 _ h
      simpa using this
    · rw [h0] at h
      simp at h

/-- A model where nothing is shared. -/
def small : Graph := { mods := [[("a", .mod 1), ("w", .param 0)], [("w", .param 1)]] }

theorem small_path1 {q : Name} {v : Val} (h : Path small 1 q v) : (q = [] ∧ v = .mod 1) ∨ (q = ["w"] ∧ v = .param 1) := by
  have hv : small.vars 1 = [("w", .param 1)] := rfl
  cases h with
  | nil => exact .inl ⟨rfl, rfl⟩
  | leaf ha => rw [hv] at ha; simp at ha; exact .inr ⟨by rw [ha.1], ha.2⟩
  | cons ha _ _ => rw [hv] at ha; simp at ha

example : IsTree small 0 := by
  have hv : small.vars 0 = [("a", .mod 1), ("w", .param 0)] := rfl
  have key : ∀ {q : Name} {v : Val}, Path small 0 q v → (q = [] ∧ v = .mod 0) ∨ (q = ["a"] ∧ v = .mod 1) ∨ (q = ["w"] ∧ v = .param 0)
      ∨ (q = ["a", "w"] ∧ v = .param 1) := by
    intro q v h
    cases h with
    | nil => exact .inl ⟨rfl, rfl⟩
    | leaf ha =>
      rw [hv] at ha
      simp at ha
      rcases ha with ha | ha
      · exact .inr (.inl ⟨by rw [ha.1], ha.2⟩)
      · exact .inr (.inr (.inl ⟨by rw [ha.1], ha.2⟩))
    | cons ha hq hp =>
      rw [hv] at ha
      simp at ha
      obtain ⟨rfl, rfl⟩ := ha
      rcases small_path1 hp with h | h
      · exact absurd h.1 hq
      · exact .inr (.inr (.inr ⟨by rw [h.1], h.2⟩))
  intro q q' v _ h1 h2
  rcases key h1 with h1 | h1 | h1 | h1 <;> rcases key h2 with h2 | h2 | h2 | h2 <;>
    first
    | (exfalso; rw [h1.2] at h2; simp at h2; done)
    | rw [h1.1, h2.1]

/-- **Difference.**  With shared modules the names differ: the model goes through it breadth first, PyTorch depth first. -/
def shared : Graph := { mods := [[("x", .mod 1), ("y", .mod 2)], [("sub", .mod 2)], [("w", .param 0)]] }

theorem names_differ : namedParameters shared true 0 = [(["y", "w"], 0)]
    ∧ (toPT shared true 4 0).map ptNamedParameters = .ok [(["x", "sub", "w"], 0)]
    ∧ (toPT shared true 4 0).map (fun L => L.map Prod.fst) = .ok [["x", "sub", "w"], ["y", "w"]] := ⟨rfl, rfl, rfl⟩

/-- **Violation.**  A module with a cycle (say a reference to its parent) is fine for `named_parameters`, but the conversion to PyTorch and
`apply` never end. -/
def cyclic : Graph := { mods := [[("child", .mod 1), ("w", .param 0)], [("parent", .mod 0), ("w", .param 1)]] }

theorem cyclic_params : namedParameters cyclic true 0 = [(["w"], 0), (["child", "w"], 1)] := rfl

theorem cyclic_pt (f : Nat) : toPT cyclic true f 0 = .error recursionError ∧ toPT cyclic true f 1 = .error recursionError := by
  induction f with
  | zero => exact ⟨rfl, rfl⟩
  | succ f ih =>
    refine ⟨?_, ?_⟩
    · have h : ownMods cyclic 0 = [("child", 1)] := rfl
      rw [toPT, h]
      simp only [concatM, ih.2]
      rfl
    · have h : ownMods cyclic 1 = [("parent", 0)] := rfl
      rw [toPT, h]
      simp only [concatM, ih.1]
      rfl

theorem cyclic_apply (f : Nat) : applyOrder cyclic f 0 = .error recursionError ∧ applyOrder cyclic f 1 = .error recursionError := by
  induction f with
  | zero => exact ⟨rfl, rfl⟩
  | succ f ih =>
    refine ⟨?_, ?_⟩
    · have h : children cyclic 0 = [1] := rfl
      rw [applyOrder, h]
      simp only [concatM, ih.2]
      rfl
    · have h : children cyclic 1 = [0] := rfl
      rw [applyOrder, h]
      simp only [concatM, ih.1]
      rfl

/-- `apply` on shared modules: more than once. -/
theorem shared_apply : applyOrder shared 4 0 = .ok [2, 1, 2, 0] := rfl

end Verif.ModTree
