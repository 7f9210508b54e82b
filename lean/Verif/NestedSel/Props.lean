import Verif.NestedSel.Lemmas
/-
C129: taking hypotheses out of a nested state, and putting them back.
-/
namespace Verif.NestedSel
open Verif Verif.Py

/-! ## Select -/

/-- After a selection, each hypothesis of the mask has in each leaf, at its place among the packed ones, what it had before; shapes fit again; the map is as expected, and old dims are as they were. -/
theorem select_meaning {α : Type} (mask : List Bool) (env : Env) (ls : List (Leaf α)) (hwf : ∀ x ∈ ls, WfFull env mask.length x) (hd : DimsThere env ls) :
    let r := selNested mask env ls
    (∃ x, r.1.1 = env ++ x) ∧ MapOk mask r.1.1 r.1.2 ∧ r.2.length = ls.length ∧ ∀ (j : Nat) (x y : Leaf α), ls[j]? = some x → r.2[j]? = some y →
      WfPacked r.1.1 (mask.count true) y ∧ ∀ i, mask[i]? = some true → meaning r.1.1 (rank mask i) y = meaning env i x := by
  intro r
  have hmap := selPrep_all mask env ls (env, []) (fun d hd => (hwf _ hd).1) ⟨List.nodup_nil, ⟨[], by simp⟩, (by intro d d' h; cases h), (by intro d1 d2 d' h; cases h)⟩
  obtain ⟨h, _, hcov⟩ := hmap
  have hr1 : r.1 = ls.foldl (selPrep mask) (env, []) := rfl
  have hr2 : r.2 = ls.map (selLeaf mask r.1.1 r.1.2) := rfl
  rw [← hr1] at h hcov
  generalize r.1.1 = env' at *
  generalize r.1.2 = m at *
  obtain ⟨ext, hext⟩ := h.ext
  have hlt : ∀ d, d < env.length → size env' d = size env d := by
    intro d hd
    rw [hext, size_append hd]
  refine ⟨⟨ext, hext⟩, ⟨h.wf, ?_, h.inj⟩, by rw [hr2]; simp, ?_⟩
  · intro d d' hdd
    obtain ⟨h1, h2, h3, l, h4, h5⟩ := h.entry d d' hdd
    exact ⟨by rw [hext, List.length_append]; omega, h3, l, by rw [hlt d h1]; exact h4, by rw [h5, sel_picked]⟩
  · intro j x y hx hy
    have hmem := List.mem_of_getElem? hx
    have hw := hwf x hmem
    rw [hr2, List.getElem?_map, hx, Option.map_some, Option.some.injEq] at hy
    subst hy
    cases x with
    | glob x => exact ⟨trivial, fun i _ => rfl⟩
    | hyp xs =>
      refine ⟨sel_length mask xs hw, ?_⟩
      intro i hi
      simp only [selLeaf, meaning, sel_get mask xs hw i hi]
    | dim d =>
      obtain ⟨hd1, hd2⟩ := hw
      simp only [selLeaf, hlt d hd1]
      cases hs : size env d with
      | static n =>
        refine ⟨⟨by rw [hext, List.length_append]; omega, by rw [hlt d hd1, hs]; trivial⟩, ?_⟩
        intro i _
        simp only [meaning, hlt d hd1, hs, lenAt]
      | packed l => rw [hs] at hd2; exact hd2.elim
      | full l =>
        rw [hs] at hd2
        have hc := hcov d l hmem hs
        unfold Dict.contains at hc
        obtain ⟨d', hd'⟩ := Option.isSome_iff_exists.1 hc
        obtain ⟨_, _, h3, l', h4, h5⟩ := h.entry d d' hd'
        rw [hs, Size.full.injEq] at h4
        subst h4
        simp only [hd', Option.getD_some]
        refine ⟨⟨h3, by rw [h5]; exact sel_length mask l hd2⟩, ?_⟩
        intro i hi
        simp only [meaning, h5, hs, lenAt, sel_get mask l hd2 i hi]
    | seq d rows =>
      obtain ⟨hd1, hd2, hrl, hrw⟩ := hw
      cases hm : m.get? d with
      | none =>
        have hstat : ∃ n, size env d = .static n := by
          rcases hd d rows hmem with hs | hdm
          · exact hs
          · cases hs : size env d with
            | static n => exact ⟨n, rfl⟩
            | packed l => rw [hs] at hd2; exact hd2.elim
            | full l =>
              have hc := hcov d l hdm hs
              unfold Dict.contains at hc
              rw [hm] at hc
              cases hc
        obtain ⟨n, hs⟩ := hstat
        simp only [selLeaf, hm]
        refine ⟨⟨by rw [hext, List.length_append]; omega, by rw [hlt d hd1, hs]; trivial, sel_length mask rows hrl, ?_⟩, ?_⟩
        · intro r hr
          rw [hlt d hd1]
          exact hrw r (sel_mem mask rows r hr)
        · intro i hi
          simp only [meaning, hlt d hd1, hs, lenAt, sel_get mask rows hrl i hi]
      | some d' =>
        obtain ⟨_, _, h3, l, h4, h5⟩ := h.entry d d' hm
        rw [h4] at hd2
        have hle : (size env' d').value ≤ (size env d).value := by
          rw [h4, h5]
          exact foldr_max_le _ _ (fun n hn => le_foldr_max l n (sel_mem mask l n hn))
        simp only [selLeaf, hm]
        refine ⟨⟨h3, by rw [h5]; exact sel_length mask l hd2, by rw [List.length_map]; exact sel_length mask rows hrl, ?_⟩, ?_⟩
        · intro r hr
          obtain ⟨r0, hr0, rfl⟩ := List.mem_map.1 hr
          have := hrw r0 (sel_mem mask rows r0 hr0)
          rw [List.length_take, this]
          omega
        · intro i hi
          simp only [meaning, List.getElem?_map, sel_get mask rows hrl i hi]
          have hlen : lenAt (size env' d') (rank mask i) = lenAt (size env d) i := by
            rw [h4, h5]
            exact sel_get mask l hd2 i hi
          cases hri : rows[i]? with
          | none => rfl
          | some r0 =>
            simp only [Option.map_some, Option.bind_some]
            rw [← hlen]
            cases hn : lenAt (size env' d') (rank mask i) with
            | none => rfl
            | some n =>
              have hnle := lenAt_le hn
              simp only [Option.map_some]
              rw [List.take_take]
              congr 3
              omega

/-! ## Scatter -/

/-- A new dim of the packed state. -/
def IsNew (m : Dict Nat Nat) (a : Nat) : Prop := ∀ k, m.get? k ≠ some a

/-- What the merged map has. -/
structure MgInv {α : Type} (mask : List Bool) (m : Dict Nat Nat) (ps : List (Leaf α × Leaf α)) (env : Env) (st : Env × Dict Nat Nat) : Prop where
  ext : ∃ x, st.1 = env ++ x
  entry : ∀ k v, st.2.get? k = some v → v < st.1.length ∧ ∃ a b la lb, (Leaf.dim a, Leaf.dim b) ∈ ps ∧ IsNew m a ∧ (k = a ∨ k = b) ∧ size env a = .packed la ∧ size env b = .full lb ∧
    size st.1 v = .full (scat mask la lb) ∧ st.2.get? a = some v ∧ st.2.get? b = some v

theorem rev_none_of_new {m : Dict Nat Nat} (hwf : m.Wf) (hinj : ∀ d1 d2 d', m.get? d1 = some d' → m.get? d2 = some d' → d1 = d2) {a : Nat} (h : IsNew m a) : (revMap m).get? a = none := by
  cases hr : (revMap m).get? a with
  | none => rfl
  | some k => exact absurd ((revMap_spec hwf hinj k a).1 hr) (h k)

theorem rev_none_of_static {mask : List Bool} {env : Env} {m : Dict Nat Nat} (hm : MapOk mask env m) {a n : Nat} (h : size env a = .static n) : (revMap m).get? a = none := by
  apply rev_none_of_new hm.wf hm.inj
  intro k hk
  obtain ⟨_, _, l, _, h2⟩ := hm.entry k a hk
  rw [h] at h2
  cases h2

theorem mg_none_of_static {α : Type} {mask : List Bool} {env : Env} {m : Dict Nat Nat} {ps : List (Leaf α × Leaf α)} {st : Env × Dict Nat Nat} (hi : MgInv mask m ps env st) {a n : Nat} (h : size env a = .static n) : st.2.get? a = none := by
  cases hg : st.2.get? a with
  | none => rfl
  | some v =>
    obtain ⟨_, a', b', la, lb, _, _, h1 | h1, h2, h3, _⟩ := hi.entry a v hg
    · rw [h1, h2] at h; cases h
    · rw [h1, h3] at h; cases h

theorem mg_none_of_kept {α : Type} {mask : List Bool} {env : Env} {m : Dict Nat Nat} {ps : List (Leaf α × Leaf α)} {st : Env × Dict Nat Nat} (hm : MapOk mask env m) (hp : PairsOk mask env m ps) (hi : MgInv mask m ps env st) {a b : Nat} (hab : (Leaf.dim a, Leaf.dim b) ∈ ps)
    (h : m.get? b = some a) : st.2.get? b = none := by
  cases hg : st.2.get? b with
  | none => rfl
  | some v =>
    obtain ⟨_, a', b', la, lb, hmem, hnew, h1 | h1, h2, h3, _⟩ := hi.entry b v hg
    · obtain ⟨_, _, l, h4, _⟩ := hm.entry b a h
      rw [h1, h2] at h4
      cases h4
    · have := (hp.one a b a' b' hab hmem).2 h1
      rw [this] at h
      exact absurd h (hnew b)

theorem scatPrep_step {α : Type} {mask : List Bool} {env : Env} {m : Dict Nat Nat} {ps : List (Leaf α × Leaf α)} {st : Env × Dict Nat Nat} (hm : MapOk mask env m) (hp : PairsOk mask env m ps) (hi : MgInv mask m ps env st)
    (p : Leaf α × Leaf α) (hmem : p ∈ ps) : ∃ st', scatPrep mask (revMap m) st p = .ok st' ∧ MgInv mask m ps env st' ∧ (∀ k v, st.2.get? k = some v → st'.2.get? k = some v) ∧
      ∀ a b, p = (Leaf.dim a, Leaf.dim b) → IsNew m a → (∃ la, size env a = .packed la) → ∃ v, st'.2.get? a = some v ∧ st'.2.get? b = some v := by
  obtain ⟨s, t⟩ := p
  have hkind := hp.kind _ hmem
  have hpk := hp.packed _ hmem
  have hfl := hp.full _ hmem
  obtain ⟨ext, hext⟩ := hi.ext
  cases s with
  | glob x => exact ⟨st, rfl, hi, fun _ _ h => h, by intro a b h; cases h⟩
  | hyp x => exact ⟨st, rfl, hi, fun _ _ h => h, by intro a b h; cases h⟩
  | seq d x => exact ⟨st, rfl, hi, fun _ _ h => h, by intro a b h; cases h⟩
  | dim a =>
    cases t with
    | glob x => exact hkind.elim
    | hyp x => exact hkind.elim
    | seq d x => exact hkind.elim
    | dim b =>
      unfold scatPrep
      simp only
      rcases hp.dims a b hmem with h | ⟨h, n, hs⟩ | ⟨hnew, ⟨la, hla⟩, lb, hlb⟩
      · rw [(revMap_spec hm.wf hm.inj b a).2 h]
        simp only [Option.getD_some, if_true]
        refine ⟨st, rfl, hi, fun _ _ h => h, ?_⟩
        intro a' b' heq hnew
        simp only [Prod.mk.injEq, Leaf.dim.injEq] at heq
        obtain ⟨rfl, rfl⟩ := heq
        exact absurd h (hnew b)
      · rw [rev_none_of_static hm hs]
        simp only [Option.getD_none, h, if_true]
        refine ⟨st, rfl, hi, fun _ _ h => h, ?_⟩
        intro a' b' heq _ hla
        simp only [Prod.mk.injEq, Leaf.dim.injEq] at heq
        obtain ⟨e1, _⟩ := heq
        obtain ⟨la, hla⟩ := hla
        rw [← e1, ← h, hs] at hla
        cases hla
      · rw [rev_none_of_new hm.wf hm.inj hnew]
        have hne : ¬ a = b := by
          intro h
          rw [h, hlb] at hla
          cases hla
        simp only [Option.getD_none, if_neg hne]
        by_cases hc : st.2.contains a = true
        · rw [if_pos hc]
          unfold Dict.contains at hc
          obtain ⟨v, hv⟩ := Option.isSome_iff_exists.1 hc
          refine ⟨st, rfl, hi, fun _ _ h => h, ?_⟩
          intro a' b' heq _ _
          simp only [Prod.mk.injEq, Leaf.dim.injEq] at heq
          obtain ⟨rfl, rfl⟩ := heq
          obtain ⟨_, a2, b2, la2, lb2, hmem2, _, h1 | h1, h2, h3, _, h5, h6⟩ := hi.entry a v hv
          · have := (hp.one a b a2 b2 hmem hmem2).1 h1
            exact ⟨v, hv, by rw [this]; exact h6⟩
          · rw [h1, h3] at hla
            cases hla
        · rw [if_neg hc]
          have hanone : st.2.get? a = none := by
            unfold Dict.contains at hc
            simpa using hc
          have hbnone : st.2.get? b = none := by
            cases hg : st.2.get? b with
            | none => rfl
            | some v =>
              obtain ⟨_, a2, b2, la2, lb2, hmem2, _, h1 | h1, h2, h3, _, h5, h6⟩ := hi.entry b v hg
              · rw [h1, h2] at hlb
                cases hlb
              · have := (hp.one a b a2 b2 hmem hmem2).2 h1
                rw [this, h5] at hanone
                cases hanone
          have ha1 : size st.1 a = .packed la := by rw [hext, size_append hpk.1]; exact hla
          have hb1 : size st.1 b = .full lb := by rw [hext, size_append hfl.1]; exact hlb
          simp only [ha1, hb1, srcSizes, bakSizes, bind, Except.bind]
          have hget : ∀ k, ((st.2.set a st.1.length).set b st.1.length).get? k = if b = k then some st.1.length else if a = k then some st.1.length else st.2.get? k := by
            intro k
            rw [Dict.get?_set, Dict.get?_set]
          have hkeep : ∀ k v, st.2.get? k = some v → ((st.2.set a st.1.length).set b st.1.length).get? k = some v := by
            intro k v hk
            rw [hget]
            rw [if_neg (by intro h; rw [← h, hbnone] at hk; cases hk), if_neg (by intro h; rw [← h, hanone] at hk; cases hk)]
            exact hk
          refine ⟨_, rfl, ⟨⟨ext ++ [.full (scat mask la lb)], by simp [hext]⟩, ?_⟩, hkeep, ?_⟩
          · intro k v hk
            simp only at hk ⊢
            rw [hget] at hk
            by_cases hbk : b = k
            · rw [if_pos hbk, Option.some.injEq] at hk
              subst hk
              exact ⟨by simp, a, b, la, lb, hmem, hnew, .inr hbk.symm, hla, hlb, size_new _ _, by rw [hget, if_neg (Ne.symm hne), if_pos rfl], by rw [hget, if_pos rfl]⟩
            · rw [if_neg hbk] at hk
              by_cases hak : a = k
              · rw [if_pos hak, Option.some.injEq] at hk
                subst hk
                exact ⟨by simp, a, b, la, lb, hmem, hnew, .inl hak.symm, hla, hlb, size_new _ _, by rw [hget, if_neg (Ne.symm hne), if_pos rfl], by rw [hget, if_pos rfl]⟩
              · rw [if_neg hak] at hk
                obtain ⟨g1, a2, b2, la2, lb2, g2, g3, g4, g5, g6, g7, g8, g9⟩ := hi.entry k v hk
                exact ⟨by simp; omega, a2, b2, la2, lb2, g2, g3, g4, g5, g6, by rw [size_append g1]; exact g7, hkeep _ _ g8, hkeep _ _ g9⟩
          · intro a' b' heq _ _
            simp only [Prod.mk.injEq, Leaf.dim.injEq] at heq
            obtain ⟨rfl, rfl⟩ := heq
            exact ⟨st.1.length, by rw [hget, if_neg (Ne.symm hne), if_pos rfl], by rw [hget, if_pos rfl]⟩

theorem scatPrepAll_spec {α : Type} {mask : List Bool} {env : Env} {m : Dict Nat Nat} {ps : List (Leaf α × Leaf α)} (hm : MapOk mask env m) (hp : PairsOk mask env m ps) : ∀ (qs : List (Leaf α × Leaf α)) (st : Env × Dict Nat Nat), (∀ q ∈ qs, q ∈ ps) → MgInv mask m ps env st →
    ∃ st', scatPrepAll mask (revMap m) st qs = .ok st' ∧ MgInv mask m ps env st' ∧ (∀ k v, st.2.get? k = some v → st'.2.get? k = some v) ∧
      ∀ a b, (Leaf.dim a, Leaf.dim b) ∈ qs → IsNew m a → (∃ la, size env a = .packed la) → ∃ v, st'.2.get? a = some v ∧ st'.2.get? b = some v := by
  intro qs
  induction qs with
  | nil => intro st _ hi; exact ⟨st, rfl, hi, fun _ _ h => h, by intro a b h; cases h⟩
  | cons q t ih =>
    intro st hq hi
    obtain ⟨st1, h1, h2, h3, h4⟩ := scatPrep_step hm hp hi q (hq q (by simp))
    obtain ⟨st2, g1, g2, g3, g4⟩ := ih st1 (fun x hx => hq x (by simp [hx])) h2
    refine ⟨st2, by simp only [scatPrepAll, h1, g1, bind, Except.bind], g2, fun k v h => g3 k v (h3 k v h), ?_⟩
    intro a b hab hn hl
    rcases List.mem_cons.1 hab with h | h
    · obtain ⟨v, hv1, hv2⟩ := h4 a b h.symm hn hl
      exact ⟨v, g3 _ _ hv1, g3 _ _ hv2⟩
    · exact g4 a b h hn hl

/-- The dim which comes out for a pair of dims, and what happens to rows. -/
theorem resolve {α : Type} (z : α) {mask : List Bool} {env : Env} {m : Dict Nat Nat} {ps : List (Leaf α × Leaf α)} {st : Env × Dict Nat Nat} (hm : MapOk mask env m) (hp : PairsOk mask env m ps) (hi : MgInv mask m ps env st)
    (hcov : ∀ a b, (Leaf.dim a, Leaf.dim b) ∈ ps → IsNew m a → (∃ la, size env a = .packed la) → ∃ v, st.2.get? a = some v ∧ st.2.get? b = some v)
    (a b : Nat) (hab : (a = b ∧ ∃ n, size env a = .static n) ∨ (Leaf.dim a, Leaf.dim b) ∈ ps) (ha : a < env.length) (hsa : SizePacked (mask.count true) (size env a)) (hb : b < env.length) (hsb : SizeFull mask.length (size env b)) :
    ∃ c, c < st.1.length ∧ SizeFull mask.length (size st.1 c) ∧ (st.2.get? (((revMap m).get? a).getD a)).getD (((revMap m).get? a).getD a) = c ∧
      (∀ i, i < mask.length → lenAt (size st.1 c) i = if mask[i]? = some true then lenAt (size env a) (rank mask i) else lenAt (size env b) i) ∧
      ∀ rows brows : List (List α), (∀ r ∈ rows, r.length = (size env a).value) → (∀ r ∈ brows, r.length = (size env b).value) →
        ∃ (d : Nat) (rows1 : List (List α)) (f g : List α → List α), unpackDim z st.1 (revMap m) a rows = .ok (d, rows1) ∧ mergeDim z st.1 st.2 d rows1 = (c, rows.map f) ∧ mergeDim z st.1 st.2 b brows = (c, brows.map g) ∧
          (∀ r ∈ rows, (f r).length = (size st.1 c).value ∧ ∀ n, n ≤ (size env a).value → n ≤ (size st.1 c).value → (f r).take n = r.take n) ∧
          (∀ r ∈ brows, (g r).length = (size st.1 c).value ∧ ∀ n, n ≤ (size env b).value → n ≤ (size st.1 c).value → (g r).take n = r.take n) := by
  obtain ⟨ext, hext⟩ := hi.ext
  have hlt : ∀ d, d < env.length → size st.1 d = size env d := by
    intro d hd
    rw [hext, size_append hd]
  have hlen : env.length ≤ st.1.length := by rw [hext, List.length_append]; omega
  -- static
  have hstatic : a = b → (∃ n, size env a = .static n) → ∃ c, c < st.1.length ∧ SizeFull mask.length (size st.1 c) ∧ (st.2.get? (((revMap m).get? a).getD a)).getD (((revMap m).get? a).getD a) = c ∧
      (∀ i, i < mask.length → lenAt (size st.1 c) i = if mask[i]? = some true then lenAt (size env a) (rank mask i) else lenAt (size env b) i) ∧
      ∀ rows brows : List (List α), (∀ r ∈ rows, r.length = (size env a).value) → (∀ r ∈ brows, r.length = (size env b).value) →
        ∃ (d : Nat) (rows1 : List (List α)) (f g : List α → List α), unpackDim z st.1 (revMap m) a rows = .ok (d, rows1) ∧ mergeDim z st.1 st.2 d rows1 = (c, rows.map f) ∧ mergeDim z st.1 st.2 b brows = (c, brows.map g) ∧
          (∀ r ∈ rows, (f r).length = (size st.1 c).value ∧ ∀ n, n ≤ (size env a).value → n ≤ (size st.1 c).value → (f r).take n = r.take n) ∧
          (∀ r ∈ brows, (g r).length = (size st.1 c).value ∧ ∀ n, n ≤ (size env b).value → n ≤ (size st.1 c).value → (g r).take n = r.take n) := by
    intro hEq ⟨n, hs⟩
    subst hEq
    have hr := rev_none_of_static hm hs
    have hg := mg_none_of_static hi hs
    refine ⟨a, by omega, by rw [hlt a ha, hs]; trivial, by simp [hr, hg], ?_, ?_⟩
    · intro i _
      rw [hlt a ha, hs]
      simp [lenAt]
    · intro rows brows h1 h2
      refine ⟨a, rows, id, id, by unfold unpackDim; rw [hr], by unfold mergeDim; rw [hg]; simp, by unfold mergeDim; rw [hg]; simp, ?_, ?_⟩
      · intro r hr
        rw [hlt a ha]
        exact ⟨h1 r hr, fun _ _ _ => rfl⟩
      · intro r hr
        rw [hlt a ha]
        exact ⟨h2 r hr, fun _ _ _ => rfl⟩
  rcases hab with ⟨h, hs⟩ | hab
  · exact hstatic h hs
  · rcases hp.dims a b hab with h | ⟨h, hs⟩ | ⟨hnew, ⟨la, hla⟩, lb, hlb⟩
    · -- the packed dim of `b`
      have hr := (revMap_spec hm.wf hm.inj b a).2 h
      have hg := mg_none_of_kept hm hp hi hab h
      obtain ⟨_, _, l, h4, h5⟩ := hm.entry b a h
      rw [← sel_picked] at h5
      rw [h4] at hsb
      refine ⟨b, by omega, by rw [hlt b hb, h4]; exact hsb, by simp [hr, hg], ?_, ?_⟩
      · intro i _
        rw [hlt b hb, h4, h5]
        by_cases hmi : mask[i]? = some true
        · rw [if_pos hmi]
          exact (sel_get mask l hsb i hmi).symm
        · rw [if_neg hmi]
      · intro rows brows h1 h2
        have hle : (size env a).value ≤ (size env b).value := by
          rw [h4, h5]
          exact foldr_max_le _ _ (fun n hn => le_foldr_max l n (sel_mem mask l n hn))
        refine ⟨b, rows.map (resize z (size env b).value), resize z (size env b).value, id, ?_, by unfold mergeDim; rw [hg], by unfold mergeDim; rw [hg]; simp, ?_, ?_⟩
        · unfold unpackDim
          rw [hr]
          simp only [hlt a ha, hlt b hb]
          rw [if_neg (by omega)]
        · intro r hr'
          rw [hlt b hb]
          refine ⟨resize_length _ _ _, fun n hn1 hn2 => resize_take z r _ n hn2 (by rw [h1 r hr']; exact hn1)⟩
        · intro r hr'
          rw [hlt b hb]
          exact ⟨h2 r hr', fun _ _ _ => rfl⟩
    · exact hstatic h hs
    · -- a new one
      have hr := rev_none_of_new hm.wf hm.inj hnew
      obtain ⟨v, hv1, hv2⟩ := hcov a b hab hnew ⟨la, hla⟩
      obtain ⟨hvlt, a2, b2, la2, lb2, hmem2, _, h1 | h1, h2, h3, h4, _, _⟩ := hi.entry a v hv1
      · have hb2 := (hp.one a b a2 b2 hab hmem2).1 h1
        rw [← h1, hla, Size.packed.injEq] at h2
        rw [← hb2, hlb, Size.full.injEq] at h3
        subst h2 h3
        rw [hla] at hsa
        rw [hlb] at hsb
        refine ⟨v, hvlt, by rw [h4]; exact scat_length mask la lb hsb, by simp [hr, hv1], ?_, ?_⟩
        · intro i _
          rw [h4, hla, hlb]
          exact scat_get mask la lb hsb hsa i
        · intro rows brows g1 g2
          refine ⟨a, rows, resize z (size st.1 v).value, resize z (size st.1 v).value, by unfold unpackDim; rw [hr], by unfold mergeDim; rw [hv1], by unfold mergeDim; rw [hv2], ?_, ?_⟩
          · intro r hr'
            exact ⟨resize_length _ _ _, fun n hn1 hn2 => resize_take z r _ n hn2 (by rw [g1 r hr']; exact hn1)⟩
          · intro r hr'
            exact ⟨resize_length _ _ _, fun n hn1 hn2 => resize_take z r _ n hn2 (by rw [g2 r hr']; exact hn1)⟩
      · rw [h1, h3] at hla
        cases hla

theorem lenAt_some_packed {s : Size} {n i : Nat} (h : SizePacked n s) (hi : i < n) : ∃ k, lenAt s i = some k := by
  cases s with
  | static k => exact ⟨k, rfl⟩
  | full l => exact h.elim
  | packed l => exact ⟨_, List.getElem?_eq_getElem (by rw [h]; exact hi)⟩

theorem lenAt_some_full {s : Size} {n i : Nat} (h : SizeFull n s) (hi : i < n) : ∃ k, lenAt s i = some k := by
  cases s with
  | static k => exact ⟨k, rfl⟩
  | packed l => exact h.elim
  | full l => exact ⟨_, List.getElem?_eq_getElem (by rw [h]; exact hi)⟩

theorem getElem?_replicate_map {α β : Type} (f : α → β) (n i : Nat) (x : α) (h : i < n) : (List.replicate n x)[i]?.map f = some (f x) := by
  rw [List.getElem?_replicate, if_pos h]
  rfl

theorem scatLeaf_spec {α : Type} (z : α) {mask : List Bool} {env : Env} {m : Dict Nat Nat} {ps : List (Leaf α × Leaf α)} {st : Env × Dict Nat Nat} (hm : MapOk mask env m) (hp : PairsOk mask env m ps) (hi : MgInv mask m ps env st)
    (hcov : ∀ a b, (Leaf.dim a, Leaf.dim b) ∈ ps → IsNew m a → (∃ la, size env a = .packed la) → ∃ v, st.2.get? a = some v ∧ st.2.get? b = some v) (p : Leaf α × Leaf α) (hmem : p ∈ ps) :
    ∃ x, scatLeaf z mask st.1 (revMap m) st.2 p = .ok x ∧ WfFull st.1 mask.length x ∧
      ∀ i, i < mask.length → meaning st.1 i x = if mask[i]? = some true then meaning env (rank mask i) p.1 else meaning env i p.2 := by
  obtain ⟨s, t⟩ := p
  have hkind := hp.kind _ hmem
  have hpk := hp.packed _ hmem
  have hfl := hp.full _ hmem
  simp only at hpk hfl
  have hyps : ∀ (xs ys : List α), xs.length = mask.count true → ys.length = mask.length → WfFull st.1 mask.length (.hyp (scat mask xs ys)) ∧
      ∀ i, i < mask.length → meaning st.1 i (.hyp (scat mask xs ys)) = if mask[i]? = some true then xs[rank mask i]?.map .one else ys[i]?.map .one := by
    intro xs ys h1 h2
    refine ⟨scat_length mask xs ys h2, ?_⟩
    intro i _
    simp only [meaning, scat_get mask xs ys h2 h1 i]
    split <;> rfl
  cases s with
  | dim a =>
    cases t with
    | glob x => exact hkind.elim
    | hyp x => exact hkind.elim
    | seq d x => exact hkind.elim
    | dim b =>
      obtain ⟨c, hc1, hc2, hc3, hc4, _⟩ := resolve z hm hp hi hcov a b (.inr hmem) hpk.1 hpk.2 hfl.1 hfl.2
      refine ⟨.dim c, by simp only [scatLeaf, hc3], ⟨hc1, hc2⟩, ?_⟩
      intro i hil
      simp only [meaning, hc4 i hil]
      split <;> rfl
  | seq d rows =>
    cases t with
    | glob x => exact hkind.elim
    | hyp x => exact hkind.elim
    | dim x => exact hkind.elim
    | seq e brows =>
      obtain ⟨hd1, hd2, hrl, hrw⟩ := hpk
      obtain ⟨he1, he2, hbl, hbw⟩ := hfl
      obtain ⟨c, hc1, hc2, _, hc4, hc5⟩ := resolve z hm hp hi hcov d e (hp.seqs d rows e brows hmem) hd1 hd2 he1 he2
      obtain ⟨d1, rows1, f, g, u1, u2, u3, u4, u5⟩ := hc5 rows brows hrw hbw
      have hb' : (brows.map g).length = mask.length := by rw [List.length_map]; exact hbl
      have hr' : (rows.map f).length = mask.count true := by rw [List.length_map]; exact hrl
      refine ⟨.seq c (scat mask (rows.map f) (brows.map g)), ?_, ⟨hc1, hc2, scat_length _ _ _ hb', ?_⟩, ?_⟩
      · simp only [scatLeaf, u1, bind, Except.bind, u2, u3, if_true]
      · intro r hr
        rcases scat_mem _ _ _ _ hr with h | h
        · obtain ⟨r0, h0, rfl⟩ := List.mem_map.1 h
          exact (u4 r0 h0).1
        · obtain ⟨r0, h0, rfl⟩ := List.mem_map.1 h
          exact (u5 r0 h0).1
      · intro i hil
        simp only [meaning, scat_get mask _ _ hb' hr' i]
        have hc4i := hc4 i hil
        by_cases hmi : mask[i]? = some true
        · rw [if_pos hmi] at hc4i
          rw [if_pos hmi, if_pos hmi, hc4i, List.getElem?_map]
          have hrk := rank_lt hmi
          rw [List.getElem?_eq_getElem (by omega : rank mask i < rows.length)]
          obtain ⟨k, hk⟩ := lenAt_some_packed hd2 hrk
          rw [hk] at hc4i ⊢
          simp only [Option.map_some, Option.bind_some]
          rw [(u4 _ (List.getElem_mem _)).2 k (lenAt_le hk) (lenAt_le hc4i)]
        · rw [if_neg hmi] at hc4i
          rw [if_neg hmi, if_neg hmi, hc4i, List.getElem?_map]
          rw [List.getElem?_eq_getElem (by omega : i < brows.length)]
          obtain ⟨k, hk⟩ := lenAt_some_full he2 hil
          rw [hk] at hc4i ⊢
          simp only [Option.map_some, Option.bind_some]
          rw [(u5 _ (List.getElem_mem _)).2 k (lenAt_le hk) (lenAt_le hc4i)]
  | glob x =>
    cases t with
    | dim y => exact hkind.elim
    | seq d y => exact hkind.elim
    | glob y =>
      obtain ⟨h1, h2⟩ := hyps (List.replicate (mask.count true) x) (List.replicate mask.length y) (by simp) (by simp)
      refine ⟨_, rfl, h1, ?_⟩
      intro i hil
      refine (h2 i hil).trans ?_
      rw [getElem?_replicate_map _ _ _ _ hil]
      simp only [meaning]
      by_cases hmi : mask[i]? = some true
      · rw [if_pos hmi, if_pos hmi, getElem?_replicate_map _ _ _ _ (rank_lt hmi)]
      · rw [if_neg hmi, if_neg hmi]
    | hyp y =>
      obtain ⟨h1, h2⟩ := hyps (List.replicate (mask.count true) x) y (by simp) hfl
      refine ⟨_, rfl, h1, ?_⟩
      intro i hil
      refine (h2 i hil).trans ?_
      simp only [meaning]
      by_cases hmi : mask[i]? = some true
      · rw [if_pos hmi, if_pos hmi, getElem?_replicate_map _ _ _ _ (rank_lt hmi)]
      · rw [if_neg hmi, if_neg hmi]
  | hyp x =>
    cases t with
    | dim y => exact hkind.elim
    | seq d y => exact hkind.elim
    | glob y =>
      obtain ⟨h1, h2⟩ := hyps x (List.replicate mask.length y) hpk (by simp)
      refine ⟨_, rfl, h1, ?_⟩
      intro i hil
      refine (h2 i hil).trans ?_
      rw [getElem?_replicate_map _ _ _ _ hil]
      rfl
    | hyp y =>
      obtain ⟨h1, h2⟩ := hyps x y hpk hfl
      exact ⟨_, rfl, h1, h2⟩

theorem scatLeaves_spec {α : Type} (z : α) {mask : List Bool} {env : Env} {rev mg : Dict Nat Nat} (P : Leaf α × Leaf α → Leaf α → Prop) : ∀ ps : List (Leaf α × Leaf α), (∀ p ∈ ps, ∃ x, scatLeaf z mask env rev mg p = .ok x ∧ P p x) →
    ∃ r, scatLeaves z mask env rev mg ps = .ok r ∧ r.length = ps.length ∧ ∀ (j : Nat) (p : Leaf α × Leaf α) (x : Leaf α), ps[j]? = some p → r[j]? = some x → P p x := by
  intro ps
  induction ps with
  | nil => intro _; exact ⟨[], rfl, rfl, by intro j p x h; cases h⟩
  | cons p t ih =>
    intro h
    obtain ⟨x, hx, hpx⟩ := h p (by simp)
    obtain ⟨r, hr, hl, hall⟩ := ih (fun q hq => h q (by simp [hq]))
    refine ⟨x :: r, by simp only [scatLeaves, hx, hr, bind, Except.bind], by simp [hl], ?_⟩
    intro j q y hq hy
    cases j with
    | zero =>
      simp only [List.getElem?_cons_zero, Option.some.injEq] at hq hy
      rw [← hq, ← hy]
      exact hpx
    | succ j => exact hall j q y (by simpa using hq) (by simpa using hy)

/-- Putting back works, and after it each hypothesis of the mask has in each leaf what it has in the packed state, each other one what it has in the backup: values, lengths, and valid frames. Sequences can have become longer or shorter. -/
theorem scatter_meaning {α : Type} (z : α) (mask : List Bool) (env : Env) (m : Dict Nat Nat) (ps : List (Leaf α × Leaf α)) (hm : MapOk mask env m) (hp : PairsOk mask env m ps) :
    ∃ st r, scatNested z mask env m ps = .ok (st, r) ∧ (∃ x, st.1 = env ++ x) ∧ r.length = ps.length ∧ ∀ (j : Nat) (p : Leaf α × Leaf α) (x : Leaf α), ps[j]? = some p → r[j]? = some x →
      WfFull st.1 mask.length x ∧ ∀ i, i < mask.length → meaning st.1 i x = if mask[i]? = some true then meaning env (rank mask i) p.1 else meaning env i p.2 := by
  obtain ⟨st, h1, h2, _, h4⟩ := scatPrepAll_spec hm hp ps (env, []) (fun _ h => h) ⟨⟨[], by simp⟩, by intro k v h; cases h⟩
  obtain ⟨r, hr, hl, hall⟩ := scatLeaves_spec z (fun p x => WfFull st.1 mask.length x ∧ ∀ i, i < mask.length → meaning st.1 i x = if mask[i]? = some true then meaning env (rank mask i) p.1 else meaning env i p.2) ps
    (fun p hmem => by
      obtain ⟨x, a1, a2, a3⟩ := scatLeaf_spec z hm hp h2 h4 p hmem
      exact ⟨x, a1, a2, a3⟩)
  exact ⟨st, r, by unfold scatNested; simp only [h1, hr, bind, Except.bind], h2.ext, hl, hall⟩

/-! ## Both -/

theorem wfFull_ext {α : Type} {env ext : Env} {n : Nat} {x : Leaf α} (h : WfFull env n x) : WfFull (env ++ ext) n x := by
  cases x with
  | glob x => trivial
  | hyp x => exact h
  | dim d => exact ⟨by rw [List.length_append]; have := h.1; omega, by rw [size_append h.1]; exact h.2⟩
  | seq d rows => exact ⟨by rw [List.length_append]; have := h.1; omega, by rw [size_append h.1]; exact h.2.1, h.2.2.1, by rw [size_append h.1]; exact h.2.2.2⟩

theorem meaning_ext {α : Type} {env ext : Env} {n : Nat} {x : Leaf α} (h : WfFull env n x) (i : Nat) : meaning (env ++ ext) i x = meaning env i x := by
  cases x with
  | glob x => rfl
  | hyp x => rfl
  | dim d => simp only [meaning, size_append h.1]
  | seq d rows => simp only [meaning, size_append h.1]

theorem zip_map_self {β γ : Type} (f : β → γ) (l : List β) : (l.map f).zip l = l.map (fun x => (f x, x)) := by
  induction l with
  | nil => rfl
  | cons x t ih => simp [ih]

/-- Taking out and putting back changes nothing: each hypothesis has what it had before. -/
theorem round_trip {α : Type} (z : α) (mask : List Bool) (env : Env) (ls : List (Leaf α)) (hwf : ∀ x ∈ ls, WfFull env mask.length x) (hd : DimsThere env ls) :
    let s := selNested mask env ls
    ∃ st r, scatNested z mask s.1.1 s.1.2 (s.2.zip ls) = .ok (st, r) ∧ r.length = ls.length ∧ ∀ (j : Nat) (x y : Leaf α), ls[j]? = some x → r[j]? = some y → ∀ i, i < mask.length → meaning st.1 i y = meaning env i x := by
  intro s
  obtain ⟨⟨ext, hext⟩, hm, hlen, hsel⟩ := select_meaning mask env ls hwf hd
  have hs2 : s.2 = ls.map (selLeaf mask s.1.1 s.1.2) := rfl
  change s.1.1 = env ++ ext at hext
  change MapOk mask s.1.1 s.1.2 at hm
  change s.2.length = ls.length at hlen
  have hsel' : ∀ (j : Nat) (x y : Leaf α), ls[j]? = some x → s.2[j]? = some y → WfPacked s.1.1 (mask.count true) y ∧ ∀ i, mask[i]? = some true → meaning s.1.1 (rank mask i) y = meaning env i x := hsel
  have hzip : s.2.zip ls = ls.map (fun x => (selLeaf mask s.1.1 s.1.2 x, x)) := by
    rw [hs2]
    exact zip_map_self _ ls
  have hlt : ∀ d, d < env.length → size s.1.1 d = size env d := by
    intro d hd
    rw [hext, size_append hd]
  -- what the selection does to dims
  have hdim : ∀ b, Leaf.dim b ∈ ls → (∃ a, s.1.2.get? b = some a ∧ selLeaf mask s.1.1 s.1.2 (.dim b : Leaf α) = .dim a) ∨ ((∃ n, size s.1.1 b = .static n) ∧ s.1.2.get? b = none ∧ selLeaf mask s.1.1 s.1.2 (.dim b : Leaf α) = .dim b) := by
    intro b hb
    obtain ⟨hb1, hb2⟩ := hwf _ hb
    cases hsz : size env b with
    | packed l => rw [hsz] at hb2; exact hb2.elim
    | static n =>
      refine .inr ⟨⟨n, by rw [hlt b hb1, hsz]⟩, ?_, by simp only [selLeaf, hlt b hb1, hsz]⟩
      cases hg : s.1.2.get? b with
      | none => rfl
      | some a =>
        obtain ⟨_, _, l, h4, _⟩ := hm.entry b a hg
        rw [hlt b hb1, hsz] at h4
        cases h4
    | full l =>
      left
      have hcov := (selPrep_all mask env ls (env, []) (fun d hd => (hwf _ hd).1) ⟨List.nodup_nil, ⟨[], by simp⟩, (by intro d d' h; cases h), (by intro d1 d2 d' h; cases h)⟩).2.2 b l hb hsz
      have hc : s.1.2.contains b = true := hcov
      unfold Dict.contains at hc
      obtain ⟨a, ha⟩ := Option.isSome_iff_exists.1 hc
      exact ⟨a, ha, by simp only [selLeaf, hlt b hb1, hsz, ha, Option.getD_some]⟩
  have hpair : ∀ a b, (Leaf.dim a, Leaf.dim b) ∈ ls.map (fun x => (selLeaf mask s.1.1 s.1.2 x, x)) → Leaf.dim b ∈ ls ∧ (s.1.2.get? b = some a ∨ (a = b ∧ (∃ n, size s.1.1 b = .static n) ∧ s.1.2.get? b = none)) := by
    intro a b hab
    obtain ⟨x, hx, heq⟩ := List.mem_map.1 hab
    simp only [Prod.mk.injEq] at heq
    obtain ⟨h1, rfl⟩ := heq
    refine ⟨hx, ?_⟩
    rcases hdim b hx with ⟨a', h2, h3⟩ | ⟨h2, h3, h4⟩
    · rw [h3, Leaf.dim.injEq] at h1
      rw [← h1]
      exact .inl h2
    · rw [h4, Leaf.dim.injEq] at h1
      exact .inr ⟨h1.symm, h2, h3⟩
  have hp : PairsOk mask s.1.1 s.1.2 (s.2.zip ls) := by
    rw [hzip]
    refine ⟨?_, ?_, ?_, ?_, ?_, ?_⟩
    · intro p hp
      obtain ⟨x, hx, rfl⟩ := List.mem_map.1 hp
      cases x with
      | glob x => trivial
      | hyp x => trivial
      | seq d rows =>
        simp only [selLeaf]
        cases s.1.2.get? d <;> trivial
      | dim d =>
        simp only [selLeaf]
        cases size s.1.1 d <;> trivial
    · intro p hp
      obtain ⟨x, hx, rfl⟩ := List.mem_map.1 hp
      obtain ⟨j, hj⟩ := List.mem_iff_getElem?.1 hx
      exact (hsel' j x _ hj (by rw [hs2, List.getElem?_map, hj]; rfl)).1
    · intro p hp
      obtain ⟨x, hx, rfl⟩ := List.mem_map.1 hp
      rw [hext]
      exact wfFull_ext (hwf x hx)
    · intro a b hab
      obtain ⟨_, h | ⟨h1, h2, _⟩⟩ := hpair a b hab
      · exact .inl h
      · exact .inr (.inl ⟨h1, by rw [h1]; exact h2⟩)
    · intro a b a' b' h1 h2
      obtain ⟨_, g1⟩ := hpair a b h1
      obtain ⟨_, g2⟩ := hpair a' b' h2
      have hno : ∀ k v, s.1.2.get? k = some v → ∀ n, size s.1.1 v ≠ .static n := by
        intro k v hk n hn
        obtain ⟨_, _, l, _, h5⟩ := hm.entry k v hk
        rw [hn] at h5
        cases h5
      rcases g1 with g1 | ⟨e1, ⟨n1, s1⟩, m1⟩ <;> rcases g2 with g2 | ⟨e2, ⟨n2, s2⟩, m2⟩
      · constructor
        · intro h; rw [h] at g1; exact hm.inj _ _ _ g1 g2
        · intro h; rw [h, g2, Option.some.injEq] at g1; exact g1.symm
      · constructor
        · intro h; rw [h, e2] at g1; exact absurd s2 (hno _ _ g1 n2)
        · intro h; rw [h, m2] at g1; cases g1
      · constructor
        · intro h; rw [← h, e1] at g2; exact absurd s1 (hno _ _ g2 n1)
        · intro h; rw [← h, m1] at g2; cases g2
      · rw [e1, e2]
    · intro d rows e brows hse
      obtain ⟨x, hx, heq⟩ := List.mem_map.1 hse
      simp only [Prod.mk.injEq] at heq
      obtain ⟨h1, rfl⟩ := heq
      have he1 : e < env.length := (hwf _ hx).1
      have hde : ∀ a, s.1.2.get? e = some a → d = a := by
        intro a ha
        simp only [selLeaf, ha, Leaf.seq.injEq] at h1
        exact h1.1.symm
      have hdn : s.1.2.get? e = none → d = e := by
        intro ha
        simp only [selLeaf, ha, Leaf.seq.injEq] at h1
        exact h1.1.symm
      rcases hd e brows hx with ⟨n, hs⟩ | hdm
      · left
        have hnone : s.1.2.get? e = none := by
          cases hg : s.1.2.get? e with
          | none => rfl
          | some a =>
            obtain ⟨_, _, l, h4, _⟩ := hm.entry e a hg
            rw [hlt e he1, hs] at h4
            cases h4
        have := hdn hnone
        exact ⟨this, n, by rw [this, hlt e he1, hs]⟩
      · right
        apply List.mem_map.2
        refine ⟨.dim e, hdm, ?_⟩
        rcases hdim e hdm with ⟨a, h2, h3⟩ | ⟨_, h2, h3⟩
        · rw [h3, hde a h2]
        · rw [h3, hdn h2]
  obtain ⟨st, r, h1, ⟨x2, h2⟩, h3, h4⟩ := scatter_meaning z mask s.1.1 s.1.2 (s.2.zip ls) hm hp
  refine ⟨st, r, h1, by rw [h3, List.length_zip, hlen]; simp, ?_⟩
  intro j x y hx hy i hi
  have hpj : (s.2.zip ls)[j]? = some (selLeaf mask s.1.1 s.1.2 x, x) := by
    rw [hzip, List.getElem?_map, hx]
    rfl
  rw [(h4 j _ y hpj hy).2 i hi]
  by_cases hmi : mask[i]? = some true
  · rw [if_pos hmi]
    exact (hsel' j x _ hx (by rw [hs2, List.getElem?_map, hx]; rfl)).2 i hmi
  · rw [if_neg hmi, hext]
    exact meaning_ext (hwf x (List.mem_of_getElem? hx)) i

/-! ## Examples -/

/-- Three hypotheses with histories of lengths 2, 1, 3, a score each, and a step counter. -/
def exEnv : Env := [.full [2, 1, 3], .static 2]
def exLeaves : List (Leaf Nat) := [.dim 0, .seq 0 [[10, 11, 99], [20, 99, 99], [30, 31, 32]], .hyp [5, 6, 7], .glob 1, .dim 1, .seq 1 [[1, 2], [3, 4], [5, 6]]]

example : ∀ x ∈ exLeaves, WfFull exEnv 3 x := by
  intro x hx
  simp only [exLeaves, List.mem_cons, List.not_mem_nil, or_false] at hx
  rcases hx with rfl | rfl | rfl | rfl | rfl | rfl <;> simp [WfFull, SizeFull, exEnv, size, Size.value]
example : DimsThere exEnv exLeaves := by
  intro d rows h
  simp only [exLeaves, List.mem_cons, List.not_mem_nil, or_false, Leaf.seq.injEq, reduceCtorEq, false_or] at h
  rcases h with ⟨rfl, rfl⟩ | ⟨rfl, rfl⟩
  · exact .inr (by simp [exLeaves])
  · exact .inl ⟨2, rfl⟩

/-- The first two: the packed history has two frames at most. -/
example : selNested [true, true, false] exEnv exLeaves =
    ((exEnv ++ [.packed [2, 1]], [(0, 2)]), [.dim 2, .seq 2 [[10, 11], [20, 99]], .hyp [5, 6], .glob 1, .dim 1, .seq 1 [[1, 2], [3, 4]]]) := by decide +kernel

/-- They get one more frame (new dim 3), with a new score and counter, and are put back. -/
example : (scatNested 0 [true, true, false] (exEnv ++ [.packed [2, 1], .packed [3, 2]]) [(0, 2)]
    ([.dim 3, .seq 3 [[10, 11, 12], [20, 21, 98]], .hyp [8, 9], .glob 2, .dim 1, .seq 1 [[1, 2], [3, 4]]].zip exLeaves)) =
    .ok ((exEnv ++ [.packed [2, 1], .packed [3, 2], .full [3, 2, 3]], [(3, 4), (0, 4)]),
      [.dim 4, .seq 4 [[10, 11, 12], [20, 21, 98], [30, 31, 32]], .hyp [8, 9, 7], .hyp [2, 2, 1], .dim 1, .seq 1 [[1, 2], [3, 4], [5, 6]]]) := by decide +kernel

/-- When the dim is not a leaf, the packed sequence still has the dim with the old sizes: hypothesis 1 (packed place 0) then has a wrong length. -/
theorem dim_missing : ∃ (mask : List Bool) (env : Env) (ls : List (Leaf Nat)), (∀ x ∈ ls, WfFull env mask.length x) ∧ mask[1]? = some true ∧ rank mask 1 = 0 ∧
    ∃ x y, ls[0]? = some x ∧ (selNested mask env ls).2[0]? = some y ∧ meaning env 1 x = some (.seq [20]) ∧ meaning (selNested mask env ls).1.1 0 y = some (.seq [20, 99]) := by
  refine ⟨[false, true], [.full [2, 1]], [.seq 0 [[10, 11], [20, 99]]], ?_, rfl, rfl, .seq 0 [[10, 11], [20, 99]], .seq 0 [[20, 99]], rfl, rfl, by decide +kernel, by decide +kernel⟩
  intro x hx
  simp only [List.mem_singleton] at hx
  subst hx
  simp [WfFull, SizeFull, size, Size.value]

/-- The packed dim of one dim where the backup has another one is refused. -/
theorem other_backup_dim {α : Type} (z : α) (mask : List Bool) (env : Env) (a b k : Nat) (l : List Nat) (hk : size env k = .full l) (hb : b ≠ k) (rest : List (Leaf α × Leaf α)) :
    scatNested z mask env [(k, a)] ((.dim a, .dim b) :: rest) = .error (.other "shape") := by
  have hr : (revMap [(k, a)]).get? a = some k := by simp [revMap, Dict.set, Dict.get?]
  unfold scatNested scatPrepAll scatPrep
  simp only [hr, Option.getD_some, if_neg (Ne.symm hb), hk, srcSizes, bind, Except.bind]
  simp [Dict.contains, Dict.get?]

end Verif.NestedSel
