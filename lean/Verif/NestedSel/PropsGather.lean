import Verif.NestedSel.GatherModel
import Verif.NestedSel.Lemmas
/-
C130: hypotheses go on from others.
-/
namespace Verif.NestedSel
open Verif Verif.Py

theorem gat_eq {α : Type} : ∀ (idx : List Nat) (l : List α), (∀ j ∈ idx, j < l.length) → (gat idx l).map some = idx.map (fun j => l[j]?) := by
  intro idx l
  induction idx with
  | nil => intro _; rfl
  | cons j t ih =>
    intro h
    have hj := h j (by simp)
    have := ih (fun k hk => h k (by simp [hk]))
    unfold gat at this ⊢
    rw [List.filterMap_cons, List.getElem?_eq_getElem hj]
    simp only [List.map_cons, this, List.getElem?_eq_getElem hj]

theorem gat_length {α : Type} (idx : List Nat) (l : List α) (h : ∀ j ∈ idx, j < l.length) : (gat idx l).length = idx.length := by
  have := congrArg List.length (gat_eq idx l h)
  simpa using this

theorem gat_get {α : Type} (idx : List Nat) (l : List α) (h : ∀ j ∈ idx, j < l.length) (i j : Nat) (hi : idx[i]? = some j) : (gat idx l)[i]? = l[j]? := by
  have := congrArg (fun x => x[i]?) (gat_eq idx l h)
  simp only [List.getElem?_map, hi, Option.map_some] at this
  cases hg : (gat idx l)[i]? with
  | none => rw [hg] at this; cases this
  | some x =>
    rw [hg] at this
    simpa using this

theorem gat_mem {α : Type} (idx : List Nat) (l : List α) (x : α) (h : x ∈ gat idx l) : x ∈ l := by
  obtain ⟨j, _, hj⟩ := List.mem_filterMap.1 h
  exact List.mem_of_getElem? hj

/-- What the map has. -/
structure GatMap (idx : List Nat) (env env' : Env) (m : Dict Nat Nat) : Prop where
  ext : ∃ x, env' = env ++ x
  entry : ∀ d d', m.get? d = some d' → d < env.length ∧ d' < env'.length ∧ ∃ l, size env d = .full l ∧ size env' d' = .full (gat idx l)

theorem gatPrep_map {α : Type} (idx : List Nat) (env : Env) (st : Env × Dict Nat Nat) (leaf : Leaf α) (hl : ∀ d, leaf = .dim d → d < env.length) (h : GatMap idx env st.1 st.2) :
    GatMap idx env (gatPrep idx st leaf).1 (gatPrep idx st leaf).2 ∧ (∀ d, st.2.contains d = true → (gatPrep idx st leaf).2.contains d = true) ∧
    ∀ d l, leaf = .dim d → size env d = .full l → (gatPrep idx st leaf).2.contains d = true := by
  obtain ⟨x, hx⟩ := h.ext
  cases leaf with
  | glob y => exact ⟨h, fun _ hd => hd, by intro d l hd; cases hd⟩
  | hyp y => exact ⟨h, fun _ hd => hd, by intro d l hd; cases hd⟩
  | seq d y => exact ⟨h, fun _ hd => hd, by intro d l hd; cases hd⟩
  | dim d =>
    have hd := hl d rfl
    have hs : size st.1 d = size env d := by rw [hx, size_append hd]
    unfold gatPrep
    simp only [hs]
    cases hsz : size env d with
    | static n => exact ⟨h, fun _ hd => hd, by intro d' l heq h2; cases heq; rw [hsz] at h2; cases h2⟩
    | packed n => exact ⟨h, fun _ hd => hd, by intro d' l heq h2; cases heq; rw [hsz] at h2; cases h2⟩
    | full l =>
      simp only
      by_cases hc : st.2.contains d = true
      · rw [if_pos hc]
        exact ⟨h, fun _ hd => hd, by intro d' l heq h2; cases heq; exact hc⟩
      · rw [if_neg hc]
        refine ⟨⟨⟨x ++ [.full (gat idx l)], by rw [hx, List.append_assoc]⟩, ?_⟩, ?_, ?_⟩
        · intro e e' he
          simp only at he ⊢
          rw [Dict.get?_set] at he
          by_cases hde : d = e
          · rw [if_pos hde, Option.some.injEq] at he
            subst hde he
            exact ⟨hd, by simp, l, hsz, size_new _ _⟩
          · rw [if_neg hde] at he
            obtain ⟨h1, h3, l', h4, h5⟩ := h.entry e e' he
            exact ⟨h1, by simp; omega, l', h4, by rw [size_append h3]; exact h5⟩
        · intro e he
          unfold Dict.contains at he ⊢
          simp only
          rw [Dict.get?_set]
          by_cases hde : d = e
          · rw [if_pos hde]; rfl
          · rw [if_neg hde]; exact he
        · intro d' l' heq _
          cases heq
          unfold Dict.contains
          simp only
          rw [Dict.get?_set, if_pos rfl]
          rfl

theorem gatPrep_all {α : Type} (idx : List Nat) (env : Env) : ∀ (ls : List (Leaf α)) (st : Env × Dict Nat Nat), (∀ d, Leaf.dim d ∈ ls → d < env.length) → GatMap idx env st.1 st.2 →
    GatMap idx env (ls.foldl (gatPrep idx) st).1 (ls.foldl (gatPrep idx) st).2 ∧ (∀ d, st.2.contains d = true → (ls.foldl (gatPrep idx) st).2.contains d = true) ∧
    ∀ d l, Leaf.dim d ∈ ls → size env d = .full l → (ls.foldl (gatPrep idx) st).2.contains d = true := by
  intro ls
  induction ls with
  | nil => intro st _ h; exact ⟨h, fun _ hd => hd, by intro d l hd; cases hd⟩
  | cons a t ih =>
    intro st hl h
    obtain ⟨h1, h2, h3⟩ := gatPrep_map idx env st a (fun d hd => hl d (by simp [hd])) h
    obtain ⟨g1, g2, g3⟩ := ih (gatPrep idx st a) (fun d hd => hl d (by simp [hd])) h1
    refine ⟨g1, fun d hd => g2 d (h2 d hd), ?_⟩
    intro d l hd hs
    rcases List.mem_cons.1 hd with hd | hd
    · exact g2 d (h3 d l hd.symm hs)
    · exact g3 d l hd hs

/-- After gathering, each hypothesis has in each leaf what the one it goes on from had: value, length, and valid frames; shapes fit for the new number of hypotheses. -/
theorem gather_meaning {α : Type} (z : α) (n : Nat) (idx : List Nat) (env : Env) (ls : List (Leaf α)) (hidx : ∀ j ∈ idx, j < n) (hwf : ∀ x ∈ ls, WfFull env n x) (hd : DimsThere env ls) :
    let r := gatNested z idx env ls
    (∃ x, r.1.1 = env ++ x) ∧ r.2.length = ls.length ∧ ∀ (k : Nat) (x y : Leaf α), ls[k]? = some x → r.2[k]? = some y →
      WfFull r.1.1 idx.length y ∧ ∀ i j, idx[i]? = some j → meaning r.1.1 i y = meaning env j x := by
  intro r
  have hmap := gatPrep_all idx env ls (env, []) (fun d hd => (hwf _ hd).1) ⟨⟨[], by simp⟩, (by intro d d' h; cases h)⟩
  obtain ⟨h, _, hcov⟩ := hmap
  have hr1 : r.1 = ls.foldl (gatPrep idx) (env, []) := rfl
  have hr2 : r.2 = ls.map (gatLeaf z idx r.1.1 r.1.2) := rfl
  rw [← hr1] at h hcov
  generalize r.1.1 = env' at *
  generalize r.1.2 = m at *
  obtain ⟨ext, hext⟩ := h.ext
  have hlt : ∀ d, d < env.length → size env' d = size env d := by
    intro d hd
    rw [hext, size_append hd]
  refine ⟨⟨ext, hext⟩, by rw [hr2]; simp, ?_⟩
  intro k x y hx hy
  have hmem := List.mem_of_getElem? hx
  have hw := hwf x hmem
  rw [hr2, List.getElem?_map, hx, Option.map_some, Option.some.injEq] at hy
  subst hy
  cases x with
  | glob x => exact ⟨trivial, fun i j _ => rfl⟩
  | hyp xs =>
    have hr : ∀ j ∈ idx, j < xs.length := by intro j hj; rw [hw]; exact hidx j hj
    refine ⟨gat_length idx xs hr, ?_⟩
    intro i j hi
    simp only [gatLeaf, meaning, gat_get idx xs hr i j hi]
  | dim d =>
    obtain ⟨hd1, hd2⟩ := hw
    simp only [gatLeaf, hlt d hd1]
    cases hs : size env d with
    | static n =>
      refine ⟨⟨by rw [hext, List.length_append]; omega, by rw [hlt d hd1, hs]; trivial⟩, ?_⟩
      intro i j _
      simp only [meaning, hlt d hd1, hs, lenAt]
    | packed l => rw [hs] at hd2; exact hd2.elim
    | full l =>
      rw [hs] at hd2
      have hr : ∀ j ∈ idx, j < l.length := by intro j hj; rw [hd2]; exact hidx j hj
      have hc := hcov d l hmem hs
      unfold Dict.contains at hc
      obtain ⟨d', hd'⟩ := Option.isSome_iff_exists.1 hc
      obtain ⟨_, h3, l', h4, h5⟩ := h.entry d d' hd'
      rw [hs, Size.full.injEq] at h4
      subst h4
      simp only [hd', Option.getD_some]
      refine ⟨⟨h3, by rw [h5]; exact gat_length idx l hr⟩, ?_⟩
      intro i j hi
      simp only [meaning, h5, hs, lenAt, gat_get idx l hr i j hi]
  | seq d rows =>
    obtain ⟨hd1, hd2, hrl, hrw⟩ := hw
    have hr : ∀ j ∈ idx, j < rows.length := by intro j hj; rw [hrl]; exact hidx j hj
    cases hm : m.get? d with
    | none =>
      have hstat : ∃ n, size env d = .static n := by
        rcases hd d rows hmem with hs | hdm
        · exact hs
        · cases hs : size env d with
          | static n => exact ⟨n, rfl⟩
          | packed l => rw [hs] at hd2; exact hd2.elim
          | full l =>
            have hc := hcov d l hdm hs
            unfold Dict.contains at hc
            rw [hm] at hc
            cases hc
      obtain ⟨k', hs⟩ := hstat
      simp only [gatLeaf, hm]
      refine ⟨⟨by rw [hext, List.length_append]; omega, by rw [hlt d hd1, hs]; trivial, gat_length idx rows hr, ?_⟩, ?_⟩
      · intro r hr'
        rw [hlt d hd1]
        exact hrw r (gat_mem idx rows r hr')
      · intro i j hi
        simp only [meaning, hlt d hd1, hs, lenAt, gat_get idx rows hr i j hi]
    | some d' =>
      obtain ⟨_, h3, l, h4, h5⟩ := h.entry d d' hm
      rw [h4] at hd2
      have hrs : ∀ j ∈ idx, j < l.length := by intro j hj; rw [hd2]; exact hidx j hj
      have hr2' : ∀ j ∈ idx, j < (rows.map (resize z (size env' d').value)).length := by intro j hj; rw [List.length_map]; exact hr j hj
      simp only [gatLeaf, hm]
      refine ⟨⟨h3, by rw [h5]; exact gat_length idx l hrs, gat_length idx _ hr2', ?_⟩, ?_⟩
      · intro r hr'
        obtain ⟨r0, _, rfl⟩ := List.mem_map.1 (gat_mem idx _ r hr')
        exact resize_length _ _ _
      · intro i j hi
        simp only [meaning, gat_get idx _ hr2' i j hi, List.getElem?_map]
        have hlen : lenAt (size env' d') i = lenAt (size env d) j := by
          rw [h4, h5]
          exact gat_get idx l hrs i j hi
        cases hrj : rows[j]? with
        | none => rfl
        | some r0 =>
          simp only [Option.map_some, Option.bind_some]
          rw [hlen]
          cases hn : lenAt (size env d) j with
          | none => rfl
          | some n =>
            rw [hn] at hlen
            have h1 := lenAt_le hn
            have h2 := lenAt_le hlen
            simp only [Option.map_some]
            rw [resize_take z r0 _ n h2 (by rw [hrw r0 (List.mem_of_getElem? hrj)]; exact h1)]

/-- Hypotheses 1, 0 and 0 of three: the longest one is gone, the others have two frames at most. -/
example : gatNested 0 [1, 0, 0] [.full [2, 1, 3]] ([.dim 0, .seq 0 [[10, 11, 99], [20, 99, 99], [30, 31, 32]], .hyp [5, 6, 7]] : List (Leaf Nat)) =
    (([.full [2, 1, 3], .full [1, 2, 2]], [(0, 1)]), [.dim 1, .seq 1 [[20, 99], [10, 11], [10, 11]], .hyp [6, 5, 5]]) := by decide +kernel

end Verif.NestedSel
