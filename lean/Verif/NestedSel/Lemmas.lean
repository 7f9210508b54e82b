import Verif.NestedSel.Spec
import Mathlib.Data.List.Nodup
/-
Lemmas for C129.
-/
namespace Verif.NestedSel
open Verif Verif.Py

theorem sel_get {α : Type} : ∀ (mask : List Bool) (l : List α), l.length = mask.length → ∀ i : Nat, mask[i]? = some true → (sel mask l)[rank mask i]? = l[i]? := by
  intro mask
  induction mask with
  | nil => intro l _ i h; cases h
  | cons b m ih =>
    intro l hl i hi
    cases l with
    | nil => simp at hl
    | cons x l =>
      have hl' : l.length = m.length := by simpa using hl
      cases i with
      | zero =>
        simp only [List.getElem?_cons_zero, Option.some.injEq] at hi
        subst hi
        simp [sel, rank]
      | succ i =>
        have hi' : m[i]? = some true := by simpa using hi
        cases b with
        | true =>
          have : rank (true :: m) (i + 1) = rank m i + 1 := by simp [rank]
          rw [this]
          simpa [sel] using ih l hl' i hi'
        | false =>
          have : rank (false :: m) (i + 1) = rank m i := by simp [rank]
          rw [this]
          simpa [sel] using ih l hl' i hi'

theorem sel_length {α : Type} : ∀ (mask : List Bool) (l : List α), l.length = mask.length → (sel mask l).length = mask.count true := by
  intro mask
  induction mask with
  | nil => intro l _; cases l <;> rfl
  | cons b m ih =>
    intro l hl
    cases l with
    | nil => simp at hl
    | cons x l =>
      have hl' : l.length = m.length := by simpa using hl
      cases b <;> simp [sel, ih l hl']

theorem sel_mem {α : Type} : ∀ (mask : List Bool) (l : List α) (x : α), x ∈ sel mask l → x ∈ l := by
  intro mask
  induction mask with
  | nil => intro l x h; cases l <;> cases h
  | cons b m ih =>
    intro l x h
    cases l with
    | nil => cases b <;> cases h
    | cons y l =>
      cases b with
      | true =>
        simp only [sel, List.mem_cons] at h
        rcases h with h | h
        · rw [h]; simp
        · exact List.mem_cons_of_mem _ (ih l x h)
      | false => exact List.mem_cons_of_mem _ (ih l x h)

theorem scat_get {α : Type} : ∀ (mask : List Bool) (s b : List α), b.length = mask.length → s.length = mask.count true → ∀ i : Nat,
    (scat mask s b)[i]? = if mask[i]? = some true then s[rank mask i]? else b[i]? := by
  intro mask
  induction mask with
  | nil =>
    intro s b hb _ i
    have : b = [] := by simpa using hb
    subst this
    simp [scat]
  | cons c m ih =>
    intro s b hb hs i
    cases b with
    | nil => simp at hb
    | cons y b =>
      have hb' : b.length = m.length := by simpa using hb
      cases c with
      | true =>
        cases s with
        | nil => simp at hs
        | cons x s =>
          have hs' : s.length = m.count true := by simpa using hs
          cases i with
          | zero => simp [scat, rank]
          | succ i =>
            have : rank (true :: m) (i + 1) = rank m i + 1 := by simp [rank]
            rw [this]
            simpa [scat] using ih s b hb' hs' i
      | false =>
        have hs' : s.length = m.count true := by simpa using hs
        have hsc : scat (false :: m) s (y :: b) = y :: scat m s b := by cases s <;> rfl
        rw [hsc]
        cases i with
        | zero => simp
        | succ i =>
          have : rank (false :: m) (i + 1) = rank m i := by simp [rank]
          rw [this]
          simpa using ih s b hb' hs' i

theorem scat_length {α : Type} : ∀ (mask : List Bool) (s b : List α), b.length = mask.length → (scat mask s b).length = mask.length := by
  intro mask
  induction mask with
  | nil =>
    intro s b hb
    have : b = [] := by simpa using hb
    subst this
    rfl
  | cons c m ih =>
    intro s b hb
    cases b with
    | nil => simp at hb
    | cons y b =>
      have hb' : b.length = m.length := by simpa using hb
      cases c <;> cases s <;> simp [scat, ih _ b hb']

theorem scat_mem {α : Type} : ∀ (mask : List Bool) (s b : List α) (x : α), x ∈ scat mask s b → x ∈ s ∨ x ∈ b := by
  intro mask
  induction mask with
  | nil => intro s b x h; cases s <;> cases b <;> cases h
  | cons c m ih =>
    intro s b x h
    cases b with
    | nil => cases c <;> cases s <;> cases h
    | cons y b =>
      cases c with
      | true =>
        cases s with
        | nil =>
          simp only [scat, List.mem_cons] at h
          rcases h with h | h
          · rw [h]; simp
          · rcases ih [] b x h with h | h
            · cases h
            · simp [h]
        | cons z s =>
          simp only [scat, List.mem_cons] at h
          rcases h with h | h
          · rw [h]; simp
          · rcases ih s b x h with h | h <;> simp [h]
      | false =>
        have hsc : scat (false :: m) s (y :: b) = y :: scat m s b := by cases s <;> rfl
        rw [hsc] at h
        simp only [List.mem_cons] at h
        rcases h with h | h
        · rw [h]; simp
        · rcases ih s b x h with h | h <;> simp [h]

theorem le_foldr_max : ∀ (l : List Nat) (n : Nat), n ∈ l → n ≤ l.foldr max 0 := by
  intro l
  induction l with
  | nil => intro n h; cases h
  | cons x t ih =>
    intro n h
    rcases List.mem_cons.1 h with h | h
    · rw [h]; exact Nat.le_max_left _ _
    · have := ih n h
      simp only [List.foldr_cons]
      omega

theorem foldr_max_le : ∀ (l : List Nat) (b : Nat), (∀ n ∈ l, n ≤ b) → l.foldr max 0 ≤ b := by
  intro l
  induction l with
  | nil => intro b _; simp
  | cons x t ih =>
    intro b h
    have h1 := ih b (fun n hn => h n (by simp [hn]))
    have h2 := h x (by simp)
    simp only [List.foldr_cons]
    omega

theorem lenAt_le {s : Size} {i n : Nat} (h : lenAt s i = some n) : n ≤ s.value := by
  cases s with
  | static k =>
    simp only [lenAt, Option.some.injEq] at h
    rw [← h]
    exact Nat.le_refl _
  | full l => exact le_foldr_max l n (List.mem_of_getElem? h)
  | packed l => exact le_foldr_max l n (List.mem_of_getElem? h)

theorem rank_lt {mask : List Bool} {i : Nat} (h : mask[i]? = some true) : rank mask i < mask.count true := by
  unfold rank
  have hlt : i < mask.length := by
    by_contra hc
    rw [List.getElem?_eq_none (by omega)] at h
    cases h
  have h1 : mask = mask.take i ++ mask.drop i := (List.take_append_drop i mask).symm
  have h2 : (mask.drop i).count true ≥ 1 := by
    have : true ∈ mask.drop i := by
      have hg : (mask.drop i)[0]? = some true := by simpa using h
      exact List.mem_of_getElem? hg
    exact List.count_pos_iff.2 this
  have h3 : mask.count true = (mask.take i).count true + (mask.drop i).count true := by
    rw [← List.count_append, List.take_append_drop]
  omega

theorem resize_take {α : Type} (z : α) (row : List α) (n k : Nat) (h1 : k ≤ n) (h2 : k ≤ row.length) : (resize z n row).take k = row.take k := by
  unfold resize
  rw [List.take_append_of_le_length (by simp; omega), List.take_take]
  congr 1
  omega

theorem resize_length {α : Type} (z : α) (row : List α) (n : Nat) : (resize z n row).length = n := by
  unfold resize
  rw [List.length_append, List.length_take, List.length_replicate]
  omega

theorem size_append {env ext : Env} {d : Nat} (h : d < env.length) : size (env ++ ext) d = size env d := by
  unfold size
  rw [List.getD_eq_getElem?_getD, List.getD_eq_getElem?_getD, List.getElem?_append_left h]

theorem size_new (env : Env) (s : Size) : size (env ++ [s]) env.length = s := by
  unfold size
  simp

/-! ## The maps -/

/-- What the map of a selection has. -/
structure SelMap (mask : List Bool) (env env' : Env) (m : Dict Nat Nat) : Prop where
  wf : m.Wf
  ext : ∃ x, env' = env ++ x
  entry : ∀ d d', m.get? d = some d' → d < env.length ∧ env.length ≤ d' ∧ d' < env'.length ∧ ∃ l, size env d = .full l ∧ size env' d' = .packed (sel mask l)
  inj : ∀ d1 d2 d', m.get? d1 = some d' → m.get? d2 = some d' → d1 = d2

theorem selPrep_map {α : Type} (mask : List Bool) (env : Env) (st : Env × Dict Nat Nat) (leaf : Leaf α) (hl : ∀ d, leaf = .dim d → d < env.length) (h : SelMap mask env st.1 st.2) :
    SelMap mask env (selPrep mask st leaf).1 (selPrep mask st leaf).2 ∧ (∀ d, st.2.contains d = true → (selPrep mask st leaf).2.contains d = true) ∧
    ∀ d l, leaf = .dim d → size env d = .full l → (selPrep mask st leaf).2.contains d = true := by
  obtain ⟨x, hx⟩ := h.ext
  cases leaf with
  | glob y => exact ⟨h, fun _ hd => hd, by intro d l hd; cases hd⟩
  | hyp y => exact ⟨h, fun _ hd => hd, by intro d l hd; cases hd⟩
  | seq d y => exact ⟨h, fun _ hd => hd, by intro d l hd; cases hd⟩
  | dim d =>
    have hd := hl d rfl
    have hs : size st.1 d = size env d := by rw [hx, size_append hd]
    unfold selPrep
    simp only [hs]
    cases hsz : size env d with
    | static n => exact ⟨h, fun _ hd => hd, by intro d' l heq h2; cases heq; rw [hsz] at h2; cases h2⟩
    | packed n => exact ⟨h, fun _ hd => hd, by intro d' l heq h2; cases heq; rw [hsz] at h2; cases h2⟩
    | full l =>
      simp only
      by_cases hc : st.2.contains d = true
      · rw [if_pos hc]
        exact ⟨h, fun _ hd => hd, by intro d' l heq h2; cases heq; exact hc⟩
      · rw [if_neg hc]
        have hnone : st.2.get? d = none := by
          unfold Dict.contains at hc
          simpa using hc
        refine ⟨⟨Dict.wf_set h.wf d _, ⟨x ++ [.packed (sel mask l)], by rw [hx, List.append_assoc]⟩, ?_, ?_⟩, ?_, ?_⟩
        · intro e e' he
          simp only at he ⊢
          rw [Dict.get?_set] at he
          by_cases hde : d = e
          · rw [if_pos hde, Option.some.injEq] at he
            subst hde he
            exact ⟨hd, by rw [hx]; simp, by simp, l, hsz, size_new _ _⟩
          · rw [if_neg hde] at he
            obtain ⟨h1, h2, h3, l', h4, h5⟩ := h.entry e e' he
            exact ⟨h1, h2, by simp; omega, l', h4, by rw [size_append h3]; exact h5⟩
        · intro d1 d2 d' h1 h2
          simp only at h1 h2
          rw [Dict.get?_set] at h1 h2
          by_cases e1 : d = d1
          · by_cases e2 : d = d2
            · rw [← e1, ← e2]
            · rw [if_pos e1, Option.some.injEq] at h1
              rw [if_neg e2] at h2
              have := (h.entry d2 d' h2).2.2.1
              omega
          · rw [if_neg e1] at h1
            by_cases e2 : d = d2
            · rw [if_pos e2, Option.some.injEq] at h2
              have := (h.entry d1 d' h1).2.2.1
              omega
            · rw [if_neg e2] at h2
              exact h.inj d1 d2 d' h1 h2
        · intro e he
          unfold Dict.contains at he ⊢
          simp only
          rw [Dict.get?_set]
          by_cases hde : d = e
          · rw [if_pos hde]; rfl
          · rw [if_neg hde]; exact he
        · intro d' l' heq _
          cases heq
          unfold Dict.contains
          simp only
          rw [Dict.get?_set, if_pos rfl]
          rfl

theorem selPrep_all {α : Type} (mask : List Bool) (env : Env) : ∀ (ls : List (Leaf α)) (st : Env × Dict Nat Nat), (∀ d, Leaf.dim d ∈ ls → d < env.length) → SelMap mask env st.1 st.2 →
    SelMap mask env (ls.foldl (selPrep mask) st).1 (ls.foldl (selPrep mask) st).2 ∧ (∀ d, st.2.contains d = true → (ls.foldl (selPrep mask) st).2.contains d = true) ∧
    ∀ d l, Leaf.dim d ∈ ls → size env d = .full l → (ls.foldl (selPrep mask) st).2.contains d = true := by
  intro ls
  induction ls with
  | nil => intro st _ h; exact ⟨h, fun _ hd => hd, by intro d l hd; cases hd⟩
  | cons a t ih =>
    intro st hl h
    obtain ⟨h1, h2, h3⟩ := selPrep_map mask env st a (fun d hd => hl d (by simp [hd])) h
    obtain ⟨g1, g2, g3⟩ := ih (selPrep mask st a) (fun d hd => hl d (by simp [hd])) h1
    refine ⟨g1, fun d hd => g2 d (h2 d hd), ?_⟩
    intro d l hd hs
    rcases List.mem_cons.1 hd with hd | hd
    · exact g2 d (h3 d l hd.symm hs)
    · exact g3 d l hd hs

theorem revMap_aux : ∀ (m : List (Nat × Nat)) (r : Dict Nat Nat), (m.map Prod.snd).Nodup → ∀ v, (m.foldl (fun (r : Dict Nat Nat) kv => r.set kv.2 kv.1) r).get? v = match (m.find? (fun kv => kv.2 = v)) with
    | some kv => some kv.1
    | none => r.get? v := by
  intro m
  induction m with
  | nil => intro r _ v; rfl
  | cons kv t ih =>
    intro r hn v
    rw [List.map_cons, List.nodup_cons] at hn
    rw [List.foldl_cons, ih _ hn.2 v]
    by_cases hv : kv.2 = v
    · have hf : t.find? (fun kv => decide (kv.2 = v)) = none := by
        rw [List.find?_eq_none]
        intro x hx hc
        apply hn.1
        rw [hv]
        exact List.mem_map.2 ⟨x, hx, by simpa using hc⟩
      rw [hf]
      simp only [List.find?_cons, hv, decide_true]
      rw [Dict.get?_set, if_pos rfl]
    · simp only [List.find?_cons, hv, decide_false]
      cases t.find? (fun kv => decide (kv.2 = v)) with
      | some x => rfl
      | none =>
        simp only
        rw [Dict.get?_set, if_neg hv]

/-- The reversed map. -/
theorem revMap_spec {m : Dict Nat Nat} (hwf : m.Wf) (hinj : ∀ d1 d2 d', m.get? d1 = some d' → m.get? d2 = some d' → d1 = d2) (k v : Nat) : (revMap m).get? v = some k ↔ m.get? k = some v := by
  have hnodup : (m.map Prod.snd).Nodup := by
    have hw := hwf
    unfold Dict.Wf Dict.keys at hw
    rw [List.nodup_map_iff_inj_on (List.Nodup.of_map _ hw)]
    intro x hx y hy hxy
    have hx' := Dict.get?_of_mem hwf (k := x.1) (v := x.2) hx
    have hy' := Dict.get?_of_mem hwf (k := y.1) (v := y.2) hy
    rw [← hxy] at hy'
    exact Prod.ext (hinj _ _ _ hx' hy') hxy
  unfold revMap
  rw [revMap_aux m [] hnodup v]
  cases hf : m.find? (fun kv => decide (kv.2 = v)) with
  | none =>
    simp only
    constructor
    · intro hc; cases hc
    · intro hk
      rw [List.find?_eq_none] at hf
      exact absurd (decide_eq_true rfl) (hf (k, v) (Dict.mem_of_get? hk))
  | some kv =>
    simp only [Option.some.injEq]
    have h1 := List.mem_of_find?_eq_some hf
    have h2 : kv.2 = v := by simpa using List.find?_some hf
    have h3 := Dict.get?_of_mem hwf (k := kv.1) (v := kv.2) h1
    rw [h2] at h3
    constructor
    · intro e; rw [← e]; exact h3
    · intro e; exact hinj _ _ _ h3 e

theorem sel_picked {α : Type} : ∀ (mask : List Bool) (l : List α), sel mask l = picked mask l := by
  intro mask
  induction mask with
  | nil => intro l; cases l <;> rfl
  | cons b m ih =>
    intro l
    cases l with
    | nil => cases b <;> rfl
    | cons x l =>
      cases b with
      | true => simp only [sel, ih l]; rfl
      | false => simp only [sel, ih l]; rfl

end Verif.NestedSel
