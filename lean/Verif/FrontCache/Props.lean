import Verif.FrontCache.Spec
/-
C125: caches of functions of dims.
-/
namespace Verif.FrontCache
open Verif Verif.Py

theorem find_spec {l : List (List W × Val)} {k : List W} {e : List W × Val} (h : find l k = .ok (some e)) : e ∈ l ∧ hashEqs e.1 k = true ∧ eqs e.1 k = .ok true := by
  induction l with
  | nil => simp [find] at h
  | cons a t ih =>
    unfold find at h
    split at h
    · rename_i hh
      split at h
      · cases h
      · rename_i he
        simp only [Except.ok.injEq, Option.some.injEq] at h
        subst h
        exact ⟨by simp, hh, he⟩
      · obtain ⟨h1, h2⟩ := ih h
        exact ⟨by simp [h1], h2⟩
    · obtain ⟨h1, h2⟩ := ih h
      exact ⟨by simp [h1], h2⟩

/-- Equal wrapped items: equal, or both dims with the same known size, or the same dim. -/
theorem eqW_spec (w : World) (a b : Item) (hh : hashEq (wrap w a) (wrap w b) = true) (h : eqW (wrap w a) (wrap w b) = .ok true) :
    a = b ∨ ∃ d d' s, a = .dim d ∧ b = .dim d' ∧ w.size d = some s ∧ w.size d' = some s := by
  cases a with
  | raw x =>
    cases b with
    | raw y => left; simpa [wrap, eqW] using h
    | tensor i r => simp [wrap, hashEq] at hh
    | dim d => simp [wrap, hashEq] at hh
  | tensor i r =>
    cases b with
    | raw y => simp [wrap, hashEq] at hh
    | tensor j s => left; simpa [wrap, eqW] using h
    | dim d => simp [wrap, hashEq] at hh
  | dim d =>
    cases b with
    | raw y => simp [wrap, hashEq] at hh
    | tensor j s => simp [wrap, hashEq] at hh
    | dim d' =>
      simp only [wrap] at h hh
      cases h1 : w.size d with
      | some s =>
        rw [h1] at h hh
        simp only [eqW, Except.ok.injEq, decide_eq_true_eq] at h
        exact .inr ⟨d, d', s, rfl, rfl, h1, h.symm⟩
      | none =>
        rw [h1] at h hh
        cases h2 : w.size d' with
        | some s' => rw [h2] at hh; simp [hashEq] at hh
        | none =>
          rw [h2] at hh
          simp only [hashEq, decide_eq_true_eq] at hh
          exact .inl (by rw [hh])

theorem eqs_spec (w : World) : ∀ (k k' : List Item), hashEqs (transform w k) (transform w k') = true → eqs (transform w k) (transform w k') = .ok true →
    k.length = k'.length ∧ ∀ (i : Nat) (a b : Item), k[i]? = some a → k'[i]? = some b → a = b ∨ ∃ d d' s, a = .dim d ∧ b = .dim d' ∧ w.size d = some s ∧ w.size d' = some s := by
  intro k
  induction k with
  | nil =>
    intro k' hh _
    cases k' with
    | nil => exact ⟨rfl, by simp⟩
    | cons b t => simp [transform, hashEqs] at hh
  | cons a s ih =>
    intro k' hh h
    cases k' with
    | nil => simp [transform, hashEqs] at hh
    | cons b t =>
      simp only [transform, List.map_cons, hashEqs, Bool.and_eq_true] at hh
      simp only [transform, List.map_cons, eqs] at h
      split at h
      · cases h
      · cases h
      · rename_i he
        obtain ⟨h1, h2⟩ := ih t hh.2 h
        refine ⟨by simp [h1], ?_⟩
        intro i x y hx hy
        cases i with
        | zero =>
          simp only [List.getElem?_cons_zero, Option.some.injEq] at hx hy
          subst hx
          subst hy
          exact eqW_spec w a b hh.1 he
        | succ i =>
          rw [List.getElem?_cons_succ] at hx hy
          exact h2 i x y hx hy

/-- The map of dims has for each dim of the old key one of the new key at the same place, and nothing else. -/
theorem dimMap_spec (w : World) (dead : List Nat) : ∀ (k k' : List Item) (m0 m : Dict Nat Nat), k.length = k'.length → dimMap dead (transform w k) (transform w k') m0 = .ok m →
    (∀ a b, m.get? a = some b → (∃ i : Nat, k[i]? = some (Item.dim a) ∧ k'[i]? = some (Item.dim b)) ∨ m0.get? a = some b) ∧
    (∀ a, (∃ i : Nat, k[i]? = some (Item.dim a)) ∨ (m0.get? a).isSome → (m.get? a).isSome) := by
  intro k
  induction k with
  | nil =>
    intro k' m0 m hl h
    cases k' with
    | nil =>
      simp only [transform, List.map_nil, dimMap, Except.ok.injEq] at h
      subst h
      exact ⟨fun a b h => .inr h, fun a h => by simpa using h⟩
    | cons b t => simp at hl
  | cons x s ih =>
    intro k' m0 m hl h
    cases k' with
    | nil => simp at hl
    | cons y t =>
      have hl' : s.length = t.length := by simpa using hl
      have hlift : ∀ (m1 : Dict Nat Nat), dimMap dead (transform w s) (transform w t) m1 = .ok m → (∀ a b, m1.get? a = some b → m0.get? a = some b ∨ (x = .dim a ∧ y = .dim b)) →
          (∀ a, (m0.get? a).isSome ∨ x = .dim a → (m1.get? a).isSome) →
          (∀ a b, m.get? a = some b → (∃ i : Nat, (x :: s)[i]? = some (Item.dim a) ∧ (y :: t)[i]? = some (Item.dim b)) ∨ m0.get? a = some b) ∧
          (∀ a, (∃ i : Nat, (x :: s)[i]? = some (Item.dim a)) ∨ (m0.get? a).isSome → (m.get? a).isSome) := by
        intro m1 h1 hm hm'
        obtain ⟨i1, i2⟩ := ih t m1 m hl' h1
        constructor
        · intro a b hab
          rcases i1 a b hab with ⟨i, hi, hi'⟩ | h0
          · exact .inl ⟨i + 1, by simpa using hi, by simpa using hi'⟩
          · rcases hm a b h0 with h0 | ⟨hx, hy⟩
            · exact .inr h0
            · exact .inl ⟨0, by simp [hx], by simp [hy]⟩
        · intro a ha
          apply i2
          rcases ha with ⟨i, hi⟩ | h0
          · cases i with
            | zero =>
              simp only [List.getElem?_cons_zero, Option.some.injEq] at hi
              exact .inr (hm' a (.inr hi))
            | succ i => exact .inl ⟨i, by simpa using hi⟩
          · exact .inr (hm' a (.inl h0))
      cases x with
      | raw v =>
        have h1 : dimMap dead (transform w s) (transform w t) m0 = .ok m := by
          simpa [transform, wrap, dimMap] using h
        exact hlift m0 h1 (fun a b h => .inl h) (fun a h => by simpa using h)
      | tensor v r =>
        have h1 : dimMap dead (transform w s) (transform w t) m0 = .ok m := by
          simpa [transform, wrap, dimMap] using h
        exact hlift m0 h1 (fun a b h => .inl h) (fun a h => by simpa using h)
      | dim d =>
        cases y with
        | raw v => simp [transform, wrap, dimMap] at h
        | tensor v r => simp [transform, wrap, dimMap] at h
        | dim d' =>
          simp only [transform, List.map_cons, wrap, dimMap] at h
          split at h
          · cases h
          · refine hlift (m0.set d d') h ?_ ?_
            · intro a b hab
              rw [Dict.get?_set] at hab
              split at hab
              · rename_i hda
                simp only [Option.some.injEq] at hab
                subst hda
                subst hab
                exact .inr ⟨rfl, rfl⟩
              · exact .inl hab
            · intro a ha
              rw [Dict.get?_set]
              split
              · rfl
              · rename_i hda
                rcases ha with ha | ha
                · exact ha
                · simp only [Item.dim.injEq] at ha
                  exact absurd ha hda

theorem mem_dimsOf {k : List Item} {d : Nat} : d ∈ dimsOf k ↔ ∃ i : Nat, k[i]? = some (Item.dim d) := by
  unfold dimsOf
  rw [List.mem_filterMap]
  constructor
  · rintro ⟨x, hx, hd⟩
    cases x with
    | raw v => cases hd
    | tensor a b => cases hd
    | dim e =>
      simp only [Option.some.injEq] at hd
      subst hd
      exact List.mem_iff_getElem?.1 hx
  · rintro ⟨i, hi⟩
    exact ⟨_, List.mem_of_getElem? hi, rfl⟩

/-- A hit: the new key is the old one with other dims, and the value is the old one with these other dims. -/
theorem hit {w : World} {dead : List Nat} {k k' : List Item} (hc : Compat k k') (hh : hashEqs (transform w k) (transform w k') = true) (he : eqs (transform w k) (transform w k') = .ok true)
    {m : Dict Nat Nat} (hm : dimMap dead (transform w k) (transform w k') [] = .ok m) (v : Val) :
    ∃ σ : Nat → Nat, k' = k.map (rename σ) ∧ (∀ d ∈ dimsOf k, w.size (σ d) = w.size d) ∧ (∀ d ∈ dimsOf k, w.size d = none → σ d = d) ∧ (∀ d, d ∉ dimsOf k → σ d = d) ∧ mapOutput m v = v.rename σ := by
  obtain ⟨hl, hitem⟩ := eqs_spec w k k' hh he
  obtain ⟨m1, m2⟩ := dimMap_spec w dead k k' [] m hl hm
  have hfrom : ∀ a b, m.get? a = some b → ∃ i : Nat, k[i]? = some (Item.dim a) ∧ k'[i]? = some (Item.dim b) := by
    intro a b h
    rcases m1 a b h with h | h
    · exact h
    · simp [Dict.get?] at h
  refine ⟨fun d => (m.get? d).getD d, ?_, ?_, ?_, ?_, rfl⟩
  · apply List.ext_getElem?
    intro i
    rw [List.getElem?_map]
    cases hk : k[i]? with
    | none =>
      have : k'[i]? = none := by
        rw [List.getElem?_eq_none_iff] at hk ⊢
        omega
      rw [this]
      rfl
    | some a =>
      obtain ⟨hi, _⟩ := List.getElem?_eq_some_iff.1 hk
      have hk' : k'[i]? = some (k'[i]'(by omega)) := List.getElem?_eq_getElem (by omega)
      rw [hk']
      simp only [Option.map_some]
      congr 1
      have hcase := hitem i a _ hk hk'
      cases a with
      | raw x =>
        rcases hcase with h | ⟨d, d', s, h, _⟩
        · rw [← h]; rfl
        · cases h
      | tensor x y =>
        rcases hcase with h | ⟨d, d', s, h, _⟩
        · rw [← h]; rfl
        · cases h
      | dim d =>
        have hd : ∃ d', k'[i]'(by omega) = Item.dim d' := by
          rcases hcase with h | ⟨_, d', _, _, h, _⟩
          · exact ⟨d, h.symm⟩
          · exact ⟨d', h⟩
        obtain ⟨d', hd'⟩ := hd
        obtain ⟨b, hb⟩ := Option.isSome_iff_exists.1 (m2 d (.inl ⟨i, hk⟩))
        obtain ⟨j, hj, hj'⟩ := hfrom d b hb
        have hbd : b = d' := hc j i d b d' hj hk hj' (by rw [hk', hd'])
        rw [hd']
        simp only [rename, hb, Option.getD_some, hbd]
  · intro d hd
    cases hb : m.get? d with
    | none => simp only [hb, Option.getD_none]
    | some b =>
      obtain ⟨j, hj, hj'⟩ := hfrom d b hb
      simp only [hb, Option.getD_some]
      rcases hitem j _ _ hj hj' with h | ⟨e, e', s, h1, h2, h3, h4⟩
      · simp only [Item.dim.injEq] at h
        rw [h]
      · simp only [Item.dim.injEq] at h1 h2
        rw [h2, h4, h1, h3]
  · intro d hd hs
    cases hb : m.get? d with
    | none => simp only [hb, Option.getD_none]
    | some b =>
      obtain ⟨j, hj, hj'⟩ := hfrom d b hb
      simp only [hb, Option.getD_some]
      rcases hitem j _ _ hj hj' with h | ⟨e, e', s, h1, h2, h3, h4⟩
      · simp only [Item.dim.injEq] at h
        exact h.symm
      · simp only [Item.dim.injEq] at h1
        rw [h1, h3] at hs
        cases hs
  · intro d hd
    cases hb : m.get? d with
    | none => simp only [hb, Option.getD_none]
    | some b =>
      obtain ⟨j, hj, _⟩ := hfrom d b hb
      exact absurd (mem_dimsOf.2 ⟨j, hj⟩) hd

/-- Every entry is what the function gives. -/
def Good (w : World) (K : List Item → Prop) (f : List Item → Val) (c : Cache) : Prop := ∀ e ∈ c.entries, ∃ k, K k ∧ e = (transform w k, f k)

theorem set_entries {w : World} {c c' : Cache} {k : List Item} {v : Val} (h : set w c k v = .ok c') : (∀ e ∈ c'.entries, e ∈ c.entries ∨ e = (transform w k, v)) ∧ c'.dead = c.dead ∧ c'.maxSize = c.maxSize ∧
    (c.entries.length ≤ c.maxSize → c'.entries.length ≤ c.maxSize) := by
  unfold set at h
  split at h
  · cases h
  · simp only [Except.ok.injEq] at h
    subst h
    exact ⟨fun e he => .inl he, rfl, rfl, fun h => h⟩
  · split at h
    · simp only [Except.ok.injEq] at h
      subst h
      exact ⟨fun e he => .inl he, rfl, rfl, fun h => h⟩
    simp only [Except.ok.injEq] at h
    subst h
    refine ⟨?_, rfl, rfl, ?_⟩
    · intro e he
      rcases List.mem_append.1 he with he | he
      · left
        split at he
        · exact he
        · exact List.mem_of_mem_drop he
      · right
        simpa using he
    · intro h1
      simp only [List.length_append, List.length_cons, List.length_nil]
      split
      · omega
      · rw [List.length_drop]
        omega

theorem reach_good {w : World} {K : List Item → Prop} {f : List Item → Val} {n : Nat} {c : Cache} (h : Reach w K f n c) : Good w K f c := by
  induction h with
  | init => intro e he; cases he
  | @call c c' k v _ hk h ih =>
    unfold memo at h
    split at h
    · cases h
    · simp only [Except.ok.injEq, Prod.mk.injEq] at h
      rw [← h.1]
      exact ih
    · split at h
      · cases h
      · rename_i hs
        simp only [Except.ok.injEq, Prod.mk.injEq] at h
        rw [← h.1]
        intro e he
        rcases (set_entries hs).1 e he with he | he
        · exact ih e he
        · exact ⟨k, hk, he⟩
  | die d _ ih =>
    unfold die
    split
    · exact ih
    · intro e he
      exact ih e (List.mem_filter.1 he).1

/-- After any calls and deaths of dims, a call gives what the function gives without a cache. Partial: for functions which only use the known sizes of dims, and keys with the same repetitions of dims. -/
theorem transparent_partial {w : World} {K : List Item → Prop} {f : List Item → Val} {n : Nat} (hf : Natural w K f) (hc : ∀ k k', K k → K k' → Compat k k') {c c' : Cache}
    (h : Reach w K f n c) {k : List Item} (hk : K k) {v : Val} (hr : memo w f c k = .ok (c', v)) : v = f k := by
  unfold memo at hr
  split at hr
  · cases hr
  · rename_i v' hg
    simp only [Except.ok.injEq, Prod.mk.injEq] at hr
    rw [← hr.2]
    unfold get at hg
    split at hg
    · cases hg
    · cases hg
    · rename_i e he
      split at hg
      · cases hg
      · rename_i m hm
        simp only [Except.ok.injEq, Option.some.injEq] at hg
        obtain ⟨h1, h2, h3⟩ := find_spec he
        obtain ⟨k0, hk0, rfl⟩ := reach_good h e h1
        obtain ⟨σ, s1, s2, s3, s4, s5⟩ := hit (hc k0 k hk0 hk) h2 h3 hm (f k0)
        rw [← hg, s5, s1]
        exact (hf k0 σ hk0 (by rw [← s1]; exact hk) s2 s3 s4).symm
  · split at hr
    · cases hr
    · simp only [Except.ok.injEq, Prod.mk.injEq] at hr
      exact hr.2.symm

/-- There are never more entries than allowed. -/
theorem size_limit {w : World} {K : List Item → Prop} {f : List Item → Val} {n : Nat} {c : Cache} (h : Reach w K f n c) : c.entries.length ≤ n ∧ c.maxSize = n := by
  induction h with
  | init => simp
  | @call c c' k v _ hk h ih =>
    unfold memo at h
    split at h
    · cases h
    · simp only [Except.ok.injEq, Prod.mk.injEq] at h
      rw [← h.1]
      exact ih
    · split at h
      · cases h
      · rename_i hs
        simp only [Except.ok.injEq, Prod.mk.injEq] at h
        rw [← h.1]
        obtain ⟨_, _, h3, h4⟩ := set_entries hs
        rw [h3]
        refine ⟨?_, ih.2⟩
        have := h4 (by rw [ih.2]; exact ih.1)
        rw [ih.2] at this
        exact this
  | die d _ ih =>
    unfold die
    split
    · exact ih
    · exact ⟨Nat.le_trans (List.length_filter_le _ _) ih.1, ih.2⟩

/-- A dim without a known size does not stay in a key when it dies. -/
theorem no_dead_key {c : Cache} {d : Nat} (h : ∀ e ∈ c.entries, d ∉ e.2.dims) : ∀ e ∈ (die c d).entries, ∀ x ∈ e.1, refersTo d x = false := by
  intro e he x hx
  unfold die at he
  rw [if_neg] at he
  · have := (List.mem_filter.1 he).2
    simp only [Bool.not_eq_true', List.any_eq_false] at this
    simpa using this x hx
  · simp only [List.any_eq_true, not_exists, not_and, List.contains_iff_mem]
    exact h

/-! ## Positional encodings -/

/-- The keys of the encoding, with two different dims, and not the special dim of a single step. -/
def PosKeys (singleStep : Nat) (k : List Item) : Prop := ∃ s f o, k = posKey s f o ∧ s ≠ f ∧ s ≠ singleStep

/-- Positional encodings with the cache are right: the axes are those of the call, the numbers the ones for the sizes. Partial: not with the dim of a single step. -/
theorem sinusoidal_partial {table : Option Nat → Option Nat → Nat → Nat} {w : World} {singleStep n : Nat} {c c' : Cache} (h : Reach w (PosKeys singleStep) (posEnc table w singleStep) n c)
    {s f o : Nat} (hsf : s ≠ f) (hs : s ≠ singleStep) {v : Val} (hr : memo w (posEnc table w singleStep) c (posKey s f o) = .ok (c', v)) : v = ⟨table (w.size s) (w.size f) o, [s, f]⟩ := by
  have := transparent_partial (K := PosKeys singleStep) ?_ ?_ h ⟨s, f, o, rfl, hsf, hs⟩ hr
  · rw [this]
    simp [posKey, posEnc, hs]
  · rintro k σ ⟨a, b, p, rfl, hab, ha⟩ ⟨a', b', p', hk', hab', ha'⟩ h1 _ _
    simp only [posKey, List.map_cons, List.map_nil, rename, List.cons.injEq, Item.dim.injEq] at hk'
    have e1 := h1 a (by simp [posKey, dimsOf])
    have e2 := h1 b (by simp [posKey, dimsOf])
    have e3 : σ a ≠ singleStep := by rw [hk'.1]; exact ha'
    simp [posKey, rename, posEnc, ha, e3, Val.rename, e1, e2]
  · rintro k k' ⟨a, b, p, rfl, hab, _⟩ ⟨a', b', p', rfl, _, _⟩ i j x y z h1 h2 h3 h4
    have hi : ∀ (i : Nat) (x : Nat), (posKey a b p)[i]? = some (Item.dim x) → (i = 0 ∧ x = a) ∨ (i = 1 ∧ x = b) := by
      intro i x hx
      match i with
      | 0 => simp [posKey] at hx; exact .inl ⟨rfl, hx.symm⟩
      | 1 => simp [posKey] at hx; exact .inr ⟨rfl, hx.symm⟩
      | 2 => simp [posKey] at hx
      | i + 3 => simp [posKey] at hx
    rcases hi i x h1 with ⟨rfl, rfl⟩ | ⟨rfl, rfl⟩ <;> rcases hi j _ h2 with ⟨rfl, h5⟩ | ⟨rfl, h5⟩
    · rw [h3] at h4; simpa using h4
    · exact absurd h5 hab
    · exact absurd h5.symm hab
    · rw [h3] at h4; simpa using h4

/-- A world for the examples: dims 1 and 2 have size 1, dims 3 and 4 size 8, dim 5 has a tensor of sizes, dim 6 nothing. -/
def exW : World := ⟨fun d => if d = 1 ∨ d = 2 then some 1 else if d = 3 ∨ d = 4 then some 8 else none, fun d => if d = 5 then some 50 else none⟩

/-- After a single step (dim 1), an axis of size one (dim 2) with the same options gets the encoding of the single step, without this axis. -/
theorem single_step_wrong : ∃ c c' v, memo exW (posEnc (fun _ _ o => o) exW 1) ⟨128, [], []⟩ (posKey 1 3 7) = .ok (c, ⟨7, [3]⟩) ∧
    memo exW (posEnc (fun _ _ o => o) exW 1) c (posKey 2 3 7) = .ok (c', v) ∧ v = ⟨7, [3]⟩ ∧ posEnc (fun _ _ o => o) exW 1 (posKey 2 3 7) = ⟨7, [2, 3]⟩ := by
  refine ⟨_, _, _, rfl, rfl, ?_, ?_⟩ <;> decide +kernel

/-- A key with one dim twice, then one with two dims of this size: the first one of them is lost. -/
theorem repeated_dim_wrong : ∃ c c' : Cache, set exW ⟨128, [], []⟩ [.dim 3, .dim 3] ⟨0, [3]⟩ = .ok c ∧ get exW c [.dim 4, .dim 3] = .ok (some ⟨0, [3]⟩) ∧
    set exW ⟨128, [], []⟩ [.dim 3, .dim 4] ⟨0, [3]⟩ = .ok c' ∧ get exW c' [.dim 4, .dim 3] = .ok (some ⟨0, [4]⟩) := by
  refine ⟨_, _, rfl, ?_, rfl, ?_⟩ <;> decide +kernel

/-- A dim of known size which is only in the key may die: then a key with another dim of this size is an error. -/
theorem dead_dim_error : ∃ c : Cache, set exW ⟨128, [], []⟩ [.dim 3, .raw 0] ⟨0, [9]⟩ = .ok c ∧ get exW c [.dim 4, .raw 0] = .ok (some ⟨0, [9]⟩) ∧ get exW (die c 3) [.dim 4, .raw 0] = .error .assertion := by
  refine ⟨_, rfl, ?_, ?_⟩ <;> decide +kernel

/-- A dim without anything known: the second use is an error, with a tensor of sizes it is fine. -/
theorem unknown_dim_error : ∃ c c' : Cache, set exW ⟨128, [], []⟩ [.dim 6] ⟨0, [6]⟩ = .ok c ∧ get exW c [.dim 6] = .error .typeError ∧
    set exW ⟨128, [], []⟩ [.dim 5] ⟨0, [5]⟩ = .ok c' ∧ get exW c' [.dim 5] = .ok (some ⟨0, [5]⟩) := by
  refine ⟨_, _, rfl, ?_, rfl, ?_⟩ <;> decide +kernel

theorem eq_refl (w : World) : ∀ (k : List Item), (∀ d ∈ dimsOf k, (w.size d).isSome ∨ (w.dyn d).isSome) → hashEqs (transform w k) (transform w k) = true ∧ eqs (transform w k) (transform w k) = .ok true := by
  intro k
  induction k with
  | nil => intro _; exact ⟨rfl, rfl⟩
  | cons a t ih =>
    intro h
    obtain ⟨h1, h2⟩ := ih (fun d hd => h d (by
      rw [mem_dimsOf] at hd ⊢
      obtain ⟨i, hi⟩ := hd
      exact ⟨i + 1, by simpa using hi⟩))
    have ha : hashEq (wrap w a) (wrap w a) = true ∧ eqW (wrap w a) (wrap w a) = .ok true := by
      cases a with
      | raw v => simp [wrap, hashEq, eqW]
      | tensor i r => simp [wrap, hashEq, eqW]
      | dim d =>
        have hd := h d (mem_dimsOf.2 ⟨0, rfl⟩)
        cases hs : w.size d with
        | some s => simp [wrap, hashEq, eqW, hs]
        | none =>
          cases hy : w.dyn d with
          | some y => simp [wrap, hashEq, eqW, hs, hy]
          | none => rw [hs, hy] at hd; simp at hd
    simp only [transform, List.map_cons, hashEqs, eqs] at h1 h2 ⊢
    rw [ha.1, ha.2, h1]
    exact ⟨rfl, h2⟩

theorem dimMap_alive (w : World) (dead : List Nat) : ∀ (k : List Item) (m0 : Dict Nat Nat), (∀ d ∈ dimsOf k, d ∉ dead) → (∀ a b, m0.get? a = some b → a = b) →
    ∃ m, dimMap dead (transform w k) (transform w k) m0 = .ok m ∧ ∀ a b, m.get? a = some b → a = b := by
  intro k
  induction k with
  | nil => intro m0 _ h; exact ⟨m0, rfl, h⟩
  | cons x t ih =>
    intro m0 hd hm
    have hd' : ∀ d ∈ dimsOf t, d ∉ dead := fun d h => hd d (by
      rw [mem_dimsOf] at h ⊢
      obtain ⟨i, hi⟩ := h
      exact ⟨i + 1, by simpa using hi⟩)
    cases x with
    | raw v =>
      obtain ⟨m, h1, h2⟩ := ih m0 hd' hm
      exact ⟨m, by simpa [transform, wrap, dimMap] using h1, h2⟩
    | tensor i r =>
      obtain ⟨m, h1, h2⟩ := ih m0 hd' hm
      exact ⟨m, by simpa [transform, wrap, dimMap] using h1, h2⟩
    | dim d =>
      obtain ⟨m, h1, h2⟩ := ih (m0.set d d) hd' (by
        intro a b h
        rw [Dict.get?_set] at h
        split at h
        · rename_i hda
          simp only [Option.some.injEq] at h
          rw [← hda, ← h]
        · exact hm a b h)
      have hnd := hd d (mem_dimsOf.2 ⟨0, rfl⟩)
      refine ⟨m, ?_, h2⟩
      simp only [transform, List.map_cons, wrap, dimMap, if_neg hnd]
      exact h1

theorem find_append {l : List (List W × Val)} {k : List W} (h : find l k = .ok none) {e : List W × Val} (hh : hashEqs e.1 k = true) (he : eqs e.1 k = .ok true) (n : Nat) : find (l.drop n ++ [e]) k = .ok (some e) := by
  induction l generalizing n with
  | nil => simp [find, hh, he]
  | cons a t ih =>
    have ht : find t k = .ok none := by
      unfold find at h
      split at h
      · split at h
        · cases h
        · cases h
        · exact h
      · exact h
    cases n with
    | succ n => exact ih ht n
    | zero =>
      have := ih ht 0
      simp only [List.drop_zero] at this ⊢
      unfold find at h
      rw [List.cons_append]
      unfold find
      split at h
      · rename_i h1
        rw [if_pos h1]
        split at h
        · cases h
        · cases h
        · exact this
      · rename_i h1
        rw [if_neg h1]
        exact this

/-- What was computed is kept: the same call again gives the same value from the cache, which does not change, when the sizes of the dims are known in some way and the dims are alive. -/
theorem second_call {w : World} {f : List Item → Val} {c c' : Cache} {k : List Item} {v : Val} (hn : 0 < c.maxSize) (hk : ∀ d ∈ dimsOf k, (w.size d).isSome ∨ (w.dyn d).isSome) (ha : ∀ d ∈ dimsOf k, d ∉ c.dead)
    (h : memo w f c k = .ok (c', v)) : get w c' k = .ok (some v) ∧ memo w f c' k = .ok (c', v) := by
  have hmain : get w c' k = .ok (some v) := by
    unfold memo at h
    split at h
    · cases h
    · rename_i hg
      simp only [Except.ok.injEq, Prod.mk.injEq] at h
      rw [← h.1, ← h.2]
      exact hg
    · rename_i hg
      split at h
      · cases h
      · rename_i hs
        simp only [Except.ok.injEq, Prod.mk.injEq] at h
        obtain ⟨rfl, rfl⟩ := h
        have hdead := (set_entries hs).2.1
        have hfind : find c.entries (transform w k) = .ok none := by
          unfold get at hg
          split at hg
          · cases hg
          · assumption
          · split at hg <;> cases hg
        unfold set at hs
        rw [hfind] at hs
        simp only at hs
        obtain ⟨r1, r2⟩ := eq_refl w k hk
        have hf2 : find _ (transform w k) = .ok (some (transform w k, f k)) := find_append hfind (e := (transform w k, f k)) r1 r2 (if c.entries.length < c.maxSize then 0 else 1)
        obtain ⟨m, hm1, hm2⟩ := dimMap_alive w c.dead k [] ha (by simp [Dict.get?])
        rw [if_neg (Nat.ne_of_gt hn)] at hs
        simp only [Except.ok.injEq] at hs
        subst hs
        have : find ((if c.entries.length < c.maxSize then c.entries else c.entries.drop 1) ++ [(transform w k, f k)]) (transform w k) = .ok (some (transform w k, f k)) := by
          rw [← hf2]
          split <;> simp
        unfold get
        rw [this]
        simp only [hdead, hm1]
        congr 2
        unfold mapOutput
        have : ∀ d, (m.get? d).getD d = d := by
          intro d
          cases hb : m.get? d with
          | none => rfl
          | some b => exact (hm2 d b hb).symm
        simp [this]
  refine ⟨hmain, ?_⟩
  unfold memo
  rw [hmain]

example : ∃ c c' v, Reach exW (PosKeys 1) (posEnc (fun _ _ o => o) exW 1) 128 c ∧ memo exW (posEnc (fun _ _ o => o) exW 1) c (posKey 4 2 7) = .ok (c', v) ∧ v = ⟨7, [4, 2]⟩ ∧ c.entries.length = 1 ∧ c'.entries.length = 1 :=
  ⟨_, _, _, .call .init ⟨3, 2, 7, rfl, by decide, by decide⟩ rfl, rfl, by decide +kernel, by decide +kernel, by decide +kernel⟩

end Verif.FrontCache
