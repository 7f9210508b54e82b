import Verif.BinOp.Lemmas
/-
The search for the axes: sound (the axes of the operand are matched one to one with equal dims), and it always succeeds
if no dim occurs twice.
-/
namespace Verif.BinOp

open Verif.Py

/-- A correct matching of the axes of `ds` with those of `outs`. -/
structure Matches (ds outs : List Dim) (p : List (Option Nat)) : Prop where
  cls : List.Forall₂ (fun o q => ∀ j, q = some j → (ds.getD j default).cls = o.cls) outs p
  perm : (somes p).Perm (List.range ds.length)

theorem Matches.length {ds outs : List Dim} {p : List (Option Nat)} (h : Matches ds outs p) : p.length = outs.length :=
  h.cls.length_eq.symm

/-- A choice of a free axis with an equal dim. -/
def PickSound (ds : List Dim) (pick : List Bool → Dim → Res (Option Nat)) : Prop :=
  ∀ taken d j, pick taken d = .ok (some j) →
    j < ds.length ∧ taken.getD j false = false ∧ (ds.getD j default).cls = d.cls

theorem mem_freeAxes {ds : List Dim} {taken : List Bool} {f : Dim → Bool} {j : Nat} :
    j ∈ freeAxes ds taken f ↔ j < ds.length ∧ taken.getD j false = false ∧ f (ds.getD j default) = true := by
  simp only [freeAxes, List.mem_filter, List.mem_range, Bool.and_eq_true, Bool.not_eq_true']

theorem pickSame_sound (ds : List Dim) : PickSound ds (pickSame ds) := by
  intro taken d j h
  have h' := mem_freeAxes.mp (List.mem_of_mem_head? (Except.ok.inj h))
  exact ⟨h'.1, h'.2.1, by rw [of_decide_eq_true h'.2.2]⟩

theorem mem_candidates {ds : List Dim} {taken : List Bool} {d : Dim} {j : Nat} (h : j ∈ candidates ds taken d) :
    j < ds.length ∧ taken.getD j false = false ∧ (ds.getD j default).cls = d.cls := by
  unfold candidates at h
  split at h
  · next k r hk =>
    have hj : j = k := by simpa using h
    have : j ∈ freeAxes ds taken (fun x => decide (x = d)) := by rw [hk, hj]; simp
    have h' := mem_freeAxes.mp this
    exact ⟨h'.1, h'.2.1, by rw [of_decide_eq_true h'.2.2]⟩
  · have h' := mem_freeAxes.mp h
    refine ⟨h'.1, h'.2.1, ?_⟩
    have := h'.2.2
    simp only [Dim.eq, beq_iff_eq] at this
    exact this.symm

theorem bestLoop_mem (ds : List Dim) (js : List Nat) (best : Option (Nat × Int × Nat)) (k : Nat) (m : Int) (c : Nat)
    (h : bestLoop ds js best = some (k, m, c)) : k ∈ js ∨ ∃ m' c', best = some (k, m', c') := by
  induction js generalizing best with
  | nil => exact Or.inr ⟨m, c, h⟩
  | cons j r ih =>
    cases best with
    | none =>
      simp only [bestLoop] at h
      rcases ih _ h with h | ⟨m', c', h⟩
      · exact Or.inl (List.mem_cons_of_mem _ h)
      · simp only [Option.some.injEq, Prod.mk.injEq] at h
        exact Or.inl (by simp [h.1])
    | some b =>
      obtain ⟨k0, m0, c0⟩ := b
      simp only [bestLoop] at h
      split at h
      · rcases ih _ h with h | ⟨m', c', h⟩
        · exact Or.inl (List.mem_cons_of_mem _ h)
        · simp only [Option.some.injEq, Prod.mk.injEq] at h
          exact Or.inl (by simp [h.1])
      · split at h
        · rcases ih _ h with h | ⟨m', c', h⟩
          · exact Or.inl (List.mem_cons_of_mem _ h)
          · simp only [Option.some.injEq, Prod.mk.injEq] at h
            exact Or.inr ⟨m0, c0, by simp [h.1]⟩
        · rcases ih _ h with h | ⟨m', c', h⟩
          · exact Or.inl (List.mem_cons_of_mem _ h)
          · simp only [Option.some.injEq, Prod.mk.injEq] at h
            exact Or.inr ⟨m0, c0, by simp [h.1]⟩

theorem pickGeneric_sound (ds : List Dim) : PickSound ds (pickGeneric ds) := by
  intro taken d j h
  apply mem_candidates
  unfold pickGeneric at h
  split at h
  · simp at h
  · next k hk =>
    rw [hk]
    simp only [Except.ok.injEq, Option.some.injEq] at h
    simp [h]
  · split at h
    · simp at h
    · next k m c hb =>
      split at h
      · simp at h
      · simp only [Except.ok.injEq, Option.some.injEq] at h
        subst h
        rcases bestLoop_mem ds _ none k m c hb with h | ⟨_, _, h⟩
        · exact h
        · simp at h

/-- What `permLoop` keeps. -/
theorem permLoop_sound {ds : List Dim} {pick : List Bool → Dim → Res (Option Nat)} (hpick : PickSound ds pick)
    (outs : List Dim) (taken : List Bool) (ht : taken.length = ds.length) (p : List (Option Nat)) (t : List Bool)
    (h : permLoop pick outs taken = .ok (p, t)) :
    List.Forall₂ (fun o q => ∀ j, q = some j → (ds.getD j default).cls = o.cls) outs p ∧
    (somes p).Nodup ∧ (∀ j ∈ somes p, j < ds.length ∧ taken.getD j false = false) ∧
    t.length = ds.length ∧ (∀ j < ds.length, t.getD j false = true ↔ taken.getD j false = true ∨ j ∈ somes p) := by
  induction outs generalizing taken p t with
  | nil =>
    simp only [permLoop, Except.ok.injEq, Prod.mk.injEq] at h
    obtain ⟨rfl, rfl⟩ := h
    exact ⟨.nil, by simp [somes], by simp [somes], ht, by simp [somes]⟩
  | cons d r ih =>
    simp only [permLoop] at h
    split at h
    · simp at h
    · next hd =>
      split at h
      · simp at h
      · next p' t' hr =>
        simp only [Except.ok.injEq, Prod.mk.injEq] at h
        obtain ⟨rfl, rfl⟩ := h
        obtain ⟨h1, h2, h3, h4, h5⟩ := ih taken ht p' _ hr
        exact ⟨.cons (by simp) h1, by simpa [somes] using h2, by simpa [somes] using h3, h4, by simpa [somes] using h5⟩
    · next j hd =>
      split at h
      · simp at h
      · next p' t' hr =>
        simp only [Except.ok.injEq, Prod.mk.injEq] at h
        obtain ⟨rfl, rfl⟩ := h
        obtain ⟨hj, hfree, hcls⟩ := hpick taken d j hd
        obtain ⟨h1, h2, h3, h4, h5⟩ := ih (taken.set j true) (by simpa using ht) p' _ hr
        have hset : ∀ k, (taken.set j true).getD k false = if k = j then true else taken.getD k false := by
          intro k
          by_cases hk : k = j
          · subst hk
            simp [List.getElem?_set, ht, hj]
          · simp [List.getElem?_set, hk, Ne.symm hk]
        refine ⟨.cons (by intro k hk; rw [← Option.some.inj hk]; exact hcls) h1, ?_, ?_, h4, ?_⟩
        · simp only [somes, List.nodup_cons]
          refine ⟨?_, h2⟩
          intro hmem
          have := (h3 j hmem).2
          rw [hset, if_pos rfl] at this
          simp at this
        · intro k hk
          simp only [somes, List.mem_cons] at hk
          rcases hk with rfl | hk
          · exact ⟨hj, hfree⟩
          · obtain ⟨a, b⟩ := h3 k hk
            refine ⟨a, ?_⟩
            rw [hset] at b
            split at b
            · simp at b
            · exact b
        · intro k hk
          rw [h5 k hk, hset]
          simp only [somes, List.mem_cons]
          by_cases hkj : k = j
          · simp [hkj]
          · simp [hkj]

theorem nodup_perm_range {q : List Nat} {n : Nat} (h : q.Nodup) (hlt : ∀ j ∈ q, j < n) (hl : q.length = n) :
    q.Perm (List.range n) := by
  have hs : q.Subperm (List.range n) := h.subperm (fun j hj => List.mem_range.mpr (hlt j hj))
  exact hs.perm_of_length_le (by simp [hl])

theorem permLoop_matches {ds outs : List Dim} {pick : List Bool → Dim → Res (Option Nat)} (hpick : PickSound ds pick)
    {p : List (Option Nat)} {t : List Bool}
    (h : permLoop pick outs (List.replicate ds.length false) = .ok (p, t)) (hm : matched p = ds.length) :
    Matches ds outs p := by
  obtain ⟨h1, h2, h3, _, _⟩ := permLoop_sound hpick outs _ (by simp) p t h
  exact ⟨h1, nodup_perm_range h2 (fun j hj => (h3 j hj).1) (by rw [← matched_eq, hm])⟩

theorem subsetReorder_matches {ds outs : List Dim} {p : List (Option Nat)} (h : subsetReorderFast ds outs = some p) :
    Matches ds outs p := by
  unfold subsetReorderFast at h
  split at h
  · simp at h
  · split at h
    · simp at h
    · next p' t hp =>
      split at h
      · next hall =>
        simp only [Option.some.injEq] at h
        subst h
        obtain ⟨h1, h2, h3, h4, h5⟩ := permLoop_sound (pickSame_sound ds) outs _ (by simp) p' t hp
        refine ⟨h1, ?_⟩
        apply (List.perm_ext_iff_of_nodup h2 List.nodup_range).mpr
        intro j
        rw [List.mem_range]
        refine ⟨fun hj => (h3 j hj).1, fun hj => ?_⟩
        have ht : t.getD j false = true := by
          have hj' : j < t.length := by omega
          have hmem : t[j] ∈ t := List.getElem_mem hj'
          have := List.all_eq_true.mp hall _ hmem
          simp only [id] at this
          simp [hj', this]
        rcases (h5 j hj).mp ht with h | h
        · simp [List.getElem?_replicate, hj] at h
        · exact h
      · simp at h

theorem somes_none (l : List Dim) : somes (l.map (fun _ => none)) = [] := by
  induction l with
  | nil => rfl
  | cons a l ih => simpa [somes] using ih

theorem subsetFast_sound (i : Nat) (ds outs : List Dim) (p : List (Option Nat)) (h : subsetFast i ds outs = some p) :
    List.Forall₂ (fun o q => ∀ j, q = some j → i ≤ j ∧ ds[j - i]? = some o) outs p ∧
    somes p = List.range' i ds.length := by
  induction outs generalizing i ds p with
  | nil =>
    cases ds with
    | nil => simp only [subsetFast, Option.some.injEq] at h; subst h; exact ⟨.nil, rfl⟩
    | cons a r => simp [subsetFast] at h
  | cons b s ih =>
    cases ds with
    | nil =>
      simp only [subsetFast, Option.some.injEq] at h
      subst h
      refine ⟨?_, by simpa using somes_none (b :: s)⟩
      rw [List.forall₂_map_right_iff]
      exact List.forall₂_same.mpr (by simp)
    | cons a r =>
      simp only [subsetFast] at h
      split at h
      · next hab =>
        subst hab
        simp only [Option.map_eq_some_iff] at h
        obtain ⟨p', hp', rfl⟩ := h
        obtain ⟨h1, h2⟩ := ih (i + 1) r p' hp'
        refine ⟨.cons ?_ ?_, ?_⟩
        · intro j hj
          have := Option.some.inj hj
          subst this
          simp
        · refine h1.imp ?_
          intro o q hq j hj
          obtain ⟨a1, a2⟩ := hq j hj
          refine ⟨by omega, ?_⟩
          have : j - i = (j - (i + 1)) + 1 := by omega
          rw [this, List.getElem?_cons_succ]
          exact a2
        · simp [somes, h2, List.range'_succ]
      · simp only [Option.map_eq_some_iff] at h
        obtain ⟨p', hp', rfl⟩ := h
        obtain ⟨h1, h2⟩ := ih i (a :: r) p' hp'
        exact ⟨.cons (by simp) h1, by simpa [somes] using h2⟩

theorem subsetFast_matches {ds outs : List Dim} {p : List (Option Nat)} (h : subsetFast 0 ds outs = some p) :
    Matches ds outs p := by
  obtain ⟨h1, h2⟩ := subsetFast_sound 0 ds outs p h
  refine ⟨h1.imp ?_, by rw [h2, List.range_eq_range']⟩
  intro o q hq j hj
  have := (hq j hj).2
  simp only [Nat.sub_zero] at this
  simp [this]

theorem permPy_matches {ds outs : List Dim} {p : List (Option Nat)} (h : permPy ds outs = .ok p) :
    Matches ds outs p := by
  unfold permPy at h
  split at h
  · simp at h
  · next p' t hp =>
    split at h
    · next hm =>
      have := Except.ok.inj h
      subst this
      exact permLoop_matches (pickGeneric_sound ds) hp hm
    · simp at h

theorem permNative_matches {ds outs : List Dim} {p : List (Option Nat)} (h : permNative ds outs = .ok p) :
    Matches ds outs p := by
  unfold permNative at h
  split at h
  · next p' hp =>
    have := Except.ok.inj h
    subst this
    exact subsetFast_matches hp
  · split at h
    · next p' hp =>
      have := Except.ok.inj h
      subst this
      exact subsetReorder_matches hp
    · split at h
      · simp at h
      · next p' t hp =>
        split at h
        · next hm =>
          have := Except.ok.inj h
          subst this
          exact permLoop_matches (pickGeneric_sound ds) hp hm
        · simp at h

/-! ### It succeeds if no dim occurs twice -/

theorem cls_inj {ds : List Dim} (hu : (ds.map Dim.cls).Nodup) {i j : Nat} (hi : i < ds.length) (hj : j < ds.length)
    (h : (ds.getD i default).cls = (ds.getD j default).cls) : i = j := by
  have := (List.nodup_iff_injective_get.mp hu)
  have h2 := @this ⟨i, by simpa using hi⟩ ⟨j, by simpa using hj⟩ (by
    simpa [List.getD_eq_getElem?_getD, hi, hj] using h)
  simpa using h2

theorem nodup_singleton {l : List Nat} (hn : l.Nodup) (h : ∀ x ∈ l, ∀ y ∈ l, x = y) : l = [] ∨ ∃ x, l = [x] := by
  cases l with
  | nil => exact Or.inl rfl
  | cons x l =>
    cases l with
    | nil => exact Or.inr ⟨x, rfl⟩
    | cons y l =>
      have := h x (by simp) y (by simp)
      simp [this] at hn

theorem freeAxes_nodup (ds : List Dim) (taken : List Bool) (f : Dim → Bool) : (freeAxes ds taken f).Nodup :=
  List.nodup_range.filter _

/-- With unique dims there is at most one candidate, and it is the free axis of this dim. -/
theorem pickGeneric_unique {ds : List Dim} (hu : (ds.map Dim.cls).Nodup) (taken : List Bool) (d : Dim) :
    ∃ o, pickGeneric ds taken d = .ok o ∧
      ∀ j < ds.length, taken.getD j false = false → (ds.getD j default).cls = d.cls → o = some j := by
  have hc : candidates ds taken d = [] ∨ ∃ x, candidates ds taken d = [x] := by
    unfold candidates
    split
    · exact Or.inr ⟨_, rfl⟩
    · apply nodup_singleton (freeAxes_nodup _ _ _)
      intro x hx y hy
      have hx := mem_freeAxes.mp hx
      have hy := mem_freeAxes.mp hy
      apply cls_inj hu hx.1 hy.1
      have h1 := hx.2.2
      have h2 := hy.2.2
      simp only [Dim.eq, beq_iff_eq] at h1 h2
      rw [← h1, ← h2]
  have hmem : ∀ j < ds.length, taken.getD j false = false → (ds.getD j default).cls = d.cls →
      j ∈ candidates ds taken d := by
    intro j hj hf hcls
    unfold candidates
    split
    · next k r hk =>
      have h' := mem_freeAxes.mp (show k ∈ freeAxes ds taken (fun x => decide (x = d)) by rw [hk]; simp)
      have : j = k := cls_inj hu hj h'.1 (by rw [of_decide_eq_true h'.2.2, hcls])
      simp [this]
    · exact mem_freeAxes.mpr ⟨hj, hf, by rw [Dim.eq, hcls]; simp⟩
  unfold pickGeneric
  rcases hc with h | ⟨x, h⟩
  · rw [h]
    refine ⟨none, rfl, ?_⟩
    intro j hj hf hcls
    have := hmem j hj hf hcls
    simp [h] at this
  · rw [h]
    refine ⟨some x, rfl, ?_⟩
    intro j hj hf hcls
    have := hmem j hj hf hcls
    simp only [h, List.mem_singleton] at this
    rw [this]

theorem permLoop_total {ds : List Dim} {pick : List Bool → Dim → Res (Option Nat)} {R : Dim → Dim → Prop}
    (hpick : ∀ taken d, ∃ o, pick taken d = .ok o ∧
      ∀ j < ds.length, taken.getD j false = false → R (ds.getD j default) d → o = some j)
    (outs : List Dim) (taken : List Bool) (ht : taken.length = ds.length) :
    ∃ p t, permLoop pick outs taken = .ok (p, t) ∧
      ∀ d ∈ outs, ∀ j < ds.length, R (ds.getD j default) d → taken.getD j false = true ∨ j ∈ somes p := by
  induction outs generalizing taken with
  | nil => exact ⟨[], taken, rfl, by simp⟩
  | cons d r ih =>
    obtain ⟨o, ho, hall⟩ := hpick taken d
    cases o with
    | none =>
      obtain ⟨p, t, hr, h⟩ := ih taken ht
      refine ⟨none :: p, t, by simp only [permLoop, ho, hr], ?_⟩
      intro e he j hj hcls
      rcases List.mem_cons.mp he with rfl | he
      · by_cases hf : taken.getD j false = true
        · exact Or.inl hf
        · have := hall j hj (by simpa using hf) hcls
          simp at this
      · simpa [somes] using h e he j hj hcls
    | some k =>
      obtain ⟨p, t, hr, h⟩ := ih (taken.set k true) (by simpa using ht)
      refine ⟨some k :: p, t, by simp only [permLoop, ho, hr], ?_⟩
      intro e he j hj hcls
      simp only [somes, List.mem_cons]
      by_cases hjk : j = k
      · exact Or.inr (Or.inl hjk)
      rcases List.mem_cons.mp he with rfl | he
      · by_cases hf : taken.getD j false = true
        · exact Or.inl hf
        · have := hall j hj (by simpa using hf) hcls
          exact absurd (Option.some.inj this).symm hjk
      · rcases h e he j hj hcls with h | h
        · left
          simpa [List.getElem?_set, hjk, Ne.symm hjk] using h
        · exact Or.inr (Or.inr h)

theorem permLoop_unique {ds : List Dim} (hu : (ds.map Dim.cls).Nodup) (outs : List Dim) (taken : List Bool)
    (ht : taken.length = ds.length) :
    ∃ p t, permLoop (pickGeneric ds) outs taken = .ok (p, t) ∧
      ∀ d ∈ outs, ∀ j < ds.length, (ds.getD j default).cls = d.cls → taken.getD j false = true ∨ j ∈ somes p :=
  permLoop_total (R := fun x d => x.cls = d.cls) (pickGeneric_unique hu) outs taken ht

/-- All dims are found. -/
theorem permLoop_complete {ds outs : List Dim} (hu : (ds.map Dim.cls).Nodup)
    (hs : ∀ d ∈ ds, d.cls ∈ outs.map Dim.cls) :
    ∃ p t, permLoop (pickGeneric ds) outs (List.replicate ds.length false) = .ok (p, t) ∧ matched p = ds.length := by
  obtain ⟨p, t, h, hall⟩ := permLoop_unique hu outs (List.replicate ds.length false) (by simp)
  refine ⟨p, t, h, ?_⟩
  obtain ⟨_, h2, h3, _, _⟩ := permLoop_sound (pickGeneric_sound ds) outs _ (by simp) p t h
  have : (somes p).Perm (List.range ds.length) := by
    apply (List.perm_ext_iff_of_nodup h2 List.nodup_range).mpr
    intro j
    rw [List.mem_range]
    refine ⟨fun hj => (h3 j hj).1, fun hj => ?_⟩
    have hmem : ds.getD j default ∈ ds := by simp [hj]
    obtain ⟨d, hd, hcls⟩ := List.mem_map.mp (hs _ hmem)
    rcases hall d hd j hj hcls.symm with h | h
    · simp [List.getElem?_replicate, hj] at h
    · exact h
  rw [matched_eq, this.length_eq, List.length_range]

theorem permPy_complete {ds outs : List Dim} (hu : (ds.map Dim.cls).Nodup)
    (hs : ∀ d ∈ ds, d.cls ∈ outs.map Dim.cls) : ∃ p, permPy ds outs = .ok p := by
  obtain ⟨p, t, h, hm⟩ := permLoop_complete hu hs
  exact ⟨p, by simp only [permPy, h, if_pos hm]⟩

theorem permNative_complete {ds outs : List Dim} (hu : (ds.map Dim.cls).Nodup)
    (hs : ∀ d ∈ ds, d.cls ∈ outs.map Dim.cls) : ∃ p, permNative ds outs = .ok p := by
  obtain ⟨p, t, h, hm⟩ := permLoop_complete hu hs
  unfold permNative
  split
  · next q hq => exact ⟨q, rfl⟩
  · split
    · next q hq => exact ⟨q, rfl⟩
    · exact ⟨p, by simp only [h, if_pos hm]⟩

/-- The very dims of `ds` are found in `outs`. -/
theorem subsetReorderFast_complete {ds outs : List Dim} (hu : (ds.map Dim.cls).Nodup) (hs : ∀ d ∈ ds, d ∈ outs) :
    ∃ p, subsetReorderFast ds outs = some p := by
  have hn : ds.Nodup := List.Nodup.of_map _ hu
  have hle : ds.length ≤ outs.length := (hn.subperm hs).length_le
  obtain ⟨p, t, h, hall⟩ := permLoop_total (ds := ds) (pick := pickSame ds) (R := fun x d => x = d) (by
    intro taken d
    refine ⟨_, rfl, ?_⟩
    intro j hj hf hd
    have hmem : j ∈ freeAxes ds taken (fun x => decide (x = d)) := mem_freeAxes.mpr ⟨hj, hf, by simpa using hd⟩
    rcases nodup_singleton (freeAxes_nodup ds taken (fun x => decide (x = d))) (by
      intro x hx y hy
      have hx := mem_freeAxes.mp hx
      have hy := mem_freeAxes.mp hy
      exact cls_inj hu hx.1 hy.1 (by rw [of_decide_eq_true hx.2.2, of_decide_eq_true hy.2.2])) with h | ⟨x, h⟩
    · simp [h] at hmem
    · rw [h] at hmem ⊢
      simp only [List.mem_singleton] at hmem
      simp [hmem]) outs (List.replicate ds.length false) (by simp)
  obtain ⟨_, h2, h3, h4, h5⟩ := permLoop_sound (pickSame_sound ds) outs _ (by simp) p t h
  refine ⟨p, ?_⟩
  unfold subsetReorderFast
  rw [if_neg (by omega), h]
  simp only
  rw [if_pos]
  rw [List.all_eq_true]
  intro x hx
  obtain ⟨j, hj, rfl⟩ := List.getElem_of_mem hx
  have hj' : j < ds.length := by omega
  have hmem : ds.getD j default ∈ ds := by simp [hj']
  have := (h5 j hj').mpr (hall _ (hs _ hmem) j hj' rfl)
  simpa [hj] using this

/-! ### The matching is unique if the dims of the result are unique -/

theorem matches_unique {ds outs : List Dim} (hu : (outs.map Dim.cls).Nodup) {p q : List (Option Nat)}
    (hp : Matches ds outs p) (hq : Matches ds outs q) : p = q := by
  have huo := hu
  have key : ∀ {p : List (Option Nat)}, Matches ds outs p → ∀ (i j : Nat), p[i]? = some (some j) →
      j < ds.length ∧ ∃ o : Dim, outs[i]? = some o ∧ o.cls = (ds.getD j default).cls := by
    intro p hp i j hij
    have hj : j ∈ somes p := mem_somes.mpr (List.mem_of_getElem? hij)
    have hj' := List.mem_range.mp (hp.perm.mem_iff.mp hj)
    have hi : i < outs.length := by
      have := (List.getElem?_eq_some_iff.mp hij).1
      rw [hp.length] at this
      exact this
    refine ⟨hj', outs[i], List.getElem?_eq_getElem hi, ?_⟩
    have := (List.forall₂_iff_get.mp hp.cls).2 i hi (by rw [hp.length]; exact hi)
    have h2 := this j (by
      have := List.getElem?_eq_some_iff.mp hij
      simpa using this.2)
    simpa using h2.symm
  have ex : ∀ {p : List (Option Nat)}, Matches ds outs p → ∀ j < ds.length, ∃ i : Nat, p[i]? = some (some j) := by
    intro p hp j hj
    exact List.getElem?_of_mem (perm_mem hp.perm hj)
  have one : ∀ {p q : List (Option Nat)}, Matches ds outs p → Matches ds outs q → ∀ (i j : Nat), p[i]? = some (some j) →
      q[i]? = some (some j) := by
    intro p q hp hq i j hij
    obtain ⟨hj, o, ho, hc⟩ := key hp i j hij
    obtain ⟨k, hk⟩ := ex hq j hj
    obtain ⟨_, o', ho', hc'⟩ := key hq k j hk
    have hi := (List.getElem?_eq_some_iff.mp ho)
    have hk' := (List.getElem?_eq_some_iff.mp ho')
    have : i = k := by
      apply cls_inj huo hi.1 hk'.1
      simp [ho, ho', hc, hc']
    rw [this]
    exact hk
  apply List.ext_getElem?
  intro i
  by_cases hi : i < outs.length
  · have hip : i < p.length := by rw [hp.length]; exact hi
    have hiq : i < q.length := by rw [hq.length]; exact hi
    have h1 : p[i]? = some p[i] := List.getElem?_eq_getElem hip
    have h2 : q[i]? = some q[i] := List.getElem?_eq_getElem hiq
    cases hpi : p[i] with
    | some j => rw [h1, hpi, one hp hq i j (by rw [h1, hpi])]
    | none =>
      cases hqi : q[i] with
      | none => rw [h1, h2, hpi, hqi]
      | some j =>
        have := one hq hp i j (by rw [h2, hqi])
        rw [h1, hpi] at this
        simp at this
  · rw [List.getElem?_eq_none (by rw [hp.length]; omega), List.getElem?_eq_none (by rw [hq.length]; omega)]

end Verif.BinOp
