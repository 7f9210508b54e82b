import Verif.BinOp.Axes
/-
Combining two aligned operands; the dims of the result.
-/
namespace Verif.BinOp

open Verif.Py

/-! ### Counting dims -/

/-- The classes of the matched dims of the result. -/
def hits : List Dim → List (Option Nat) → List Nat
  | o :: os, some _ :: p => o.cls :: hits os p
  | _ :: os, none :: p => hits os p
  | _, _ => []

theorem hits_perm {ds outs : List Dim} {p : List (Option Nat)} (h : Matches ds outs p) :
    (hits outs p).Perm (ds.map Dim.cls) := by
  have e : hits outs p = (somes p).map (fun j => (ds.getD j default).cls) := by
    have := h.cls
    clear h
    induction this with
    | nil => rfl
    | @cons o q os p hoq _ ih =>
      cases q with
      | none => simpa [hits, somes] using ih
      | some j => simp only [hits, somes, List.map_cons]; rw [ih, hoq j rfl]
  rw [e]
  refine (h.perm.map _).trans ?_
  apply List.Perm.of_eq
  apply List.ext_getElem
  · simp
  · intro i h1 h2
    simp only [List.length_map, List.length_range] at h1
    simp [h1]

theorem hits_sublist (outs : List Dim) (p : List (Option Nat)) : (hits outs p).Sublist (outs.map Dim.cls) := by
  induction outs generalizing p with
  | nil => cases p <;> simp [hits]
  | cons o os ih =>
    cases p with
    | nil => simp [hits]
    | cons q p =>
      cases q with
      | none => simpa [hits] using (ih p).cons _
      | some j => simpa [hits] using (ih p)

theorem count_le_of_matches {ds outs : List Dim} {p : List (Option Nat)} (h : Matches ds outs p) (c : Nat) :
    (ds.map Dim.cls).count c ≤ (outs.map Dim.cls).count c := by
  rw [← (hits_perm h).count_eq]
  exact (hits_sublist outs p).count_le c

theorem hits_count_lt {outs : List Dim} {p : List (Option Nat)} {i : Nat} {o : Dim} (ho : outs[i]? = some o)
    (hp : p[i]? = some none) : (hits outs p).count o.cls < (outs.map Dim.cls).count o.cls := by
  induction outs generalizing p i with
  | nil => simp at ho
  | cons x os ih =>
    cases p with
    | nil => simp at hp
    | cons q p =>
      cases i with
      | zero =>
        simp only [List.getElem?_cons_zero, Option.some.injEq] at ho hp
        subst ho hp
        simp only [hits, List.map_cons, List.count_cons_self]
        have := (hits_sublist os p).count_le x.cls
        omega
      | succ i =>
        simp only [List.getElem?_cons_succ] at ho hp
        have := ih ho hp
        cases q with
        | none =>
          simp only [hits, List.map_cons, List.count_cons]
          omega
        | some j =>
          simp only [hits, List.map_cons, List.count_cons]
          omega

/-- An operand which has a dim as often as the result is matched at all axes of this dim. -/
theorem matched_of_count {ds outs : List Dim} {p : List (Option Nat)} (h : Matches ds outs p) {i : Nat} {o : Dim}
    (ho : outs[i]? = some o) (hc : (outs.map Dim.cls).count o.cls = (ds.map Dim.cls).count o.cls) :
    p[i]? ≠ some none := by
  intro hp
  have := hits_count_lt ho hp
  rw [(hits_perm h).count_eq] at this
  omega

/-! ### Aligned operands -/

/-- A raw tensor which can be used for `t` in an operation with the dims `outs`. -/
structure Aligned {α : Type} (sz : Nat → Nat) (outs : List Dim) (t : Tensor α) (p : List (Option Nat)) (r : Raw α) :
    Prop where
  m : Matches t.dims outs p
  shape : r.shape = p.map (optSize t.raw.shape) ∨ (r.shape = [] ∧ t.dims = [])
  value : ∀ idx, InB idx (outs.map (fun d => sz d.cls)) →
    r.get (project r.shape idx) = t.raw.get (along t.dims.length (fun j => p.idxOf (some j)) idx)

theorem optSize_matches {α : Type} {sz : Nat → Nat} {outs : List Dim} {t : Tensor α} {p : List (Option Nat)}
    (hv : Valid sz t) (hm : Matches t.dims outs p) {i : Nat} {o : Dim} {q : Option Nat} (ho : outs[i]? = some o)
    (hq : p[i]? = some q) : optSize t.raw.shape q = if q = none then 1 else sz o.cls := by
  cases q with
  | none => simp [optSize]
  | some j =>
    rw [if_neg (by simp)]
    have hj : j < t.dims.length :=
      List.mem_range.mp (hm.perm.mem_iff.mp (mem_somes.mpr (List.mem_of_getElem? hq)))
    obtain ⟨hi, ho'⟩ := List.getElem?_eq_some_iff.mp ho
    obtain ⟨hi2, hq'⟩ := List.getElem?_eq_some_iff.mp hq
    have h := (List.forall₂_iff_get.mp hm.cls).2 i hi hi2 j (by simpa using hq')
    simp only [List.get_eq_getElem, ho'] at h
    simp only [optSize]
    rw [hv, ← h]
    simp [hj]

theorem project_same {shape idx : List Nat} (h : shape.length = idx.length) :
    project shape idx = List.zipWith (fun s i => if s = 1 then 0 else i) shape idx := by
  simp [project, h]

theorem aligned_of_expanded {α : Type} {sz : Nat → Nat} {outs : List Dim} {t : Tensor α} {p : List (Option Nat)}
    {r : Raw α} (hv : Valid sz t) (hm : Matches t.dims outs p) (he : Expanded t.raw p r) : Aligned sz outs t p r := by
  refine ⟨hm, Or.inl he.shape, ?_⟩
  intro idx hidx
  have hil : idx.length = outs.length := by simpa using hidx.length_eq
  have hsl : r.shape.length = idx.length := by rw [he.shape, List.length_map, hm.length, hil]
  have hn : t.raw.shape.length = t.dims.length := by rw [hv]; simp
  rw [project_same hsl]
  -- the size of an axis and the index there
  have hat : ∀ i (hi : i < outs.length), ∃ q, p[i]? = some q ∧
      r.shape[i]? = some (if q = none then 1 else sz outs[i].cls) ∧ ∃ x, idx[i]? = some x ∧ x < sz outs[i].cls := by
    intro i hi
    have hip : i < p.length := by rw [hm.length]; exact hi
    refine ⟨p[i], List.getElem?_eq_getElem hip, ?_, ?_⟩
    · rw [he.shape, List.getElem?_map, List.getElem?_eq_getElem hip, Option.map_some]
      rw [optSize_matches hv hm (List.getElem?_eq_getElem hi) (List.getElem?_eq_getElem hip)]
    · have hix : i < idx.length := by omega
      refine ⟨idx[i], List.getElem?_eq_getElem hix, ?_⟩
      have := (List.forall₂_iff_get.mp hidx).2 i hix (by simpa using hi)
      simpa using this
  rw [he.value]
  · rw [hn]
    congr 1
    apply List.map_congr_left
    intro j hj
    have hmem := perm_mem hm.perm (List.mem_range.mp hj)
    have hlt : p.idxOf (some j) < p.length := List.idxOf_lt_length_of_mem hmem
    have hpi : p[p.idxOf (some j)]? = some (some j) := by
      rw [List.getElem?_eq_getElem hlt, List.getElem_idxOf hlt]
    obtain ⟨q, hq, hs, x, hx, hxl⟩ := hat (p.idxOf (some j)) (by rw [← hm.length]; exact hlt)
    rw [hpi] at hq
    have := Option.some.inj hq
    subst this
    rw [if_neg (by simp)] at hs
    rw [List.getD_eq_getElem?_getD, List.getD_eq_getElem?_getD, List.getElem?_zipWith, hs, hx]
    simp only [Option.getD_some]
    split
    · omega
    · rfl
  · unfold InB
    rw [List.forall₂_iff_get]
    refine ⟨by simp [hsl], ?_⟩
    intro i h1 h2
    have hi : i < outs.length := by omega
    obtain ⟨q, hq, hs, x, hx, hxl⟩ := hat i hi
    have hs' := (List.getElem?_eq_some_iff.mp hs).2
    have hx' := (List.getElem?_eq_some_iff.mp hx).2
    simp only [List.get_eq_getElem, List.getElem_zipWith]
    rw [hs', hx']
    by_cases hqn : q = none
    · simp [hqn]
    · simp only [if_neg hqn]
      split <;> omega

theorem matches_id (ds : List Dim) : Matches ds ds ((List.range ds.length).map some) := by
  refine ⟨?_, by rw [somes_map_some]⟩
  rw [List.forall₂_iff_get]
  refine ⟨by simp, ?_⟩
  intro i h1 h2 j hj
  simp only [List.get_eq_getElem, List.getElem_map, List.getElem_range, Option.some.injEq] at hj
  subst hj
  simp [h1]

/-- The raw tensor itself. -/
theorem aligned_id {α : Type} {sz : Nat → Nat} {t : Tensor α} (hv : Valid sz t) :
    Aligned sz t.dims t ((List.range t.dims.length).map some) t.raw := by
  have hn : t.dims.length = t.raw.shape.length := by rw [hv]; simp
  apply aligned_of_expanded hv (matches_id _)
  obtain ⟨r1, hr1⟩ : ∃ r1, permute t.raw (List.range t.raw.shape.length) = .ok r1 := ⟨_, permute_ok t.raw (List.Perm.refl _)⟩
  obtain ⟨s1, s2⟩ := permute_sorted t.raw r1 hr1
  have h2 := permute_expanded t.raw ((List.range t.dims.length).map some)
    (by rw [somes_map_some, hn]) (by simp [hn]) r1 (by rw [somes_map_some, hn]; exact hr1)
  refine ⟨by rw [← h2.shape, s1], ?_⟩
  intro idx hidx
  rw [← h2.value idx (by rw [s1]; exact hidx), s2 idx hidx.length_eq]

/-- A scalar. -/
theorem aligned_scalar {α : Type} {sz : Nat → Nat} {t : Tensor α} (hv : Valid sz t) (hd : t.dims = []) (outs : List Dim) :
    Aligned sz outs t (outs.map (fun _ => none)) t.raw := by
  have hs : t.raw.shape = [] := by rw [hv, hd]; rfl
  refine ⟨⟨?_, by rw [somes_none, hd]; exact List.Perm.refl _⟩, Or.inr ⟨hs, hd⟩, ?_⟩
  · rw [List.forall₂_map_right_iff]
    exact List.forall₂_same.mpr (by simp)
  · intro idx _
    simp [hs, hd, project, along]

theorem aligned_native {α : Type} {sz : Nat → Nat} {t : Tensor α} {outs : List Dim} {p : List (Option Nat)}
    (hv : Valid sz t) (hm : Matches t.dims outs p) :
    ∃ r, permuteAndExtend t.dims t.raw outs p = .ok r ∧ Aligned sz outs t p r := by
  have hn : t.dims.length = t.raw.shape.length := by rw [hv]; simp
  obtain ⟨r, h1, h2⟩ := expanded_native t.raw t.dims outs p hn hm.length (by rw [← hn]; exact hm.perm)
  exact ⟨r, h1, aligned_of_expanded hv hm h2⟩

theorem aligned_copyNative {α : Type} {sz : Nat → Nat} {t : Tensor α} {outs : List Dim} {r : Raw α} (hv : Valid sz t)
    (h : copyCompatNative t.dims t.raw outs = .ok r) : ∃ p, Aligned sz outs t p r := by
  unfold copyCompatNative at h
  split at h
  · simp at h
  · next p hp =>
    obtain ⟨r', h1, h2⟩ := aligned_native hv (permNative_matches hp)
    rw [h1] at h
    have := Except.ok.inj h
    subst this
    exact ⟨p, h2⟩

theorem aligned_copyPy {α : Type} {sz : Nat → Nat} {t : Tensor α} {outs : List Dim} {r : Raw α} (hv : Valid sz t)
    (h : copyCompatPy t.dims t.raw outs = .ok r) : ∃ p, Aligned sz outs t p r := by
  have hn : t.dims.length = t.raw.shape.length := by rw [hv]; simp
  cases hp : permPy t.dims outs with
  | error e => simp [copyCompatPy, hp] at h
  | ok p =>
    have hm := permPy_matches hp
    obtain ⟨r', h1, h2⟩ := expanded_py t.raw t.dims outs p hn hp (by rw [← hn]; exact hm.perm)
    rw [h1] at h
    have := Except.ok.inj h
    subst this
    exact ⟨p, aligned_of_expanded hv hm h2⟩

theorem aligned_operandPy {α : Type} {sz : Nat → Nat} {t : Tensor α} {outs : List Dim} {r : Raw α} (hv : Valid sz t)
    (h : operandPy t outs = .ok r) : ∃ p, Aligned sz outs t p r := by
  unfold operandPy at h
  split at h
  · next hd =>
    have := Except.ok.inj h
    subst this
    exact ⟨_, aligned_scalar hv hd outs⟩
  · exact aligned_copyPy hv h

/-! ### The operation on aligned operands -/

theorem bcShapeRev_map {ι : Type} (l : List ι) (f g s : ι → Nat)
    (h : ∀ i ∈ l, (f i = s i ∨ f i = 1) ∧ (g i = s i ∨ g i = 1) ∧ (f i = s i ∨ g i = s i)) :
    bcShapeRev (l.map f) (l.map g) = .ok (l.map s) := by
  induction l with
  | nil => rfl
  | cons i l ih =>
    have h1 := h i (by simp)
    have hb : bcSize (f i) (g i) = .ok (s i) := by
      unfold bcSize
      rcases h1 with ⟨a | a, b | b, c | c⟩ <;> (repeat' split) <;> simp_all
    simp only [List.map_cons, bcShapeRev, hb]
    rw [ih (fun j hj => h j (List.mem_cons_of_mem _ hj))]

theorem map_range_eq {β : Type} (l : List β) (f : Nat → β) (h : ∀ i x, l[i]? = some x → f i = x) :
    l = (List.range l.length).map f := by
  apply List.ext_getElem
  · simp
  · intro i h1 h2
    simp [h i l[i] (List.getElem?_eq_getElem h1)]

theorem rawOp_aligned {α β : Type} {sz : Nat → Nat} {outs : List Dim} {a b : Tensor α} {pa pb : List (Option Nat)}
    {ra rb : Raw α} (op : α → α → β) (hva : Valid sz a) (hvb : Valid sz b) (ha : Aligned sz outs a pa ra)
    (hb : Aligned sz outs b pb rb)
    (hcover : ∀ (i : Nat) (o : Dim), outs[i]? = some o → pa[i]? ≠ some none ∨ pb[i]? ≠ some none) :
    ∃ r, rawOp op ra rb = .ok r ∧ r.shape = outs.map (fun d => sz d.cls) ∧
      ∀ idx, InB idx r.shape →
        r.get idx = op (a.raw.get (along a.dims.length (fun j => pa.idxOf (some j)) idx))
          (b.raw.get (along b.dims.length (fun j => pb.idxOf (some j)) idx)) := by
  have key : bcShapeRev ra.shape.reverse rb.shape.reverse = .ok (outs.map (fun d => sz d.cls)).reverse := by
    -- sizes as functions of the axis
    have hfull : ∀ {t : Tensor α} {p : List (Option Nat)}, Valid sz t → Matches t.dims outs p →
        p.map (optSize t.raw.shape) = (List.range outs.length).map (fun i => optSize t.raw.shape (p.getD i none)) := by
      intro t p _ hm
      have := map_range_eq (p.map (optSize t.raw.shape)) (fun i => optSize t.raw.shape (p.getD i none)) (by
        intro i x hx
        rw [List.getElem?_map, Option.map_eq_some_iff] at hx
        obtain ⟨q, hq, rfl⟩ := hx
        simp [hq])
      rw [List.length_map, hm.length] at this
      exact this
    have hS : outs.map (fun d => sz d.cls) = (List.range outs.length).map (fun i => sz (outs.getD i default).cls) := by
      have := map_range_eq (outs.map (fun d => sz d.cls)) (fun i => sz (outs.getD i default).cls) (by
        intro i x hx
        rw [List.getElem?_map, Option.map_eq_some_iff] at hx
        obtain ⟨q, hq, rfl⟩ := hx
        simp [hq])
      rw [List.length_map] at this
      exact this
    have hsize : ∀ {t : Tensor α} {p : List (Option Nat)}, Valid sz t → Matches t.dims outs p →
        ∀ i < outs.length, optSize t.raw.shape (p.getD i none) =
          if p[i]? = some none then 1 else sz (outs.getD i default).cls := by
      intro t p hv hm i hi
      have hip : i < p.length := by rw [hm.length]; exact hi
      have e := optSize_matches hv hm (List.getElem?_eq_getElem hi) (List.getElem?_eq_getElem hip)
      simp only [List.getD_eq_getElem?_getD, List.getElem?_eq_getElem hip, List.getElem?_eq_getElem hi,
        Option.getD_some, Option.some.injEq]
      exact e
    have hall : ∀ {t : Tensor α} {p : List (Option Nat)}, Valid sz t → Matches t.dims outs p →
        (∀ i < outs.length, p[i]? ≠ some none) →
        p.map (optSize t.raw.shape) = outs.map (fun d => sz d.cls) := by
      intro t p hv hm h
      rw [hfull hv hm, hS]
      apply List.map_congr_left
      intro i hi
      have hi := List.mem_range.mp hi
      rw [hsize hv hm i hi, if_neg (h i hi)]
    have hnone : ∀ {t : Tensor α} {p : List (Option Nat)}, Matches t.dims outs p → t.dims = [] →
        ∀ i < outs.length, p[i]? = some none := by
      intro t p hm hd i hi
      have hip : i < p.length := by rw [hm.length]; exact hi
      rw [List.getElem?_eq_getElem hip]
      cases hq : p[i] with
      | none => rfl
      | some j =>
        have : j ∈ somes p := mem_somes.mpr (hq ▸ List.getElem_mem hip)
        have := hm.perm.mem_iff.mp this
        simp [hd] at this
    rcases ha.shape with hsa | ⟨hsa, hda⟩
    · rcases hb.shape with hsb | ⟨hsb, hdb⟩
      · rw [hsa, hsb, hfull hva ha.m, hfull hvb hb.m, hS]
        rw [← List.map_reverse, ← List.map_reverse, ← List.map_reverse]
        apply bcShapeRev_map
        intro i hi
        have hi : i < outs.length := by simpa using hi
        rw [hsize hva ha.m i hi, hsize hvb hb.m i hi]
        have hc := hcover i _ (List.getElem?_eq_getElem hi)
        rcases hc with hc | hc
        · rw [if_neg hc]
          refine ⟨Or.inl rfl, ?_, Or.inl rfl⟩
          split
          · exact Or.inr rfl
          · exact Or.inl rfl
        · rw [if_neg hc]
          refine ⟨?_, Or.inl rfl, Or.inr rfl⟩
          split
          · exact Or.inr rfl
          · exact Or.inl rfl
      · rw [hsb, hsa, hall hva ha.m]
        · cases (outs.map (fun d => sz d.cls)).reverse <;> rfl
        · intro i hi
          rcases hcover i _ (List.getElem?_eq_getElem hi) with h | h
          · exact h
          · exact absurd (hnone hb.m hdb i hi) h
    · rcases hb.shape with hsb | ⟨hsb, hdb⟩
      · rw [hsa, hsb, hall hvb hb.m]
        · rfl
        · intro i hi
          rcases hcover i _ (List.getElem?_eq_getElem hi) with h | h
          · exact absurd (hnone ha.m hda i hi) h
          · exact h
      · rw [hsa, hsb]
        have : outs = [] := by
          cases outs with
          | nil => rfl
          | cons o os =>
            rcases hcover 0 o rfl with h | h
            · exact absurd (hnone ha.m hda 0 (by simp)) h
            · exact absurd (hnone hb.m hdb 0 (by simp)) h
        subst this
        rfl
  refine ⟨⟨(outs.map (fun d => sz d.cls)).reverse.reverse, _⟩, by simp only [rawOp, key]; rfl, by simp, ?_⟩
  intro idx hidx
  simp only [List.reverse_reverse] at hidx
  simp only
  rw [ha.value idx hidx, hb.value idx hidx]

theorem axisMap_of_matches {ds outs : List Dim} {p : List (Option Nat)} (h : Matches ds outs p) :
    AxisMap ds outs (fun j => p.idxOf (some j)) := by
  have hat : ∀ j < ds.length, p[p.idxOf (some j)]? = some (some j) := by
    intro j hj
    have hlt : p.idxOf (some j) < p.length := List.idxOf_lt_length_of_mem (perm_mem h.perm hj)
    rw [List.getElem?_eq_getElem hlt, List.getElem_idxOf hlt]
  refine ⟨?_, ?_⟩
  · intro j d hd
    obtain ⟨hj, hd'⟩ := List.getElem?_eq_some_iff.mp hd
    have h1 := hat j hj
    obtain ⟨hi, hq⟩ := List.getElem?_eq_some_iff.mp h1
    have hio : p.idxOf (some j) < outs.length := by rw [← h.length]; exact hi
    refine ⟨outs[p.idxOf (some j)], List.getElem?_eq_getElem hio, ?_⟩
    have := (List.forall₂_iff_get.mp h.cls).2 _ hio hi j (by simpa using hq)
    simp only [List.get_eq_getElem] at this
    rw [← this]
    simp [hd]
  · intro i hi j hj hij
    have h1 := hat i hi
    have h2 := hat j hj
    simp only at hij
    rw [hij, h2] at h1
    simpa using h1.symm

/-- Operands which are aligned with dims that occur as often as they should give the right result. -/
theorem broadcast_of_aligned {α β : Type} {sz : Nat → Nat} {outs : List Dim} {a b : Tensor α}
    {pa pb : List (Option Nat)} {ra rb : Raw α} (op : α → α → β) (hva : Valid sz a) (hvb : Valid sz b)
    (ha : Aligned sz outs a pa ra) (hb : Aligned sz outs b pb rb)
    (hcount : ∀ c, (outs.map Dim.cls).count c = max ((a.dims.map Dim.cls).count c) ((b.dims.map Dim.cls).count c)) :
    ∃ r, rawOp op ra rb = .ok r ∧ ∀ f s, IsBroadcastAxes sz op a b ⟨outs, f, s, r⟩ := by
  obtain ⟨r, h1, h2, h3⟩ := rawOp_aligned op hva hvb ha hb (by
    intro i o ho
    have := hcount o.cls
    rcases Nat.le_total ((a.dims.map Dim.cls).count o.cls) ((b.dims.map Dim.cls).count o.cls) with hle | hle
    · right
      exact matched_of_count hb.m ho (by omega)
    · left
      exact matched_of_count ha.m ho (by omega))
  exact ⟨r, h1, fun f s => ⟨h2, hcount, _, _, axisMap_of_matches ha.m, axisMap_of_matches hb.m, h3⟩⟩

/-- With unique dims the axes are determined by the dims. -/
theorem broadcast_of_axes {α β : Type} {sz : Nat → Nat} {op : α → α → β} {a b : Tensor α} {out : Tensor β}
    (ha : Unique a) (hb : Unique b) (h : IsBroadcastAxes sz op a b out) : IsBroadcast sz op a b out := by
  have hca := List.nodup_iff_count_le_one.mp ha
  have hcb := List.nodup_iff_count_le_one.mp hb
  refine ⟨h.valid, ?_, ?_, ?_⟩
  · apply List.nodup_iff_count_le_one.mpr
    intro c
    have := h.dims c
    have h1 := hca c
    have h2 := hcb c
    omega
  · intro c
    rw [← List.count_pos_iff, ← List.count_pos_iff, ← List.count_pos_iff, h.dims c]
    omega
  · intro σ hσ
    obtain ⟨fa, fb, hfa, hfb, hval⟩ := h.value
    have along_eq : ∀ {ds : List Dim} {f : Nat → Nat}, AxisMap ds out.dims f →
        along ds.length f (out.dims.map (fun d => σ d.cls)) = ds.map (fun d => σ d.cls) := by
      intro ds f hf
      apply List.ext_getElem
      · simp [along]
      · intro i h1 h2
        have hi : i < ds.length := by simpa using h2
        obtain ⟨o, ho, hc⟩ := hf.1 i _ (List.getElem?_eq_getElem hi)
        simp [along, ho, hc]
    unfold valueAt
    rw [hval, along_eq hfa, along_eq hfb]
    rw [show out.raw.shape = _ from h.valid, List.forall₂_map_left_iff, List.forall₂_map_right_iff]
    exact List.forall₂_same.mpr hσ

/-! ### The dims of the result -/

theorem countEq_eq (ds : List Dim) (d : Dim) : countEq ds d = (ds.map Dim.cls).count d.cls := by
  unfold countEq
  rw [List.count_eq_countP, List.countP_map, List.countP_eq_length_filter]
  rfl

theorem any_eq_iff (acc : List Dim) (d : Dim) :
    acc.any (fun x => x.eq d) = true ↔ 0 < (acc.map Dim.cls).count d.cls := by
  rw [List.count_pos_iff]
  simp [Dim.eq]

theorem count_of_all {l : List Dim} {c : Nat} (h : ∀ x ∈ l, x.cls = c) (c' : Nat) :
    (l.map Dim.cls).count c' = if c' = c then l.length else 0 := by
  have : l.map Dim.cls = List.replicate l.length c := by
    rw [List.eq_replicate_iff]
    exact ⟨by simp, by simpa using h⟩
  rw [this, List.count_replicate]
  by_cases hc : c' = c
  · simp [hc]
  · simp [hc, Ne.symm hc]

theorem all_filter_cls (l : List Dim) (d : Dim) : ∀ x ∈ l.filter (fun x => x.eq d), x.cls = d.cls := by
  intro x hx
  simpa [Dim.eq] using (List.mem_filter.mp hx).2

/-- Invariant: dims which were seen occur as often as they should, others do not occur. -/
def CountInv (a b acc seen : List Dim) : Prop :=
  ∀ c, (c ∈ seen.map Dim.cls →
      (acc.map Dim.cls).count c = max ((a.map Dim.cls).count c) ((b.map Dim.cls).count c)) ∧
    (c ∉ seen.map Dim.cls → (acc.map Dim.cls).count c = 0)

theorem countInv_add {a b acc seen new : List Dim} {d : Dim} (h : CountInv a b acc seen)
    (hno : ¬ 0 < (acc.map Dim.cls).count d.cls) (hcls : ∀ x ∈ new, x.cls = d.cls)
    (hlen : new.length = max ((a.map Dim.cls).count d.cls) ((b.map Dim.cls).count d.cls)) :
    CountInv a b (acc ++ new) (seen ++ [d]) := by
  intro c
  have hc := count_of_all hcls c
  simp only [List.map_append, List.count_append, hc, List.map_cons, List.map_nil, List.mem_append, List.mem_singleton]
  by_cases hcd : c = d.cls
  · subst hcd
    refine ⟨fun _ => ?_, fun h => absurd (Or.inr rfl) h⟩
    simp only [if_true]
    omega
  · simp only [if_neg hcd, Nat.add_zero]
    refine ⟨fun hm => (h c).1 ?_, fun hm => (h c).2 ?_⟩
    · rcases hm with hm | hm
      · exact hm
      · exact absurd hm hcd
    · exact fun hx => hm (Or.inl hx)

theorem countInv_skip {a b acc seen : List Dim} {d : Dim} (h : CountInv a b acc seen)
    (hyes : 0 < (acc.map Dim.cls).count d.cls) : CountInv a b acc (seen ++ [d]) := by
  have hd : d.cls ∈ seen.map Dim.cls := by
    by_contra hn
    have := (h d.cls).2 hn
    omega
  intro c
  simp only [List.map_append, List.map_cons, List.map_nil, List.mem_append, List.mem_singleton]
  refine ⟨fun hm => (h c).1 ?_, fun hm => (h c).2 (fun hx => hm (Or.inl hx))⟩
  rcases hm with hm | rfl
  · exact hm
  · exact hd

theorem countInv_done {a b all : List Dim} (h : CountInv a b all (a ++ b)) (c : Nat) :
    (all.map Dim.cls).count c = max ((a.map Dim.cls).count c) ((b.map Dim.cls).count c) := by
  by_cases hc : c ∈ (a ++ b).map Dim.cls
  · exact (h c).1 hc
  · rw [(h c).2 hc]
    simp only [List.map_append, List.mem_append, not_or] at hc
    rw [List.count_eq_zero_of_not_mem hc.1, List.count_eq_zero_of_not_mem hc.2]
    rfl

theorem countEq_pos {a b : List Dim} {d : Dim} (hd : d ∈ a ++ b) :
    0 < (a.map Dim.cls).count d.cls ∨ 0 < (b.map Dim.cls).count d.cls := by
  rw [List.count_pos_iff, List.count_pos_iff]
  rcases List.mem_append.mp hd with h | h
  · exact Or.inl (List.mem_map_of_mem h)
  · exact Or.inr (List.mem_map_of_mem h)

theorem allDimsPy_count (a b : List Dim) (c : Nat) :
    ((allDimsPy a b).map Dim.cls).count c = max ((a.map Dim.cls).count c) ((b.map Dim.cls).count c) := by
  have key : ∀ (rest acc seen : List Dim), seen ++ rest = a ++ b → CountInv a b acc seen →
      CountInv a b (rest.foldl (addDimPy a b) acc) (a ++ b) := by
    intro rest
    induction rest with
    | nil => intro acc seen hs h; rw [List.append_nil] at hs; rw [← hs]; exact h
    | cons d r ih =>
      intro acc seen hs h
      have hd : d ∈ a ++ b := by rw [← hs]; simp
      have hpos := countEq_pos hd
      simp only [List.foldl_cons]
      refine ih _ (seen ++ [d]) (by simpa using hs) ?_
      unfold addDimPy
      split
      · next hany => exact countInv_skip h ((any_eq_iff acc d).mp hany)
      · next hany =>
        have hno := fun hx => hany ((any_eq_iff acc d).mpr hx)
        split
        · next hle =>
          rw [countEq_eq, countEq_eq] at hle
          exact countInv_add h hno (by simp) (by simp only [List.length_cons, List.length_nil]; omega)
        · split
          · next hge =>
            refine countInv_add h hno (all_filter_cls a d) ?_
            rw [ge_iff_le, countEq_eq, countEq_eq] at hge
            have := countEq_eq a d
            unfold countEq at this
            omega
          · next hge =>
            refine countInv_add h hno (all_filter_cls b d) ?_
            rw [ge_iff_le, countEq_eq, countEq_eq] at hge
            have := countEq_eq b d
            unfold countEq at this
            omega
  exact countInv_done (key (a ++ b) [] [] rfl (by intro c; simp)) c

theorem allDimsNative_count {a b all : List Dim} (hall : allDimsNative a b = .ok all) (c : Nat) :
    (all.map Dim.cls).count c = max ((a.map Dim.cls).count c) ((b.map Dim.cls).count c) := by
  have herr : ∀ (rest : List Dim) (e : Err), rest.foldl (addDimNative a b) (.error e) = .error e := by
    intro rest e
    induction rest with
    | nil => rfl
    | cons d r ih => simpa [addDimNative] using ih
  have key : ∀ (rest acc seen : List Dim), seen ++ rest = a ++ b → CountInv a b acc seen →
      ∀ all, rest.foldl (addDimNative a b) (.ok acc) = .ok all → CountInv a b all (a ++ b) := by
    intro rest
    induction rest with
    | nil =>
      intro acc seen hs h all hall
      rw [List.append_nil] at hs
      rw [← Except.ok.inj hall, ← hs]
      exact h
    | cons d r ih =>
      intro acc seen hs h all hall
      have hd : d ∈ a ++ b := by rw [← hs]; simp
      have hpos := countEq_pos hd
      have hs' : (seen ++ [d]) ++ r = a ++ b := by simpa using hs
      simp only [List.foldl_cons, addDimNative] at hall
      split at hall
      · next hany => exact ih _ _ hs' (countInv_skip h ((any_eq_iff acc d).mp hany)) all hall
      · next hany =>
        have hno := fun hx => hany ((any_eq_iff acc d).mpr hx)
        split at hall
        · next hle =>
          rw [countEq_eq, countEq_eq] at hle
          refine ih _ _ hs' (countInv_add h hno (by simp) ?_) all hall
          simp only [List.length_cons, List.length_nil]; omega
        · split at hall
          · rw [herr] at hall
            simp at hall
          · next hlen =>
            refine ih _ _ hs' (countInv_add h hno ?_ ?_) all hall
            · unfold moreDims
              split
              · exact all_filter_cls a d
              · exact all_filter_cls _ d
            · have := not_not.mp hlen
              rw [countEq_eq, countEq_eq] at this
              exact this
  exact countInv_done (key (a ++ b) [] [] rfl (by intro c; simp) all hall) c

theorem sortDims_perm (order : Option (List Dim)) (ds : List Dim) : (sortDims order ds).Perm ds := by
  cases order with
  | none => exact List.Perm.refl _
  | some o => exact ListLemmas.stableSort_perm _ _

theorem sortDims_count {order : Option (List Dim)} {ds : List Dim} (c : Nat) :
    ((sortDims order ds).map Dim.cls).count c = (ds.map Dim.cls).count c :=
  ((sortDims_perm order ds).map Dim.cls).count_eq c

/-- With unique dims: the dims of `a`, then the other dims of `b`. -/
def unionDims (a b : List Dim) : List Dim := a ++ b.filter (fun d => decide (d.cls ∉ a.map Dim.cls))

theorem fold_unique (a b : List Dim) (ha : (a.map Dim.cls).Nodup) (hb : (b.map Dim.cls).Nodup) (l acc : List Dim)
    (hl : (l.map Dim.cls).Nodup) :
    l.foldl (addDimPy a b) acc = acc ++ l.filter (fun d => decide (d.cls ∉ acc.map Dim.cls)) := by
  have hca := List.nodup_iff_count_le_one.mp ha
  have hcb := List.nodup_iff_count_le_one.mp hb
  induction l generalizing acc with
  | nil => simp
  | cons d r ih =>
    simp only [List.map_cons, List.nodup_cons] at hl
    simp only [List.foldl_cons]
    rw [ih _ hl.2]
    unfold addDimPy
    by_cases hany : acc.any (fun x => x.eq d) = true
    · have hm := List.count_pos_iff.mp ((any_eq_iff acc d).mp hany)
      rw [if_pos hany, List.filter_cons, if_neg (by simpa using hm)]
    · have hm : d.cls ∉ acc.map Dim.cls := fun h => hany ((any_eq_iff acc d).mpr (List.count_pos_iff.mpr h))
      rw [if_neg hany, if_pos (by rw [countEq_eq, countEq_eq]; exact ⟨hca _, hcb _⟩), List.filter_cons,
        if_pos (by simpa using hm), List.append_assoc]
      congr 1
      simp only [List.singleton_append, List.cons.injEq, true_and]
      apply List.filter_congr
      intro x hx
      have hne : x.cls ≠ d.cls := fun h => hl.1 (h ▸ List.mem_map_of_mem hx)
      simp [hne]

theorem allDimsPy_unique {a b : List Dim} (ha : (a.map Dim.cls).Nodup) (hb : (b.map Dim.cls).Nodup) :
    allDimsPy a b = unionDims a b := by
  unfold allDimsPy unionDims
  rw [List.foldl_append, fold_unique a b ha hb a [] ha, fold_unique a b ha hb b _ hb]
  simp

theorem allDimsNative_unique {a b : List Dim} (ha : (a.map Dim.cls).Nodup) (hb : (b.map Dim.cls).Nodup) :
    allDimsNative a b = .ok (unionDims a b) := by
  have hca := List.nodup_iff_count_le_one.mp ha
  have hcb := List.nodup_iff_count_le_one.mp hb
  rw [← allDimsPy_unique ha hb]
  unfold allDimsNative allDimsPy
  generalize ([] : List Dim) = acc
  generalize a ++ b = l
  induction l generalizing acc with
  | nil => rfl
  | cons d r ih =>
    simp only [List.foldl_cons]
    rw [← ih]
    congr 1
    have hle : countEq a d ≤ 1 ∧ countEq b d ≤ 1 := by rw [countEq_eq, countEq_eq]; exact ⟨hca _, hcb _⟩
    unfold addDimNative addDimPy
    simp only [if_pos hle]
    split <;> rfl

end Verif.BinOp
