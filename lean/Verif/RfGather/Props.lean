import Verif.RfGather.Lemmas
/-
`rf.gather` by named dims (C87).
-/
namespace Verif.RfGather

open Verif.Py Verif.BinOp Verif.RfMatmul

variable {α : Type}

/-- The axis splits the dims. -/
theorem axis_split {dims : List Dim} (hu : (classes dims).Nodup) {axis : Dim} (ha : axis.cls ∈ classes dims) :
    ∃ pre post x, x.cls = axis.cls ∧ dims = pre ++ [x] ++ post ∧ axisOf dims axis = .ok pre.length := by
  obtain ⟨h1, h2⟩ := index_spec ha
  refine ⟨dims.take (index dims axis), dims.drop (index dims axis + 1), dims.getD (index dims axis) default, h2, ?_, ?_⟩
  · rw [List.getD_eq_getElem?_getD, List.getElem?_eq_getElem h1, Option.getD_some, List.append_assoc, List.singleton_append,
      List.cons_getElem_drop_succ, List.take_append_drop]
  · rw [axisOf_index hu ha, List.length_take, Nat.min_eq_left (by omega)]

theorem ownDims_eq (source : List Dim) (axis : Dim) (indices : List Dim) :
    OwnDims source axis indices (ownDims source axis indices) := by
  unfold OwnDims ownDims
  apply List.filter_congr
  intro d _
  rw [Bool.eq_iff_iff]
  simp only [Bool.or_eq_true, Bool.not_eq_true', ← Bool.not_eq_true, inDims_iff, decide_eq_true_eq, Dim.eq, beq_iff_eq]

/-- The result of the main part. -/
theorem gatherMain_spec {sz : Nat → Nat} {source : Tensor α} {indices : Tensor Int} {axis x : Dim} {pre post : List Dim}
    (hsd : source.dims = pre ++ [x] ++ post) (hx : x.cls = axis.cls) (hvs : Valid sz source) (hvi : Valid sz indices)
    (hus : BinOp.Unique source) (hui : BinOp.Unique indices)
    (hpos : ∀ σ : Nat → Nat, (∀ d ∈ indices.dims, σ d.cls < sz d.cls) →
      0 ≤ valueAt indices σ ∧ valueAt indices σ < sz axis.cls) :
    ∃ out, gatherMain sz source axis pre.length indices = .ok out ∧
      IsGather sz source axis (ownDims source.dims axis indices.dims) (valueAt indices) out := by
  obtain ⟨own, ho⟩ : ∃ own, own = ownDims source.dims axis indices.dims := ⟨_, rfl⟩
  have hown : ∀ d, d ∈ own ↔ d ∈ indices.dims ∧ (d.cls ∉ classes source.dims ∨ d.cls = axis.cls) := by
    intro d
    rw [ho, ownDims_eq source.dims axis indices.dims, List.mem_filter]
    simp
  have houts : outDims source.dims pre.length own = pre ++ own ++ post := by
    unfold outDims
    rw [hsd]
    have e1 : (pre ++ [x] ++ post).take pre.length = pre := by simp
    have e2 : (pre ++ [x] ++ post).drop (pre.length + 1) = post := by
      rw [show pre.length + 1 = (pre ++ [x]).length by simp, List.drop_left]
    rw [e1, e2]
  -- no dim occurs twice
  have hus' := hus
  unfold BinOp.Unique at hus'
  rw [hsd] at hus'
  simp only [List.map_append, List.map_cons, List.map_nil, List.append_assoc, List.singleton_append] at hus'
  rw [List.nodup_append', List.nodup_cons] at hus'
  obtain ⟨n1, ⟨n2, n3⟩, n4⟩ := hus'
  have hcls : ∀ c, c ∈ classes source.dims ↔ c ∈ pre.map Dim.cls ∨ c = x.cls ∨ c ∈ post.map Dim.cls := by
    intro c; rw [hsd]; simp [classes]
  have hown_nodup : (own.map Dim.cls).Nodup := by
    rw [ho]
    exact hui.sublist (List.Sublist.map _ List.filter_sublist)
  have hown_pre : ∀ c ∈ own.map Dim.cls, c ∉ pre.map Dim.cls ∧ c ∉ post.map Dim.cls := by
    intro c hc
    obtain ⟨d, hd, e⟩ := List.mem_map.mp hc
    rcases ((hown d).mp hd).2 with h | h
    · rw [hcls, ← e] at *
      exact ⟨fun h' => h (Or.inl h'), fun h' => h (Or.inr (Or.inr h'))⟩
    · rw [← e, h, ← hx]
      exact ⟨fun h' => n4 h' List.mem_cons_self, n2⟩
  have huo : (classes (pre ++ own ++ post)).Nodup := by
    unfold classes
    rw [List.map_append, List.map_append, List.append_assoc, List.nodup_append', List.nodup_append']
    refine ⟨n1, ⟨hown_nodup, n3, fun c hc => (hown_pre c hc).2⟩, ?_⟩
    intro c h1 h2
    rcases List.mem_append.mp h2 with h | h
    · exact (hown_pre c h).1 h1
    · exact n4 h1 (List.mem_cons_of_mem _ h)
  have hsub : ∀ d ∈ indices.dims, d.cls ∈ classes (pre ++ own ++ post) := by
    intro d hd
    by_cases h : d ∈ own
    · exact List.mem_map_of_mem (by simp [h])
    · have h' : ¬ (d.cls ∉ classes source.dims ∨ d.cls = axis.cls) := fun h' => h ((hown d).mpr ⟨hd, h'⟩)
      simp only [not_or, not_not] at h'
      have h2 := (hcls d.cls).mp h'.1
      simp only [classes, List.map_append, List.mem_append]
      rcases h2 with h2 | h2 | h2
      · exact Or.inl (Or.inl h2)
      · exact absurd (h2.trans hx) h'.2
      · exact Or.inr h2
  have hsh : source.raw.shape = pre.map (fun d => sz d.cls) ++ [sz x.cls] ++ post.map (fun d => sz d.cls) := by
    rw [hvs, hsd]; simp
  -- the raw result
  have hraw : ∃ r, (if haveCommon source.dims axis indices.dims then
        gatherCommon sz source pre.length own (pre ++ own ++ post) indices
      else gatherOwn source.raw pre.length indices.raw) = .ok r ∧
      r.shape = (pre ++ own ++ post).map (fun d => sz d.cls) ∧
      ∀ σ : Nat → Nat, (∀ d ∈ pre ++ own ++ post, σ d.cls < sz d.cls) →
        r.get ((pre ++ own ++ post).map (fun d => σ d.cls)) =
          source.raw.get (pre.map (fun d => σ d.cls) ++ [(valueAt indices σ).toNat] ++ post.map (fun d => σ d.cls)) := by
    by_cases hc : haveCommon source.dims axis indices.dims = true
    · rw [if_pos hc]
      exact gatherCommon_spec hsd hvs hvi hui huo hsub (by rw [hx]; exact hpos)
    · rw [if_neg hc]
      -- all dims of the indices are own dims
      have hall : own = indices.dims := by
        rw [ho, ownDims_eq source.dims axis indices.dims, List.filter_eq_self]
        intro d hd
        by_contra hd'
        simp only [decide_eq_true_eq, not_or, not_not] at hd'
        apply hc
        unfold haveCommon
        rw [List.any_eq_true]
        refine ⟨d, hd, ?_⟩
        rw [Bool.and_eq_true, inDims_iff]
        exact ⟨hd'.1, by simpa [Dim.eq] using hd'.2⟩
      have hpos' : Positions (sz x.cls) indices.raw := by
        intro idx hidx
        rw [hvi] at hidx
        obtain ⟨σ, s1, s2⟩ : ∃ σ : Nat → Nat, (∀ d ∈ indices.dims, σ d.cls < sz d.cls) ∧
            idx = indices.dims.map (fun d => σ d.cls) := by
          have hu := hui
          unfold BinOp.Unique at hu
          generalize indices.dims = outs at hidx hu
          clear * - hidx hu
          induction outs generalizing idx with
          | nil =>
            cases hidx
            exact ⟨fun _ => 0, by simp, rfl⟩
          | cons o outs ih =>
            cases hidx with
            | @cons i _ is _ hi his =>
              simp only [List.map_cons, List.nodup_cons] at hu
              obtain ⟨σ, s1, s2⟩ := ih is his hu.2
              refine ⟨moveTo σ o.cls i, ?_, ?_⟩
              · intro d hd
                by_cases hc : d.cls = o.cls
                · simp only [moveTo, hc, if_true]; exact hi
                · rw [moveTo_ne hc]
                  rcases List.mem_cons.mp hd with h | h
                  · exact absurd (congrArg Dim.cls h) hc
                  · exact s1 d h
              · rw [s2, List.map_cons]
                congr 1
                · simp [moveTo]
                · apply List.map_congr_left
                  intro d hd
                  rw [moveTo_ne]
                  intro hc
                  exact hu.1 (hc ▸ List.mem_map_of_mem hd)
        have := hpos σ s1
        rw [← hx] at this
        rw [s2]
        exact this
      obtain ⟨o, g1, g2, g3⟩ := gatherOwn_spec hsh hpos'
      rw [List.length_map] at g1
      refine ⟨o, g1, by rw [g2, hvi, hall]; simp, ?_⟩
      intro σ hσ
      rw [List.map_append, List.map_append, g3]
      · rw [hall]; rfl
      · exact forall₂_map _ _ _ (fun d hd => hσ d (by simp [hd]))
      · rw [hvi, hall]; exact forall₂_map _ _ _ (fun d hd => hσ d (by rw [hall]; simp [hd]))
      · exact forall₂_map _ _ _ (fun d hd => hσ d (by simp [hd]))
  obtain ⟨r, r1, r2, r3⟩ := hraw
  unfold gatherMain
  simp only
  rw [← ho, houts, r1]
  refine ⟨_, rfl, ⟨pre, post, x, hx, hsd, rfl⟩, r2, ?_⟩
  intro σ hσ
  simp only at hσ
  have hi := hpos σ (by
    intro d hd
    obtain ⟨o, ho, e⟩ := List.mem_map.mp (hsub d hd)
    rw [← e]
    exact hσ o ho)
  refine ⟨(valueAt indices σ).toNat, by omega, by omega, ?_⟩
  change r.get ((pre ++ own ++ post).map (fun d => σ d.cls)) = _
  rw [r3 σ hσ]
  generalize (valueAt indices σ).toNat = k
  rw [valueAt, hsd]
  congr 1
  simp only [List.map_append, List.map_cons, List.map_nil]
  have hmv : ∀ ds : List Dim, (∀ d ∈ ds, d.cls ≠ axis.cls) →
      ds.map (fun d => moveTo σ axis.cls k d.cls) = ds.map (fun d => σ d.cls) := by
    intro ds h
    apply List.map_congr_left
    intro d hd
    exact moveTo_ne (h d hd)
  rw [hmv pre (fun d hd hc => n4 (List.mem_map_of_mem hd) (by rw [hc, hx]; exact List.mem_cons_self)),
    hmv post (fun d hd hc => n2 (by rw [hx, ← hc]; exact List.mem_map_of_mem hd))]
  congr 2
  simp [moveTo, hx]

/-- **C87** `gather` without clipping, for tensors in which no dim occurs twice and indices which are positions of the axis:
the dims of the indices which are not dims of the source (or are the axis itself) take the place of the axis, and the value
at each position of the named dims is that of the source at the same position of the other dims and at the index there on
the axis; no matter which torch function is used. -/
theorem gather_named (sz : Nat → Nat) (source : Tensor α) (indices : Tensor Int) (axis : Dim)
    (sizes : Option (Tensor Int)) (hvs : Valid sz source) (hvi : Valid sz indices) (hus : BinOp.Unique source)
    (hui : BinOp.Unique indices) (ha : axis.cls ∈ classes source.dims)
    (hpos : ∀ σ : Nat → Nat, (∀ d ∈ indices.dims, σ d.cls < sz d.cls) →
      0 ≤ valueAt indices σ ∧ valueAt indices σ < sz axis.cls) :
    ∃ out own, gather sz source axis indices false sizes = .ok out ∧ OwnDims source.dims axis indices.dims own ∧
      IsGather sz source axis own (valueAt indices) out := by
  obtain ⟨pre, post, x, hx, hsd, hax⟩ := axis_split hus ha
  obtain ⟨out, h1, h2⟩ := gatherMain_spec hsd hx hvs hvi hus hui hpos
  refine ⟨out, _, ?_, ownDims_eq _ _ _, h2⟩
  unfold gather
  rw [hax]
  simp only [Bool.false_eq_true, if_false]
  exact h1

theorem clamp_limit (i n : Int) (hn : 0 < n) : clampIndex i n = limit i n := by
  unfold clampIndex limit
  split
  · omega
  · split <;> omega

/-- **C87** With `clip_to_valid` on an axis without dynamic sizes any indices are allowed, if the axis is not empty: they
are limited to the positions of the axis. -/
theorem gather_clipped_static (sz : Nat → Nat) (source : Tensor α) (indices : Tensor Int) (axis : Dim)
    (hvs : Valid sz source) (hvi : Valid sz indices) (hus : BinOp.Unique source)
    (hui : BinOp.Unique indices) (ha : axis.cls ∈ classes source.dims) (hne : 0 < sz axis.cls) :
    ∃ out own, gather sz source axis indices true none = .ok out ∧ OwnDims source.dims axis indices.dims own ∧
      IsGather sz source axis own (fun σ => limit (valueAt indices σ) (sz axis.cls)) out := by
  obtain ⟨pre, post, x, hx, hsd, hax⟩ := axis_split hus ha
  have hn : source.raw.shape.getD pre.length 0 = sz axis.cls := by
    rw [hvs, hsd]
    simp [hx]
  obtain ⟨i, hi⟩ : ∃ i : Tensor Int, i = ⟨indices.dims, indices.feat, indices.sparse,
      ⟨indices.raw.shape, fun idx => clampIndex (indices.raw.get idx) (source.raw.shape.getD pre.length 0)⟩⟩ := ⟨_, rfl⟩
  have hd : i.dims = indices.dims := by rw [hi]
  have hval : ∀ σ, valueAt i σ = limit (valueAt indices σ) (sz axis.cls) := by
    intro σ
    rw [← clamp_limit _ _ (by omega), ← hn, hi]
    rfl
  obtain ⟨out, h1, h2⟩ := gatherMain_spec (indices := i) hsd hx hvs (by rw [hi]; exact hvi) hus (by rw [hi]; exact hui) (by
    intro σ _
    rw [hval]
    unfold limit
    split
    · omega
    · split <;> omega)
  rw [hd] at h2
  refine ⟨out, _, ?_, ownDims_eq _ _ _, ?_⟩
  · unfold gather
    rw [hax]
    simp only [if_true, clipIndices]
    rw [← hi]
    exact h1
  · rw [show (fun σ => limit (valueAt indices σ) (sz axis.cls)) = valueAt i from (funext hval).symm]
    exact h2

/-- **C87** With `clip_to_valid` on an axis with dynamic sizes, none of which is 0 or more than the padded size, the
indices are limited to the valid frames of each sequence. -/
theorem gather_clipped_dynamic_partial (sz : Nat → Nat) (source : Tensor α) (indices sizes : Tensor Int) (axis : Dim)
    (hvs : Valid sz source) (hvi : Valid sz indices) (hvz : Valid sz sizes) (hus : BinOp.Unique source)
    (hui : BinOp.Unique indices) (huz : BinOp.Unique sizes) (ha : axis.cls ∈ classes source.dims)
    (hlen : ∀ σ : Nat → Nat, (∀ d ∈ sizes.dims, σ d.cls < sz d.cls) →
      0 < valueAt sizes σ ∧ valueAt sizes σ ≤ sz axis.cls) :
    ∃ out own, gather sz source axis indices true (some sizes) = .ok out ∧
      OwnDims source.dims axis
        (indices.dims ++ sizes.dims.filter (fun d => decide (d.cls ∉ classes indices.dims))) own ∧
      (∃ pre post x, x.cls = axis.cls ∧ source.dims = pre ++ [x] ++ post ∧ out.dims = pre ++ own ++ post) ∧ Valid sz out ∧
      ∀ σ : Nat → Nat, (∀ d ∈ out.dims, σ d.cls < sz d.cls) →
        ∃ i : Nat, (i : Int) = limit (valueAt indices σ) (valueAt sizes σ) ∧ (i : Int) < valueAt sizes σ ∧
          valueAt out σ = valueAt source (moveTo σ axis.cls i) := by
  obtain ⟨pre, post, x, hx, hsd, hax⟩ := axis_split hus ha
  obtain ⟨i, c1, c2, _, _⟩ := python_broadcast (sz := sz) clampIndex false true (a := .tensor indices) (b := .tensor sizes)
    none hvi hvz hui huz (Or.inl rfl)
  have c3 := (python_dims (a := .tensor indices) (b := .tensor sizes) hvi hvz hui huz c1).1 rfl
  simp only [Arg.toTensor] at c2 c3
  have hlim : ∀ σ : Nat → Nat, (∀ d ∈ i.dims, σ d.cls < sz d.cls) →
      valueAt i σ = limit (valueAt indices σ) (valueAt sizes σ) ∧ 0 < valueAt sizes σ ∧ valueAt sizes σ ≤ sz axis.cls := by
    intro σ hσ
    have hl := hlen σ (by
      intro d hd
      obtain ⟨o, ho, e⟩ := List.mem_map.mp ((c2.dims d.cls).mpr (Or.inr (List.mem_map_of_mem hd)))
      rw [← e]
      exact hσ o ho)
    refine ⟨?_, hl⟩
    rw [c2.value σ hσ, clamp_limit _ _ hl.1]
  obtain ⟨out, h1, h2⟩ := gatherMain_spec (indices := i) hsd hx hvs c2.valid hus c2.unique (by
    intro σ hσ
    obtain ⟨e, l1, l2⟩ := hlim σ hσ
    rw [e]
    unfold limit
    split
    · omega
    · split <;> omega)
  rw [c3] at h2
  refine ⟨out, _, ?_, ownDims_eq _ _ _, h2.dims, h2.valid, ?_⟩
  · unfold gather
    rw [hax]
    simp only [if_true, clipIndices]
    rw [c1]
    exact h1
  · intro σ hσ
    obtain ⟨k, k1, k2, k3⟩ := h2.value σ hσ
    have hσi : ∀ d ∈ i.dims, σ d.cls < sz d.cls := by
      intro d hd
      obtain ⟨pre', post', x', e1, e2, e3⟩ := h2.dims
      by_cases hc : d.cls ∉ classes source.dims ∨ d.cls = axis.cls
      · apply hσ
        rw [e3]
        apply List.mem_append_left
        apply List.mem_append_right
        rw [ownDims_eq _ _ _, ← c3, List.mem_filter]
        exact ⟨hd, by simpa using hc⟩
      · simp only [not_or, not_not] at hc
        have hm := hc.1
        rw [e2] at hm
        simp only [classes, List.map_append, List.map_cons, List.map_nil, List.mem_append, List.mem_singleton] at hm
        rcases hm with (hm | hm) | hm
        · obtain ⟨o, ho, e⟩ := List.mem_map.mp hm
          rw [← e]; exact hσ o (by rw [e3]; simp [ho])
        · exact absurd (hm.trans e1) hc.2
        · obtain ⟨o, ho, e⟩ := List.mem_map.mp hm
          rw [← e]; exact hσ o (by rw [e3]; simp [ho])
    obtain ⟨e, l1, _⟩ := hlim σ hσi
    refine ⟨k, by rw [k1, e], ?_, k3⟩
    rw [k1, e]
    unfold limit
    split
    · omega
    · split <;> omega

/-- **C87** A constant index, counted from the end if negative, removes the axis. -/
theorem gather_int (sz : Nat → Nat) (source : Tensor α) (axis : Dim) (index : Int) (sizes : Option (Tensor Int))
    (hvs : Valid sz source) (hus : BinOp.Unique source) (ha : axis.cls ∈ classes source.dims)
    (hi : -(sz axis.cls : Int) ≤ index) (hi' : index < sz axis.cls) :
    ∃ out, gatherInt sz source axis index false sizes = .ok out ∧
      IsGather sz source axis [] (fun _ => if index < 0 then index + sz axis.cls else index) out := by
  obtain ⟨pre, post, x, hx, hsd, hax⟩ := axis_split hus ha
  have hsh : source.raw.shape = pre.map (fun d => sz d.cls) ++ [sz x.cls] ++ post.map (fun d => sz d.cls) := by
    rw [hvs, hsd]; simp
  have hr : inRange true (sz x.cls) index = true := by
    unfold inRange
    rw [hx]
    split
    · simpa using hi
    · simpa using hi'
  -- the raw result
  obtain ⟨o, g1, g2, g3⟩ := selectAxis_spec (neg := true) hsh (j := scalarRaw index) (fun _ _ => hr)
  rw [List.length_map] at g1
  have hdims : outDims source.dims pre.length [] = pre ++ post := by
    unfold outDims
    rw [hsd]
    have e1 : (pre ++ [x] ++ post).take pre.length = pre := by simp
    have e2 : (pre ++ [x] ++ post).drop (pre.length + 1) = post := by
      rw [show pre.length + 1 = (pre ++ [x]).length by simp, List.drop_left]
    rw [e1, e2]
    simp
  have hout : gatherInt sz source axis index false sizes = .ok ⟨pre ++ post, none, source.sparse, o⟩ := by
    unfold gatherInt
    rw [hax]
    simp only
    by_cases h0 : index = 0
    · rw [if_pos h0]
      subst h0
      unfold gatherZero
      rw [g1]
      simp only
      have : source.dims.take pre.length ++ source.dims.drop (pre.length + 1) = pre ++ post := by
        rw [← hdims]; simp [outDims]
      rw [this]
    · rw [if_neg h0]
      unfold gather
      rw [hax]
      simp only [Bool.false_eq_true, if_false]
      unfold gatherMain
      simp only [haveCommon, ownDims, List.any_nil, List.filter_nil, Bool.false_eq_true, if_false]
      have : gatherOwn source.raw pre.length (scalarRaw index) = .ok o := by
        unfold gatherOwn
        have hz : (scalarRaw index).shape.length = 0 := rfl
        by_cases hp : pre.length = 0
        · rw [if_pos ⟨hp, hz⟩]; exact g1
        · rw [if_neg (fun h => hp h.1), if_neg (fun h => hp h.1), if_pos (by omega)]; exact g1
      rw [this, hdims]
  refine ⟨_, hout, ⟨pre, post, x, hx, hsd, by simp⟩, ?_, ?_⟩
  · unfold Valid
    simp only
    rw [g2]
    simp [scalarRaw]
  · intro σ hσ
    refine ⟨norm (sz x.cls) index, ?_, ?_, ?_⟩
    · unfold norm
      rw [hx]
      split <;> omega
    · unfold norm
      rw [hx]
      split <;> omega
    · simp only at hσ
      rw [valueAt, valueAt, hsd]
      simp only [List.map_append, List.map_cons, List.map_nil]
      have := g3 (pre.map (fun d => σ d.cls)) [] (post.map (fun d => σ d.cls)) (by simp) rfl
      simp only [List.append_nil] at this
      rw [this]
      have hus' := hus
      unfold BinOp.Unique at hus'
      rw [hsd] at hus'
      simp only [List.map_append, List.map_cons, List.map_nil, List.append_assoc, List.singleton_append] at hus'
      rw [List.nodup_append', List.nodup_cons] at hus'
      obtain ⟨n1, ⟨n2, n3⟩, n4⟩ := hus'
      have hmv : ∀ ds : List Dim, (∀ d ∈ ds, d.cls ≠ axis.cls) →
          ds.map (fun d => moveTo σ axis.cls (norm (sz x.cls) index) d.cls) = ds.map (fun d => σ d.cls) := by
        intro ds h
        apply List.map_congr_left
        intro d hd
        exact moveTo_ne (h d hd)
      rw [hmv pre (fun d hd hc => n4 (List.mem_map_of_mem hd) (by rw [hc, hx]; exact List.mem_cons_self)),
        hmv post (fun d hd hc => n2 (by rw [hx, ← hc]; exact List.mem_map_of_mem hd))]
      congr 3
      simp [moveTo, hx, scalarRaw]

end Verif.RfGather
