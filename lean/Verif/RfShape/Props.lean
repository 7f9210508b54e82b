import Verif.RfShape.Lemmas
/-
C108: merging, splitting and reshaping of named dims.
-/
namespace Verif.RfShape

open Verif.Py Verif.BinOp Verif.RfMatmul Verif.RfGather

variable {α : Type}

/-! ### Ranks are positions -/

/-- C108: different positions have different ranks. -/
theorem rank_inj {sz σ τ : Nat → Nat} {ds : List Dim} (h1 : Within sz σ ds) (h2 : Within sz τ ds) (h : rank sz σ ds = rank sz τ ds) : ∀ d ∈ ds, σ d.cls = τ d.cls := by
  rw [rank_ravel, rank_ravel] at h
  have := congrArg (unravel (shapeOf sz ds)) h
  rw [unravel_ravel (inB_of h1), unravel_ravel (inB_of h2)] at this
  exact fun d hd => List.map_inj_left.1 this d hd

/-- C108: each position of the merged dim is the rank of some position of the dims. -/
theorem rank_surj {sz : Nat → Nat} {ds : List Dim} (hn : (classes ds).Nodup) (σ : Nat → Nat) {n : Nat} (h : n < total sz ds) :
    ∃ τ, (∀ c, c ∉ classes ds → τ c = σ c) ∧ Within sz τ ds ∧ rank sz τ ds = n := by
  rw [total_numel] at h
  obtain ⟨h1, h2⟩ := unravel_inB h
  have hl : (unravel (shapeOf sz ds) n).length = ds.length := by have := h1.length_eq; simpa [shapeOf] using this
  refine ⟨fun c => if c ∈ classes ds then (unravel (shapeOf sz ds) n).getD ((classes ds).idxOf c) 0 else σ c, fun c hc => if_neg hc, ?_, ?_⟩
  · intro d hd
    have hm : d.cls ∈ classes ds := List.mem_map_of_mem hd
    obtain ⟨i, hi, rfl⟩ := List.getElem_of_mem hd
    have hidx : (classes ds).idxOf ds[i].cls = i := by
      have := hn.idxOf_getElem i (by simpa [classes] using hi)
      simpa [classes] using this
    simp only [if_pos hm, hidx]
    have := (List.forall₂_iff_get.1 h1).2 i (by omega) (by simpa [shapeOf] using hi)
    rw [List.getD_eq_getElem?_getD, List.getElem?_eq_getElem (show i < (unravel (shapeOf sz ds) n).length by omega), Option.getD_some]
    simpa [shapeOf] using this
  · rw [rank_ravel]
    conv_rhs => rw [← h2]
    congr 1
    apply List.ext_getElem (by simp [hl])
    intro i hi1 hi2
    have hi : i < ds.length := by simpa using hi1
    rw [List.getElem_map]
    have hm : ds[i].cls ∈ classes ds := List.mem_map_of_mem (List.getElem_mem hi)
    have hidx : (classes ds).idxOf ds[i].cls = i := by
      have := hn.idxOf_getElem i (by simpa [classes] using hi)
      simpa [classes] using this
    rw [if_pos hm, hidx, List.getD_eq_getElem?_getD, List.getElem?_eq_getElem hi2, Option.getD_some]

/-! ### Merge -/

theorem mem_takeWhile_imp {β : Type} {p : β → Bool} {l : List β} {x : β} (h : x ∈ l.takeWhile p) : p x = true := by
  induction l with
  | nil => simp at h
  | cons a l ih =>
    rw [List.takeWhile_cons] at h
    split at h
    · rcases List.mem_cons.1 h with rfl | h
      · assumption
      · exact ih h
    · simp at h

theorem takeWhile_min {dims ds : List Dim} (hne : ds ≠ []) (hd : ∀ d ∈ ds, d.cls ∈ classes dims) :
    dims.take (minOf (ds.map (index dims))) = dims.takeWhile (fun x => decide (x.cls ∉ classes ds)) := by
  obtain ⟨d, hdm, he⟩ := List.mem_map.1 (minOf_mem (l := ds.map (index dims)) (by simpa using hne))
  have hlt := (index_spec (hd d hdm)).1
  have hat := (index_spec (hd d hdm)).2
  rw [he] at hlt hat
  have hbefore : ∀ i, i < minOf (ds.map (index dims)) → (dims.getD i default).cls ∉ classes ds := by
    intro i hi hm
    obtain ⟨e, hem, hec⟩ := List.mem_map.1 hm
    have h1 : index dims e ≤ i := by
      unfold index
      by_contra hcon
      have := List.not_of_lt_findIdx (p := fun x => x.eq e) (xs := dims) (i := i) (by omega)
      rw [List.getD_eq_getElem?_getD, List.getElem?_eq_getElem (by omega), Option.getD_some] at hec
      simp [Dim.eq, hec] at this
    have h2 := minOf_le (List.mem_map_of_mem (f := index dims) hem)
    omega
  generalize minOf (ds.map (index dims)) = k at hlt hat hbefore
  have hsplit : dims = dims.take k ++ dims.getD k default :: dims.drop (k + 1) := by
    rw [List.getD_eq_getElem?_getD, List.getElem?_eq_getElem hlt, Option.getD_some, List.cons_getElem_drop_succ, List.take_append_drop]
  have hall : ∀ x ∈ dims.take k, decide (x.cls ∉ classes ds) = true := by
    intro x hx
    obtain ⟨i, hi, rfl⟩ := List.mem_take_iff_getElem.1 hx
    have := hbefore i (by omega)
    rw [List.getD_eq_getElem?_getD, List.getElem?_eq_getElem (by omega), Option.getD_some] at this
    simpa using this
  conv_rhs => rw [hsplit]
  rw [List.takeWhile_append_of_pos hall, List.takeWhile_cons_of_neg, List.append_nil]
  rw [hat]
  simpa [classes] using ⟨d, hdm, rfl⟩

/-- The dims of a merge: a permutation of those of the source. -/
theorem merge_perm {dims ds : List Dim} (hu : (classes dims).Nodup) (hn : (classes ds).Nodup) (hd : ∀ d ∈ ds, d.cls ∈ classes dims) :
    (classes (dims.takeWhile (fun x => decide (x.cls ∉ classes ds)) ++ ds ++ (dims.dropWhile (fun x => decide (x.cls ∉ classes ds))).filter (fun x => decide (x.cls ∉ classes ds)))).Perm (classes dims) := by
  have hsplit := List.takeWhile_append_dropWhile (p := fun x : Dim => decide (x.cls ∉ classes ds)) (l := dims)
  have hpre : ∀ x ∈ dims.takeWhile (fun x => decide (x.cls ∉ classes ds)), x.cls ∉ classes ds := fun x hx => by simpa using mem_takeWhile_imp hx
  generalize dims.takeWhile (fun x => decide (x.cls ∉ classes ds)) = pre at hsplit hpre
  generalize dims.dropWhile (fun x => decide (x.cls ∉ classes ds)) = rest at hsplit
  subst hsplit
  simp only [classes, List.map_append] at hu hd hn ⊢
  rw [List.append_assoc]
  apply List.Perm.append_left
  rw [List.perm_ext_iff_of_nodup]
  · intro c
    simp only [List.mem_append, List.mem_map, List.mem_filter, decide_eq_true_eq]
    constructor
    · rintro (⟨d, h1, rfl⟩ | ⟨d, ⟨h1, _⟩, rfl⟩)
      · have := hd d h1
        rw [List.mem_append] at this
        rcases this with h | h
        · obtain ⟨x, hx, e⟩ := List.mem_map.1 h
          exact absurd (e ▸ List.mem_map_of_mem h1) (hpre x hx)
        · simpa using h
      · exact ⟨d, h1, rfl⟩
    · rintro ⟨x, hx, rfl⟩
      by_cases h : x.cls ∈ ds.map Dim.cls
      · left; simpa using h
      · right; exact ⟨x, ⟨hx, by simpa [classes] using h⟩, rfl⟩
  · rw [List.nodup_append]
    refine ⟨hn, (List.nodup_append.1 hu).2.1.sublist (List.Sublist.map _ List.filter_sublist), ?_⟩
    rintro a ha b hb rfl
    obtain ⟨x, hx, rfl⟩ := List.mem_map.1 hb
    exact (by simpa [classes] using (List.mem_filter.1 hx).2 : x.cls ∉ ds.map Dim.cls) (by simpa using ha)
  · exact (List.nodup_append.1 hu).2.1

theorem post_eq {dims ds : List Dim} (hu : (classes dims).Nodup) :
    dims.filter (fun d => !inDims ds d && !inDims (dims.takeWhile (fun x => decide (x.cls ∉ classes ds))) d) =
      (dims.dropWhile (fun x => decide (x.cls ∉ classes ds))).filter (fun x => decide (x.cls ∉ classes ds)) := by
  have hsplit := List.takeWhile_append_dropWhile (p := fun x : Dim => decide (x.cls ∉ classes ds)) (l := dims)
  generalize hp : dims.takeWhile (fun x => decide (x.cls ∉ classes ds)) = pre at hsplit ⊢
  generalize dims.dropWhile (fun x => decide (x.cls ∉ classes ds)) = rest at hsplit ⊢
  clear hp
  subst hsplit
  rw [List.filter_append]
  have h1 : pre.filter (fun d => !inDims ds d && !inDims pre d) = [] := by
    rw [List.filter_eq_nil_iff]
    intro x hx
    have : inDims pre x = true := (inDims_iff _ _).2 (List.mem_map_of_mem hx)
    simp [this]
  rw [h1, List.nil_append]
  apply List.filter_congr
  intro x hx
  have h2 : inDims pre x = false := by
    rw [Bool.eq_false_iff]
    intro h
    rw [inDims_iff] at h
    simp only [classes, List.map_append] at hu
    exact (List.nodup_append.1 hu).2.2 _ h _ (List.mem_map_of_mem hx) rfl
  rw [h2]
  by_cases h : x.cls ∈ classes ds
  · have := (inDims_iff ds x).2 h
    simp [this, h]
  · have : inDims ds x = false := by rw [Bool.eq_false_iff]; intro h'; exact h ((inDims_iff ds x).1 h')
    simp [this, h]

/-- C108: `merge_dims`: each value is at the position given by the rank; the order of the other dims stays, the new one is where the first of the merged dims was. -/
theorem merge_right {sz : Nat → Nat} {t : Tensor α} (hv : Valid sz t) (hu : BinOp.Unique t) {ds : List Dim} (hl : 2 ≤ ds.length) (hd : ∀ d ∈ ds, d.cls ∈ classes t.dims) (hn : (classes ds).Nodup)
    (out : Dim) (hout : ∀ x ∈ t.dims, x.cls = out.cls → x.cls ∈ classes ds) (hsz : sz out.cls = total sz ds) :
    ∃ o pre post, mergeDims sz t ds out = .ok o ∧ Valid sz o ∧ BinOp.Unique o ∧ o.dims = pre ++ [out] ++ post ∧
      pre = t.dims.takeWhile (fun x => decide (x.cls ∉ classes ds)) ∧ pre ++ post = t.dims.filter (fun x => decide (x.cls ∉ classes ds)) ∧
      ∀ σ, Within sz σ t.dims → valueAt o (moveTo σ out.cls (rank sz σ ds)) = valueAt t σ := by
  have hne : ds ≠ [] := by rintro rfl; simp at hl
  have hp := merge_perm hu hn hd
  obtain ⟨r, h1, h2, h3⟩ := transposeTo_spec hv hu hp
  obtain ⟨o, h4, h5, h6, h7⟩ := reshapeTo_spec (outs := [out]) t.sparse h2 (by simp [total, hsz])
  have hnout : ∀ d ∈ t.dims.takeWhile (fun x => decide (x.cls ∉ classes ds)) ++ (t.dims.dropWhile (fun x => decide (x.cls ∉ classes ds))).filter (fun x => decide (x.cls ∉ classes ds)), d.cls ≠ out.cls := by
    intro d hd' he
    rcases List.mem_append.1 hd' with h | h
    · have h8 := mem_takeWhile_imp h
      have h9 := hout d ((List.takeWhile_prefix _).subset h) he
      simp [h9] at h8
    · have h8 := (List.mem_filter.1 h).2
      have h9 := hout d ((List.dropWhile_suffix _).subset (List.mem_of_mem_filter h)) he
      simp [h9] at h8
  refine ⟨o, _, _, ?_, h6, ?_, h5, rfl, ?_, ?_⟩
  · unfold mergeDims
    rw [if_neg (by omega), if_neg]
    · simp only [takeWhile_min hne hd, post_eq hu, h1]
      exact h4
    · simp only [List.any_eq_true, Bool.not_eq_true', not_exists, not_and, Bool.not_eq_false]
      intro d hd'
      rw [inDims_iff]
      exact hd d hd'
  · have hpn := hp.nodup_iff.2 hu
    unfold BinOp.Unique
    rw [h5]
    simp only [classes, List.map_append, List.map_cons, List.map_nil] at hpn hnout ⊢
    rw [List.append_assoc, List.nodup_append] at hpn
    obtain ⟨p1, p2, p3⟩ := hpn
    rw [List.nodup_append] at p2
    rw [List.append_assoc, List.nodup_append]
    refine ⟨p1, ?_, ?_⟩
    · rw [List.singleton_append, List.nodup_cons]
      refine ⟨?_, p2.2.1⟩
      intro h
      obtain ⟨x, hx, e⟩ := List.mem_map.1 h
      exact hnout x (List.mem_append_right _ hx) e
    · intro a ha b hb hab
      subst hab
      rw [List.singleton_append, List.mem_cons] at hb
      rcases hb with rfl | hb
      · obtain ⟨x, hx, e⟩ := List.mem_map.1 ha
        exact hnout x (List.mem_append_left _ hx) e
      · exact p3 a ha a (List.mem_append_right _ hb) rfl
  · conv_rhs => rw [← List.takeWhile_append_dropWhile (p := fun x : Dim => decide (x.cls ∉ classes ds)) (l := t.dims)]
    rw [List.filter_append]
    congr 1
    symm
    rw [List.filter_eq_self]
    intro x hx
    exact mem_takeWhile_imp (p := fun x : Dim => decide (x.cls ∉ classes ds)) hx
  · intro σ hσ
    have hw : ∀ d : Dim, d.cls ∈ classes t.dims → σ d.cls < sz d.cls := by
      intro d hd'
      obtain ⟨x, hx, e⟩ := List.mem_map.1 hd'
      rw [← e]
      exact hσ x hx
    have hw1 : Within sz σ (t.dims.takeWhile (fun x => decide (x.cls ∉ classes ds)) ++ ds ++ (t.dims.dropWhile (fun x => decide (x.cls ∉ classes ds))).filter (fun x => decide (x.cls ∉ classes ds))) := by
      intro d hd'
      exact hw d (hp.mem_iff.1 (List.mem_map_of_mem hd'))
    have hag : ∀ d ∈ t.dims.takeWhile (fun x => decide (x.cls ∉ classes ds)) ++ (t.dims.dropWhile (fun x => decide (x.cls ∉ classes ds))).filter (fun x => decide (x.cls ∉ classes ds)),
        σ (d : Dim).cls = moveTo σ out.cls (rank sz σ ds) d.cls := fun d hd' => (moveTo_ne (hnout d hd')).symm
    rw [h7 σ (moveTo σ out.cls (rank sz σ ds)) hw1 ?_ hag ?_, h3 σ hw1]
    · intro d hd'
      rw [List.append_assoc, List.mem_append, List.mem_append, List.mem_singleton] at hd'
      rcases hd' with h | rfl | h
      · rw [← hag d (List.mem_append_left _ h)]
        exact hw1 d (List.mem_append_left _ (List.mem_append_left _ h))
      · rw [moveTo, if_pos rfl, hsz]
        exact rank_lt (fun x hx => hw x (hd x hx))
      · rw [← hag d (List.mem_append_right _ h)]
        exact hw1 d (List.mem_append_right _ h)
    · simp [rank, moveTo]

/-! ### Split -/

/-- C108: `split_dims`: the opposite. -/
theorem split_dims_right {sz : Nat → Nat} {t : Tensor α} (hv : Valid sz t) (hu : BinOp.Unique t) {axis : Dim} (ha : axis.cls ∈ classes t.dims) (ds : List Dim) (hsz : sz axis.cls = total sz ds) :
    ∃ o, splitDims sz t axis ds = .ok o ∧ Valid sz o ∧ o.dims = swapDim t.dims axis.cls ds ∧
      ∀ σ, Within sz σ o.dims → valueAt o σ = valueAt t (moveTo σ axis.cls (rank sz σ ds)) := by
  obtain ⟨pre, post, x, hx, hdims, hax⟩ := axis_split hu ha
  have hnx : ∀ d ∈ pre ++ post, d.cls ≠ axis.cls := by
    intro d hd' he
    have := hu
    unfold BinOp.Unique at this
    rw [hdims] at this
    simp only [List.map_append, List.map_cons, List.map_nil] at this
    rw [List.append_assoc, List.nodup_append] at this
    rcases List.mem_append.1 hd' with h | h
    · exact this.2.2 d.cls (List.mem_map_of_mem h) x.cls (by simp) (by rw [he, hx])
    · have h2 := this.2.1
      rw [List.singleton_append, List.nodup_cons] at h2
      exact h2.1 (by rw [hx, ← he]; exact List.mem_map_of_mem h)
  have hs : t.raw.shape = shapeOf sz (pre ++ [x] ++ post) := by rw [hv, hdims]; rfl
  obtain ⟨o, h4, h5, h6, h7⟩ := reshapeTo_spec (outs := ds) t.sparse hs (by simp [total, hx]; exact hsz)
  have htake : t.dims.take pre.length = pre := by rw [hdims, List.append_assoc, List.take_left]
  have hdrop : t.dims.drop (pre.length + 1) = post := by
    rw [hdims]
    have : (pre ++ [x]).length = pre.length + 1 := by simp
    rw [← this, List.drop_left]
  refine ⟨o, ?_, h6, ?_, ?_⟩
  · rw [splitDims, hax]
    simp only [htake, hdrop]
    exact h4
  · have hid : ∀ l : List Dim, (∀ d ∈ l, d.cls ≠ axis.cls) → swapDim l axis.cls ds = l := by
      intro l hl
      induction l with
      | nil => rfl
      | cons a l ih =>
        have := ih (fun d hd' => hl d (List.mem_cons_of_mem _ hd'))
        unfold swapDim at this ⊢
        rw [List.flatMap_cons, if_neg (hl a List.mem_cons_self), this]
        rfl
    have happ : ∀ a b : List Dim, swapDim (a ++ b) axis.cls ds = swapDim a axis.cls ds ++ swapDim b axis.cls ds := by
      intro a b; simp [swapDim]
    rw [h5, hdims, happ, happ, hid pre (fun d h => hnx d (List.mem_append_left _ h)), hid post (fun d h => hnx d (List.mem_append_right _ h))]
    simp [swapDim, hx]
  · intro σ hσ
    rw [h5] at hσ
    have hag : ∀ d ∈ pre ++ post, moveTo σ axis.cls (rank sz σ ds) d.cls = σ d.cls := fun d hd' => moveTo_ne (hnx d hd')
    have hr : rank sz σ ds < total sz ds := rank_lt (fun d hd' => hσ d (by simp [hd']))
    have := h7 (moveTo σ axis.cls (rank sz σ ds)) σ ?_ hσ hag ?_
    · rw [this, valueAt, hdims]
    · intro d hd'
      rw [List.append_assoc, List.mem_append, List.mem_append, List.mem_singleton] at hd'
      rcases hd' with h | rfl | h
      · rw [hag d (List.mem_append_left _ h)]
        exact hσ d (by simp [h])
      · rw [hx, moveTo, if_pos rfl, hsz]
        exact hr
      · rw [hag d (List.mem_append_right _ h)]
        exact hσ d (by simp [h])
    · simp [rank, moveTo, hx]

/-- C108: splitting a merged dim gives the values back. -/
theorem split_merge {sz : Nat → Nat} {t : Tensor α} (hv : Valid sz t) (hu : BinOp.Unique t) {ds : List Dim} (hl : 2 ≤ ds.length) (hd : ∀ d ∈ ds, d.cls ∈ classes t.dims) (hn : (classes ds).Nodup)
    (out : Dim) (hout : ∀ x ∈ t.dims, x.cls = out.cls → x.cls ∈ classes ds) (hsz : sz out.cls = total sz ds) :
    ∃ o o', mergeDims sz t ds out = .ok o ∧ splitDims sz o out ds = .ok o' ∧ ∀ σ, Within sz σ t.dims → valueAt o' σ = valueAt t σ := by
  obtain ⟨o, pre, post, h1, h2, h3, h4, h5, h6, h7⟩ := merge_right hv hu hl hd hn out hout hsz
  obtain ⟨o', g1, _, g2, g3⟩ := split_dims_right h2 h3 (axis := out) (by rw [h4]; simp [classes]) ds hsz
  refine ⟨o, o', h1, g1, ?_⟩
  intro σ hσ
  have hw : ∀ d : Dim, d.cls ∈ classes t.dims → σ d.cls < sz d.cls := by
    intro d hd'
    obtain ⟨x, hx, e⟩ := List.mem_map.1 hd'
    rw [← e]
    exact hσ x hx
  rw [g3 σ, h7 σ hσ]
  intro d hd'
  rw [g2, swapDim, List.mem_flatMap] at hd'
  obtain ⟨x, hx, hdx⟩ := hd'
  apply hw
  by_cases hc : x.cls = out.cls
  · rw [if_pos hc] at hdx
    exact hd d hdx
  · rw [if_neg hc, List.mem_singleton] at hdx
    subst hdx
    rw [h4] at hx
    have hm : d ∈ pre ++ post := by
      simp only [List.mem_append, List.mem_singleton] at hx ⊢
      rcases hx with (h | h) | h
      · left; exact h
      · exact absurd (by rw [h]) hc
      · right; exact h
    rw [h6] at hm
    exact List.mem_map_of_mem (List.mem_of_mem_filter hm)

/-- C108: a wrong size raises. -/
theorem merge_size {sz : Nat → Nat} {t : Tensor α} (hv : Valid sz t) (hu : BinOp.Unique t) {ds : List Dim} (hl : 2 ≤ ds.length) (hd : ∀ d ∈ ds, d.cls ∈ classes t.dims) (hn : (classes ds).Nodup)
    (out : Dim) (hsz : sz out.cls ≠ total sz ds) (hpos : ∀ d ∈ t.dims, 0 < sz d.cls) : mergeDims sz t ds out = .error .valueError := by
  have hne : ds ≠ [] := by rintro rfl; simp at hl
  have hp := merge_perm hu hn hd
  obtain ⟨r, h1, h2, h3⟩ := transposeTo_spec hv hu hp
  unfold mergeDims
  rw [if_neg (by omega), if_neg]
  · simp only [takeWhile_min hne hd, post_eq hu, h1]
    unfold reshapeTo reshape
    rw [if_neg]
    rw [h2]
    simp only [shapeOf, List.map_append, numel_append, List.map_cons, List.map_nil, numel, Nat.mul_one]
    have hpos' : ∀ l : List Dim, (∀ d ∈ l, d ∈ t.dims) → 0 < numel (l.map (fun d => sz d.cls)) := by
      intro l hl'
      induction l with
      | nil => simp [numel]
      | cons a l ih =>
        rw [List.map_cons, numel]
        exact Nat.mul_pos (hpos a (hl' a List.mem_cons_self)) (ih (fun d hd' => hl' d (List.mem_cons_of_mem _ hd')))
    have p1 := hpos' (t.dims.takeWhile (fun x => decide (x.cls ∉ classes ds))) (fun d h => (List.takeWhile_prefix _).subset h)
    have p2 := hpos' ((t.dims.dropWhile (fun x => decide (x.cls ∉ classes ds))).filter (fun x => decide (x.cls ∉ classes ds))) (fun d h => (List.dropWhile_suffix _).subset (List.mem_of_mem_filter h))
    intro h
    apply hsz
    have h' := Nat.eq_of_mul_eq_mul_right p2 h
    have h'' := Nat.eq_of_mul_eq_mul_left p1 h'
    rw [h'', total_numel]
    rfl
  · simp only [List.any_eq_true, Bool.not_eq_true', not_exists, not_and, Bool.not_eq_false]
    intro d hd'
    rw [inDims_iff]
    exact hd d hd'

/-! ### Reshape -/

theorem restAxes_take (n : Nat) {axes : List Nat} (hne : axes ≠ []) (hb : ∀ i ∈ axes, i < n) :
    (restAxes n axes).take (minOf axes) = List.range (minOf axes) ∧ (restAxes n axes).drop (minOf axes) = ((List.range n).drop (minOf axes)).filter (fun i => !axes.contains i) := by
  have hk := hb _ (minOf_mem hne)
  have hsplit : restAxes n axes = List.range (minOf axes) ++ ((List.range n).drop (minOf axes)).filter (fun i => !axes.contains i) := by
    unfold restAxes
    conv_lhs => rw [← List.take_append_drop (minOf axes) (List.range n)]
    rw [List.filter_append, List.take_range, Nat.min_eq_left (by omega)]
    congr 1
    rw [List.filter_eq_self]
    intro i hi
    rw [List.mem_range] at hi
    simp only [Bool.not_eq_true', List.contains_eq_mem, decide_eq_false_iff_not]
    intro hm
    have := minOf_le hm
    omega
  constructor
  · rw [hsplit]
    have : (List.range (minOf axes)).length = minOf axes := List.length_range
    conv_lhs => rw [show minOf axes = (List.range (minOf axes)).length from this.symm]
    rw [List.length_range, List.take_append_of_le_length (by simp), List.take_of_length_le (by simp)]
  · rw [hsplit, List.drop_append_of_le_length (by simp), List.drop_of_length_le (by simp), List.nil_append]

/-- C108: `reshape`: the values keep their rank within the dims which are reshaped, and their position in the other dims. -/
theorem reshape_right {sz : Nat → Nat} {t : Tensor α} (hv : Valid sz t) (hu : BinOp.Unique t) {ins outs : List Dim} (hne : ins ≠ []) (hd : ∀ d ∈ ins, d.cls ∈ classes t.dims) (hn : (classes ins).Nodup)
    (hsz : total sz ins = total sz outs) :
    ∃ o pre post, reshapeDims sz t ins outs = .ok o ∧ Valid sz o ∧ o.dims = pre ++ outs ++ post ∧ pre ++ post = t.dims.filter (fun x => decide (x.cls ∉ classes ins)) ∧
      ∀ σ τ, Within sz σ t.dims → Within sz τ o.dims → (∀ d ∈ pre ++ post, σ d.cls = τ d.cls) → rank sz σ ins = rank sz τ outs → valueAt o τ = valueAt t σ := by
  have hax := axesOf_index hu hd
  have hnd := map_index_nodup (dims := t.dims) hn hd
  have hb : ∀ i ∈ ins.map (index t.dims), i < t.dims.length := by
    intro i hi
    obtain ⟨d, hd', rfl⟩ := List.mem_map.1 hi
    exact (index_spec (hd d hd')).1
  have hne' : ins.map (index t.dims) ≠ [] := by simpa using hne
  have hlen : t.raw.shape.length = t.dims.length := by rw [hv]; simp
  have hperm : ((restAxes t.dims.length (ins.map (index t.dims))).take (minOf (ins.map (index t.dims))) ++ ins.map (index t.dims) ++
      (restAxes t.dims.length (ins.map (index t.dims))).drop (minOf (ins.map (index t.dims)))).Perm (List.range t.raw.shape.length) := by
    rw [List.append_assoc]
    refine (List.perm_append_comm_assoc _ _ _).trans ?_
    rw [List.take_append_drop, hlen, List.perm_ext_iff_of_nodup _ List.nodup_range]
    · intro i
      simp only [List.mem_append, restAxes, List.mem_filter, List.mem_range, Bool.not_eq_true', List.contains_eq_mem, decide_eq_false_iff_not]
      constructor
      · rintro (h | h)
        · exact hb i h
        · exact h.1
      · intro h
        by_cases hm : i ∈ ins.map (index t.dims)
        · left; exact hm
        · right; exact ⟨h, hm⟩
    · rw [List.nodup_append]
      refine ⟨hnd, List.nodup_range.sublist List.filter_sublist, ?_⟩
      rintro a ha b hb' rfl
      have := (List.mem_filter.1 hb').2
      simp [ha] at this
  generalize hpre : ((restAxes t.dims.length (ins.map (index t.dims))).take (minOf (ins.map (index t.dims)))).map (fun i => t.dims.getD i default) = pre
  generalize hpost : ((restAxes t.dims.length (ins.map (index t.dims))).drop (minOf (ins.map (index t.dims)))).map (fun i => t.dims.getD i default) = post
  have hmid : ∀ f : Nat → Nat, (ins.map (index t.dims)).map (fun i => f (t.dims.getD i default).cls) = ins.map (fun d => f d.cls) := by
    intro f
    rw [List.map_map]
    apply List.map_congr_left
    intro d hd'
    simp only [Function.comp_apply]
    rw [(index_spec (hd d hd')).2]
  have hq : ∀ f : Nat → Nat, ((restAxes t.dims.length (ins.map (index t.dims))).take (minOf (ins.map (index t.dims))) ++ ins.map (index t.dims) ++
      (restAxes t.dims.length (ins.map (index t.dims))).drop (minOf (ins.map (index t.dims)))).map (fun i => f (t.dims.getD i default).cls) = (pre ++ ins ++ post).map (fun d => f d.cls) := by
    intro f
    rw [List.map_append, List.map_append, List.map_append, List.map_append, hmid, ← hpre, ← hpost, List.map_map, List.map_map]
    rfl
  have hpk := permute_ok t.raw hperm
  have hshape : ((restAxes t.dims.length (ins.map (index t.dims))).take (minOf (ins.map (index t.dims))) ++ ins.map (index t.dims) ++
      (restAxes t.dims.length (ins.map (index t.dims))).drop (minOf (ins.map (index t.dims)))).map (fun j => t.raw.shape.getD j 0) = shapeOf sz (pre ++ ins ++ post) := by
    rw [shapeOf, ← hq sz]
    apply List.map_congr_left
    intro i hi
    have hi' : i < t.dims.length := by rw [← hlen]; exact List.mem_range.1 (hperm.mem_iff.1 hi)
    rw [hv]
    simp [List.getD_eq_getElem?_getD, List.getElem?_eq_getElem hi']
  obtain ⟨o, h4, h5, h6, h7⟩ := reshapeTo_spec (r := ⟨_, _⟩) (outs := outs) t.sparse hshape hsz
  have hpp : pre ++ post = t.dims.filter (fun x => decide (x.cls ∉ classes ins)) := by
    rw [← hpre, ← hpost, ← List.map_append, List.take_append_drop, restAxes]
    rw [filter_range_map t.dims _ (fun x => decide (x.cls ∉ classes ins))]
    intro i hi
    rw [Bool.eq_iff_iff]
    simp only [Bool.not_eq_true', List.contains_eq_mem, decide_eq_false_iff_not, decide_eq_true_eq]
    rw [mem_map_index hu hd hi]
  refine ⟨o, pre, post, ?_, h6, h5, hpp, ?_⟩
  · unfold reshapeDims
    rw [hax]
    simp only [not_not]
    rw [if_neg (by simpa using hnd), if_neg hne', hpk]
    simp only [List.map_take, List.map_drop, ← List.map_take, ← List.map_drop, hpre, hpost]
    exact h4
  · intro σ τ hσ hτ hag hr
    have hw1 : Within sz σ (pre ++ ins ++ post) := by
      intro d hd'
      have hm : d.cls ∈ classes t.dims := by
        rw [List.append_assoc, List.mem_append, List.mem_append] at hd'
        rcases hd' with h | h | h
        · have : d ∈ pre ++ post := List.mem_append_left _ h
          rw [hpp] at this
          exact List.mem_map_of_mem (List.mem_of_mem_filter this)
        · exact hd d h
        · have : d ∈ pre ++ post := List.mem_append_right _ h
          rw [hpp] at this
          exact List.mem_map_of_mem (List.mem_of_mem_filter this)
      obtain ⟨x, hx, e⟩ := List.mem_map.1 hm
      rw [← e]
      exact hσ x hx
    rw [h5] at hτ
    rw [h7 σ τ hw1 hτ hag hr]
    simp only
    rw [valueAt_place hv hperm, hq σ]
    rfl

end Verif.RfShape
