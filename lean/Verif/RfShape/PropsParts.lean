import Verif.RfShape.Props
/-
C109: parts of an axis and new axes: `split`, `concat`, `stack`, `expand_dim`, `squeeze`, `replace_dim`.
-/
namespace Verif.RfShape

open Verif.Py Verif.BinOp Verif.RfMatmul Verif.RfGather

variable {α : Type}

/-- The dims around an axis. -/
theorem axis_parts {dims : List Dim} (hu : (classes dims).Nodup) {axis : Dim} (ha : axis.cls ∈ classes dims) :
    ∃ pre post x, x.cls = axis.cls ∧ dims = pre ++ [x] ++ post ∧ axisOf dims axis = .ok pre.length ∧ index dims axis = pre.length ∧ (∀ d ∈ pre ++ post, d.cls ≠ axis.cls) ∧
      ∀ ds, swapDim dims axis.cls ds = pre ++ ds ++ post := by
  obtain ⟨pre, post, x, hx, hdims, hax⟩ := axis_split hu ha
  have hnx : ∀ d ∈ pre ++ post, d.cls ≠ axis.cls := by
    intro d hd' he
    rw [hdims] at hu
    simp only [classes, List.map_append, List.map_cons, List.map_nil] at hu
    rw [List.append_assoc, List.nodup_append] at hu
    rcases List.mem_append.1 hd' with h | h
    · exact hu.2.2 d.cls (List.mem_map_of_mem h) x.cls (by simp) (by rw [he, hx])
    · have h2 := hu.2.1
      rw [List.singleton_append, List.nodup_cons] at h2
      exact h2.1 (by rw [hx, ← he]; exact List.mem_map_of_mem h)
  refine ⟨pre, post, x, hx, hdims, hax, ?_, hnx, ?_⟩
  · have := axisOf_index hu ha
    rw [hax] at this
    exact (Except.ok.inj this).symm
  · intro ds
    have hid : ∀ l : List Dim, (∀ d ∈ l, d.cls ≠ axis.cls) → swapDim l axis.cls ds = l := by
      intro l hl
      induction l with
      | nil => rfl
      | cons a l ih =>
        have := ih (fun d hd' => hl d (List.mem_cons_of_mem _ hd'))
        unfold swapDim at this ⊢
        rw [List.flatMap_cons, if_neg (hl a List.mem_cons_self), this]
        rfl
    have happ : ∀ a b : List Dim, swapDim (a ++ b) axis.cls ds = swapDim a axis.cls ds ++ swapDim b axis.cls ds := by
      intro a b; simp [swapDim]
    rw [hdims, happ, happ, hid pre (fun d h => hnx d (List.mem_append_left _ h)), hid post (fun d h => hnx d (List.mem_append_right _ h))]
    simp [swapDim, hx]

theorem take_mid {β : Type} (pre post : List β) (x : β) : (pre ++ [x] ++ post).take pre.length = pre := by rw [List.append_assoc, List.take_left]

theorem drop_mid {β : Type} (pre post : List β) (x : β) : (pre ++ [x] ++ post).drop (pre.length + 1) = post := by
  have : (pre ++ [x]).length = pre.length + 1 := by simp
  rw [← this, List.drop_left]

theorem set_mid {β : Type} (pre post : List β) (x y : β) : (pre ++ [x] ++ post).set pre.length y = pre ++ [y] ++ post := by
  rw [List.append_assoc, List.set_append_right _ _ (Nat.le_refl _)]
  simp

theorem getD_mid {β : Type} (pre post : List β) (x e : β) : (pre ++ [x] ++ post).getD pre.length e = x := by
  simp [List.getD_eq_getElem?_getD]

theorem erase_mid {β : Type} (pre post : List β) (x : β) : (pre ++ [x] ++ post).eraseIdx pre.length = pre ++ post := by
  rw [List.append_assoc, List.eraseIdx_append_of_length_le (Nat.le_refl _)]
  simp

/-- The index with the axis at `n`. -/
theorem map_moveTo {pre post : List Dim} {x : Dim} {c : Nat} (hx : x.cls = c) (hn : ∀ d ∈ pre ++ post, d.cls ≠ c) (σ : Nat → Nat) (n : Nat) :
    (pre ++ [x] ++ post).map (fun d => moveTo σ c n d.cls) = pre.map (fun d => σ d.cls) ++ [n] ++ post.map (fun d => σ d.cls) := by
  rw [List.map_append, List.map_append, List.map_singleton]
  congr 1
  · congr 1
    · exact List.map_congr_left (fun d hd => moveTo_ne (hn d (List.mem_append_left _ hd)))
    · rw [hx, moveTo, if_pos rfl]
  · exact List.map_congr_left (fun d hd => moveTo_ne (hn d (List.mem_append_right _ hd)))

/-! ### Split -/

theorem splitParts_length (r : Raw α) (axis : Nat) (start : Nat) (ns : List Nat) : (splitParts r axis start ns).length = ns.length := by
  induction ns generalizing start with
  | nil => rfl
  | cons n ns ih => rw [splitParts, List.length_cons, List.length_cons, ih]

theorem splitParts_get (r : Raw α) (axis : Nat) (start : Nat) (ns : List Nat) (k n : Nat) (h : ns[k]? = some n) :
    (splitParts r axis start ns)[k]? = some (narrow r axis (start + (ns.take k).sum) n) := by
  induction ns generalizing start k with
  | nil => simp at h
  | cons m ns ih =>
    cases k with
    | zero => simp at h; simp [splitParts, h]
    | succ k =>
      rw [List.getElem?_cons_succ] at h
      rw [splitParts, List.getElem?_cons_succ, ih _ _ h, List.take_succ_cons, List.sum_cons, Nat.add_assoc]

/-- C109: `split`: the parts one after the other. -/
theorem split_right {sz : Nat → Nat} {t : Tensor α} (hv : Valid sz t) (hu : BinOp.Unique t) {axis : Dim} (ha : axis.cls ∈ classes t.dims) (outs : List Dim) (hsz : (outs.map (fun d => sz d.cls)).sum = sz axis.cls) :
    ∃ os, split sz t axis outs = .ok os ∧ os.length = outs.length ∧ ∀ (k : Nat) d, outs[k]? = some d → ∃ o, os[k]? = some o ∧ o.dims = swapDim t.dims axis.cls [d] ∧ Valid sz o ∧
      ∀ σ, valueAt o σ = valueAt t (moveTo σ axis.cls (((outs.take k).map (fun d => sz d.cls)).sum + σ d.cls)) := by
  obtain ⟨pre, post, x, hx, hdims, hax, _, hnx, hsw⟩ := axis_parts hu ha
  have hs : t.raw.shape = pre.map (fun d => sz d.cls) ++ [sz axis.cls] ++ post.map (fun d => sz d.cls) := by rw [hv, hdims]; simp [hx]
  have hlen : (pre.map (fun d => sz d.cls)).length = pre.length := by simp
  have hg : t.raw.shape.getD pre.length 0 = sz axis.cls := by rw [hs, ← hlen, getD_mid]
  unfold split torchSplit
  rw [hax]
  simp only
  rw [if_pos (show (shapeOf sz outs).sum = _ by rw [hg]; exact hsz)]
  refine ⟨_, rfl, by simp [splitParts_length, shapeOf], ?_⟩
  intro k d hd
  refine ⟨⟨pre ++ [d] ++ post, t.feat, t.sparse, narrow t.raw pre.length ((outs.take k).map (fun d => sz d.cls)).sum (sz d.cls)⟩, ?_, ?_, ?_, ?_⟩
  · rw [List.getElem?_zipWith, hd, splitParts_get _ _ _ _ k (sz d.cls) (by rw [shapeOf, List.getElem?_map, hd]; rfl)]
    simp only [Nat.zero_add, List.map_take, shapeOf]
    rw [hdims, take_mid, drop_mid]
  · rw [hsw]
  · unfold Valid narrow
    simp only
    rw [hs, ← hlen, set_mid]
    simp
  · intro σ
    unfold valueAt narrow
    simp only
    rw [hdims, map_moveTo hx hnx]
    have hl2 : (pre.map (fun d => σ d.cls)).length = pre.length := by simp
    rw [List.map_append, List.map_append, List.map_singleton, ← hl2, set_mid, getD_mid]

/-- C109: sizes which do not add up raise. -/
theorem split_size {sz : Nat → Nat} {t : Tensor α} (hv : Valid sz t) (hu : BinOp.Unique t) {axis : Dim} (ha : axis.cls ∈ classes t.dims) (outs : List Dim) (hsz : (outs.map (fun d => sz d.cls)).sum ≠ sz axis.cls) :
    split sz t axis outs = .error .valueError := by
  obtain ⟨pre, post, x, hx, hdims, hax, _, hnx, hsw⟩ := axis_parts hu ha
  have hs : t.raw.shape = pre.map (fun d => sz d.cls) ++ [sz axis.cls] ++ post.map (fun d => sz d.cls) := by rw [hv, hdims]; simp [hx]
  have hlen : (pre.map (fun d => sz d.cls)).length = pre.length := by simp
  have hg : t.raw.shape.getD pre.length 0 = sz axis.cls := by rw [hs, ← hlen, getD_mid]
  unfold split torchSplit
  rw [hax]
  simp only
  rw [if_neg (show ¬ (shapeOf sz outs).sum = _ by rw [hg]; exact hsz)]

/-! ### Concat -/

theorem catGet_at (axis : Nat) (r : Raw α) (rs : List (Raw α)) (k : Nat) (x : Raw α) (h : (r :: rs)[k]? = some x) (p q : List Nat) (hp : p.length = axis) (j : Nat) (hj : j < x.shape.getD axis 0) :
    catGet axis r rs (p ++ [(((r :: rs).take k).map (fun x => x.shape.getD axis 0)).sum + j] ++ q) = x.get (p ++ [j] ++ q) := by
  subst hp
  induction rs generalizing r k with
  | nil =>
    cases k with
    | zero => simp at h; subst h; simp [catGet]
    | succ k => simp at h
  | cons r2 rs ih =>
    cases k with
    | zero =>
      simp only [List.getElem?_cons_zero, Option.some.injEq] at h
      subst h
      simp only [List.take_zero, List.map_nil, List.sum_nil, Nat.zero_add]
      rw [catGet, getD_mid, if_pos hj]
    | succ k =>
      rw [List.getElem?_cons_succ] at h
      rw [List.take_succ_cons, List.map_cons, List.sum_cons]
      rw [catGet, getD_mid, if_neg (by omega), set_mid, ← ih r2 k h, Nat.add_assoc, Nat.add_sub_cancel_left]

/-- `torch.cat` on raw tensors whose shapes are given by dims. -/
theorem torchCat_spec {sz : Nat → Nat} (pre post : List Dim) (s0 : Raw α) (d0 : Dim) (ss : List (Raw α × Dim)) (h0 : s0.shape = shapeOf sz (pre ++ [d0] ++ post)) (hs : ∀ s ∈ ss, s.1.shape = shapeOf sz (pre ++ [s.2] ++ post)) :
    ∃ r, torchCat pre.length s0 (ss.map Prod.fst) = .ok r ∧
      r.shape = pre.map (fun d => sz d.cls) ++ [((d0 :: ss.map Prod.snd).map (fun d => sz d.cls)).sum] ++ post.map (fun d => sz d.cls) ∧
      ∀ (k : Nat) s, ((s0, d0) :: ss)[k]? = some s → ∀ σ : Nat → Nat, σ s.2.cls < sz s.2.cls →
        r.get (pre.map (fun d => σ d.cls) ++ [((((d0 :: ss.map Prod.snd).take k).map (fun d => sz d.cls)).sum + σ s.2.cls)] ++ post.map (fun d => σ d.cls)) = s.1.get ((pre ++ [s.2] ++ post).map (fun d => σ d.cls)) := by
  have hl : (pre.map (fun d => sz d.cls)).length = pre.length := by simp
  have hsh : ∀ d, shapeOf sz (pre ++ [d] ++ post) = pre.map (fun d => sz d.cls) ++ [sz d.cls] ++ post.map (fun d => sz d.cls) := by intro d; simp [shapeOf]
  have hall : ∀ s ∈ (s0, d0) :: ss, s.1.shape.getD pre.length 0 = sz s.2.cls := by
    intro s hm
    have : s.1.shape = shapeOf sz (pre ++ [s.2] ++ post) := by
      rcases List.mem_cons.1 hm with rfl | h
      · exact h0
      · exact hs s h
    rw [this, hsh, ← hl, getD_mid]
  have hmap : ∀ l : List (Raw α × Dim), (∀ s ∈ l, s ∈ (s0, d0) :: ss) → (l.map Prod.fst).map (fun x => x.shape.getD pre.length 0) = (l.map Prod.snd).map (fun d => sz d.cls) := by
    intro l h
    rw [List.map_map, List.map_map]
    exact List.map_congr_left (fun s hm => hall s (h s hm))
  unfold torchCat
  rw [if_pos]
  · refine ⟨_, rfl, ?_, ?_⟩
    · simp only
      have := hmap ((s0, d0) :: ss) (fun s h => h)
      simp only [List.map_cons] at this ⊢
      rw [this, h0, hsh, ← hl, set_mid]
    · intro k s hk σ hσ
      have hm : s ∈ (s0, d0) :: ss := List.mem_of_getElem? hk
      have hk' : (s0 :: ss.map Prod.fst)[k]? = some s.1 := by
        have : s0 :: ss.map Prod.fst = ((s0, d0) :: ss).map Prod.fst := rfl
        rw [this, List.getElem?_map, hk]
        rfl
      have := catGet_at pre.length s0 (ss.map Prod.fst) k s.1 hk' (pre.map (fun d => σ d.cls)) (post.map (fun d => σ d.cls)) (by simp) (σ s.2.cls) (by rw [hall s hm]; exact hσ)
      have hm2 := hmap (((s0, d0) :: ss).take k) (fun s h => List.mem_of_mem_take h)
      rw [show (((s0, d0) :: ss).take k).map Prod.fst = (s0 :: ss.map Prod.fst).take k by rw [List.map_take]; rfl,
        show (((s0, d0) :: ss).take k).map Prod.snd = (d0 :: ss.map Prod.snd).take k by rw [List.map_take]; rfl] at hm2
      rw [hm2] at this
      simp only
      rw [this]
      simp
  · intro x hx
    obtain ⟨s, hm, rfl⟩ := List.mem_map.1 hx
    rw [hs s hm, h0, hsh, hsh]
    constructor
    · rw [← hl, erase_mid, erase_mid]
    · simp

theorem mapM_all {β γ : Type} (f : β → Res γ) (P : β → γ → Prop) (l : List β) (h : ∀ b ∈ l, ∃ c, f b = .ok c ∧ P b c) : ∃ cs, l.mapM f = .ok cs ∧ List.Forall₂ P l cs := by
  induction l with
  | nil => exact ⟨[], rfl, .nil⟩
  | cons b l ih =>
    obtain ⟨c, h1, h2⟩ := h b List.mem_cons_self
    obtain ⟨cs, h3, h4⟩ := ih (fun b hb => h b (List.mem_cons_of_mem _ hb))
    refine ⟨c :: cs, ?_, .cons h2 h4⟩
    rw [List.mapM_cons, h1, h3]
    rfl

theorem sameSet_iff (a b : List Dim) : sameSet a b = true ↔ ∀ c, c ∈ classes a ↔ c ∈ classes b := by
  unfold sameSet
  simp only [Bool.and_eq_true, List.all_eq_true, inDims_iff]
  constructor
  · rintro ⟨h1, h2⟩ c
    constructor
    · intro h; obtain ⟨x, hx, rfl⟩ := List.mem_map.1 h; exact h1 x hx
    · intro h; obtain ⟨x, hx, rfl⟩ := List.mem_map.1 h; exact h2 x hx
  · intro h
    exact ⟨fun x hx => (h _).1 (List.mem_map_of_mem hx), fun x hx => (h _).2 (List.mem_map_of_mem hx)⟩

theorem mem_others (ds : List Dim) (d : Dim) (c : Nat) : c ∈ classes (ds.filter (fun x => !x.eq d)) ↔ c ∈ classes ds ∧ c ≠ d.cls := by
  simp only [classes, List.mem_map, List.mem_filter, Dim.eq, Bool.not_eq_true', beq_eq_false_iff_ne]
  constructor
  · rintro ⟨x, ⟨h1, h2⟩, rfl⟩; exact ⟨⟨x, h1, rfl⟩, h2⟩
  · rintro ⟨⟨x, h1, rfl⟩, h2⟩; exact ⟨x, ⟨h1, h2⟩, rfl⟩

theorem addOthers_spec (others : List Dim) (s : Tensor α) (d : Dim) (hn : (classes others).Nodup) :
    (classes (addOthers others s d)).Nodup ∧ (∃ e, addOthers others s d = others ++ e) ∧ ∀ c, c ∈ classes (addOthers others s d) ↔ c ∈ classes others ∨ (c ∈ classes s.dims ∧ c ≠ d.cls) := by
  unfold addOthers
  generalize s.dims = l
  induction l generalizing others with
  | nil => exact ⟨hn, ⟨[], by simp⟩, by simp [classes]⟩
  | cons x l ih =>
    rw [List.foldl_cons]
    by_cases h1 : x.cls = d.cls
    · rw [if_pos (by simpa [Dim.eq] using h1)]
      obtain ⟨a, b, e⟩ := ih others hn
      refine ⟨a, b, fun c => ?_⟩
      rw [e c]
      simp only [classes, List.map_cons, List.mem_cons]
      constructor
      · rintro (h | h)
        · exact .inl h
        · exact .inr ⟨.inr h.1, h.2⟩
      · rintro (h | ⟨h | h, h'⟩)
        · exact .inl h
        · exact absurd (h.trans h1) h'
        · exact .inr ⟨h, h'⟩
    · rw [if_neg (by simpa [Dim.eq] using h1)]
      by_cases h2 : x.cls ∈ classes others
      · rw [if_pos ((inDims_iff _ _).2 h2)]
        obtain ⟨a, b, e⟩ := ih others hn
        refine ⟨a, b, fun c => ?_⟩
        rw [e c]
        simp only [classes, List.map_cons, List.mem_cons]
        constructor
        · rintro (h | h)
          · exact .inl h
          · exact .inr ⟨.inr h.1, h.2⟩
        · rintro (h | ⟨h | h, h'⟩)
          · exact .inl h
          · exact .inl (h ▸ h2)
          · exact .inr ⟨h, h'⟩
      · rw [if_neg (fun h => h2 ((inDims_iff _ _).1 h))]
        obtain ⟨a, ⟨b, hb⟩, e⟩ := ih (others ++ [x]) (by
          simp only [classes, List.map_append, List.map_cons, List.map_nil]
          rw [List.nodup_append]
          refine ⟨hn, by simp, ?_⟩
          rintro u hu v hv rfl
          rw [List.mem_singleton] at hv
          exact h2 (hv ▸ hu))
        refine ⟨a, ⟨x :: b, by rw [hb]; simp⟩, fun c => ?_⟩
        rw [e c]
        simp only [classes, List.map_append, List.map_cons, List.map_nil, List.mem_append, List.mem_cons, List.not_mem_nil, or_false]
        constructor
        · rintro ((h | h) | h)
          · exact .inl h
          · exact .inr ⟨.inl h, h ▸ h1⟩
          · exact .inr ⟨.inr h.1, h.2⟩
        · rintro (h | ⟨h | h, h'⟩)
          · exact .inl (.inl h)
          · exact .inl (.inr h)
          · exact .inr ⟨h, h'⟩

/-- The other dims of all the sources. -/
theorem allOthers_spec (ss : List (Tensor α × Dim)) (others : List Dim) (need : Bool) (hn : (classes others).Nodup) (hd : ∀ s ∈ ss, s.2.cls ∈ classes s.1.dims) :
    ∃ o b, allOthers others need ss = .ok (o, b) ∧ (classes o).Nodup ∧ (∃ e, o = others ++ e) ∧ (∀ c, c ∈ classes o ↔ c ∈ classes others ∨ ∃ s ∈ ss, c ∈ classes s.1.dims ∧ c ≠ s.2.cls) ∧
      (b = false → need = false ∧ o = others ∧ ∀ s ∈ ss, ∀ c, (c ∈ classes s.1.dims ∧ c ≠ s.2.cls) ↔ c ∈ classes others) := by
  induction ss generalizing others need with
  | nil => exact ⟨others, need, rfl, hn, ⟨[], by simp⟩, by simp, fun h => ⟨h, rfl, by simp⟩⟩
  | cons s ss ih =>
    obtain ⟨s, d⟩ := s
    have h1 : inDims s.dims d = true := (inDims_iff _ _).2 (hd _ List.mem_cons_self)
    obtain ⟨a1, ⟨e, a2⟩, a3⟩ := addOthers_spec others s d hn
    obtain ⟨o, b, b1, b2, ⟨e', b3⟩, b4, b5⟩ := ih (addOthers others s d) (need || !sameSet (s.dims.filter (fun x => !x.eq d)) others) a1 (fun s hs => hd s (List.mem_cons_of_mem _ hs))
    refine ⟨o, b, ?_, b2, ⟨e ++ e', by rw [b3, a2, List.append_assoc]⟩, ?_, ?_⟩
    · rw [allOthers, h1]
      simpa using b1
    · intro c
      rw [b4 c, a3 c]
      simp only [List.mem_cons, exists_eq_or_imp, or_assoc]
    · intro hb
      obtain ⟨c1, c2, c3⟩ := b5 hb
      rw [Bool.or_eq_false_iff, Bool.not_eq_false', sameSet_iff] at c1
      obtain ⟨c1, c4⟩ := c1
      have hc4 : ∀ c, (c ∈ classes s.dims ∧ c ≠ d.cls) ↔ c ∈ classes others := fun c => by rw [← mem_others, c4 c]
      have hadd : addOthers others s d = others := by
        have hlen : (classes (addOthers others s d)).Perm (classes others) := by
          rw [List.perm_ext_iff_of_nodup a1 hn]
          intro c
          rw [a3 c, hc4 c, or_self]
        have := hlen.length_eq
        rw [a2] at this ⊢
        simp only [classes, List.length_map, List.length_append] at this
        have : e = [] := List.eq_nil_of_length_eq_zero (by omega)
        rw [this, List.append_nil]
      refine ⟨c1, by rw [c2, hadd], ?_⟩
      intro x hx
      rcases List.mem_cons.1 hx with rfl | hx
      · exact hc4
      · intro c
        rw [c3 x hx c, hadd]

theorem forall₂_zip_fst {β γ : Type} {P : β → γ → Prop} {l : List β} {cs : List γ} (h : List.Forall₂ P l cs) (f : β → Dim) : ((cs.zip (l.map f)).map Prod.fst) = cs ∧ ((cs.zip (l.map f)).map Prod.snd) = l.map f := by
  have := h.length_eq
  exact ⟨List.map_fst_zip (by simp [this]), List.map_snd_zip (by simp [this])⟩

/-- C109: `concat`: each value of a source is at its own position, moved by the sizes of the sources before; with `allow_broadcast` the sources are repeated over the dims they lack. -/
theorem concat_right {sz : Nat → Nat} (dyn : Dim → Bool) (s0 : Tensor α × Dim) (ss : List (Tensor α × Dim)) (allow handle : Bool) (out : Dim)
    (hv : ∀ s ∈ s0 :: ss, Valid sz s.1 ∧ BinOp.Unique s.1 ∧ s.2.cls ∈ classes s.1.dims)
    (hown : ∀ s ∈ s0 :: ss, ∀ s' ∈ s0 :: ss, s.2.cls ∈ classes s'.1.dims → s.2.cls = s'.2.cls)
    (hout : ∀ s ∈ s0 :: ss, out.cls ∈ classes s.1.dims → out.cls = s.2.cls)
    (hsame : allow = false → ∀ s ∈ ss, ∀ c, (c ∈ classes s.1.dims ∧ c ≠ s.2.cls) ↔ (c ∈ classes s0.1.dims ∧ c ≠ s0.2.cls))
    (hdyn : handle = true → ∀ s ∈ (s0 :: ss).dropLast, dyn s.2 = false)
    (hsz : sz out.cls = ((s0 :: ss).map (fun s => sz s.2.cls)).sum) :
    ∃ o e, concat sz dyn s0 ss allow handle out = .ok o ∧ Valid sz o ∧ BinOp.Unique o ∧ o.dims = swapDim s0.1.dims s0.2.cls [out] ++ e ∧ (allow = false → e = []) ∧
      (∀ c, c ∈ classes o.dims ↔ c = out.cls ∨ ∃ s ∈ s0 :: ss, c ∈ classes s.1.dims ∧ c ≠ s.2.cls) ∧
      ∀ (k : Nat) s, (s0 :: ss)[k]? = some s → ∀ σ, Within sz σ s.1.dims → (∀ d ∈ o.dims, d.cls ≠ out.cls → σ d.cls < sz d.cls) →
        valueAt o (moveTo σ out.cls ((((s0 :: ss).take k).map (fun s => sz s.2.cls)).sum + σ s.2.cls)) = valueAt s.1 σ := by
  obtain ⟨v0, u0, m0⟩ := hv s0 List.mem_cons_self
  obtain ⟨pre, post, x, hx, hdims, hax, hidx, hnx, hsw⟩ := axis_parts u0 m0
  have hrem : removeDim s0.1.dims s0.2 = pre ++ post := by rw [removeDim, hidx, hdims, erase_mid]
  have hmem0 : ∀ c, c ∈ classes (pre ++ post) ↔ c ∈ classes s0.1.dims ∧ c ≠ s0.2.cls := by
    intro c
    have hc : c ∈ classes s0.1.dims ↔ c ∈ classes (pre ++ post) ∨ c = s0.2.cls := by
      rw [hdims]
      simp only [classes, List.map_append, List.map_cons, List.map_nil, List.mem_append, List.mem_singleton, hx]
      tauto
    rw [hc]
    constructor
    · intro h
      refine ⟨.inl h, ?_⟩
      obtain ⟨y, hy, rfl⟩ := List.mem_map.1 h
      exact hnx y hy
    · rintro ⟨h | h, h'⟩
      · exact h
      · exact absurd h h'
  have hn0 : (classes (pre ++ post)).Nodup := by
    have := u0
    unfold BinOp.Unique at this
    rw [hdims] at this
    refine this.sublist ?_
    simp only [classes, List.map_append]
    exact (List.sublist_append_left _ _).append (List.Sublist.refl _)
  -- the other dims, and if the sources need to be repeated
  obtain ⟨others, bc, g1, g2, ⟨e, g3⟩, g4, g5⟩ : ∃ others bc, (if allow then allOthers (removeDim s0.1.dims s0.2) false ss else .ok (removeDim s0.1.dims s0.2, false)) = Except.ok (others, bc) ∧ (classes others).Nodup ∧
      (∃ e, others = pre ++ (post ++ e) ∧ (allow = false → e = [])) ∧ (∀ c, c ∈ classes others ↔ ∃ s ∈ s0 :: ss, c ∈ classes s.1.dims ∧ c ≠ s.2.cls) ∧
      ((allow && bc) = false → ∀ s ∈ s0 :: ss, ∀ c, (c ∈ classes s.1.dims ∧ c ≠ s.2.cls) ↔ c ∈ classes others) := by
    cases allow with
    | false =>
      refine ⟨pre ++ post, false, by rw [hrem]; rfl, hn0, ⟨[], by simp, fun _ => rfl⟩, ?_, ?_⟩
      · intro c
        rw [hmem0]
        constructor
        · intro h; exact ⟨s0, List.mem_cons_self, h⟩
        · rintro ⟨s, hs, h⟩
          rcases List.mem_cons.1 hs with rfl | hs
          · exact h
          · exact (hsame rfl s hs c).1 h
      · intro _ s hs c
        rw [hmem0]
        rcases List.mem_cons.1 hs with rfl | hs
        · exact Iff.rfl
        · exact hsame rfl s hs c
    | true =>
      obtain ⟨o, b, b1, b2, ⟨e, b3⟩, b4, b5⟩ := allOthers_spec ss (pre ++ post) false hn0 (fun s hs => (hv s (List.mem_cons_of_mem _ hs)).2.2)
      refine ⟨o, b, by rw [hrem]; simpa using b1, b2, ⟨e, by rw [b3, List.append_assoc], by simp⟩, ?_, ?_⟩
      · intro c
        rw [b4 c, hmem0]
        simp only [List.mem_cons, exists_eq_or_imp]
      · intro hb s hs c
        obtain ⟨_, c2, c3⟩ := b5 (by simpa using hb)
        rw [c2]
        rcases List.mem_cons.1 hs with rfl | hs
        · rw [hmem0]
        · exact c3 s hs c
  have hwa : ∀ d, withAxis others pre.length d = pre ++ [d] ++ (post ++ e) := by
    intro d
    rw [withAxis, g3.1, List.take_left, List.drop_left]
  have hnown : ∀ s ∈ s0 :: ss, s.2.cls ∉ classes others := by
    intro s hs h
    rw [g4] at h
    obtain ⟨s', hs', h1, h2⟩ := h
    exact h2 (hown s hs s' hs' h1)
  have hnodup : ∀ d : Dim, d.cls ∉ classes others → (classes (pre ++ [d] ++ (post ++ e))).Nodup := by
    intro d hd
    have : (classes (d :: others)).Nodup := by
      simp only [classes, List.map_cons, List.nodup_cons]
      exact ⟨hd, g2⟩
    refine (List.Perm.nodup_iff ?_).1 this
    rw [g3.1]
    simp only [classes, ← List.map_append]
    apply List.Perm.map
    rw [List.append_assoc]
    exact (List.perm_middle (l₁ := pre)).symm
  have hcl : ∀ (d : Dim) c, c ∈ classes (pre ++ [d] ++ (post ++ e)) ↔ c = d.cls ∨ c ∈ classes others := by
    intro d c
    rw [g3.1]
    simp only [classes, List.map_append, List.map_cons, List.map_nil, List.mem_append, List.mem_singleton]
    tauto
  -- each source
  have hsrc : ∀ s ∈ s0 :: ss, ∃ r, catSource sz (allow && bc) others pre.length s = .ok r ∧ (r.shape = shapeOf sz (pre ++ [s.2] ++ (post ++ e)) ∧
      ∀ σ, Within sz σ (pre ++ [s.2] ++ (post ++ e)) → r.get ((pre ++ [s.2] ++ (post ++ e)).map (fun d => σ d.cls)) = valueAt s.1 σ) := by
    intro s hs
    obtain ⟨v, u, m⟩ := hv s hs
    unfold catSource
    rw [hwa]
    have hsub : ∀ d ∈ s.1.dims, d.cls ∈ classes (pre ++ [s.2] ++ (post ++ e)) := by
      intro d hd
      rw [hcl]
      by_cases h : d.cls = s.2.cls
      · exact .inl h
      · exact .inr ((g4 _).2 ⟨s, hs, List.mem_map_of_mem hd, h⟩)
    cases hb : allow && bc with
    | true =>
      obtain ⟨r, h1, h2, h3⟩ := unbroadcastTo_spec v u (hnodup s.2 (hnown s hs)) hsub
      exact ⟨r, by rw [if_pos rfl, h1], h2, h3⟩
    | false =>
      have hset : ∀ c, c ∈ classes (pre ++ [s.2] ++ (post ++ e)) ↔ c ∈ classes s.1.dims := by
        intro c
        rw [hcl, ← g5 hb s hs c]
        constructor
        · rintro (rfl | h)
          · exact m
          · exact h.1
        · intro h
          by_cases h' : c = s.2.cls
          · exact .inl h'
          · exact .inr ⟨h, h'⟩
      obtain ⟨r, h1, h2, h3⟩ := transposeTo_spec v u ((List.perm_ext_iff_of_nodup (hnodup s.2 (hnown s hs)) u).2 hset)
      refine ⟨r, ?_, h2, h3⟩
      rw [if_neg (by simp), if_pos ((sameSet_iff _ _).2 hset), h1]
  obtain ⟨r0, p1, p2, p3⟩ := hsrc s0 List.mem_cons_self
  obtain ⟨rs, q1, q2⟩ := mapM_all _ _ ss (fun s hs => hsrc s (List.mem_cons_of_mem _ hs))
  obtain ⟨z1, z2⟩ := forall₂_zip_fst q2 Prod.snd
  obtain ⟨r, t1, t2, t3⟩ := torchCat_spec (sz := sz) pre (post ++ e) r0 s0.2 (rs.zip (ss.map Prod.snd)) p2 (by
    intro s hs
    obtain ⟨i, hi, rfl⟩ := List.getElem_of_mem hs
    rw [List.getElem_zip, List.getElem_map]
    have := (List.forall₂_iff_get.1 q2).2 i (by simp at hi; omega) (by simp at hi; omega)
    exact this.1)
  rw [z1] at t1
  rw [z2] at t2 t3
  have hoc : out.cls ∉ classes others := by
    intro h
    rw [g4] at h
    obtain ⟨s, hs, h1, h2⟩ := h
    exact h2 (hout s hs h1)
  refine ⟨⟨pre ++ [out] ++ (post ++ e), none, s0.1.sparse, r⟩, e, ?_, ?_, hnodup out hoc, ?_, g3.2, ?_, ?_⟩
  · unfold concat
    rw [if_neg, if_neg]
    · simp only [hax, bind, Except.bind, pure, Except.pure]
      by_cases ha : allow = true
      · rw [if_pos ha] at g1 ⊢
        simp only [g1, p1, q1, t1, hwa]
      · rw [if_neg ha] at g1 ⊢
        have hp := Prod.mk.inj (Except.ok.inj g1)
        simp only [hp.1, hp.2, p1, q1, t1, hwa]
    · cases handle with
      | false => simp
      | true =>
        simp only [Bool.true_and, List.any_eq_true, not_exists, not_and, Bool.not_eq_true]
        exact hdyn rfl
    · cases allow with
      | true => simp
      | false =>
        simp only [Bool.not_false, Bool.true_and, List.any_eq_true, not_exists, not_and, Bool.not_eq_true', Bool.not_eq_false]
        intro s hs
        rw [sameSet_iff]
        intro c
        rw [mem_others, mem_others]
        rcases List.mem_cons.1 hs with rfl | hs
        · exact Iff.rfl
        · exact hsame rfl s hs c
  · unfold Valid
    simp only
    rw [t2]
    simp [hsz, Function.comp_def]
  · rw [hsw]
    simp
  · intro c
    rw [hcl, g4]
  · intro k s hk σ hσ hσo
    have hs : s ∈ s0 :: ss := List.mem_of_getElem? hk
    have hlen : rs.length = ss.length := q2.length_eq.symm
    obtain ⟨rk, hrk, hval⟩ : ∃ rk, ((r0, s0.2) :: rs.zip (ss.map Prod.snd))[k]? = some (rk, s.2) ∧ ∀ σ, Within sz σ (pre ++ [s.2] ++ (post ++ e)) → rk.get ((pre ++ [s.2] ++ (post ++ e)).map (fun d => σ d.cls)) = valueAt s.1 σ := by
      cases k with
      | zero =>
        simp only [List.getElem?_cons_zero, Option.some.injEq] at hk ⊢
        subst hk
        exact ⟨r0, rfl, p3⟩
      | succ k =>
        rw [List.getElem?_cons_succ] at hk
        obtain ⟨hk1, hk2⟩ := List.getElem?_eq_some_iff.1 hk
        refine ⟨rs[k], ?_, ?_⟩
        · rw [List.getElem?_cons_succ, List.getElem?_eq_getElem (by simp; omega), List.getElem_zip, List.getElem_map, hk2]
        · have := (List.forall₂_iff_get.1 q2).2 k hk1 (by omega)
          simp only [List.get_eq_getElem, hk2] at this
          exact this.2
    have hsd : σ s.2.cls < sz s.2.cls := by
      obtain ⟨d, hd, he⟩ := List.mem_map.1 (hv s hs).2.2
      rw [← he]
      exact hσ d hd
    have hw : Within sz σ (pre ++ [s.2] ++ (post ++ e)) := by
      intro d hd
      rw [List.append_assoc, List.mem_append, List.mem_append, List.mem_singleton] at hd
      have hcase : d ∈ pre ++ (post ++ e) → σ d.cls < sz d.cls := by
        intro h
        apply hσo d
        · rcases List.mem_append.1 h with h | h
          · exact List.mem_append_left _ (List.mem_append_left _ h)
          · exact List.mem_append_right _ h
        · intro he
          apply hoc
          rw [g3.1, ← he]
          exact List.mem_map_of_mem h
      rcases hd with h | rfl | h
      · exact hcase (List.mem_append_left _ h)
      · exact hsd
      · exact hcase (List.mem_append_right _ h)
    have h3 := t3 k (rk, s.2) hrk σ hsd
    rw [hval σ hw] at h3
    rw [← h3]
    unfold valueAt
    simp only
    rw [map_moveTo rfl (fun d hd he => hoc (by rw [g3.1, ← he]; exact List.mem_map_of_mem hd))]
    congr 4
    have : ∀ l : List (Tensor α × Dim), l.map (fun s => sz s.2.cls) = (l.map Prod.snd).map (fun d => sz d.cls) := by intro l; rw [List.map_map]; rfl
    rw [this, List.map_take, List.map_cons]

end Verif.RfShape
