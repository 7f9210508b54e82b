import Verif.RfShape.PropsParts
import Mathlib.Tactic.Ring
/-
C109: `stack`, `expand_dim`, `squeeze`, `replace_dim`; the parts of `split` put together again by `concat`. C108: the sizes of merged dims.
-/
namespace Verif.RfShape

open Verif.Py Verif.BinOp Verif.RfMatmul Verif.RfGather

variable {α : Type}

/-! ### Concat of the parts -/

/-- C109: without `allow_broadcast`, sources with different other dims are refused. -/
theorem concat_lacks (sz : Nat → Nat) (dyn : Dim → Bool) (s0 : Tensor α × Dim) (ss : List (Tensor α × Dim)) (handle : Bool) (out : Dim) {s : Tensor α × Dim} (hs : s ∈ ss) {c : Nat}
    (h : ¬ ((c ∈ classes s.1.dims ∧ c ≠ s.2.cls) ↔ (c ∈ classes s0.1.dims ∧ c ≠ s0.2.cls))) : concat sz dyn s0 ss false handle out = .error .assertion := by
  unfold concat
  rw [if_pos]
  · rfl
  · simp only [Bool.not_false, Bool.true_and, List.any_eq_true]
    refine ⟨s, List.mem_cons_of_mem _ hs, ?_⟩
    rw [Bool.not_eq_true', Bool.eq_false_iff]
    intro h'
    rw [sameSet_iff] at h'
    have := h' c
    rw [mem_others, mem_others] at this
    exact h this

/-- C109: dynamic dims before the last source are refused, unless `handle_dynamic_dims=False`. -/
theorem concat_dynamic (sz : Nat → Nat) (dyn : Dim → Bool) (s0 : Tensor α × Dim) (ss : List (Tensor α × Dim)) (allow : Bool) (out : Dim) {s : Tensor α × Dim} (hs : s ∈ (s0 :: ss).dropLast) (h : dyn s.2 = true) :
    concat sz dyn s0 ss allow true out = .error .assertion := by
  unfold concat
  have h2 : (true && (s0 :: ss).dropLast.any (fun s => dyn s.2)) = true := by
    simp only [Bool.true_and, List.any_eq_true]
    exact ⟨s, hs, h⟩
  by_cases h1 : (!allow && (s0 :: ss).any (fun s => !sameSet (s.1.dims.filter (fun x => !x.eq s.2)) (s0.1.dims.filter (fun x => !x.eq s0.2)))) = true
  · rw [if_pos h1]
    rfl
  · rw [if_neg h1, if_pos h2]
    rfl

/-- A position among parts. -/
theorem find_part (ns : List Nat) (n : Nat) (h : n < ns.sum) : ∃ (k m j : Nat), ns[k]? = some m ∧ j < m ∧ n = (ns.take k).sum + j := by
  induction ns generalizing n with
  | nil => simp at h
  | cons a ns ih =>
    by_cases ha : n < a
    · exact ⟨0, a, n, by simp, ha, by simp⟩
    · rw [List.sum_cons] at h
      obtain ⟨k, m, j, h1, h2, h3⟩ := ih (n - a) (by omega)
      exact ⟨k + 1, m, j, by simpa using h1, h2, by rw [List.take_succ_cons, List.sum_cons]; omega⟩

/-- C109: `concat` of the parts of `split` is the tensor again. -/
theorem concat_split {sz : Nat → Nat} {t : Tensor α} (hv : Valid sz t) (hu : BinOp.Unique t) {axis : Dim} (ha : axis.cls ∈ classes t.dims) (dyn : Dim → Bool) (handle : Bool) {outs : List Dim} (hne : outs ≠ [])
    (hsz : (outs.map (fun d => sz d.cls)).sum = sz axis.cls) (hown : ∀ d ∈ outs, d.cls ∈ classes t.dims → d.cls = axis.cls) (hdyn : handle = true → ∀ d ∈ outs, dyn d = false) :
    ∃ os s0 ss o, split sz t axis outs = .ok os ∧ os.zip outs = s0 :: ss ∧ concat sz dyn s0 ss false handle axis = .ok o ∧ classes o.dims = classes t.dims ∧ ∀ σ, Within sz σ t.dims → valueAt o σ = valueAt t σ := by
  obtain ⟨os, h1, h2, h3⟩ := split_right hv hu ha outs hsz
  obtain ⟨pre, post, x, hx, hdims, _, _, hnx, hsw⟩ := axis_parts hu ha
  have hzip : (os.zip outs).map Prod.snd = outs := List.map_snd_zip (by omega)
  have hlenz : (os.zip outs).length = outs.length := by simp [h2]
  have hget : ∀ (k : Nat) s, (os.zip outs)[k]? = some s → outs[k]? = some s.2 ∧ s.1.dims = pre ++ [s.2] ++ post ∧ Valid sz s.1 ∧
      ∀ σ, valueAt s.1 σ = valueAt t (moveTo σ axis.cls (((outs.take k).map (fun d => sz d.cls)).sum + σ s.2.cls)) := by
    intro k s hk
    rw [List.zip_eq_zipWith, List.getElem?_zipWith_eq_some] at hk
    obtain ⟨o, d, ho, hd, rfl⟩ := hk
    obtain ⟨o', e1, e2, e3, e4⟩ := h3 k d hd
    rw [ho] at e1
    obtain rfl := Option.some.inj e1
    exact ⟨hd, by rw [e2, hsw], e3, e4⟩
  obtain ⟨s0, ss, hz⟩ : ∃ s0 ss, os.zip outs = s0 :: ss := by
    cases h : os.zip outs with
    | nil =>
      rw [h] at hlenz
      exact absurd (List.eq_nil_of_length_eq_zero hlenz.symm) hne
    | cons a l => exact ⟨a, l, rfl⟩
  have hall : ∀ s ∈ s0 :: ss, s.2 ∈ outs ∧ s.1.dims = pre ++ [s.2] ++ post ∧ Valid sz s.1 := by
    intro s hs
    rw [← hz] at hs
    obtain ⟨k, hk⟩ := List.getElem?_of_mem hs
    obtain ⟨a, b, c, _⟩ := hget k s hk
    exact ⟨List.mem_of_getElem? a, b, c⟩
  have hcl : ∀ d : Dim, ∀ c, c ∈ classes (pre ++ [d] ++ post) ↔ c = d.cls ∨ c ∈ classes (pre ++ post) := by
    intro d c
    simp only [classes, List.map_append, List.map_cons, List.map_nil, List.mem_append, List.mem_singleton]
    tauto
  have hpp : ∀ c, c ∈ classes (pre ++ post) ↔ c ∈ classes t.dims ∧ c ≠ axis.cls := by
    intro c
    rw [hdims, hcl, hx]
    constructor
    · intro h
      refine ⟨.inr h, ?_⟩
      obtain ⟨y, hy, rfl⟩ := List.mem_map.1 h
      exact hnx y hy
    · rintro ⟨h | h, h'⟩
      · exact absurd h h'
      · exact h
  have hnot : ∀ d ∈ outs, d.cls ∉ classes (pre ++ post) := by
    intro d hd h
    rw [hpp] at h
    exact h.2 (hown d hd h.1)
  have hother : ∀ s ∈ s0 :: ss, ∀ c, (c ∈ classes s.1.dims ∧ c ≠ s.2.cls) ↔ c ∈ classes (pre ++ post) := by
    intro s hs c
    obtain ⟨a, b, _⟩ := hall s hs
    rw [b, hcl]
    constructor
    · rintro ⟨h | h, h'⟩
      · exact absurd h h'
      · exact h
    · intro h
      exact ⟨.inr h, fun e => hnot s.2 a (e ▸ h)⟩
  have hnd : ∀ d : Dim, d.cls ∉ classes (pre ++ post) → (classes (pre ++ [d] ++ post)).Nodup := by
    intro d hd
    have h0 : (classes (pre ++ post)).Nodup := by
      have := hu
      unfold BinOp.Unique at this
      rw [hdims] at this
      refine this.sublist ?_
      simp only [classes, List.map_append]
      exact (List.sublist_append_left _ _).append (List.Sublist.refl _)
    have : (classes (d :: (pre ++ post))).Nodup := by
      simp only [classes, List.map_cons, List.nodup_cons]
      exact ⟨hd, h0⟩
    refine (List.Perm.nodup_iff ?_).1 this
    simp only [classes]
    apply List.Perm.map
    rw [List.append_assoc]
    exact (List.perm_middle (l₁ := pre)).symm
  have hmapsz : ∀ l : List (Tensor α × Dim), l.map (fun s => sz s.2.cls) = (l.map Prod.snd).map (fun d => sz d.cls) := by intro l; rw [List.map_map]; rfl
  obtain ⟨o, e, c1, c2, c3, c4, c5, c6, c7⟩ := concat_right dyn s0 ss false handle axis
    (by
      intro s hs
      obtain ⟨a, b, c⟩ := hall s hs
      refine ⟨c, ?_, by rw [b, hcl]; exact .inl rfl⟩
      unfold BinOp.Unique
      rw [b]
      exact hnd s.2 (hnot s.2 a))
    (by
      intro s hs s' hs' h
      obtain ⟨a, _, _⟩ := hall s hs
      obtain ⟨_, b', _⟩ := hall s' hs'
      rw [b', hcl] at h
      rcases h with h | h
      · exact h
      · exact absurd h (hnot _ a))
    (by
      intro s hs h
      obtain ⟨a, b, _⟩ := hall s hs
      rw [b, hcl] at h
      rcases h with h | h
      · exact h
      · exact absurd rfl ((hpp _).1 h).2)
    (by
      intro _ s hs c
      rw [hother s (List.mem_cons_of_mem _ hs), hother s0 List.mem_cons_self])
    (by
      intro hh s hs
      exact hdyn hh _ (hall s (List.dropLast_subset _ hs)).1)
    (by rw [← hz, hmapsz, hzip, hsz])
  obtain ⟨a0, b0, _⟩ := hall s0 List.mem_cons_self
  have hod : o.dims = pre ++ [axis] ++ post := by
    rw [c4, c5 rfl, List.append_nil, b0]
    have hid : ∀ l : List Dim, (∀ d ∈ l, d ∈ pre ++ post) → swapDim l s0.2.cls [axis] = l := by
      intro l hl
      induction l with
      | nil => rfl
      | cons y l ih =>
        have := ih (fun d hd' => hl d (List.mem_cons_of_mem _ hd'))
        unfold swapDim at this ⊢
        rw [List.flatMap_cons, if_neg, this]
        · rfl
        · intro he
          exact hnot s0.2 a0 (he ▸ List.mem_map_of_mem (hl y List.mem_cons_self))
    have happ : ∀ a b : List Dim, swapDim (a ++ b) s0.2.cls [axis] = swapDim a s0.2.cls [axis] ++ swapDim b s0.2.cls [axis] := by
      intro a b; simp [swapDim]
    rw [happ, happ, hid pre (fun d h => List.mem_append_left _ h), hid post (fun d h => List.mem_append_right _ h)]
    simp [swapDim]
  refine ⟨os, s0, ss, o, h1, hz, c1, ?_, ?_⟩
  · rw [hod, hdims]
    simp [classes, hx]
  · intro σ hσ
    have hax : σ axis.cls < (outs.map (fun d => sz d.cls)).sum := by
      rw [hsz, ← hx]
      exact hσ x (by rw [hdims]; simp)
    obtain ⟨k, m, j, f1, f2, f3⟩ := find_part _ _ hax
    have hk : k < (os.zip outs).length := by
      have := (List.getElem?_eq_some_iff.1 f1).1
      simpa [h2] using this
    obtain ⟨g1, g2, g3, g4⟩ := hget k (os.zip outs)[k] (List.getElem?_eq_getElem hk)
    generalize hs : (os.zip outs)[k] = s at g1 g2 g3 g4
    have hmem : s.2 ∈ outs := List.mem_of_getElem? g1
    have hm : m = sz s.2.cls := by
      rw [List.getElem?_map, g1] at f1
      exact (Option.some.inj f1).symm
    have hsk : (s0 :: ss)[k]? = some s := by rw [← hz, List.getElem?_eq_getElem hk, hs]
    have hppw : ∀ d ∈ pre ++ post, moveTo σ s.2.cls j d.cls = σ d.cls := by
      intro d hd
      exact moveTo_ne (fun e => hnot s.2 hmem (e ▸ List.mem_map_of_mem hd))
    have hppl : ∀ d ∈ pre ++ post, σ d.cls < sz d.cls := by
      intro d hd
      apply hσ
      rw [hdims]
      rcases List.mem_append.1 hd with h | h
      · exact List.mem_append_left _ (List.mem_append_left _ h)
      · exact List.mem_append_right _ h
    have hself : moveTo σ s.2.cls j s.2.cls = j := by simp [moveTo]
    have hpart : ∀ (d d' : Dim), d ∈ pre ++ [d'] ++ post → d = d' ∨ d ∈ pre ++ post := by
      intro d d' h
      simp only [List.mem_append, List.mem_singleton] at h ⊢
      rcases h with (h | h) | h
      · exact .inr (.inl h)
      · exact .inl h
      · exact .inr (.inr h)
    have key := c7 k s hsk (moveTo σ s.2.cls j) (by
        intro d hd
        rw [g2] at hd
        rcases hpart d s.2 hd with rfl | h
        · rw [hself, ← hm]; exact f2
        · rw [hppw d h]; exact hppl d h)
      (by
        intro d hd hne'
        rw [hod] at hd
        rcases hpart d axis hd with rfl | h
        · exact absurd rfl hne'
        · rw [hppw d h]; exact hppl d h)
    have hsum : (((s0 :: ss).take k).map (fun s => sz s.2.cls)).sum = ((outs.map (fun d => sz d.cls)).take k).sum := by
      rw [← hz, hmapsz, List.map_take, hzip, List.map_take]
    have hsum2 : ((outs.take k).map (fun d => sz d.cls)).sum = ((outs.map (fun d => sz d.cls)).take k).sum := by rw [List.map_take]
    rw [g4, hsum, hsum2, hself, ← f3] at key
    have hval : ∀ (u : Tensor α) (τ τ' : Nat → Nat), (∀ d ∈ u.dims, τ d.cls = τ' d.cls) → valueAt u τ = valueAt u τ' := by
      intro u τ τ' h
      unfold valueAt
      rw [List.map_congr_left h]
    rw [hval o σ (moveTo (moveTo σ s.2.cls j) axis.cls (σ axis.cls)), key, hval t (moveTo (moveTo σ s.2.cls j) axis.cls (σ axis.cls)) σ]
    · intro d hd
      rw [hdims] at hd
      rcases hpart d x hd with rfl | h
      · rw [moveTo, if_pos hx, hx]
      · rw [moveTo_ne (hnx d h), hppw d h]
    · intro d hd
      rw [hod] at hd
      rcases hpart d axis hd with rfl | h
      · rw [moveTo, if_pos rfl]
      · rw [moveTo_ne (hnx d h), hppw d h]

/-! ### Stack -/

/-- C109: `stack`: source `k` is at position `k` of the new dim, whatever the order of its dims. -/
theorem stack_right {sz : Nat → Nat} (s0 : Tensor α) (ss : List (Tensor α)) (out : Dim) (hv : ∀ s ∈ s0 :: ss, Valid sz s ∧ BinOp.Unique s ∧ ∀ c, c ∈ classes s.dims ↔ c ∈ classes s0.dims) (hout : out.cls ∉ classes s0.dims) :
    ∃ o, stack s0 ss out = .ok o ∧ o.dims = out :: s0.dims ∧ BinOp.Unique o ∧ (Valid sz o ↔ sz out.cls = ss.length + 1) ∧
      ∀ (k : Nat) s, (s0 :: ss)[k]? = some s → ∀ σ, Within sz σ s0.dims → valueAt o (moveTo σ out.cls k) = valueAt s σ := by
  have hu0 := (hv s0 List.mem_cons_self).2.1
  have hsrc : ∀ s ∈ s0 :: ss, ∃ r, copyCompatNative s.dims s.raw s0.dims = .ok r ∧ (r.shape = shapeOf sz s0.dims ∧ ∀ σ, Within sz σ s0.dims → r.get (s0.dims.map (fun d => σ d.cls)) = valueAt s σ) := by
    intro s hs
    obtain ⟨v, u, m⟩ := hv s hs
    have hp : (classes s0.dims).Perm (classes s.dims) := (List.perm_ext_iff_of_nodup hu0 u).2 (fun c => (m c).symm)
    obtain ⟨r, h1, h2, h3⟩ := transposeTo_spec v u hp
    refine ⟨r, ?_, h2, h3⟩
    unfold transposeTo at h1
    rwa [if_pos (by simpa [classes] using hp.length_eq)] at h1
  obtain ⟨r0, p1, p2, p3⟩ := hsrc s0 List.mem_cons_self
  obtain ⟨rs, q1, q2⟩ := mapM_all (fun s => copyCompatNative s.dims s.raw s0.dims) _ ss (fun s hs => hsrc s (List.mem_cons_of_mem _ hs))
  have hlen : rs.length = ss.length := q2.length_eq.symm
  have hsh : ∀ x ∈ rs, x.shape = r0.shape := by
    intro x hx
    obtain ⟨i, hi, rfl⟩ := List.getElem_of_mem hx
    rw [p2]
    exact ((List.forall₂_iff_get.1 q2).2 i (by omega) hi).1
  refine ⟨⟨out :: s0.dims, none, s0.sparse, ⟨(rs.length + 1) :: r0.shape, fun idx => ((r0 :: rs).getD (idx.headD 0) r0).get idx.tail⟩⟩, ?_, rfl, ?_, ?_, ?_⟩
  · simp only [stack, p1, q1, bind, Except.bind, torchStack, if_pos hsh, pure, Except.pure]
  · unfold BinOp.Unique
    simp only [List.map_cons, List.nodup_cons]
    exact ⟨hout, hu0⟩
  · unfold Valid
    simp only [List.map_cons, p2, shapeOf, List.cons.injEq, and_true, hlen]
    exact eq_comm
  · intro k s hk σ hσ
    unfold valueAt
    simp only [List.map_cons, List.headD_cons, List.tail_cons]
    rw [show moveTo σ out.cls k out.cls = k by simp [moveTo]]
    have hmv : s0.dims.map (fun d => moveTo σ out.cls k d.cls) = s0.dims.map (fun d => σ d.cls) := by
      apply List.map_congr_left
      intro d hd
      apply moveTo_ne
      intro e
      exact hout (by rw [← e]; exact List.mem_map_of_mem hd)
    rw [hmv]
    rw [List.getD_eq_getElem?_getD]
    cases k with
    | zero =>
      simp only [List.getElem?_cons_zero, Option.some.injEq] at hk
      subst hk
      exact p3 σ hσ
    | succ k =>
      rw [List.getElem?_cons_succ] at hk
      obtain ⟨hk1, hk2⟩ := List.getElem?_eq_some_iff.1 hk
      rw [List.getElem?_cons_succ, List.getElem?_eq_getElem (by omega), Option.getD_some]
      have := (List.forall₂_iff_get.1 q2).2 k hk1 (by omega)
      simp only [List.get_eq_getElem, hk2] at this
      exact this.2 σ hσ

theorem mapM_ok {β γ : Type} {f : β → Res γ} {l : List β} {cs : List γ} (h : l.mapM f = .ok cs) : List.Forall₂ (fun b c => f b = .ok c) l cs := by
  induction l generalizing cs with
  | nil =>
    obtain rfl : [] = cs := Except.ok.inj h
    exact .nil
  | cons b l ih =>
    rw [List.mapM_cons] at h
    cases hb : f b with
    | error e => rw [hb] at h; simp [bind, Except.bind] at h
    | ok c =>
      cases hl : l.mapM f with
      | error e => rw [hb, hl] at h; simp [bind, Except.bind] at h
      | ok cs' =>
        rw [hb, hl] at h
        obtain rfl : c :: cs' = cs := Except.ok.inj h
        exact .cons hb (ih hl)

/-- C109: "all sources must have the same shape": a source without one of the dims (of a size other than 1), or with another dim, is refused. -/
theorem stack_raises {sz : Nat → Nat} (s0 : Tensor α) (ss : List (Tensor α)) (out : Dim) (hv : ∀ s ∈ s0 :: ss, Valid sz s ∧ BinOp.Unique s) {s : Tensor α} (hs : s ∈ ss)
    (h : (∃ d ∈ s0.dims, d.cls ∉ classes s.dims ∧ sz d.cls ≠ 1) ∨ ∃ d ∈ s.dims, d.cls ∉ classes s0.dims) : ∀ o, stack s0 ss out ≠ .ok o := by
  intro o ho
  unfold stack at ho
  obtain ⟨v0, u0⟩ := hv s0 List.mem_cons_self
  obtain ⟨v, u⟩ := hv s (List.mem_cons_of_mem _ hs)
  obtain ⟨r0, p1, p2, p3⟩ := (copy_compatible v0 u0 u0 (fun d hd => List.mem_map_of_mem hd)).1
  rw [p1] at ho
  cases hm : ss.mapM (fun s => copyCompatNative s.dims s.raw s0.dims) with
  | error e => simp [hm, bind, Except.bind] at ho
  | ok rs =>
    have hf := mapM_ok hm
    obtain ⟨i, hi, rfl⟩ := List.getElem_of_mem hs
    have hi' : i < rs.length := by rw [← hf.length_eq]; exact hi
    have hr := (List.forall₂_iff_get.1 hf).2 i hi hi'
    simp only [List.get_eq_getElem] at hr
    rcases h with ⟨d, hd, h1, h2⟩ | ⟨d, hd, h1⟩
    · by_cases hsub : ∀ d ∈ ss[i].dims, d.cls ∈ s0.dims.map Dim.cls
      · obtain ⟨r, g1, g2, _⟩ := (copy_compatible v u0 u hsub).1
        rw [hr] at g1
        obtain rfl := Except.ok.inj g1
        have hall : ¬ ∀ x ∈ rs, x.shape = r0.shape := by
          intro hall
          have := hall _ (List.getElem_mem hi')
          rw [g2, p2] at this
          have := List.map_inj_left.1 this d hd
          rw [if_neg (show d.cls ∉ ss[i].dims.map Dim.cls from h1), if_pos (List.mem_map_of_mem hd)] at this
          exact h2 this.symm
        simp only [hm, bind, Except.bind, torchStack, if_neg hall] at ho
        cases ho
      · simp only [not_forall] at hsub
        obtain ⟨x, hx, hn⟩ := hsub
        refine (copy_compatible_rejects (t := ss[i]) (outs := s0.dims) (c := x.cls) ?_).1 _ hr
        rw [List.count_eq_zero.2 hn]
        exact List.count_pos_iff.2 (List.mem_map_of_mem hx)
    · refine (copy_compatible_rejects (t := ss[i]) (outs := s0.dims) (c := d.cls) ?_).1 _ hr
      rw [List.count_eq_zero.2 (show d.cls ∉ s0.dims.map Dim.cls from h1)]
      exact List.count_pos_iff.2 (List.mem_map_of_mem hd)

/-! ### One dim more or less -/

/-- C109: `squeeze`. -/
theorem squeeze_right {sz : Nat → Nat} {t : Tensor α} (hv : Valid sz t) (hu : BinOp.Unique t) {axis : Dim} (ha : axis.cls ∈ classes t.dims) (h1 : sz axis.cls = 1) :
    ∃ o, squeeze sz t axis = .ok o ∧ Valid sz o ∧ o.dims = swapDim t.dims axis.cls [] ∧ ∀ σ, valueAt o σ = valueAt t (moveTo σ axis.cls 0) := by
  obtain ⟨pre, post, x, hx, hdims, hax, _, hnx, hsw⟩ := axis_parts hu ha
  have hs : t.raw.shape = pre.map (fun d => sz d.cls) ++ [1] ++ post.map (fun d => sz d.cls) := by rw [hv, hdims]; simp [hx, h1]
  have hlen : (pre.map (fun d => sz d.cls)).length = pre.length := by simp
  have hg : t.raw.shape.getD pre.length 0 = 1 := by rw [hs, ← hlen, getD_mid]
  refine ⟨⟨pre ++ post, none, t.sparse, torchSqueeze t.raw pre.length⟩, ?_, ?_, ?_, ?_⟩
  · unfold squeeze
    rw [if_neg (by simp [h1]), hax]
    simp only
    rw [hdims, erase_mid]
  · unfold Valid torchSqueeze
    rw [if_pos hg]
    simp only
    rw [hs, ← hlen, erase_mid, List.map_append]
  · rw [hsw]; simp
  · intro σ
    unfold valueAt torchSqueeze
    rw [if_pos hg]
    simp only
    rw [hdims, map_moveTo hx hnx, List.map_append]
    have hl2 : (pre.map (fun d => σ d.cls)).length = pre.length := by simp
    rw [← hl2, List.take_left, List.drop_left]

/-- C109: `squeeze` of a dim of another size is refused. -/
theorem squeeze_raises (sz : Nat → Nat) (t : Tensor α) (axis : Dim) (h : sz axis.cls ≠ 1) : squeeze sz t axis = .error .assertion := by
  unfold squeeze
  rw [if_pos h]

/-- Where the new dim is: `pre` are the dims before. -/
theorem expandAxis_spec (dyn : Dim → Bool) (t : Tensor α) (d : Dim) (hf : ∀ f, t.feat = some f → f ≤ t.dims.length) :
    expandAxis dyn t d ≤ t.dims.length ∧
    (dyn d = true → (∀ x ∈ t.dims.drop (expandAxis dyn t d), dyn x = false) ∧ ((∃ x ∈ t.dims, dyn x = true) → ∃ p x, t.dims.take (expandAxis dyn t d) = p ++ [x] ∧ dyn x = true) ∧ ((∀ x ∈ t.dims, dyn x = false) → expandAxis dyn t d = t.dims.length)) ∧
    (dyn d = false → expandAxis dyn t d = match t.feat with | some f => f | none => t.dims.length) := by
  cases hd : dyn d with
  | false =>
    unfold expandAxis
    rw [hd]
    simp only [Bool.false_eq_true, if_false, false_implies, true_and, forall_const]
    cases hfe : t.feat with
    | none => simp
    | some f => simpa using hf f hfe
  | true =>
    simp only [forall_const, Bool.true_eq_false, false_implies, and_true]
    cases hfind : (List.range t.dims.length).reverse.find? (fun i => dyn (t.dims.getD i default)) with
    | none =>
      have he : expandAxis dyn t d = t.dims.length := by unfold expandAxis; rw [hd, if_pos rfl, hfind]
      rw [he]
      refine ⟨Nat.le_refl _, by simp, ?_, fun _ => rfl⟩
      rintro ⟨x, hx, hxd⟩
      rw [List.find?_eq_none] at hfind
      obtain ⟨i, hi, rfl⟩ := List.getElem_of_mem hx
      have := hfind i (by simpa using hi)
      simp [List.getD_eq_getElem?_getD, List.getElem?_eq_getElem hi, hxd] at this
    | some i =>
      have he : expandAxis dyn t d = i + 1 := by unfold expandAxis; rw [hd, if_pos rfl, hfind]
      rw [he]
      have hmem := List.mem_of_find?_eq_some hfind
      have hi : i < t.dims.length := by simpa using hmem
      have hdi := List.find?_some hfind
      simp only [List.getD_eq_getElem?_getD, List.getElem?_eq_getElem hi, Option.getD_some] at hdi
      obtain ⟨_, as, bs, hab, hno⟩ := List.find?_eq_some_iff_append.1 hfind
      refine ⟨by omega, ?_, ?_, ?_⟩
      · intro x hx
        obtain ⟨j, hj, rfl⟩ := List.mem_drop_iff_getElem.1 hx
        have hjm : (i + 1 + j) ∈ (List.range t.dims.length).reverse := by simp; omega
        rw [hab, List.mem_append, List.mem_cons] at hjm
        rcases hjm with h | h | h
        · have := hno _ h
          rw [List.getD_eq_getElem?_getD, List.getElem?_eq_getElem (show i + 1 + j < t.dims.length by omega), Option.getD_some] at this
          simpa using this
        · omega
        · exfalso
          have hs : (as ++ i :: bs).Pairwise (· > ·) := by rw [← hab, List.pairwise_reverse]; exact List.pairwise_lt_range
          have := (List.pairwise_append.1 hs).2.1
          have := (List.pairwise_cons.1 this).1 _ h
          omega
      · intro _
        exact ⟨t.dims.take i, t.dims[i], by rw [List.take_succ_eq_append_getElem hi], hdi⟩
      · intro hall
        rw [hall _ (List.getElem_mem hi)] at hdi
        cases hdi

/-- C109: `expand_dim`: the same value at all positions of the new dim. -/
theorem expand_right {sz : Nat → Nat} (dyn : Dim → Bool) {t : Tensor α} (hv : Valid sz t) (hf : ∀ f, t.feat = some f → f ≤ t.dims.length) {d : Dim} (hd : d.cls ∉ classes t.dims) :
    ∃ o pre post, expandDim sz dyn t d = .ok o ∧ t.dims = pre ++ post ∧ o.dims = pre ++ [d] ++ post ∧ Valid sz o ∧
      (dyn d = true → (∀ x ∈ post, dyn x = false) ∧ ((∃ x ∈ t.dims, dyn x = true) → ∃ p x, pre = p ++ [x] ∧ dyn x = true) ∧ ((∀ x ∈ t.dims, dyn x = false) → post = [])) ∧
      (dyn d = false → pre.length = match t.feat with | some f => f | none => t.dims.length) ∧
      ∀ σ, Within sz σ o.dims → valueAt o σ = valueAt t σ := by
  obtain ⟨e1, e2, e3⟩ := expandAxis_spec dyn t d hf
  have hnin : inDims t.dims d = false := by rw [Bool.eq_false_iff]; intro h; exact hd ((inDims_iff _ _).1 h)
  unfold expandDim
  rw [if_neg (by simp [hnin])]
  generalize expandAxis dyn t d = ax at e1 e2 e3
  have hsplit := (List.take_append_drop ax t.dims).symm
  have hpl : (t.dims.take ax).length = ax := by simpa using e1
  have hdropnil : ax = t.dims.length → t.dims.drop ax = [] := fun h => by simp [h]
  simp only
  generalize t.dims.take ax = pre at hsplit hpl e2 ⊢
  generalize t.dims.drop ax = post at hsplit e2 hdropnil ⊢
  subst hpl
  have hne : ∀ x ∈ pre ++ post, x.eq d = false := by
    intro x hx
    rw [hsplit] at hd
    simp only [Dim.eq, beq_eq_false_iff_ne]
    intro h
    exact hd (h ▸ List.mem_map_of_mem hx)
  have hsh : (unsqueeze t.raw pre.length).shape = pre.map (fun d => sz d.cls) ++ [1] ++ post.map (fun d => sz d.cls) := by
    unfold unsqueeze
    simp only
    have hl : (pre.map (fun d => sz d.cls)).length = pre.length := by simp
    rw [hv, hsplit, List.map_append, ← hl, List.take_left, List.drop_left]
  have hget : ∀ σ : Nat → Nat, (unsqueeze t.raw pre.length).get (pre.map (fun d => σ d.cls) ++ [0] ++ post.map (fun d => σ d.cls)) = valueAt t σ := by
    intro σ
    unfold unsqueeze valueAt
    simp only
    have hl : (pre.map (fun d => σ d.cls)).length = pre.length := by simp
    rw [hsplit, List.map_append, ← hl, erase_mid]
  have hrep : (pre ++ [d] ++ post).map (fun x => if x.eq d then sz d.cls else 1) = pre.map (fun _ => 1) ++ [sz d.cls] ++ post.map (fun _ => 1) := by
    rw [List.map_append, List.map_append]
    congr 1
    · congr 1
      · exact List.map_congr_left (fun x hx => by rw [hne x (List.mem_append_left _ hx)]; rfl)
      · simp [Dim.eq]
    · exact List.map_congr_left (fun x hx => by rw [hne x (List.mem_append_right _ hx)]; rfl)
  have hmul : ∀ l : List Dim, List.zipWith (· * ·) (l.map (fun d => sz d.cls)) (l.map (fun _ => 1)) = l.map (fun d => sz d.cls) := by
    intro l; rw [List.zipWith_map, List.zipWith_self]; simp
  have hmod : ∀ (l : List Dim) (σ : Nat → Nat), Within sz σ l → List.zipWith (· % ·) (l.map (fun d => σ d.cls)) (l.map (fun d => sz d.cls)) = l.map (fun d => σ d.cls) := by
    intro l σ h; rw [List.zipWith_map, List.zipWith_self]
    exact List.map_congr_left (fun x hx => Nat.mod_eq_of_lt (h x hx))
  refine ⟨_, pre, post, rfl, hsplit, rfl, ?_, ?_, e3, ?_⟩
  · unfold Valid
    simp only
    split
    · unfold tile
      simp only
      rw [hsh, hrep, List.zipWith_append (by simp), List.zipWith_append (by simp), hmul, hmul]
      simp
    · next h =>
      simp only [Bool.or_eq_true, decide_eq_true_eq, not_or, not_not] at h
      rw [hsh]
      simp [h.2]
  · intro h
    obtain ⟨a, b, c⟩ := e2 h
    exact ⟨a, b, fun h' => hdropnil (c h')⟩
  · intro σ hσ
    simp only at hσ
    have w1 : Within sz σ pre := fun x hx => hσ x (List.mem_append_left _ (List.mem_append_left _ hx))
    have w2 : Within sz σ post := fun x hx => hσ x (List.mem_append_right _ hx)
    have wd : σ d.cls < sz d.cls := hσ d (by simp)
    rw [← hget σ]
    unfold valueAt
    simp only
    split
    · unfold tile
      simp only
      rw [hsh, List.map_append, List.map_append, List.zipWith_append (by simp), List.zipWith_append (by simp), hmod pre σ w1, hmod post σ w2]
      simp [Nat.mod_one]
    · next h =>
      simp only [Bool.or_eq_true, decide_eq_true_eq, not_or, not_not] at h
      rw [List.map_append, List.map_append]
      have : σ d.cls = 0 := by omega
      simp [this]

/-- C109: a dim which is already there is refused. -/
theorem expand_raises (sz : Nat → Nat) (dyn : Dim → Bool) (t : Tensor α) (d : Dim) (h : d.cls ∈ classes t.dims) : expandDim sz dyn t d = .error .assertion := by
  unfold expandDim
  rw [if_pos ((inDims_iff _ _).2 h)]

/-- C109: `replace_dim`: the values stay; the size of the new dim is not checked. -/
theorem replace_right {sz : Nat → Nat} {t : Tensor α} (hv : Valid sz t) (hu : BinOp.Unique t) {inDim : Dim} (ha : inDim.cls ∈ classes t.dims) (out : Dim) :
    ∃ o, replaceDim t inDim out = .ok o ∧ o.dims = swapDim t.dims inDim.cls [out] ∧ (Valid sz o ↔ sz out.cls = sz inDim.cls) ∧ ∀ σ, valueAt o σ = valueAt t (moveTo σ inDim.cls (σ out.cls)) := by
  obtain ⟨pre, post, x, hx, hdims, hax, _, hnx, hsw⟩ := axis_parts hu ha
  refine ⟨{ t with dims := pre ++ [out] ++ post }, ?_, by rw [hsw], ?_, ?_⟩
  · unfold replaceDim
    rw [hax]
    simp only
    conv_lhs => rw [hdims, take_mid, drop_mid]
  · unfold Valid
    simp only
    rw [hv, hdims]
    simp [hx]
    exact eq_comm
  · intro σ
    unfold valueAt
    simp only
    rw [hdims, map_moveTo hx hnx]
    simp

/-! ### `merge_dims` with any number of dims -/

/-- C108: `merge_dims` with given `out_dim`, for no dim, one dim and more. -/
theorem merge_any {sz : Nat → Nat} (dyn : Dim → Bool) {t : Tensor α} (hv : Valid sz t) (hu : BinOp.Unique t) (hf : ∀ f, t.feat = some f → f ≤ t.dims.length) {ds : List Dim} (hd : ∀ d ∈ ds, d.cls ∈ classes t.dims) (hn : (classes ds).Nodup)
    (out : Dim) (hout : ∀ x ∈ t.dims, x.cls = out.cls → x.cls ∈ classes ds) (hsz : sz out.cls = total sz ds) :
    ∃ o, mergeFront sz dyn t ds out = .ok o ∧ Valid sz o ∧ (∀ c, c ∈ classes o.dims ↔ c = out.cls ∨ (c ∈ classes t.dims ∧ c ∉ classes ds)) ∧
      ∀ σ, Within sz σ t.dims → valueAt o (moveTo σ out.cls (rank sz σ ds)) = valueAt t σ := by
  have hval : ∀ (u : Tensor α) (τ τ' : Nat → Nat), (∀ d ∈ u.dims, τ d.cls = τ' d.cls) → valueAt u τ = valueAt u τ' := by
    intro u τ τ' h
    unfold valueAt
    rw [List.map_congr_left h]
  match ds, hd, hn, hout, hsz with
  | [], _, _, hout, hsz =>
    have hsz1 : sz out.cls = 1 := hsz
    have hno : out.cls ∉ classes t.dims := by
      intro h
      obtain ⟨x, hx, e⟩ := List.mem_map.1 h
      have := hout x hx e
      simp [classes] at this
    obtain ⟨o, pre, post, h1, h2, h3, h4, _, _, h5⟩ := expand_right dyn hv hf hno
    refine ⟨o, ?_, h4, ?_, ?_⟩
    · unfold mergeFront
      simp only
      rw [if_pos hsz1, h1]
    · intro c
      rw [h3, h2]
      simp only [classes, List.map_append, List.map_cons, List.map_nil, List.mem_append, List.mem_singleton, List.not_mem_nil, not_false_eq_true, and_true]
      tauto
    · intro σ hσ
      rw [h5]
      · apply hval
        intro d hd
        apply moveTo_ne
        intro e
        exact hno (by rw [← e]; exact List.mem_map_of_mem hd)
      · intro d hd
        rw [h3, List.append_assoc, List.mem_append, List.mem_append, List.mem_singleton] at hd
        have hcase : d ∈ t.dims → moveTo σ out.cls (rank sz σ []) d.cls < sz d.cls := by
          intro h
          rw [moveTo_ne (show d.cls ≠ out.cls from fun e => hno (by rw [← e]; exact List.mem_map_of_mem h))]
          exact hσ d h
        rcases hd with h | rfl | h
        · exact hcase (h2 ▸ List.mem_append_left _ h)
        · rw [moveTo, if_pos rfl, hsz1]; simp [rank]
        · exact hcase (h2 ▸ List.mem_append_right _ h)
  | [d], hd, _, hout, hsz =>
    have hszd : sz out.cls = sz d.cls := by simpa [total] using hsz
    have hm : d.cls ∈ classes t.dims := hd d (by simp)
    have hr : ∀ σ : Nat → Nat, rank sz σ [d] = σ d.cls := by intro σ; simp [rank]
    by_cases he : out.cls = d.cls
    · refine ⟨t, ?_, hv, ?_, ?_⟩
      · unfold mergeFront
        simp only
        rw [if_pos (by simp [Dim.eq, he])]
      · intro c
        simp only [classes, List.map_cons, List.map_nil, List.mem_singleton, he]
        constructor
        · intro h
          by_cases h' : c = d.cls
          · exact .inl h'
          · exact .inr ⟨h, h'⟩
        · rintro (rfl | h)
          · exact hm
          · exact h.1
      · intro σ _
        apply hval
        intro x _
        rw [hr, he]
        unfold moveTo
        split
        · next h => rw [h]
        · rfl
    · obtain ⟨o, h1, h2, h3, h4⟩ := replace_right hv hu hm out
      obtain ⟨pre, post, x, hx, hdims, _, _, hnx, hsw⟩ := axis_parts hu hm
      refine ⟨o, ?_, h3.2 hszd, ?_, ?_⟩
      · unfold mergeFront
        simp only
        rw [if_neg (by simp [Dim.eq, he]), h1]
      · intro c
        rw [h2, hsw, hdims]
        simp only [classes, List.map_append, List.map_cons, List.map_nil, List.mem_append, List.mem_singleton, hx]
        constructor
        · rintro ((h | h) | h)
          · exact .inr ⟨.inl (.inl h), by obtain ⟨y, hy, rfl⟩ := List.mem_map.1 h; exact hnx y (List.mem_append_left _ hy)⟩
          · exact .inl h
          · exact .inr ⟨.inr h, by obtain ⟨y, hy, rfl⟩ := List.mem_map.1 h; exact hnx y (List.mem_append_right _ hy)⟩
        · rintro (h | ⟨(h | h) | h, h'⟩)
          · exact .inl (.inr h)
          · exact .inl (.inl h)
          · exact absurd h h'
          · exact .inr h
      · intro σ _
        rw [h4, hr]
        apply hval
        intro y hy
        rw [show moveTo σ out.cls (σ d.cls) out.cls = σ d.cls by simp [moveTo]]
        by_cases h : y.cls = d.cls
        · rw [h]; simp [moveTo]
        · rw [moveTo_ne h, moveTo_ne]
          intro h'
          have := hout y hy h'
          simp only [classes, List.map_cons, List.map_nil, List.mem_singleton] at this
          exact h this
  | d1 :: d2 :: ds, hd, hn, hout, hsz =>
    obtain ⟨o, pre, post, h1, h2, h3, h4, h5, h6, h7⟩ := merge_right hv hu (by simp) hd hn out hout hsz
    refine ⟨o, h1, h2, ?_, h7⟩
    intro c
    have : c ∈ classes (pre ++ post) ↔ c ∈ classes t.dims ∧ c ∉ classes (d1 :: d2 :: ds) := by
      rw [h6]
      simp only [classes, List.mem_map, List.mem_filter, decide_eq_true_eq]
      constructor
      · rintro ⟨x, ⟨a, b⟩, rfl⟩; exact ⟨⟨x, a, rfl⟩, by simpa using b⟩
      · rintro ⟨⟨x, a, rfl⟩, b⟩; exact ⟨x, ⟨a, by simpa using b⟩, rfl⟩
    rw [← this, h4]
    simp only [classes, List.map_append, List.map_cons, List.map_nil, List.mem_append, List.mem_singleton]
    tauto

end Verif.RfShape
