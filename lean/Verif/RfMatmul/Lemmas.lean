import Verif.RfMatmul.Model
import Verif.RfMatmul.Spec
import Verif.BinOp.Combine
import Mathlib.Algebra.BigOperators.Intervals
/-
Lemmas: indices of merged axes, the raw computation for given axes.
-/
namespace Verif.RfMatmul

open Verif.Py Verif.BinOp

/-! ### Row-major order of several groups of axes -/

theorem numel_append (s t : List Nat) : numel (s ++ t) = numel s * numel t := by
  induction s with
  | nil => simp [numel]
  | cons x s ih => simp [numel, ih, Nat.mul_assoc]

theorem ravel_append (s t i j : List Nat) (h : i.length = s.length) :
    ravel (s ++ t) (i ++ j) = ravel s i * numel t + ravel t j := by
  induction s generalizing i with
  | nil =>
    cases i with
    | nil => simp [ravel]
    | cons => simp at h
  | cons x s ih =>
    cases i with
    | nil => simp at h
    | cons y i =>
      simp only [List.length_cons, Nat.add_right_cancel_iff] at h
      simp only [List.cons_append, ravel, ih i h, numel_append, Nat.add_mul, Nat.mul_assoc, Nat.add_assoc]

theorem inB_append {i s j t : List Nat} (h1 : InB i s) (h2 : InB j t) : InB (i ++ j) (s ++ t) := by
  induction h1 with
  | nil => exact h2
  | cons h _ ih => exact List.Forall₂.cons h ih

theorem unravel_inB {s : List Nat} {k : Nat} (h : k < numel s) : InB (unravel s k) s ∧ ravel s (unravel s k) = k := by
  induction s generalizing k with
  | nil =>
    simp only [numel] at h
    exact ⟨List.Forall₂.nil, by simp [ravel]; omega⟩
  | cons x s ih =>
    simp only [numel] at h
    have h0 : 0 < numel s := Nat.pos_of_ne_zero (fun e => by simp [e] at h)
    obtain ⟨i1, i2⟩ := ih (Nat.mod_lt k h0)
    refine ⟨List.Forall₂.cons ((Nat.div_lt_iff_lt_mul h0).mpr h) i1, ?_⟩
    simp only [unravel, ravel, i2]
    exact Nat.div_add_mod' k (numel s)

/-- The raveled groups of axes. -/
theorem ravel3 {s1 s2 s3 i1 i2 i3 : List Nat} (h1 : InB i1 s1) (h2 : InB i2 s2) :
    ravel (s1 ++ s2 ++ s3) (i1 ++ i2 ++ i3) =
      ravel [numel s1, numel s2, numel s3] [ravel s1 i1, ravel s2 i2, ravel s3 i3] := by
  rw [ravel_append _ _ _ _ (by simp [h1.length_eq, h2.length_eq]), ravel_append _ _ _ _ h1.length_eq]
  simp only [ravel, numel, Nat.mul_one, Nat.add_zero, Nat.add_mul, Nat.mul_assoc, Nat.add_assoc]

theorem ravel2 {s1 s2 i1 i2 : List Nat} (h1 : InB i1 s1) :
    ravel (s1 ++ s2) (i1 ++ i2) = ravel [numel s1, numel s2] [ravel s1 i1, ravel s2 i2] := by
  rw [ravel_append _ _ _ _ h1.length_eq]
  simp only [ravel, numel, Nat.mul_one, Nat.add_zero]

/-! ### The products of raw tensors -/

variable {R : Type} [AddCommMonoid R] [Mul R]

/-- The product of `pa : [sc, su, sr]` and `pb : [sc, sr, sv]`. -/
def IsRawMatmul (pa pb : Raw R) (sc su sr sv : List Nat) (r : Raw R) : Prop :=
  r.shape = sc ++ su ++ sv ∧
  ∀ ic iu iv, InB ic sc → InB iu su → InB iv sv →
    r.get (ic ++ iu ++ iv) =
      ∑ k ∈ Finset.range (numel sr), pa.get (ic ++ iu ++ unravel sr k) * pb.get (ic ++ unravel sr k ++ iv)

theorem viaMmOrBmm_spec {pa pb : Raw R} {sc su sr sv : List Nat} (ha : pa.shape = sc ++ su ++ sr)
    (hb : pb.shape = sc ++ sr ++ sv) :
    ∃ r r', viaMmOrBmm pa pb (numel sc) (numel su) (numel sr) (numel sv) = .ok r ∧
      reshape r (sc ++ su ++ sv) = .ok r' ∧ IsRawMatmul pa pb sc su sr sv r' := by
  unfold viaMmOrBmm
  by_cases hc : numel sc = 1
  · rw [if_pos hc]
    unfold viaMm
    have e1 : numel [numel su, numel sr] = numel pa.shape := by
      rw [ha, numel_append, numel_append, hc]; simp [numel]
    have e2 : numel [numel sr, numel sv] = numel pb.shape := by
      rw [hb, numel_append, numel_append, hc]; simp [numel]
    simp only [reshape, if_pos e1, if_pos e2, mm]
    rw [if_pos trivial]
    refine ⟨_, _, rfl, by rw [if_pos (by simp [numel_append, numel, hc])], rfl, ?_⟩
    intro ic iu iv hic hiu hiv
    have hz : ravel sc ic = 0 := by have := ravel_lt hic; omega
    have hr : ravel (sc ++ su ++ sv) (ic ++ iu ++ iv) = ravel [numel su, numel sv] [ravel su iu, ravel sv iv] := by
      rw [ravel3 hic hiu, hz]
      simp [ravel]
    have hin : InB [ravel su iu, ravel sv iv] [numel su, numel sv] :=
      List.Forall₂.cons (ravel_lt hiu) (List.Forall₂.cons (ravel_lt hiv) List.Forall₂.nil)
    simp only [hr, unravel_ravel hin]
    apply Finset.sum_congr rfl
    intro k hk
    have hk := Finset.mem_range.mp hk
    obtain ⟨k1, k2⟩ := unravel_inB hk
    have a1 : ravel [numel su, numel sr] [ravel su iu, k] = ravel pa.shape (ic ++ iu ++ unravel sr k) := by
      rw [ha, ravel3 hic hiu, hz, k2]; simp [ravel]
    have a2 : ravel [numel sr, numel sv] [k, ravel sv iv] = ravel pb.shape (ic ++ unravel sr k ++ iv) := by
      rw [hb, ravel3 hic k1, hz, k2]; simp [ravel]
    simp only [List.getD_cons_zero, List.getD_cons_succ]
    rw [a1, a2, unravel_ravel (by rw [ha]; exact inB_append (inB_append hic hiu) k1),
      unravel_ravel (by rw [hb]; exact inB_append (inB_append hic k1) hiv)]
  · rw [if_neg hc]
    unfold viaBmm
    have e1 : numel [numel sc, numel su, numel sr] = numel pa.shape := by
      rw [ha, numel_append, numel_append]; simp [numel, Nat.mul_assoc]
    have e2 : numel [numel sc, numel sr, numel sv] = numel pb.shape := by
      rw [hb, numel_append, numel_append]; simp [numel, Nat.mul_assoc]
    simp only [reshape, if_pos e1, if_pos e2, bmm]
    rw [if_pos ⟨trivial, trivial⟩]
    refine ⟨_, _, rfl, by rw [if_pos (by simp [numel_append, numel, Nat.mul_assoc])], rfl, ?_⟩
    intro ic iu iv hic hiu hiv
    have hin : InB [ravel sc ic, ravel su iu, ravel sv iv] [numel sc, numel su, numel sv] :=
      List.Forall₂.cons (ravel_lt hic) (List.Forall₂.cons (ravel_lt hiu) (List.Forall₂.cons (ravel_lt hiv) List.Forall₂.nil))
    simp only [ravel3 hic hiu, unravel_ravel hin]
    apply Finset.sum_congr rfl
    intro k hk
    have hk := Finset.mem_range.mp hk
    obtain ⟨k1, k2⟩ := unravel_inB hk
    have a1 : ravel [numel sc, numel su, numel sr] [ravel sc ic, ravel su iu, k]
        = ravel pa.shape (ic ++ iu ++ unravel sr k) := by rw [ha, ravel3 hic hiu, k2]
    have a2 : ravel [numel sc, numel sr, numel sv] [ravel sc ic, k, ravel sv iv]
        = ravel pb.shape (ic ++ unravel sr k ++ iv) := by rw [hb, ravel3 hic k1, k2]
    simp only [List.getD_cons_zero, List.getD_cons_succ]
    rw [a1, a2, unravel_ravel (by rw [ha]; exact inB_append (inB_append hic hiu) k1),
      unravel_ravel (by rw [hb]; exact inB_append (inB_append hic k1) hiv)]

/-! ### The computation for given axes -/

/-- The index with the values `vals` on the axes `q`. -/
def place (n : Nat) (q vals : List Nat) : List Nat := along n (fun j => q.idxOf j) vals

theorem place_map {n : Nat} {q : List Nat} (h : q.Perm (List.range n)) (f : Nat → Nat) :
    place n q (q.map f) = (List.range n).map f := by
  unfold place along
  apply List.map_congr_left
  intro j hj
  have hm : j ∈ q := h.mem_iff.mpr hj
  rw [List.getD_eq_getElem?_getD, List.getElem?_map, List.getElem?_eq_getElem (List.idxOf_lt_length_of_mem hm),
    List.getElem_idxOf (List.idxOf_lt_length_of_mem hm)]
  rfl

theorem map_of_vals {q vals : List Nat} (hq : q.Nodup) (hl : vals.length = q.length) :
    vals = q.map (fun j => vals.getD (q.idxOf j) 0) := by
  apply List.ext_getElem (by simp [hl])
  intro i h1 h2
  simp only [List.getElem_map]
  rw [List.Nodup.idxOf_getElem hq i (by omega)]
  simp [h1]

/-- The same values on the same axes, in another order of the two groups. -/
theorem place_swap {n : Nat} {q1 q2 v1 v2 : List Nat} (h : (q1 ++ q2).Perm (List.range n)) (h1 : v1.length = q1.length)
    (h2 : v2.length = q2.length) : place n (q1 ++ q2) (v1 ++ v2) = place n (q2 ++ q1) (v2 ++ v1) := by
  have hn : (q1 ++ q2).Nodup := h.nodup_iff.mpr List.nodup_range
  have e := map_of_vals hn (by simp [h1, h2] : (v1 ++ v2).length = (q1 ++ q2).length)
  generalize (fun j => (v1 ++ v2).getD ((q1 ++ q2).idxOf j) 0) = f at e
  rw [List.map_append] at e
  obtain ⟨e1, e2⟩ := List.append_inj e (by simp [h1])
  subst e1 e2
  rw [← List.map_append, ← List.map_append, place_map h, place_map (List.perm_append_comm.trans h)]

/-- The result for given axes: the sum over all positions of the reduced axes. -/
theorem matmulRaw_spec {a b : Raw R} {ca ua ra cb ub rb : List Nat}
    (ha : (ca ++ ua ++ ra).Perm (List.range a.shape.length)) (hb : (cb ++ rb ++ ub).Perm (List.range b.shape.length))
    (hc : sizes a.shape ca = sizes b.shape cb) (hr : sizes a.shape ra = sizes b.shape rb) :
    ∃ r, matmulRaw a b ca ua ra cb ub rb = .ok r ∧
      r.shape = sizes a.shape ca ++ sizes a.shape ua ++ sizes b.shape ub ∧
      ∀ ic iu iv, InB ic (sizes a.shape ca) → InB iu (sizes a.shape ua) → InB iv (sizes b.shape ub) →
        r.get (ic ++ iu ++ iv) = ∑ k ∈ Finset.range (numel (sizes a.shape ra)),
          a.get (place a.shape.length (ca ++ ua ++ ra) (ic ++ iu ++ unravel (sizes a.shape ra) k)) *
          b.get (place b.shape.length (cb ++ rb ++ ub) (ic ++ unravel (sizes a.shape ra) k ++ iv)) := by
  unfold matmulRaw
  rw [if_neg (by simpa using hc), if_neg (by simpa using hr)]
  by_cases hl : cb.length = 0 ∧ rb.length = 1 ∧ ub.length = 1
  · rw [if_pos hl]
    obtain ⟨l1, l2, l3⟩ := hl
    have l1' : cb = [] := List.length_eq_zero_iff.mp l1
    obtain ⟨x, hx⟩ := List.length_eq_one_iff.mp l2
    obtain ⟨y, hy⟩ := List.length_eq_one_iff.mp l3
    subst l1' hx hy
    have c0 : ca = [] := by
      have := congrArg List.length hc
      simpa [sizes] using this
    subst c0
    obtain ⟨z, hz⟩ : ∃ z, ra = [z] := by
      have := congrArg List.length hr
      exact List.length_eq_one_iff.mp (by simpa [sizes] using this)
    subst hz
    simp only [List.nil_append, List.cons_append] at ha hb
    have hb' : ([y] ++ [x]).Perm (List.range b.shape.length) := (List.Perm.swap x y []).trans hb
    unfold viaLinear
    rw [permute_ok a ha, permute_ok b hb']
    simp only [linear, List.map_append, List.map_cons, List.map_nil, List.cons_append, List.nil_append,
      List.getLast?_append, List.getLast?_singleton, Option.some_or, List.dropLast_concat]
    simp only [sizes, List.map_cons, List.map_nil, List.cons.injEq, and_true] at hr
    rw [if_pos (by rw [hr])]
    refine ⟨_, rfl, by simp [sizes], ?_⟩
    intro ic iu iv hic hiu hiv
    have hic0 : ic = [] := by simpa [sizes] using hic
    subst hic0
    obtain ⟨v, hv⟩ : ∃ v, iv = [v] := List.length_eq_one_iff.mp (by simpa [sizes] using hiv.length_eq)
    subst hv
    simp only [sizes, List.map_cons, List.map_nil, numel, Nat.mul_one, List.nil_append]
    rw [hr]
    apply Finset.sum_congr rfl
    intro k hk
    have hu : unravel [b.shape.getD x 0] k = [k] := by simp [unravel, numel]
    rw [hu]
    congr 1
    · simp only [List.dropLast_concat]
      rfl
    · have hg : (iu ++ [v]).getLastD 0 = v := by simp
      rw [hg]
      have := place_swap (v1 := [v]) (v2 := [k]) hb' rfl rfl
      simp only [List.cons_append, List.nil_append] at this ⊢
      rw [← this]
      rfl
  · rw [if_neg hl]
    unfold viaMatmul
    rw [permute_ok a ha, permute_ok b hb]
    simp only
    obtain ⟨r, r', h1, h2, h3, h4⟩ := viaMmOrBmm_spec
      (pa := ⟨(ca ++ ua ++ ra).map (fun j => a.shape.getD j 0), fun idx =>
        a.get ((List.range a.shape.length).map (fun j => idx.getD ((ca ++ ua ++ ra).idxOf j) 0))⟩)
      (pb := ⟨(cb ++ rb ++ ub).map (fun j => b.shape.getD j 0), fun idx =>
        b.get ((List.range b.shape.length).map (fun j => idx.getD ((cb ++ rb ++ ub).idxOf j) 0))⟩)
      (sc := sizes a.shape ca) (su := sizes a.shape ua) (sr := sizes a.shape ra) (sv := sizes b.shape ub)
      (by simp [sizes]) (by rw [hc, hr]; simp [sizes])
    rw [h1]
    simp only
    rw [h2]
    refine ⟨r', rfl, h3, ?_⟩
    intro ic iu iv hic hiu hiv
    rw [h4 ic iu iv hic hiu hiv]
    rfl

/-! ### Sums over positions -/

omit [Mul R] in
theorem sum_mul_range (f : Nat → R) (n m : Nat) :
    ∑ k ∈ Finset.range (n * m), f k = ∑ i ∈ Finset.range n, ∑ j ∈ Finset.range m, f (i * m + j) := by
  induction n with
  | zero => simp
  | succ n ih => rw [Nat.add_mul, Nat.one_mul, Finset.sum_range_add, ih, Finset.sum_range_succ]

theorem moveTo_ne {σ : Nat → Nat} {c i c' : Nat} (h : c' ≠ c) : moveTo σ c i c' = σ c' := by simp [moveTo, h]

theorem moveTo_comm (σ : Nat → Nat) {c d : Nat} (h : c ≠ d) (i j : Nat) :
    moveTo (moveTo σ c i) d j = moveTo (moveTo σ d j) c i := by
  funext x
  unfold moveTo
  split <;> split <;> simp_all

omit [Mul R] in
/-- The sum over the merged axis is the sum over the positions of the dims. -/
theorem sumOver_unravel (sz : Nat → Nat) (ds : List Dim) (hn : (classes ds).Nodup) (f : (Nat → Nat) → R)
    (g : List Nat → R) (σ : Nat → Nat)
    (hfg : ∀ τ, (∀ c, c ∉ classes ds → τ c = σ c) → f τ = g (ds.map (fun d => τ d.cls))) :
    sumOver sz ds f σ = ∑ k ∈ Finset.range (numel (ds.map (fun d => sz d.cls))),
      g (unravel (ds.map (fun d => sz d.cls)) k) := by
  induction ds generalizing σ g with
  | nil =>
    simp only [sumOver, List.map_nil, numel, unravel, Finset.sum_range_one, hfg σ (fun _ _ => rfl)]
  | cons d ds ih =>
    simp only [classes, List.map_cons, List.nodup_cons] at hn
    simp only [sumOver, List.map_cons, numel]
    rw [sum_mul_range]
    apply Finset.sum_congr rfl
    intro i _
    rw [ih hn.2 (fun l => g (i :: l))]
    · apply Finset.sum_congr rfl
      intro j hj
      have hj := Finset.mem_range.mp hj
      simp only [unravel]
      rw [Nat.mul_comm, Nat.mul_add_div (by omega), Nat.div_eq_of_lt hj, Nat.mul_add_mod, Nat.mod_eq_of_lt hj]
      simp
    · intro τ hτ
      rw [hfg τ]
      · simp only [List.map_cons]
        have : τ d.cls = i := by rw [hτ d.cls hn.1]; simp [moveTo]
        rw [this]
      · intro c hc
        simp only [classes, List.map_cons, List.mem_cons, not_or] at hc
        rw [hτ c hc.2, moveTo_ne hc.1]

omit [Mul R] in
theorem sumOver_congr (sz : Nat → Nat) (ds : List Dim) {f g : (Nat → Nat) → R} (h : ∀ τ, f τ = g τ) (σ : Nat → Nat) :
    sumOver sz ds f σ = sumOver sz ds g σ := by
  have : f = g := funext h
  rw [this]

omit [Mul R] in
/-- The order of the dims does not matter. -/
theorem sumOver_perm (sz : Nat → Nat) {ds es : List Dim} (h : ds.Perm es) (hn : (classes ds).Nodup)
    (f : (Nat → Nat) → R) (σ : Nat → Nat) : sumOver sz ds f σ = sumOver sz es f σ := by
  induction h generalizing σ with
  | nil => rfl
  | cons d _ ih =>
    simp only [sumOver]
    simp only [classes, List.map_cons, List.nodup_cons] at hn
    exact Finset.sum_congr rfl (fun i _ => ih hn.2 _)
  | swap d e l =>
    simp only [sumOver]
    simp only [classes, List.map_cons, List.nodup_cons, List.mem_cons, not_or] at hn
    rw [Finset.sum_comm]
    apply Finset.sum_congr rfl
    intro i _
    apply Finset.sum_congr rfl
    intro j _
    rw [moveTo_comm σ hn.1.1]
  | trans h1 _ ih1 ih2 =>
    rw [ih1 hn, ih2 ((h1.map Dim.cls).nodup_iff.mp hn)]

end Verif.RfMatmul
