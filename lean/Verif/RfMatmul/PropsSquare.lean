import Verif.RfMatmul.Props
import Mathlib.Algebra.Ring.Int.Defs
/-
Square matrices (C86): the weight of a linear layer with equal input and output dim, where `match_priority` tells which
axis is reduced; and what `matmul` does not do.
-/
namespace Verif.RfMatmul

open Verif.Py Verif.BinOp

variable {R : Type} [AddCommMonoid R] [Mul R]

/-- **C86** A square weight matrix `b` with dims `[i, o]`, where `i == o` and `i` has the higher `match_priority` (as in
`rf.Linear`, frontend/linear.py 25-29): the product reduces axis `i` of `b`, and the result has `o` in place of the
reduced dim of `a`. -/
theorem matmul_square (sz : Nat → Nat) (dyn : Dim → Bool) (useMask : Bool) (a b : Tensor R) (i o d : Dim)
    (ha : Valid sz a) (hb : Valid sz b) (hua : BinOp.Unique a) (hbd : b.dims = [i, o]) (hio : i.cls = o.cls)
    (hprio : o.prio < i.prio) (hd : d.cls = i.cls) (hdyn : useMask = true → dyn d = false)
    (hda : d.cls ∈ classes a.dims) :
    ∃ out, matmul dyn useMask a b [d] = .ok out ∧
      out.dims = a.dims.filter (fun x => decide (x.cls ≠ d.cls)) ++ [o] ∧ Valid sz out ∧
      ∀ σ : Nat → Nat, (∀ x ∈ out.dims, σ x.cls < sz x.cls) →
        valueAt out σ =
          ∑ k ∈ Finset.range (sz d.cls), valueAt a (moveTo σ d.cls k) * b.raw.get [k, σ o.cls] := by
  have hla : a.raw.shape.length = a.dims.length := by rw [ha]; simp
  have hbs : b.raw.shape = [sz d.cls, sz d.cls] := by rw [hb, hbd]; simp [hd, ← hio]
  have hie : i.eq d = true := by simp [Dim.eq, hd]
  have hoe : o.eq d = true := by simp [Dim.eq, hd, hio]
  obtain ⟨hj, hjc⟩ := index_spec hda
  have hrb : axesOf b.dims [d] = .ok [0] := by
    have e : axisOf b.dims d = .ok 0 := by
      unfold axisOf
      rw [hbd]
      simp only [axisLoop, hie, hoe, if_true]
      rw [if_neg (by omega), if_pos (by omega)]
    simp only [axesOf, e]
  have hra : axesOf a.dims [d] = .ok [index a.dims d] := by
    rw [axesOf_index hua (by simpa using hda)]; rfl
  have hcommon : commonDims a.dims b.dims [index a.dims d] = [] := by
    unfold commonDims
    rw [List.map_eq_nil_iff, List.filter_eq_nil_iff]
    intro k hk
    simp only [Bool.and_eq_true, not_and, Bool.not_eq_true', Bool.not_eq_false]
    intro h
    rw [inDims_iff, hbd] at h
    have hc : (a.dims.getD k default).cls = d.cls := by simpa [classes, ← hio, hd] using h
    have := index_at hua (List.mem_range.mp hk) hc.symm
    simp [this]
  unfold matmul
  rw [if_neg (by
      simp only [Bool.and_eq_true, List.any_eq_true, not_and, not_exists]
      intro h x hx
      rw [List.mem_singleton.mp hx, hdyn h]
      simp),
    if_neg (by simp [(inDims_iff _ _).mpr hda]),
    if_neg (by
      rw [hbd]
      simp [inDims, hie])]
  have hs : sortReduce a.dims [d] = [d] := by simp [sortReduce]
  rw [hs, hra, hrb]
  simp only
  unfold matmulAxes
  simp only [hcommon, List.map_nil, List.nil_append]
  have hub : uniqueAxes b.dims.length [0] [] = [1] := by rw [hbd]; rfl
  rw [hub]
  have hP : ([] ++ uniqueAxes a.dims.length [index a.dims d] [] ++ [index a.dims d]).Perm (List.range a.dims.length) :=
    groups_perm (by simp) (by simp) (by simp) (by simp) (by simpa using hj)
  obtain ⟨ua, hua'⟩ : ∃ ua, ua = uniqueAxes a.dims.length [index a.dims d] [] := ⟨_, rfl⟩
  have hUA : ua.map (fun i => a.dims.getD i default) = a.dims.filter (fun x => decide (x.cls ≠ d.cls)) := by
    rw [hua']
    unfold uniqueAxes
    apply filter_range_map
    intro k hk
    simp only [List.contains_nil, Bool.not_false, Bool.and_true, List.contains_eq_mem, List.mem_singleton]
    by_cases h : k = index a.dims d
    · rw [← h] at hjc
      simp [h, ← hjc]
    · have : (a.dims.getD k default).cls ≠ d.cls := fun hc => h (index_at hua hk hc.symm).symm
      generalize a.dims.getD k default = x at this ⊢
      simp [h, this]
  rw [← hua'] at hP ⊢
  have lt_ua : ∀ k ∈ ua, k < a.dims.length := fun k hk => List.mem_range.mp (hP.mem_iff.mp (by simp [hk]))
  have hsr : sizes a.raw.shape [index a.dims d] = [sz d.cls] := by
    rw [sizes_valid ha (by simpa using hj)]
    simp only [List.map_cons, List.map_nil, hjc]
  have hsu : sizes a.raw.shape ua = (ua.map (fun i => a.dims.getD i default)).map (fun d => sz d.cls) := by
    rw [sizes_valid ha lt_ua, List.map_map]; rfl
  obtain ⟨r, h1, h2, h3⟩ := matmulRaw_spec (a := a.raw) (b := b.raw) (ca := []) (cb := []) (ua := ua)
    (ra := [index a.dims d]) (rb := [0]) (ub := [1]) (by rw [hla]; exact hP)
    (by rw [hbs]; exact List.Perm.refl _) rfl (by rw [hsr, hbs]; rfl)
  rw [h1]
  simp only [List.map_cons, List.map_nil]
  have hb1 : b.dims.getD 1 default = o := by rw [hbd]; rfl
  have hsv : sizes b.raw.shape [1] = [sz d.cls] := by rw [hbs]; rfl
  rw [hsv, hsu] at h2 h3
  rw [hsr] at h3
  refine ⟨_, rfl, by simp only [hUA, hb1], ?_, ?_⟩
  · unfold Valid
    rw [h2]
    simp only [List.map_append, List.map_cons, List.map_nil, hb1, sizes, List.nil_append, ← hio, hd]
  · intro σ hσ
    simp only [hb1] at hσ ⊢
    have ho : σ o.cls < sz d.cls := by
      have := hσ o (by simp)
      rwa [← hio, ← hd] at this ⊢
    unfold valueAt
    simp only [List.map_append, List.map_cons, List.map_nil]
    have h3' := h3 [] ((ua.map (fun i => a.dims.getD i default)).map (fun d => σ d.cls)) [σ o.cls] List.Forall₂.nil
      (forall₂_map _ _ _ (fun x hx => hσ x (List.mem_append_left _ hx))) (List.Forall₂.cons ho List.Forall₂.nil)
    simp only [List.nil_append] at h3' hP
    rw [h3']
    have hnum : numel [sz d.cls] = sz d.cls := by simp [numel]
    rw [hnum]
    apply Finset.sum_congr rfl
    intro k _
    have hk : unravel [sz d.cls] k = [k] := by simp [unravel, numel]
    rw [hk]
    congr 1
    · have := valueAt_place ha (q := ua ++ [index a.dims d]) (by rw [hla]; exact hP) (moveTo σ d.cls k)
      unfold valueAt at this
      rw [this]
      simp only [List.map_append, List.map_cons, List.map_nil, hjc]
      congr 3
      · rw [List.map_map]
        apply List.map_congr_left
        intro x hx
        simp only [Function.comp_apply]
        have hm : (a.dims.getD x default) ∈ a.dims.filter (fun x => decide (x.cls ≠ d.cls)) := by
          rw [← hUA]; exact List.mem_map_of_mem hx
        rw [moveTo_ne (by simpa using (List.mem_filter.mp hm).2)]
      · simp [moveTo]
    · rw [hbs]
      rfl

/-! ### Concrete runs -/

/-- Sizes: batch 2, time 3, feature 2, class 3. -/
def exSz : Nat → Nat
  | 0 => 2
  | 1 => 3
  | 2 => 2
  | _ => 3

def bt : Dim := ⟨0, 0, 0⟩
def tm : Dim := ⟨1, 1, 0⟩
def ft : Dim := ⟨2, 2, 0⟩
def cl : Dim := ⟨3, 3, 0⟩
/-- The feature dim with a higher match priority. -/
def ft1 : Dim := ⟨4, 2, 1⟩

def exA : Tensor Int := ⟨[tm, bt, ft], none, none, ⟨[3, 2, 2], fun i => (ravel [3, 2, 2] i : Int)⟩⟩
def exB : Tensor Int := ⟨[ft, bt, cl], none, none, ⟨[2, 2, 3], fun i => (ravel [2, 2, 3] i : Int) + 1⟩⟩
def exW : Tensor Int := ⟨[ft1, ft], none, none, ⟨[2, 2], fun i => (ravel [2, 2] i : Int)⟩⟩

/-- The tensors of the examples meet the hypotheses of `matmul_named_partial`, with a common, a reduced and two other dims. -/
example : Valid exSz exA ∧ Valid exSz exB ∧ BinOp.Unique exA ∧ BinOp.Unique exB ∧ (classes [ft]).Nodup ∧
    ft.cls ∈ classes exA.dims ∧ ft.cls ∈ classes exB.dims := by
  unfold Valid BinOp.Unique
  decide

/-- And those of `matmul_square`. -/
example : Valid exSz exA ∧ Valid exSz exW ∧ BinOp.Unique exA ∧ exW.dims = [ft1, ft] ∧ ft1.cls = ft.cls ∧ ft.prio < ft1.prio := by
  unfold Valid BinOp.Unique
  decide

/-- The dims and one value of the result. -/
example : (match matmul (fun _ => false) true exA exB [ft] with
    | .ok r => (r.dims, r.raw.shape, r.raw.get [1, 2, 0])
    | .error _ => ([], [], 0)) = ([bt, tm, cl], [2, 3, 3], 10 * 4 + 11 * 10) := by
  decide +kernel

/-! ### What the code does not do -/

/-- The documentation of `matmul` says that a reduction over a dynamic dim is masked automatically (matmul.py 34-36); the
torch backend raises `NotImplementedError` for every pair of tensors. -/
theorem dynamic_not_implemented (dyn : Dim → Bool) (a b : Tensor R) (reduce : List Dim) (d : Dim) (hd : d ∈ reduce)
    (h : dyn d = true) : matmul dyn true a b reduce = .error .notImplemented := by
  unfold matmul
  rw [if_pos (by simp only [Bool.true_and, List.any_eq_true]; exact ⟨d, hd, h⟩)]

/-- With the square matrix as first operand the same product raises an error: the remaining dim of the matrix is taken
for a common dim, as `b` has an equal one, which is the reduced one. -/
theorem square_first_fails :
    (matmul (fun _ => false) true exA exW [ft]).isOk = true ∧
      matmul (fun _ => false) true exW exA [ft] = .error .valueError := by
  constructor
  · decide +kernel
  · rfl

end Verif.RfMatmul
