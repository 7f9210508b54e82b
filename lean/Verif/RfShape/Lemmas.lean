import Verif.RfShape.Spec
import Verif.RfGather.Props
import Mathlib.Algebra.BigOperators.Group.List.Basic
/-
Lemmas: ranks, transposition by dims, reshapes.
-/
namespace Verif.RfShape

open Verif.Py Verif.BinOp Verif.RfMatmul Verif.RfGather

variable {α : Type}

theorem numel_prod (l : List Nat) : numel l = l.prod := by
  induction l with
  | nil => rfl
  | cons a l ih => rw [numel, ih, List.prod_cons]

theorem total_numel (sz : Nat → Nat) (ds : List Dim) : total sz ds = numel (shapeOf sz ds) := (numel_prod _).symm

theorem rank_from (sz σ : Nat → Nat) (ds : List Dim) (n : Nat) :
    ds.foldl (fun n d => n * sz d.cls + σ d.cls) n = n * numel (shapeOf sz ds) + ravel (shapeOf sz ds) (ds.map (fun d => σ d.cls)) := by
  induction ds generalizing n with
  | nil => simp [shapeOf, numel, ravel]
  | cons d ds ih =>
    rw [List.foldl_cons, ih]
    simp only [shapeOf, List.map_cons, numel, ravel]
    rw [Nat.add_mul, Nat.mul_assoc, Nat.add_assoc]

theorem rank_ravel (sz σ : Nat → Nat) (ds : List Dim) : rank sz σ ds = ravel (shapeOf sz ds) (ds.map (fun d => σ d.cls)) := by
  rw [rank, rank_from, Nat.zero_mul, Nat.zero_add]

theorem rank_lt {sz σ : Nat → Nat} {ds : List Dim} (h : Within sz σ ds) : rank sz σ ds < total sz ds := by
  rw [rank_ravel, total_numel]
  exact ravel_lt (forall₂_map ds _ _ h)

theorem rank_congr {sz σ τ : Nat → Nat} {ds : List Dim} (h : ∀ d ∈ ds, σ d.cls = τ d.cls) : rank sz σ ds = rank sz τ ds := by
  rw [rank_ravel, rank_ravel]
  congr 1
  exact List.map_congr_left h

theorem inB_of {sz σ : Nat → Nat} {ds : List Dim} (h : Within sz σ ds) : InB (ds.map (fun d => σ d.cls)) (shapeOf sz ds) := forall₂_map ds _ _ h

theorem minOf_le {l : List Nat} {a : Nat} (h : a ∈ l) : minOf l ≤ a := by
  induction l with
  | nil => cases h
  | cons b l ih =>
    cases l with
    | nil => simp at h; simp [minOf, h]
    | cons c l =>
      simp only [minOf]
      rcases List.mem_cons.1 h with rfl | h
      · omega
      · have := ih h; omega

theorem minOf_mem {l : List Nat} (h : l ≠ []) : minOf l ∈ l := by
  induction l with
  | nil => exact absurd rfl h
  | cons b l ih =>
    cases l with
    | nil => simp [minOf]
    | cons c l =>
      have := ih (by simp)
      simp only [minOf]
      rcases Nat.le_total b (minOf (c :: l)) with h' | h'
      · rw [Nat.min_eq_left h']; exact List.mem_cons_self
      · rw [Nat.min_eq_right h']; exact List.mem_cons_of_mem _ this

/-- Transposition to a permutation of the dims. -/
theorem transposeTo_spec {sz : Nat → Nat} {t : Tensor α} (hv : Valid sz t) (hu : BinOp.Unique t) {outs : List Dim} (hp : (classes outs).Perm (classes t.dims)) :
    ∃ r, transposeTo t outs = .ok r ∧ r.shape = shapeOf sz outs ∧ ∀ σ, Within sz σ outs → r.get (outs.map (fun d => σ d.cls)) = valueAt t σ := by
  have hl : outs.length = t.dims.length := by simpa [classes] using hp.length_eq
  have hun : (outs.map Dim.cls).Nodup := hp.nodup_iff.2 hu
  obtain ⟨r, h1, h2, h3⟩ := (copy_compatible hv hun hu (fun d hd => hp.mem_iff.2 (List.mem_map_of_mem hd))).1
  refine ⟨r, by rw [transposeTo, if_pos hl, h1], ?_, ?_⟩
  · rw [h2, shapeOf]
    apply List.map_congr_left
    intro o ho
    have hm : o.cls ∈ t.dims.map Dim.cls := hp.mem_iff.1 (List.mem_map_of_mem ho)
    rw [if_pos hm]
  · intro σ hσ
    rw [← h3 σ]
    · congr 1
      apply List.map_congr_left
      intro o ho
      have hm : o.cls ∈ t.dims.map Dim.cls := hp.mem_iff.1 (List.mem_map_of_mem ho)
      rw [if_pos hm]
    · intro d hd
      obtain ⟨o, ho, e⟩ := List.mem_map.1 (hp.mem_iff.2 (List.mem_map_of_mem (f := Dim.cls) hd))
      rw [← e]
      exact hσ o ho

/-- The same with expanded dims. -/
theorem unbroadcastTo_spec {sz : Nat → Nat} {t : Tensor α} {outs : List Dim} (hv : Valid sz t) (ht : BinOp.Unique t)
    (hu : (classes outs).Nodup) (hs : ∀ d ∈ t.dims, d.cls ∈ classes outs) :
    ∃ r, unbroadcastTo sz t outs = .ok r ∧ r.shape = shapeOf sz outs ∧ ∀ σ, Within sz σ outs → r.get (outs.map (fun d => σ d.cls)) = valueAt t σ := by
  obtain ⟨j0, h1, h2, h3⟩ := (copy_compatible hv hu ht hs).2
  refine ⟨⟨shapeOf sz outs, fun idx => j0.get (project j0.shape idx)⟩, ?_, rfl, ?_⟩
  · unfold unbroadcastTo expandTo
    rw [h1]
    simp only
    rw [if_pos]
    rw [h2, shapeOf, List.forall₂_map_left_iff, List.forall₂_map_right_iff]
    apply List.forall₂_same.mpr
    intro o _
    split <;> simp
  · intro σ hσ
    simp only
    have hσt : ∀ d ∈ t.dims, σ d.cls < sz d.cls := by
      intro d hd
      obtain ⟨o, ho, e⟩ := List.mem_map.mp (hs d hd)
      rw [← e]
      exact hσ o ho
    rw [← h3 σ hσt, h2]
    congr 1
    rw [project_same (by simp), List.zipWith_map, List.zipWith_self]
    apply List.map_congr_left
    intro o ho
    by_cases hc : o.cls ∈ t.dims.map Dim.cls
    · simp only [if_pos hc]
      have := hσ o ho
      split <;> omega
    · simp [hc]

/-- Reshape between groups of dims. -/
theorem reshapeTo_spec {sz : Nat → Nat} {r : Raw α} {pre ins outs post : List Dim} (sparse : Option Dim) (hs : r.shape = shapeOf sz (pre ++ ins ++ post)) (he : total sz ins = total sz outs) :
    ∃ o, reshapeTo sz r (pre ++ outs ++ post) sparse = .ok o ∧ o.dims = pre ++ outs ++ post ∧ Valid sz o ∧
      ∀ σ τ, Within sz σ (pre ++ ins ++ post) → Within sz τ (pre ++ outs ++ post) → (∀ d ∈ pre ++ post, σ d.cls = τ d.cls) → rank sz σ ins = rank sz τ outs →
        valueAt o τ = r.get ((pre ++ ins ++ post).map (fun d => σ d.cls)) := by
  unfold reshapeTo reshape
  have hn : numel (shapeOf sz (pre ++ outs ++ post)) = numel r.shape := by
    rw [hs]
    simp only [shapeOf, List.map_append, numel_append]
    have : numel (List.map (fun d => sz d.cls) outs) = numel (List.map (fun d => sz d.cls) ins) := by
      have := he
      rw [total_numel, total_numel] at this
      exact this.symm
    rw [this]
  rw [if_pos hn]
  refine ⟨_, rfl, rfl, rfl, ?_⟩
  intro σ τ hσ hτ hag hr
  simp only [valueAt]
  congr 1
  have key : ravel (shapeOf sz (pre ++ outs ++ post)) ((pre ++ outs ++ post).map (fun d => τ d.cls)) = ravel r.shape ((pre ++ ins ++ post).map (fun d => σ d.cls)) := by
    rw [hs]
    simp only [shapeOf, List.map_append]
    rw [ravel_mid (sj := outs.map (fun d => sz d.cls)) (ij := outs.map (fun d => τ d.cls)) (by simp) (by simp),
      ravel_mid (sj := ins.map (fun d => sz d.cls)) (ij := ins.map (fun d => σ d.cls)) (by simp) (by simp)]
    have e1 : pre.map (fun d => τ d.cls) = pre.map (fun d => σ d.cls) := List.map_congr_left (fun d hd => (hag d (List.mem_append_left _ hd)).symm)
    have e2 : post.map (fun d => τ d.cls) = post.map (fun d => σ d.cls) := List.map_congr_left (fun d hd => (hag d (List.mem_append_right _ hd)).symm)
    rw [rank_ravel, rank_ravel] at hr
    rw [total_numel, total_numel] at he
    simp only [shapeOf] at hr he
    rw [e1, e2, hr, he]
  rw [key]
  rw [hs]
  exact unravel_ravel (inB_of hσ)

end Verif.RfShape
