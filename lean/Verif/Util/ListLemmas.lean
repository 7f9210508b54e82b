import Verif.Util.Py
/-
General list lemmas used by several areas. No RETURNN code is modelled here.
-/
namespace Verif.ListLemmas
open Verif.Py

theorem flatMap_range_mul {α : Type _} (f : Nat → List α) (P S : Nat) :
    (List.range P).flatMap (fun e => (List.range S).flatMap (fun s => f (e * S + s)))
      = (List.range (P * S)).flatMap f := by
  induction P with
  | zero => simp
  | succ P ih =>
    rw [List.range_succ, List.flatMap_append, ih, Nat.succ_mul, List.range_add, List.flatMap_append]
    simp [List.flatMap_map]

theorem flatMap_slices {α : Type _} (l : List α) (off : Nat → Nat) (h0 : off 0 = 0)
    (hm : ∀ k, off k ≤ off (k + 1)) (N : Nat) :
    (List.range N).flatMap (fun k => (l.take (off (k + 1))).drop (off k)) = l.take (off N) := by
  induction N with
  | zero => simp [h0]
  | succ N ih =>
    rw [List.range_succ, List.flatMap_append, ih]
    simp only [List.flatMap_cons, List.flatMap_nil, List.append_nil]
    have : l.take (off N) = (l.take (off (N + 1))).take (off N) := by
      rw [List.take_take, Nat.min_eq_left (hm N)]
    rw [this, List.take_append_drop]

theorem flatMap_congr' {α β : Type _} {l : List α} {f g : α → List β} (h : ∀ x ∈ l, f x = g x) :
    l.flatMap f = l.flatMap g := by
  induction l with
  | nil => rfl
  | cons a l ih =>
    simp only [List.flatMap_cons]
    rw [h a (by simp), ih (fun x hx => h x (by simp [hx]))]

theorem filterMap_range_getElem? {α : Type _} (l : List α) :
    (List.range l.length).filterMap (fun i => l[i]?) = l := by
  induction l with
  | nil => rfl
  | cons a l ih =>
    rw [List.length_cons, List.range_succ_eq_map]
    simp [List.filterMap_map, Function.comp_def, ih]

theorem perm_filterMap_getElem? {α : Type _} (l : List α) (p : List Nat)
    (h : p.Perm (List.range l.length)) : (p.filterMap (fun i => l[i]?)).Perm l := by
  have := h.filterMap (fun i => l[i]?)
  rwa [filterMap_range_getElem?] at this

theorem flatten_perm_of_perm {α : Type _} {ps qs : List (List α)} (h : ps.Perm qs) :
    ps.flatten.Perm qs.flatten := by
  exact h.flatten

theorem flatMap_perm_congr {α β : Type _} {l : List α} {f g : α → List β} (h : ∀ x ∈ l, (f x).Perm (g x)) :
    (l.flatMap f).Perm (l.flatMap g) := by
  induction l with
  | nil => exact List.Perm.refl _
  | cons a l ih =>
    simp only [List.flatMap_cons]
    exact (h a (by simp)).append (ih (fun x hx => h x (by simp [hx])))

/-! ### stable sort -/

theorem insertBy_perm {α : Type _} (le : α → α → Bool) (a : α) (l : List α) : (insertBy le a l).Perm (a :: l) := by
  induction l with
  | nil => exact List.Perm.refl _
  | cons b l ih =>
    unfold insertBy
    split
    · exact List.Perm.refl _
    · exact (ih.cons b).trans (List.Perm.swap a b l)

theorem stableSort_perm {α : Type _} (l : List α) (le : α → α → Bool) : (stableSort le l).Perm l := by
  induction l with
  | nil => exact List.Perm.refl _
  | cons a l ih => exact (insertBy_perm le a _).trans (ih.cons a)

theorem insertBy_pairwise {α : Type _} {le : α → α → Bool}
    (trans : ∀ a b c, le a b = true → le b c = true → le a c = true) (total : ∀ a b, (le a b || le b a) = true)
    (a : α) (l : List α) (h : l.Pairwise (fun a b => le a b = true)) :
    (insertBy le a l).Pairwise (fun a b => le a b = true) := by
  induction l with
  | nil => simp [insertBy]
  | cons b l ih =>
    unfold insertBy
    rw [List.pairwise_cons] at h
    split
    · rename_i hab
      rw [List.pairwise_cons]
      refine ⟨?_, by rw [List.pairwise_cons]; exact h⟩
      intro x hx
      rcases List.mem_cons.mp hx with rfl | hx
      · exact hab
      · exact trans _ _ _ hab (h.1 x hx)
    · rename_i hab
      rw [List.pairwise_cons]
      refine ⟨?_, ih h.2⟩
      intro x hx
      rcases List.mem_cons.mp ((insertBy_perm le a l).mem_iff.mp hx) with rfl | hx
      · have := total x b
        simp only [Bool.or_eq_true] at this
        rcases this with h' | h'
        · exact absurd h' hab
        · exact h'
      · exact h.1 x hx

theorem stableSort_pairwise {α : Type _} {le : α → α → Bool}
    (trans : ∀ a b c, le a b = true → le b c = true → le a c = true) (total : ∀ a b, (le a b || le b a) = true)
    (l : List α) : (stableSort le l).Pairwise (fun a b => le a b = true) := by
  induction l with
  | nil => exact List.Pairwise.nil
  | cons a l ih => exact insertBy_pairwise trans total a _ ih

theorem sublist_insertBy {α : Type _} (le : α → α → Bool) (a : α) (l : List α) : l.Sublist (insertBy le a l) := by
  induction l with
  | nil => exact List.nil_sublist _
  | cons b l ih =>
    unfold insertBy
    split
    · exact List.sublist_cons_self _ _
    · exact ih.cons_cons b

theorem pair_sublist_insertBy {α : Type _} {le : α → α → Bool} {a b : α} {l : List α} (hab : le a b = true)
    (hb : b ∈ l) : [a, b].Sublist (insertBy le a l) := by
  induction l with
  | nil => cases hb
  | cons c l ih =>
    unfold insertBy
    split
    · exact (List.singleton_sublist.mpr hb).cons_cons a
    · rename_i hac
      rcases List.mem_cons.mp hb with rfl | hb
      · exact absurd hab hac
      · exact (ih hb).cons c

/-- Stability: a pair which is already in order keeps its relative position. -/
theorem pair_sublist_stableSort {α : Type _} {le : α → α → Bool} {a b : α} {l : List α} (hab : le a b = true)
    (h : [a, b].Sublist l) : [a, b].Sublist (stableSort le l) := by
  induction l with
  | nil => cases h
  | cons c l ih =>
    cases h with
    | cons _ h => exact (ih h).trans (sublist_insertBy le c _)
    | cons_cons _ h =>
      exact pair_sublist_insertBy hab ((stableSort_perm l le).mem_iff.mpr (h.subset (by simp)))

end Verif.ListLemmas
