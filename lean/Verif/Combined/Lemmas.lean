import Verif.Combined.Model
import Verif.Combined.Spec
import Mathlib.Data.List.Basic
import Mathlib.Data.List.Induction
import Mathlib.Algebra.BigOperators.Group.List.Basic
import Mathlib.Data.List.Perm.Basic
/-
Lemmas about boundaries and the joint index.
-/
namespace Verif.Combined
open Verif.Py Spec

theorem boundaries_eq (sizes : List Nat) :
    boundaries sizes = (List.range (sizes.length + 1)).map (fun d => (sizes.take d).sum) := by
  induction sizes using List.reverseRecOn with
  | nil => rfl
  | append_singleton l a ih =>
    unfold boundaries at ih ⊢
    rw [List.foldl_append, ih]
    simp only [List.foldl_cons, List.foldl_nil, List.length_append, List.length_cons, List.length_nil, Nat.zero_add]
    rw [List.range_succ (n := l.length + 1), List.map_append]
    congr 1
    · apply List.map_congr_left
      intro d hd
      rw [List.mem_range] at hd
      rw [List.take_append_of_le_length (by omega)]
    · simp only [List.map_cons, List.map_nil]
      rw [List.range_succ, List.map_append]
      simp only [List.map_cons, List.map_nil, List.take_length]
      rw [List.getLastD_concat, List.take_of_length_le (by simp)]
      simp [Nat.add_comm]

theorem boundaries_getItem (sizes : List Nat) {d : Nat} (h : d ≤ sizes.length) :
    getItem (boundaries sizes) d = .ok (sizes.take d).sum := by
  rw [boundaries_eq, getItem, List.getElem?_map, List.getElem?_range (by omega)]
  rfl

theorem boundaries_last (sizes : List Nat) : (boundaries sizes).getLastD 0 = sizes.sum := by
  rw [boundaries_eq, List.range_succ, List.map_append]
  simp only [List.map_cons, List.map_nil, List.take_length, List.getLastD_concat]

theorem sum_take_succ (sizes : List Nat) {d : Nat} (h : d < sizes.length) :
    (sizes.take (d + 1)).sum = (sizes.take d).sum + sizes[d] := by
  rw [List.take_succ_eq_append_getElem h, List.sum_append]; rfl

theorem walk_spec (sizes : List Nat) (i : Nat) (hi : i < sizes.sum) : ∀ (m d : Nat), m = sizes.length - d → d ≤ sizes.length →
    (sizes.take d).sum ≤ i →
    ∃ d', walk i ((boundaries sizes).drop (d + 1)) d = .ok d' ∧ d' < sizes.length ∧ (sizes.take d').sum ≤ i ∧
      i < (sizes.take (d' + 1)).sum := by
  intro m
  induction m with
  | zero =>
    intro d hm hd hle
    have : d = sizes.length := by omega
    subst this
    rw [List.take_length] at hle
    omega
  | succ m ih =>
    intro d hm hd hle
    have hlt : d < sizes.length := by omega
    have hdrop : (boundaries sizes).drop (d + 1) = (sizes.take (d + 1)).sum :: (boundaries sizes).drop (d + 2) := by
      have hl : d + 1 < (boundaries sizes).length := by rw [boundaries_eq]; simp; omega
      rw [List.drop_eq_getElem_cons hl]
      congr 1
      have := boundaries_getItem sizes (d := d + 1) (by omega)
      rw [getItem, List.getElem?_eq_getElem hl] at this
      injection this
    rw [hdrop]
    simp only [walk]
    by_cases h : (sizes.take (d + 1)).sum ≤ i
    · rw [if_pos h]
      exact ih (d + 1) (by omega) (by omega) h
    · rw [if_neg h]
      exact ⟨d, rfl, hlt, hle, by omega⟩

/-- The joint index as sub-dataset and index there. -/
theorem locate_spec {sizes : List Nat} {i : Nat} (hi : i < sizes.sum) :
    ∃ d k, locate (boundaries sizes) i = .ok (d, k) ∧ ∃ h : d < sizes.length, k < sizes[d] ∧ i = (sizes.take d).sum + k := by
  obtain ⟨d, h1, h2, h3, h4⟩ := walk_spec sizes i hi sizes.length 0 (by omega) (by omega) (by simp)
  refine ⟨d, i - (sizes.take d).sum, ?_, h2, ?_, by omega⟩
  · simp only [locate, bind, Except.bind, boundaries_last, pyAssert, decide_eq_true hi, if_true, ← List.drop_one,
      boundaries_getItem sizes (Nat.le_of_lt h2)]
    simp only [Nat.zero_add] at h1
    rw [h1]
    simp only [boundaries_getItem sizes (Nat.le_of_lt h2)]
  · rw [sum_take_succ sizes h2] at h4; omega

theorem locate_fails {sizes : List Nat} {i : Nat} (hi : sizes.sum ≤ i) : locate (boundaries sizes) i = .error .assertion := by
  simp only [locate, bind, Except.bind, boundaries_last, pyAssert]
  rw [if_neg (by simpa using hi)]

theorem flatFrom_get {α : Type} : ∀ (subs : List (List α)) (d0 d k : Nat) (h : d < subs.length), k < subs[d].length →
    (flatFrom d0 subs)[((subs.map List.length).take d).sum + k]? = (subs[d][k]?).map (fun x => (d0 + d, x))
  | o :: rest, d0, 0, k, _, hk => by
    simp only [List.getElem_cons_zero] at hk
    simp only [flatFrom, List.take_zero, List.sum_nil, Nat.zero_add, Nat.add_zero, List.getElem_cons_zero]
    rw [List.getElem?_append_left (by simpa using hk), List.getElem?_map]
  | o :: rest, d0, d + 1, k, h, hk => by
    simp only [List.length_cons] at h
    simp only [List.getElem_cons_succ] at hk
    have ih := flatFrom_get rest (d0 + 1) d k (by omega) hk
    simp only [flatFrom, List.map_cons, List.take_succ_cons, List.sum_cons, List.getElem_cons_succ]
    rw [List.getElem?_append_right (by simp; omega)]
    simp only [List.length_map]
    rw [show o.length + ((rest.map List.length).take d).sum + k - o.length = ((rest.map List.length).take d).sum + k from by omega, ih]
    congr 1
    funext x
    rw [show d0 + 1 + d = d0 + (d + 1) from by omega]

theorem flatFrom_length {α : Type} : ∀ (subs : List (List α)) (d0 : Nat),
    (flatFrom d0 subs).length = (subs.map List.length).sum
  | [], _ => rfl
  | o :: rest, d0 => by simp [flatFrom, flatFrom_length rest]

theorem flat_get {α : Type} (subs : List (List α)) {d k : Nat} (h : d < subs.length) (hk : k < subs[d].length) :
    (flat subs)[((subs.map List.length).take d).sum + k]? = some (d, subs[d][k]) := by
  rw [flat, flatFrom_get subs 0 d k h hk, List.getElem?_eq_getElem hk]; simp

theorem getItem_eq {α : Type} {l : List α} {i : Nat} (h : i < l.length) : getItem l i = .ok l[i] := by
  rw [getItem, List.getElem?_eq_getElem h]

theorem range'_append_one (a n : Nat) : a :: List.range' (a + 1) n = List.range' a (n + 1) := rfl

/-- The new lists of the sub-datasets, and the new indices. -/
theorem build_spec {α : Type} (first : List (List α)) : ∀ (order : List Nat) (acc : List (List α)),
    acc.length = first.length → (∀ i ∈ order, i < (first.map List.length).sum) →
    ∃ sorted subs, buildSorted (boundaries (first.map List.length)) order (acc.map List.length) = .ok sorted ∧
      buildSub first (boundaries (first.map List.length)) order acc = .ok subs ∧
      sorted.length = order.length ∧ subs.length = first.length ∧
      (∀ p ∈ sorted, p.1 < first.length) ∧
      (∀ d, ∃ new, subs.getD d [] = acc.getD d [] ++ new ∧
        (sorted.filter (fun p => decide (p.1 = d))).map Prod.snd = List.range' (acc.getD d []).length new.length ∧
        new = order.filterMap (fun i => ((flat first)[i]?).bind (fun p => if p.1 = d then some p.2 else none))) ∧
      ∀ (j : Nat) (p : Nat × Nat), sorted[j]? = some p → ∃ i x, order[j]? = some i ∧ (flat first)[i]? = some (p.1, x) ∧
        (subs.getD p.1 [])[p.2]? = some x := by
  intro order
  induction order with
  | nil =>
    intro acc hlen _
    refine ⟨[], acc, rfl, rfl, rfl, hlen, by simp, fun d => ⟨[], by simp, by simp, by simp⟩, by simp⟩
  | cons i order ih =>
    intro acc hlen hlt
    have hi := hlt i (by simp)
    obtain ⟨d, k, h1, h2, h3, h4⟩ := locate_spec hi
    have hd : d < first.length := by simpa using h2
    have hk : k < first[d].length := by simpa using h3
    have hda : d < acc.length := by omega
    have hflat : (flat first)[i]? = some (d, first[d][k]) := by rw [h4]; exact flat_get first hd hk
    obtain ⟨sorted, subs, a1, a2, a3, a4, a5, a6, a7⟩ := ih (acc.set d (acc[d] ++ [first[d][k]])) (by simpa using hlen)
      (fun j hj => hlt j (by simp [hj]))
    have hset : (acc.set d (acc[d] ++ [first[d][k]])).map List.length =
        (acc.map List.length).set d (acc[d].length + 1) := by
      rw [List.map_set]; simp
    rw [hset] at a1
    have hgd : ∀ d', (acc.set d (acc[d] ++ [first[d][k]])).getD d' [] =
        if d' = d then acc[d] ++ [first[d][k]] else acc.getD d' [] := by
      intro d'
      rw [List.getD_eq_getElem?_getD, List.getElem?_set]
      by_cases h : d = d'
      · subst h; simp [hda]
      · simp [h, Ne.symm h]
    have haccd : acc.getD d [] = acc[d] := by simp [List.getD_eq_getElem?_getD, List.getElem?_eq_getElem hda]
    refine ⟨(d, acc[d].length) :: sorted, subs, ?_, ?_, by simp [a3], a4, ?_, ?_, ?_⟩
    · simp only [buildSorted, bind, Except.bind, h1, getItem_eq (show d < (acc.map List.length).length by simpa using hda),
        List.getElem_map, a1]
    · simp only [buildSub, bind, Except.bind, h1, getItem_eq hd, getItem_eq hk, getItem_eq hda, a2]
    · intro p hp
      rcases List.mem_cons.1 hp with rfl | hp
      · exact hd
      · exact a5 p hp
    · intro d'
      obtain ⟨new, b1, b2, b3⟩ := a6 d'
      rw [hgd] at b1 b2
      by_cases h : d' = d
      · subst h
        rw [if_pos rfl] at b1 b2
        refine ⟨first[d'][k] :: new, by rw [b1, haccd]; simp, ?_, ?_⟩
        · simp only [List.filter_cons, decide_true, if_true, List.map_cons, b2, haccd, List.length_append, List.length_cons,
            List.length_nil, Nat.zero_add]
          rfl
        · rw [List.filterMap_cons, hflat]
          simp [b3]
      · rw [if_neg h] at b1 b2
        refine ⟨new, b1, ?_, ?_⟩
        · simp only [List.filter_cons, Ne.symm h, decide_false, Bool.false_eq_true, if_false, b2]
        · rw [List.filterMap_cons, hflat]
          simp only [Option.bind_some, if_neg (Ne.symm h)]
          exact b3
    · intro j p hj
      cases j with
      | zero =>
        simp only [List.getElem?_cons_zero, Option.some.injEq] at hj
        subst hj
        obtain ⟨new, b1, _, _⟩ := a6 d
        rw [hgd, if_pos rfl] at b1
        refine ⟨i, first[d][k], by simp, hflat, ?_⟩
        rw [b1]
        simp
      | succ j =>
        obtain ⟨i', x, c1, c2, c3⟩ := a7 j p (by simpa using hj)
        exact ⟨i', x, by simpa using c1, c2, c3⟩

end Verif.Combined
