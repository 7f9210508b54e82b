import Verif.BinOp.Spec
import Verif.Util.ListLemmas
import Mathlib.Data.List.Perm.Subperm
import Mathlib.Data.List.Sort
import Mathlib.Data.List.Range
import Mathlib.Data.List.Forall2
import Mathlib.Tactic.Linarith
/-
Lemmas: indices of reshaped and permuted tensors, the search for axes.
-/
namespace Verif.BinOp

open Verif.Py

/-- An index within the shape. -/
abbrev InB (idx shape : List Nat) : Prop := List.Forall₂ (fun i s => i < s) idx shape

/-! ### Row-major order -/

theorem ravel_lt {idx shape : List Nat} (h : InB idx shape) : ravel shape idx < numel shape := by
  induction h with
  | nil => simp [ravel, numel]
  | @cons i s is ss h _ ih =>
    simp only [ravel, numel]
    calc i * numel ss + ravel ss is < i * numel ss + numel ss := by omega
      _ = (i + 1) * numel ss := by rw [Nat.add_mul, Nat.one_mul]
      _ ≤ s * numel ss := Nat.mul_le_mul_right _ h

theorem unravel_ravel {idx shape : List Nat} (h : InB idx shape) : unravel shape (ravel shape idx) = idx := by
  induction h with
  | nil => rfl
  | @cons i s is ss h hr ih =>
    have hl := ravel_lt hr
    have h0 : 0 < numel ss := by omega
    simp only [ravel, unravel]
    rw [Nat.mul_comm, Nat.mul_add_div h0, Nat.div_eq_of_lt hl, Nat.mul_add_mod, Nat.mod_eq_of_lt hl, ih]
    simp

/-- The positions which are matched. -/
def keep : List (Option Nat) → List Nat → List Nat
  | some _ :: p, i :: is => i :: keep p is
  | none :: p, _ :: is => keep p is
  | _, _ => []

theorem matched_eq (p : List (Option Nat)) : matched p = (somes p).length := by
  induction p with
  | nil => rfl
  | cons o p ih =>
    cases o with
    | none => simpa [matched, somes] using ih
    | some j => simpa [matched, somes] using ih

theorem mem_somes {p : List (Option Nat)} {j : Nat} : j ∈ somes p ↔ some j ∈ p := by
  induction p with
  | nil => simp [somes]
  | cons o p ih =>
    cases o with
    | none => simp [somes, ih]
    | some k => simp [somes, ih, eq_comm]

theorem somes_map_some (l : List Nat) : somes (l.map some) = l := by
  induction l with
  | nil => rfl
  | cons a l ih => simp [somes, ih]

theorem extShape_spec (p : List (Option Nat)) (shape : List Nat) (hs : shape.length = matched p) (idx : List Nat)
    (h : InB idx (extShape p shape)) :
    ravel (extShape p shape) idx = ravel shape (keep p idx) ∧ InB (keep p idx) shape := by
  induction p generalizing shape idx with
  | nil =>
    have : shape = [] := by simpa [matched] using hs
    subst this
    simp only [extShape] at h ⊢
    cases h
    simp [keep, ravel]
  | cons o p ih =>
    cases o with
    | none =>
      simp only [extShape] at h ⊢
      cases h with
      | @cons i _ is _ hi hr =>
        have hs' : shape.length = matched p := by simpa [matched] using hs
        obtain ⟨h1, h2⟩ := ih shape hs' is hr
        have : i = 0 := by omega
        subst this
        simp only [ravel, keep, Nat.zero_mul, Nat.zero_add]
        exact ⟨h1, h2⟩
    | some j =>
      cases shape with
      | nil => simp [matched] at hs
      | cons s ss =>
        simp only [extShape, List.headD_cons, List.tail_cons] at h ⊢
        have hs' : ss.length = matched p := by simpa [matched] using hs
        cases h with
        | @cons i _ is _ hi hr =>
          obtain ⟨h1, h2⟩ := ih ss hs' is hr
          refine ⟨?_, by simpa [keep] using List.Forall₂.cons hi h2⟩
          simp only [ravel, keep, h1]
          congr 2
          clear h1 h2 hi hr hs ih
          induction p generalizing ss with
          | nil => simp only [extShape]; simp [matched] at hs'; subst hs'; rfl
          | cons o p ih =>
            cases o with
            | none => simp only [extShape, numel, Nat.one_mul]; exact ih ss (by simpa [matched] using hs')
            | some j =>
              cases ss with
              | nil => simp [matched] at hs'
              | cons s ss => simp only [extShape, numel, List.headD_cons, List.tail_cons]; rw [ih ss (by simpa [matched] using hs')]

theorem numel_ext (p : List (Option Nat)) (ss : List Nat) (hs : ss.length = matched p) :
    numel (extShape p ss) = numel ss := by
  induction p generalizing ss with
  | nil => simp only [extShape]; simp [matched] at hs; subst hs; rfl
  | cons o p ih =>
    cases o with
    | none => simp only [extShape, numel, Nat.one_mul]; exact ih ss (by simpa [matched] using hs)
    | some j =>
      cases ss with
      | nil => simp [matched] at hs
      | cons s ss => simp only [extShape, numel, List.headD_cons, List.tail_cons]; rw [ih ss (by simpa [matched] using hs)]

theorem keep_getD (p : List (Option Nat)) (idx : List Nat) (hl : idx.length = p.length) (j : Nat)
    (hj : some j ∈ p) : (keep p idx).getD ((somes p).idxOf j) 0 = idx.getD (p.idxOf (some j)) 0 := by
  induction p generalizing idx with
  | nil => simp at hj
  | cons o p ih =>
    cases idx with
    | nil => simp at hl
    | cons i is =>
      have hl' : is.length = p.length := by simpa using hl
      cases o with
      | none =>
        have hj' : some j ∈ p := by simpa using hj
        have := ih is hl' hj'
        simp only [keep, somes]
        rw [this, List.idxOf_cons_ne _ (by simp)]
        simp
      | some k =>
        simp only [keep, somes]
        by_cases hk : k = j
        · subst hk
          simp
        · have hj' : some j ∈ p := by
            rcases List.mem_cons.mp hj with h | h
            · exact absurd (by simpa using h.symm) hk
            · exact h
          rw [List.idxOf_cons_ne _ hk, List.idxOf_cons_ne _ (by simpa using hk)]
          simpa using ih is hl' hj'

theorem extShape_map (p : List (Option Nat)) (shape : List Nat) :
    extShape p ((somes p).map (fun j => shape.getD j 0)) = p.map (optSize shape) := by
  induction p with
  | nil => rfl
  | cons o p ih =>
    cases o with
    | none => simpa [extShape, optSize, somes] using ih
    | some j => simpa [extShape, optSize, somes] using ih

theorem keep_length (p : List (Option Nat)) (idx : List Nat) (hl : idx.length = p.length) :
    (keep p idx).length = matched p := by
  induction p generalizing idx with
  | nil => cases idx with
    | nil => rfl
    | cons _ _ => simp at hl
  | cons o p ih =>
    cases idx with
    | nil => simp at hl
    | cons i is =>
      have := ih is (by simpa using hl)
      cases o with
      | none => simpa [keep, matched] using this
      | some k => simpa [keep, matched] using this

theorem map_range_getD (l : List Nat) : (List.range l.length).map (fun j => l.getD j 0) = l := by
  apply List.ext_getElem
  · simp
  · intro i h1 h2
    simp [List.getD_eq_getElem?_getD, h2]

/-! ### Permutation and new axes -/

theorem needPermute_false {p : List (Option Nat)} (h : needPermute p = false) :
    (somes p).Pairwise (· < ·) := by
  have key : ∀ (p : List (Option Nat)) (o : Option Nat), needPermute (o :: p) = false →
      (∀ x ∈ p, ∃ j : Nat, x = some j ∧ permInt o < (j : Int)) ∧ (somes p).Pairwise (· < ·) := by
    intro p
    induction p with
    | nil => intro o _; simp [somes]
    | cons q r ih =>
      intro o ho
      simp only [needPermute, Bool.or_eq_false_iff, decide_eq_false_iff_not, not_not] at ho
      obtain ⟨h1, h2⟩ := ih q ho.2
      have hq : ∃ j : Nat, q = some j := by
        cases q with
        | none =>
          cases o with
          | none => simp [permInt] at ho
          | some k => simp only [permInt] at ho; omega
        | some j => exact ⟨j, rfl⟩
      obtain ⟨j, rfl⟩ := hq
      refine ⟨?_, ?_⟩
      · intro x hx
        rcases List.mem_cons.mp hx with rfl | hx
        · exact ⟨j, rfl, by have := ho.1; simp only [permInt] at this ⊢; omega⟩
        · obtain ⟨k, hk, hlt⟩ := h1 x hx
          exact ⟨k, hk, by have := ho.1; simp only [permInt] at this hlt ⊢; omega⟩
      · simp only [somes]
        refine List.Pairwise.cons ?_ h2
        intro k hk
        obtain ⟨k', hk', hlt⟩ := h1 (some k) (mem_somes.mp hk)
        simp only [permInt, Option.some.injEq] at hlt hk'
        omega
  cases p with
  | nil => simp [somes]
  | cons o p =>
    obtain ⟨h1, h2⟩ := key p o h
    cases o with
    | none => simpa [somes] using h2
    | some j =>
      simp only [somes]
      refine List.Pairwise.cons ?_ h2
      intro k hk
      obtain ⟨k', hk', hlt⟩ := h1 (some k) (mem_somes.mp hk)
      simp only [permInt, Option.some.injEq] at hlt hk'
      omega

theorem sorted_perm_range {q : List Nat} {n : Nat} (h : q.Perm (List.range n)) (hs : q.Pairwise (· < ·)) :
    q = List.range n :=
  h.eq_of_pairwise (fun a b _ _ h1 h2 => absurd h1 (by omega)) hs List.pairwise_lt_range

theorem permute_ok {α : Type} (r : Raw α) {q : List Nat} (h : q.Perm (List.range r.shape.length)) :
    permute r q = .ok ⟨q.map (fun j => r.shape.getD j 0),
      fun idx => r.get ((List.range r.shape.length).map (fun j => idx.getD (q.idxOf j) 0))⟩ := by
  unfold permute
  rw [if_pos]
  simp only [Bool.and_eq_true, beq_iff_eq, List.all_eq_true, List.contains_iff_mem]
  exact ⟨by simpa using h.length_eq, fun j hj => h.mem_iff.mpr hj⟩

/-- What the permuted and extended raw tensor has to be. -/
structure Expanded {α : Type} (raw : Raw α) (p : List (Option Nat)) (r : Raw α) : Prop where
  shape : r.shape = p.map (optSize raw.shape)
  value : ∀ idx, InB idx r.shape →
    r.get idx = raw.get (along raw.shape.length (fun j => p.idxOf (some j)) idx)

theorem perm_mem {p : List (Option Nat)} {n : Nat} (hp : (somes p).Perm (List.range n)) {j : Nat} (hj : j < n) :
    some j ∈ p := by
  have : j ∈ somes p := hp.mem_iff.mpr (List.mem_range.mpr hj)
  exact mem_somes.mp this

theorem no_none {p : List (Option Nat)} (h : matched p = p.length) : p = (somes p).map some := by
  induction p with
  | nil => rfl
  | cons o p ih =>
    have hle : ∀ p : List (Option Nat), matched p ≤ p.length := fun p => List.length_filter_le _ _
    cases o with
    | none =>
      have h' : matched p = p.length + 1 := by simpa [matched] using h
      have := hle p
      omega
    | some j =>
      have h' : matched p = p.length := by simpa [matched] using h
      simpa [somes] using ih h'

/-- The permuted tensor, and then reshaped. -/
theorem reshape_expanded {α : Type} (raw : Raw α) (p : List (Option Nat))
    (hp : (somes p).Perm (List.range raw.shape.length)) (r1 : Raw α)
    (h1 : permute raw (somes p) = .ok r1) :
    ∃ r, reshape r1 (extShape p r1.shape) = .ok r ∧ Expanded raw p r := by
  rw [permute_ok raw hp] at h1
  have h1 := (Except.ok.inj h1).symm
  have hlen : r1.shape.length = matched p := by rw [h1, matched_eq]; simp
  refine ⟨⟨extShape p r1.shape, fun idx => r1.get (unravel r1.shape (ravel (extShape p r1.shape) idx))⟩, ?_, ?_, ?_⟩
  · unfold reshape
    rw [if_pos (numel_ext p _ hlen)]
  · simp only [h1]
    exact extShape_map p raw.shape
  · intro idx hidx
    simp only at hidx ⊢
    obtain ⟨e1, e2⟩ := extShape_spec p r1.shape hlen idx hidx
    rw [e1, unravel_ravel e2]
    have hil : idx.length = p.length := by
      have := hidx.length_eq
      rw [h1] at this
      simp only [extShape_map] at this
      simpa using this
    rw [h1]
    simp only [along]
    congr 1
    apply List.map_congr_left
    intro j hj
    exact keep_getD p idx hil j (perm_mem hp (List.mem_range.mp hj))

/-- Without new axes there is nothing to reshape. -/
theorem permute_expanded {α : Type} (raw : Raw α) (p : List (Option Nat))
    (hp : (somes p).Perm (List.range raw.shape.length)) (hn : p.length = raw.shape.length) (r1 : Raw α)
    (h1 : permute raw (somes p) = .ok r1) : Expanded raw p r1 := by
  have hm : matched p = p.length := by rw [matched_eq, hp.length_eq, List.length_range, hn]
  have hnn := no_none hm
  rw [permute_ok raw hp] at h1
  have h1 := (Except.ok.inj h1).symm
  subst h1
  refine ⟨?_, ?_⟩
  · simp only
    conv_rhs => rw [hnn]
    simp [optSize, Function.comp_def]
  · intro idx hidx
    simp only [along]
    congr 1
    apply List.map_congr_left
    intro j hj
    have key : (somes p).idxOf j = p.idxOf (some j) := by
      conv_rhs => rw [hnn]
      generalize somes p = q
      induction q with
      | nil => rfl
      | cons k q ih =>
        by_cases hk : k = j
        · subst hk; simp
        · rw [List.map_cons, List.idxOf_cons_ne _ hk, List.idxOf_cons_ne _ (by simpa using hk), ih]
    rw [key]

/-- A permutation which is sorted does nothing. -/
theorem permute_sorted {α : Type} (raw : Raw α) (r : Raw α)
    (h : permute raw (List.range raw.shape.length) = .ok r) :
    r.shape = raw.shape ∧ ∀ idx, idx.length = raw.shape.length → r.get idx = raw.get idx := by
  rw [permute_ok raw (List.Perm.refl _)] at h
  have h := (Except.ok.inj h).symm
  subst h
  refine ⟨map_range_getD raw.shape, ?_⟩
  intro idx hidx
  simp only
  congr 1
  rw [← hidx]
  conv_rhs => rw [← map_range_getD idx]
  apply List.map_congr_left
  intro j hj
  have hj := List.mem_range.mp hj
  have : (List.range idx.length).idxOf j = j := by
    have h1 := List.Nodup.idxOf_getElem (List.nodup_range (n := idx.length)) j (by simpa using hj)
    simpa using h1
  rw [this]

theorem expanded_native {α : Type} (raw : Raw α) (dims outs : List Dim) (p : List (Option Nat))
    (hd : dims.length = raw.shape.length) (ho : p.length = outs.length)
    (hp : (somes p).Perm (List.range raw.shape.length)) :
    ∃ r, permuteAndExtend dims raw outs p = .ok r ∧ Expanded raw p r := by
  have hle : raw.shape.length ≤ p.length := by
    have := hp.length_eq
    rw [List.length_range] at this
    rw [← this]
    exact matched_eq p ▸ List.length_filter_le _ _
  -- the permuted tensor, whether or not the permutation was skipped
  obtain ⟨r1, hr1⟩ : ∃ r1, permute raw (somes p) = .ok r1 := ⟨_, permute_ok raw hp⟩
  have hlen1 : r1.shape.length = raw.shape.length := by
    have h := hr1
    rw [permute_ok raw hp] at h
    rw [← Except.ok.inj h]
    simpa using hp.length_eq
  by_cases hnp : needPermute p = true
  · have e : permuteNative raw p = .ok r1 := by rw [permuteNative, if_pos hnp, hr1]
    unfold permuteAndExtend extendNative
    rw [e]
    simp only
    by_cases hgt : outs.length > dims.length
    · rw [if_pos hgt, if_neg (by omega)]
      exact reshape_expanded raw p hp r1 hr1
    · rw [if_neg hgt]
      exact ⟨r1, rfl, permute_expanded raw p hp (by omega) r1 hr1⟩
  · have hnp : needPermute p = false := by simpa using hnp
    have hq := sorted_perm_range hp (needPermute_false hnp)
    have hr1' := hr1
    rw [hq] at hr1'
    obtain ⟨s1, s2⟩ := permute_sorted raw r1 hr1'
    have e : permuteNative raw p = .ok raw := by rw [permuteNative, if_neg (by simp [hnp])]
    unfold permuteAndExtend extendNative
    rw [e]
    simp only
    by_cases hgt : outs.length > dims.length
    · rw [if_pos hgt, if_neg (by omega)]
      obtain ⟨r, h1, h2⟩ := reshape_expanded raw p hp r1 hr1
      have hlm : raw.shape.length = matched p := by rw [matched_eq, hp.length_eq, List.length_range]
      refine ⟨⟨extShape p raw.shape, fun idx => raw.get (unravel raw.shape (ravel (extShape p raw.shape) idx))⟩, ?_, ?_⟩
      · unfold reshape
        rw [if_pos (numel_ext p _ hlm)]
      · unfold reshape at h1
        rw [if_pos (by rw [s1]; exact numel_ext p _ hlm)] at h1
        have h1 := (Except.ok.inj h1).symm
        subst h1
        refine ⟨by have := h2.shape; rw [s1] at this; exact this, ?_⟩
        intro idx hidx
        simp only at hidx
        rw [← h2.value idx (by simp only; rw [s1]; exact hidx)]
        simp only [s1]
        rw [s2]
        obtain ⟨e1, e2⟩ := extShape_spec p raw.shape hlm idx hidx
        rw [e1, unravel_ravel e2]
        exact e2.length_eq
    · rw [if_neg hgt]
      have h2 := permute_expanded raw p hp (by omega) r1 hr1
      refine ⟨raw, rfl, by rw [← h2.shape, s1], ?_⟩
      intro idx hidx
      rw [← h2.value idx (by rw [s1]; exact hidx), s2 idx hidx.length_eq]

theorem expanded_py {α : Type} (raw : Raw α) (dims outs : List Dim) (p : List (Option Nat))
    (hd : dims.length = raw.shape.length) (hpy : permPy dims outs = .ok p)
    (hp : (somes p).Perm (List.range raw.shape.length)) :
    ∃ r, copyCompatPy dims raw outs = .ok r ∧ Expanded raw p r := by
  obtain ⟨r1, hr1⟩ : ∃ r1, permute raw (somes p) = .ok r1 := ⟨_, permute_ok raw hp⟩
  unfold copyCompatPy
  rw [hpy]
  simp only
  by_cases hid : p = (List.range dims.length).map some
  · rw [if_pos hid]
    have hr1' := hr1
    have hq : somes p = List.range raw.shape.length := by rw [hid, hd, somes_map_some]
    rw [hq] at hr1'
    obtain ⟨s1, s2⟩ := permute_sorted raw r1 hr1'
    have h2 := permute_expanded raw p hp (by rw [hid, ← hd]; simp) r1 hr1
    refine ⟨raw, rfl, by rw [← h2.shape, s1], ?_⟩
    intro idx hidx
    rw [← h2.value idx (by rw [s1]; exact hidx), s2 idx hidx.length_eq]
  · rw [if_neg hid, hr1]
    simp only
    obtain ⟨r, h1, h2⟩ := reshape_expanded raw p hp r1 hr1
    have : extShape p r1.shape = p.map (optSize raw.shape) := by
      have h := hr1
      rw [permute_ok raw hp] at h
      rw [← Except.ok.inj h]
      exact extShape_map p raw.shape
    rw [this] at h1
    rw [h1]
    exact ⟨r, rfl, h2⟩

end Verif.BinOp
