import Verif.ListUtil.Model
import Mathlib.Data.List.Basic
import Mathlib.Data.List.Chain
import Mathlib.Tactic.Linarith
/-
Theorems about the list helpers (C22 and the search of C21).
-/
namespace Verif.ListUtil
open Verif.Py

/-- Python `list(range(s, e))`. -/
def irange (r : Int × Int) : List Int := (List.range (r.2 - r.1).toNat).map (fun i : Nat => r.1 + (i : Int))

theorem irange_succ (s e : Int) (h : s ≤ e) : irange (s, e + 1) = irange (s, e) ++ [e] := by
  unfold irange
  simp only
  rw [show (e + 1 - s).toNat = (e - s).toNat + 1 by omega, List.range_succ, List.map_append]
  simp only [List.map_cons, List.map_nil]
  congr 2
  omega

theorem irange_single (k : Int) : irange (k, k + 1) = [k] := by
  rw [irange_succ k k (le_refl _)]
  simp [irange]

theorem findRangesLoop_spec (done : List (Int × Int)) (cur : Int × Int) (ks : List Int)
    (hd : ∀ r ∈ done, r.1 < r.2) (hc : cur.1 < cur.2) (hp : (done ++ [cur]).Pairwise (fun a b => a.2 < b.1)) :
    (((cur.2 - 1) :: ks).Pairwise (· < ·) → ∃ rs, findRangesLoop done cur ks = .ok rs ∧ (∀ r ∈ rs, r.1 < r.2) ∧
      rs.Pairwise (fun a b => a.2 < b.1) ∧ rs.flatMap irange = (done ++ [cur]).flatMap irange ++ ks) ∧
    (¬ ((cur.2 - 1) :: ks).Pairwise (· < ·) → findRangesLoop done cur ks = .error .assertion) := by
  induction ks generalizing done cur with
  | nil =>
    refine ⟨fun _ => ⟨done ++ [cur], rfl, ?_, hp, by simp⟩, fun h => absurd (by simp) h⟩
    intro r hr
    rcases List.mem_append.mp hr with h | h
    · exact hd r h
    · rw [List.mem_singleton] at h; subst h; exact hc
  | cons k ks ih =>
    unfold findRangesLoop
    have hsplit : ((cur.2 - 1) :: k :: ks).Pairwise (· < ·) ↔ cur.2 ≤ k ∧ (k :: ks).Pairwise (· < ·) := by
      rw [List.pairwise_cons]
      constructor
      · rintro ⟨h1, h2⟩
        exact ⟨by have := h1 k (by simp); omega, h2⟩
      · rintro ⟨h1, h2⟩
        refine ⟨?_, h2⟩
        intro a ha
        rcases List.mem_cons.mp ha with rfl | ha
        · omega
        · have := (List.pairwise_cons.mp h2).1 a ha; omega
    rw [hsplit]
    by_cases hk : k ≥ cur.2
    · simp only [hk, not_true_eq_false, if_false]
      by_cases he : k = cur.2
      · simp only [he, if_true]
        have hp' : (done ++ [(cur.1, cur.2 + 1)]).Pairwise (fun a b => a.2 < b.1) := by
          rw [List.pairwise_append] at hp ⊢
          refine ⟨hp.1, by simp, ?_⟩
          intro a ha b hb
          rw [List.mem_singleton] at hb; subst hb
          exact hp.2.2 a ha cur (by simp)
        obtain ⟨i1, i2⟩ := ih done (cur.1, cur.2 + 1) hd (by simp; omega) hp'
        simp only [show cur.2 + 1 - 1 = cur.2 by omega] at i1 i2
        subst he
        refine ⟨fun h => ?_, fun h => i2 (fun h' => h ⟨trivial, h'⟩)⟩
        obtain ⟨rs, r1, r2, r3, r4⟩ := i1 h.2
        refine ⟨rs, r1, r2, r3, ?_⟩
        rw [r4]
        obtain ⟨c1, c2⟩ := cur
        simp only at hc ⊢
        simp [irange_succ c1 c2 (by omega)]
      · simp only [he, if_false]
        have hp' : (done ++ [cur] ++ [(k, k + 1)]).Pairwise (fun a b => a.2 < b.1) := by
          rw [List.pairwise_append]
          refine ⟨hp, by simp, ?_⟩
          intro a ha b hb
          rw [List.mem_singleton] at hb; subst hb
          simp only
          rcases List.mem_append.mp ha with h | h
          · have := (List.pairwise_append.mp hp).2.2 a h cur (by simp); omega
          · rw [List.mem_singleton] at h; subst h; omega
        obtain ⟨i1, i2⟩ := ih (done ++ [cur]) (k, k + 1) (by
          intro r hr
          rcases List.mem_append.mp hr with h | h
          · exact hd r h
          · rw [List.mem_singleton] at h; subst h; exact hc) (by simp) hp'
        simp only [show k + 1 - 1 = k by omega] at i1 i2
        refine ⟨fun h => ?_, fun h => i2 (fun h' => h ⟨trivial, h'⟩)⟩
        obtain ⟨rs, r1, r2, r3, r4⟩ := i1 h.2
        refine ⟨rs, r1, r2, r3, ?_⟩
        rw [r4]
        simp [irange_single]
    · simp only [hk, not_false_eq_true, if_true]
      exact ⟨fun h => absurd h.1 (by simp), fun _ => trivial⟩

/-- C22. `find_ranges(ls)` for a strictly increasing list: non-empty ranges, with a gap between any two of them (so they are
the maximal runs), which list exactly `ls`. Any other list fails. -/
theorem findRanges_spec (ls : List Int) :
    (ls.Pairwise (· < ·) → ∃ rs, findRanges ls = .ok rs ∧ rs.flatMap irange = ls ∧ (∀ r ∈ rs, r.1 < r.2) ∧
      rs.Pairwise (fun a b => a.2 < b.1)) ∧
    (¬ ls.Pairwise (· < ·) → findRanges ls = .error .assertion) := by
  cases ls with
  | nil => exact ⟨fun _ => ⟨[], rfl, rfl, by simp, by simp⟩, fun h => absurd (by simp) h⟩
  | cons k ks =>
    have hstep : findRanges (k :: ks) = findRangesLoop [] (k, k + 1) ks := by
      simp [findRanges, findRangesLoop]
    obtain ⟨h1, h2⟩ := findRangesLoop_spec [] (k, k + 1) ks (by simp) (by simp) (by simp)
    simp only [show k + 1 - 1 = k by omega] at h1 h2
    rw [hstep]
    refine ⟨fun h => ?_, h2⟩
    obtain ⟨rs, r1, r2, r3, r4⟩ := h1 h
    exact ⟨rs, r1, by rw [r4]; simp [irange_single], r2, r3⟩

example : findRanges [1, 2, 3, 7, 9, 10] = .ok [(1, 4), (7, 8), (9, 11)] ∧ findRanges [1, 1] = .error .assertion := by decide

/-! ### `uniq` -/

theorem uniq_cons2 (a b : Int) (l : List Int) : uniq (a :: b :: l) = if a = b then a :: (uniq (b :: l)).tail else a :: uniq (b :: l) := by
  simp only [uniq, diffs, List.zip_cons_cons, List.zipWith_cons_cons, List.filter_cons, ne_eq, one_ne_zero, not_false_eq_true,
    decide_true, if_true, List.map_cons, List.tail_cons]
  by_cases h : a = b
  · subst h; simp
  · have : ¬ b - a = 0 := by omega
    simp [h, this]

theorem uniq_cons (a : Int) (l : List Int) : ∃ t, uniq (a :: l) = a :: t := by
  cases l with
  | nil => exact ⟨[], by simp [uniq, diffs]⟩
  | cons b l =>
    rw [uniq_cons2]
    split
    · exact ⟨_, rfl⟩
    · exact ⟨_, rfl⟩

/-- C22. `uniq`: the input is the output with every entry repeated at least once, and the output has no two equal neighbours. -/
theorem uniq_spec (seq : List Int) :
    (∃ counts : List Nat, counts.length = (uniq seq).length ∧ (∀ c ∈ counts, 1 ≤ c) ∧
      seq = ((uniq seq).zip counts).flatMap (fun p => List.replicate p.2 p.1)) ∧
    (uniq seq).IsChain (· ≠ ·) := by
  induction seq with
  | nil => exact ⟨⟨[], by simp [uniq, diffs]⟩, by simp [uniq, diffs]⟩
  | cons a l ih =>
    cases l with
    | nil => exact ⟨⟨[1], by simp [uniq, diffs]⟩, by simp [uniq, diffs]⟩
    | cons b l =>
      obtain ⟨⟨counts, h1, h2, h3⟩, h4⟩ := ih
      obtain ⟨t, ht⟩ := uniq_cons b l
      rw [ht] at h1 h3 h4
      rw [uniq_cons2, ht]
      by_cases hab : a = b
      · subst hab
        simp only [if_true, List.tail_cons]
        cases counts with
        | nil => simp at h1
        | cons c cs =>
          refine ⟨⟨(c + 1) :: cs, by simpa using h1, ?_, ?_⟩, h4⟩
          · intro x hx
            rcases List.mem_cons.mp hx with rfl | hx
            · omega
            · exact h2 x (List.mem_cons_of_mem _ hx)
          · simp only [List.zip_cons_cons, List.flatMap_cons, List.replicate_succ, List.cons_append] at h3 ⊢
            rw [← h3]
      · simp only [hab, if_false]
        refine ⟨⟨1 :: counts, by simpa using h1, ?_, ?_⟩, ?_⟩
        · intro x hx
          rcases List.mem_cons.mp hx with rfl | hx
          · exact le_refl _
          · exact h2 x hx
        · simp only [List.zip_cons_cons, List.flatMap_cons, List.replicate_one, List.singleton_append]
          rw [← h3]
        · exact List.isChain_cons_cons.mpr ⟨hab, h4⟩

example : uniq [1, 1, 2, 2, 2, 1, 3] = [1, 2, 1, 3] := by decide

theorem uniqGenericLoop_spec {α : Type} [DecidableEq α] (out visited xs : List α) (hv : ∀ x, x ∈ visited ↔ x ∈ out) :
    uniqGenericLoop out visited xs = xs.foldl (fun acc x => if x ∈ acc then acc else acc ++ [x]) out := by
  induction xs generalizing out visited with
  | nil => rfl
  | cons x xs ih =>
    unfold uniqGenericLoop
    simp only [List.foldl_cons, hv]
    split
    · exact ih out visited hv
    · refine ih _ _ ?_
      intro y
      simp only [List.mem_cons, List.mem_append, List.not_mem_nil, or_false, hv y]
      exact or_comm

/-- C22. `uniq_generic`: every value once, in the order of the first occurrences. -/
theorem uniqGeneric_spec {α : Type} [DecidableEq α] (seq : List α) :
    (uniqGeneric seq).Nodup ∧ (∀ x, x ∈ uniqGeneric seq ↔ x ∈ seq) ∧
    (uniqGeneric seq).Pairwise (fun x y => seq.idxOf x < seq.idxOf y) := by
  unfold uniqGeneric
  rw [uniqGenericLoop_spec [] [] seq (by simp)]
  -- generalise: the prefix which is already processed
  suffices h : ∀ (pre post : List α), let acc := pre.foldl (fun acc x => if x ∈ acc then acc else acc ++ [x]) []
      pre ++ post = seq → acc.Nodup ∧ (∀ x, x ∈ acc ↔ x ∈ pre) ∧ acc.Pairwise (fun x y => seq.idxOf x < seq.idxOf y) from
    h seq [] (by simp)
  intro pre
  induction pre using List.reverseRecOn with
  | nil => intro post acc _; exact ⟨List.nodup_nil, fun x => Iff.rfl, List.Pairwise.nil⟩
  | append_singleton pre x ih =>
    intro post acc hseq
    obtain ⟨h1, h2, h3⟩ := ih (x :: post) (by rw [← hseq]; simp)
    have hacc : acc = (fun acc x => if x ∈ acc then acc else acc ++ [x]) (pre.foldl (fun acc x => if x ∈ acc then acc else acc ++ [x]) []) x := by
      simp only [acc, List.foldl_append, List.foldl_cons, List.foldl_nil]
    rw [hacc]
    generalize pre.foldl (fun acc x => if x ∈ acc then acc else acc ++ [x]) [] = old at h1 h2 h3
    simp only
    by_cases hx : x ∈ old
    · simp only [hx, if_true]
      refine ⟨h1, ?_, h3⟩
      intro y
      rw [h2 y, List.mem_append, List.mem_singleton]
      constructor
      · exact Or.inl
      · rintro (h | rfl)
        · exact h
        · exact (h2 y).mp hx
    · simp only [hx, if_false]
      have hxp : x ∉ pre := fun h => hx ((h2 x).mpr h)
      refine ⟨?_, ?_, ?_⟩
      · rw [List.nodup_append]
        refine ⟨h1, by simp, ?_⟩
        intro a ha b hb
        rw [List.mem_singleton] at hb; subst hb
        rintro rfl; exact hx ha
      · intro y
        rw [List.mem_append, List.mem_append, h2 y]
      · rw [List.pairwise_append]
        refine ⟨h3, by simp, ?_⟩
        intro a ha b hb
        rw [List.mem_singleton] at hb; subst hb
        have hap := (h2 a).mp ha
        rw [← hseq, List.append_assoc, List.idxOf_append_of_mem hap, List.idxOf_append_of_notMem hxp]
        have := List.idxOf_lt_length_of_mem hap
        omega

/-- The two variants differ, although each documentation refers to the other: `uniq` is like the Unix tool, `uniq_generic` is not. -/
theorem uniqGeneric_not_uniq : uniq [1, 2, 1] = [1, 2, 1] ∧ uniqGeneric [1, 2, 1] = [1, 2] := by decide

/-! ### `slice_pad_zeros` -/

/-- C22. The result has `end - begin` frames, with the frames of `x` where they exist and zeros elsewhere. Only when the whole
slice is before the first frame the function fails, although the documentation promises zeros. -/
theorem slicePadZeros_spec {α : Type} (z : α) (x : List α) (b e : Int) :
    (b ≤ e → (0 ≤ b ∨ 0 ≤ e) → ∃ r, slicePadZeros z x b e = .ok r ∧ (r.length : Int) = e - b ∧
      ∀ i : Nat, i < r.length → r[i]? = some (if 0 ≤ b + i then (x[(b + i).toNat]?).getD z else z)) ∧
    (¬ (b ≤ e ∧ (0 ≤ b ∨ 0 ≤ e)) → ∃ err, slicePadZeros z x b e = .error err) := by
  unfold slicePadZeros
  simp only
  by_cases h1 : b ≥ 0 ∧ b ≥ x.length
  · simp only [h1, and_self, if_true]
    constructor
    · intro hle _
      have : ¬ e - b < 0 := by omega
      simp only [this, if_false]
      refine ⟨_, rfl, by simp; omega, ?_⟩
      intro i hi
      simp only [List.length_replicate] at hi
      rw [List.getElem?_replicate_of_lt hi]
      have h2 : 0 ≤ b + i := by omega
      have h3 : x.length ≤ (b + i).toNat := by omega
      simp [h2, List.getElem?_eq_none h3]
    · intro hne
      have : e - b < 0 := by
        by_contra hc
        exact hne ⟨by omega, Or.inl trivial⟩
      simp only [this, if_true]
      exact ⟨_, rfl⟩
  · rw [if_neg h1]
    by_cases hb : b < 0
    · simp only [hb, if_true]
      constructor
      · intro hle hor
        have he : e ≥ 0 := by omega
        simp only [he, not_true_eq_false, if_false]
        refine ⟨_, rfl, ?_, ?_⟩
        · simp only [List.length_append, List.length_replicate, slice, List.length_drop, List.length_take]
          split <;> omega
        · intro i hi
          rw [List.append_assoc]
          by_cases hi1 : i < (-b).toNat
          · rw [List.getElem?_append_left (by simpa using hi1), List.getElem?_replicate_of_lt hi1]
            simp [show ¬ 0 ≤ b + i by omega]
          · rw [List.getElem?_append_right (by simp; omega)]
            simp only [List.length_replicate, show (0 : Int).toNat = 0 from rfl, slice, List.drop_zero]
            have hpos : 0 ≤ b + i := by omega
            rw [if_pos hpos]
            have hidx : i - (-b).toNat = (b + i).toNat := by omega
            rw [hidx]
            simp only [List.length_append, List.length_replicate, slice, List.length_drop, List.length_take] at hi
            by_cases hi2 : (b + i).toNat < x.length
            · have hlt : (b + i).toNat < (if e > (x.length : Int) then (x.length : Int) else e).toNat := by
                split at hi <;> split <;> omega
              rw [List.getElem?_append_left (by simp only [List.length_take]; omega), List.getElem?_take_of_lt hlt,
                List.getElem?_eq_getElem hi2]
              simp
            · have hx : e > (x.length : Int) := by
                split at hi <;> omega
              simp only [hx, if_true] at hi ⊢
              rw [List.getElem?_append_right (by simp; omega), List.getElem?_replicate_of_lt (by simp; omega)]
              simp [List.getElem?_eq_none (show x.length ≤ (b + i).toNat by omega)]
      · intro hne
        have : ¬ e ≥ 0 := by
          intro hc; exact hne ⟨by omega, Or.inr hc⟩
        simp only [this, not_false_eq_true, if_true]
        exact ⟨_, rfl⟩
    · simp only [hb, if_false]
      constructor
      · intro hle hor
        have he : e ≥ b := hle
        simp only [he, not_true_eq_false, if_false]
        have hbn : b < x.length := by omega
        refine ⟨_, rfl, ?_, ?_⟩
        · simp only [List.length_append, List.length_replicate, slice, List.length_drop, List.length_take]
          split <;> omega
        · intro i hi
          simp only [show (0 : Int).toNat = 0 from rfl, List.replicate_zero, List.nil_append, slice]
          simp only [List.length_append, List.length_replicate, slice, List.length_drop, List.length_take] at hi
          have hpos : 0 ≤ b + i := by omega
          rw [if_pos hpos]
          by_cases hi2 : (b + i).toNat < x.length
          · have hlt : (b + i).toNat < (if e > (x.length : Int) then (x.length : Int) else e).toNat := by
              split at hi <;> split <;> omega
            rw [List.getElem?_append_left (by simp only [List.length_drop, List.length_take]; omega), List.getElem?_drop,
              show b.toNat + i = (b + i).toNat by omega, List.getElem?_take_of_lt hlt, List.getElem?_eq_getElem hi2]
            simp
          · have hx : e > (x.length : Int) := by
              split at hi <;> omega
            simp only [hx, if_true] at hi ⊢
            rw [List.getElem?_append_right (by simp; omega), List.getElem?_replicate_of_lt (by simp; omega)]
            simp [List.getElem?_eq_none (show x.length ≤ (b + i).toNat by omega)]
      · intro hne
        have : ¬ e ≥ b := by
          intro hc; exact hne ⟨hc, Or.inl (by omega)⟩
        simp only [this, not_false_eq_true, if_true]
        exact ⟨_, rfl⟩

/-- The documentation promises zeros here. -/
theorem slicePadZeros_before_start : slicePadZeros 0 [1, 2, 3] (-3) (-1) = .error .assertion := by decide

example : slicePadZeros 0 [1, 2, 3] (-2) 5 = .ok [0, 0, 1, 2, 3, 0, 0] ∧ slicePadZeros 0 [1, 2, 3] 1 2 = .ok [2] ∧
    slicePadZeros 0 [1, 2, 3] 3 5 = .ok [0, 0] ∧ slicePadZeros 0 [1, 2, 3] 5 4 = .error .valueError := by decide

/-! ### `binary_search_any` (C21) -/

theorem binarySearchLoop_spec (cmp : Int → Int) (low0 high0 : Int)
    (hm : ∀ i j, low0 ≤ i → i ≤ j → j < high0 → (0 ≤ cmp i → 0 ≤ cmp j) ∧ (0 < cmp i → 0 < cmp j)) (fuel : Nat) (low high : Int)
    (hf : (high - low).toNat ≤ fuel) (hl : low0 ≤ low) (hlh : low ≤ high) (hh : high ≤ high0)
    (h1 : ∀ i, low0 ≤ i → i < low → cmp i < 0) (h2 : ∀ i, high ≤ i → i < high0 → 0 < cmp i) :
    let r := binarySearchLoop cmp fuel low high
    low0 ≤ r ∧ r ≤ high0 ∧
    ((r < high0 ∧ cmp r = 0) ∨ ((∀ i, low0 ≤ i → i < r → cmp i < 0) ∧ (∀ i, r ≤ i → i < high0 → 0 < cmp i))) := by
  induction fuel generalizing low high with
  | zero =>
    have : low = high := by omega
    subst this
    exact ⟨hl, hh, Or.inr ⟨h1, h2⟩⟩
  | succ fuel ih =>
    unfold binarySearchLoop
    by_cases hlt : low < high
    · have hmid : low ≤ Int.fdiv (low + high) 2 ∧ Int.fdiv (low + high) 2 < high := by
        rw [Int.fdiv_eq_ediv_of_nonneg _ (by omega)]; omega
      simp only [hlt, if_true]
      generalize Int.fdiv (low + high) 2 = mid at hmid ⊢
      by_cases hn : cmp mid < 0
      · simp only [hn, if_true]
        refine ih (mid + 1) high (by omega) (by omega) (by omega) hh ?_ h2
        intro i hi1 hi2
        by_contra hc
        have := (hm i mid hi1 (by omega) (by omega)).1 (by omega)
        omega
      · simp only [hn, if_false]
        by_cases hp : cmp mid > 0
        · simp only [hp, if_true]
          refine ih low mid (by omega) hl (by omega) (by omega) h1 ?_
          intro i hi1 hi2
          exact (hm mid i (by omega) hi1 hi2).2 hp
        · simp only [hp, if_false]
          exact ⟨by omega, by omega, Or.inl ⟨by omega, by omega⟩⟩
    · simp only [hlt, if_false]
      have : low = high := by omega
      subst this
      exact ⟨hl, hh, Or.inr ⟨h1, h2⟩⟩

/-- C21. For a comparison whose sign does not decrease: the result is an index with `cmp = 0` if there is one in the range, and
else the insertion point, before it all are smaller and from it on all are greater. -/
theorem binarySearchAny_spec (cmp : Int → Int) (low high : Int) (hlh : low ≤ high)
    (hm : ∀ i j, low ≤ i → i ≤ j → j < high → (0 ≤ cmp i → 0 ≤ cmp j) ∧ (0 < cmp i → 0 < cmp j)) :
    let r := binarySearchAny cmp low high
    low ≤ r ∧ r ≤ high ∧
    ((∃ i, low ≤ i ∧ i < high ∧ cmp i = 0) → r < high ∧ cmp r = 0) ∧
    ((¬ ∃ i, low ≤ i ∧ i < high ∧ cmp i = 0) →
      (∀ i, low ≤ i → i < r → cmp i < 0) ∧ (∀ i, r ≤ i → i < high → 0 < cmp i)) := by
  intro r
  obtain ⟨h1, h2, h3⟩ := binarySearchLoop_spec cmp low high hm (high - low).toNat low high (le_refl _) (le_refl _) hlh (le_refl _)
    (fun i hi1 hi2 => absurd hi2 (by omega)) (fun i hi1 hi2 => absurd hi2 (by omega))
  refine ⟨h1, h2, ?_, ?_⟩
  · rintro ⟨i, hi1, hi2, hi3⟩
    rcases h3 with h3 | ⟨h3, h4⟩
    · exact h3
    · exfalso
      rcases lt_or_ge i r with h | h
      · have := h3 i hi1 h; omega
      · have := h4 i h hi2; omega
  · intro hno
    rcases h3 with h3 | h3
    · exact absurd ⟨r, h1, h3.1, h3.2⟩ hno
    · exact h3

/-- An empty range gives its lower bound (never `None`). -/
theorem binarySearchAny_empty (cmp : Int → Int) (low high : Int) (h : high ≤ low) : binarySearchAny cmp low high = low := by
  unfold binarySearchAny
  rw [show (high - low).toNat = 0 by omega]
  rfl

example : binarySearchAny (fun i => i * i - 25) 0 100 = 5 ∧ binarySearchAny (fun i => i * i - 26) 0 100 = 6 ∧
    binarySearchAny (fun _ => -1) 0 7 = 7 := by decide +kernel

end Verif.ListUtil
