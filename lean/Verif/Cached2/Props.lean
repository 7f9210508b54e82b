import Verif.Cached2.Spec
import Mathlib.Data.List.Basic
import Mathlib.Data.List.Range
import Mathlib.Algebra.BigOperators.Group.List.Basic
/-
Theorems about `CachedDataset2` (C25).
-/
namespace Verif.Cached2
open Verif.Py

/-- The cache entries of the sequences `c, ..., c + n - 1` (as far as they exist). -/
def seg {α : Type} (ds : List α) (c n : Nat) : List (Nat × α) := (List.range' c n).filterMap (fun i => (ds[i]?).map (fun x => (i, x)))

theorem seg_add {α : Type} (ds : List α) (c n m : Nat) : seg ds c (n + m) = seg ds c n ++ seg ds (c + n) m := by
  unfold seg
  rw [← List.filterMap_append, List.range'_append_1]

theorem seg_nil {α : Type} (ds : List α) (c n : Nat) (h : ds.length ≤ c) : seg ds c n = [] := by
  unfold seg
  rw [List.filterMap_eq_nil_iff]
  intro i hi
  rw [List.mem_range'_1] at hi
  simp [List.getElem?_eq_none (show ds.length ≤ i by omega)]

theorem seg_cap {α : Type} (ds : List α) (c n : Nat) (h : ds.length ≤ c + n) : seg ds c n = seg ds c (ds.length - c) := by
  rcases Nat.le_or_ge ds.length c with hc | hc
  · rw [seg_nil ds c n hc, seg_nil ds c _ hc]
  · rw [show n = (ds.length - c) + (n - (ds.length - c)) by omega, seg_add, seg_nil ds (c + (ds.length - c)) _ (by omega)]
    simp

theorem seg_succ {α : Type} (ds : List α) (c n : Nat) (h : c < ds.length) : seg ds c (n + 1) = (c, ds[c]) :: seg ds (c + 1) n := by
  simp [seg, List.range'_succ, List.getElem?_eq_getElem h]

theorem seg_mem {α : Type} (ds : List α) (c n : Nat) (d : Nat × α) (h : d ∈ seg ds c n) : c ≤ d.1 ∧ d.1 < c + n ∧ ds[d.1]? = some d.2 := by
  unfold seg at h
  obtain ⟨i, hi, he⟩ := List.mem_filterMap.mp h
  rw [List.mem_range'_1] at hi
  rcases hx : ds[i]? with _ | x
  · rw [hx] at he; simp at he
  · rw [hx] at he
    simp only [Option.map_some, Option.some.injEq] at he
    subst he
    exact ⟨hi.1, hi.2, hx⟩

theorem seg_find {α : Type} (ds : List α) (c n i : Nat) :
    ((seg ds c n).find? (fun d => decide (d.1 = i))).map Prod.snd = if c ≤ i ∧ i < c + n then ds[i]? else none := by
  induction n generalizing c with
  | zero =>
    have : ¬ (c ≤ i ∧ i < c + 0) := by omega
    rw [if_neg this]; rfl
  | succ n ih =>
    by_cases h : c < ds.length
    · rw [seg_succ ds c n h, List.find?_cons]
      by_cases hi : c = i
      · subst hi; simp [List.getElem?_eq_getElem h]
      · simp only [hi, decide_false, ih (c + 1)]
        by_cases hc : c + 1 ≤ i ∧ i < c + 1 + n
        · rw [if_pos hc, if_pos (by omega)]
        · rw [if_neg hc, if_neg (by omega)]
    · rw [seg_nil ds c _ (by omega)]
      simp only [List.find?_nil, Option.map_none]
      split
      · rw [List.getElem?_eq_none (by omega)]
      · rfl

theorem seg_cleanup {α : Type} (ds : List α) (c n a : Nat) (h : c ≤ a) : cleanup (seg ds c n) a = seg ds a (c + n - a) := by
  unfold cleanup
  induction n generalizing c with
  | zero => rw [show c + 0 - a = 0 by omega]; simp [seg]
  | succ n ih =>
    by_cases hc : c < ds.length
    · rw [seg_succ ds c n hc, List.dropWhile_cons]
      by_cases hca : c = a
      · subst hca
        simp only [ge_iff_le, le_refl, not_true_eq_false, decide_false, Bool.false_eq_true, if_false]
        rw [show c + (n + 1) - c = n + 1 by omega, seg_succ ds c n hc]
      · simp only [show ¬ c ≥ a by omega, not_false_eq_true, decide_true, if_true]
        rw [ih (c + 1) (by omega), show c + 1 + n - a = c + (n + 1) - a by omega]
    · rw [seg_nil ds c _ (by omega), seg_nil ds a _ (by omega)]
      rfl

theorem seg_getLast {α : Type} (ds : List α) (c n : Nat) :
    ((seg ds c n).getLast?).map Prod.fst = if c < min (c + n) ds.length then some (min (c + n) ds.length - 1) else none := by
  induction n with
  | zero => rw [if_neg (by omega)]; rfl
  | succ n ih =>
    rw [seg_add]
    by_cases h : c + n < ds.length
    · rw [seg_succ ds (c + n) 0 h]
      simp only [seg, List.range'_zero, List.filterMap_nil, List.getLast?_append, List.getLast?_singleton, Option.some_or,
        Option.map_some]
      rw [if_pos (by omega)]
      congr 1; omega
    · rw [seg_nil ds (c + n) _ (by omega), List.append_nil, ih]
      rw [show min (c + n) ds.length = min (c + (n + 1)) ds.length by omega]

theorem cleanup_same {α : Type} (ds : List α) (c n : Nat) : cleanup (seg ds c n) c = seg ds c n := by
  rw [seg_cleanup ds c n c (Nat.le_refl _)]
  congr 1; omega

/-- What the state has to do with the window. -/
structure R {α : Type} (ds : List α) (frames : α → Nat) (w : Spec.Win) (s : State α) : Prop where
  expected : s.expected = w.lo
  epoch : s.epoch ≠ none
  added : s.added = seg ds w.lo (w.hi - w.lo)
  final : s.reachedFinal = w.ended
  numSeqs : s.numSeqs = if w.ended || w.known then some ds.length else none
  inc : (s.collected.filter (fun i => decide (i < ds.length))).Pairwise (· < ·)
  bound : ∀ i ∈ s.collected, i < ds.length → i < w.hi
  have_ : ∀ i, w.lo ≤ i → i < w.hi → i ∈ s.collected ∨ ds.length ≤ i
  steps : s.timesteps = ((s.collected.filterMap (fun i => ds[i]?)).map frames).sum
  ended : w.ended = true → ds.length ≤ w.hi

/-- All sequences up to the end of the window were collected. -/
def Full {α : Type} (ds : List α) (w : Spec.Win) (s : State α) : Prop :=
  w.lo ≤ w.hi ∧ s.collected.filter (fun i => decide (i < ds.length)) = List.range (min w.hi ds.length)

/-- The effect of `_load_seqs`. -/
theorem loadBody_spec {α : Type} (ds : List α) (frames : α → Nat) (w : Spec.Win) (s : State α) (h : R ds frames w s) (a b : Nat)
    (hlo : w.lo ≤ a) (hab : a ≤ b) :
    R ds frames (w.move a b) (loadBody ds frames s a b) ∧ (Full ds w s → a ≤ w.hi → Full ds (w.move a b) (loadBody ds frames s a b)) := by
  have hadd : (if a > s.expected then cleanup s.added a else s.added) = seg ds a (w.hi - a) := by
    rw [h.expected, h.added]
    by_cases hgt : a > w.lo
    · rw [if_pos hgt, seg_cleanup ds _ _ _ hlo]
      rcases Nat.le_or_ge w.lo w.hi with hw | hw
      · congr 1; omega
      · rw [show w.lo + (w.hi - w.lo) - a = 0 by omega, show w.hi - a = 0 by omega]
    · have : a = w.lo := by omega
      subst this
      simp
  have hlast := seg_getLast ds a (w.hi - a)
  -- where collecting starts
  let st := if a < min w.hi ds.length then min w.hi ds.length else a
  have hst : startFrom (seg ds a (w.hi - a)) a = st := by
    simp only [st, startFrom]
    by_cases hc : a < min w.hi ds.length
    · rw [if_pos hc]
      rw [if_pos (by omega)] at hlast
      obtain ⟨d, hd, he⟩ := Option.map_eq_some_iff.mp hlast
      rw [hd]
      simp only [he]
      omega
    · rw [if_neg hc]
      rw [if_neg (by omega)] at hlast
      rw [Option.map_eq_none_iff] at hlast
      rw [hlast]
  have hbody : loadBody ds frames s a b =
      { s with expected := a, added := seg ds a (w.hi - a) ++ seg ds st (b - st),
               timesteps := s.timesteps + ((seg ds st (b - st)).map (fun d => frames d.2)).sum,
               collected := s.collected ++ List.range' st (b - st) } := by
    unfold loadBody
    simp only [hadd]
    rw [hst]
    have : (if a > s.expected then a else s.expected) = a := by rw [h.expected]; split <;> omega
    rw [this]
    rfl
  have hcat : seg ds a (w.hi - a) ++ seg ds st (b - st) = seg ds a (max w.hi b - a) := by
    simp only [st]
    by_cases hc : a < min w.hi ds.length
    · rw [if_pos hc]
      rcases Nat.le_or_ge w.hi ds.length with hN | hN
      · rw [Nat.min_eq_left hN]
        rcases Nat.le_or_ge w.hi b with hb | hb
        · rw [show max w.hi b - a = (w.hi - a) + (b - w.hi) by omega, seg_add, show a + (w.hi - a) = w.hi by omega]
        · rw [show b - w.hi = 0 by omega, show max w.hi b = w.hi by omega]
          simp [seg]
      · rw [Nat.min_eq_right hN, seg_nil ds ds.length _ (Nat.le_refl _), List.append_nil,
          seg_cap ds a (w.hi - a) (by omega), seg_cap ds a (max w.hi b - a) (by omega)]
    · rw [if_neg hc]
      rcases Nat.le_or_ge ds.length a with hN | hN
      · rw [seg_nil ds a _ hN, seg_nil ds a _ hN, seg_nil ds a _ hN]; rfl
      · rcases Nat.lt_or_ge a ds.length with hN2 | hN2
        · rw [show w.hi - a = 0 by omega, show max w.hi b = b by omega]
          simp [seg]
        · rw [seg_nil ds a _ hN2, seg_nil ds a _ hN2, seg_nil ds a _ hN2]; rfl
  have hnew : ∀ i ∈ s.collected, i < ds.length → i < st := by
    intro i hi hlt
    have := h.bound i hi hlt
    simp only [st]
    split <;> omega
  have hframes : ((seg ds st (b - st)).map (fun d => frames d.2)).sum =
      (((List.range' st (b - st)).filterMap (fun i => ds[i]?)).map frames).sum := by
    congr 1
    unfold seg
    rw [List.map_filterMap, List.map_filterMap]
    congr 1
    funext i
    cases ds[i]? <;> rfl
  rw [hbody]
  constructor
  · refine ⟨rfl, h.epoch, hcat, h.final, h.numSeqs, ?_, ?_, ?_, ?_, ?_⟩
    · simp only [List.filter_append]
      rw [List.pairwise_append]
      refine ⟨h.inc, List.Pairwise.filter _ List.pairwise_lt_range', ?_⟩
      intro x hx y hy
      rw [List.mem_filter] at hx hy
      have h1 := hnew x hx.1 (by simpa using hx.2)
      rw [List.mem_range'_1] at hy
      omega
    · intro i hi hlt
      simp only [Spec.Win.move]
      rcases List.mem_append.mp hi with hi | hi
      · have := h.bound i hi hlt; omega
      · rw [List.mem_range'_1] at hi; omega
    · intro i hi1 hi2
      simp only [Spec.Win.move] at hi1 hi2
      by_cases hN : ds.length ≤ i
      · exact Or.inr hN
      · left
        rw [List.mem_append]
        by_cases hw : i < w.hi
        · rcases h.have_ i (by omega) hw with h' | h'
          · exact Or.inl h'
          · exact absurd h' hN
        · right
          rw [List.mem_range'_1]
          simp only [st]
          split <;> omega
    · simp only [List.filterMap_append, List.map_append, List.sum_append, h.steps, hframes]
    · intro he
      have := h.ended he
      simp only [Spec.Win.move]; omega
  · rintro ⟨hf1, hf2⟩ hle
    refine ⟨by simp only [Spec.Win.move]; omega, ?_⟩
    simp only [Spec.Win.move, List.filter_append, hf2]
    have hfil : (List.range' st (b - st)).filter (fun i => decide (i < ds.length)) = List.range' st (min b ds.length - st) := by
      rcases Nat.le_or_ge b ds.length with hb | hb
      · rw [List.filter_eq_self.mpr, Nat.min_eq_left hb]
        intro i hi
        rw [List.mem_range'_1] at hi
        simp; omega
      · rw [Nat.min_eq_right hb]
        rcases Nat.le_or_ge st ds.length with hs | hs
        · rw [show b - st = (ds.length - st) + (b - ds.length) by omega, ← List.range'_append_1, List.filter_append,
            List.filter_eq_self.mpr, List.filter_eq_nil_iff.mpr, List.append_nil]
          · intro i hi
            rw [List.mem_range'_1] at hi
            simp; omega
          · intro i hi
            rw [List.mem_range'_1] at hi
            simp; omega
        · rw [show ds.length - st = 0 by omega, List.filter_eq_nil_iff.mpr]
          · rfl
          · intro i hi
            rw [List.mem_range'_1] at hi
            simp; omega
    rw [hfil]
    have hst2 : min w.hi ds.length = st ∨ (ds.length ≤ st ∧ min w.hi ds.length = ds.length) := by
      simp only [st]; split <;> omega
    rcases hst2 with e | ⟨e1, e2⟩
    · rw [e]
      rcases Nat.le_or_ge st (min b ds.length) with hb | hb
      · rw [List.range_eq_range', List.range_eq_range']
        have := List.range'_append_1 (s := 0) (m := st) (n := min b ds.length - st)
        rw [Nat.zero_add] at this
        rw [this]
        congr 1; omega
      · rw [show min b ds.length - st = 0 by omega]
        simp only [List.range'_zero, List.append_nil]
        congr 1; omega
    · rw [e2, show min b ds.length - st = 0 by omega]
      simp only [List.range'_zero, List.append_nil]
      congr 1; omega

theorem getSeq_spec {α : Type} (ds : List α) (frames : α → Nat) (w : Spec.Win) (s : State α) (h : R ds frames w s) (i : Nat) :
    getSeq s i = if w.lo ≤ i ∧ i < w.hi then ds[i]? else none := by
  unfold getSeq
  rw [h.added, seg_find]
  by_cases hc : w.lo ≤ i ∧ i < w.hi
  · rw [if_pos hc, if_pos (by omega)]
  · rw [if_neg hc, if_neg (by omega)]

theorem filterMap_range {α : Type} (ds : List α) : (List.range ds.length).filterMap (fun i => ds[i]?) = ds := by
  induction ds with
  | nil => rfl
  | cons x xs ih =>
    rw [List.length_cons, List.range_succ_eq_map, List.filterMap_cons]
    simp only [List.getElem?_cons_zero, List.filterMap_map]
    congr 1

/-- One call does what the specification says. -/
theorem step_refines {α : Type} (ds : List α) (frames : α → Nat) (w : Spec.Win) (s : State α) (h : R ds frames w s) (o : Op)
    (hts : o = .timesteps → Full ds w s) :
    let total := (ds.map frames).sum
    (step ds frames s o).1 = (Spec.step ds total w o).1 ∧
    R ds frames (Spec.step ds total w o).2 (step ds frames s o).2 ∧
    (Full ds w s → (∀ a b, o = .load a b → w.lo ≤ a → a ≤ b → a ≤ w.hi) → Full ds (Spec.step ds total w o).2 (step ds frames s o).2) := by
  intro total
  cases o with
  | load a b =>
    simp only [step, Spec.step, loadSeqs, loadSeqs_, mapRes, h.expected]
    by_cases hab : a ≤ b
    · by_cases hlo : w.lo ≤ a
      · simp only [hab, hlo, not_true_eq_false, if_false, ge_iff_le, and_self, if_true]
        obtain ⟨r1, r2⟩ := loadBody_spec ds frames w s h a b hlo hab
        exact ⟨trivial, r1, fun hf hg => r2 hf (hg a b rfl hlo hab)⟩
      · simp only [hab, hlo, not_true_eq_false, not_false_eq_true, if_false, ge_iff_le, false_and, if_true]
        exact ⟨trivial, h, fun hf _ => hf⟩
    · simp only [hab, not_false_eq_true, if_true, and_false, if_false]
      exact ⟨trivial, h, fun hf _ => hf⟩
  | isLess n =>
    simp only [step, Spec.step, mapRes, isLess, h.expected]
    by_cases hn : n < w.lo
    · simp only [hn, if_true]; exact ⟨trivial, h, fun hf _ => hf⟩
    · simp only [hn, if_false]
      rcases hep : s.epoch with _ | ep
      · exact absurd hep h.epoch
      · simp only
        by_cases hk : (w.ended || w.known) = true
        · have hns := h.numSeqs
          rw [if_pos hk] at hns
          have hprop : numSeqsProp s = .ok ds.length := by simp [numSeqsProp, hns]
          rw [hprop]
          simp only [hk, if_true]
          exact ⟨trivial, h, fun hf _ => hf⟩
        · have hns := h.numSeqs
          rw [if_neg hk] at hns
          have hprop : numSeqsProp s = .error .notImplemented := by simp [numSeqsProp, hns, hep]
          rw [hprop]
          have hke : w.ended = false ∧ w.known = false := by simpa using hk
          simp only [hke.1, hke.2, Bool.or_self, Bool.false_eq_true, if_false]
          obtain ⟨r1, r2⟩ := loadBody_spec ds frames w s h w.lo (n + 1) (Nat.le_refl _) (by omega)
          have hl : loadSeqs_ ds frames s w.lo (n + 1) = (.ok (), loadBody ds frames s w.lo (n + 1)) := by
            simp [loadSeqs_, h.expected]
          rw [hl]
          generalize loadBody ds frames s w.lo (n + 1) = s' at r1 r2 ⊢
          simp only
          rw [getSeq_spec ds frames _ s' r1 n]
          have hin : (w.move w.lo (n + 1)).lo ≤ n ∧ n < (w.move w.lo (n + 1)).hi := by simp only [Spec.Win.move]; omega
          rw [if_pos hin]
          by_cases hlt : n < ds.length
          · simp only [List.getElem?_eq_getElem hlt, Option.isSome_some, if_true, hlt]
            exact ⟨trivial, r1, fun hf _ => r2 hf hf.1⟩
          · simp only [List.getElem?_eq_none (show ds.length ≤ n by omega), Option.isSome_none, Bool.false_eq_true, if_false, hlt]
            have hlast := seg_getLast ds (w.move w.lo (n + 1)).lo ((w.move w.lo (n + 1)).hi - (w.move w.lo (n + 1)).lo)
            rw [← r1.added] at hlast
            have hmin : min ((w.move w.lo (n + 1)).lo + ((w.move w.lo (n + 1)).hi - (w.move w.lo (n + 1)).lo)) ds.length = ds.length := by
              simp only [Spec.Win.move]; omega
            rw [hmin] at hlast
            by_cases hlen : w.lo < ds.length
            · rw [if_pos (by simpa [Spec.Win.move] using hlen)] at hlast
              obtain ⟨d, hd, he⟩ := Option.map_eq_some_iff.mp hlast
              rw [hd]
              have hd1 : d.1 + 1 = ds.length := by omega
              simp only [hd1, show n ≥ ds.length by omega, not_true_eq_false, if_false, hlen, if_true]
              refine ⟨trivial, ⟨r1.expected, r1.epoch, r1.added, rfl, by simp, r1.inc, r1.bound, r1.have_, r1.steps, ?_⟩, fun hf _ => r2 hf hf.1⟩
              intro _
              simp only [Spec.Win.move]; omega
            · rw [if_neg (by simpa [Spec.Win.move] using hlen)] at hlast
              rw [Option.map_eq_none_iff] at hlast
              rw [hlast]
              simp only [hlen, if_false]
              exact ⟨trivial, r1, fun hf _ => r2 hf hf.1⟩
  | seqLength i =>
    simp only [step, Spec.step, mapRes, getLoaded, h.expected, Bool.true_and, decide_eq_true_eq]
    by_cases hi : i < w.lo
    · simp only [hi, show ¬ i ≥ w.lo by omega, not_false_eq_true, if_true]
      exact ⟨trivial, h, fun hf _ => hf⟩
    · simp only [hi, show i ≥ w.lo by omega, not_true_eq_false, if_false]
      obtain ⟨r1, r2⟩ := loadBody_spec ds frames w s h w.lo (i + 1) (Nat.le_refl _) (by omega)
      have hl : loadSeqs ds frames s w.lo (i + 1) = (.ok (), loadBody ds frames s w.lo (i + 1)) := by
        simp [loadSeqs, loadSeqs_, h.expected, show w.lo ≤ i + 1 by omega]
      rw [hl]
      generalize loadBody ds frames s w.lo (i + 1) = s' at r1 r2 ⊢
      simp only
      rw [getSeq_spec ds frames _ s' r1 i, if_pos (by simp only [Spec.Win.move]; omega)]
      cases ds[i]? with
      | none => exact ⟨rfl, r1, fun hf _ => r2 hf hf.1⟩
      | some x => exact ⟨rfl, r1, fun hf _ => r2 hf hf.1⟩
  | tag i =>
    simp only [step, Spec.step, mapRes, getLoaded, h.expected, Bool.false_and, Bool.false_eq_true, if_false]
    by_cases hi : i + 1 < w.lo
    · have hl : loadSeqs ds frames s w.lo (i + 1) = (.error .assertion, s) := by
        simp [loadSeqs, show ¬ w.lo ≤ i + 1 by omega]
      rw [hl]
      simp only [hi, if_true]
      exact ⟨trivial, h, fun hf _ => hf⟩
    · simp only [hi, if_false]
      obtain ⟨r1, r2⟩ := loadBody_spec ds frames w s h w.lo (i + 1) (Nat.le_refl _) (by omega)
      have hl : loadSeqs ds frames s w.lo (i + 1) = (.ok (), loadBody ds frames s w.lo (i + 1)) := by
        simp [loadSeqs, loadSeqs_, h.expected, show w.lo ≤ i + 1 by omega]
      rw [hl]
      generalize loadBody ds frames s w.lo (i + 1) = s' at r1 r2 ⊢
      simp only
      rw [getSeq_spec ds frames _ s' r1 i]
      by_cases hi2 : i < w.lo
      · rw [if_neg (by simp only [Spec.Win.move]; omega)]
        simp only [hi2, if_true]
        exact ⟨trivial, r1, fun hf _ => r2 hf hf.1⟩
      · rw [if_pos (by simp only [Spec.Win.move]; omega)]
        simp only [hi2, if_false]
        cases ds[i]? with
        | none => exact ⟨rfl, r1, fun hf _ => r2 hf hf.1⟩
        | some x => exact ⟨rfl, r1, fun hf _ => r2 hf hf.1⟩
  | data i =>
    simp only [step, Spec.step, mapRes, getData, Spec.Win.get]
    rw [getSeq_spec ds frames w s h i]
    refine ⟨?_, h, fun hf _ => hf⟩
    by_cases hc : w.lo ≤ i ∧ i < w.hi
    · simp only [hc, and_self, if_true]
      cases ds[i]? <;> rfl
    · simp only [hc, if_false]
  | timesteps =>
    simp only [step, Spec.step, mapRes, getNumTimesteps, h.final]
    cases he : w.ended with
    | false => exact ⟨rfl, h, fun hf _ => hf⟩
    | true =>
      simp only [if_true]
      refine ⟨?_, h, fun hf _ => hf⟩
      obtain ⟨_, hf⟩ := hts rfl
      have hall : s.collected.filterMap (fun i => ds[i]?) = ds := by
        have h1 : s.collected.filterMap (fun i => ds[i]?) =
            (s.collected.filter (fun i => decide (i < ds.length))).filterMap (fun i => ds[i]?) := by
          rw [List.filterMap_filter]
          refine List.filterMap_congr ?_
          intro i _
          by_cases hi : i < ds.length
          · simp [hi]
          · simp [hi, List.getElem?_eq_none (show ds.length ≤ i by omega)]
        rw [h1, hf, Nat.min_eq_right (h.ended he)]
        exact filterMap_range ds
      rw [h.steps, hall]

theorem run_refines_aux {α : Type} (ds : List α) (frames : α → Nat) (ops : List Op) (w : Spec.Win) (s : State α) (h : R ds frames w s)
    (hts : .timesteps ∈ ops → Full ds w s ∧ Spec.NoGap ds (ds.map frames).sum w ops) :
    (run ds frames s ops).1 = (Spec.run ds (ds.map frames).sum w ops).1 ∧
    R ds frames (Spec.run ds (ds.map frames).sum w ops).2 (run ds frames s ops).2 := by
  induction ops generalizing w s with
  | nil => exact ⟨rfl, h⟩
  | cons o os ih =>
    obtain ⟨h1, h2, h3⟩ := step_refines ds frames w s h o (fun he => (hts (by simp [he])).1)
    have := ih (Spec.step ds (ds.map frames).sum w o).2 (step ds frames s o).2 h2 (by
      intro hmem
      obtain ⟨hf, hg⟩ := hts (List.mem_cons_of_mem _ hmem)
      exact ⟨h3 hf hg.1, hg.2⟩)
    simp only [run, Spec.run]
    exact ⟨by rw [h1, this.1], this.2⟩

theorem init_R {α : Type} (ds : List α) (frames : α → Nat) (s : State α) (ep : Nat) (known : Bool) :
    R ds frames { known := known } (initSeqOrder s (some ep) (if known then some ds.length else none)) := by
  constructor <;> simp [initSeqOrder, seg]

/-- C25. From `init_seq_order` on, any history of calls (load_seqs, is_less_than_num_seqs, get_seq_length, get_tag, get_data,
get_num_timesteps) gives the same results and exceptions as the specification, which has a window over the list of
sequences and no cache. (For `get_num_timesteps` no sequence may be skipped.) -/
theorem run_refines {α : Type} (ds : List α) (frames : α → Nat) (s : State α) (ep : Nat) (known : Bool) (ops : List Op)
    (hts : .timesteps ∈ ops → Spec.NoGap ds (ds.map frames).sum { known := known } ops) :
    (run ds frames (initSeqOrder s (some ep) (if known then some ds.length else none)) ops).1 =
      (Spec.run ds (ds.map frames).sum { known := known } ops).1 := by
  refine (run_refines_aux ds frames ops _ _ (init_R ds frames s ep known) (fun h => ⟨?_, hts h⟩)).1
  exact ⟨Nat.le_refl _, by simp [initSeqOrder]⟩

/-- C25. In any such history the existing sequences are collected in increasing order, so none of them twice; all of the
window were collected; and the cache has exactly the existing sequences of the window. -/
theorem collected_once {α : Type} (ds : List α) (frames : α → Nat) (s : State α) (ep : Nat) (known : Bool) (ops : List Op)
    (hts : .timesteps ∉ ops) :
    let s' := (run ds frames (initSeqOrder s (some ep) (if known then some ds.length else none)) ops).2
    let w := (Spec.run ds (ds.map frames).sum { known := known } ops).2
    (s'.collected.filter (fun i => decide (i < ds.length))).Pairwise (· < ·) ∧
    (∀ i, w.lo ≤ i → i < w.hi → i < ds.length → i ∈ s'.collected) ∧
    (∀ i x, (i, x) ∈ s'.added ↔ w.lo ≤ i ∧ i < w.hi ∧ ds[i]? = some x) := by
  have h := (run_refines_aux ds frames ops _ _ (init_R ds frames s ep known) (fun h => absurd h hts)).2
  refine ⟨h.inc, ?_, ?_⟩
  · intro i h1 h2 h3
    rcases h.have_ i h1 h2 with h' | h'
    · exact h'
    · omega
  · intro i x
    rw [h.added]
    constructor
    · intro hm
      obtain ⟨a, b, c⟩ := seg_mem ds _ _ _ hm
      exact ⟨a, by simp only at b; omega, c⟩
    · rintro ⟨a, b, c⟩
      unfold seg
      exact List.mem_filterMap.mpr ⟨i, by rw [List.mem_range'_1]; omega, by simp [c]⟩

/-- C25, directly: after any history, `load_seqs(a, b)` which goes forward makes all existing sequences of `[a, b)` available. -/
theorem load_then_data {α : Type} (ds : List α) (frames : α → Nat) (s : State α) (ep : Nat) (known : Bool) (ops : List Op)
    (hts : .timesteps ∉ ops) (a b i : Nat) (x : α)
    (hlo : (Spec.run ds (ds.map frames).sum { known := known } ops).2.lo ≤ a) (hai : a ≤ i) (hib : i < b) (hx : ds[i]? = some x) :
    let s' := (run ds frames (initSeqOrder s (some ep) (if known then some ds.length else none)) ops).2
    (loadSeqs ds frames s' a b).1 = .ok () ∧ getData (loadSeqs ds frames s' a b).2 i = .ok x := by
  intro s'
  have h := (run_refines_aux ds frames ops _ _ (init_R ds frames s ep known) (fun h => absurd h hts)).2
  have hl : loadSeqs ds frames s' a b = (.ok (), loadBody ds frames s' a b) := by
    have he : s'.expected = _ := h.expected
    simp only [loadSeqs, loadSeqs_, he, show a ≤ b by omega, hlo, ge_iff_le, not_true_eq_false, if_false]
  rw [hl]
  refine ⟨rfl, ?_⟩
  obtain ⟨r1, _⟩ := loadBody_spec ds frames _ s' h a b hlo (by omega)
  simp only [getData, getSeq_spec ds frames _ _ r1 i]
  rw [if_pos (by simp only [Spec.Win.move]; omega), hx]

/-- An empty epoch with unknown number of sequences: the question whether there is a first sequence fails. -/
theorem empty_epoch_fails {α : Type} (frames : α → Nat) (s : State α) (ep : Nat) :
    (isLess ([] : List α) frames (initSeqOrder s (some ep) none) 0).1 = .error .assertion := by
  simp [isLess, initSeqOrder, numSeqsProp, loadSeqs_, loadBody, getSeq]

/-- Before the first `init_seq_order` with an epoch there are no sequences. -/
theorem no_epoch {α : Type} (ds : List α) (frames : α → Nat) (s : State α) (n : Nat) :
    isLess ds frames (initSeqOrder s none none) n = (.ok false, initSeqOrder s none none) ∧
    numSeqsProp (initSeqOrder s none none) = .ok 0 := by
  simp [isLess, initSeqOrder, numSeqsProp]

example : (run [10, 20, 30, 40] id (initSeqOrder {} (some 1) none)
    [.load 0 2, .data 1, .isLess 3, .load 1 3, .data 0, .tag 2, .data 3, .isLess 4, .timesteps, .load 0 1]).1 =
    [.ok .unit, .ok (.seq 20), .ok (.bool true), .ok .unit, .error (.other "AttributeError"), .ok (.seq 30), .ok (.seq 40),
     .ok (.bool false), .ok (.nat 100), .error .assertion] := by decide +kernel

end Verif.Cached2
