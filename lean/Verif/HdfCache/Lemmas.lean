import Verif.HdfCache.Spec
import Mathlib.Tactic.Common
/-
Lemmas on the intervals.
-/
namespace Verif.HdfCache
open Verif.Py

variable {F T : Type}

theorem seqStart_mono (ls : List Nat) {i j : Nat} (h : i ≤ j) : seqStart ls i ≤ seqStart ls j := by
  unfold seqStart
  obtain ⟨k, rfl⟩ := Nat.exists_eq_add_of_le h
  rw [List.take_add, List.sum_append]
  omega

theorem seqStart_succ (ls : List Nat) (i : Nat) : seqStart ls (i + 1) = seqStart ls i + ls.getD i 0 := by
  unfold seqStart
  rw [List.take_add_one, List.sum_append]
  cases h : ls[i]? <;> simp [List.getD, h]

theorem seqStart_lt (ls : List Nat) {i q : Nat} (h : i < q) : seqStart ls i + ls.getD i 0 ≤ seqStart ls q := by
  rw [← seqStart_succ]
  exact seqStart_mono ls h

theorem held_cons (ls : List Nat) (v : Iv F) (r : List (Iv F)) (i : Nat) :
    held ls (v :: r) i = if v.s ≤ i ∧ i < v.e then some ((v.d.drop (seqStart ls i - seqStart ls v.s)).take (ls.getD i 0))
      else held ls r i := rfl

theorem held_append (ls : List Nat) (a b : List (Iv F)) (i : Nat) :
    held ls (a ++ b) i = (held ls a i).or (held ls b i) := by
  induction a with
  | nil => simp [held]
  | cons v r ih =>
    rw [List.cons_append, held_cons, held_cons]
    split
    · simp
    · exact ih

theorem held_empty (ls : List Nat) (k : Nat) (d : List F) (i : Nat) : held ls [⟨k, k, d⟩] i = none := by
  rw [held_cons, if_neg (by simp)]
  rfl

theorem Sorted.le {ls : List Nat} {mid : List (Iv F)} : ∀ {lo hi : Nat}, Sorted ls lo hi mid → lo ≤ hi := by
  induction mid with
  | nil => exact fun h => h
  | cons v r ih =>
    intro lo hi h
    have := ih h.2.2.2
    have := h.1
    have := h.2.1
    omega

theorem Sorted.held_range {ls : List Nat} {mid : List (Iv F)} {i : Nat} : ∀ {lo hi : Nat}, Sorted ls lo hi mid →
    held ls mid i ≠ none → lo ≤ i ∧ i < hi := by
  induction mid with
  | nil => intro lo hi _ h; simp [held] at h
  | cons v r ih =>
    intro lo hi h hh
    rw [held_cons] at hh
    split at hh
    · rename_i hc
      have := h.1
      have := h.2.2.2.le
      omega
    · have := ih h.2.2.2 hh
      have := h.1
      have := h.2.1
      omega

theorem Sorted.mono {ls : List Nat} {mid : List (Iv F)} {lo lo' hi : Nat} (h : Sorted ls lo hi mid) (hl : lo' ≤ lo) :
    Sorted ls lo' hi mid := by
  cases mid with
  | nil => exact Nat.le_trans hl h
  | cons v r => exact ⟨Nat.le_trans hl h.1, h.2⟩

/-- The interval put into a gap. -/
def gapIv (ls : List Nat) (z : F) (a b : Nat) : List (Iv F) :=
  if a = b then [] else [⟨a, b, List.replicate (seqStart ls b - seqStart ls a) z⟩]

theorem held_gapIv (ls : List Nat) (z : F) (a b i : Nat) :
    held ls (gapIv ls z a b) i = if a ≤ i ∧ i < b then some (List.replicate (ls.getD i 0) z) else none := by
  unfold gapIv
  split
  · rw [if_neg (by omega)]; rfl
  · rw [held_cons]
    split
    · rename_i h
      simp only at h
      have := seqStart_lt ls h.2
      have := seqStart_mono ls h.1
      simp only [List.drop_replicate, List.take_replicate, Option.some.injEq]
      congr 1
      omega
    · rfl

theorem Sorted.gap {ls : List Nat} {z : F} {mid : List (Iv F)} {lo hi a b : Nat} (ha : lo ≤ a) (hab : a ≤ b)
    (h : Sorted ls b hi mid) : Sorted ls lo hi (gapIv ls z a b ++ mid) := by
  unfold gapIv
  split
  · exact h.mono (by omega)
  · exact ⟨ha, by simp only; omega, by simp [seqStart], h⟩

/-- Insertion on the list after the current interval. -/
def insRec (ls : List Nat) (z : F) (start stop : Nat) : List (Iv F) → List (Iv F) × List Nat
  | a :: b :: r =>
    if a.e < stop ∧ stop ≤ b.s then
      (a :: (gapIv ls z (if a.e ≤ start ∧ start < b.s then start else a.e) stop ++ b :: r),
        List.range' (if a.e ≤ start ∧ start < b.s then start else a.e) (stop - (if a.e ≤ start ∧ start < b.s then start else a.e)))
    else if a.e ≤ start ∧ start < b.s then
      (a :: (gapIv ls z start b.s ++ (insRec ls z start stop (b :: r)).1),
        List.range' start (b.s - start) ++ (insRec ls z start stop (b :: r)).2)
    else if (a.e < start ∧ b.s ≤ start) ∨ (stop ≤ a.e ∧ stop < b.s) then
      (a :: (insRec ls z start stop (b :: r)).1, (insRec ls z start stop (b :: r)).2)
    else
      (a :: (gapIv ls z a.e b.s ++ (insRec ls z start stop (b :: r)).1),
        List.range' a.e (b.s - a.e) ++ (insRec ls z start stop (b :: r)).2)
  | l => (l, [])

/-- Each interval ends before the next starts. -/
def Adj : List (Iv F) → Prop
  | a :: b :: r => a.e ≤ b.s ∧ Adj (b :: r)
  | _ => True

theorem insertIv_app (ls : List Nat) (z : F) (pre : List (Iv F)) (a : Iv F) (l : List (Iv F)) (p q : Nat) :
    insertIv ls z (pre ++ a :: l) pre.length p q = (pre ++ a :: (gapIv ls z p q ++ l), (gapIv ls z p q).length + 1) := by
  unfold insertIv gapIv
  split
  · simp
  · simp [List.take_append, List.drop_append, List.take_of_length_le]

theorem modLoop_ins (ls : List Nat) (z : F) (start stop : Nat) (l : List (Iv F)) : ∀ (pre : List (Iv F)) (sel : List Nat) (fuel : Nat),
    Adj l → l.length ≤ fuel →
    modLoop ls z true start stop fuel pre.length (pre ++ l) sel =
      .ok (pre ++ (insRec ls z start stop l).1, sel ++ (insRec ls z start stop l).2) := by
  induction l with
  | nil =>
    intro pre sel fuel _ _
    have h : ¬(pre.length + true.toNat < (pre ++ []).length) := by simp
    cases fuel with
    | zero => simp [modLoop, insRec]
    | succ fuel => rw [modLoop, if_neg h]; simp [insRec]
  | cons a l ih =>
    intro pre sel fuel hadj hf
    cases fuel with
    | zero => simp at hf
    | succ fuel =>
      cases l with
      | nil =>
        have h : ¬(pre.length + true.toNat < (pre ++ [a]).length) := by simp
        rw [modLoop, if_neg h]
        simp [insRec]
      | cons b r =>
        have hb : bounds true (pre ++ a :: b :: r) pre.length = .ok (a.e, b.s) := by
          simp [bounds, List.getElem?_append_right]
        have hA : decide (a.e ≤ b.s) = true := by simpa using hadj.1
        have hlt : pre.length + true.toNat < (pre ++ a :: b :: r).length := by simp
        have hl : (b :: r).length ≤ fuel := by simp at hf ⊢; omega
        have key : ∀ (g : List (Iv F)) (sel' : List Nat),
            modLoop ls z true start stop fuel (pre.length + (g.length + 1)) (pre ++ a :: (g ++ b :: r)) sel' =
              .ok (pre ++ a :: (g ++ (insRec ls z start stop (b :: r)).1), sel' ++ (insRec ls z start stop (b :: r)).2) := by
          intro g sel'
          have := ih (pre ++ a :: g) sel' fuel hadj.2 hl
          simpa [Nat.add_assoc, Nat.add_comm] using this
        rw [modLoop, if_pos hlt, hb]
        simp only [bind, Except.bind, hA, pyAssert, if_true, modify, insertIv_app]
        rw [insRec]
        split
        · rfl
        · split
          · rw [key]; simp
          · split
            · have := key [] sel
              simpa using this
            · rw [key]; simp

theorem mem_range'_1' {a n i : Nat} : i ∈ List.range' a n ↔ a ≤ i ∧ i < a + n := by
  rw [List.mem_range'_1]

theorem pairwise_append_lt {a b : List Nat} (ha : a.Pairwise (· < ·)) (hb : b.Pairwise (· < ·)) {m : Nat}
    (h1 : ∀ x ∈ a, x < m) (h2 : ∀ x ∈ b, m ≤ x) : (a ++ b).Pairwise (· < ·) := by
  rw [List.pairwise_append]
  exact ⟨ha, hb, fun x hx y hy => Nat.lt_of_lt_of_le (h1 x hx) (h2 y hy)⟩

/-- What insertion has to give. -/
structure InsOk (ls : List Nat) (z : F) (start stop lo : Nat) (mid mid' : List (Iv F)) (sel : List Nat) : Prop where
  sorted : Sorted ls lo ls.length mid'
  heldEq : ∀ i, held ls mid' i = (held ls mid i).or
    (if lo ≤ i ∧ start ≤ i ∧ i < stop then some (List.replicate (ls.getD i 0) z) else none)
  inc : sel.Pairwise (· < ·)
  mem : ∀ i, i ∈ sel ↔ held ls mid i = none ∧ lo ≤ i ∧ start ≤ i ∧ i < stop

theorem insRec_spec (ls : List Nat) (z : F) (start stop : Nat) (hs : start < stop) (hstop : stop ≤ ls.length) (z2 : List F)
    (mid : List (Iv F)) : ∀ (a : Iv F), Sorted ls a.e ls.length mid →
    ∃ mid' sel, insRec ls z start stop (a :: mid ++ [⟨ls.length, ls.length, z2⟩]) =
      (a :: mid' ++ [⟨ls.length, ls.length, z2⟩], sel) ∧ InsOk ls z start stop a.e mid mid' sel := by
  induction mid with
  | nil =>
    intro a hsort
    have hle : a.e ≤ ls.length := hsort
    simp only [List.cons_append, List.nil_append, insRec]
    have hrange : ∀ (p q : Nat), (List.range' p q).Pairwise (· < ·) := fun p q => List.pairwise_lt_range'
    by_cases h1 : a.e < stop ∧ stop ≤ ls.length
    · rw [if_pos h1]
      have hp : (if a.e ≤ start ∧ start < ls.length then start else a.e) = max start a.e := by split <;> omega
      rw [hp]
      refine ⟨gapIv ls z (max start a.e) stop, _, rfl, ?_, ?_, hrange _ _, ?_⟩
      · have := Sorted.gap (ls := ls) (z := z) (mid := []) (lo := a.e) (hi := ls.length)
          (a := max start a.e) (b := stop) (by omega) (by omega) hstop
        simpa using this
      · intro i
        rw [held_gapIv]
        simp only [held, Option.none_or]
        split <;> split <;> first | rfl | (exfalso; omega)
      · intro i
        rw [mem_range'_1']
        simp only [held, true_and]
        omega
    · rw [if_neg h1]
      have hlen : stop ≤ a.e := by omega
      rw [if_neg (by omega)]
      have hnone : ∀ i, ¬(a.e ≤ i ∧ start ≤ i ∧ i < stop) := by intro i; omega
      split
      · refine ⟨[], [], rfl, hsort, ?_, List.Pairwise.nil, ?_⟩
        · intro i; rw [if_neg (hnone i)]; rfl
        · intro i; simp [hnone i]
      · have he : a.e = ls.length := by omega
        refine ⟨[], [], ?_, hsort, ?_, List.Pairwise.nil, ?_⟩
        · simp [gapIv, he]
        · intro i; rw [if_neg (hnone i)]; rfl
        · intro i; simp [hnone i]
  | cons b r ih =>
    intro a hsort
    have hab := hsort.1
    have hbe := hsort.2.1
    have hle := hsort.2.2.2.le
    have hrange : ∀ (p q : Nat), (List.range' p q).Pairwise (· < ·) := fun p q => List.pairwise_lt_range'
    have hr := fun i => hsort.2.2.2.held_range (i := i)
    have hhi : ∀ i, i < b.s → held ls r i = none := by
      intro i hi
      by_contra hc
      have := hr i hc
      omega
    have hb0 : ∀ i, i < b.s → held ls (b :: r) i = none := by
      intro i hi
      rw [held_cons, if_neg (by omega), hhi i hi]
    obtain ⟨mid', sel, he, hI⟩ := ih b hsort.2.2.2
    simp only [List.cons_append] at he ⊢
    rw [insRec, he]
    by_cases h1 : a.e < stop ∧ stop ≤ b.s
    · rw [if_pos h1]
      have hp : (if a.e ≤ start ∧ start < b.s then start else a.e) = max start a.e := by split <;> omega
      rw [hp]
      refine ⟨gapIv ls z (max start a.e) stop ++ b :: r, _, by rw [List.append_assoc]; rfl, ?_, ?_, hrange _ _, ?_⟩
      · exact Sorted.gap (by omega) (by omega) ⟨h1.2, hsort.2⟩
      · intro i
        rw [held_append, held_gapIv]
        by_cases hi : i < b.s
        · rw [hb0 i hi]
          simp only [Option.none_or, Option.or_none]
          split <;> split <;> first | rfl | (exfalso; omega)
        · rw [if_neg (by omega), if_neg (by omega)]
          simp
      · intro i
        rw [mem_range'_1']
        constructor
        · intro h
          exact ⟨hb0 i (by omega), by omega⟩
        · intro h
          omega
    · rw [if_neg h1]
      have step : ∀ (p : Nat), a.e ≤ p → p ≤ b.s → (∀ i, i < b.s → (p ≤ i ↔ a.e ≤ i ∧ start ≤ i ∧ i < stop)) →
          ∃ mid'' sel'', (a :: (gapIv ls z p b.s ++ (b :: (mid' ++ [⟨ls.length, ls.length, z2⟩]))), List.range' p (b.s - p) ++ sel) =
            (a :: (mid'' ++ [⟨ls.length, ls.length, z2⟩]), sel'') ∧ InsOk ls z start stop a.e (b :: r) mid'' sel'' := by
        intro p hp1 hp2 hp
        refine ⟨gapIv ls z p b.s ++ b :: mid', _, by rw [List.append_assoc]; rfl, ?_, ?_, ?_, ?_⟩
        · exact Sorted.gap hp1 hp2 ⟨Nat.le_refl _, hbe, hsort.2.2.1, hI.sorted⟩
        · intro i
          rw [held_append, held_gapIv, held_cons, held_cons]
          by_cases hi : i < b.s
          · rw [if_neg (by omega : ¬(b.s ≤ i ∧ i < b.e)), if_neg (by omega : ¬(b.s ≤ i ∧ i < b.e)), hhi i hi]
            have h0 : held ls mid' i = none := by
              by_contra hc
              have := hI.sorted.held_range hc
              omega
            rw [h0]
            have := hp i hi
            simp only [Option.or_none, Option.none_or]
            split <;> split <;> first | rfl | (exfalso; omega)
          · rw [if_neg (by omega : ¬(p ≤ i ∧ i < b.s))]
            simp only [Option.none_or]
            split
            · simp
            · rename_i hn
              rw [hI.heldEq i]
              congr 1
              split <;> split <;> first | rfl | (exfalso; omega)
        · refine pairwise_append_lt (m := b.e) (hrange _ _) hI.inc ?_ ?_
          · intro x hx
            rw [mem_range'_1'] at hx
            omega
          · intro x hx
            exact ((hI.mem x).1 hx).2.1
        · intro i
          rw [List.mem_append, mem_range'_1', hI.mem i, held_cons]
          by_cases hi : i < b.s
          · have := hp i hi
            rw [if_neg (by omega : ¬(b.s ≤ i ∧ i < b.e)), hhi i hi]
            simp only [true_and]
            omega
          · by_cases hi2 : i < b.e
            · rw [if_pos (by omega)]
              simp only [reduceCtorEq, false_and, iff_false, not_or, not_and]
              constructor
              · omega
              · intro _; omega
            · rw [if_neg (by omega)]
              have : ¬(p ≤ i ∧ i < p + (b.s - p)) := by omega
              simp only [this, false_or]
              constructor
              · rintro ⟨x1, x2⟩; exact ⟨x1, by omega⟩
              · rintro ⟨x1, x2⟩; exact ⟨x1, by omega⟩
      split
      · obtain ⟨m, s, e1, e2⟩ := step start (by omega) (by omega) (by intro i hi; omega)
        exact ⟨m, s, e1, e2⟩
      · split
        · obtain ⟨m, s, e1, e2⟩ := step b.s hab (Nat.le_refl _) (by intro i hi; omega)
          simp only [gapIv, if_true, List.nil_append, Nat.sub_self, List.range'_zero] at e1
          exact ⟨m, s, e1, e2⟩
        · obtain ⟨m, s, e1, e2⟩ := step a.e (Nat.le_refl _) hab (by intro i hi; omega)
          exact ⟨m, s, e1, e2⟩

end Verif.HdfCache
