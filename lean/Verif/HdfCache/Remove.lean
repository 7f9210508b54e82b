import Verif.HdfCache.Lemmas
/-
Lemmas on removing intervals.
-/
namespace Verif.HdfCache
open Verif.Py

variable {F T : Type}

/-- What stays of an interval. -/
def cut (ls : List Nat) (v : Iv F) (p q : Nat) : List (Iv F) :=
  if p = v.s ∧ q = v.e then []
  else if p = v.s then [⟨q, v.e, v.d.drop (seqStart ls q - seqStart ls v.s)⟩]
  else if q = v.e then [⟨v.s, p, v.d.take (seqStart ls p - seqStart ls v.s)⟩]
  else [⟨v.s, p, v.d.take (seqStart ls p - seqStart ls v.s)⟩, ⟨q, v.e, v.d.drop (seqStart ls q - seqStart ls v.s)⟩]

theorem removeIv_app (ls : List Nat) (pre : List (Iv F)) (v : Iv F) (l : List (Iv F)) (p q : Nat) :
    removeIv ls (pre ++ v :: l) pre.length p q = .ok (pre ++ (cut ls v p q ++ l), (cut ls v p q).length) := by
  have h1 : (pre ++ v :: l)[pre.length]? = some v := by simp
  have h2 : (pre ++ v :: l).drop (pre.length + 1) = l := by simp [List.drop_append]
  unfold removeIv cut
  rw [h1]
  simp only [h2, List.take_left']
  repeat' split
  all_goals simp

/-- Removal on the rest of the list. -/
def remRec (ls : List Nat) (start stop : Nat) : List (Iv F) → List (Iv F) × List Nat
  | [] => ([], [])
  | v :: r =>
    if v.s < stop ∧ stop ≤ v.e then
      (cut ls v (if v.s ≤ start ∧ start < v.e then start else v.s) stop ++ r,
        List.range' (if v.s ≤ start ∧ start < v.e then start else v.s) (stop - (if v.s ≤ start ∧ start < v.e then start else v.s)))
    else if v.s ≤ start ∧ start < v.e then
      (cut ls v start v.e ++ (remRec ls start stop r).1, List.range' start (v.e - start) ++ (remRec ls start stop r).2)
    else if (v.s < start ∧ v.e ≤ start) ∨ (stop ≤ v.s ∧ stop < v.e) then
      (v :: (remRec ls start stop r).1, (remRec ls start stop r).2)
    else (cut ls v v.s v.e ++ (remRec ls start stop r).1, List.range' v.s (v.e - v.s) ++ (remRec ls start stop r).2)

theorem modLoop_rem (ls : List Nat) (z : F) (start stop : Nat) (l : List (Iv F)) : ∀ (pre : List (Iv F)) (sel : List Nat) (fuel : Nat),
    (∀ v ∈ l, v.s ≤ v.e) → l.length ≤ fuel →
    modLoop ls z false start stop fuel pre.length (pre ++ l) sel =
      .ok (pre ++ (remRec ls start stop l).1, sel ++ (remRec ls start stop l).2) := by
  induction l with
  | nil =>
    intro pre sel fuel _ _
    have h : ¬(pre.length + false.toNat < (pre ++ []).length) := by simp
    cases fuel with
    | zero => simp [modLoop, remRec]
    | succ fuel => rw [modLoop, if_neg h]; simp [remRec]
  | cons v r ih =>
    intro pre sel fuel hle hf
    cases fuel with
    | zero => simp at hf
    | succ fuel =>
      have hb : bounds false (pre ++ v :: r) pre.length = .ok (v.s, v.e) := by
        simp [bounds]
      have hA : decide (v.s ≤ v.e) = true := by simpa using hle v (by simp)
      have hlt : pre.length + false.toNat < (pre ++ v :: r).length := by simp
      have hl : r.length ≤ fuel := by simp at hf; omega
      have key : ∀ (g : List (Iv F)) (sel' : List Nat),
          modLoop ls z false start stop fuel (pre.length + g.length) (pre ++ (g ++ r)) sel' =
            .ok (pre ++ (g ++ (remRec ls start stop r).1), sel' ++ (remRec ls start stop r).2) := by
        intro g sel'
        have := ih (pre ++ g) sel' fuel (fun w hw => hle w (by simp [hw])) hl
        simpa using this
      rw [modLoop, if_pos hlt, hb]
      simp only [bind, Except.bind, hA, pyAssert, if_true, modify, removeIv_app, Bool.false_eq_true, if_false]
      rw [remRec]
      split
      · rfl
      · split
        · rw [key]; simp
        · split
          · have := key [v] sel
            simpa using this
          · rw [key]; simp

theorem held_cut (ls : List Nat) (v : Iv F) (p q i : Nat) (h1 : v.s ≤ p) (h2 : p < q) (h3 : q ≤ v.e)
    (hd : v.d.length = seqStart ls v.e - seqStart ls v.s) :
    held ls (cut ls v p q) i = if p ≤ i ∧ i < q then none else held ls [v] i := by
  have hright : ∀ (r : List (Iv F)), held ls (⟨q, v.e, v.d.drop (seqStart ls q - seqStart ls v.s)⟩ :: r) i =
      if q ≤ i ∧ i < v.e then held ls [v] i else held ls r i := by
    intro r
    rw [held_cons]
    simp only
    split
    · rename_i h
      rw [held_cons, if_pos (by omega)]
      have := seqStart_mono ls h.1
      have := seqStart_mono ls (show v.s ≤ q by omega)
      rw [List.drop_drop]
      congr 3
      omega
    · rfl
  have hleft : ∀ (r : List (Iv F)), held ls (⟨v.s, p, v.d.take (seqStart ls p - seqStart ls v.s)⟩ :: r) i =
      if v.s ≤ i ∧ i < p then held ls [v] i else held ls r i := by
    intro r
    rw [held_cons]
    simp only
    split
    · rename_i h
      rw [held_cons, if_pos (by omega)]
      have := seqStart_lt ls h.2
      have := seqStart_mono ls h.1
      rw [List.drop_take, List.take_take]
      congr 2
      omega
    · rfl
  have hout : ¬(v.s ≤ i ∧ i < v.e) → held ls [v] i = none := by
    intro h
    rw [held_cons, if_neg h]
    rfl
  unfold cut
  by_cases ho : v.s ≤ i ∧ i < v.e
  · split
    · rw [if_pos (by omega)]; rfl
    · split
      · rw [hright]
        by_cases hh : p ≤ i ∧ i < q
        · rw [if_pos hh, if_neg (by omega)]; rfl
        · rw [if_neg hh, if_pos (by omega)]
      · split
        · rw [hleft]
          by_cases hh : p ≤ i ∧ i < q
          · rw [if_pos hh, if_neg (by omega)]; rfl
          · rw [if_neg hh, if_pos (by omega)]
        · rw [hleft, hright]
          by_cases hh : p ≤ i ∧ i < q
          · rw [if_pos hh, if_neg (by omega), if_neg (by omega)]; rfl
          · rw [if_neg hh]
            by_cases hp : i < p
            · rw [if_pos (by omega)]
            · rw [if_neg (by omega), if_pos (by omega)]
  · have hR : (if p ≤ i ∧ i < q then none else held ls [v] i) = none := by
      rw [hout ho]; split <;> rfl
    rw [hR]
    split
    · rfl
    · split
      · rw [hright, if_neg (by omega)]; rfl
      · split
        · rw [hleft, if_neg (by omega)]; rfl
        · rw [hleft, hright, if_neg (by omega), if_neg (by omega)]; rfl

theorem Sorted.cut {ls : List Nat} {v : Iv F} {r : List (Iv F)} {lo hi p q : Nat} (hlo : lo ≤ v.s) (h1 : v.s ≤ p) (h2 : p < q)
    (h3 : q ≤ v.e) (hd : v.d.length = seqStart ls v.e - seqStart ls v.s) (hr : Sorted ls v.e hi r) :
    Sorted ls lo hi (HdfCache.cut ls v p q ++ r) := by
  have m1 := seqStart_mono ls h1
  have m2 := seqStart_mono ls (Nat.le_of_lt h2)
  have m3 := seqStart_mono ls h3
  unfold HdfCache.cut
  split
  · exact hr.mono (by omega)
  · split
    · refine ⟨by simp only; omega, by simp only; omega, ?_, hr⟩
      show (List.drop _ _).length = seqStart ls v.e - seqStart ls q
      rw [List.length_drop, hd]
      omega
    · split
      · refine ⟨hlo, by simp only; omega, ?_, hr.mono (by simp only; omega)⟩
        show (List.take _ _).length = seqStart ls p - seqStart ls v.s
        rw [List.length_take, hd]
        omega
      · refine ⟨hlo, by simp only; omega, ?_, by simp only; omega, by simp only; omega, ?_, hr⟩
        · show (List.take _ _).length = seqStart ls p - seqStart ls v.s
          rw [List.length_take, hd]
          omega
        · show (List.drop _ _).length = seqStart ls v.e - seqStart ls q
          rw [List.length_drop, hd]
          omega

/-- What removal has to give. -/
structure RemOk (ls : List Nat) (start stop lo : Nat) (mid mid' : List (Iv F)) (sel : List Nat) : Prop where
  sorted : Sorted ls lo ls.length mid'
  heldEq : ∀ i, held ls mid' i = if start ≤ i ∧ i < stop then none else held ls mid i
  inc : sel.Pairwise (· < ·)
  mem : ∀ i, i ∈ sel ↔ held ls mid i ≠ none ∧ start ≤ i ∧ i < stop

theorem remRec_spec (ls : List Nat) (start stop : Nat) (hs : start < stop) (hstop : stop ≤ ls.length) (z2 : List F)
    (mid : List (Iv F)) : ∀ (lo : Nat), Sorted ls lo ls.length mid →
    ∃ mid' t sel, remRec ls start stop (mid ++ [⟨ls.length, ls.length, z2⟩]) = (mid' ++ t, sel) ∧
      (t = [⟨ls.length, ls.length, z2⟩] ∨ (t = [] ∧ stop = ls.length ∧ held ls mid (stop - 1) = none)) ∧
      RemOk ls start stop lo mid mid' sel := by
  induction mid with
  | nil =>
    intro lo hsort
    simp only [List.nil_append, remRec]
    rw [if_neg (by omega), if_neg (by omega)]
    by_cases h : stop < ls.length
    · rw [if_pos (by omega)]
      refine ⟨[], _, [], rfl, .inl rfl, hsort, ?_, List.Pairwise.nil, ?_⟩
      · intro i; simp [held]
      · intro i; simp [held]
    · rw [if_neg (by omega)]
      refine ⟨[], [], [], ?_, .inr ⟨rfl, by omega, rfl⟩, hsort, ?_, List.Pairwise.nil, ?_⟩
      · simp [cut]
      · intro i; simp [held]
      · intro i; simp [held]
  | cons v r ih =>
    intro lo hsort
    obtain ⟨hlo, hve, hd, hr⟩ := hsort
    change v.d.length = seqStart ls v.e - seqStart ls v.s at hd
    have hle := hr.le
    have hrange : ∀ (p q : Nat), (List.range' p q).Pairwise (· < ·) := fun p q => List.pairwise_lt_range'
    have hcons : ∀ i, held ls (v :: r) i = (held ls [v] i).or (held ls r i) := fun i => held_append ls [v] r i
    have hv : ∀ i, held ls [v] i ≠ none ↔ v.s ≤ i ∧ i < v.e := by
      intro i
      rw [held_cons]
      split
      · simpa
      · simp [held]; omega
    have hrr : ∀ i, i < v.e → held ls r i = none := by
      intro i hi
      by_contra hc
      have := hr.held_range hc
      omega
    simp only [List.cons_append, remRec]
    by_cases h1 : v.s < stop ∧ stop ≤ v.e
    · rw [if_pos h1]
      have hp : (if v.s ≤ start ∧ start < v.e then start else v.s) = max start v.s := by split <;> omega
      rw [hp]
      refine ⟨cut ls v (max start v.s) stop ++ r, _, _, by rw [List.append_assoc], .inl rfl,
        Sorted.cut hlo (by omega) (by omega) h1.2 hd hr, ?_, hrange _ _, ?_⟩
      · intro i
        rw [held_append, held_cut ls v _ _ i (by omega) (by omega) h1.2 hd, hcons]
        by_cases hi : i < v.e
        · rw [hrr i hi]
          simp only [Option.or_none]
          by_cases hm : v.s ≤ i
          · split <;> split <;> first | rfl | (exfalso; omega)
          · have : held ls [v] i = none := by
              by_contra hc
              have := (hv i).1 hc
              omega
            rw [this]
            split <;> split <;> rfl
        · rw [if_neg (by omega), if_neg (by omega)]
      · intro i
        rw [mem_range'_1', hcons]
        constructor
        · intro h
          refine ⟨?_, by omega⟩
          have := (hv i).2 (by omega)
          intro hc
          rw [Option.or_eq_none_iff] at hc
          exact this hc.1
        · rintro ⟨h, h2⟩
          rw [hrr i (by omega), Option.or_none] at h
          have := (hv i).1 h
          omega
    · rw [if_neg h1]
      obtain ⟨mid', t, sel, he, ht, hI⟩ := ih v.e hr
      rw [he]
      have ht' : t = [⟨ls.length, ls.length, z2⟩] ∨ (t = [] ∧ stop = ls.length ∧ held ls (v :: r) (stop - 1) = none) := by
        rcases ht with ht | ⟨ht, h2, h3⟩
        · exact .inl ht
        · refine .inr ⟨ht, h2, ?_⟩
          rw [hcons, h3, Option.or_none]
          by_contra hc
          have := (hv _).1 hc
          omega
      have hrem : ∀ i, i < v.e → held ls mid' i = none := by
        intro i hi
        by_contra hc
        have := hI.sorted.held_range hc
        omega
      have step : ∀ (p : Nat), v.s ≤ p → p < v.e → (∀ i, v.s ≤ i → i < v.e → (p ≤ i ↔ start ≤ i ∧ i < stop)) →
          ∃ mid'' t' sel'', ((cut ls v p v.e ++ (mid' ++ t), List.range' p (v.e - p) ++ sel) : List (Iv F) × List Nat) =
            (mid'' ++ t', sel'') ∧
            (t' = [⟨ls.length, ls.length, z2⟩] ∨ (t' = [] ∧ stop = ls.length ∧ held ls (v :: r) (stop - 1) = none)) ∧
            RemOk ls start stop lo (v :: r) mid'' sel'' := by
        intro p hp1 hp2 hp
        refine ⟨cut ls v p v.e ++ mid', t, _, by rw [List.append_assoc], ht',
          Sorted.cut hlo hp1 hp2 (Nat.le_refl _) hd hI.sorted, ?_, ?_, ?_⟩
        · intro i
          rw [held_append, held_cut ls v _ _ i hp1 hp2 (Nat.le_refl _) hd, hcons]
          by_cases hi : i < v.e
          · rw [hrr i hi, hrem i hi]
            simp only [Option.or_none]
            by_cases hm : v.s ≤ i
            · have := hp i hm hi
              split <;> split <;> first | rfl | (exfalso; omega)
            · have : held ls [v] i = none := by
                by_contra hc
                have := (hv i).1 hc
                omega
              rw [this]
              split <;> split <;> rfl
          · have : held ls [v] i = none := by
              by_contra hc
              have := (hv i).1 hc
              omega
            rw [if_neg (by omega), this, hI.heldEq i]
            simp
        · refine pairwise_append_lt (m := v.e) (hrange _ _) hI.inc ?_ ?_
          · intro x hx
            rw [mem_range'_1'] at hx
            omega
          · intro x hx
            exact (hr.held_range ((hI.mem x).1 hx).1).1
        · intro i
          rw [List.mem_append, mem_range'_1', hI.mem i, hcons]
          by_cases hi : i < v.e
          · rw [hrr i hi, Option.or_none]
            rw [hv i]
            simp only [ne_eq, not_true_eq_false, false_and, or_false]
            by_cases hm : v.s ≤ i
            · have := hp i hm hi; omega
            · omega
          · have : held ls [v] i = none := by
              by_contra hc
              have := (hv i).1 hc
              omega
            rw [this, Option.none_or]
            have : ¬(p ≤ i ∧ i < p + (v.e - p)) := by omega
            simp only [this, false_or]
      split
      · obtain ⟨m, t', s, e1, e2⟩ := step start (by omega) (by omega) (by intro i _ _; omega)
        exact ⟨m, t', s, e1, e2⟩
      · split
        · rename_i hf0 hf2
          refine ⟨v :: mid', t, sel, rfl, ht', ⟨hlo, hve, hd, hI.sorted⟩, ?_, hI.inc, ?_⟩
          · intro i
            have e1 : held ls (v :: mid') i = (held ls [v] i).or (held ls mid' i) := held_append ls [v] mid' i
            rw [e1, hcons, hI.heldEq i]
            by_cases hm : v.s ≤ i ∧ i < v.e
            · rw [if_neg (by omega), if_neg (by omega)]
            · have : held ls [v] i = none := by
                by_contra hc
                exact hm ((hv i).1 hc)
              rw [this]
              simp
          · intro i
            rw [hI.mem i, hcons]
            by_cases hm : v.s ≤ i ∧ i < v.e
            · rw [hrr i hm.2]
              constructor
              · intro h; exact absurd rfl h.1
              · rintro ⟨_, h⟩; omega
            · have : held ls [v] i = none := by
                by_contra hc
                exact hm ((hv i).1 hc)
              rw [this, Option.none_or]
        · obtain ⟨m, t', s, e1, e2⟩ := step v.s (Nat.le_refl _) hve (by intro i _ _; omega)
          exact ⟨m, t', s, e1, e2⟩

end Verif.HdfCache
