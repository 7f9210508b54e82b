import Verif.Staircase.Lemmas
/-
C145: words of the staircase automaton.
-/
namespace Verif.Staircase
open Verif Verif.Py Spec

/-- A step between states. -/
def R (loop : Bool) (q : Seq) (a b : Nat) : Prop := a < q.len ∧ ((loop = true ∧ b = a) ∨ (a < b ∧ b ≤ jMax q a))

theorem R_le {loop : Bool} {q : Seq} {a b : Nat} (h : R loop q a b) : a ≤ b ∧ b ≤ q.len := by
  obtain ⟨h1, ⟨_, h2⟩ | ⟨h2, h3⟩⟩ := h
  · omega
  · have := jMax_le q a; omega

theorem edge_pos {E : List Edge} {loop : Bool} {q : Seq} {o : Nat} (hl : Local E loop q o) (i m e : Nat) (h0 : 0 < i) (hi : i ≤ q.len) :
    (∃ b, (o + i, m, e, b) ∈ E) ↔ e = i ∧ ∃ j, R loop q i j ∧ m = o + j := by
  rw [hl i m e hi]
  constructor
  · rintro ⟨h1, ⟨ha, hb, hc⟩ | ⟨j, h2, h3, h4, ⟨_, h5⟩ | ⟨h5, _⟩⟩⟩
    · exact ⟨hc, i, ⟨h1, Or.inl ⟨ha, rfl⟩⟩, hb⟩
    · exact ⟨h5, j, ⟨h1, Or.inr ⟨h2, h3⟩⟩, h4⟩
    · omega
  · rintro ⟨rfl, j, ⟨h1, ⟨ha, rfl⟩ | ⟨h2, h3⟩⟩, rfl⟩
    · exact ⟨h1, Or.inl ⟨ha, rfl, rfl⟩⟩
    · exact ⟨h1, Or.inr ⟨j, h2, h3, rfl, Or.inl ⟨h0, rfl⟩⟩⟩

theorem run_pos {E : List Edge} {loop : Bool} {q : Seq} {o : Nat} (hl : Local E loop q o) (r : List (Nat × Nat)) (i : Nat) (h0 : 0 < i) (hi : i ≤ q.len)
    (h : Run E (o + i) r (o + q.len)) :
    ∃ tl, r.map Prod.fst ++ [q.len] = i :: tl ∧ Steps (R loop q) i tl ∧ r.map Prod.snd = tl.map (o + ·) := by
  induction r generalizing i with
  | nil =>
    have h : o + i = o + q.len := h
    have : i = q.len := by omega
    exact ⟨[], by simp [this], trivial, rfl⟩
  | cons x r ih =>
    obtain ⟨e, m⟩ := x
    obtain ⟨he, hr⟩ := h
    rw [edge_pos hl i m e h0 hi] at he
    obtain ⟨rfl, j, hR, rfl⟩ := he
    have := R_le hR
    obtain ⟨tl, h1, h2, h3⟩ := ih j (by omega) (by omega) hr
    refine ⟨j :: tl, ?_, ⟨hR, h2⟩, ?_⟩
    · simp only [List.map_cons, List.cons_append, h1]
    · simp only [List.map_cons, h3]

theorem pos_run {E : List Edge} {loop : Bool} {q : Seq} {o : Nat} (hl : Local E loop q o) (w : List Nat) (i : Nat) (tl : List Nat) (h0 : 0 < i) (hi : i ≤ q.len)
    (hw : w ++ [q.len] = i :: tl) (hs : Steps (R loop q) i tl) : Accepts E (o + i) (o + q.len) w := by
  induction w generalizing i tl with
  | nil =>
    simp only [List.nil_append, List.cons.injEq] at hw
    exact ⟨[], by show o + i = o + q.len; omega, rfl⟩
  | cons e w ih =>
    simp only [List.cons_append, List.cons.injEq] at hw
    obtain ⟨rfl, hw⟩ := hw
    cases tl with
    | nil => simp at hw
    | cons j tl =>
      obtain ⟨hR, hs⟩ := hs
      have := R_le hR
      obtain ⟨r, hr, hf⟩ := ih j tl (by omega) (by omega) hw hs
      exact ⟨(e, o + j) :: r, ⟨(edge_pos hl e _ e h0 hi).2 ⟨rfl, j, hR, rfl⟩, hr⟩, by simp [hf]⟩

theorem ext_run {r1 r2 : List (Nat × Nat)} (h1 : r1.map Prod.fst = r2.map Prod.fst) (h2 : r1.map Prod.snd = r2.map Prod.snd) : r1 = r2 := by
  induction r1 generalizing r2 with
  | nil => cases r2 with
    | nil => rfl
    | cons _ _ => cases h1
  | cons x r1 ih => cases r2 with
    | nil => cases h1
    | cons y r2 =>
      simp only [List.map_cons, List.cons.injEq] at h1 h2
      rw [ih h1.2 h2.2, Prod.ext h1.1 h2.1]

theorem edge_zero {E : List Edge} {loop : Bool} {q : Seq} {o : Nat} (hl : Local E loop q o) (m e : Nat) :
    (∃ b, (o, m, e, b) ∈ E) ↔ 0 < q.len ∧ ((loop = true ∧ m = o ∧ e = 0) ∨
      ∃ j, 0 < j ∧ j ≤ jMax q 0 ∧ m = o + j ∧ ((e < j ∧ ¬ (loop = true ∧ e = 0 ∧ j < q.len)) ∨ (loop = true ∧ j < q.len ∧ e = j))) := by
  have := hl 0 m e (Nat.zero_le _)
  simp only [Nat.add_zero] at this
  rw [this]
  simp

theorem unique_local {E : List Edge} {loop : Bool} {q : Seq} {o : Nat} (hl : Local E loop q o) (hn : 0 < q.len) (r1 r2 : List (Nat × Nat))
    (h1 : Run E o r1 (o + q.len)) (h2 : Run E o r2 (o + q.len)) (hw : r1.map Prod.fst = r2.map Prod.fst) : r1 = r2 := by
  induction r1 generalizing r2 with
  | nil => have : o = o + q.len := h1; omega
  | cons x r1 ih =>
    cases r2 with
    | nil => cases hw
    | cons y r2 =>
      obtain ⟨e, m1⟩ := x
      obtain ⟨e', m2⟩ := y
      simp only [List.map_cons, List.cons.injEq] at hw
      obtain ⟨rfl, hw⟩ := hw
      obtain ⟨e1, h1⟩ := h1
      obtain ⟨e2, h2⟩ := h2
      rw [edge_zero hl] at e1 e2
      -- a loop at the start, and a step with the same emission
      have mixed : ∀ (ra rb : List (Nat × Nat)) (j : Nat), e = 0 → loop = true → 0 < j → j ≤ jMax q 0 →
          ((e < j ∧ ¬ (loop = true ∧ e = 0 ∧ j < q.len)) ∨ (loop = true ∧ j < q.len ∧ e = j)) →
          Run E o ra (o + q.len) → Run E (o + j) rb (o + q.len) → ra.map Prod.fst = rb.map Prod.fst → False := by
        intro ra rb j he hloop hj hjm hc ha hb hab
        have hjl := jMax_le q 0
        have hjn : j = q.len := by
          rcases hc with ⟨_, hc⟩ | ⟨_, _, hc⟩
          · have : ¬ j < q.len := fun h => hc ⟨hloop, he, h⟩
            omega
          · omega
        subst hjn
        cases rb with
        | nil =>
          cases ra with
          | nil => have : o = o + q.len := ha; omega
          | cons _ _ => cases hab
        | cons y rb =>
          obtain ⟨e2, m⟩ := y
          have he := hb.1
          rw [edge_pos hl _ _ _ hj (Nat.le_refl _)] at he
          obtain ⟨_, j', hR, _⟩ := he
          exact absurd hR.1 (Nat.lt_irrefl _)
      rcases e1 with ⟨_, ⟨l1, rfl, he1⟩ | ⟨j1, a1, b1, rfl, c1⟩⟩
      · rcases e2 with ⟨_, ⟨l2, rfl, he2⟩ | ⟨j2, a2, b2, rfl, c2⟩⟩
        · rw [ih r2 h1 h2 hw]
        · exact (mixed r1 r2 j2 he1 l1 a2 b2 c2 h1 h2 hw).elim
      · rcases e2 with ⟨_, ⟨l2, rfl, he2⟩ | ⟨j2, a2, b2, rfl, c2⟩⟩
        · exact (mixed r2 r1 j1 he2 l2 a1 b1 c1 h2 h1 hw.symm).elim
        · have hjl := jMax_le q 0
          obtain ⟨t1, p1, _, s1⟩ := run_pos hl r1 j1 a1 (by omega) h1
          obtain ⟨t2, p2, _, s2⟩ := run_pos hl r2 j2 a2 (by omega) h2
          rw [hw, p2] at p1
          simp only [List.cons.injEq] at p1
          obtain ⟨rfl, rfl⟩ := p1
          rw [ext_run hw (s1.trans s2.symm)]

/-- The automaton has one part for every sequence, and is unambiguous: from the start to the end of a sequence there is at most one path with given emissions. -/
theorem unambiguous (loop : Bool) (qs : List Seq) (E : List Edge) (se : List (Nat × Nat)) (h : staircase loop qs = .ok (E, se)) (k : Nat) (q : Seq)
    (hq : qs[k]? = some q) : ∃ s t, se[k]? = some (s, t) ∧ t = s + q.len ∧
      ∀ r1 r2, Run E s r1 t → Run E s r2 t → r1.map Prod.fst = r2.map Prod.fst → r1 = r2 := by
  obtain ⟨o, _, hse, hn, hl⟩ := build_local loop qs 0 0 E se h k q hq
  exact ⟨o, o + q.len, hse, rfl, fun r1 r2 => unique_local hl hn r1 r2⟩

theorem steps_pairwise (a : Nat) (l : List Nat) : Steps (fun a b => a < b) a l ↔ (a :: l).Pairwise (· < ·) := by
  induction l generalizing a with
  | nil => simp [Steps]
  | cons b l ih =>
    simp only [Steps, ih]
    constructor
    · rintro ⟨h1, h2⟩
      refine List.pairwise_cons.2 ⟨?_, h2⟩
      intro c hc
      rcases List.mem_cons.1 hc with rfl | hc
      · exact h1
      · have := (List.pairwise_cons.1 h2).1 c hc; omega
    · intro h
      obtain ⟨h1, h2⟩ := List.pairwise_cons.1 h
      exact ⟨h1 b (by simp), h2⟩

theorem steps_and (P Q : Nat → Nat → Prop) (a : Nat) (l : List Nat) : Steps (fun a b => P a b ∧ Q a b) a l ↔ Steps P a l ∧ Steps Q a l := by
  induction l generalizing a with
  | nil => simp [Steps]
  | cons b l ih => simp only [Steps, ih]; constructor <;> (rintro ⟨⟨_, _⟩, _, _⟩; exact ⟨⟨‹_›, ‹_›⟩, ‹_›, ‹_›⟩)

theorem steps_imp {P Q : Nat → Nat → Prop} (a : Nat) (l : List Nat) (h : ∀ x y, y ∈ l → x ∈ a :: l → P x y → Q x y) (hs : Steps P a l) : Steps Q a l := by
  induction l generalizing a with
  | nil => trivial
  | cons b l ih =>
    refine ⟨h a b (by simp) (by simp) hs.1, ih b (fun x y hy hx => h x y (by simp [hy]) (List.mem_cons_of_mem _ hx)) hs.2⟩

theorem le_jMax (q : Seq) (a b c : Nat) (hb : b ≤ q.len) (hc : curSkip q a = c) : b ≤ jMax q a ↔ (c ≠ 0 → b ≤ a + c) := by
  unfold jMax
  rw [hc]
  by_cases h : c = 0
  · rw [if_pos h]; simp [h, hb]
  · rw [if_neg h]; constructor
    · intro h1 _; omega
    · intro h1; have := h1 h; omega

theorem allowed_iff (q : Seq) (a b : Nat) (hb : b ≤ q.len) : b ≤ jMax q a ↔ Allowed q.len q.maxSkip q.startMaxSkip q.endMaxSkip a b := by
  unfold Allowed
  by_cases h1 : a = 0 ∧ q.startMaxSkip ≠ 0
  · have e1 : skipStart q a = q.startMaxSkip := if_pos h1.1
    have e2 : skipEnd q a = q.startMaxSkip := by unfold skipEnd; rw [e1]; exact if_neg fun h => h1.2 h.1
    have e3 : curSkip q a = q.startMaxSkip := by unfold curSkip; rw [e2]; exact if_neg h1.2
    rw [le_jMax q a b _ hb e3, if_pos h1, h1.1]
    constructor
    · intro h; have := h h1.2; omega
    · intro h _; omega
  · have e1 : skipStart q a = 0 := by
      unfold skipStart
      by_cases h : a = 0
      · rw [if_pos h]
        by_cases h' : q.startMaxSkip = 0
        · exact h'
        · exact absurd ⟨h, h'⟩ h1
      · exact if_neg h
    rw [if_neg h1]
    by_cases h2 : q.endMaxSkip ≠ 0 ∧ q.len ≤ a + q.endMaxSkip
    · have e2 : skipEnd q a = q.endMaxSkip := by unfold skipEnd; rw [e1]; exact if_pos ⟨rfl, h2⟩
      have e3 : curSkip q a = q.endMaxSkip := by unfold curSkip; rw [e2]; exact if_neg h2.1
      rw [le_jMax q a b _ hb e3, if_pos h2]
      exact ⟨fun h => h h2.1, fun h _ => h⟩
    · have e2 : skipEnd q a = 0 := by unfold skipEnd; rw [e1]; exact if_neg fun h => h2 h.2
      have e3 : curSkip q a = q.maxSkip := by unfold curSkip; rw [e2]; rfl
      rw [le_jMax q a b _ hb e3, if_neg h2]
      by_cases h3 : q.maxSkip ≠ 0
      · rw [if_pos h3]; exact ⟨fun h => h h3, fun h _ => h⟩
      · rw [if_neg h3]; exact ⟨fun _ => trivial, fun _ h => absurd h h3⟩

theorem mem_le_last (l : List Nat) (n a : Nat) (h : (a :: (l ++ [n])).Pairwise (· < ·)) : a < n ∧ ∀ x ∈ l ++ [n], x ≤ n := by
  refine ⟨(List.pairwise_cons.1 h).1 n (by simp), ?_⟩
  intro x hx
  rcases List.mem_append.1 hx with hx | hx
  · have := (List.pairwise_append.1 (List.pairwise_cons.1 h).2).2.2 x hx n (by simp); omega
  · simp only [List.mem_singleton] at hx; omega

/-- Without loops, for all limits: the words are exactly the non-empty strictly increasing sequences of positions of the sequence, where the steps between the positions after
the first one, from 0 and to the end, keep the limits. -/
theorem words_without_loop (qs : List Seq) (E : List Edge) (se : List (Nat × Nat)) (h : staircase false qs = .ok (E, se)) (k : Nat) (q : Seq)
    (hq : qs[k]? = some q) : ∃ s t, se[k]? = some (s, t) ∧ ∀ w, Accepts E s t w ↔
      w ≠ [] ∧ w.Pairwise (· < ·) ∧ (∀ e ∈ w, e < q.len) ∧
      Steps (Allowed q.len q.maxSkip q.startMaxSkip q.endMaxSkip) 0 (w.tail ++ [q.len]) := by
  obtain ⟨o, _, hse, hn, hl⟩ := build_local false qs 0 0 E se h k q hq
  refine ⟨o, o + q.len, hse, ?_⟩
  have hjl := jMax_le q 0
  intro w
  constructor
  · rintro ⟨r, hr, rfl⟩
    cases r with
    | nil => have : o = o + q.len := hr; omega
    | cons x r =>
      obtain ⟨e, m⟩ := x
      obtain ⟨he, hr⟩ := hr
      rw [edge_zero hl] at he
      rcases he with ⟨_, ⟨h', _⟩ | ⟨j, h1, h2, rfl, ⟨h3, _⟩ | ⟨h', _⟩⟩⟩
      · cases h'
      · obtain ⟨tl, p1, p2, _⟩ := run_pos hl r j h1 (by omega) hr
        have hlt : Steps (fun a b => a < b) j tl := steps_imp j tl (fun x y _ _ hR => by
          obtain ⟨_, ⟨h', _⟩ | ⟨h', _⟩⟩ := hR
          · cases h'
          · exact h') p2
        have hpw : (e :: (r.map Prod.fst ++ [q.len])).Pairwise (· < ·) := by
          rw [p1, ← steps_pairwise]; exact ⟨h3, hlt⟩
        obtain ⟨hlast, hle⟩ := mem_le_last _ _ _ hpw
        refine ⟨by simp, ?_, ?_, ?_⟩
        · rw [← List.cons_append] at hpw
          exact (List.pairwise_append.1 hpw).1
        · intro x hx
          rw [← List.cons_append] at hpw
          exact (List.pairwise_append.1 hpw).2.2 x hx q.len (by simp)
        · simp only [List.map_cons, List.tail_cons]
          rw [p1] at hle ⊢
          refine ⟨(allowed_iff q 0 j (by omega)).1 h2, ?_⟩
          refine steps_imp j tl (fun x y hy _ hR => ?_) p2
          obtain ⟨_, ⟨h', _⟩ | ⟨_, h'⟩⟩ := hR
          · cases h'
          · exact (allowed_iff q x y (hle y (by simp [hy]))).1 h'
      · cases h'
  · rintro ⟨hne, hpw, hlt, hst⟩
    cases w with
    | nil => exact absurd rfl hne
    | cons e w =>
      simp only [List.tail_cons] at hst
      have hpw' : (e :: (w ++ [q.len])).Pairwise (· < ·) := by
        rw [← List.cons_append, List.pairwise_append]
        exact ⟨hpw, by simp, fun a ha b hb => by simp only [List.mem_singleton] at hb; rw [hb]; exact hlt a ha⟩
      obtain ⟨_, hle⟩ := mem_le_last _ _ _ hpw'
      obtain ⟨j, tl, htl⟩ : ∃ j tl, w ++ [q.len] = j :: tl := by
        cases w with
        | nil => exact ⟨_, _, rfl⟩
        | cons a w => exact ⟨_, _, rfl⟩
      rw [htl] at hst hpw' hle
      rw [← steps_pairwise] at hpw'
      have hj : j ≤ q.len := hle j (by simp)
      have hsteps : Steps (R false q) j tl := by
        have hboth := (steps_and _ _ j tl).2 ⟨hpw'.2, hst.2⟩
        refine steps_imp j tl (fun x y hy _ hxy => ?_) hboth
        have hyl := hle y (by simp [hy])
        exact ⟨by omega, Or.inr ⟨hxy.1, (allowed_iff q x y hyl).2 hxy.2⟩⟩
      have hej : e < j := hpw'.1
      obtain ⟨r, hr, hf⟩ := pos_run hl w j tl (by omega) hj htl hsteps
      refine ⟨(e, o + j) :: r, ⟨(edge_zero hl _ _).2 ⟨hn, Or.inr ⟨j, by omega, (allowed_iff q 0 j hj).2 hst.1, rfl, Or.inl ⟨hej, fun h => by cases h.1⟩⟩⟩, hr⟩, by simp [hf]⟩

theorem jMax_unlimited (n i : Nat) : jMax { len := n } i = n := by
  unfold jMax curSkip skipEnd skipStart
  simp

theorem steps_loop (n : Nat) (w : List Nat) (i : Nat) (tl : List Nat) (hw : w ++ [n] = i :: tl) (hne : w ≠ []) :
    Steps (R true { len := n }) i tl ↔ w.Pairwise (· ≤ ·) ∧ ∀ e ∈ w, e < n := by
  have hR : ∀ a b, R true { len := n } a b ↔ a < n ∧ a ≤ b ∧ b ≤ n := by
    intro a b
    simp only [R, jMax_unlimited, true_and]
    omega
  induction w generalizing i tl with
  | nil => exact absurd rfl hne
  | cons e w ih =>
    simp only [List.cons_append, List.cons.injEq] at hw
    obtain ⟨rfl, rfl⟩ := hw
    cases w with
    | nil => simp [Steps, hR]; omega
    | cons f w =>
      have := ih f (w ++ [n]) rfl (by simp)
      simp only [List.cons_append, Steps, this, hR]
      constructor
      · rintro ⟨⟨h1, h2, _⟩, h3, h4⟩
        refine ⟨List.pairwise_cons.2 ⟨?_, h3⟩, ?_⟩
        · intro c hc
          rcases List.mem_cons.1 hc with rfl | hc
          · exact h2
          · have := (List.pairwise_cons.1 h3).1 c hc; omega
        · intro x hx
          rcases List.mem_cons.1 hx with rfl | hx
          · exact h1
          · exact h4 x hx
      · rintro ⟨h1, h2⟩
        obtain ⟨h3, h4⟩ := List.pairwise_cons.1 h1
        have hf := h2 f (by simp)
        exact ⟨⟨h2 e (by simp), h3 f (by simp), by omega⟩, h4, fun x hx => h2 x (by simp only [List.mem_cons] at hx ⊢; exact Or.inr hx)⟩

/-- With loops and without limits: the words are exactly the non-empty sequences of positions which do not decrease. -/
theorem words_with_loop (qs : List Seq) (E : List Edge) (se : List (Nat × Nat)) (h : staircase true qs = .ok (E, se)) (k n : Nat)
    (hq : qs[k]? = some { len := n }) : ∃ s t, se[k]? = some (s, t) ∧ ∀ w, Accepts E s t w ↔ w ≠ [] ∧ w.Pairwise (· ≤ ·) ∧ ∀ e ∈ w, e < n := by
  obtain ⟨o, _, hse, hn, hl⟩ := build_local true qs 0 0 E se h k _ hq
  refine ⟨o, o + n, hse, ?_⟩
  have hn : 0 < n := hn
  intro w
  constructor
  · rintro ⟨r, hr, rfl⟩
    induction r with
    | nil => have : o = o + n := hr; omega
    | cons x r ih =>
      obtain ⟨e, m⟩ := x
      obtain ⟨he, hr⟩ := hr
      rw [edge_zero hl] at he
      rcases he with ⟨_, ⟨_, rfl, rfl⟩ | ⟨j, h1, h2, rfl, hc⟩⟩
      · obtain ⟨_, i2, i3⟩ := ih hr
        refine ⟨by simp, List.pairwise_cons.2 ⟨fun _ _ => Nat.zero_le _, i2⟩, ?_⟩
        intro x hx
        rcases List.mem_cons.1 hx with rfl | hx
        · exact hn
        · exact i3 x hx
      · rw [jMax_unlimited] at h2
        have hej : e ≤ j ∧ e < n := by
          rcases hc with ⟨hc, _⟩ | ⟨_, hc, hc'⟩
          · omega
          · simp only at hc; omega
        obtain ⟨tl, p1, p2, _⟩ := run_pos hl r j h1 h2 hr
        simp only at p1
        cases hr' : r.map Prod.fst with
        | nil =>
          refine ⟨by simp, by simp [hr'], ?_⟩
          intro x hx
          simp only [List.map_cons, hr', List.mem_singleton] at hx
          rw [hx]; exact hej.2
        | cons f w =>
          rw [hr'] at p1
          obtain ⟨s1, s2⟩ := (steps_loop n (f :: w) j tl p1 (by simp)).1 p2
          simp only [List.cons_append, List.cons.injEq] at p1
          obtain ⟨rfl, _⟩ := p1
          simp only [List.map_cons, hr']
          refine ⟨by simp, List.pairwise_cons.2 ⟨?_, s1⟩, ?_⟩
          · intro c hc
            rcases List.mem_cons.1 hc with rfl | hc
            · exact hej.1
            · have := (List.pairwise_cons.1 s1).1 c hc; omega
          · intro x hx
            rcases List.mem_cons.1 hx with rfl | hx
            · exact hej.2
            · exact s2 x hx
  · rintro ⟨hne, hpw, hlt⟩
    induction w with
    | nil => exact absurd rfl hne
    | cons e w ih =>
      have he := hlt e (by simp)
      obtain ⟨hp1, hp2⟩ := List.pairwise_cons.1 hpw
      have hlt' : ∀ x ∈ w, x < n := fun x hx => hlt x (by simp [hx])
      cases w with
      | nil =>
        refine ⟨[(e, o + n)], ⟨(edge_zero hl _ _).2 ⟨hn, Or.inr ⟨n, hn, by rw [jMax_unlimited]; exact Nat.le_refl _, rfl, Or.inl ⟨he, fun h => ?_⟩⟩⟩, rfl⟩, rfl⟩
        exact absurd h.2.2 (Nat.lt_irrefl _)
      | cons f w =>
        by_cases h0 : e = 0
        · obtain ⟨r, hr, hf⟩ := ih (by simp) hp2 hlt'
          exact ⟨(e, o) :: r, ⟨(edge_zero hl _ _).2 ⟨hn, Or.inl ⟨rfl, rfl, h0⟩⟩, hr⟩, by simp [hf]⟩
        · have hef := hp1 f (by simp)
          have hfn := hlt' f (by simp)
          have hs := (steps_loop n (f :: w) f (w ++ [n]) rfl (by simp)).2 ⟨hp2, hlt'⟩
          obtain ⟨r, hr, hf⟩ := pos_run hl (f :: w) f (w ++ [n]) (by omega) (Nat.le_of_lt hfn) rfl hs
          refine ⟨(e, o + f) :: r, ⟨(edge_zero hl _ _).2 ⟨hn, Or.inr ⟨f, by omega, by rw [jMax_unlimited]; omega, rfl, ?_⟩⟩, hr⟩, by simp [hf]⟩
          by_cases hfe : e < f
          · exact Or.inl ⟨hfe, fun h => h0 h.2.1⟩
          · exact Or.inr ⟨rfl, hfn, by omega⟩

theorem build_ok (loop : Bool) (qs : List Seq) (off b : Nat) (h : ∀ q ∈ qs, 0 < q.len) : ∃ p, build loop off b qs = .ok p := by
  induction qs generalizing off b with
  | nil => exact ⟨_, rfl⟩
  | cons q qs ih =>
    obtain ⟨p, hp⟩ := ih (off + q.len + 1) (b + 1) (fun q hq => h q (by simp [hq]))
    have : q.len ≠ 0 := by have := h q (by simp); omega
    unfold build
    rw [if_neg this, hp]
    exact ⟨_, rfl⟩

/-- Exactly the empty sequences are refused. -/
theorem accepted_iff (loop : Bool) (qs : List Seq) : (∃ p, staircase loop qs = .ok p) ↔ ∀ q ∈ qs, 0 < q.len := by
  constructor
  · rintro ⟨⟨E, se⟩, h⟩ q hq
    obtain ⟨k, hk⟩ := List.mem_iff_getElem?.1 hq
    obtain ⟨_, _, _, hn, _⟩ := build_local loop qs 0 0 E se h k q hk
    exact hn
  · exact build_ok loop qs 0 0

theorem edge_batch (loop : Bool) (qs : List Seq) (off b : Nat) (E : List Edge) (se : List (Nat × Nat)) (h : build loop off b qs = .ok (E, se))
    (s m e b' : Nat) (hm : (s, m, e, b') ∈ E) : b ≤ b' ∧ ∃ q o, qs[b' - b]? = some q ∧ se[b' - b]? = some (o, o + q.len) ∧ o ≤ s ∧ s ≤ m ∧ m ≤ o + q.len ∧ e < q.len ∧ (loop = false → s < m) := by
  induction qs generalizing off b E se with
  | nil => cases h; cases hm
  | cons q qs ih =>
    obtain ⟨hpos, E', se', hb, rfl, rfl⟩ := build_cons loop off b q qs E se h
    rcases List.mem_append.1 hm with hm | hm
    · rw [mem_one] at hm
      obtain ⟨rfl, i, hi, rfl, hc⟩ := hm
      refine ⟨Nat.le_refl _, q, off, by simp, by simp, by omega, ?_⟩
      rcases hc with ⟨hl, rfl, rfl⟩ | ⟨j, h1, h2, rfl, hc⟩
      · exact ⟨Nat.le_refl _, by omega, hi, fun h => by rw [h] at hl; cases hl⟩
      · have := jMax_le q i
        refine ⟨by omega, by omega, ?_, fun _ => by omega⟩
        rcases hc with ⟨_, h⟩ | ⟨_, ⟨h, _⟩ | ⟨_, h, h'⟩⟩ <;> omega
    · obtain ⟨h1, q', o, h2, h3, h4⟩ := ih _ _ _ _ hb hm
      have e : b' - b = (b' - (b + 1)) + 1 := by omega
      refine ⟨by omega, q', o, ?_, ?_, h4⟩
      · rw [e]; simpa using h2
      · rw [e]; simpa using h3

/-- Every edge is in the part of the sequence it names, never goes back, and emits a position of that sequence; only loops stay. -/
theorem edges_in_place (loop : Bool) (qs : List Seq) (E : List Edge) (se : List (Nat × Nat)) (h : staircase loop qs = .ok (E, se))
    (s m e b : Nat) (hm : (s, m, e, b) ∈ E) :
    ∃ q o, qs[b]? = some q ∧ se[b]? = some (o, o + q.len) ∧ o ≤ s ∧ s ≤ m ∧ m ≤ o + q.len ∧ e < q.len ∧ (loop = false → s < m) := by
  obtain ⟨_, h⟩ := edge_batch loop qs 0 0 E se h s m e b hm
  simpa using h

def exQ : List Seq := [{ len := 2 }, { len := 3, maxSkip := 1 }]
example : staircase false exQ = .ok ([(0, 1, 0, 0), (0, 2, 0, 0), (0, 2, 1, 0), (1, 2, 1, 0), (3, 4, 0, 1), (4, 5, 1, 1), (5, 6, 2, 1)], [(0, 2), (3, 6)]) := by decide +kernel
example : staircase true [{ len := 2 }] = .ok ([(0, 0, 0, 0), (0, 1, 1, 0), (0, 2, 0, 0), (0, 2, 1, 0), (1, 1, 1, 0), (1, 2, 1, 0)], [(0, 2)]) := by decide +kernel
example : staircase true [{ len := 2 }, { len := 0 }] = .error .assertion := by decide +kernel

end Verif.Staircase
