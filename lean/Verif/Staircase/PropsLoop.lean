import Verif.Staircase.PropsNodup
/-
C145: words with loops and limits.
-/
namespace Verif.Staircase
open Verif Verif.Py Spec

/-- A step which stays, or keeps the limits. -/
def StayOr (q : Seq) (a b : Nat) : Prop := b = a ∨ Allowed q.len q.maxSkip q.startMaxSkip q.endMaxSkip a b

theorem R_loop (q : Seq) (a b : Nat) : R true q a b ↔ R true { len := q.len } a b ∧ StayOr q a b := by
  unfold StayOr
  simp only [R, jMax_unlimited, true_and]
  constructor
  · rintro ⟨h1, h2 | ⟨h2, h3⟩⟩
    · exact ⟨⟨h1, Or.inl h2⟩, Or.inl h2⟩
    · have := jMax_le q a
      exact ⟨⟨h1, Or.inr ⟨h2, by omega⟩⟩, Or.inr ((allowed_iff q a b (by omega)).1 h3)⟩
  · rintro ⟨⟨h1, h2 | ⟨h2, h3⟩⟩, h4⟩
    · exact ⟨h1, Or.inl h2⟩
    · rcases h4 with h4 | h4
      · exact ⟨h1, Or.inl h4⟩
      · exact ⟨h1, Or.inr ⟨h2, (allowed_iff q a b h3).2 h4⟩⟩

/-- With loops, for all limits: the words are exactly the non-empty sequences of positions which do not decrease, where the steps between the positions after the first one that
is not 0, from 0 and to the end, stay or keep the limits. -/
theorem words_with_loop_and_limits (qs : List Seq) (E : List Edge) (se : List (Nat × Nat)) (h : staircase true qs = .ok (E, se)) (k : Nat) (q : Seq)
    (hq : qs[k]? = some q) : ∃ s t, se[k]? = some (s, t) ∧ ∀ w, Accepts E s t w ↔
      w ≠ [] ∧ w.Pairwise (· ≤ ·) ∧ (∀ e ∈ w, e < q.len) ∧
      Steps (fun a b => b = a ∨ Allowed q.len q.maxSkip q.startMaxSkip q.endMaxSkip a b) 0 ((w.dropWhile (· == 0)).tail ++ [q.len]) := by
  obtain ⟨o, _, hse, hn, hl⟩ := build_local true qs 0 0 E se h k _ hq
  refine ⟨o, o + q.len, hse, ?_⟩
  have hjl := jMax_le q 0
  intro w
  constructor
  · rintro ⟨r, hr, rfl⟩
    induction r with
    | nil => have : o = o + q.len := hr; omega
    | cons x r ih =>
      obtain ⟨e, m⟩ := x
      obtain ⟨he, hr⟩ := hr
      rw [edge_zero hl] at he
      rcases he with ⟨_, ⟨_, rfl, rfl⟩ | ⟨j, h1, h2, rfl, hc⟩⟩
      · obtain ⟨_, i2, i3, i4⟩ := ih hr
        refine ⟨by simp, List.pairwise_cons.2 ⟨fun _ _ => Nat.zero_le _, i2⟩, ?_, ?_⟩
        · intro x hx
          rcases List.mem_cons.1 hx with rfl | hx
          · exact hn
          · exact i3 x hx
        · simpa using i4
      · have hej : e ≤ j ∧ e < q.len := by
          rcases hc with ⟨hc, _⟩ | ⟨_, hc, hc'⟩ <;> omega
        obtain ⟨tl, p1, p2, _⟩ := run_pos hl r j h1 (by omega) hr
        have hboth : Steps (fun a b => R true { len := q.len } a b ∧ StayOr q a b) j tl := steps_imp j tl (fun x y _ _ hR => (R_loop q x y).1 hR) p2
        obtain ⟨hb1, hb2⟩ := (steps_and _ _ j tl).1 hboth
        have hall : Allowed q.len q.maxSkip q.startMaxSkip q.endMaxSkip 0 j := (allowed_iff q 0 j (by omega)).1 h2
        have hword : (e :: r.map Prod.fst).Pairwise (· ≤ ·) ∧ ∀ x ∈ e :: r.map Prod.fst, x < q.len := by
          cases hr' : r.map Prod.fst with
          | nil => simp [hej.2]
          | cons f w =>
            rw [hr'] at p1
            obtain ⟨s1, s2⟩ := (steps_loop q.len (f :: w) j tl p1 (by simp)).1 hb1
            simp only [List.cons_append, List.cons.injEq] at p1
            obtain ⟨rfl, _⟩ := p1
            refine ⟨List.pairwise_cons.2 ⟨?_, s1⟩, ?_⟩
            · intro c hc
              rcases List.mem_cons.1 hc with rfl | hc
              · exact hej.1
              · have := (List.pairwise_cons.1 s1).1 c hc; omega
            · intro x hx
              rcases List.mem_cons.1 hx with rfl | hx
              · exact hej.2
              · exact s2 x hx
        refine ⟨by simp, hword.1, hword.2, ?_⟩
        simp only [List.map_cons]
        by_cases h0 : e = 0
        · have hjn : j = q.len := by
            rcases hc with ⟨_, hc⟩ | ⟨_, _, hc⟩
            · have : ¬ j < q.len := fun h => hc ⟨rfl, h0, h⟩
              omega
            · omega
          have hnil : r = [] := by
            cases r with
            | nil => rfl
            | cons y r =>
              obtain ⟨e2, m⟩ := y
              have he := hr.1
              rw [edge_pos hl _ _ _ h1 (by omega)] at he
              obtain ⟨_, j', hR, _⟩ := he
              have := hR.1
              omega
          rw [hnil, h0]
          exact ⟨Or.inr (hjn ▸ hall), trivial⟩
        · have hd : (e :: r.map Prod.fst).dropWhile (· == 0) = e :: r.map Prod.fst := by
            rw [List.dropWhile_cons_of_neg (by simpa using h0)]
          rw [hd, List.tail_cons, p1]
          exact ⟨Or.inr hall, hb2⟩
  · rintro ⟨hne, hpw, hlt, hst⟩
    induction w with
    | nil => exact absurd rfl hne
    | cons e w ih =>
      have he := hlt e (by simp)
      obtain ⟨hp1, hp2⟩ := List.pairwise_cons.1 hpw
      have hlt' : ∀ x ∈ w, x < q.len := fun x hx => hlt x (by simp [hx])
      by_cases h0 : e = 0
      · have hd : (e :: w).dropWhile (· == 0) = w.dropWhile (· == 0) := by
          rw [List.dropWhile_cons_of_pos (by simpa using h0)]
        rw [hd] at hst
        cases w with
        | nil =>
          have hall : Allowed q.len q.maxSkip q.startMaxSkip q.endMaxSkip 0 q.len := by
            rcases hst.1 with h | h
            · omega
            · exact h
          refine ⟨[(e, o + q.len)], ⟨(edge_zero hl _ _).2 ⟨hn, Or.inr ⟨q.len, hn, (allowed_iff q 0 q.len (Nat.le_refl _)).2 hall, rfl, Or.inl ⟨he, fun h => ?_⟩⟩⟩, rfl⟩, rfl⟩
          exact absurd h.2.2 (Nat.lt_irrefl _)
        | cons f w =>
          obtain ⟨r, hr, hf⟩ := ih (by simp) hp2 hlt' hst
          exact ⟨(e, o) :: r, ⟨(edge_zero hl _ _).2 ⟨hn, Or.inl ⟨rfl, rfl, h0⟩⟩, hr⟩, by simp [hf]⟩
      · have hd : (e :: w).dropWhile (· == 0) = e :: w := by
          rw [List.dropWhile_cons_of_neg (by simpa using h0)]
        rw [hd, List.tail_cons] at hst
        obtain ⟨j, tl, htl⟩ : ∃ j tl, w ++ [q.len] = j :: tl := by
          cases w with
          | nil => exact ⟨_, _, rfl⟩
          | cons a w => exact ⟨_, _, rfl⟩
        have hej : e ≤ j ∧ j ≤ q.len ∧ Steps (R true { len := q.len }) j tl := by
          cases w with
          | nil =>
            simp only [List.nil_append, List.cons.injEq] at htl
            obtain ⟨rfl, rfl⟩ := htl
            exact ⟨by omega, Nat.le_refl _, trivial⟩
          | cons f w =>
            have hs := (steps_loop q.len (f :: w) j tl htl (by simp)).2 ⟨hp2, hlt'⟩
            simp only [List.cons_append, List.cons.injEq] at htl
            obtain ⟨rfl, _⟩ := htl
            have := hlt' f (by simp)
            exact ⟨hp1 f (by simp), by omega, hs⟩
        obtain ⟨hej, hjn, hbase⟩ := hej
        rw [htl] at hst
        obtain ⟨hfirst, hrest⟩ := hst
        have hall : Allowed q.len q.maxSkip q.startMaxSkip q.endMaxSkip 0 j := by
          rcases hfirst with h | h
          · omega
          · exact h
        have hsteps : Steps (R true q) j tl :=
          steps_imp j tl (fun x y _ _ hxy => (R_loop q x y).2 hxy) ((steps_and _ (StayOr q) j tl).2 ⟨hbase, hrest⟩)
        obtain ⟨r, hr, hf⟩ := pos_run hl w j tl (by omega) hjn htl hsteps
        refine ⟨(e, o + j) :: r, ⟨(edge_zero hl _ _).2 ⟨hn, Or.inr ⟨j, by omega, (allowed_iff q 0 j hjn).2 hall, rfl, ?_⟩⟩, hr⟩, by simp [hf]⟩
        by_cases hfe : e < j
        · exact Or.inl ⟨hfe, fun h => h0 h.2.1⟩
        · exact Or.inr ⟨rfl, by omega, by omega⟩

-- with a limit of one step and three positions, [1, 1, 2] is a word; [1, 2] is none, as it steps from 0 to 2
example : Steps (fun a b => b = a ∨ Allowed 3 1 0 0 a b) 0 ((([1, 1, 2] : List Nat).dropWhile (· == 0)).tail ++ [3]) := by
  simp [Steps, Allowed, List.dropWhile]
example : ¬ Steps (fun a b => b = a ∨ Allowed 3 1 0 0 a b) 0 ((([1, 2] : List Nat).dropWhile (· == 0)).tail ++ [3]) := by
  simp [Steps, Allowed, List.dropWhile]

end Verif.Staircase
