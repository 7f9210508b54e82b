import Verif.Staircase.Model
import Verif.Staircase.Spec
namespace Verif.Staircase
open Verif Verif.Py Spec

/-- What the edges from the states of one sequence are. -/
def Local (E : List Edge) (loop : Bool) (q : Seq) (off : Nat) : Prop :=
  ∀ i m e, i ≤ q.len → ((∃ b, (off + i, m, e, b) ∈ E) ↔ i < q.len ∧ ((loop = true ∧ m = off + i ∧ e = i) ∨
    ∃ j, i < j ∧ j ≤ jMax q i ∧ m = off + j ∧ ((0 < i ∧ e = i) ∨ (i = 0 ∧ ((e < j ∧ ¬ (loop = true ∧ e = 0 ∧ j < q.len)) ∨ (loop = true ∧ j < q.len ∧ e = j))))))

theorem jMax_le (q : Seq) (i : Nat) : jMax q i ≤ q.len := by unfold jMax; split <;> omega

theorem mem_edgesTo (loop : Bool) (q : Seq) (off b i j : Nat) (x : Edge) :
    x ∈ edgesTo loop q off b i j ↔ ∃ e, x = (off + i, off + j, e, b) ∧
      ((0 < i ∧ e = i) ∨ (i = 0 ∧ ((e < j ∧ ¬ (loop = true ∧ e = 0 ∧ j < q.len)) ∨ (loop = true ∧ j < q.len ∧ e = j)))) := by
  unfold edgesTo
  by_cases hi : 0 < i
  · rw [if_pos hi]
    constructor
    · intro h; exact ⟨i, List.mem_singleton.1 h, Or.inl ⟨hi, rfl⟩⟩
    · rintro ⟨e, rfl, h | h⟩
      · rw [h.2]; exact List.mem_singleton.2 rfl
      · omega
  · rw [if_neg hi, List.mem_append, List.mem_map]
    have h0 : i = 0 := by omega
    constructor
    · rintro (⟨t, ht, rfl⟩ | h)
      · rw [List.mem_filter, List.mem_range, decide_eq_true_eq] at ht
        exact ⟨t, rfl, Or.inr ⟨h0, Or.inl ht⟩⟩
      · by_cases hc : loop = true ∧ j < q.len
        · rw [if_pos hc] at h
          exact ⟨j, List.mem_singleton.1 h, Or.inr ⟨h0, Or.inr ⟨hc.1, hc.2, rfl⟩⟩⟩
        · rw [if_neg hc] at h; cases h
    · rintro ⟨e, rfl, h | ⟨_, h | h⟩⟩
      · omega
      · left; exact ⟨e, by rw [List.mem_filter, List.mem_range, decide_eq_true_eq]; exact h, rfl⟩
      · right; rw [if_pos ⟨h.1, h.2.1⟩, h.2.2]; exact List.mem_singleton.2 rfl

theorem mem_edgesAt (loop : Bool) (q : Seq) (off b i : Nat) (x : Edge) :
    x ∈ edgesAt loop q off b i ↔ (loop = true ∧ x = (off + i, off + i, i, b)) ∨ ∃ j, i < j ∧ j ≤ jMax q i ∧ x ∈ edgesTo loop q off b i j := by
  unfold edgesAt
  rw [List.mem_append, List.mem_flatMap]
  apply or_congr
  · cases loop <;> simp
  · constructor
    · rintro ⟨j, hj, hx⟩
      rw [List.mem_range'_1] at hj
      exact ⟨j, by omega, by omega, hx⟩
    · rintro ⟨j, h1, h2, hx⟩
      exact ⟨j, by rw [List.mem_range'_1]; omega, hx⟩

/-- All edges of one sequence. -/
theorem mem_one (loop : Bool) (q : Seq) (off b : Nat) (s m e b' : Nat) :
    (s, m, e, b') ∈ (List.range q.len).flatMap (edgesAt loop q off b) ↔ b' = b ∧ ∃ i, i < q.len ∧ s = off + i ∧ ((loop = true ∧ m = off + i ∧ e = i) ∨
    ∃ j, i < j ∧ j ≤ jMax q i ∧ m = off + j ∧ ((0 < i ∧ e = i) ∨ (i = 0 ∧ ((e < j ∧ ¬ (loop = true ∧ e = 0 ∧ j < q.len)) ∨ (loop = true ∧ j < q.len ∧ e = j))))) := by
  rw [List.mem_flatMap]
  constructor
  · rintro ⟨i, hi, hx⟩
    rw [List.mem_range] at hi
    rw [mem_edgesAt] at hx
    rcases hx with ⟨hl, hx⟩ | ⟨j, h1, h2, hx⟩
    · simp only [Prod.mk.injEq] at hx
      exact ⟨hx.2.2.2, i, hi, hx.1, Or.inl ⟨hl, hx.2.1, hx.2.2.1⟩⟩
    · rw [mem_edgesTo] at hx
      obtain ⟨e', hx, h⟩ := hx
      simp only [Prod.mk.injEq] at hx
      refine ⟨hx.2.2.2, i, hi, hx.1, Or.inr ⟨j, h1, h2, hx.2.1, ?_⟩⟩
      rw [hx.2.2.1]; exact h
  · rintro ⟨rfl, i, hi, rfl, h⟩
    refine ⟨i, List.mem_range.2 hi, ?_⟩
    rw [mem_edgesAt]
    rcases h with ⟨hl, rfl, rfl⟩ | ⟨j, h1, h2, rfl, h⟩
    · exact Or.inl ⟨hl, rfl⟩
    · exact Or.inr ⟨j, h1, h2, by rw [mem_edgesTo]; exact ⟨e, rfl, h⟩⟩

theorem build_cons (loop : Bool) (off b : Nat) (q : Seq) (qs : List Seq) (E : List Edge) (se : List (Nat × Nat)) (h : build loop off b (q :: qs) = .ok (E, se)) :
    0 < q.len ∧ ∃ E' se', build loop (off + q.len + 1) (b + 1) qs = .ok (E', se') ∧
      E = (List.range q.len).flatMap (edgesAt loop q off b) ++ E' ∧ se = (off, off + q.len) :: se' := by
  unfold build at h
  by_cases hz : q.len = 0
  · rw [if_pos hz] at h; cases h
  · rw [if_neg hz] at h
    cases hb : build loop (off + q.len + 1) (b + 1) qs with
    | error err => rw [hb] at h; cases h
    | ok p =>
      rw [hb] at h
      obtain ⟨E', se'⟩ := p
      cases h
      exact ⟨by omega, E', se', rfl, rfl, rfl⟩

/-- The edges are from states from `off` on. -/
theorem build_from (loop : Bool) (qs : List Seq) (off b : Nat) (E : List Edge) (se : List (Nat × Nat)) (h : build loop off b qs = .ok (E, se)) :
    ∀ s m e b', (s, m, e, b') ∈ E → off ≤ s := by
  induction qs generalizing off b E se with
  | nil => cases h; intro _ _ _ _ h; cases h
  | cons q qs ih =>
    obtain ⟨_, E', se', hb, rfl, rfl⟩ := build_cons loop off b q qs E se h
    intro s m e b' hm
    rcases List.mem_append.1 hm with hm | hm
    · rw [mem_one] at hm
      obtain ⟨_, i, _, rfl, _⟩ := hm
      omega
    · have := ih _ _ _ _ hb s m e b' hm; omega

theorem build_local (loop : Bool) (qs : List Seq) (off b : Nat) (E : List Edge) (se : List (Nat × Nat)) (h : build loop off b qs = .ok (E, se)) (k : Nat) (q : Seq)
    (hq : qs[k]? = some q) : ∃ o, off ≤ o ∧ se[k]? = some (o, o + q.len) ∧ 0 < q.len ∧ Local E loop q o := by
  induction qs generalizing off b E se k with
  | nil => cases hq
  | cons q' qs ih =>
    obtain ⟨hpos, E', se', hb, rfl, rfl⟩ := build_cons loop off b q' qs E se h
    cases k with
    | zero =>
      simp only [List.getElem?_cons_zero, Option.some.injEq] at hq
      subst hq
      refine ⟨off, Nat.le_refl _, rfl, hpos, ?_⟩
      intro i m e hi
      constructor
      · rintro ⟨b', hm⟩
        rcases List.mem_append.1 hm with hm | hm
        · rw [mem_one] at hm
          obtain ⟨_, i', hi', hs, h⟩ := hm
          have : i = i' := by omega
          subst this
          exact ⟨hi', h⟩
        · have := build_from loop qs _ _ _ _ hb _ _ _ _ hm; omega
      · rintro ⟨hi', h⟩
        exact ⟨b, List.mem_append.2 (Or.inl ((mem_one loop q' off b _ _ _ _).2 ⟨rfl, i, hi', rfl, h⟩))⟩
    | succ k =>
      simp only [List.getElem?_cons_succ] at hq
      obtain ⟨o, ho, hse, hp, hl⟩ := ih _ _ _ _ hb k hq
      refine ⟨o, by omega, by simpa using hse, hp, ?_⟩
      intro i m e hi
      rw [← hl i m e hi]
      constructor
      · rintro ⟨b', hm⟩
        rcases List.mem_append.1 hm with hm | hm
        · rw [mem_one] at hm
          obtain ⟨_, i', hi', hs, _⟩ := hm
          omega
        · exact ⟨b', hm⟩
      · rintro ⟨b', hm⟩
        exact ⟨b', List.mem_append.2 (Or.inr hm)⟩

end Verif.Staircase
