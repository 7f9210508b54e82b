import Verif.Legacy.Spec
/-
Theorem about `BatchSetGenerator` (C14).
-/
namespace Verif.Legacy
open Verif.Py Verif.NumbersDict

/-- The implementation state represents cursor position `p` over `l`. -/
structure BInv {α : Type} (cacheWhole : Bool) (l : List α) (p : Nat) (s : BSG α) : Prop where
  rest : s.buffer ++ s.gen = l.drop p
  pos : p ≤ l.length
  cache : cacheWhole = true → s.cache ++ s.gen = l
  act : s.cacheActive = true → s.gen = []
  fin : s.reachedEnd = true → s.gen = []
  idx : s.idx = p

theorem readNext_spec {α : Type} (cw : Bool) (l : List α) (p : Nat) (s : BSG α) (h : BInv cw l p s) :
    BInv cw l p (s.readNext cw).2 ∧ ((s.readNext cw).1 = true → (s.readNext cw).2.buffer.length = s.buffer.length + 1) ∧
    ((s.readNext cw).1 = false → s.gen = [] ∧ (s.readNext cw).2.gen = [] ∧ (s.readNext cw).2.buffer = s.buffer) := by
  unfold BSG.readNext
  by_cases he : s.reachedEnd = true
  · simp only [he, if_true]
    exact ⟨h, by simp, fun _ => ⟨h.fin he, h.fin he, trivial⟩⟩
  · simp only [he, Bool.false_eq_true, if_false]
    cases hg : s.gen with
    | nil =>
      refine ⟨⟨by simpa [hg] using h.rest, h.pos, by simpa [hg] using h.cache, fun _ => rfl, fun _ => rfl, h.idx⟩, by simp,
        fun _ => ⟨rfl, rfl, rfl⟩⟩
    | cons b gen =>
      have hact : s.cacheActive = false := by
        cases ha : s.cacheActive with
        | false => rfl
        | true => have := h.act ha; rw [hg] at this; cases this
      refine ⟨⟨?_, h.pos, ?_, ?_, ?_, h.idx⟩, by simp, by simp⟩
      · have := h.rest; rw [hg] at this; simpa using this
      · intro hcw
        have := h.cache hcw
        rw [hg] at this
        simp [hcw, hact, this]
      · intro ha; simp only at ha; rw [hact] at ha; cases ha
      · intro ha; simp at ha

theorem readLoop_spec {α : Type} (cw : Bool) (n : Nat) (l : List α) (p i : Nat) (s : BSG α) (h : BInv cw l p s) :
    BInv cw l p (s.readLoop cw n i) ∧
    (n ≤ s.buffer.length + i → n ≤ (s.readLoop cw n i).buffer.length ∨ (s.readLoop cw n i).gen = []) := by
  induction i generalizing s with
  | zero => exact ⟨h, fun hn => .inl (by simpa [BSG.readLoop] using hn)⟩
  | succ i ih =>
    unfold BSG.readLoop
    by_cases hge : s.buffer.length ≥ n
    · rw [if_pos hge]
      exact ⟨h, fun _ => .inl hge⟩
    · simp only [hge, if_false]
      obtain ⟨h1, h2, h3⟩ := readNext_spec cw l p s h
      cases hr : (s.readNext cw).1 with
      | true =>
        simp only [if_true]
        obtain ⟨h4, h5⟩ := ih _ h1
        exact ⟨h4, fun hn => h5 (by rw [h2 hr]; omega)⟩
      | false =>
        simp only [Bool.false_eq_true, if_false]
        exact ⟨h1, fun _ => .inr (h3 hr).2.1⟩

theorem call_spec {α : Type} (cw : Bool) (l : List α) (p : Nat) (s : BSG α) (h : BInv cw l p s) (c : Call) :
    (s.call cw c).1 = (cursor cw l p c).1 ∧ BInv cw l (cursor cw l p c).2 (s.call cw c).2 := by
  have hlen : ∀ s' : BSG α, BInv cw l p s' → s'.buffer.length + s'.gen.length = l.length - p := by
    intro s' h'
    have := congrArg List.length h'.rest
    simpa using this
  cases c with
  | peek n =>
    obtain ⟨h1, h2⟩ := readLoop_spec cw n l p n s h
    refine ⟨?_, h1⟩
    simp only [BSG.call, cursor]
    congr 1
    rw [← h1.rest]
    rcases h2 (by omega) with h2 | h2
    · rw [List.take_append_of_le_length h2]
    · rw [h2, List.append_nil]
  | advance n =>
    simp only [BSG.call, cursor]
    by_cases hn : n = 0
    · simp only [hn, if_true, Nat.lt_irrefl, false_and, if_false]
      exact ⟨trivial, h⟩
    · simp only [hn, if_false, Nat.pos_of_ne_zero hn, true_and]
      obtain ⟨h1, h2⟩ := readLoop_spec cw n l p n s h
      have hl := hlen _ h1
      have hp := h1.pos
      by_cases hle : n ≤ (s.readLoop cw n n).buffer.length
      · have hc : p + n ≤ l.length := by omega
        simp only [hle, hc, if_true]
        refine ⟨trivial, ⟨?_, hc, h1.cache, h1.act, h1.fin, by simp [h1.idx]⟩⟩
        have := congrArg (List.drop n) h1.rest
        rw [List.drop_append_of_le_length hle, List.drop_drop] at this
        exact this
      · have hg : (s.readLoop cw n n).gen = [] := by
          rcases h2 (by omega) with h2 | h2
          · exact absurd h2 hle
          · exact h2
        rw [hg] at hl
        have hc : ¬ (p + n ≤ l.length) := by simp at hl; omega
        simp only [hle, hc, if_false]
        exact ⟨trivial, h1⟩
  | hasMore =>
    simp only [BSG.call, cursor]
    have hl := hlen s h
    have hp := h.pos
    by_cases hb : s.buffer.length > 0
    · simp only [hb, if_true]
      exact ⟨by congr 1; simp; omega, h⟩
    · simp only [hb, if_false]
      obtain ⟨h1, h2, h3⟩ := readNext_spec cw l p s h
      refine ⟨?_, h1⟩
      congr 1
      cases hr : (s.readNext cw).1 with
      | true =>
        have := h2 hr
        have := hlen _ h1
        simp; omega
      | false =>
        obtain ⟨h4, _, _⟩ := h3 hr
        rw [h4] at hl
        simp at hl
        simp; omega
  | reset =>
    simp only [BSG.call, cursor]
    cases cw with
    | false => simp only [Bool.false_eq_true, if_false]; exact ⟨trivial, h⟩
    | true =>
      simp only [if_true]
      refine ⟨trivial, ⟨by simpa [BSG.reset] using h.cache rfl, by omega, fun _ => h.cache rfl, ?_, ?_, rfl⟩⟩
      · intro ha; exact h.fin ha
      · intro ha; cases ha
  | index => exact ⟨by simp [BSG.call, cursor, h.idx], h⟩

/-- C14. Any sequence of calls gives the results of a cursor over the list of all batches. -/
theorem bsg_refines_cursor {α : Type} (cacheWhole : Bool) (l : List α) (calls : List Call) :
    bsgRun cacheWhole (BSG.new l) calls = cursorRun cacheWhole l 0 calls := by
  have : ∀ p (s : BSG α), BInv cacheWhole l p s → bsgRun cacheWhole s calls = cursorRun cacheWhole l p calls := by
    induction calls with
    | nil => intros; rfl
    | cons c cs ih =>
      intro p s h
      obtain ⟨h1, h2⟩ := call_spec cacheWhole l p s h c
      simp only [bsgRun, cursorRun, h1, ih _ _ h2]
  exact this 0 _ ⟨by simp [BSG.new], by omega, by intro _; simp [BSG.new], (fun h => by cases h), (fun h => by cases h), rfl⟩

example : bsgRun true (BSG.new [1, 2, 3]) [.hasMore, .peek 2, .advance 1, .reset, .advance 3, .hasMore, .advance 1, .reset, .peek 9]
    = [.bool true, .batches [1, 2], .unit, .unit, .unit, .bool false, .error, .unit, .batches [1, 2, 3]] := by decide

end Verif.Legacy
