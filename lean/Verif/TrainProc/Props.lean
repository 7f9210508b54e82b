import Verif.TrainProc.Model
import Mathlib.Tactic.Common
/-
The manager ends, and with the right exit code (C92).
-/
namespace Verif.TrainProc

open Verif.Py

/-- The newest epoch after `n` runs: there is a model of it, unless there is none at all, and none of a later one. -/
def Newest (models : List Nat) (e : Nat) : Prop := (e ∈ models ∨ (models = [] ∧ e = 0)) ∧ ∀ x ∈ models, x ≤ e

theorem foldl_max (l : List Nat) (a : Nat) : (l.foldl max a = a ∨ l.foldl max a ∈ l) ∧ a ≤ l.foldl max a ∧ ∀ x ∈ l, x ≤ l.foldl max a := by
  induction l generalizing a with
  | nil => simp
  | cons y r ih =>
    obtain ⟨h1, h2, h3⟩ := ih (max a y)
    simp only [List.foldl_cons, List.mem_cons]
    refine ⟨?_, by omega, ?_⟩
    · rcases h1 with e | e
      · rcases Nat.le_total a y with h | h
        · right; left; omega
        · left; omega
      · exact Or.inr (Or.inr e)
    · rintro x (rfl | hx)
      · omega
      · exact h3 x hx

theorem curEpoch_newest (models : List Nat) : Newest models (curEpoch models) := by
  obtain ⟨h1, h2, h3⟩ := foldl_max models 0
  refine ⟨?_, h3⟩
  rcases h1 with e | e
  · cases models with
    | nil => exact Or.inr ⟨rfl, rfl⟩
    | cons y r =>
      left
      have := h3 y (by simp)
      have : y = 0 := by unfold curEpoch at *; omega
      unfold curEpoch
      rw [e]
      simp [this]
  · exact Or.inl e

theorem newest_unique {models : List Nat} {a b : Nat} (ha : Newest models a) (hb : Newest models b) : a = b := by
  rcases ha.1 with h | h
  · rcases hb.1 with h' | h'
    · have := ha.2 _ h'; have := hb.2 _ h; omega
    · rw [h'.1] at h; simp at h
  · rcases hb.1 with h' | h'
    · rw [h.1] at h'; simp at h'
    · omega

/-- What holds in the loop before run `n`. -/
structure Before (final : Nat) (ep : Nat → Nat) (w : World) (n : Nat) (last : Option Nat) (code : Option Int) : Prop where
  first : n = 0 → last = none ∧ code = none
  later : ∀ k, n = k + 1 → last = some (ep k) ∧ code = some (w.codes k)
  notFinal : ∀ j < n, ep j ≠ final
  progress : ∀ j, j + 1 < n → ep j < ep (j + 1)

/-- What the manager says at its end is right. -/
def Right (final : Nat) (ep : Nat → Nat) (w : World) : Res (Nat × Int) → Prop
  | .ok (n, code) =>
    (∀ j < n, ep j ≠ final) ∧ (∀ j, j + 1 < n → ep j < ep (j + 1)) ∧
    ((n = 0 ∧ ep 0 = final ∧ code = 0) ∨ ∃ k, n = k + 1 ∧ code = w.codes k ∧ (ep n = final ∨ ep n = ep k))
  | .error e => e = .assertion ∧ ∃ k, ep (k + 1) < ep k

theorem loop_right {final : Nat} {ep : Nat → Nat} {w : World} (hep : ∀ n, Newest (w.models n) (ep n)) (fuel : Nat) :
    ∀ {n : Nat} {last : Option Nat} {code : Option Int} {r : Res (Nat × Int)}, Before final ep w n last code →
      loop final w fuel n last code = some r → Right final ep w r := by
  have hcur : ∀ n, curEpoch (w.models n) = ep n := fun n => newest_unique (curEpoch_newest _) (hep n)
  induction fuel with
  | zero => intro n last code r _ h; simp [loop] at h
  | succ fuel ih =>
    intro n last code r hb h
    unfold loop at h
    simp only [hcur] at h
    cases n with
    | zero =>
      obtain ⟨rfl, rfl⟩ := hb.first rfl
      by_cases e : ep 0 = final
      · simp only [e, if_true, Option.some.injEq] at h
        subst h
        exact ⟨hb.notFinal, hb.progress, Or.inl ⟨rfl, e, rfl⟩⟩
      · rw [if_neg e] at h
        refine ih ⟨by simp, ?_, ?_, ?_⟩ h
        · intro k hk; obtain rfl : k = 0 := by omega
          exact ⟨rfl, rfl⟩
        · intro j hj; obtain rfl : j = 0 := by omega
          exact e
        · intro j hj; omega
    | succ k =>
      obtain ⟨rfl, rfl⟩ := hb.later k rfl
      by_cases e : ep (k + 1) = final
      · simp only [e, if_true, Option.some.injEq] at h
        subst h
        exact ⟨hb.notFinal, hb.progress, Or.inr ⟨k, rfl, rfl, Or.inl e⟩⟩
      · rw [if_neg e] at h
        simp only at h
        by_cases hle : ep k ≤ ep (k + 1)
        · rw [if_pos hle] at h
          by_cases heq : ep (k + 1) = ep k
          · simp only [heq, if_true, Option.some.injEq, Option.getD_some] at h
            subst h
            exact ⟨hb.notFinal, hb.progress, Or.inr ⟨k, rfl, rfl, Or.inr heq⟩⟩
          · rw [if_neg heq] at h
            refine ih ⟨by simp, ?_, ?_, ?_⟩ h
            · intro k' hk; obtain rfl : k' = k + 1 := by omega
              exact ⟨rfl, rfl⟩
            · intro j hj
              by_cases hj' : j = k + 1
              · rw [hj']; exact e
              · exact hb.notFinal j (by omega)
            · intro j hj
              by_cases hj' : j = k
              · subst hj'; omega
              · exact hb.progress j (by omega)
        · rw [if_neg hle] at h
          simp only [Option.some.injEq] at h
          subst h
          exact ⟨rfl, k, by omega⟩

/-- **C92** The exit code is that of the last run, and 0 if there was nothing to do; a run is started only when the training is not at
its end, and again only after progress; and at the end the final epoch is there, or the last run made no progress. -/
theorem manager_right (final : Nat) (w : World) (ep : Nat → Nat) (hep : ∀ n, Newest (w.models n) (ep n)) (fuel : Nat)
    (r : Res (Nat × Int)) (h : manager final w fuel = some r) : Right final ep w r :=
  loop_right hep fuel ⟨fun _ => ⟨rfl, rfl⟩, by simp, by simp, by simp⟩ h

theorem loop_ends {final : Nat} {ep : Nat → Nat} {w : World} (hep : ∀ n, Newest (w.models n) (ep n))
    (hchild : ∀ n, ep (n + 1) ≤ max final (ep n)) (fuel : Nat) :
    ∀ {k : Nat} {code : Int}, ep k < final → final - ep k < fuel →
      ∃ r, loop final w fuel (k + 1) (some (ep k)) (some code) = some r ∧ ∀ m c, r = .ok (m, c) → m ≤ k + (final - ep k) := by
  have hcur : ∀ n, curEpoch (w.models n) = ep n := fun n => newest_unique (curEpoch_newest _) (hep n)
  induction fuel with
  | zero => intro k code _ h; omega
  | succ fuel ih =>
    intro k code hk hf
    have hc := hchild k
    unfold loop
    simp only [hcur]
    by_cases e : ep (k + 1) = final
    · rw [if_pos e]
      exact ⟨_, rfl, by simp only [Except.ok.injEq, Prod.mk.injEq]; rintro m c ⟨rfl, _⟩; omega⟩
    · rw [if_neg e]
      by_cases hle : ep k ≤ ep (k + 1)
      · rw [if_pos hle]
        by_cases heq : ep (k + 1) = ep k
        · rw [if_pos heq]
          exact ⟨_, rfl, by simp only [Except.ok.injEq, Prod.mk.injEq]; rintro m c ⟨rfl, _⟩; omega⟩
        · rw [if_neg heq]
          obtain ⟨r, h1, h2⟩ := ih (k := k + 1) (code := w.codes (k + 1)) (by omega) (by omega)
          refine ⟨r, h1, fun m c hr => ?_⟩
          have := h2 m c hr
          omega
      · rw [if_neg hle]
        exact ⟨_, rfl, by simp⟩

/-- **C92** If the training does not go beyond the final epoch, then the manager ends, whatever happens in the subprocess; there are
at most as many runs as epochs were missing. -/
theorem manager_ends (final : Nat) (w : World) (ep : Nat → Nat) (hep : ∀ n, Newest (w.models n) (ep n))
    (hchild : ∀ n, ep (n + 1) ≤ max final (ep n)) :
    ∃ r, manager final w (final - ep 0 + 2) = some r ∧
      ∀ n c, r = .ok (n, c) → n ≤ final - ep 0 ∨ (final < ep 0 ∧ n = 1) := by
  have hcur : ∀ n, curEpoch (w.models n) = ep n := fun n => newest_unique (curEpoch_newest _) (hep n)
  unfold manager loop
  simp only [hcur]
  by_cases e : ep 0 = final
  · rw [if_pos e]
    exact ⟨_, rfl, by simp only [Except.ok.injEq, Prod.mk.injEq]; rintro m c ⟨rfl, _⟩; omega⟩
  · rw [if_neg e]
    by_cases hlt : ep 0 < final
    · obtain ⟨r, h1, h2⟩ := loop_ends hep hchild (final - ep 0 + 1) (k := 0) (code := w.codes 0) hlt (by omega)
      exact ⟨r, h1, fun m c hr => Or.inl (by have := h2 m c hr; omega)⟩
    · have hc := hchild 0
      unfold loop
      simp only [hcur]
      by_cases e1 : ep 1 = final
      · rw [if_pos (by exact e1)]
        exact ⟨_, rfl, by simp only [Except.ok.injEq, Prod.mk.injEq]; rintro m c ⟨rfl, _⟩; omega⟩
      · rw [if_neg (by exact e1)]
        by_cases e2 : ep 0 ≤ ep 1
        · rw [if_pos (by exact e2), if_pos (by have : ep (0 + 1) ≤ max final (ep 0) := hc; show ep 1 = ep 0; simp only [Nat.zero_add] at this; omega)]
          exact ⟨_, rfl, by simp only [Except.ok.injEq, Prod.mk.injEq]; rintro m c ⟨rfl, _⟩; omega⟩
        · rw [if_neg (by exact e2)]
          exact ⟨_, rfl, by simp⟩

/-- More fuel makes no difference. -/
theorem loop_mono {final : Nat} {w : World} (fuel : Nat) :
    ∀ {n : Nat} {last : Option Nat} {code : Option Int} {r : Res (Nat × Int)}, loop final w fuel n last code = some r →
      ∀ k, loop final w (fuel + k) n last code = some r := by
  induction fuel with
  | zero => intro n last code r h; simp [loop] at h
  | succ fuel ih =>
    intro n last code r h k
    rw [show fuel + 1 + k = (fuel + k) + 1 by omega]
    unfold loop at h ⊢
    simp only at h ⊢
    split
    · next e => rw [if_pos e] at h; exact h
    · next e =>
      rw [if_neg e] at h
      cases last with
      | none => exact ih h k
      | some l =>
        simp only at h ⊢
        split
        · next e1 =>
          rw [if_pos e1] at h
          split
          · next e2 => rw [if_pos e2] at h; exact h
          · next e2 => rw [if_neg e2] at h; exact ih h k
        · next e1 => rw [if_neg e1] at h; exact h

/-- **C92** With no crash which leaves models behind it: if every run gets to the final epoch or makes progress, then the training gets
to the final epoch. -/
theorem manager_reaches_final (final : Nat) (w : World) (ep : Nat → Nat) (hep : ∀ n, Newest (w.models n) (ep n))
    (h0 : ep 0 ≤ final) (hchild : ∀ n, ep n < final → ep n < ep (n + 1) ∧ ep (n + 1) ≤ final)
    (hstay : ∀ n, ep n = final → ep (n + 1) = final) :
    ∃ n c, manager final w (final - ep 0 + 2) = some (.ok (n, c)) ∧ ep n = final := by
  have hle : ∀ n, ep n ≤ final := by
    intro n
    induction n with
    | zero => exact h0
    | succ n ih =>
      by_cases h : ep n < final
      · exact (hchild n h).2
      · rw [hstay n (by omega)]; exact Nat.le_refl _
  obtain ⟨r, h1, _⟩ := manager_ends final w ep hep (fun n => by have := hle (n + 1); omega)
  have h2 := manager_right final w ep hep _ r h1
  cases r with
  | error e =>
    obtain ⟨_, k, hk⟩ := h2
    by_cases h : ep k < final
    · have := (hchild k h).1; omega
    · have := hle k; rw [hstay k (by omega)] at hk; omega
  | ok p =>
    obtain ⟨n, c⟩ := p
    obtain ⟨g1, _, g3⟩ := h2
    refine ⟨n, c, h1, ?_⟩
    rcases g3 with ⟨rfl, h, _⟩ | ⟨k, rfl, _, h | h⟩
    · exact h
    · exact h
    · have h3 := g1 k (by omega)
      have h4 := hle k
      have := (hchild k (by omega)).1
      omega

/-- **C92** The subprocess does not start a manager; and there is none for other tasks, a given start epoch or distributed training. -/
theorem child_is_not_manager (s : Setup) : starts (child s) = false := rfl

theorem starts_iff (s : Setup) : starts s = true ↔
    s.managed = false ∧ s.task = "train" ∧ s.startEpoch = "auto" ∧ s.horovod = false ∧ s.distributed = false := by
  obtain ⟨m, t, e, h, d⟩ := s
  unfold starts
  cases m <;> cases h <;> cases d <;> simp <;> tauto

/-- Models beyond the final epoch (it was made smaller): the training is started although there is nothing to do. -/
theorem beyond_final_starts (final : Nat) (w : World) (ep : Nat → Nat) (hep : ∀ n, Newest (w.models n) (ep n))
    (h0 : final < ep 0) (h1 : ep 1 = ep 0) : manager final w 2 = some (.ok (1, w.codes 0)) := by
  have hcur : ∀ n, curEpoch (w.models n) = ep n := fun n => newest_unique (curEpoch_newest _) (hep n)
  unfold manager loop
  simp only [hcur]
  rw [if_neg (by omega)]
  unfold loop
  simp only [hcur, Nat.zero_add]
  rw [if_neg (by omega), if_pos (by omega), if_pos h1]
  rfl

/-- A training of 5 epochs which crashes after epoch 2, and again in the end. -/
def exWorld : World := ⟨fun n => if n = 0 then [] else if n = 1 then [1, 2] else [2, 5, 4], fun n => if n = 0 then 1 else -11⟩

example : manager 5 exWorld 7 = some (.ok (2, -11)) := by decide +kernel

/-- A training which makes no progress. -/
example : manager 5 ⟨fun _ => [1], fun _ => 3⟩ 7 = some (.ok (1, 3)) := by decide +kernel

example : ∃ (w : World) (ep : Nat → Nat), (∀ n, Newest (w.models n) (ep n)) ∧ ep 0 ≤ 5 ∧
    (∀ n, ep n < 5 → ep n < ep (n + 1) ∧ ep (n + 1) ≤ 5) ∧ ∀ n, ep n = 5 → ep (n + 1) = 5 :=
  ⟨⟨fun n => [min n 5], fun _ => 1⟩, fun n => min n 5, fun n => ⟨Or.inl (by simp), by simp⟩, by simp, by intro n; simp only; omega,
    by intro n; simp only; omega⟩

example : starts ⟨false, "train", "auto", false, false⟩ = true := by decide +kernel

end Verif.TrainProc
