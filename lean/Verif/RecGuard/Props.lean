import Mathlib.Data.List.Perm.Subperm
import Verif.RecGuard.Model
/-
C149: the guard against infinite recursion.
-/
namespace Verif.RecGuard
open Spec

/-- Whatever the program does, and however it ends, the open guards afterwards are those before; and the outcome is the one of the specification. -/
theorem run_spec (p : Prog) : ∀ c : Cache, (run p c).1 = outcome (ensure c) p ∧ ensure (run p c).2 = ensure c := by
  induction p with
  | done => intro c; exact ⟨rfl, rfl⟩
  | fail e => intro c; exact ⟨rfl, rfl⟩
  | seq p q ihp ihq =>
    intro c
    simp only [run, outcome]
    rw [← (ihp c).1]
    by_cases h : (run p c).1 = .ok
    · rw [if_pos h, if_pos h, (ihq _).1, (ihq _).2, (ihp c).2]; exact ⟨rfl, rfl⟩
    · rw [if_neg h, if_neg h]; exact ⟨rfl, (ihp c).2⟩
  | tryExcept p q ihp ihq =>
    intro c
    simp only [run, outcome]
    rw [← (ihp c).1]
    by_cases h : (run p c).1 = .ok
    · rw [if_pos h, if_pos h]; exact ⟨h, (ihp c).2⟩
    · rw [if_neg h, if_neg h, (ihq _).1, (ihq _).2, (ihp c).2]; exact ⟨rfl, rfl⟩
  | guarded key body ih =>
    intro c
    simp only [run, outcome]
    by_cases hk : key = []
    · rw [if_pos hk, if_pos hk]; exact ⟨rfl, rfl⟩
    · rw [if_neg hk, if_neg hk]
      by_cases hm : key ∈ ensure c
      · rw [if_pos hm, if_pos hm]; exact ⟨rfl, rfl⟩
      · rw [if_neg hm, if_neg hm]
        have h := ih (some (add key (ensure c)))
        have ha : add key (ensure c) = key :: ensure c := if_neg hm
        rw [ha] at h ⊢
        have h2 : ensure (run body (some (key :: ensure c))).2 = key :: ensure c := h.2
        have hl : leave key (run body (some (key :: ensure c))) =
            ((run body (some (key :: ensure c))).1, some ((key :: ensure c).erase key)) := by
          simp only [leave]
          rw [h2, if_pos (by simp)]
        rw [hl]
        refine ⟨h.1, ?_⟩
        simp [ensure]

/-- The removal at the end never fails. -/
theorem no_key_error (p : Prog) (c : Cache) : (run p c).1 ≠ .keyError := by
  rw [(run_spec p c).1]
  generalize ensure c = o
  induction p generalizing o with
  | done => simp [outcome]
  | fail e => simp [outcome]
  | seq p q ihp ihq =>
    simp only [outcome]; split
    · exact ihq o
    · exact ihp o
  | tryExcept p q ihp ihq =>
    simp only [outcome]; split
    · simp
    · exact ihq o
  | guarded key body ih =>
    simp only [outcome]; split
    · simp
    · split
      · simp
      · exact ih _

theorem nested_outcome (body : Prog) (ks : List (List Nat)) (hne : [] ∉ ks) : ∀ o : List (List Nat),
    ((ks.Nodup ∧ ∀ k ∈ ks, k ∉ o) → outcome o (nested body ks) = outcome (ks.reverse ++ o) body) ∧
    (¬ (ks.Nodup ∧ ∀ k ∈ ks, k ∉ o) → outcome o (nested body ks) = .recursion) := by
  induction ks with
  | nil => intro o; simp [nested]
  | cons k ks ih =>
    intro o
    simp only [List.mem_cons, not_or] at hne
    have hk : k ≠ [] := fun e => hne.1 e.symm
    have ih := ih hne.2 (k :: o)
    simp only [nested, outcome, if_neg hk]
    by_cases hm : k ∈ o
    · refine ⟨fun h => absurd hm (h.2 k (by simp)), fun _ => by rw [if_pos hm]⟩
    · rw [if_neg hm]
      have heq : ((k :: ks).Nodup ∧ ∀ x ∈ k :: ks, x ∉ o) ↔ (ks.Nodup ∧ ∀ x ∈ ks, x ∉ k :: o) := by
        simp only [List.nodup_cons, List.mem_cons, not_or]
        constructor
        · rintro ⟨⟨h1, h2⟩, h3⟩
          exact ⟨h2, fun x hx => ⟨fun e => h1 (e ▸ hx), h3 x (Or.inr hx)⟩⟩
        · rintro ⟨h1, h2⟩
          refine ⟨⟨fun hx => (h2 k hx).1 rfl, h1⟩, fun x hx => ?_⟩
          rcases hx with rfl | hx
          · exact hm
          · exact (h2 x hx).2
      rw [heq]
      refine ⟨fun h => ?_, ih.2⟩
      rw [ih.1 h]; simp

/-- Nested calls, the innermost of which just returns, end in the detection exactly if some arguments occur twice. -/
theorem nested_calls (ks : List (List Nat)) (hne : [] ∉ ks) :
    (ks.Nodup → (run (nested .done ks) none).1 = .ok) ∧ (¬ ks.Nodup → (run (nested .done ks) none).1 = .recursion) := by
  have h := nested_outcome .done ks hne []
  rw [(run_spec _ _).1]
  refine ⟨fun hn => ?_, fun hn => h.2 (by simpa using hn)⟩
  rw [show ensure none = [] from rfl, h.1 (by simpa using hn)]; rfl

/-- So a recursion whose arguments come from finitely many is never deeper than their number: beyond that it is detected, whatever the innermost call does. -/
theorem depth_bounded (all ks : List (List Nat)) (body : Prog) (hne : [] ∉ ks) (hsub : ∀ k ∈ ks, k ∈ all) (hlen : all.length < ks.length) (c : Cache) :
    (run (nested body ks) c).1 = .recursion := by
  rw [(run_spec _ _).1]
  apply (nested_outcome body ks hne (ensure c)).2
  rintro ⟨hn, -⟩
  have := (List.subperm_of_subset hn hsub).length_le
  omega

/-- Calls one after the other with the same arguments are fine, also after one of them failed. -/
theorem again_fine (k : List Nat) (hk : k ≠ []) (p q : Prog) (hp : outcome [k] p ≠ .ok) :
    (run (.tryExcept (.guarded k p) (.guarded k q)) none).1 = outcome [k] q := by
  rw [(run_spec _ _).1]
  simp [outcome, ensure, hk, hp]

/-- Without arguments it is refused, and the body does not run. -/
theorem no_args (p : Prog) (c : Cache) : run (.guarded [] p) c = (.valueError, c) := rfl

example : (run (nested .done [[1], [2, 3], [3, 2]]) none).1 = .ok := by decide +kernel
example : (run (nested .done [[1], [2, 3], [1]]) none).1 = .recursion := by decide +kernel
example : run (.seq (.tryExcept (.guarded [1] (.fail 7)) .done) (.guarded [1] (.guarded [2] .done))) none = (.ok, some []) := by decide +kernel
example : (run (nested (.fail 1) [[1], [2], [1]]) (some [[5]])).1 = .recursion :=
  depth_bounded [[1], [2]] _ _ (by decide) (by decide) (by decide) _

end Verif.RecGuard
