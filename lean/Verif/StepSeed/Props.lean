import Verif.StepSeed.Model
import Mathlib.Tactic.Ring
/-
C140: static seeds of a step, and samples without replacement.
-/
namespace Verif.StepSeed
open Verif Verif.Py

variable {S : Type}

/-- The step seeds of two seeds are the same only if the seeds are the same modulo `2^31`. -/
theorem seed_injective (a b : Int) : newSeed a = newSeed b ↔ a % 2 ^ 31 = b % 2 ^ 31 := by
  unfold newSeed
  rw [Int.emod_eq_emod_iff_emod_sub_eq_zero, Int.emod_eq_emod_iff_emod_sub_eq_zero (m := a)]
  constructor
  · intro h
    have h1 : (2 ^ 31 : Int) ∣ a * 5393 + 1187 - (b * 5393 + 1187) := Int.dvd_of_emod_eq_zero h
    -- 5393 * 1694333937 = 4255 * 2^31 + 1
    apply Int.emod_eq_zero_of_dvd
    have e : a - b = (a * 5393 + 1187 - (b * 5393 + 1187)) * 1694333937 - (a - b) * 4255 * 2 ^ 31 := by ring
    rw [e]
    exact Int.dvd_sub (Dvd.dvd.mul_right h1 _) (Dvd.intro_left _ rfl)
  · intro h
    have h1 : (2 ^ 31 : Int) ∣ a - b := Int.dvd_of_emod_eq_zero h
    apply Int.emod_eq_zero_of_dvd
    have e : a * 5393 + 1187 - (b * 5393 + 1187) = (a - b) * 5393 := by ring
    rw [e]
    exact Dvd.dvd.mul_right h1 _

/-- Every step seed is one which the generator accepts, also for negative seeds. -/
theorem seed_range (a : Int) : 0 ≤ newSeed a ∧ newSeed a < 2 ^ 31 := by
  unfold newSeed; omega

/-- Whatever was done before, setting the seed gives a state which depends on nothing else. -/
theorem set_forgets (g : Gen S) (s : St S) (before : List Op) (x : Int) :
    run g s (before ++ [.set x]) = ⟨newSeed x, g.seed (newSeed x)⟩ := by
  simp [run, step, setSeed, reset]

theorem step_keeps (g : Gen S) (s : St S) (c : Call) : (random g s c).2.stepSeed = s.stepSeed := by
  unfold random
  split
  · rfl
  · split
    · split <;> rfl
    · rfl

theorem steps_keep (g : Gen S) (ops : List Op) (s : St S) (h : ∀ x, .set x ∉ ops) : (run g s ops).stepSeed = s.stepSeed := by
  induction ops generalizing s with
  | nil => rfl
  | cons op ops ih =>
    simp only [run, List.foldl_cons]
    have := ih (step g s op) (fun x hx => h x (by simp [hx]))
    simp only [run] at this
    rw [this]
    cases op with
    | set x => exact absurd (by simp) (h x)
    | reset => rfl
    | call c => exact step_keeps g s c

/-- Static randomness: in every step which begins with a reset, the same calls get the same seeds, whatever happened in the steps since the seed was set. -/
theorem static_same_each_step (g : Gen S) (s : St S) (x : Int) (before since : List Op) (h : ∀ y, .set y ∉ since) (cs : List Call) :
    calls g (run g s (before ++ .set x :: since ++ [.reset])) cs = calls g ⟨newSeed x, g.seed (newSeed x)⟩ cs := by
  have h1 : run g s (before ++ .set x :: since ++ [.reset]) = reset g (run g (run g s (before ++ [.set x])) since) := by
    simp [run, step]
  rw [h1, set_forgets]
  have h2 := steps_keep g since ⟨newSeed x, g.seed (newSeed x)⟩ h
  have h3 : reset g (run g ⟨newSeed x, g.seed (newSeed x)⟩ since) = ⟨newSeed x, g.seed (newSeed x)⟩ := by
    unfold reset; rw [h2]
  rw [h3]

/-- The numbers of the generator, one after another. -/
def stream (g : Gen S) (s : S) : Nat → Int
  | 0 => (g.next s).1
  | n + 1 => stream g (g.next s).2 n

/-- The call gets a seed from the step: static, without an explicit state or an own seed. -/
def draws (c : Call) : Bool := !c.explicitState && c.static == some true && c.seed.isNone

theorem random_eq (g : Gen S) (s : St S) (c : Call) :
    random g s c = if draws c then (some (g.next s.rnd).1, { s with rnd := (g.next s.rnd).2 }) else (c.seed, s) := by
  obtain ⟨e, st, sd⟩ := c
  rcases e with _ | _ <;> rcases st with _ | _ | _ <;> rcases sd with _ | _ <;> rfl

/-- A call of a step which is static without own seed gets as seed the next number of the generator: the `m`-th, if there were `m` such calls before it in the step.
All others get the seed which was given (maybe none), and use up nothing. -/
theorem call_seeds (g : Gen S) (cs : List Call) (s : St S) (k : Nat) (c : Call) (hc : cs[k]? = some c) :
    (calls g s cs).1[k]? = some (if draws c then some (stream g s.rnd ((cs.take k).filter draws).length) else c.seed) := by
  induction cs generalizing s k with
  | nil => cases hc
  | cons d cs ih =>
    cases k with
    | zero =>
      simp only [List.getElem?_cons_zero, Option.some.injEq] at hc
      subst hc
      simp only [calls, List.getElem?_cons_zero, random_eq, List.take_zero, List.filter_nil, List.length_nil, stream]
      split <;> rfl
    | succ k =>
      simp only [List.getElem?_cons_succ] at hc
      simp only [calls, List.getElem?_cons_succ]
      rw [ih _ k hc, random_eq]
      cases hd : draws d with
      | true => simp [List.filter_cons, hd, stream]
      | false => simp [List.filter_cons, hd]

/-- A generator for examples. -/
def exG : Gen Int := ⟨fun s => s, fun s => (s * 7 % 11, s + 1)⟩
def exCalls : List Call := [⟨false, some true, none⟩, ⟨false, none, none⟩, ⟨false, some true, some 5⟩, ⟨false, some true, none⟩]
example : (calls exG ⟨3, 3⟩ exCalls).1 = [some 10, none, some 5, some 6] := by decide
example : newSeed 42 = 227693 := by decide

/-- Sampling: exactly as many as asked for, all different, and none which was not taken has a higher score. More than there are is refused. -/
theorem choice_top {n : Nat} (lp u : Fin n → ℝ) (scale : ℝ) (k : Nat) :
    (k ≤ n → ∃ l, choice lp u scale k = .ok l ∧ l.length = k ∧ l.Nodup ∧ ∀ i ∈ l, ∀ j, j ∉ l → score lp u scale j ≤ score lp u scale i) ∧
    (n < k → ∃ e, choice lp u scale k = .error e) := by
  classical
  constructor
  · intro hk
    refine ⟨_, by rw [choice, topK, if_pos hk], ?_, ?_, ?_⟩
    · rw [List.length_take, List.length_mergeSort, List.length_finRange]; omega
    · exact ((List.mergeSort_perm _ _).nodup_iff.2 (List.nodup_finRange n)).sublist (List.take_sublist _ _)
    · intro i hi j hj
      have hp := List.pairwise_mergeSort (le := fun a b : Fin n => decide (score lp u scale b ≤ score lp u scale a))
        (fun a b c h1 h2 => by simp only [decide_eq_true_eq] at *; exact le_trans h2 h1)
        (fun a b => by simp only [Bool.or_eq_true, decide_eq_true_eq]; exact le_total _ _) (List.finRange n)
      rw [← List.take_append_drop k ((List.finRange n).mergeSort _), List.pairwise_append] at hp
      have hmem : j ∈ (List.finRange n).mergeSort fun a b => decide (score lp u scale b ≤ score lp u scale a) :=
        (List.mergeSort_perm _ _).mem_iff.2 (List.mem_finRange j)
      rw [← List.take_append_drop k ((List.finRange n).mergeSort _), List.mem_append] at hmem
      rcases hmem with h | h
      · exact absurd h hj
      · have := hp.2.2 i hi j h
        simpa using this
  · intro hk
    exact ⟨_, by rw [choice, topK, if_neg (by omega)]⟩

/-- Without noise these are the best ones: the noise does not matter at all. -/
theorem no_noise {n : Nat} (lp u : Fin n → ℝ) (k : Nat) : choice lp u 0 k = topK lp k := by
  unfold choice
  congr 1
  funext i
  simp [score, scaled]

/-- The first sample is the one with the highest score. -/
theorem first_is_best {n : Nat} (lp u : Fin n → ℝ) (scale : ℝ) (i : Fin n) (h : ∀ j, j ≠ i → score lp u scale j < score lp u scale i) :
    choice lp u scale 1 = .ok [i] := by
  have hn : 1 ≤ n := by have := i.2; omega
  obtain ⟨l, h1, h2, _, h4⟩ := (choice_top lp u scale 1).1 hn
  obtain ⟨a, rfl⟩ := List.length_eq_one_iff.1 h2
  rw [h1]
  by_cases ha : a = i
  · rw [ha]
  · have := h4 a (by simp) i (by simp; exact fun e => ha e.symm)
    exact absurd (h a ha) (not_lt.2 this)

end Verif.StepSeed
