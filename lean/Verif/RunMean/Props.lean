import Verif.RunMean.Model
import Verif.RunMean.Spec
import Mathlib.Algebra.Order.Field.Basic
import Mathlib.Algebra.Order.Field.Rat
import Mathlib.Algebra.BigOperators.Ring.List
import Mathlib.Algebra.BigOperators.Group.Finset.Basic
import Mathlib.Algebra.BigOperators.Ring.Finset
import Mathlib.Data.Fintype.BigOperators
import Mathlib.Algebra.Order.BigOperators.Group.List
import Mathlib.Tactic.Ring
import Mathlib.Tactic.Linarith
import Mathlib.Tactic.FieldSimp
/-
C132: running means.
-/
namespace Verif.RunMean
open Verif Verif.Py

variable {ι α : Type} [Field α]

/-- The calls of a history which update the mean. -/
def updating (only : Bool) (h : List (Bool × X ι α)) : List (X ι α) :=
  (h.filter fun p => p.1 || !only).map Prod.snd

theorem ema_nil (a m : α) : Spec.ema a m [] = m := by simp [Spec.ema]

theorem zip_shift (a : α) (l : List α) (k : Nat) :
    ((l.zipIdx k).map fun p => a * (1 - a) ^ p.2 * p.1).sum = (1 - a) ^ k * ((l.zipIdx).map fun p => a * (1 - a) ^ p.2 * p.1).sum := by
  induction l generalizing k with
  | nil => simp
  | cons x t ih =>
    simp only [List.zipIdx_cons, List.map_cons, List.sum_cons, zero_add]
    rw [ih (k + 1), ih 1]
    ring

theorem ema_append (a m : α) (xs : List α) (x : α) : Spec.ema a m (xs ++ [x]) = (1 - a) * Spec.ema a m xs + a * x := by
  unfold Spec.ema
  simp only [List.length_append, List.length_singleton, List.reverse_append, List.reverse_singleton, List.singleton_append, List.zipIdx_cons,
    List.map_cons, List.sum_cons, zero_add]
  rw [zip_shift a xs.reverse 1]
  ring

theorem ema_cons (a m : α) (x : α) (xs : List α) : Spec.ema a m (x :: xs) = Spec.ema a (m + a * (x - m)) xs := by
  induction xs using List.reverseRecOn with
  | nil =>
    have h := ema_append a m [] x
    rw [ema_nil] at h
    rw [ema_nil]
    simp only [List.nil_append] at h
    rw [h]; ring
  | append_singleton t y ih => rw [← List.cons_append, ema_append, ema_append, ih]

theorem filter_none (c : Cfg α) (x : X ι α) (h : ∀ d ∈ x.dims, d ∈ c.shape) :
    (x.dims.filter fun d => decide (d ∉ c.shape)) = [] := by
  rw [List.filter_eq_nil_iff]; intro d hd; simp [h d hd]

/-- When all inputs which count have only dims of the mean, the mean after any history of calls is the exponential moving average of exactly the inputs of
the calls which update: all calls in training, and the others too if so configured. -/
theorem history_mean (c : Cfg α) (h : List (Bool × X ι α)) (m : ι → α) (hd : ∀ x ∈ updating c.onlyInTrain h, ∀ d ∈ x.dims, d ∈ c.shape) :
    calls c h m = .ok fun i => Spec.ema c.alpha (m i) ((updating c.onlyInTrain h).map fun x => x.meanOver [] i) := by
  induction h generalizing m with
  | nil => simp [calls, updating, ema_nil]
  | cons p rest ih =>
    obtain ⟨t, x⟩ := p
    by_cases hu : (t || !c.onlyInTrain) = true
    · have hup : updating c.onlyInTrain ((t, x) :: rest) = x :: updating c.onlyInTrain rest := by
        simp only [updating]; rw [List.filter_cons_of_pos (by simpa using hu)]; rfl
      rw [hup] at hd ⊢
      have hx : ∀ d ∈ x.dims, d ∈ c.shape := hd x (by simp)
      have hcall : call c t x m = .ok fun i => m i + c.alpha * (x.meanOver [] i - m i) := by
        have hcond : (!c.onlyInTrain || t) = true := by rw [Bool.or_comm]; exact hu
        simp only [call, hcond, if_true, update]
        rw [filter_none c x hx, if_pos (by simpa using hx)]
      simp only [calls, hcall]
      rw [ih _ (fun y hy => hd y (by simp [hy]))]
      congr 1; funext i
      rw [List.map_cons, ema_cons]
    · have hup : updating c.onlyInTrain ((t, x) :: rest) = updating c.onlyInTrain rest := by
        simp only [updating]; rw [List.filter_cons_of_neg (by simpa using hu)]
      rw [hup] at hd ⊢
      have hcall : call c t x m = .ok m := by
        have hcond : (!c.onlyInTrain || t) = false := by rw [Bool.or_comm]; simpa using hu
        simp [call, hcond]
      simp only [calls, hcall]
      exact ih m hd

/-- With the default options, calls outside of training change nothing, and cannot fail, whatever the input. -/
theorem eval_unchanged (c : Cfg α) (honly : c.onlyInTrain = true) (h : List (Bool × X ι α)) (m : ι → α) (he : ∀ p ∈ h, p.1 = false) :
    calls c h m = .ok m := by
  have hup : updating c.onlyInTrain h = [] := by
    simp only [updating, List.map_eq_nil_iff, List.filter_eq_nil_iff]
    intro p hp; simp [he p hp, honly]
  rw [history_mean c h m (by rw [hup]; simp), hup]
  simp [ema_nil]

/-- The use which the documentation gives, an input with further dims such as batch and time, fails in every call which updates. -/
theorem documented_use_fails (c : Cfg α) (x : X ι α) (m : ι → α) (d : Nat) (hd : d ∈ x.dims) (hs : d ∉ c.shape) :
    call c true x m = .error .assertion := by
  have : ¬ (x.dims.all fun d => decide (d ∈ c.shape)) = true := by
    rw [List.all_eq_true]; intro h; exact hs (by simpa using h d hd)
  simp only [call, Bool.or_true, if_true, update, if_neg this]

/-- The factor 0 keeps the mean, the factor 1 always takes the newest value. -/
theorem alpha_ends (m x : α) (xs : List α) : Spec.ema 0 m xs = m ∧ Spec.ema 1 m (xs ++ [x]) = x := by
  refine ⟨?_, by rw [ema_append]; ring⟩
  induction xs using List.reverseRecOn with
  | nil => exact ema_nil _ _
  | append_singleton t y ih => rw [ema_append, ih]; ring

/-- Between factor 0 and 1, every cell stays between bounds which hold for the start and all inputs. -/
theorem stays_between [LinearOrder α] [IsStrictOrderedRing α] (a m lo hi : α) (xs : List α) (h0 : 0 ≤ a) (h1 : a ≤ 1)
    (hm : lo ≤ m ∧ m ≤ hi) (hx : ∀ x ∈ xs, lo ≤ x ∧ x ≤ hi) : lo ≤ Spec.ema a m xs ∧ Spec.ema a m xs ≤ hi := by
  induction xs using List.reverseRecOn with
  | nil => rw [ema_nil]; exact hm
  | append_singleton t y ih =>
    have ht := ih (fun x h => hx x (by simp [h]))
    have hy := hx y (by simp)
    rw [ema_append]
    have h2 : 0 ≤ 1 - a := by linarith
    constructor
    · have e1 := mul_le_mul_of_nonneg_left ht.1 h2
      have e2 := mul_le_mul_of_nonneg_left hy.1 h0
      linarith
    · have e1 := mul_le_mul_of_nonneg_left ht.2 h2
      have e2 := mul_le_mul_of_nonneg_left hy.2 h0
      linarith

theorem ema_sum [Fintype ι] (a : α) (m : ι → α) (xs : List (ι → α)) (hm : ∑ i, m i = 1) (hx : ∀ x ∈ xs, ∑ i, x i = 1) :
    ∑ i, Spec.ema a (m i) (xs.map fun x => x i) = 1 := by
  induction xs using List.reverseRecOn with
  | nil => simpa [ema_nil] using hm
  | append_singleton t y ih =>
    have ht := ih (fun x h => hx x (by simp [h]))
    have hy := hx y (by simp)
    simp only [List.map_append, List.map_cons, List.map_nil, ema_append, Finset.sum_add_distrib, ← Finset.mul_sum, ht, hy]
    ring

/-- A mean which is a probability distribution at the start stays one: with `is_prob_distribution`, and inputs which are distributions, after any history the
mean is a distribution, for factors between 0 and 1. -/
theorem stays_distribution [Fintype ι] [LinearOrder α] [IsStrictOrderedRing α] (c : Cfg α) (h : List (Bool × X ι α)) (m : ι → α) (h0 : 0 ≤ c.alpha)
    (h1 : c.alpha ≤ 1) (hp : c.isProb = true) (hn : c.size = some (Fintype.card ι)) (hpos : 0 < Fintype.card ι) (hi : initMean c = .ok m)
    (hd : ∀ x ∈ updating c.onlyInTrain h, ∀ d ∈ x.dims, d ∈ c.shape)
    (hx : ∀ x ∈ updating c.onlyInTrain h, (∀ i, 0 ≤ x.meanOver [] i) ∧ ∑ i, x.meanOver [] i = 1) :
    ∃ m', calls c h m = .ok m' ∧ (∀ i, 0 ≤ m' i) ∧ ∑ i, m' i = 1 := by
  have hm : m = fun _ => 1 / (Fintype.card ι : α) := by
    simp only [initMean, hp, if_true, hn] at hi
    split at hi
    · cases hi; rfl
    · cases hi
  have hc : (0 : α) < (Fintype.card ι : α) := by exact_mod_cast hpos
  refine ⟨_, history_mean c h m hd, ?_, ?_⟩
  · intro i
    induction hxs : (updating c.onlyInTrain h).map (fun x => x.meanOver [] i) using List.reverseRecOn with
    | nil => rw [ema_nil, hm]; exact le_of_lt (by positivity)
    | append_singleton t y ih =>
      clear ih
      have hall : ∀ x ∈ t ++ [y], 0 ≤ x := by
        rw [← hxs]; intro x hxm
        obtain ⟨z, hz, rfl⟩ := List.mem_map.1 hxm
        exact (hx z hz).1 i
      have hub : ∃ hi : α, m i ≤ hi ∧ ∀ x ∈ t ++ [y], x ≤ hi := by
        refine ⟨m i + (t ++ [y]).sum, ?_, ?_⟩
        · have := List.sum_nonneg hall; linarith
        · intro x hxm
          have := List.single_le_sum hall x hxm
          have hmi : 0 ≤ m i := by rw [hm]; exact le_of_lt (by positivity)
          linarith
      obtain ⟨hi, hb1, hb2⟩ := hub
      exact (stays_between c.alpha (m i) 0 hi (t ++ [y]) h0 h1 ⟨by rw [hm]; exact le_of_lt (by positivity), hb1⟩
        (fun x hxm => ⟨hall x hxm, hb2 x hxm⟩)).1
  · have hs : ∑ i, m i = 1 := by
      rw [hm, Finset.sum_const, Finset.card_univ, nsmul_eq_mul]
      field_simp
    have := ema_sum c.alpha m ((updating c.onlyInTrain h).map fun x => x.meanOver []) hs (by
      intro x hxm
      obtain ⟨z, hz, rfl⟩ := List.mem_map.1 hxm
      exact (hx z hz).2)
    simpa [List.map_map, Function.comp_def] using this

/-- Where the mean starts: zeros, or with `is_prob_distribution` the uniform distribution of the one dim, which must have a fixed size; a shape of dims given
as a sequence cannot be used with it. -/
theorem start (c : Cfg α) :
    (c.isProb = false → (initMean c : Res (ι → α)) = .ok fun _ => 0) ∧
    (∀ n, c.isProb = true → c.single = true → c.size = some n → (initMean c : Res (ι → α)) = .ok fun _ => 1 / (n : α)) ∧
    (c.isProb = true → c.single = true → c.size = none → (initMean c : Res (ι → α)) = .error .assertion) ∧
    (c.isProb = true → c.single = false → ∃ e, (initMean c : Res (ι → α)) = .error e) := by
  refine ⟨?_, ?_, ?_, ?_⟩
  · intro h; simp [initMean, h]
  · intro n h hs hn; simp [initMean, h, hs, hn]
  · intro h hs hn; simp [initMean, h, hs, hn]
  · intro h hs; simp [initMean, h, hs]

/-- The hypotheses of `history_mean` and `stays_distribution` are met: two updates and one call without, over two cells. -/
def exCfg : Cfg ℚ := { shape := [7], single := true, size := some 2, alpha := 1 / 4, isProb := true, onlyInTrain := true }
def exX (b : ℚ) : X Bool ℚ := { dims := [7], meanOver := fun _ i => if i then b else 1 - b }
def exBatch : X Bool ℚ := { dims := [0, 1, 7], meanOver := fun _ _ => 1 / 2 }
def atTrue : Res (Bool → ℚ) → Option ℚ
  | .ok f => some (f true)
  | .error _ => none
example : atTrue (calls exCfg [(true, exX 1), (false, exBatch), (true, exX 0)] fun _ => 1 / 2) = some (15 / 32) := by decide +kernel
example : atTrue (calls exCfg [(true, exBatch)] fun _ => 1 / 2) = none := by decide +kernel
example : (∀ i, 0 ≤ (exX (1 / 3)).meanOver [] i) ∧ ∑ i, (exX (1 / 3)).meanOver [] i = 1 := by
  constructor
  · intro i; cases i <;> norm_num [exX]
  · simp [exX]

end Verif.RunMean
