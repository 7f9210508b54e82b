import Verif.Norm.Spec
import Mathlib.Algebra.CharZero.Defs
import Mathlib.Algebra.Order.Field.Rat
import Mathlib.Data.List.Nodup
import Mathlib.Tactic.FinCases
import Mathlib.Tactic.FieldSimp
import Mathlib.Tactic.Linarith
import Mathlib.Tactic.Ring
import Mathlib.Algebra.Order.BigOperators.Group.List
/-
C102: label smoothing.
-/
namespace Verif.Norm
open Verif.Py

section field
variable {K : Type} [Field K] [DecidableEq K]

theorem sum_affine (f c : K) : ∀ l : List K, (l.map (fun a => a * f + c)).sum = l.sum * f + (l.length : K) * c
  | [] => by simp
  | a :: l => by simp only [List.map_cons, List.sum_cons, sum_affine f c l, List.length_cons, Nat.cast_add, Nat.cast_one]; ring

theorem sub_one_ne [CharZero K] {n : Nat} (h : n ≠ 1) : (n : K) - 1 ≠ 0 := by
  rw [sub_ne_zero]; exact_mod_cast h

/-- C102: the probabilities after smoothing have the same sum 1. -/
theorem smooth_sum [CharZero K] (s : K) (p : List K) (h1 : p.length ≠ 1) (hs : p.sum = 1) : ∃ q, smoothDense s p = .ok q ∧ q.length = p.length ∧ q.sum = 1 := by
  refine ⟨_, by rw [smoothDense, if_neg h1], by simp, ?_⟩
  rw [sum_affine, hs]
  ring

/-- C102: a label with probability 1 gets `1 - smoothing`, one with probability 0 gets its share `smoothing / (dim - 1)`, and between these it is linear. -/
theorem smooth_values [CharZero K] (s : K) (p : List K) (h1 : p.length ≠ 1) : ∃ q : List K, smoothDense s p = .ok q ∧
    ∀ (i : Nat) a, p[i]? = some a → q[i]? = some (a * (1 - s) + (1 - a) * (s / ((p.length : K) - 1))) := by
  have hd := sub_one_ne (K := K) h1
  refine ⟨_, by rw [smoothDense, if_neg h1], ?_⟩
  intro i a h
  simp only [List.getElem?_map, h, Option.map_some, Option.some.injEq]
  field_simp
  ring

/-- C102: a sparse label is smoothed like the one-hot vector of it. -/
theorem sparse_dense [CharZero K] (s : K) (D label : Nat) (h : D ≠ 1) : smoothSparse s D label = smoothDense s (sparseToDense D label 1 0) := by
  have hl : (sparseToDense D label (1 : K) 0).length = D := by simp [sparseToDense]
  have hd := sub_one_ne (K := K) h
  rw [smoothSparse, smoothOneHot, if_neg h, smoothDense, if_neg (by rw [hl]; exact h), hl]
  simp only [sparseToDense, List.map_map, Except.ok.injEq]
  apply List.map_congr_left
  intro i _
  simp only [Function.comp_apply]
  split
  · field_simp; ring
  · simp

/-- C102: a sparse label: it gets `1 - smoothing`, each other label the same share; the sum is 1. -/
theorem sparse_values [CharZero K] (s : K) (D label : Nat) (h : D ≠ 1) (hl : label < D) : ∃ q : List K, smoothSparse s D label = .ok q ∧ q.length = D ∧ q.sum = 1 ∧
    (∀ i, i < D → q[i]? = some (if i = label then 1 - s else s / ((D : K) - 1))) := by
  have hs : (sparseToDense D label (1 : K) 0).sum = 1 := by
    unfold sparseToDense
    have : ∀ n, ((List.range n).map (fun i => if label = i then (1 : K) else 0)).sum = if label < n then 1 else 0 := by
      intro n
      induction n with
      | zero => simp
      | succ n ih =>
        rw [List.range_succ, List.map_append, List.sum_append, ih]
        simp only [List.map_cons, List.map_nil, List.sum_cons, List.sum_nil, add_zero]
        rcases Nat.lt_trichotomy label n with h | h | h
        · rw [if_pos h, if_neg (by omega), if_pos (by omega)]; simp
        · rw [if_neg (by omega), if_pos h, if_pos (by omega)]; simp
        · rw [if_neg (by omega), if_neg (by omega), if_neg (by omega)]; simp
    rw [this, if_pos hl]
  have hlen : (sparseToDense D label (1 : K) 0).length = D := by simp [sparseToDense]
  obtain ⟨q, h1, h2, h3⟩ := smooth_sum s (sparseToDense D label 1 0) (by rw [hlen]; exact h) hs
  refine ⟨q, by rw [sparse_dense s D label h, h1], by rw [h2, hlen], h3, ?_⟩
  intro i hi
  rw [← sparse_dense s D label h, smoothSparse, smoothOneHot, if_neg h] at h1
  injection h1 with h1
  rw [← h1]
  simp [sparseToDense, hi, eq_comm]

end field

variable {K : Type} [Field K] [LinearOrder K] [IsStrictOrderedRing K]

/-- C102: smoothing of a distribution by a factor between 0 and 1 is a distribution. -/
theorem smooth_dist (s : K) (h0 : 0 ≤ s) (h1 : s ≤ 1) (p : List K) (hp : IsDist p) (hd : p.length ≠ 1) : ∃ q, smoothDense s p = .ok q ∧ IsDist q := by
  obtain ⟨q, e1, _, e3⟩ := smooth_sum s p hd hp.2
  refine ⟨q, e1, ?_, e3⟩
  obtain ⟨q', e1', e4⟩ := smooth_values s p hd
  rw [e1] at e1'
  cases e1'
  have hlen : p.length ≠ 0 := by
    intro h
    have := List.length_eq_zero_iff.1 h
    rw [this] at hp
    have := hp.2
    simp at this
  have hD : (2 : K) ≤ (p.length : K) := by exact_mod_cast (by omega : 2 ≤ p.length)
  intro b hb
  obtain ⟨i, hi, rfl⟩ := List.getElem_of_mem hb
  have hql : q.length = p.length := by
    obtain ⟨q'', h', hl, _⟩ := smooth_sum s p hd hp.2
    rw [e1] at h'
    cases h'
    exact hl
  have hi' : i < p.length := by omega
  have := e4 i p[i] (List.getElem?_eq_getElem hi')
  rw [List.getElem?_eq_getElem hi] at this
  injection this with this
  rw [this]
  have ha : 0 ≤ p[i] := hp.1 _ (List.getElem_mem hi')
  have ha1 : p[i] ≤ 1 := by
    rw [← hp.2]
    exact List.single_le_sum hp.1 _ (List.getElem_mem hi')
  have hd1 : (0 : K) < (p.length : K) - 1 := by linarith
  have := div_nonneg h0 hd1.le
  have h2 : 0 ≤ 1 - s := by linarith
  have h3 : 0 ≤ 1 - p[i] := by linarith
  have := mul_nonneg h3 this
  have := mul_nonneg ha h2
  linarith

theorem abs_sum_neg (w : K) (hw : 0 ≤ w) : ∀ p : List K, (∀ a ∈ p, 0 ≤ a) → ((p.map (fun a => -(w * a))).map (fun g => |g|)).sum = w * p.sum
  | [], _ => by simp
  | a :: p, h => by
    have ha := mul_nonneg hw (h a List.mem_cons_self)
    simp only [List.map_cons, List.sum_cons, abs_sum_neg w hw p (fun b hb => h b (List.mem_cons_of_mem _ hb)), abs_neg, abs_of_nonneg ha]
    ring

theorem zipWith_replicate {α β γ : Type} (f : α → β → γ) (b : β) : ∀ (l : List α), List.zipWith f l (List.replicate l.length b) = l.map (fun a => f a b)
  | [] => rfl
  | a :: l => by simp [List.replicate_succ, zipWith_replicate f b l]

/-- C102: if the gradient is a negative distribution, times the weight of the frame, the new gradient is the negative smoothed distribution, times the same weight. -/
theorem grad_right (s w : K) (hw : 0 ≤ w) (p q : List K) (hp : IsDist p) (hd : p.length ≠ 1) (hq : smoothDense s p = .ok q) :
    smoothGrad s [] (p.map (fun a => -(w * a))) = .ok (q.map (fun a => -(w * a))) := by
  rw [smoothDense, if_neg hd] at hq
  injection hq with hq
  subst hq
  unfold smoothGrad
  by_cases h0 : s = 0
  · rw [if_pos h0, h0]; simp
  · rw [if_neg h0, scaleShift, if_pos rfl, List.length_map, if_neg hd]
    simp only [Except.map, backwardRow, abs_sum_neg w hw p hp.1, hp.2, Except.ok.injEq]
    have e := zipWith_replicate (fun (g : K) (c : K × K) => g * c.1 + c.2 * (w * 1)) (1 - (p.length : K) * (s / ((p.length : K) - 1)), -(s / ((p.length : K) - 1))) (p.map (fun a => -(w * a)))
    rw [List.length_map] at e
    rw [e]
    simp only [List.map_map]
    apply List.map_congr_left
    intro a _
    simp only [Function.comp_apply]
    ring

/-- C102: frames without gradient (padding) stay without gradient, also with excluded labels. -/
theorem grad_zero (s : K) (excl : List Nat) (n : Nat) (g : List K) (h : smoothGrad s excl (List.replicate n 0) = .ok g) : g = List.replicate n 0 := by
  unfold smoothGrad at h
  by_cases h0 : s = 0
  · rw [if_pos h0] at h; injection h with h; exact h.symm
  · rw [if_neg h0] at h
    have hlen : ∀ ss, scaleShift s excl n = .ok ss → ss.length = n := by
      intro ss hs
      unfold scaleShift at hs
      split at hs
      · split at hs
        · cases hs
        · injection hs with hs; rw [← hs]; simp
      · split at hs
        · cases hs
        · injection hs with hs; rw [← hs]; simp
    rw [List.length_replicate] at h
    cases hs : scaleShift s excl n with
    | error e => rw [hs] at h; cases h
    | ok ss =>
      rw [hs] at h
      simp only [Except.map] at h
      injection h with h
      have hl := hlen ss hs
      rw [← h]
      unfold backwardRow
      apply List.eq_replicate_iff.2
      constructor
      · simp [hl]
      · intro b hb
        obtain ⟨i, hi, rfl⟩ := List.getElem_of_mem hb
        simp

/-- Probability of the labels which are not excluded. -/
def included (excl : List Nat) (p : List K) : K := ((List.range p.length).map (fun i => if i ∈ excl then 0 else p.getD i 0)).sum

/-- C102, excluded labels: their gradient does not change, and the one of the others is scaled, with a share of `smoothing` among them. -/
theorem grad_exclude (s w : K) (hs : s ≠ 0) (hw : 0 ≤ w) (excl : List Nat) (he : excl ≠ []) (p : List K) (hp : IsDist p) (hd : p.length ≠ excl.length + 1) :
    ∃ q : List K, smoothGrad s excl (p.map (fun a => -(w * a))) = .ok (q.map (fun a => -(w * a))) ∧ q.length = p.length ∧
      ∀ (i : Nat) a, p[i]? = some a → q[i]? = some (if i ∈ excl then a else a * (1 - ((p.length : K) - excl.length) * (s / ((p.length : K) - excl.length - 1))) + s / ((p.length : K) - excl.length - 1)) := by
  have hd' : ¬ ((p.length : K) - (excl.length : K) - 1 = 0) := by
    intro h
    apply hd
    have : (p.length : K) = ((excl.length + 1 : Nat) : K) := by push_cast; linarith
    exact_mod_cast this
  refine ⟨p.mapIdx (fun i a => if i ∈ excl then a else a * (1 - ((p.length : K) - excl.length) * (s / ((p.length : K) - excl.length - 1))) + s / ((p.length : K) - excl.length - 1)), ?_, by simp, ?_⟩
  · unfold smoothGrad
    rw [if_neg hs, scaleShift, if_neg he, List.length_map, if_neg hd']
    simp only [Except.map, backwardRow, abs_sum_neg w hw p hp.1, hp.2, Except.ok.injEq]
    apply List.ext_getElem
    · simp
    · intro i h1 h2
      simp only [List.getElem_zipWith, List.getElem_map, List.getElem_range, List.getElem_mapIdx]
      by_cases hi : i ∈ excl
      · have : excl.all (fun l => i != l) = false := by
          rw [List.all_eq_false]
          exact ⟨i, hi, by simp⟩
        rw [this, if_pos hi]
        simp
      · have : excl.all (fun l => i != l) = true := by
          rw [List.all_eq_true]
          intro l hl
          have : i ≠ l := fun h => hi (h ▸ hl)
          simpa using this
        rw [this, if_neg hi]
        simp only [if_true]
        ring
  · intro i a h
    simp [h]

theorem count_included (excl : List Nat) (hn : excl.Nodup) (D : Nat) (hb : ∀ l ∈ excl, l < D) (c : K) :
    ((List.range D).map (fun i => if i ∈ excl then 0 else c)).sum = ((D : K) - excl.length) * c := by
  have key : ∀ D (excl : List Nat), excl.Nodup → (∀ l ∈ excl, l < D) → ((List.range D).map (fun i => if i ∈ excl then (0 : K) else c)).sum + (excl.length : K) * c = (D : K) * c := by
    intro D
    induction D with
    | zero =>
      intro excl _ hb
      have : excl = [] := List.eq_nil_iff_forall_not_mem.2 (fun l hl => absurd (hb l hl) (by omega))
      simp [this]
    | succ D ih =>
      intro excl hn hb
      rw [List.range_succ, List.map_append, List.sum_append]
      simp only [List.map_cons, List.map_nil, List.sum_cons, List.sum_nil, add_zero]
      by_cases hD : D ∈ excl
      · have h1 := ih (excl.erase D) (hn.erase D) (by
          intro l hl
          rw [hn.mem_erase_iff] at hl
          have := hb l hl.2
          omega)
        have h2 : ((List.range D).map (fun i => if i ∈ excl.erase D then (0 : K) else c)) = (List.range D).map (fun i => if i ∈ excl then (0 : K) else c) := by
          apply List.map_congr_left
          intro i hi
          rw [List.mem_range] at hi
          have : i ∈ excl.erase D ↔ i ∈ excl := by
            rw [hn.mem_erase_iff]
            exact ⟨fun h => h.2, fun h => ⟨by omega, h⟩⟩
          simp only [this]
        have h3 : ((excl.erase D).length : K) = (excl.length : K) - 1 := by
          rw [List.length_erase_of_mem hD]
          have := List.length_pos_of_mem hD
          rw [Nat.cast_sub (by omega)]; simp
        rw [h2, h3] at h1
        rw [if_pos hD]
        push_cast
        linarith
      · have h1 := ih excl hn (by
          intro l hl
          have := hb l hl
          have : l ≠ D := fun h => hD (h ▸ hl)
          omega)
        rw [if_neg hD]
        push_cast
        linarith
  have := key D excl hn hb
  linarith

/-- C102, partial (excluded labels; `exclude_sum` shows that more does not hold): the sum over the labels which are not excluded grows with the probability of the excluded labels. If that is 0, it
stays, as it is documented. -/
theorem exclude_sum_partial (s w : K) (hs : s ≠ 0) (hw : 0 ≤ w) (excl : List Nat) (he : excl ≠ []) (hn : excl.Nodup) (p : List K) (hb : ∀ l ∈ excl, l < p.length) (hp : IsDist p)
    (hd : p.length ≠ excl.length + 1) : ∃ q : List K, smoothGrad s excl (p.map (fun a => -(w * a))) = .ok (q.map (fun a => -(w * a))) ∧
      included excl q = included excl p + ((p.length : K) - excl.length) * (s / ((p.length : K) - excl.length - 1)) * (1 - included excl p) := by
  obtain ⟨q, h1, h2, h3⟩ := grad_exclude s w hs hw excl he p hp hd
  refine ⟨q, h1, ?_⟩
  generalize hf : s / ((p.length : K) - excl.length - 1) = f at *
  have hsum : ∀ (l : List Nat) (F : K), (l.map (fun i => if i ∈ excl then 0 else p.getD i 0 * F + f)).sum =
      (l.map (fun i => if i ∈ excl then 0 else p.getD i 0)).sum * F + (l.map (fun i => if i ∈ excl then 0 else f)).sum := by
    intro l F
    induction l with
    | nil => simp
    | cons i l ih =>
      simp only [List.map_cons, List.sum_cons, ih]
      split <;> ring
  have e : included excl q = ((List.range p.length).map (fun i => if i ∈ excl then 0 else p.getD i 0 * (1 - ((p.length : K) - excl.length) * f) + f)).sum := by
    unfold included
    rw [h2]
    congr 1
    apply List.map_congr_left
    intro i hi
    rw [List.mem_range] at hi
    by_cases hx : i ∈ excl
    · simp [hx]
    · have := h3 i p[i] (List.getElem?_eq_getElem hi)
      rw [if_neg hx] at this
      rw [if_neg hx, if_neg hx, List.getD_eq_getElem?_getD, this, List.getD_eq_getElem?_getD, List.getElem?_eq_getElem hi]
      rfl
  rw [e, hsum, count_included excl hn p.length hb f]
  unfold included
  ring

/-! ### Disagreements and examples -/

/-- With a blank (label 0) of probability 1/2 which is excluded: the other labels had 1/2 in sum, and have more now, so the gradient is not that of a distribution. -/
theorem exclude_sum : smoothGrad (1/2 : Rat) [0] [-1/2, -1/4, -1/4, 0] = .ok [-1/2, -5/16, -5/16, -1/4] ∧ included [0] [(1/2 : Rat), 5/16, 5/16, 1/4] = 7/8 ∧ included [0] [(1/2 : Rat), 1/4, 1/4, 0] = 1/2 := by
  decide +kernel

/-- A label which is excluded twice is counted twice: the label with probability 1 does not get `1 - smoothing`. -/
theorem exclude_twice : smoothGrad (1/2 : Rat) [0] [0, -1, 0, 0] = .ok [0, -1/2, -1/4, -1/4] ∧ smoothGrad (1/2 : Rat) [0, 0] [0, -1, 0, 0] = .ok [0, -1/2, -1/2, -1/2] := by
  decide +kernel

/-- With the label axis first in the raw tensor, the excluded label is looked for along the other axis: here (label 0 excluded, three frames)  the gradient of frame 0 does not change and the other frames are
smoothed for all labels. With another number of frames, it raises. -/
theorem exclude_axis : smoothGrad (1/2 : Rat) [0] [0, -1, 0] = .ok [0, -1/2, -1/2] ∧
    smoothGradFirst (1/2 : Rat) [0] 3 [[0, 0, 0], [-1, -1, -1], [0, 0, 0]] = .ok [[0, -1/2, -1/2], [-1, -1/2, -1/2], [0, -1/2, -1/2]] ∧
    smoothGradFirst (1/2 : Rat) [0] 2 [[0, 0], [-1, -1], [0, 0]] = .error (.other "broadcast") := by
  decide +kernel

/-- The column `t`. -/
def column (m : List (List K)) (t : Nat) : List K := m.map (fun row => row.getD t 0)

/-- C102: without excluded labels, the position of the label axis does not matter: each column becomes what it becomes alone. -/
theorem first_axis (s : K) (T : Nat) (grad out : List (List K)) (hT : ∀ row ∈ grad, row.length = T) (h : smoothGradFirst s [] T grad = .ok out) (t : Nat) (ht : t < T) :
    smoothGrad s [] (column grad t) = .ok (column out t) := by
  unfold smoothGradFirst at h
  unfold smoothGrad
  by_cases h0 : s = 0
  · rw [if_pos h0] at h ⊢
    simp only [pure, Except.pure] at h
    injection h with h
    rw [h]
  · rw [if_neg h0] at h ⊢
    simp only [bind, Except.bind] at h
    have hl : (column grad t).length = grad.length := by simp [column]
    rw [hl]
    unfold scaleShift at h ⊢
    by_cases h1 : grad.length = 1
    · rw [h1] at h; simp at h
    · simp only [if_true, if_neg h1, pure, Except.pure] at h ⊢
      injection h with h
      subst h
      simp only [Except.map, Except.ok.injEq, backwardRow]
      apply List.ext_getElem
      · simp [column]
      · intro i hi hi'
        have hig : i < grad.length := by simp [column] at hi; omega
        have hrow := hT _ (List.getElem_mem hig)
        have e1 : (column grad t)[i]'(by rw [hl]; exact hig) = (grad[i]).getD t 0 := by simp [column]
        have htg : t < (grad[i]).length := by omega
        simp only [List.getElem_zipWith, List.getElem_replicate, e1, column, List.getElem_map, List.map_map]
        simp [List.getD_eq_getElem?_getD, List.getElem?_zipWith, ht, htg, Function.comp_def]

example : IsDist [(1/2 : Rat), 1/4, 1/4] := by
  constructor
  · intro a ha; fin_cases ha <;> decide +kernel
  · decide +kernel

example : smoothDense (1/10 : Rat) [1, 0, 0] = .ok [9/10, 1/20, 1/20] ∧ smoothSparse (1/10 : Rat) 3 0 = .ok [9/10, 1/20, 1/20] ∧ smoothGrad (1/10 : Rat) [] [-2, 0, 0] = .ok [-9/5, -1/10, -1/10] := by
  decide +kernel

/-- `exclude_sum_partial`: four labels, blank excluded. -/
example : [0].Nodup ∧ (∀ l ∈ [0], l < 4) ∧ 4 ≠ [0].length + 1 := by decide

/-- A single label raises. -/
theorem single_label (s : K) (a : K) : smoothDense s [a] = .error .zeroDivision ∧ smoothSparse s 1 0 = .error .zeroDivision := ⟨rfl, rfl⟩

end Verif.Norm
