import Verif.FastBw.Model
import Mathlib.Algebra.BigOperators.Group.List.Lemmas
import Mathlib.Algebra.BigOperators.Ring.List
import Mathlib.Tactic.Common
import Mathlib.Tactic.Ring
/-
Sums over lists and paths.
-/
namespace Verif.FastBw
open Verif.CtcFsa

section
variable {K : Type} [CommSemiring K] {α β : Type}

theorem lsum_nil (f : α → K) : lsum [] f = 0 := rfl
theorem lsum_cons (a : α) (l : List α) (f : α → K) : lsum (a :: l) f = f a + lsum l f := by simp [lsum]
theorem lsum_append (l l' : List α) (f : α → K) : lsum (l ++ l') f = lsum l f + lsum l' f := by simp [lsum]
theorem lsum_map (g : α → β) (l : List α) (f : β → K) : lsum (l.map g) f = lsum l (fun a => f (g a)) := by simp [lsum, Function.comp_def]
theorem lsum_perm {l l' : List α} (h : l.Perm l') (f : α → K) : lsum l f = lsum l' f := (h.map f).sum_eq

theorem lsum_flatMap (g : α → List β) (l : List α) (f : β → K) : lsum (l.flatMap g) f = lsum l (fun a => lsum (g a) f) := by
  induction l with
  | nil => rfl
  | cons a l ih => rw [List.flatMap_cons, lsum_append, lsum_cons, ih]

theorem lsum_congr {l : List α} {f g : α → K} (h : ∀ a ∈ l, f a = g a) : lsum l f = lsum l g := by
  induction l with
  | nil => rfl
  | cons a l ih => rw [lsum_cons, lsum_cons, h a (by simp), ih (fun b hb => h b (by simp [hb]))]

theorem lsum_zero (l : List α) : lsum l (fun _ => (0 : K)) = 0 := by
  induction l with
  | nil => rfl
  | cons a l ih => rw [lsum_cons, ih, add_zero]

theorem lsum_add (l : List α) (f g : α → K) : lsum l (fun a => f a + g a) = lsum l f + lsum l g := by
  induction l with
  | nil => simp [lsum]
  | cons a l ih => simp only [lsum_cons, ih]; ring

theorem lsum_mul_left (c : K) (l : List α) (f : α → K) : lsum l (fun a => c * f a) = c * lsum l f := by
  induction l with
  | nil => simp [lsum]
  | cons a l ih => simp only [lsum_cons, ih]; ring

theorem lsum_mul_right (c : K) (l : List α) (f : α → K) : lsum l (fun a => f a * c) = lsum l f * c := by
  induction l with
  | nil => simp [lsum]
  | cons a l ih => simp only [lsum_cons, ih]; ring

theorem lsum_comm (l : List α) (l' : List β) (f : α → β → K) : lsum l (fun a => lsum l' (f a)) = lsum l' (fun b => lsum l (fun a => f a b)) := by
  induction l with
  | nil => simp [lsum_nil, lsum_zero]
  | cons a l ih => simp only [lsum_cons, ih, lsum_add]

theorem lsum_filter (l : List α) (p : α → Bool) (f : α → K) : lsum (l.filter p) f = lsum l (fun a => if p a = true then f a else 0) := by
  induction l with
  | nil => rfl
  | cons a l ih =>
    rw [List.filter_cons, lsum_cons]
    split
    · rw [lsum_cons, ih]
    · rw [ih, zero_add]

theorem lsum_single [DecidableEq α] {l : List α} (hn : l.Nodup) {a : α} (ha : a ∈ l) (f : α → K) : lsum l (fun b => if b = a then f b else 0) = f a := by
  induction l with
  | nil => simp at ha
  | cons b l ih =>
    rw [lsum_cons]
    obtain ⟨h1, h2⟩ := List.nodup_cons.1 hn
    by_cases hab : b = a
    · subst hab
      rw [if_pos rfl, lsum_congr (g := fun _ => 0), lsum_zero, add_zero]
      intro c hc
      rw [if_neg]
      rintro rfl; exact h1 hc
    · rw [if_neg hab, zero_add]
      exact ih h2 ((List.mem_cons.1 ha).resolve_left (fun h => hab h.symm))

theorem lsum_range_add (a b : Nat) (f : Nat → K) : lsum (List.range (a + b)) f = lsum (List.range a) f + lsum (List.range b) (fun i => f (a + i)) := by
  rw [List.range_add, lsum_append, lsum_map]

theorem lsum_range_mul (n : Nat) (f : Nat → K) : ∀ m, lsum (List.range (m * n)) f = lsum (List.range m) (fun i => lsum (List.range n) (fun j => f (i * n + j)))
  | 0 => by simp [lsum]
  | m + 1 => by
    rw [Nat.add_mul, Nat.one_mul, lsum_range_add, lsum_range_mul n f m, List.range_succ, lsum_append, lsum_cons, lsum_nil, add_zero]

/-! ### Paths -/

theorem lsum_seqs_succ (n T : Nat) (f : List Nat → K) :
    lsum (seqs n (T + 1)) f = lsum (List.range n) (fun e => lsum (seqs n T) (fun p => f (e :: p))) := by
  simp only [seqs, lsum_flatMap, lsum_map]

theorem lsum_seqs_add (n : Nat) : ∀ (a b : Nat) (f : List Nat → K),
    lsum (seqs n (a + b)) f = lsum (seqs n a) (fun p => lsum (seqs n b) (fun q => f (p ++ q)))
  | 0, b, f => by simp [seqs, lsum_cons, lsum_nil]
  | a + 1, b, f => by
    rw [show a + 1 + b = (a + b) + 1 by omega, lsum_seqs_succ, lsum_seqs_succ]
    refine lsum_congr ?_
    intro e _
    rw [lsum_seqs_add n a b]
    rfl

variable {edges : List (Edge Nat)} {w : Nat → K} {am : Nat → Nat → Nat → K}

theorem isRun_append (p q : List Nat) (s t : Nat) : isRun edges s (p ++ q) t = true ↔ ∃ m, isRun edges s p m = true ∧ isRun edges m q t = true := by
  induction p generalizing s with
  | nil => simp [isRun]
  | cons e p ih =>
    rw [List.cons_append]
    simp only [isRun]
    cases edges[e]? with
    | none => simp
    | some x =>
      simp only [Option.elim_some, Bool.and_eq_true, decide_eq_true_eq, ih]
      constructor
      · rintro ⟨h1, m, h2, h3⟩; exact ⟨m, ⟨h1, h2⟩, h3⟩
      · rintro ⟨m, ⟨h1, h2⟩, h3⟩; exact ⟨h1, m, h2, h3⟩

theorem weight_append (p q : List Nat) (t : Nat) : weight edges w am t (p ++ q) = weight edges w am t p * weight edges w am (t + p.length) q := by
  induction p generalizing t with
  | nil => simp [weight]
  | cons e p ih =>
    rw [List.cons_append]
    simp only [weight, ih, List.length_cons]
    rw [show t + 1 + p.length = t + (p.length + 1) by omega]
    ring

/-- Sum over the paths from `s` in frame `t0`. -/
def bsum (edges : List (Edge Nat)) (w : Nat → K) (am : Nat → Nat → Nat → K) (t0 s k e : Nat) : K :=
  lsum (seqs edges.length k) (fun p => if isRun edges s p e = true then weight edges w am t0 p else 0)

theorem pathSum_eq (s T e : Nat) : pathSum edges w am s T e = bsum edges w am 0 s T e := by
  unfold pathSum runs bsum
  rw [lsum_filter]

theorem bsum_zero (t0 s e : Nat) : bsum edges w am t0 s 0 e = if s = e then 1 else 0 := by
  simp [bsum, seqs, lsum_cons, lsum_nil, isRun, weight]

theorem bsum_succ (t0 s k e : Nat) : bsum edges w am t0 s (k + 1) e = lsum (List.range edges.length) (fun i =>
    (edges[i]?).elim 0 (fun x => if x.src = s then bsum edges w am (t0 + 1) x.dst k e * w i * am t0 x.seq x.label else 0)) := by
  unfold bsum
  rw [lsum_seqs_succ]
  refine lsum_congr ?_
  intro i _
  simp only [isRun, weight]
  rcases Option.eq_none_or_eq_some (edges[i]?) with he | ⟨x, he⟩
  · simp [he, lsum_zero]
  · simp only [he, Option.elim_some, Bool.and_eq_true, decide_eq_true_eq]
    by_cases hx : x.src = s
    · rw [if_pos hx, ← lsum_mul_right, ← lsum_mul_right]
      refine lsum_congr ?_
      intro p _
      by_cases hr : isRun edges x.dst p e = true
      · rw [if_pos ⟨hx, hr⟩, if_pos hr]; ring
      · rw [if_neg (fun h => hr h.2), if_neg hr]; ring
    · rw [if_neg hx, lsum_congr (g := fun _ => 0), lsum_zero]
      intro p _
      exact if_neg (fun h => hx h.1)

theorem isRun_single (m i t : Nat) : isRun edges m [i] t = true ↔ ∃ x, edges[i]? = some x ∧ x.src = m ∧ x.dst = t := by
  simp only [isRun]
  cases edges[i]? with
  | none => simp
  | some x => simp

/-- One frame more at the end. -/
theorem bsum_snoc (s k e : Nat) : bsum edges w am 0 s (k + 1) e = lsum (List.range edges.length) (fun i =>
    (edges[i]?).elim 0 (fun x => if x.dst = e then bsum edges w am 0 s k x.src * w i * am k x.seq x.label else 0)) := by
  unfold bsum
  rw [lsum_seqs_add]
  have h1 : ∀ p : List Nat, ∀ f : List Nat → K, lsum (seqs edges.length 1) f = lsum (List.range edges.length) (fun i => f [i]) := by
    intro p f
    rw [lsum_seqs_succ]
    refine lsum_congr ?_
    intro i _
    simp [seqs, lsum_cons, lsum_nil]
  rw [lsum_congr (g := fun p => lsum (List.range edges.length) (fun i =>
    if isRun edges s (p ++ [i]) e = true then weight edges w am 0 (p ++ [i]) else 0)) (fun p _ => h1 p _), lsum_comm]
  refine lsum_congr ?_
  intro i _
  cases hx : edges[i]? with
  | none =>
    rw [lsum_congr (g := fun _ => 0), lsum_zero]; rfl
    intro p _
    rw [if_neg]
    rw [isRun_append]
    rintro ⟨m, _, h⟩
    rw [isRun_single] at h
    obtain ⟨x, h, _⟩ := h
    rw [hx] at h; cases h
  | some x =>
    simp only [Option.elim_some]
    by_cases hd : x.dst = e
    · rw [if_pos hd, ← lsum_mul_right, ← lsum_mul_right]
      refine lsum_congr ?_
      intro p hp
      have hr : isRun edges s (p ++ [i]) e = true ↔ isRun edges s p x.src = true := by
        rw [isRun_append]
        constructor
        · rintro ⟨m, h, h'⟩
          rw [isRun_single] at h'
          obtain ⟨y, h', h2, h3⟩ := h'
          rw [hx] at h'; injection h' with h'; subst h'
          rw [h2]; exact h
        · intro h
          exact ⟨x.src, h, (isRun_single _ _ _).2 ⟨x, hx, rfl, hd⟩⟩
      by_cases h : isRun edges s p x.src = true
      · rw [if_pos (hr.2 h), if_pos h, weight_append, (mem_seqs.1 hp).1]
        simp only [weight, hx, Option.elim_some, Nat.zero_add]
        ring
      · rw [if_neg (fun h' => h (hr.1 h')), if_neg h]; ring
    · rw [if_neg hd, lsum_congr (g := fun _ => 0), lsum_zero]
      intro p _
      rw [if_neg]
      rw [isRun_append]
      rintro ⟨m, _, h⟩
      rw [isRun_single] at h
      obtain ⟨y, h, _, h2⟩ := h
      rw [hx] at h; injection h with h; subst h
      exact hd h2

/-- Sum over the paths, by the edge in frame `t`. -/
theorem sum_at (P : Nat → Prop) [DecidablePred P] (s e t k : Nat) :
    lsum (seqs edges.length (t + (k + 1))) (fun p => if isRun edges s p e = true ∧ (∀ i, p[t]? = some i → P i) then weight edges w am 0 p else 0) =
    lsum (List.range edges.length) (fun i => (edges[i]?).elim 0 (fun x =>
      if P i then bsum edges w am 0 s t x.src * w i * am t x.seq x.label * bsum edges w am (t + 1) x.dst k e else 0)) := by
  classical
  rw [lsum_seqs_add]
  have h1 : ∀ p : List Nat, ∀ f : List Nat → K, lsum (seqs edges.length (k + 1)) f =
      lsum (List.range edges.length) (fun i => lsum (seqs edges.length k) (fun q => f (i :: q))) := fun p f => lsum_seqs_succ _ _ _
  rw [lsum_congr (fun p _ => h1 p _), lsum_comm]
  refine lsum_congr ?_
  intro i _
  cases hx : edges[i]? with
  | none =>
    rw [lsum_congr (g := fun _ => 0), lsum_zero]; rfl
    intro p _
    rw [lsum_congr (g := fun _ => 0), lsum_zero]
    intro q _
    rw [if_neg]
    rintro ⟨h, _⟩
    rw [isRun_append] at h
    obtain ⟨m, _, h⟩ := h
    simp [isRun, hx] at h
  | some x =>
    simp only [Option.elim_some]
    by_cases hP : P i
    · rw [if_pos hP]
      unfold bsum
      rw [← lsum_mul_right, ← lsum_mul_right, ← lsum_mul_right]
      refine lsum_congr ?_
      intro p hp
      have hpl := (mem_seqs.1 hp).1
      rw [← lsum_mul_left]
      refine lsum_congr ?_
      intro q _
      have hc : (isRun edges s (p ++ i :: q) e = true ∧ ∀ j, (p ++ i :: q)[t]? = some j → P j) ↔
          isRun edges s p x.src = true ∧ isRun edges x.dst q e = true := by
        have hg : (p ++ i :: q)[t]? = some i := by
          rw [List.getElem?_append_right (by omega), hpl, Nat.sub_self]; rfl
        rw [isRun_append]
        constructor
        · rintro ⟨⟨m, h2, h3⟩, _⟩
          simp only [isRun, hx, Option.elim_some, Bool.and_eq_true, decide_eq_true_eq] at h3
          rw [h3.1]; exact ⟨h2, h3.2⟩
        · rintro ⟨h2, h3⟩
          refine ⟨⟨x.src, h2, ?_⟩, ?_⟩
          · simp only [isRun, hx, Option.elim_some, Bool.and_eq_true, decide_eq_true_eq]
            exact ⟨trivial, h3⟩
          · intro j hj
            rw [hg] at hj; injection hj with hj; rw [← hj]; exact hP
      by_cases h2 : isRun edges s p x.src = true
      · by_cases h3 : isRun edges x.dst q e = true
        · rw [if_pos (hc.2 ⟨h2, h3⟩), if_pos h2, if_pos h3, weight_append, hpl]
          simp only [weight, hx, Option.elim_some, Nat.zero_add]
          ring
        · rw [if_neg (fun h => h3 (hc.1 h).2), if_neg h3]; ring
      · rw [if_neg (fun h => h2 (hc.1 h).1), if_neg h2]; ring
    · rw [if_neg hP, lsum_congr (g := fun _ => 0), lsum_zero]
      intro p hp
      rw [lsum_congr (g := fun _ => 0), lsum_zero]
      intro q _
      rw [if_neg]
      rintro ⟨_, h⟩
      refine hP (h i ?_)
      rw [List.getElem?_append_right (by rw [(mem_seqs.1 hp).1]), (mem_seqs.1 hp).1, Nat.sub_self]; rfl

/-- A path stays with its sequence. -/
theorem isRun_own {own : Nat → Nat} (ho : ∀ x ∈ edges, own x.src = x.seq ∧ own x.dst = x.seq) : ∀ {p : List Nat} {s t : Nat},
    isRun edges s p t = true → own s = own t
  | [], s, t, h => by simp only [isRun, decide_eq_true_eq] at h; rw [h]
  | e :: p, s, t, h => by
    simp only [isRun] at h
    cases hx : edges[e]? with
    | none => rw [hx] at h; cases h
    | some x =>
      rw [hx] at h
      simp only [Option.elim_some, Bool.and_eq_true, decide_eq_true_eq] at h
      obtain ⟨o1, o2⟩ := ho x (List.mem_of_getElem? hx)
      rw [← isRun_own ho h.2, o2, ← h.1, o1]

theorem bsum_own {own : Nat → Nat} (ho : ∀ x ∈ edges, own x.src = x.seq ∧ own x.dst = x.seq) {t0 s k e : Nat} (h : own s ≠ own e) :
    bsum edges w am t0 s k e = 0 := by
  unfold bsum
  rw [lsum_congr (g := fun _ => 0), lsum_zero]
  intro p _
  exact if_neg (fun hr => h (isRun_own ho hr))

end

end Verif.FastBw
