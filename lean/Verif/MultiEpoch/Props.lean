import Verif.MultiEpoch.Model
import Verif.MultiEpoch.Spec
import Mathlib.Data.List.Basic
/-
C41: an outer epoch has the sequences of its inner epochs, one after the other.
-/
namespace Verif.MultiEpoch
open Verif.Py Spec

/-- The first `k` inner epochs. -/
def upto {α : Type} (inner : Option Int → List α) (m : Nat) (e : Int) (k : Nat) : List α :=
  (List.range k).flatMap (fun j : Nat => inner (some ((e - 1) * m + 1 + j)))

theorem upto_succ {α : Type} (inner : Option Int → List α) (m : Nat) (e : Int) (k : Nat) :
    upto inner m e (k + 1) = upto inner m e k ++ inner (some ((e - 1) * m + 1 + k)) := by
  simp [upto, List.range_succ]

theorem upto_prefix {α : Type} (inner : Option Int → List α) (m : Nat) (e : Int) {j k : Nat} (h : j ≤ k) :
    upto inner m e j <+: upto inner m e k := by
  induction k with
  | zero => rw [show j = 0 from by omega]; exact List.prefix_rfl
  | succ k ih =>
    by_cases hj : j = k + 1
    · rw [hj]; exact List.prefix_rfl
    · exact (ih (by omega)).trans ⟨_, (upto_succ inner m e k).symm⟩

/-- The state after the first `next` sequences. -/
structure Inv {α : Type} (inner : Option Int → List α) (m : Nat) (e : Int) (next : Nat) (s : State α) : Prop where
  start : s.startEpoch = some ((e - 1) * m + 1)
  pre : s.predefined = false
  run : (s.off < m ∧ s.cur = inner (some ((e - 1) * m + 1 + s.off)) ∧ s.seqOff = (upto inner m e s.off).length ∧
      s.seqOff ≤ next ∧ next ≤ s.seqOff + s.cur.length) ∨
    (m ≤ s.off ∧ next = (wanted inner m e).length ∧ s.seqOff + s.cur.length = next)

theorem inv_init {α : Type} (inner : Option Int → List α) (m : Nat) (hm : 0 < m) (e : Int) :
    Inv inner m e 0 (init inner m (some e) none) :=
  ⟨rfl, rfl, Or.inl ⟨hm, by simp [init, innerSeqs, innerStart], by simp [init, upto], by simp [init], by simp⟩⟩

/-- The next sequence. -/
theorem collect_next {α : Type} (inner : Option Int → List α) (m : Nat) (e : Int)
    (hne : ∀ j : Nat, 0 < j → j < m → inner (some ((e - 1) * m + 1 + j)) ≠ []) {next : Nat} {s : State α} (hi : Inv inner m e next s)
    (hlt : next < (wanted inner m e).length) :
    ∃ s', collect inner m s next = (.ok (wanted inner m e)[next]?, s') ∧ Inv inner m e (next + 1) s' := by
  rcases hi.run with ⟨h1, h2, h3, h4, h5⟩ | ⟨_, h2, _⟩
  · have hw : ∀ k, k < (upto inner m e (s.off + 1)).length →
        (wanted inner m e)[k]? = (upto inner m e (s.off + 1))[k]? := by
      intro k hk
      obtain ⟨t, ht⟩ := upto_prefix inner m e (show s.off + 1 ≤ m by omega)
      have : wanted inner m e = upto inner m e (s.off + 1) ++ t := ht.symm
      rw [this, List.getElem?_append_left hk]
    unfold collect
    rw [if_neg (by omega)]
    by_cases hin : next - s.seqOff < s.cur.length
    · rw [List.getElem?_eq_getElem hin]
      simp only
      refine ⟨s, ?_, hi.start, hi.pre, Or.inl ⟨h1, h2, h3, by omega, by omega⟩⟩
      rw [hw next (by rw [upto_succ, List.length_append, ← h2]; omega), upto_succ, ← h2,
        List.getElem?_append_right (by omega), ← h3, List.getElem?_eq_getElem hin]
    · have hend : next = s.seqOff + s.cur.length := by omega
      rw [List.getElem?_eq_none (by omega), hi.pre, hi.start]
      simp only [Bool.false_eq_true, if_false]
      have hlen : (upto inner m e (s.off + 1)).length = next := by
        rw [upto_succ, List.length_append, ← h2]; omega
      have hoff : ¬ m ≤ s.off + 1 := by
        intro hc
        have : s.off + 1 = m := by omega
        rw [this] at hlen
        rw [show (wanted inner m e).length = (upto inner m e m).length from rfl] at hlt
        omega
      rw [if_neg hoff]
      have hcur := hne (s.off + 1) (by omega) (by omega)
      unfold nextInner
      simp only
      cases hc : inner (some ((e - 1) * m + 1 + ((s.off + 1 : Nat) : Int))) with
      | nil => exact absurd hc hcur
      | cons x l =>
        simp only
        refine ⟨_, Prod.ext ?_ rfl, rfl, rfl, Or.inl ⟨by simp only; omega, hc.symm, hlen.symm, by simp, by simp⟩⟩
        simp only
        obtain ⟨t, ht⟩ := upto_prefix inner m e (show s.off + 1 + 1 ≤ m by omega)
        have : wanted inner m e = upto inner m e (s.off + 1 + 1) ++ t := ht.symm
        rw [this, upto_succ, hc, List.append_assoc, List.getElem?_append_right (by omega), hlen, Nat.sub_self]
        rfl
  · omega

/-- After the end. -/
theorem collect_end {α : Type} (inner : Option Int → List α) (m : Nat) (e : Int)
    (hne : ∀ j : Nat, 0 < j → j < m → inner (some ((e - 1) * m + 1 + j)) ≠ []) {s : State α}
    (hi : Inv inner m e (wanted inner m e).length s) {i : Nat} (hle : (wanted inner m e).length ≤ i) :
    ∃ s', collect inner m s i = (.ok none, s') ∧ Inv inner m e (wanted inner m e).length s' := by
  have hend : s.seqOff + s.cur.length = (wanted inner m e).length ∧ m ≤ s.off + 1 := by
    rcases hi.run with ⟨h1, h2, h3, h4, h5⟩ | ⟨h1, _, h3⟩
    · have hlen : (upto inner m e (s.off + 1)).length = s.seqOff + s.cur.length := by
        rw [upto_succ, List.length_append, ← h2]; omega
      have hm : m ≤ s.off + 1 := by
        by_contra hc
        have hp := (upto_prefix inner m e (show s.off + 1 + 1 ≤ m by omega)).length_le
        have hx := hne (s.off + 1) (by omega) (by omega)
        have : (upto inner m e m).length = (wanted inner m e).length := rfl
        rw [this, upto_succ, List.length_append, hlen] at hp
        have := List.length_pos_iff.2 hx
        omega
      refine ⟨?_, hm⟩
      rw [← hlen, show s.off + 1 = m from by omega]
      rfl
    · exact ⟨h3, by omega⟩
  unfold collect
  rw [if_neg (by omega), List.getElem?_eq_none (by omega), hi.pre, hi.start]
  simp only [Bool.false_eq_true, if_false]
  rw [if_pos hend.2]
  exact ⟨_, rfl, rfl, rfl, Or.inr ⟨hend.2, rfl, hend.1⟩⟩

/-- C41. If no inner epoch but maybe the first one is empty, then however the base class asks for the sequences (without
skipping sequences, and after the end as often as one likes), it gets exactly those of the inner epochs
`(e - 1) * m + 1, .., e * m`, one after the other, and nothing after the end. There are no exceptions. -/
theorem epoch_concat_partial {α : Type} (inner : Option Int → List α) (m : Nat) (hm : 0 < m) (e : Int)
    (hne : ∀ j : Nat, 0 < j → j < m → inner (some ((e - 1) * m + 1 + j)) ≠ []) (reqs : List Nat)
    (hreq : Legit (wanted inner m e).length 0 reqs) :
    (collectAll inner m (init inner m (some e) none) reqs).1 = .ok (reqs.map (fun i => (wanted inner m e)[i]?)) := by
  have key : ∀ (reqs : List Nat) (next : Nat) (s : State α), Inv inner m e next s →
      Legit (wanted inner m e).length next reqs →
      (collectAll inner m s reqs).1 = .ok (reqs.map (fun i => (wanted inner m e)[i]?)) := by
    intro reqs
    induction reqs with
    | nil => intro _ _ _ _; rfl
    | cons i reqs ih =>
      intro next s hi hr
      rcases hr with ⟨rfl, h1, h2⟩ | ⟨h1, h2, h3⟩
      · obtain ⟨s', hs, hi'⟩ := collect_next inner m e hne hi h1
        have := ih _ s' hi' h2
        simp only [collectAll, hs]
        cases hc : collectAll inner m s' reqs with
        | mk r t =>
          rw [hc] at this
          simp only at this
          subst this
          rfl
      · rw [h2] at hi
        obtain ⟨s', hs, hi'⟩ := collect_end inner m e hne hi h1
        have := ih next s' (by rw [h2]; exact hi') h3
        simp only [collectAll, hs]
        cases hc : collectAll inner m s' reqs with
        | mk r t =>
          rw [hc] at this
          simp only at this
          subst this
          rw [List.map_cons, List.getElem?_eq_none h1]
  exact key reqs 0 _ (inv_init inner m hm e) hreq

/-- All sequences of an outer epoch, asked one after the other, with the end. -/
theorem epoch_all_partial {α : Type} (inner : Option Int → List α) (m : Nat) (hm : 0 < m) (e : Int)
    (hne : ∀ j : Nat, 0 < j → j < m → inner (some ((e - 1) * m + 1 + j)) ≠ []) :
    (collectAll inner m (init inner m (some e) none) (List.range ((wanted inner m e).length + 1))).1 =
      .ok ((wanted inner m e).map some ++ [none]) := by
  have hleg : ∀ (k next total : Nat), next + k = total → Legit total next (List.range' next (k + 1)) := by
    intro k
    induction k with
    | zero => intro next total h; right; exact ⟨by omega, by omega, trivial⟩
    | succ k ih =>
      intro next total h
      left
      exact ⟨rfl, by omega, ih (next + 1) total (by omega)⟩
  rw [epoch_concat_partial inner m hm e hne _ (by
    rw [List.range_eq_range']; exact hleg _ 0 _ (by omega))]
  congr 1
  rw [List.range_succ, List.map_append]
  congr 1
  · apply List.ext_getElem (by simp)
    intro i h1 h2
    simp at h1
    simp [List.getElem?_eq_getElem h1]
  · simp

/-- C41 violated: an inner epoch without sequences (other than the first) is an `AssertionError`, whenever it is
reached. -/
theorem empty_inner_fails {α : Type} (inner : Option Int → List α) (m : Nat) (e : Int) {next : Nat} {s : State α}
    (hi : Inv inner m e next s) (hoff : s.off + 1 < m) (hend : next = s.seqOff + s.cur.length)
    (hempty : inner (some ((e - 1) * m + 1 + ((s.off + 1 : Nat) : Int))) = []) :
    (collect inner m s next).1 = .error .assertion := by
  unfold collect
  rw [if_neg (by omega), List.getElem?_eq_none (by omega), hi.pre, hi.start]
  simp only [Bool.false_eq_true, if_false]
  rw [if_neg (by omega)]
  unfold nextInner
  simp only [hempty]

/-- An inner dataset with 1 sequence in odd epochs and none in even ones. -/
def odd : Option Int → List Nat
  | some e => if e % 2 = 1 then [e.toNat] else []
  | none => []

/-- C41 violated: with an empty inner epoch, the sequences of the inner epochs after it are not reached. -/
theorem concat_fails : (collectAll odd 3 (init odd 3 (some 1) none) [0, 1]).1 = .error .assertion ∧
    wanted odd 3 1 = [1, 3] := by decide +kernel

/-- C41 violated: if sequences are skipped, the sequences get other indices. Here the sequence 3 is the one with index 2. -/
theorem skip_misaligned : ∃ inner : Option Int → List Nat, wanted inner 2 1 = [10, 11, 20, 21] ∧
    (collectAll inner 2 (init inner 2 (some 1) none) [0, 3]).1 = .ok [some 10, some 20] :=
  ⟨fun | some 1 => [10, 11] | some 2 => [20, 21] | _ => [], by decide +kernel, by decide +kernel⟩

/-- C41. Without an epoch, or with a (non-empty) predefined order, there is only the inner one. -/
theorem single_inner {α : Type} (inner : Option Int → List α) (m : Nat) (epoch : Option Int) (sel : Option (List α))
    (h : epoch = none ∨ ∃ l, sel = some l ∧ l ≠ []) (i : Nat) :
    collect inner m (init inner m epoch sel) i = (.ok (sel.getD (inner none))[i]?, init inner m epoch sel) := by
  have hcur : (init inner m epoch sel).cur = sel.getD (inner none) := by
    rcases h with rfl | ⟨l, rfl, _⟩
    · cases sel <;> rfl
    · rfl
  unfold collect
  rw [if_neg (by simp [init]), hcur]
  simp only [show (init inner m epoch sel).seqOff = 0 from rfl, Nat.sub_zero]
  cases hg : (sel.getD (inner none))[i]? with
  | some x => rfl
  | none =>
    simp only
    rcases h with rfl | ⟨l, rfl, hl⟩
    · split
      · rfl
      · simp only [init, innerStart, Option.map_none]
    · rw [if_pos]
      simp only [init, Option.getD_some]
      cases l with
      | nil => exact absurd rfl hl
      | cons a l => rfl

/-- C41 violated: an empty predefined order does not give an empty epoch, but the sequences of the second inner epoch. -/
theorem empty_list_ignored : ∃ inner : Option Int → List Nat,
    (collectAll inner 2 (init inner 2 (some 1) (some [])) [0, 1, 2]).1 = .ok [some 20, some 21, none] :=
  ⟨fun | some 1 => [10, 11] | some 2 => [20, 21] | _ => [], by decide +kernel⟩

/-! ### Examples -/

/-- Epoch `e` has `e` sequences. -/
def exInner : Option Int → List Int
  | some e => List.replicate e.toNat e
  | none => []

example : wanted exInner 2 2 = [3, 3, 3, 4, 4, 4, 4] := by decide +kernel
example : ∀ j : Nat, 0 < j → j < 2 → exInner (some ((2 - 1) * 2 + 1 + j)) ≠ [] := by
  intro j h1 h2
  rw [show j = 1 from by omega]
  decide +kernel
example : Legit 7 0 [0, 1, 2, 3, 4, 5, 6, 9, 7, 7] := by simp [Legit]
example : (collectAll exInner 2 (init exInner 2 (some 2) none) [0, 1, 2, 3, 4, 5, 6, 9, 7, 7]).1 =
    .ok [some 3, some 3, some 3, some 4, some 4, some 4, some 4, none, none, none] := by decide +kernel

end Verif.MultiEpoch
