import Verif.CtcFsa.Spec
import Mathlib.Algebra.Field.Defs
import Mathlib.Algebra.BigOperators.Group.List.Basic
import Mathlib.Data.List.Nodup
/-
What Baum-Welch is to compute: sums over all paths of an FSA. Scores are probabilities here (the code has them in -log space).
-/
namespace Verif.FastBw
open Verif.CtcFsa

variable {K : Type}

/-- Sum over a list. -/
def lsum {α : Type} [Semiring K] (l : List α) (f : α → K) : K := (l.map f).sum

/-- All sequences of length `T` of numbers below `n`. -/
def seqs (n : Nat) : Nat → List (List Nat)
  | 0 => [[]]
  | T + 1 => (List.range n).flatMap (fun e => (seqs n T).map (fun p => e :: p))

/-- The edges `p` (by index) connect `s` to `t`. -/
def isRun (edges : List (Edge Nat)) : Nat → List Nat → Nat → Bool
  | s, [], t => decide (s = t)
  | s, e :: p, t => (edges[e]?).elim false (fun x => decide (x.src = s) && isRun edges x.dst p t)

/-- Probability of a path which starts in frame `t`: weights of the edges times `am frame seq label`. -/
def weight [Semiring K] (edges : List (Edge Nat)) (w : Nat → K) (am : Nat → Nat → Nat → K) : Nat → List Nat → K
  | _, [] => 1
  | t, e :: p => (edges[e]?).elim 0 (fun x => w e * am t x.seq x.label) * weight edges w am (t + 1) p

/-- All paths of length `T` from `s` to `e`. -/
def runs (edges : List (Edge Nat)) (s T e : Nat) : List (List Nat) := (seqs edges.length T).filter (fun p => isRun edges s p e)

/-- Sum over all paths of length `T` from `s` to `e`. -/
def pathSum [Semiring K] (edges : List (Edge Nat)) (w : Nat → K) (am : Nat → Nat → Nat → K) (s T e : Nat) : K :=
  lsum (runs edges s T e) (weight edges w am 0)

/-- The label which a path emits in frame `t`. -/
def labelAt (edges : List (Edge Nat)) (p : List Nat) (t : Nat) : Option Nat := (p[t]?.bind (fun e => edges[e]?)).map Edge.label

/-- Sum over all paths which emit `a` in frame `t`. -/
def pathSumAt [Semiring K] (edges : List (Edge Nat)) (w : Nat → K) (am : Nat → Nat → Nat → K) (s T e t a : Nat) : K :=
  lsum ((runs edges s T e).filter (fun p => decide (labelAt edges p t = some a))) (weight edges w am 0)

/-- The sequences of the batch do not share states. -/
def Separate (f : Fsa Nat) : Prop :=
  ∃ own : Nat → Nat, (∀ x ∈ f.edges, own x.src = x.seq ∧ own x.dst = x.seq) ∧
    ∀ (b s e : Nat), f.startEnd[b]? = some (s, e) → own s = b ∧ own e = b

/-! `seqs` is what it should be. -/

theorem mem_seqs {n : Nat} : ∀ {T : Nat} {p : List Nat}, p ∈ seqs n T ↔ p.length = T ∧ ∀ e ∈ p, e < n
  | 0, p => by
    simp only [seqs, List.mem_singleton]
    constructor
    · rintro rfl; simp
    · rintro ⟨h, _⟩; exact List.length_eq_zero_iff.1 h
  | T + 1, p => by
    simp only [seqs, List.mem_flatMap, List.mem_range, List.mem_map]
    constructor
    · rintro ⟨e, he, q, hq, rfl⟩
      obtain ⟨h1, h2⟩ := mem_seqs.1 hq
      refine ⟨by simp [h1], ?_⟩
      intro x hx
      rcases List.mem_cons.1 hx with rfl | hx
      · exact he
      · exact h2 x hx
    · rintro ⟨h1, h2⟩
      cases p with
      | nil => simp at h1
      | cons e q => exact ⟨e, h2 e (by simp), q, mem_seqs.2 ⟨by simpa using h1, fun x hx => h2 x (by simp [hx])⟩, rfl⟩

theorem seqs_nodup (n : Nat) : ∀ T, (seqs n T).Nodup
  | 0 => by simp [seqs]
  | T + 1 => by
    simp only [seqs]
    rw [List.nodup_flatMap]
    refine ⟨?_, ?_⟩
    · intro e _
      exact (seqs_nodup n T).map (fun a b h => by injection h)
    · refine List.nodup_range.imp ?_
      intro a b hab x h1 h2
      obtain ⟨p, _, rfl⟩ := List.mem_map.1 h1
      obtain ⟨q, _, h⟩ := List.mem_map.1 h2
      injection h with h _
      exact hab h.symm

end Verif.FastBw
