import Verif.Viterbi.Props
import Verif.FastBw.PropsCtc
import Mathlib.Algebra.Order.Group.Int
import Mathlib.Algebra.Order.Monoid.WithTop
/-
C65: `ctc_loss_viterbi` (tf/native_op.py 1612-1670): Viterbi on the CTC FSA of the native op.
-/
namespace Verif.Viterbi
open Verif.CtcFsa Verif.FastBw

variable {V : Type} [LinearOrder V] [OrderBot V]

/-- Score of a string from frame `t` on, added up from left to right. -/
def strScore (add : V → V → V) (am : Nat → Nat → Nat → V) (b : Nat) : Nat → V → List Nat → V
  | _, acc, [] => acc
  | t, acc, a :: w => strScore add am b (t + 1) (add acc (am t b a)) w

theorem pathScore_emit {add : V → V → V} {zero : V} (hz : ∀ a, add a zero = a) {edges : List (Edge Nat)} {am : Nat → Nat → Nat → V} {b : Nat} : ∀ {p : List Nat} (t : Nat) (acc : V),
    (∀ e ∈ p, ∃ x, edges[e]? = some x ∧ x.seq = b) → pathScore add edges (fun _ => zero) am t acc p = strScore add am b t acc (emit edges p)
  | [], t, _, _ => rfl
  | e :: p, t, acc, h => by
    obtain ⟨x, h1, h2⟩ := h e (by simp)
    simp only [pathScore, emit, List.map_cons, strScore, h1, Option.elim_some, hz, h2]
    exact pathScore_emit hz (t + 1) _ (fun e' he' => h e' (by simp [he']))

/-- The buffer of `fast_viterbi` has `max(end states) + 1` states (tf/native_op.py 1604-1605): all states of the edges of the native FSA are below. -/
theorem native_states_in_range {loop : Bool} {targets : List (List Nat)} {nTime : Nat} {seqLens : List Nat} {blank : Nat} {f : Fsa Nat}
    (hshape : ∀ row ∈ targets, row.length = nTime) (hlens : ∀ L ∈ seqLens, L ≤ nTime)
    (h : nativeFsa loop targets nTime seqLens blank = .ok f) (x : Edge Nat) (hx : x ∈ f.edges) :
    ∃ (b s e : Nat), f.startEnd[b]? = some (s, e) ∧ x.src ≤ e ∧ x.dst ≤ e := by
  unfold nativeFsa at h
  split at h
  swap
  · cases h
  rename_i hlen
  injection h with h
  subst h
  obtain ⟨idx, hidx, rfl⟩ := List.mem_map.1 hx
  have hidx := List.mem_range.1 hidx
  have hb : idx / (5 * nTime + 5) < targets.length := by
    rw [Nat.div_lt_iff_lt_mul (by omega)]; exact hidx
  have l2 : seqLens.getD (idx / (5 * nTime + 5)) 0 ≤ (targets.getD (idx / (5 * nTime + 5)) []).length := by
    have e1 : seqLens.getD (idx / (5 * nTime + 5)) 0 = seqLens[idx / (5 * nTime + 5)] := by rw [List.getD_eq_getElem?_getD, List.getElem?_eq_getElem (by omega)]; rfl
    have e2 : targets.getD (idx / (5 * nTime + 5)) [] = targets[idx / (5 * nTime + 5)] := by rw [List.getD_eq_getElem?_getD, List.getElem?_eq_getElem hb]; rfl
    rw [e1, e2, hshape _ (List.getElem_mem hb)]
    exact hlens _ (List.getElem_mem _)
  refine ⟨idx / (5 * nTime + 5), (nTime * 2 + 3) * (idx / (5 * nTime + 5)),
    (nTime * 2 + 3) * (idx / (5 * nTime + 5)) + (seqLens.getD (idx / (5 * nTime + 5)) 0 * 2 + 2), by simp only [List.getElem?_map, List.getElem?_range hb, Option.map_some], ?_⟩
  have hsrc := kernel_src (loop := loop) (blank := blank) (row := targets.getD (idx / (5 * nTime + 5)) [])
    (L := seqLens.getD (idx / (5 * nTime + 5)) 0) (idx % (5 * nTime + 5))
  have hdst : (kernelEdge loop blank (targets.getD (idx / (5 * nTime + 5)) []) (seqLens.getD (idx / (5 * nTime + 5)) 0)
      (idx % (5 * nTime + 5))).2.1 ≤ 2 * seqLens.getD (idx / (5 * nTime + 5)) 0 + 2 := by
    by_cases hd : (kernelEdge loop blank (targets.getD (idx / (5 * nTime + 5)) []) (seqLens.getD (idx / (5 * nTime + 5)) 0)
      (idx % (5 * nTime + 5))).2.1 = 2 * seqLens.getD (idx / (5 * nTime + 5)) 0 + 1
    · rw [hd]; omega
    · have := (kernel_sound l2 _ hd).dst
      rw [take_len l2] at this
      omega
  simp only [nativeEdge]
  constructor <;> omega

/-- C65: for every batch, all scores and lengths, every interleaving of the threads: no string which stands for the labels is better than the score; and if the
score is not -infinity, the alignment in the frames of the sequence is such a string with exactly this score. -/
theorem ctc_viterbi_correct {add : V → V → V} {zero : V} (hl : ScoreLaws add zero) (hz : ∀ a, add a zero = a)
    {loop : Bool} {targets : List (List Nat)} {nTime : Nat} {seqLens : List Nat} {blank dim : Nat} {f : Fsa Nat}
    (hshape : ∀ row ∈ targets, row.length = nTime) (hlens : ∀ L ∈ seqLens, L ≤ nTime) (hblank : blank < dim)
    (h : nativeFsa loop targets nTime seqLens blank = .ok f) {am : Nat → Nat → Nat → V} {lens : Nat → Nat} {nFrames : Nat} {tr : Nat → List Nat}
    (hfin : Finished add zero f (fun _ => zero) am lens nFrames tr)
    {b L : Nat} {row : List Nat} (hrow : targets[b]? = some row) (hL : seqLens[b]? = some L) (hno : blank ∉ row.take L) (hdim : ∀ a ∈ row.take L, a < dim)
    (hT : 0 < lens b) (hT' : lens b ≤ nFrames) :
    (∀ w, w.length = lens b → (∀ a ∈ w, a < dim) → labels loop blank w = row.take L →
      strScore add am b 0 zero w ≤ (viterbi add zero f (fun _ => zero) am lens nFrames tr).2 b) ∧
    ((viterbi add zero f (fun _ => zero) am lens nFrames tr).2 b ≠ ⊥ →
      labels loop blank ((List.range (lens b)).map (fun t => (viterbi add zero f (fun _ => zero) am lens nFrames tr).1 t b)) = row.take L ∧
      strScore add am b 0 zero ((List.range (lens b)).map (fun t => (viterbi add zero f (fun _ => zero) am lens nFrames tr).1 t b)) =
        (viterbi add zero f (fun _ => zero) am lens nFrames tr).2 b) := by
  obtain ⟨hlen, hex⟩ := native_fsa_exact loop targets nTime seqLens blank f hshape hlens h
  have hone := hex b row L hrow hL hno
  obtain ⟨s, e, hse, _⟩ := id hone
  obtain ⟨hperm, hseq⟩ := runs_perm (dim := dim) (T := lens b) hT hblank hdim hse hone
  obtain ⟨c1, c2, _⟩ := viterbi_correct hl (native_separate hshape hlens h) hfin b s e hse hT'
  refine ⟨?_, ?_⟩
  · intro w hw1 hw2 hw3
    have hmem : w ∈ (runs f.edges s (lens b) e).map (emit f.edges) :=
      hperm.mem_iff.2 (List.mem_filter.2 ⟨mem_seqs.2 ⟨hw1, hw2⟩, by simpa using hw3⟩)
    obtain ⟨p, hp, rfl⟩ := List.mem_map.1 hmem
    rw [← pathScore_emit hz 0 zero (hseq p hp)]
    exact c1 p hp
  · intro hne
    obtain ⟨p, hp, hsc, hlab⟩ := c2 hne
    have hpl : p.length = lens b := (mem_seqs.1 (List.mem_filter.1 hp).1).1
    have hout : (List.range (lens b)).map (fun t => (viterbi add zero f (fun _ => zero) am lens nFrames tr).1 t b) = emit f.edges p := by
      refine List.ext_getElem? ?_
      intro t
      by_cases ht : t < lens b
      · rw [List.getElem?_map, List.getElem?_range ht, Option.map_some, ← hlab t ht]
        refine labelAt_emit ?_
        intro i hi
        obtain ⟨x, hx, _⟩ := hseq p hp i hi
        by_contra h'
        rw [List.getElem?_eq_none (by omega)] at hx; cases hx
      · rw [List.getElem?_eq_none (by simpa using ht), List.getElem?_eq_none (by simp [emit, hpl]; omega)]
    rw [hout]
    have hmem : emit f.edges p ∈ alignments loop blank dim (lens b) (row.take L) := hperm.mem_iff.1 (List.mem_map.2 ⟨p, hp, rfl⟩)
    refine ⟨by simpa using (List.mem_filter.1 hmem).2, ?_⟩
    rw [← pathScore_emit hz 0 zero (hseq p hp)]
    exact hsc

/-! ### An example: integers with -infinity -/

abbrev Sc := WithBot Int

theorem sc_laws : ScoreLaws (fun a b : Sc => a + b) 0 := by
  refine ⟨?_, ?_, ?_⟩
  · intro a b c h
    exact add_le_add_left h c
  · intro c; exact WithBot.bot_add c
  · exact WithBot.coe_ne_bot

def exFsa : Fsa Nat := ((nativeFsa true [[1], [1]] 1 [1, 0] 0).toOption).getD ⟨[], []⟩

/-- In frame 0 the symbols are equally good, in frame 1 label 1 is better. -/
def exAm : Nat → Nat → Nat → Sc := fun t _ a => (((t * a : Nat) : Int) - 3 : Int)

/-- All threads run in lockstep: they all read before one of them writes. -/
def exTr : Nat → List Nat := fun _ => (List.replicate 9 (List.range 20)).flatten

example : nativeFsa true [[1], [1]] 1 [1, 0] 0 = .ok exFsa ∧ exFsa.edges.length = 20 := ⟨rfl, by decide +kernel⟩

theorem exFinished : Finished (fun a b : Sc => a + b) 0 exFsa (fun _ => 0) exAm (fun b => 2 - b) 2 exTr := by
  unfold Finished
  decide +kernel

/-- There are two best strings, 01 and 11. -/
example : (viterbi (fun a b : Sc => a + b) 0 exFsa (fun _ => 0) exAm (fun b => 2 - b) 2 exTr).2 0 = ((-5 : Int) : Sc) ∧
    [0, 1].map (fun t => (viterbi (fun a b : Sc => a + b) 0 exFsa (fun _ => 0) exAm (fun b => 2 - b) 2 exTr).1 t 0) = [0, 1] ∧
    [0, 1].map (fun t => (viterbi (fun a b : Sc => a + b) 0 exFsa (fun _ => 0) exAm (fun b => 2 - b) 2 exTr).1 t 1) = [0, 0] := by
  refine ⟨?_, ?_, ?_⟩ <;> decide +kernel

/-- Threads which run one after the other. -/
example : Finished (fun a b : Sc => a + b) 0 exFsa (fun _ => 0) exAm (fun b => 2 - b) 2 (fun _ => (List.range 20).flatMap (fun i => [i, i, i])) := by
  unfold Finished
  decide +kernel

/-- The hypotheses of `ctc_viterbi_correct`. -/
example := ctc_viterbi_correct (dim := 2) sc_laws (fun a => add_zero a) (loop := true) (targets := [[1], [1]]) (nTime := 1) (seqLens := [1, 0]) (blank := 0) (f := exFsa)
  (by decide) (by decide) (by decide) rfl exFinished (b := 0) (L := 1) (row := [1]) rfl rfl (by decide) (by decide) (by decide) (by decide)

end Verif.Viterbi
