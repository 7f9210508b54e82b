import Verif.FastBw.Props
import Verif.CtcFsa.Props
/-
C62: the CTC loss (tf/native_op.py `ctc_loss`: Baum-Welch on the CTC FSA of the native op).
-/
namespace Verif.FastBw
open Verif.CtcFsa

variable {K : Type}

/-- Probability of a string, from frame `t` on. -/
def strWeight [Semiring K] (am : Nat → Nat → Nat → K) (b : Nat) : Nat → List Nat → K
  | _, [] => 1
  | t, a :: w => am t b a * strWeight am b (t + 1) w

/-- All strings of length `T` over the vocabulary which stand for the labels. -/
def alignments (loop : Bool) (blank dim T : Nat) (y : List Nat) : List (List Nat) :=
  (seqs dim T).filter (fun w => decide (labels loop blank w = y))

/-! ### Paths and their strings -/

/-- The string of a path. -/
def emit (edges : List (Edge Nat)) (p : List Nat) : List Nat := p.map (fun e => (edges[e]?).elim 0 Edge.label)

theorem isPath_iff (edges : List (Edge Nat)) : ∀ (p w : List Nat) (s t : Nat), IsPath edges s w p t ↔ isRun edges s p t = true ∧ w = emit edges p
  | [], [], s, t => by simp [IsPath, isRun, emit]
  | [], a :: w, s, t => by simp [IsPath, emit]
  | e :: p, [], s, t => by simp [IsPath, emit]
  | e :: p, a :: w, s, t => by
    simp only [IsPath, isRun, emit, List.map_cons]
    rcases Option.eq_none_or_eq_some (edges[e]?) with he | ⟨x, he⟩
    · simp [he]
    · simp only [he, Option.elim_some, Bool.and_eq_true, decide_eq_true_eq]
      constructor
      · rintro ⟨y, h1, h2, h3, h4⟩
        injection h1 with h1
        subst h1
        obtain ⟨h5, h6⟩ := (isPath_iff edges p w x.dst t).1 h4
        exact ⟨⟨h2, h5⟩, by rw [h3, h6]; rfl⟩
      · rintro ⟨⟨h2, h5⟩, h6⟩
        injection h6 with h3 h6
        exact ⟨x, rfl, h2, h3.symm, (isPath_iff edges p w x.dst t).2 ⟨h5, h6⟩⟩

theorem weight_emit [CommSemiring K] {edges : List (Edge Nat)} {am : Nat → Nat → Nat → K} {b : Nat} : ∀ {p : List Nat} (t : Nat),
    (∀ e ∈ p, ∃ x, edges[e]? = some x ∧ x.seq = b) → weight edges (fun _ => 1) am t p = strWeight am b t (emit edges p)
  | [], t, _ => rfl
  | e :: p, t, h => by
    obtain ⟨x, h1, h2⟩ := h e (by simp)
    simp only [weight, emit, List.map_cons, strWeight, h1, Option.elim_some, one_mul, h2]
    rw [weight_emit (t + 1) (fun e' he' => h e' (by simp [he']))]
    rfl

theorem labelAt_emit {edges : List (Edge Nat)} {p : List Nat} {t : Nat} (h : ∀ e ∈ p, e < edges.length) : labelAt edges p t = (emit edges p)[t]? := by
  unfold labelAt emit
  rw [List.getElem?_map]
  cases hp : p[t]? with
  | none => rfl
  | some e =>
    have he := h e (List.mem_of_getElem? hp)
    simp [List.getElem?_eq_getElem he]

theorem mem_squash (a : Nat) : ∀ (w : List Nat), a ∈ w → a ∈ squash w
  | [], h => by simp at h
  | [b], h => by simpa [squash] using h
  | b :: c :: w, h => by
    unfold squash
    split
    · rename_i hbc
      refine mem_squash a (c :: w) ?_
      rcases List.mem_cons.1 h with h | h
      · rw [h, hbc]; simp
      · exact h
    · rcases List.mem_cons.1 h with h | h
      · rw [h]; simp
      · exact List.mem_cons_of_mem _ (mem_squash a (c :: w) h)

theorem mem_labels {loop : Bool} {blank a : Nat} {w : List Nat} (h : a ∈ w) : a = blank ∨ a ∈ labels loop blank w := by
  by_cases hb : a = blank
  · exact Or.inl hb
  · right
    unfold labels
    rw [List.mem_filter]
    refine ⟨?_, by simpa using hb⟩
    split
    · exact mem_squash a w h
    · exact h

/-- Paths of the FSA and strings correspond one to one. -/
theorem runs_perm {f : Fsa Nat} {loop : Bool} {blank dim b s e T : Nat} {y : List Nat} (hT : 0 < T) (hblank : blank < dim) (hy : ∀ a ∈ y, a < dim)
    (hse : f.startEnd[b]? = some (s, e)) (hone : ExactlyOnePath f b (fun w => w ≠ [] ∧ labels loop blank w = y)) :
    ((runs f.edges s T e).map (emit f.edges)).Perm (alignments loop blank dim T y) ∧
    ∀ p ∈ runs f.edges s T e, ∀ i ∈ p, ∃ x, f.edges[i]? = some x ∧ x.seq = b := by
  obtain ⟨s', e', hse', h⟩ := hone
  rw [hse] at hse'
  injection hse' with hse'
  injection hse' with h1 h2
  subst h1 h2
  have hrun : ∀ p, p ∈ runs f.edges s T e ↔ (p.length = T ∧ ∀ i ∈ p, i < f.edges.length) ∧ IsPath f.edges s (emit f.edges p) p e := by
    intro p
    unfold runs
    rw [List.mem_filter, mem_seqs, isPath_iff]
    constructor
    · rintro ⟨h1, h2⟩; exact ⟨h1, h2, rfl⟩
    · rintro ⟨h1, h2, _⟩; exact ⟨h1, h2⟩
  have hlab : ∀ w p, IsPath f.edges s w p e → w ≠ [] ∧ labels loop blank w = y := by
    intro w p hp
    by_contra hc
    exact (h w).2 hc p hp
  refine ⟨?_, ?_⟩
  · refine (List.perm_ext_iff_of_nodup ?_ ?_).2 ?_
    · refine List.Nodup.map_on ?_ ((seqs_nodup _ _).filter _)
      intro p hp q hq hpq
      have hp' := ((hrun p).1 hp).2
      have hq' := ((hrun q).1 hq).2
      rw [← hpq] at hq'
      obtain ⟨r, _, _, hr⟩ := (h _).1 (hlab _ _ hp')
      rw [hr p hp', hr q hq']
    · exact (seqs_nodup _ _).filter _
    · intro w
      unfold alignments
      rw [List.mem_map, List.mem_filter, mem_seqs, decide_eq_true_eq]
      constructor
      · rintro ⟨p, hp, rfl⟩
        obtain ⟨⟨hpl, _⟩, hpath⟩ := (hrun p).1 hp
        have hl := (hlab _ _ hpath).2
        refine ⟨⟨by simp [emit, hpl], ?_⟩, hl⟩
        intro a ha
        rcases mem_labels (loop := loop) (blank := blank) ha with h | h
        · rw [h]; exact hblank
        · rw [hl] at h; exact hy a h
      · rintro ⟨⟨hwl, _⟩, hl⟩
        have hne : w ≠ [] := by rintro rfl; simp at hwl; omega
        obtain ⟨p, hp, hps, _⟩ := (h w).1 ⟨hne, hl⟩
        have hw := ((isPath_iff _ _ _ _ _).1 hp).2
        refine ⟨p, (hrun p).2 ⟨⟨?_, ?_⟩, ?_⟩, hw.symm⟩
        · rw [hw] at hwl; simpa [emit] using hwl
        · intro i hi
          obtain ⟨x, hx, _⟩ := hps i hi
          by_contra h'
          rw [List.getElem?_eq_none (by omega)] at hx; cases hx
        · rw [← hw]; exact hp
  · intro p hp i hi
    have hp' := ((hrun p).1 hp).2
    obtain ⟨r, _, hrs, hr⟩ := (h _).1 (hlab _ _ hp')
    rw [hr p hp'] at hi
    exact hrs i hi

/-! ### The sequences of the native FSA do not share states -/

theorem native_separate {loop : Bool} {targets : List (List Nat)} {nTime : Nat} {seqLens : List Nat} {blank : Nat} {f : Fsa Nat}
    (hshape : ∀ row ∈ targets, row.length = nTime) (hlens : ∀ L ∈ seqLens, L ≤ nTime)
    (h : nativeFsa loop targets nTime seqLens blank = .ok f) : Separate f := by
  unfold nativeFsa at h
  split at h
  swap
  · cases h
  rename_i hlen
  injection h with h
  subst h
  have hle : ∀ b, b < targets.length → seqLens.getD b 0 ≤ nTime ∧ seqLens.getD b 0 ≤ (targets.getD b []).length := by
    intro b hb
    have e1 : seqLens.getD b 0 = seqLens[b] := by rw [List.getD_eq_getElem?_getD, List.getElem?_eq_getElem (by omega)]; rfl
    have e2 : targets.getD b [] = targets[b] := by rw [List.getD_eq_getElem?_getD, List.getElem?_eq_getElem hb]; rfl
    have h1 := hlens _ (List.getElem_mem (show b < seqLens.length by omega))
    rw [e1, e2, hshape _ (List.getElem_mem hb)]
    exact ⟨h1, h1⟩
  have hdiv : ∀ b s, s < nTime * 2 + 3 → ((nTime * 2 + 3) * b + s) / (nTime * 2 + 3) = b := by
    intro b s hs
    rw [Nat.mul_add_div (by omega), Nat.div_eq_of_lt hs]; rfl
  refine ⟨fun s => s / (nTime * 2 + 3), ?_, ?_⟩
  · intro x hx
    obtain ⟨idx, hidx, rfl⟩ := List.mem_map.1 hx
    have hidx := List.mem_range.1 hidx
    have hb : idx / (5 * nTime + 5) < targets.length := by
      rw [Nat.div_lt_iff_lt_mul (by omega)]; exact hidx
    obtain ⟨l1, l2⟩ := hle _ hb
    have hsrc := kernel_src (loop := loop) (blank := blank) (row := targets.getD (idx / (5 * nTime + 5)) [])
      (L := seqLens.getD (idx / (5 * nTime + 5)) 0) (idx % (5 * nTime + 5))
    have hdst : (kernelEdge loop blank (targets.getD (idx / (5 * nTime + 5)) []) (seqLens.getD (idx / (5 * nTime + 5)) 0)
        (idx % (5 * nTime + 5))).2.1 < nTime * 2 + 3 := by
      by_cases hd : (kernelEdge loop blank (targets.getD (idx / (5 * nTime + 5)) []) (seqLens.getD (idx / (5 * nTime + 5)) 0)
        (idx % (5 * nTime + 5))).2.1 = 2 * seqLens.getD (idx / (5 * nTime + 5)) 0 + 1
      · rw [hd]; omega
      · have := (kernel_sound l2 _ hd).dst
        rw [take_len l2] at this
        omega
    exact ⟨hdiv _ _ (by omega), hdiv _ _ hdst⟩
  · intro b s e hse
    rw [List.getElem?_map] at hse
    by_cases hb : b < targets.length
    · rw [List.getElem?_range hb] at hse
      injection hse with hse
      injection hse with h1 h2
      obtain ⟨l1, l2⟩ := hle b hb
      rw [← h1, ← h2]
      refine ⟨?_, hdiv _ _ (by omega)⟩
      have := hdiv b 0 (by omega)
      simpa using this
    · rw [List.getElem?_eq_none (by simpa using hb)] at hse; cases hse

/-- C62: the CTC loss, and the soft alignment for its gradient. For every batch of targets without the blank, all scores and lengths, and every order
of the threads: if some string stands for the labels and has non-zero probability, the loss is the sum over all strings which stand for the labels
(in all frames of the sequence, in particular frame 0); and the soft alignment is the part of it of the strings with this symbol in this frame.
Otherwise the loss is 1 (0.0 in -log space), the soft alignment 0. -/
theorem ctc_loss_correct [Semifield K] [DecidableEq K] {loop : Bool} {targets : List (List Nat)} {nTime : Nat} {seqLens : List Nat} {blank dim : Nat} {f : Fsa Nat}
    (hshape : ∀ row ∈ targets, row.length = nTime) (hlens : ∀ L ∈ seqLens, L ≤ nTime) (hblank : blank < dim)
    (h : nativeFsa loop targets nTime seqLens blank = .ok f) {am : Nat → Nat → Nat → K} {index : Nat → Nat → Bool} {nFrames : Nat} {sc : Sched} {T : Nat → Nat}
    (hsc : sc.Ok f.edges.length nFrames) (hT : ∀ b, b < targets.length → T b ≤ nFrames)
    (hi : ∀ t b, t < nFrames → b < targets.length → index t b = decide (t < T b))
    {b L : Nat} {row : List Nat} (hrow : targets[b]? = some row) (hL : seqLens[b]? = some L) (hno : blank ∉ row.take L) (hdim : ∀ a ∈ row.take L, a < dim)
    (t : Nat) (ht : t < T b) :
    (lsum (alignments loop blank dim (T b) (row.take L)) (strWeight am b 0) ≠ 0 →
      (fastBw f (fun _ => 1) am index nFrames sc).2 t b = lsum (alignments loop blank dim (T b) (row.take L)) (strWeight am b 0) ∧
      ∀ a, (fastBw f (fun _ => 1) am index nFrames sc).1 t b a =
        lsum ((alignments loop blank dim (T b) (row.take L)).filter (fun w => decide (w[t]? = some a))) (strWeight am b 0) /
        lsum (alignments loop blank dim (T b) (row.take L)) (strWeight am b 0)) ∧
    (lsum (alignments loop blank dim (T b) (row.take L)) (strWeight am b 0) = 0 →
      (fastBw f (fun _ => 1) am index nFrames sc).2 t b = 1 ∧ ∀ a, (fastBw f (fun _ => 1) am index nFrames sc).1 t b a = 0) := by
  obtain ⟨hlen, hex⟩ := native_fsa_exact loop targets nTime seqLens blank f hshape hlens h
  have hone := hex b row L hrow hL hno
  have hbl : b < targets.length := by
    by_contra h'
    rw [List.getElem?_eq_none (by omega)] at hrow; cases hrow
  obtain ⟨s, e, hse, _⟩ := id hone
  obtain ⟨hperm, hseq⟩ := runs_perm (dim := dim) (T := T b) (by omega) hblank hdim hse hone
  have hZ : pathSum f.edges (fun _ => 1) am s (T b) e = lsum (alignments loop blank dim (T b) (row.take L)) (strWeight am b 0) := by
    rw [← lsum_perm hperm, lsum_map]
    unfold pathSum
    exact lsum_congr (fun p hp => weight_emit 0 (hseq p hp))
  have hZa : ∀ a, pathSumAt f.edges (fun _ => 1) am s (T b) e t a =
      lsum ((alignments loop blank dim (T b) (row.take L)).filter (fun w => decide (w[t]? = some a))) (strWeight am b 0) := by
    intro a
    rw [lsum_filter, ← lsum_perm hperm, lsum_map]
    unfold pathSumAt
    rw [lsum_filter]
    refine lsum_congr ?_
    intro p hp
    rw [labelAt_emit (fun i hi => by
      obtain ⟨x, hx, _⟩ := hseq p hp i hi
      by_contra h'
      rw [List.getElem?_eq_none (by omega)] at hx; cases hx), weight_emit 0 (hseq p hp)]
  have htn : t < nFrames := by have := hT b hbl; omega
  obtain ⟨c1, c2⟩ := baum_welch_correct (w := fun _ => 1) (am := am) (index := index) (sc := sc) (T := T) (nFrames := nFrames)
    (native_separate hshape hlens h) hsc (fun b hb => hT b (by omega)) (fun t b h1 h2 => hi t b h1 (by omega)) b s e t hse htn
  rw [hZ] at c1 c2
  refine ⟨?_, fun h0 => c2 (Or.inr h0)⟩
  intro hne
  obtain ⟨r1, r2⟩ := c1 ht hne
  refine ⟨r1, ?_⟩
  intro a
  rw [r2 a, hZa a]

end Verif.FastBw
