import Verif.CtcFsa.Lemmas
import Mathlib.Data.List.Nodup
/-
The edges which `get_ctc_fsa_fast_bw` makes have the CTC topology.
-/
namespace Verif.CtcFsa
open Verif.Py

variable {A : Type} [DecidableEq A]

theorem take_get {row : List A} {L : Nat} (hL : L ≤ row.length) (d : A) {i : Nat} {c : A} :
    (row.take L)[i]? = some c ↔ i < L ∧ row.getD i d = c := by
  rw [List.getElem?_take]
  split
  · rename_i h
    rw [List.getD_eq_getElem?_getD, List.getElem?_eq_getElem (by omega)]
    simp [h]
  · rename_i h
    constructor
    · intro h'; cases h'
    · rintro ⟨h', _⟩; omega

theorem take_len {row : List A} {L : Nat} (hL : L ≤ row.length) : (row.take L).length = L := by simp; omega

/-- What the edges of one sequence have to be; the end state is `2 * L + 1` after the start. -/
def SeqEdge (blank : A) (row : List A) (L b o : Nat) (x : Edge A) : Prop :=
  x.seq = b ∧ ∃ s t, x.src = o + s ∧ x.dst = o + t ∧ Topo true blank (row.take L) (2 * L + 1) s x.label t

section
variable {blank : A} {row : List A} {L b o : Nat} (hL : L ≤ row.length)
include hL

theorem labelEdges_sound {i : Nat} (hi : i < L) {x : Edge A} (hx : x ∈ labelEdges blank row L b (o + 2 * i) i) : SeqEdge blank row L b o x := by
  have hg : (row.take L)[i]? = some (row.getD i blank) := (take_get hL blank).2 ⟨hi, rfl⟩
  have hlen := take_len hL
  unfold labelEdges skipEdges at hx
  simp only [List.mem_append, List.mem_cons, List.not_mem_nil, or_false] at hx
  rcases hx with ((((((hx | hx) | hx | hx) | hx) | hx) | hx) | hx)
  · subst hx; exact ⟨rfl, 2 * i, 2 * i + 1, rfl, rfl, .label i rfl rfl hg⟩
  · split at hx
    · rw [List.mem_singleton] at hx
      subst hx; exact ⟨rfl, 2 * i, 2 * i + 3, rfl, by simp only; omega, .labelEnd i rfl (by omega) hg (by omega)⟩
    · simp at hx
  · subst hx; exact ⟨rfl, 2 * i + 1, 2 * i + 1, rfl, rfl, .labelLoop i rfl rfl hg rfl⟩
  · subst hx; exact ⟨rfl, 2 * i + 1, 2 * i + 2, rfl, rfl, .blank i rfl rfl (by omega)⟩
  · split at hx
    · rename_i hc
      have hg' : (row.take L)[i + 1]? = some (row.getD (i + 1) blank) := (take_get hL blank).2 ⟨by omega, rfl⟩
      rcases List.mem_cons.1 hx with hx | hx
      · subst hx; exact ⟨rfl, 2 * i + 1, 2 * i + 3, rfl, by simp only; omega, .skip i rfl rfl hg hg' (Or.inl hc.2)⟩
      · split at hx
        · rw [List.mem_singleton] at hx
          subst hx; exact ⟨rfl, 2 * i + 1, 2 * i + 5, rfl, by simp only; omega, .skipEnd i rfl (by omega) hg hg' (Or.inl hc.2) (by omega)⟩
        · simp at hx
    · simp at hx
  · split at hx
    · rcases List.mem_cons.1 hx with hx | hx
      · subst hx; exact ⟨rfl, 2 * i + 1, 2 * i + 3, rfl, by simp only; omega, .loopEnd i rfl (by omega) hg rfl (by omega)⟩
      · rw [List.mem_singleton] at hx
        subst hx; exact ⟨rfl, 2 * i + 1, 2 * i + 3, rfl, by simp only; omega, .blankEnd i rfl (by omega) (by omega)⟩
    · simp at hx
  · subst hx; exact ⟨rfl, 2 * i + 2, 2 * i + 2, rfl, rfl, .blankLoop (i + 1) (by omega) (by omega) (by omega)⟩
  · split at hx
    · rw [List.mem_singleton] at hx
      subst hx; exact ⟨rfl, 2 * i + 2, 2 * i + 3, rfl, by simp only; omega, .lastEnd (by omega) (by omega)⟩
    · simp at hx

theorem labelEdges_complete (hpos : 0 < L) {x : Edge A} (hx : SeqEdge blank row L b o x) :
    x = ⟨o, o, blank, b⟩ ∨ ∃ i, i < L ∧ x ∈ labelEdges blank row L b (o + 2 * i) i := by
  have hlen := take_len hL
  obtain ⟨xs, xd, xl, xb⟩ := x
  obtain ⟨h1, s, t, h2, h3, h⟩ := hx
  simp only at h1 h2 h3 h
  subst h1
  have hmk : ∀ (i : Nat), i < L → ∀ y : Edge A, y ∈ labelEdges blank row L xb (o + 2 * i) i → (⟨xs, xd, xl, xb⟩ : Edge A) = y →
      (⟨xs, xd, xl, xb⟩ : Edge A) = ⟨o, o, blank, xb⟩ ∨ ∃ i, i < L ∧ (⟨xs, xd, xl, xb⟩ : Edge A) ∈ labelEdges blank row L xb (o + 2 * i) i := by
    intro i hi y hy hxy
    exact Or.inr ⟨i, hi, by rw [hxy]; exact hy⟩
  cases h with
  | blankLoop i hs ht hi =>
    rcases Nat.eq_zero_or_pos i with rfl | hp
    · left; subst h2 h3 hs ht; rfl
    · refine hmk (i - 1) (by omega) ⟨o + 2 * (i - 1) + 2, o + 2 * (i - 1) + 2, blank, xb⟩ (by simp [labelEdges]) ?_
      subst h2 h3; rw [Edge.mk.injEq]; exact ⟨by omega, by omega, rfl, rfl⟩
  | label i hs ht hi =>
    obtain ⟨hi1, hi2⟩ := (take_get hL blank).1 hi
    refine hmk i hi1 ⟨o + 2 * i, o + 2 * i + 1, row.getD i blank, xb⟩ (by simp [labelEdges]) ?_
    subst h2 h3; rw [Edge.mk.injEq]; exact ⟨by omega, by omega, hi2.symm, rfl⟩
  | labelEnd i hs ht hi hl =>
    obtain ⟨hi1, hi2⟩ := (take_get hL blank).1 hi
    have hc : i + 1 = L := by omega
    refine hmk i hi1 ⟨o + 2 * i, o + 2 * i + 3, row.getD i blank, xb⟩ (by simp [labelEdges, hc]) ?_
    subst h2 h3; rw [Edge.mk.injEq]; exact ⟨by omega, by omega, hi2.symm, rfl⟩
  | labelLoop i hs ht hi =>
    obtain ⟨hi1, hi2⟩ := (take_get hL blank).1 hi
    refine hmk i hi1 ⟨o + 2 * i + 1, o + 2 * i + 1, row.getD i blank, xb⟩ (by simp [labelEdges]) ?_
    subst h2 h3; rw [Edge.mk.injEq]; exact ⟨by omega, by omega, hi2.symm, rfl⟩
  | blank i hs ht hi =>
    refine hmk i (by omega) ⟨o + 2 * i + 1, o + 2 * i + 2, blank, xb⟩ (by simp [labelEdges]) ?_
    subst h2 h3; rw [Edge.mk.injEq]; exact ⟨by omega, by omega, rfl, rfl⟩
  | skip i hs ht hi hi' hcc =>
    obtain ⟨hi1, hi2⟩ := (take_get hL blank).1 hi
    obtain ⟨hi1', hi2'⟩ := (take_get hL blank).1 hi'
    have hcc := hcc.resolve_right (by simp)
    rw [← hi2, ← hi2'] at hcc
    have hc : i + 1 ≠ L ∧ row.getD i blank ≠ row.getD (i + 1) blank := ⟨by omega, hcc⟩
    refine hmk i hi1 ⟨o + 2 * i + 1, o + 2 * i + 3, row.getD (i + 1) blank, xb⟩ ?_ ?_
    · unfold labelEdges skipEdges
      rw [if_pos hc]; simp
    · subst h2 h3; rw [Edge.mk.injEq]; exact ⟨by omega, by omega, hi2'.symm, rfl⟩
  | skipEnd i hs ht hi hi' hcc hl =>
    obtain ⟨hi1, hi2⟩ := (take_get hL blank).1 hi
    obtain ⟨hi1', hi2'⟩ := (take_get hL blank).1 hi'
    have hcc := hcc.resolve_right (by simp)
    rw [← hi2, ← hi2'] at hcc
    have hc : i + 1 ≠ L ∧ row.getD i blank ≠ row.getD (i + 1) blank := ⟨by omega, hcc⟩
    refine hmk i hi1 ⟨o + 2 * i + 1, o + 2 * i + 5, row.getD (i + 1) blank, xb⟩ ?_ ?_
    · unfold labelEdges skipEdges
      rw [if_pos hc, if_pos (show i + 2 = L by omega)]; simp
    · subst h2 h3; rw [Edge.mk.injEq]; exact ⟨by omega, by omega, hi2'.symm, rfl⟩
  | loopEnd i hs ht hi _ hl =>
    obtain ⟨hi1, hi2⟩ := (take_get hL blank).1 hi
    have hc : i + 1 = L := by omega
    refine hmk i hi1 ⟨o + 2 * i + 1, o + 2 * i + 3, row.getD i blank, xb⟩ (by simp [labelEdges, hc]) ?_
    subst h2 h3; rw [Edge.mk.injEq]; exact ⟨by omega, by omega, hi2.symm, rfl⟩
  | blankEnd i hs ht hl =>
    have hc : i + 1 = L := by omega
    refine hmk i (by omega) ⟨o + 2 * i + 1, o + 2 * i + 3, blank, xb⟩ (by simp [labelEdges, hc]) ?_
    subst h2 h3; rw [Edge.mk.injEq]; exact ⟨by omega, by omega, rfl, rfl⟩
  | lastEnd hs ht =>
    have hc : L - 1 + 1 = L := by omega
    refine hmk (L - 1) (by omega) ⟨o + 2 * (L - 1) + 2, o + 2 * (L - 1) + 3, blank, xb⟩ (by simp [labelEdges, hc]) ?_
    subst h2 h3; rw [Edge.mk.injEq]; exact ⟨by omega, by omega, rfl, rfl⟩

theorem mem_labelsFrom (x : Edge A) : ∀ (n i : Nat), i + n = L →
    (x ∈ (labelsFrom blank row L b n i (o + 2 * i)).1 ↔ ∃ j, i ≤ j ∧ j < L ∧ x ∈ labelEdges blank row L b (o + 2 * j) j)
  | 0, i, h => by
    constructor
    · intro hx; simp [labelsFrom] at hx
    · rintro ⟨j, h1, h2, _⟩; omega
  | n + 1, i, h => by
    have hrest : ∀ x, x ∈ (labelsFrom blank row L b n (i + 1) (o + 2 * i + 2 + (if i + 1 = L then 1 else 0))).1 ↔
        ∃ j, i + 1 ≤ j ∧ j < L ∧ x ∈ labelEdges blank row L b (o + 2 * j) j := by
      intro x
      by_cases hc : i + 1 = L
      · have : n = 0 := by omega
        subst this
        constructor
        · intro hx; simp [labelsFrom] at hx
        · rintro ⟨j, h1, h2, _⟩; omega
      · rw [if_neg hc]
        exact mem_labelsFrom x n (i + 1) (by omega)
    simp only [labelsFrom, List.mem_append]
    rw [hrest]
    constructor
    · rintro (hx | ⟨j, h1, h2, h3⟩)
      · exact ⟨i, by omega, by omega, hx⟩
      · exact ⟨j, by omega, h2, h3⟩
    · rintro ⟨j, h1, h2, h3⟩
      rcases Nat.lt_or_ge i j with hij | hij
      · exact Or.inr ⟨j, by omega, h2, h3⟩
      · left
        have : j = i := by omega
        rw [this] at h3; exact h3

omit hL in
theorem labelEdges_range {i s : Nat} {x : Edge A} (hx : x ∈ labelEdges blank row L b s i) :
    s ≤ x.src ∧ (x.src < s + 2 ∨ x = ⟨s + 2, s + 2, blank, b⟩ ∨ i + 1 = L) ∧ x ≠ ⟨s, s, blank, b⟩ := by
  unfold labelEdges skipEdges at hx
  simp only [List.mem_append, List.mem_cons, List.not_mem_nil, or_false] at hx
  rcases hx with ((((((hx | hx) | hx | hx) | hx) | hx) | hx) | hx)
  · subst hx; simp
  · split at hx <;> simp at hx
    subst hx; simp
  · subst hx; simp
  · subst hx; simp
  · split at hx
    · rcases List.mem_cons.1 hx with hx | hx
      · subst hx; simp
      · split at hx <;> simp at hx
        subst hx; simp
    · simp at hx
  · split at hx
    · rcases List.mem_cons.1 hx with hx | hx
      · subst hx; simp
      · simp at hx
        subst hx; simp
    · simp at hx
  · subst hx; simp
  · split at hx
    · simp at hx
      subst hx
      refine ⟨by simp, Or.inr (Or.inr ?_), by simp⟩
      assumption
    · simp at hx

theorem labelEdges_nodup {i : Nat} (s : Nat) (hi : i < L) (hb : blank ∉ row.take L) : (labelEdges blank row L b s i).Nodup := by
  have hne : row.getD i blank ≠ blank := by
    intro h
    exact hb (List.mem_of_getElem? ((take_get hL blank).2 ⟨hi, h⟩))
  unfold labelEdges skipEdges
  by_cases h1 : i + 1 = L
  · simp [h1]
    simpa using hne
  · by_cases h2 : i + 2 = L
    · by_cases h3 : row.getD i blank = row.getD (i + 1) blank
      · rw [if_neg (show ¬ (i + 1 ≠ L ∧ row.getD i blank ≠ row.getD (i + 1) blank) from fun h => h.2 h3)]
        simp [h1]
      · simp only [h1, h2, h3, ne_eq, not_false_eq_true, and_self, if_true, if_false]
        simp
    · by_cases h3 : row.getD i blank = row.getD (i + 1) blank
      · rw [if_neg (show ¬ (i + 1 ≠ L ∧ row.getD i blank ≠ row.getD (i + 1) blank) from fun h => h.2 h3)]
        simp [h1]
      · simp only [h1, h2, h3, ne_eq, not_false_eq_true, and_self, if_true, if_false]
        simp

theorem labelsFrom_nodup (hb : blank ∉ row.take L) : ∀ (n i : Nat), i + n = L → (labelsFrom blank row L b n i (o + 2 * i)).1.Nodup
  | 0, i, h => by simp [labelsFrom]
  | n + 1, i, h => by
    simp only [labelsFrom]
    rw [List.nodup_append]
    refine ⟨labelEdges_nodup hL _ (by omega) hb, ?_, ?_⟩
    · by_cases hc : i + 1 = L
      · have : n = 0 := by omega
        subst this
        simp [labelsFrom]
      · rw [if_neg hc]
        exact labelsFrom_nodup hb n (i + 1) (by omega)
    · intro x hx y hy hxy
      subst hxy
      by_cases hc : i + 1 = L
      · have : n = 0 := by omega
        subst this
        simp [labelsFrom] at hy
      · rw [if_neg hc] at hy
        obtain ⟨j, h1, h2, h3⟩ := (mem_labelsFrom hL x n (i + 1) (by omega)).1 hy
        obtain ⟨r1, r2, r3⟩ := labelEdges_range hx
        obtain ⟨q1, q2, q3⟩ := labelEdges_range h3
        rcases r2 with r2 | r2 | r2
        · omega
        · have hj : j = i + 1 := by rw [r2] at q1; simp only at q1; omega
          subst hj
          exact q3 (by rw [r2, show o + 2 * i + 2 = o + 2 * (i + 1) by omega])
        · omega

omit hL in
theorem labelsFrom_state : ∀ (n i s : Nat), i + n = L → (labelsFrom blank row L b n i s).2 = s + 2 * n + (if n = 0 then 0 else 1)
  | 0, i, s, h => rfl
  | n + 1, i, s, h => by
    simp only [labelsFrom]
    rw [labelsFrom_state n (i + 1) _ (by omega), if_neg (Nat.succ_ne_zero n)]
    rcases Nat.eq_zero_or_pos n with h0 | h0
    · rw [if_pos h0, if_pos (by omega)]; omega
    · rw [if_neg (by omega), if_neg (by omega)]; omega

/-- The edges of one sequence with labels. -/
theorem seq_edges (hpos : 0 < L) (hb : blank ∉ row.take L) :
    ((⟨o, o, blank, b⟩ : Edge A) :: (labelsFrom blank row L b L 0 o).1).Nodup ∧
    ∀ x, x ∈ ((⟨o, o, blank, b⟩ : Edge A) :: (labelsFrom blank row L b L 0 o).1) ↔ SeqEdge blank row L b o x := by
  have hm := fun x => mem_labelsFrom (blank := blank) (b := b) (o := o) hL x L 0 (by omega)
  rw [Nat.mul_zero, Nat.add_zero] at hm
  have hn := labelsFrom_nodup (o := o) (b := b) hL hb L 0 (by omega)
  rw [Nat.mul_zero, Nat.add_zero] at hn
  refine ⟨List.nodup_cons.2 ⟨?_, hn⟩, ?_⟩
  · intro hx
    obtain ⟨j, _, h2, h3⟩ := (hm _).1 hx
    obtain ⟨q1, q2, q3⟩ := labelEdges_range h3
    simp only at q1
    have : j = 0 := by omega
    subst this
    exact q3 rfl
  · intro x
    rw [List.mem_cons, hm]
    constructor
    · rintro (rfl | ⟨j, _, h2, h3⟩)
      · exact ⟨rfl, 0, 0, rfl, rfl, .blankLoop 0 rfl rfl (by omega)⟩
      · exact labelEdges_sound hL h2 h3
    · intro hx
      rcases labelEdges_complete hL hpos hx with h | ⟨j, h2, h3⟩
      · exact Or.inl h
      · exact Or.inr ⟨j, by omega, h2, h3⟩

end

/-! ### The batch -/

/-- The edges of a sequence in the batch; without labels there is one state only. -/
def SeqEdges (blank : A) (q : List A × Nat) (b o : Nat) (x : Edge A) : Prop :=
  if q.2 = 0 then x = ⟨o, o, blank, b⟩ else SeqEdge blank q.1 q.2 b o x

/-- Offset of the end state. -/
def endOff (L : Nat) : Nat := if L = 0 then 0 else 2 * L + 1

theorem SeqEdges.range {blank : A} {q : List A × Nat} (hL : q.2 ≤ q.1.length) {b o : Nat} {x : Edge A} (h : SeqEdges blank q b o x) :
    o ≤ x.src ∧ x.src ≤ o + endOff q.2 := by
  unfold SeqEdges at h
  unfold endOff
  split at h
  · subst h; simp
  · rename_i hq
    rw [if_neg hq]
    obtain ⟨_, s, t, h1, h2, h3⟩ := h
    have := h3.src_lt
    rw [take_len hL] at this
    omega

/-- The edges of one sequence. -/
def headEdges (blank : A) (q : List A × Nat) (b s : Nat) : List (Edge A) := ⟨s, s, blank, b⟩ :: (labelsFrom blank q.1 q.2 b q.2 0 s).1

theorem head_spec {blank : A} {q : List A × Nat} (hL : q.2 ≤ q.1.length) (hb : blank ∉ q.1.take q.2) (b s : Nat) :
    (headEdges blank q b s).Nodup ∧ (∀ x, x ∈ headEdges blank q b s ↔ SeqEdges blank q b s x) ∧
    (labelsFrom blank q.1 q.2 b q.2 0 s).2 = s + endOff q.2 := by
  refine ⟨?_, ?_, ?_⟩
  · unfold headEdges
    rcases Nat.eq_zero_or_pos q.2 with h | h
    · rw [h]; simp [labelsFrom]
    · exact (seq_edges hL h hb).1
  · intro x
    unfold headEdges SeqEdges
    rcases Nat.eq_zero_or_pos q.2 with h | h
    · rw [h]; simp [labelsFrom]
    · rw [if_neg (by omega)]
      exact (seq_edges hL h hb).2 x
  · rw [labelsFrom_state _ _ _ (by omega)]
    unfold endOff
    split_ifs <;> omega

theorem seqsFrom_spec (blank : A) (nTime : Nat) : ∀ (qs : List (List A × Nat)) (b s : Nat) (f : Fsa A),
    (∀ q ∈ qs, q.2 ≤ q.1.length ∧ blank ∉ q.1.take q.2) → seqsFrom blank nTime qs b s = .ok f →
    f.edges.Nodup ∧ (∀ x ∈ f.edges, s ≤ x.src) ∧ f.startEnd.length = qs.length ∧
    ∀ (k : Nat) (q : List A × Nat), qs[k]? = some q → ∃ o, f.startEnd[k]? = some (o, o + endOff q.2) ∧ s ≤ o ∧
      ∀ x : Edge A, o ≤ x.src → x.src ≤ o + endOff q.2 → (x ∈ f.edges ↔ SeqEdges blank q (b + k) o x)
  | [], b, s, f, _, h => by
    simp only [seqsFrom] at h
    injection h with h
    subst h
    simp
  | q :: qs, b, s, f, hq, h => by
    obtain ⟨hL, hb⟩ := hq q (by simp)
    obtain ⟨n1, n2, n3⟩ := head_spec hL hb b s
    simp only [seqsFrom] at h
    split at h
    swap
    · cases h
    rw [n3] at h
    cases hf : seqsFrom blank nTime qs (b + 1) (s + endOff q.2 + 1) with
    | error e => rw [hf] at h; cases h
    | ok g =>
      rw [hf] at h
      simp only [Except.bind] at h
      injection h with h
      obtain ⟨g1, g2, g3, g4⟩ := seqsFrom_spec blank nTime qs (b + 1) (s + endOff q.2 + 1) g (fun q' hq' => hq q' (by simp [hq'])) hf
      have he : f.edges = headEdges blank q b s ++ g.edges := by rw [← h]; rfl
      have hse : f.startEnd = (s, s + endOff q.2) :: g.startEnd := by rw [← h]
      rw [he, hse]
      refine ⟨?_, ?_, by simp [g3], ?_⟩
      · rw [List.nodup_append]
        refine ⟨n1, g1, ?_⟩
        intro x hx y hy hxy
        subst hxy
        have r1 := ((n2 x).1 hx).range hL
        have r2 := g2 x hy
        omega
      · intro x hx
        rcases List.mem_append.1 hx with hx | hx
        · exact (((n2 x).1 hx).range hL).1
        · have := g2 x hx; omega
      · intro k q' hk
        cases k with
        | zero =>
          simp only [List.getElem?_cons_zero] at hk
          injection hk with hk
          subst hk
          refine ⟨s, rfl, by omega, ?_⟩
          intro x hx1 hx2
          rw [List.mem_append, n2 x]
          constructor
          · rintro (hx | hx)
            · exact hx
            · have := g2 x hx; omega
          · intro hx; exact Or.inl hx
        | succ k =>
          rw [List.getElem?_cons_succ] at hk
          obtain ⟨o, o1, o2, o3⟩ := g4 k q' hk
          refine ⟨o, by rw [List.getElem?_cons_succ]; exact o1, by omega, ?_⟩
          intro x hx1 hx2
          rw [List.mem_append, o3 x hx1 hx2, show b + 1 + k = b + (k + 1) by omega]
          constructor
          · rintro (hx | hx)
            · have := ((n2 x).1 hx).range hL; omega
            · exact hx
          · intro hx; exact Or.inr hx

theorem seqsFrom_ok (blank : A) (nTime : Nat) : ∀ (qs : List (List A × Nat)) (b s : Nat),
    ((∃ f, seqsFrom blank nTime qs b s = .ok f) ↔ ∀ q ∈ qs, q.2 ≤ nTime) ∧
    ((∃ q ∈ qs, ¬ q.2 ≤ nTime) → seqsFrom blank nTime qs b s = .error .assertion)
  | [], b, s => by simp [seqsFrom]
  | q :: qs, b, s => by
    simp only [seqsFrom]
    split
    · rename_i hle
      obtain ⟨ih1, ih2⟩ := seqsFrom_ok blank nTime qs (b + 1) ((labelsFrom blank q.1 q.2 b q.2 0 s).2 + 1)
      cases hf : seqsFrom blank nTime qs (b + 1) ((labelsFrom blank q.1 q.2 b q.2 0 s).2 + 1) with
      | error e =>
        rw [hf] at ih1 ih2
        simp only [Except.bind]
        refine ⟨⟨(by rintro ⟨f, h⟩; cases h), ?_⟩, ?_⟩
        · intro h
          obtain ⟨f, h'⟩ := ih1.2 (fun q' hq' => h q' (by simp [hq']))
          cases h'
        · rintro ⟨q', h1, h2⟩
          rcases List.mem_cons.1 h1 with rfl | h1
          · exact (h2 hle).elim
          · have := ih2 ⟨q', h1, h2⟩
            injection this with this
            rw [this]
      | ok g =>
        rw [hf] at ih1
        have := ih1.1 ⟨g, rfl⟩
        simp only [Except.bind]
        refine ⟨⟨?_, fun _ => ⟨_, rfl⟩⟩, ?_⟩
        · intro _ q' hq'
          rcases List.mem_cons.1 hq' with rfl | hq'
          · exact hle
          · exact this q' hq'
        · rintro ⟨q', h1, h2⟩
          exfalso
          rcases List.mem_cons.1 h1 with rfl | h1
          · exact h2 hle
          · exact h2 (this q' h1)
    · rename_i hle
      refine ⟨⟨(by rintro ⟨f, h⟩; cases h), ?_⟩, fun _ => rfl⟩
      intro h
      exact (hle (h q (by simp))).elim

/-! ### Paths -/

/-- No labels: one state. -/
theorem paths_empty {edges : List (Edge A)} {blank : A} {b o : Nat} (hn : edges.Nodup)
    (hm : ∀ x : Edge A, o ≤ x.src → x.src ≤ o → (x ∈ edges ↔ x = ⟨o, o, blank, b⟩)) : ∀ (w : List A),
    ((∃ p, IsPath edges o w p o) ↔ labels true blank w = []) ∧ (∀ p p', IsPath edges o w p o → IsPath edges o w p' o → p = p') ∧
    (∀ p, IsPath edges o w p o → ∀ e ∈ p, ∃ x, edges[e]? = some x ∧ x.seq = b) := by
  have hstep : ∀ {a : A} {w : List A} {e : Nat} {p : List Nat} {x : Edge A}, edges[e]? = some x → x.src = o → x = ⟨o, o, blank, b⟩ := by
    intro a w e p x h1 h2
    exact (hm x (by omega) (by omega)).1 (List.mem_of_getElem? h1)
  intro w
  rw [labels_eq_col]
  induction w with
  | nil =>
    refine ⟨⟨fun _ => rfl, fun _ => ⟨[], rfl⟩⟩, ?_, ?_⟩
    · intro p p' h h'
      cases p <;> cases p' <;> simp_all [IsPath]
    · intro p h
      cases p <;> simp_all [IsPath]
  | cons a w ih =>
    obtain ⟨ih1, ih2, ih3⟩ := ih
    have hinv : ∀ p, IsPath edges o (a :: w) p o → ∃ e p', p = e :: p' ∧ edges[e]? = some ⟨o, o, blank, b⟩ ∧ a = blank ∧ IsPath edges o w p' o := by
      intro p h
      cases p with
      | nil => simp [IsPath] at h
      | cons e p =>
        obtain ⟨x, h1, h2, h3, h4⟩ := h
        have := hstep (a := a) (w := w) (p := p) h1 h2
        subst this
        exact ⟨e, p, rfl, h1, h3.symm, h4⟩
    refine ⟨⟨?_, ?_⟩, ?_, ?_⟩
    · rintro ⟨p, hp⟩
      obtain ⟨e, p', rfl, h1, h2, h3⟩ := hinv p hp
      unfold col
      rw [if_pos h2]
      exact ih1.1 ⟨p', h3⟩
    · intro h
      unfold col at h
      by_cases ha : a = blank
      · rw [if_pos ha] at h
        obtain ⟨p, hp⟩ := ih1.2 h
        have hmem := (hm ⟨o, o, blank, b⟩ (by simp) (by simp)).2 rfl
        obtain ⟨e, he⟩ := List.mem_iff_getElem?.1 hmem
        exact ⟨e :: p, ⟨o, o, blank, b⟩, he, rfl, ha.symm, hp⟩
      · rw [if_neg ha, if_neg (by simp)] at h
        cases h
    · intro p p' h h'
      obtain ⟨e, q, rfl, h1, h2, h3⟩ := hinv p h
      obtain ⟨e', q', rfl, h1', h2', h3'⟩ := hinv p' h'
      rw [ih2 q q' h3 h3']
      have : e = e' := by
        obtain ⟨l1, e1⟩ := List.getElem?_eq_some_iff.1 h1
        obtain ⟨l2, e2⟩ := List.getElem?_eq_some_iff.1 h1'
        exact (hn.getElem_inj_iff).1 (e1.trans e2.symm)
      rw [this]
    · intro p h e' he'
      obtain ⟨e, q, rfl, h1, h2, h3⟩ := hinv p h
      rcases List.mem_cons.1 he' with rfl | he'
      · exact ⟨_, h1, rfl⟩
      · exact ih3 q h3 e' he'

/-- Labels: the topology. -/
theorem hasTopo_of_mem {edges : List (Edge A)} {blank : A} {row : List A} {L b o : Nat} (hL : L ≤ row.length) (hn : edges.Nodup)
    (hm : ∀ x : Edge A, o ≤ x.src → x.src ≤ o + (2 * L + 1) → (x ∈ edges ↔ SeqEdge blank row L b o x)) :
    HasTopo edges b o true blank (row.take L) (2 * L + 1) (fun _ => False) where
  sound := by
    intro e x s h1 h2 h3 _
    rw [take_len hL] at h3
    obtain ⟨h4, s', t, h5, h6, h7⟩ := (hm x (by omega) (by omega)).1 (List.mem_of_getElem? h1)
    have : s' = s := by omega
    subst this
    exact ⟨h4, t, h6, h7⟩
  complete := by
    intro s a t h
    have hs := h.src_lt
    rw [take_len hL] at hs
    have hmem := (hm ⟨o + s, o + t, a, b⟩ (by simp only; omega) (by simp only; omega)).2 ⟨rfl, s, t, rfl, rfl, h⟩
    obtain ⟨e, he⟩ := List.mem_iff_getElem?.1 hmem
    exact ⟨e, _, he, rfl, rfl, rfl⟩
  unique := by
    intro e e' x x' s t h1 h1' h2 h2' h3 h3' h4 h5
    have hs := h5.src_lt
    rw [take_len hL] at hs
    obtain ⟨b1, _⟩ := (hm x (by omega) (by omega)).1 (List.mem_of_getElem? h1)
    obtain ⟨b2, _⟩ := (hm x' (by omega) (by omega)).1 (List.mem_of_getElem? h1')
    have : x = x' := by
      obtain ⟨x1, x2, x3, x4⟩ := x
      obtain ⟨y1, y2, y3, y4⟩ := x'
      simp only at *
      rw [Edge.mk.injEq]
      exact ⟨by omega, by omega, h4, by omega⟩
    subst this
    obtain ⟨l1, e1⟩ := List.getElem?_eq_some_iff.1 h1
    obtain ⟨l2, e2⟩ := List.getElem?_eq_some_iff.1 h1'
    exact (hn.getElem_inj_iff).1 (e1.trans e2.symm)
  dead_closed := fun _ _ _ h => h
  dead_end := fun h => h

end Verif.CtcFsa
