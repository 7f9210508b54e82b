import Verif.CtcFsa.Native
/-
C60: in a CTC FSA, every string has exactly one path if it stands for the labels, otherwise none.
-/
namespace Verif.CtcFsa
open Verif.Py

variable {A : Type} [DecidableEq A]

theorem onePath_of {edges : List (Edge A)} {se : List (Nat × Nat)} {b s t : Nat} {P : List A → Prop} (h : se[b]? = some (s, t))
    (hp : ∀ w, ((∃ p, IsPath edges s w p t) ↔ P w) ∧ (∀ p p', IsPath edges s w p t → IsPath edges s w p' t → p = p') ∧
      (∀ p, IsPath edges s w p t → ∀ e ∈ p, ∃ x, edges[e]? = some x ∧ x.seq = b)) : ExactlyOnePath ⟨edges, se⟩ b P := by
  refine ⟨s, t, h, ?_⟩
  intro w
  obtain ⟨h1, h2, h3⟩ := hp w
  refine ⟨?_, ?_⟩
  · intro hP
    obtain ⟨p, hp⟩ := h1.2 hP
    exact ⟨p, hp, h3 p hp, fun p' hp' => h2 p' p hp' hp⟩
  · intro hP p hp
    exact hP (h1.1 ⟨p, hp⟩)

theorem startEnd_ne_nil {edges : List (Edge A)} {s t : Nat} (h : s ≠ t) (p : List Nat) : ¬ IsPath edges s [] p t := by
  cases p with
  | nil => exact h
  | cons e p => simp [IsPath]

/-- util/fsa.py `get_ctc_fsa_fast_bw`: for every batch of label sequences, each FSA accepts exactly the strings which stand for the labels. -/
theorem ctc_fsa_exact (targets : List (List A)) (nTime : Nat) (seqLens : List Nat) (blank : A) (f : Fsa A)
    (hshape : ∀ row ∈ targets, row.length = nTime)
    (hblank : ∀ (b : Nat) (row : List A) (L : Nat), targets[b]? = some row → seqLens[b]? = some L → blank ∉ row.take L)
    (h : getCtcFsa targets nTime seqLens blank = .ok f) :
    f.startEnd.length = targets.length ∧
    ∀ (b : Nat) (row : List A) (L : Nat), targets[b]? = some row → seqLens[b]? = some L → ExactlyOnePath f b (fun w => labels true blank w = row.take L) := by
  unfold getCtcFsa at h
  split at h
  swap
  · cases h
  rename_i hlen
  have hok := ((seqsFrom_ok blank nTime (targets.zip seqLens) 0 0).1).1 ⟨f, h⟩
  have hq : ∀ q ∈ targets.zip seqLens, q.2 ≤ q.1.length ∧ blank ∉ q.1.take q.2 := by
    intro q hq
    obtain ⟨b, hb⟩ := List.mem_iff_getElem?.1 hq
    rw [List.getElem?_zip_eq_some] at hb
    refine ⟨?_, hblank b q.1 q.2 hb.1 hb.2⟩
    rw [hshape q.1 (List.mem_of_getElem? hb.1)]
    exact hok q hq
  obtain ⟨h1, h2, h3, h4⟩ := seqsFrom_spec blank nTime _ 0 0 f hq h
  refine ⟨by rw [h3, List.length_zip]; omega, ?_⟩
  intro b row L hrow hLb
  have hz : (targets.zip seqLens)[b]? = some (row, L) := by rw [List.getElem?_zip_eq_some]; exact ⟨hrow, hLb⟩
  obtain ⟨hL, hb⟩ := hq _ (List.mem_of_getElem? hz)
  obtain ⟨o, o1, _, o3⟩ := h4 b (row, L) hz
  rw [Nat.zero_add] at o3
  simp only at hL hb o1 o3
  refine onePath_of (edges := f.edges) (se := f.startEnd) o1 ?_
  rcases Nat.eq_zero_or_pos L with rfl | hpos
  · intro w
    exact paths_empty h1 (fun x hx1 hx2 => o3 x hx1 hx2) w
  · have he : endOff L = 2 * L + 1 := if_neg (by omega)
    rw [he] at o3 ⊢
    have ht := hasTopo_of_mem hL h1 (fun x hx1 hx2 => by
      have := o3 x hx1 hx2
      unfold SeqEdges at this
      rw [if_neg (by simp only; omega)] at this
      exact this)
    intro w
    by_cases hw : w = []
    · subst hw
      have hne := startEnd_ne_nil (edges := f.edges) (s := o) (t := o + (2 * L + 1)) (by omega)
      refine ⟨⟨?_, ?_⟩, ?_, ?_⟩
      · rintro ⟨p, hp⟩; exact (hne p hp).elim
      · intro hl
        have : (row.take L).length = 0 := by rw [← hl]; rfl
        rw [take_len hL] at this
        omega
      · intro p p' hp; exact (hne p hp).elim
      · intro p hp; exact (hne p hp).elim
    · exact ht.paths hb (by rw [take_len hL]; omega) w hw

/-- It fails if and only if there are no sequences, or not one length per sequence, or a length is too large. -/
theorem ctc_fsa_total (targets : List (List A)) (nTime : Nat) (seqLens : List Nat) (blank : A) :
    (∃ f, getCtcFsa targets nTime seqLens blank = .ok f) ↔ targets ≠ [] ∧ seqLens.length = targets.length ∧ ∀ L ∈ seqLens, L ≤ nTime := by
  unfold getCtcFsa
  split
  · rename_i hlen
    rw [(seqsFrom_ok blank nTime (targets.zip seqLens) 0 0).1]
    constructor
    · intro h
      refine ⟨hlen.2, hlen.1, ?_⟩
      intro L hL
      obtain ⟨b, hb⟩ := List.mem_iff_getElem?.1 hL
      have hlt : b < seqLens.length := by
        by_contra h'
        rw [List.getElem?_eq_none (by omega)] at hb; cases hb
      exact h (targets[b], L) (List.mem_of_getElem? (i := b) (by
        rw [List.getElem?_zip_eq_some]; exact ⟨List.getElem?_eq_getElem (by omega), hb⟩))
    · rintro ⟨_, _, h⟩ q hq
      exact h q.2 (List.of_mem_zip hq).2
  · rename_i hlen
    constructor
    · rintro ⟨f, h⟩; cases h
    · rintro ⟨h1, h2, _⟩; exact (hlen ⟨h2, h1⟩).elim

/-- The native op, with label loops (CTC) and without (RNA): for every batch of label sequences, each FSA accepts exactly the non-empty strings
which stand for the labels. -/
theorem native_fsa_exact (loop : Bool) (targets : List (List A)) (nTime : Nat) (seqLens : List Nat) (blank : A) (f : Fsa A)
    (hshape : ∀ row ∈ targets, row.length = nTime) (hlens : ∀ L ∈ seqLens, L ≤ nTime)
    (h : nativeFsa loop targets nTime seqLens blank = .ok f) :
    f.startEnd.length = targets.length ∧
    ∀ (b : Nat) (row : List A) (L : Nat), targets[b]? = some row → seqLens[b]? = some L → blank ∉ row.take L →
      ExactlyOnePath f b (fun w => w ≠ [] ∧ labels loop blank w = row.take L) := by
  unfold nativeFsa at h
  split at h
  swap
  · cases h
  rename_i hlen
  injection h with h
  subst h
  refine ⟨by simp, ?_⟩
  intro b row L hrow hLb hb
  have hbt : b < targets.length := by
    by_contra h'
    rw [List.getElem?_eq_none (by omega)] at hrow; cases hrow
  have hle : ∀ b, b < targets.length → seqLens.getD b 0 ≤ nTime ∧ seqLens.getD b 0 ≤ (targets.getD b []).length := by
    intro b hb
    have e1 : seqLens.getD b 0 = seqLens[b] := by rw [List.getD_eq_getElem?_getD, List.getElem?_eq_getElem (by omega)]; rfl
    have e2 : targets.getD b [] = targets[b] := by rw [List.getD_eq_getElem?_getD, List.getElem?_eq_getElem hb]; rfl
    have h1 := hlens _ (List.getElem_mem (show b < seqLens.length by omega))
    rw [e1, e2, hshape _ (List.getElem_mem hb)]
    exact ⟨h1, h1⟩
  have e1 : seqLens.getD b 0 = L := by rw [List.getD_eq_getElem?_getD, hLb]; rfl
  have e2 : targets.getD b [] = row := by rw [List.getD_eq_getElem?_getD, hrow]; rfl
  have ht := hasTopo_native (loop := loop) (blank := blank) hle hbt (by rw [e1, e2]; exact hb)
  have hL := (hle b hbt).2
  rw [e1, e2] at ht hL
  refine onePath_of (s := (nTime * 2 + 3) * b) (t := (nTime * 2 + 3) * b + (2 * L + 2)) ?_ ?_
  · rw [List.getElem?_map, List.getElem?_range hbt]
    simp only [Option.map_some]
    rw [e1, Nat.mul_comm L 2]
  · intro w
    by_cases hw : w = []
    · subst hw
      have hne := startEnd_ne_nil (edges := (List.range (targets.length * (5 * nTime + 5))).map
        (nativeEdge loop blank targets nTime seqLens (5 * nTime + 5))) (s := (nTime * 2 + 3) * b) (t := (nTime * 2 + 3) * b + (2 * L + 2)) (by omega)
      refine ⟨⟨?_, ?_⟩, ?_, ?_⟩
      · rintro ⟨p, hp⟩; exact (hne p hp).elim
      · rintro ⟨h, _⟩; exact (h rfl).elim
      · intro p p' hp; exact (hne p hp).elim
      · intro p hp; exact (hne p hp).elim
    · obtain ⟨h1, h2, h3⟩ := ht.paths hb (by rw [take_len hL]; omega) w hw
      exact ⟨⟨fun h => ⟨hw, h1.1 h⟩, fun h => h1.2 h.2⟩, h2, h3⟩

/-! ### A batch with a repeated label, an empty sequence and a short one -/

def exTargets : List (List Nat) := [[1, 1, 2], [3, 3, 3], [2, 5, 5]]

example : ∃ f, getCtcFsa exTargets 3 [3, 0, 1] 0 = .ok f ∧ f.edges.length = 29 ∧ f.startEnd = [(0, 7), (8, 8), (9, 12)] :=
  ⟨_, rfl, by decide +kernel, by decide +kernel⟩

example : (∀ row ∈ exTargets, row.length = 3) ∧ ∀ (b : Nat) (row : List Nat) (L : Nat), exTargets[b]? = some row → ([3, 0, 1] : List Nat)[b]? = some L → 0 ∉ row.take L := by
  refine ⟨by decide, ?_⟩
  intro b row L h1 h2
  match b with
  | 0 => cases h1; cases h2; decide
  | 1 => cases h1; cases h2; decide
  | 2 => cases h1; cases h2; decide
  | b + 3 => cases h1

example : labels true 0 [1, 1, 0, 1, 2, 2] = [1, 1, 2] ∧ labels true 0 [1, 1, 1, 2] ≠ [1, 1, 2] ∧ labels false 0 [1, 0, 1, 2] = [1, 1, 2] := by decide

example : ∃ f, nativeFsa true exTargets 3 [3, 0, 1] 0 = .ok f ∧ f.edges.length = 60 ∧ f.startEnd = [(0, 8), (9, 11), (18, 22)] :=
  ⟨_, rfl, by decide +kernel, by decide +kernel⟩

end Verif.CtcFsa
