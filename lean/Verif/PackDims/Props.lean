import Verif.PackDims.Model
/-
C137: which dims can be packed.
-/
namespace Verif.PackDims
open Verif Verif.Py

/-- The dim has sizes of its own for the indices of other dims. -/
def Padded (e : Env) (d : Nat) (ds : List Nat) (f : (Nat → Nat) → Nat) : Prop := e d = .dyn ds f ∧ ds ≠ []

/-- A frame is real: in every padded dim of the list, its index is smaller than the size for its sequence. -/
def Real (e : Env) (dims : List Nat) (i : Nat → Nat) : Prop := ∀ d ∈ dims, ∀ ds f, Padded e d ds f → i d < f i

/-- The mask knows of the dim: it is padded itself, or one of the padded dims has sizes for its indices. -/
def Known (e : Env) (dims : List Nat) (x : Nat) : Prop := ∃ d ∈ dims, ∃ ds f, Padded e d ds f ∧ (x = d ∨ x ∈ ds)

theorem need_iff (e : Env) (d : Nat) : needMasking e d = true ↔ ∃ ds f, Padded e d ds f := by
  unfold needMasking Padded
  cases h : e d with
  | plain n => simp
  | dyn ds f =>
    simp only [Bool.not_eq_true', Size.dyn.injEq]
    constructor
    · intro hn; exact ⟨ds, f, ⟨rfl, rfl⟩, by intro e; simp [e] at hn⟩
    · rintro ⟨ds', f', ⟨rfl, _⟩, hn⟩; cases ds with
      | nil => exact absurd rfl hn
      | cons a t => rfl

theorem mem_getMask (e : Env) (order : List Nat) (d x : Nat) : x ∈ (getMask e order d).dims ↔ x ∈ sizeDims e d ∨ x = d := by
  simp only [getMask, List.mem_append, List.mem_filter, decide_eq_true_eq, List.mem_singleton]
  constructor
  · rintro (⟨_, h⟩ | ⟨h, _⟩) <;> exact h
  · intro h
    by_cases ho : x ∈ order
    · exact Or.inl ⟨ho, h⟩
    · exact Or.inr ⟨h, fun hc => ho hc.1⟩

theorem fold_both (ms : List Mask) (a : Mask) :
    (∀ x, x ∈ (ms.foldl both a).dims ↔ x ∈ a.dims ∨ ∃ m ∈ ms, x ∈ m.dims) ∧
    ∀ i, (ms.foldl both a).val i = true ↔ a.val i = true ∧ ∀ m ∈ ms, m.val i = true := by
  induction ms generalizing a with
  | nil => simp
  | cons m t ih =>
    obtain ⟨h1, h2⟩ := ih (both a m)
    rw [List.foldl_cons]
    constructor
    · intro x
      rw [h1]
      simp only [both, List.mem_append, List.mem_filter, decide_eq_true_eq, List.mem_cons, exists_eq_or_imp]
      by_cases hx : x ∈ a.dims <;> simp [hx]
    · intro i
      rw [h2]
      simp [both, and_assoc]

/-- The mask is true exactly at the real frames, and its dims are exactly those which are padded or have sizes of their own. -/
theorem mask_meaning (e : Env) (dims : List Nat) (hne : dims ≠ []) :
    ∃ m, sequenceMask e dims = .ok m ∧ (∀ i, m.val i = true ↔ Real e dims i) ∧ ∀ x, x ∈ m.dims ↔ Known e dims x := by
  have h0 : ¬ dims.isEmpty = true := by rw [List.isEmpty_iff]; exact hne
  refine ⟨_, by unfold sequenceMask; rw [if_neg h0], ?_, ?_⟩
  · intro i
    rw [(fold_both _ _).2 i]
    simp only [true_and, List.mem_map, List.mem_filter]
    constructor
    · intro h d hd ds f hp
      have := h _ ⟨d, ⟨hd, (need_iff e d).2 ⟨ds, f, hp⟩⟩, rfl⟩
      simp only [getMask, sizeAt, hp.1, decide_eq_true_eq] at this
      exact this
    · rintro h m ⟨d, ⟨hd, hn⟩, rfl⟩
      obtain ⟨ds, f, hp⟩ := (need_iff e d).1 hn
      simp only [getMask, sizeAt, hp.1, decide_eq_true_eq]
      exact h d hd ds f hp
  · intro x
    rw [(fold_both _ _).1 x]
    simp only [List.not_mem_nil, false_or, List.mem_map, List.mem_filter]
    constructor
    · rintro ⟨m, ⟨d, ⟨hd, hn⟩, rfl⟩, hx⟩
      obtain ⟨ds, f, hp⟩ := (need_iff e d).1 hn
      rw [mem_getMask] at hx
      simp only [sizeDims, hp.1] at hx
      exact ⟨d, hd, ds, f, hp, hx.symm⟩
    · rintro ⟨d, hd, ds, f, hp, hx⟩
      refine ⟨_, ⟨d, ⟨hd, (need_iff e d).2 ⟨ds, f, hp⟩⟩, rfl⟩, ?_⟩
      rw [mem_getMask]
      simp only [sizeDims, hp.1]
      exact hx.symm

/-- Dims are accepted exactly if every one of them is padded itself or has sizes of a padded one of them for its indices; then the mask marks the real frames, and
the whole mask is used exactly if it has no other dims. -/
theorem accepted_iff (e : Env) (dims : List Nat) :
    ((∃ w m, packPadded e dims = .ok (w, m)) ↔ dims ≠ [] ∧ ∀ d ∈ dims, Known e dims d) ∧
    ∀ w m, packPadded e dims = .ok (w, m) → (∀ i, m.val i = true ↔ Real e dims i) ∧ (w = .whole ↔ ∀ x, Known e dims x → x ∈ dims) := by
  by_cases hne : dims = []
  · subst hne
    simp [packPadded, sequenceMask]
  · obtain ⟨m, h1, h2, h3⟩ := mask_meaning e dims hne
    have h0 : ¬ dims.isEmpty = true := by rw [List.isEmpty_iff]; exact hne
    by_cases hs : ∀ d ∈ dims, Known e dims d
    · have hall : (dims.all fun d => decide (d ∈ m.dims)) = true := by
        rw [List.all_eq_true]; intro d hd; simpa using (h3 d).2 (hs d hd)
      by_cases hw : ∀ x, Known e dims x → x ∈ dims
      · have hw' : (m.dims.all fun d => decide (d ∈ dims)) = true := by
          rw [List.all_eq_true]; intro d hd; simpa using hw d ((h3 d).1 hd)
        have hp : packPadded e dims = .ok (.whole, m) := by
          simp only [packPadded, h1, checkDims, hall, if_true, if_neg h0, hw']
        rw [hp]
        refine ⟨⟨fun _ => ⟨hne, hs⟩, fun _ => ⟨_, _, rfl⟩⟩, ?_⟩
        intro w m' h; cases h; exact ⟨h2, ⟨fun _ => hw, fun _ => rfl⟩⟩
      · have hw' : ¬ (m.dims.all fun d => decide (d ∈ dims)) = true := by
          rw [List.all_eq_true]; intro h; exact hw fun x hx => by simpa using h x ((h3 x).2 hx)
        have hp : packPadded e dims = .ok (.part, m) := by
          simp only [packPadded, h1, checkDims, hall, if_true, if_neg h0, if_neg hw']
        rw [hp]
        refine ⟨⟨fun _ => ⟨hne, hs⟩, fun _ => ⟨_, _, rfl⟩⟩, ?_⟩
        intro w m' h; cases h; exact ⟨h2, ⟨fun h => (by cases h), fun h => absurd h hw⟩⟩
    · have hall : ¬ (dims.all fun d => decide (d ∈ m.dims)) = true := by
        rw [List.all_eq_true]; intro h; exact hs fun d hd => (h3 d).1 (by simpa using h d hd)
      have hp : packPadded e dims = .error .valueError := by
        simp only [packPadded, h1, checkDims, if_neg hall]
      rw [hp]
      refine ⟨⟨?_, fun h => absurd h.2 hs⟩, ?_⟩
      · rintro ⟨_, _, h⟩; cases h
      · intro _ _ h; cases h

/-- The documentation says that without padded frames the result is just the reshaped tensor. But when no dim has sizes of its own, as for static dims, packing
always fails. -/
theorem unpadded_refused (e : Env) (dims : List Nat) (hne : dims ≠ []) (hp : ∀ d ∈ dims, ∃ n, e d = .plain n) :
    packPadded e dims = .error .valueError := by
  obtain ⟨m, h1, _, h3⟩ := mask_meaning e dims hne
  have hall : ¬ (dims.all fun d => decide (d ∈ m.dims)) = true := by
    rw [List.all_eq_true]; intro h
    cases dims with
    | nil => exact hne rfl
    | cons d t =>
      obtain ⟨d', hd', ds, f, hpad, _⟩ := (h3 d).1 (by simpa using h d (by simp))
      obtain ⟨n, hn⟩ := hp d' hd'
      rw [hpad.1] at hn; cases hn
  simp only [packPadded, h1, checkDims, if_neg hall]

/-- Also one static dim between a batch and a padded time dim makes packing fail, although there are padded frames. -/
theorem static_between_refused (e : Env) (b s t n k : Nat) (f : (Nat → Nat) → Nat) (hb : e b = .plain n) (hs : e s = .plain k) (ht : e t = .dyn [b] f)
    (h1 : s ≠ b) (h2 : s ≠ t) : ¬ ∃ w m, packPadded e [b, s, t] = .ok (w, m) := by
  rw [(accepted_iff e [b, s, t]).1]
  rintro ⟨_, h⟩
  obtain ⟨d, hd, ds, g, hp, hx⟩ := h s (by simp)
  simp only [List.mem_cons, List.not_mem_nil, or_false] at hd
  rcases hd with hd | hd | hd
  · rw [hd] at hp; rw [hp.1] at hb; cases hb
  · rw [hd] at hp; rw [hp.1] at hs; cases hs
  · rw [hd] at hp
    have := hp.1.symm.trans ht
    simp only [Size.dyn.injEq] at this
    rcases hx with hx | hx
    · exact h2 (hx.trans hd)
    · rw [this.1] at hx; simp at hx; exact h1 hx

/-- The usual case: batch and a time with a length for every sequence. -/
theorem batch_time (e : Env) (b t n : Nat) (f : (Nat → Nat) → Nat) (_hb : e b = .plain n) (ht : e t = .dyn [b] f) :
    ∃ w m, packPadded e [b, t] = .ok (w, m) := by
  rw [(accepted_iff e [b, t]).1]
  refine ⟨by simp, ?_⟩
  intro d hd
  refine ⟨t, by simp, [b], f, ⟨ht, by simp⟩, ?_⟩
  simp only [List.mem_cons, List.not_mem_nil, or_false] at hd
  rcases hd with h | h
  · right; simp [h]
  · left; exact h

def exE : Env := fun d => if d = 1 then .dyn [0] (fun i => if i 0 = 0 then 3 else 2) else .plain 4
def exWay (r : Res (Way × Mask)) : Option (Way × List Nat × Bool × Bool) :=
  match r with
  | .ok (w, m) => some (w, m.dims, m.val (fun _ => 1), m.val (fun d => if d = 1 then 2 else 1))
  | .error _ => none
example : exWay (packPadded exE [0, 1]) = some (.whole, [0, 1], true, false) := by decide
example : exWay (packPadded exE [1]) = some (.part, [1, 0], true, false) := by decide
example : exWay (packPadded exE [0, 2]) = none := by decide

end Verif.PackDims
