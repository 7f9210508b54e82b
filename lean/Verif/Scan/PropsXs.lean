import Verif.Scan.Props
/-
C57: `rf.scan` over the frames of an existing dim.
-/
namespace Verif.Scan
open Verif.Py

variable {X G P Y : Type}

structure EntInvX (pr : Prog X G P Y) (g : G) (i : Nat) (b : Nat × List X × P) (e : EntX X P Y) : Prop where
  len : e.len = b.1
  xs : e.xs = b.2.1
  p : e.p = (runSeq pr (b.2.1.take (min i b.1)) g b.2.2).2.2
  nys : e.ys.length = i
  ys : e.ys.take (min i b.1) = (runSeq pr (b.2.1.take (min i b.1)) g b.2.2).1

theorem entStepX_inv {pr : Prog X G P Y} {g : G} {i : Nat} {b : Nat × List X × P} {e : EntX X P Y} (hi : EntInvX pr g i b e)
    (hx : i < b.2.1.length) : ∃ e', entStepX pr i (pr.stepG^[i] g) e = some e' ∧ EntInvX pr g (i + 1) b e' := by
  unfold entStepX
  rw [hi.xs, List.getElem?_eq_getElem hx]
  refine ⟨_, rfl, hi.len, rfl, ?_, by simp [hi.nys], ?_⟩
  · simp only [mask, hi.len]
    by_cases h : i < b.1
    · rw [if_pos (by simpa using h), Nat.min_eq_left (by omega), List.take_succ_eq_append_getElem hx, runSeq_snoc, runSeq_shared]
      have := hi.p
      rw [Nat.min_eq_left (by omega)] at this
      rw [this, List.length_take, Nat.min_eq_left (by omega)]
    · rw [if_neg (by simpa using h), hi.p, Nat.min_eq_right (by omega), Nat.min_eq_right (by omega)]
  · have hy := hi.ys
    by_cases h : i < b.1
    · rw [Nat.min_eq_left (by omega)] at hy ⊢
      have hp := hi.p
      rw [Nat.min_eq_left (by omega)] at hp
      rw [List.take_of_length_le (by simp [hi.nys]), List.take_succ_eq_append_getElem hx, runSeq_snoc, runSeq_shared, ← hy,
        List.take_of_length_le (by rw [hi.nys]; exact Nat.le_refl i), ← hp, List.length_take, Nat.min_eq_left (by omega)]
    · rw [Nat.min_eq_right (by omega)] at hy ⊢
      rw [List.take_append_of_le_length (by rw [hi.nys]; omega)]
      exact hy

theorem mapM_entStepX {pr : Prog X G P Y} {g : G} {i : Nat} : ∀ {batch : List (Nat × List X × P)} {ents : List (EntX X P Y)},
    List.Forall₂ (EntInvX pr g i) batch ents → (∀ b ∈ batch, i < b.2.1.length) →
    ∃ ents', ents.mapM (entStepX pr i (pr.stepG^[i] g)) = some ents' ∧ List.Forall₂ (EntInvX pr g (i + 1)) batch ents'
  | [], _, .nil, _ => ⟨[], rfl, .nil⟩
  | b :: batch, e :: ents, .cons h t, hx => by
    obtain ⟨e', h1, h2⟩ := entStepX_inv h (hx b (by simp))
    obtain ⟨es, h3, h4⟩ := mapM_entStepX t (fun b hb => hx b (by simp [hb]))
    refine ⟨e' :: es, ?_, .cons h2 h4⟩
    rw [List.mapM_cons, h1, h3]
    rfl

theorem loopX_spec {pr : Prog X G P Y} {g : G} {batch : List (Nat × List X × P)} {dim : Nat} (hx : ∀ b ∈ batch, b.2.1.length = dim) :
    ∀ (n i fuel : Nat) (ents : List (EntX X P Y)), i + n = dim → n < fuel → List.Forall₂ (EntInvX pr g i) batch ents →
    ∃ ents', loopX pr dim fuel ⟨i, pr.stepG^[i] g, ents⟩ = some ⟨dim, pr.stepG^[dim] g, ents'⟩ ∧ List.Forall₂ (EntInvX pr g dim) batch ents'
  | n, i, 0, _, _, hf, _ => by omega
  | 0, i, fuel + 1, ents, hn, hf, h => by
    have : i = dim := by omega
    subst this
    exact ⟨ents, by rw [loopX, if_neg (by simp)], h⟩
  | n + 1, i, fuel + 1, ents, hn, hf, h => by
    obtain ⟨ents', h1, h2⟩ := mapM_entStepX h (fun b hb => by rw [hx b hb]; omega)
    obtain ⟨ents'', h3, h4⟩ := loopX_spec hx n (i + 1) fuel ents' (by omega) (by omega) h2
    refine ⟨ents'', ?_, h4⟩
    rw [loopX, if_pos (by simp; omega), loopBodyX, h1]
    simp only [Option.map_some, Option.bind_some]
    rw [← Function.iterate_succ_apply' pr.stepG i g]
    exact h3

/-- **C57** `scan` over an existing dim: for each entry, the final state and the outputs up to its length are those of the loop over
its own frames; frames of the padding do not matter. -/
theorem scanXs_correct (pr : Prog X G P Y) (g : G) {batch : List (Nat × List X × P)} {fuel : Nat}
    (hx : ∀ b ∈ batch, b.2.1.length = dimValue (batch.map (·.1))) (hf : dimValue (batch.map (·.1)) < fuel) :
    ∃ r, scanXs pr fuel g batch = some r ∧ r.g = pr.stepG^[dimValue (batch.map (·.1))] g ∧
      List.Forall₂ (fun b e => e.p = (runSeq pr (b.2.1.take b.1) g b.2.2).2.2 ∧ e.ys.take b.1 = (runSeq pr (b.2.1.take b.1) g b.2.2).1 ∧
        e.ys.length = dimValue (batch.map (·.1))) batch r.ents := by
  obtain ⟨ents, h1, h2⟩ := loopX_spec (pr := pr) (g := g) hx (dimValue (batch.map (·.1))) 0 fuel
    (batch.map (fun b => { len := b.1, xs := b.2.1, p := b.2.2, ys := [] })) (by omega) hf (by
      rw [List.forall₂_map_right_iff]
      exact List.forall₂_same.2 (fun b _ => ⟨rfl, rfl, by simp [runSeq], rfl, by simp [runSeq]⟩))
  refine ⟨_, h1, rfl, ?_⟩
  have hle : ∀ b ∈ batch, b.1 ≤ dimValue (batch.map (·.1)) := fun b hb => dimValue_ge _ _ _ (Or.inl (List.mem_map.2 ⟨b, hb, rfl⟩))
  generalize dimValue (batch.map (·.1)) = n at *
  rw [List.forall₂_iff_get] at h2 ⊢
  refine ⟨h2.1, fun i hi hj => ?_⟩
  have a := h2.2 i hi hj
  have b := hle _ (List.get_mem batch ⟨i, hi⟩)
  have hp := a.p
  have hy := a.ys
  rw [Nat.min_eq_right b] at hp hy
  exact ⟨hp, hy, a.nys⟩

/-! ### Examples -/

/-- Cumulative sum with a step counter. -/
def cumsum : Prog Nat Nat Nat (Nat × Nat) := ⟨fun g => g + 1, fun x g p => ((g, p + x), p + x), fun _ _ => true⟩

example : (scanXs cumsum 10 0 [(3, [1, 2, 3], 0), (1, [5, 9, 9], 10)]).map (fun r => (r.i, r.g, r.ents.map (fun e => (e.p, e.ys)))) =
    some (3, 3, [(6, [(0, 1), (1, 3), (2, 6)]), (15, [(0, 15), (1, 24), (2, 24)])]) := rfl
example : ∀ b ∈ [(3, [1, 2, 3], 0), (1, [5, 9, 9], 10)], b.2.1.length = dimValue ([(3, [1, 2, 3], 0), (1, [5, 9, 9], 10)].map (·.1)) := by
  decide

/-- `while s < 3: s += 1`, the output is the new value. -/
def countTo3 : Prog Unit Unit Nat Nat := ⟨fun g => g, fun _ _ p => (p + 1, p + 1), fun _ p => decide (p < 3)⟩

example : (scanCond countTo3 true none 10 () [0, 2, 7]).map (fun r => (r.i, r.ents.map (fun e => (e.len, e.p, e.ys)))) =
    some (3, [(3, 2, [1, 2, 3]), (1, 2, [3, 3, 3]), (0, 7, [8, 8, 8])]) := by decide +kernel
example : (scanCond countTo3 false (some 2) 10 () [0, 2, 7]).map (fun r => (r.i, r.ents.map (fun e => (e.len, e.p, e.ys)))) =
    some (2, [(2, 2, [1, 2]), (1, 2, [3, 3]), (1, 7, [8, 8])]) := by decide +kernel
example : IsLen countTo3 true none () 2 1 := by
  refine ⟨?_, by simp, Or.inr ?_⟩
  · intro k hk
    have : k = 0 := by omega
    subst this
    exact Or.inr rfl
  · rintro (⟨h, _⟩ | h)
    · cases h
    · cases h
example : ∀ p ∈ [0, 1], ∀ k, MayRun (⟨fun g => g, fun _ _ p => (p, p + 1), fun _ _ => true⟩ : Prog Unit Unit Nat Nat) true () p k :=
  fun _ _ _ => Or.inr rfl

end Verif.Scan
