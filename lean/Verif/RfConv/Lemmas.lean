import Verif.RfConv.Spec
import Mathlib.Tactic.Ring
import Mathlib.Tactic.Common
/-
Frames under the filter in the padded batch and in the sequence alone.
-/
namespace Verif.RfConv

open Verif.Py

variable {X Y : Type}

/-- The relation of `Ignores`. -/
def Rel (fill : X) (a b : Option X) : Prop := a = b ∨ ((a = none ∨ a = some fill) ∧ (b = none ∨ b = some fill))

theorem frameAt_sub (y : List X) (i L : Nat) : frameAt y ((i : Int) - L) = if i < L then none else y[i - L]? := by
  unfold frameAt
  by_cases h : i < L
  · rw [if_pos (by omega), if_pos h]
  · rw [if_neg (by omega), if_neg h]
    congr 1
    omega

theorem mask_get (fill : X) (r : Row X) (h : r.len ≤ r.frames.length) (j : Nat) :
    Rel fill (maskRow fill r)[j]? (r.frames.take r.len)[j]? := by
  unfold maskRow Rel
  by_cases hj : j < r.len
  · left
    rw [List.getElem?_append_left (by rw [List.length_take]; omega)]
  · right
    have hl : (r.frames.take r.len).length = r.len := by rw [List.length_take]; omega
    constructor
    · rw [List.getElem?_append_right (by omega), List.getElem?_replicate]
      by_cases hk : j - (r.frames.take r.len).length < r.frames.length - r.len
      · right; rw [if_pos hk]
      · left; rw [if_neg hk]
    · left
      rw [List.getElem?_eq_none_iff]; omega

theorem mask_length (fill : X) (r : Row X) (h : r.len ≤ r.frames.length) : (maskRow fill r).length = r.frames.length := by
  unfold maskRow
  rw [List.length_append, List.length_take, List.length_replicate]
  omega

theorem rel_forall {fill : X} {f g : Nat → Option X} (h : ∀ k, Rel fill (f k) (g k)) :
    ∀ l : List Nat, List.Forall₂ (Rel fill) (l.map f) (l.map g)
  | [] => List.Forall₂.nil
  | k :: l => List.Forall₂.cons (h k) (rel_forall h l)

/-- Masked input with padding by the operation. -/
theorem taps_mask (fill : X) (r : Row X) (h : r.len ≤ r.frames.length) (L s st d t : Nat) :
    List.Forall₂ (Rel fill) (taps (maskRow fill r) L s st d t) (refTaps (r.frames.take r.len) L s st d t) := by
  unfold taps refTaps
  apply rel_forall
  intro k
  rw [frameAt_sub]
  unfold getPad
  by_cases hi : t * st + k * d < L
  · rw [if_pos hi, if_pos hi]; exact Or.inl rfl
  · rw [if_neg hi, if_neg hi]
    exact mask_get fill r h _

/-- Masked input with explicit padding. -/
theorem taps_explicit (fill : X) (r : Row X) (h : r.len ≤ r.frames.length) (L R s st d t : Nat) :
    List.Forall₂ (Rel fill) (taps (List.replicate L fill ++ maskRow fill r ++ List.replicate R fill) 0 s st d t)
      (refTaps (r.frames.take r.len) L s st d t) := by
  unfold taps refTaps
  apply rel_forall
  intro k
  rw [frameAt_sub]
  unfold getPad
  rw [if_neg (by omega), Nat.sub_zero]
  generalize t * st + k * d = i
  by_cases hi : i < L
  · rw [if_pos hi, List.append_assoc, List.getElem?_append_left (by rw [List.length_replicate]; omega), List.getElem?_replicate,
      if_pos hi]
    exact Or.inr ⟨Or.inr rfl, Or.inl rfl⟩
  · rw [if_neg hi, List.append_assoc, List.getElem?_append_right (by rw [List.length_replicate]; omega), List.length_replicate]
    have hm := mask_length fill r h
    by_cases hj : i - L < r.frames.length
    · rw [List.getElem?_append_left (by omega)]
      exact mask_get fill r h _
    · right
      constructor
      · rw [List.getElem?_append_right (by omega), List.getElem?_replicate]
        by_cases hk : i - L - (maskRow fill r).length < R
        · right; rw [if_pos hk]
        · left; rw [if_neg hk]
      · left
        rw [List.getElem?_eq_none_iff, List.length_take]; omega

theorem div_ceil (n st : Nat) (hn : 0 < n) (hst : 0 < st) : (n - 1) / st + 1 = ceildiv n st := by
  unfold ceildiv
  have : n + st - 1 = (n - 1) + st := by omega
  rw [this, Nat.add_div_right _ hst]

theorem torchConv_ok (agg : List (Option X) → Y) (x : List X) (l r s st d : Nat) (hst : 0 < st)
    (hf : d * (s - 1) < x.length + l + r) :
    torchConv agg x l r s st d
      = .ok ((List.range (ceildiv (x.length + l + r - d * (s - 1)) st)).map (fun t => agg (taps x l s st d t))) := by
  unfold torchConv
  rw [if_neg (by omega), div_ceil _ _ (by omega) hst]

theorem ceildiv_mono {a b st : Nat} (h : a ≤ b) : ceildiv a st ≤ ceildiv b st := by
  unfold ceildiv
  exact Nat.div_le_div_right (by omega)

theorem ceildiv_one (a : Nat) : ceildiv a 1 = a := by unfold ceildiv; rw [Nat.div_one]; omega

/-- What `map` over a longer range gives on the first frames. -/
theorem take_map_range (f : Nat → Y) (m n : Nat) (h : m ≤ n) : ((List.range n).map f).take m = (List.range m).map f := by
  rw [← List.map_take, List.take_range, Nat.min_eq_left h]

end Verif.RfConv
