import Verif.Cached2.Model
/-
Specification of the access to the sequences of one epoch, without any cache: a window `[lo, hi)` over the list of sequences.
-/
namespace Verif.Cached2.Spec
open Verif.Py

/-- The window of loaded sequences; `ended` if the user was told where the end is; `known` if the number of sequences is known
from the beginning. -/
structure Win where
  lo : Nat := 0
  hi : Nat := 0
  ended : Bool := false
  known : Bool := false

/-- Move the window. It cannot go backwards, and it keeps what is loaded. -/
def Win.move (w : Win) (a b : Nat) : Win := { w with lo := a, hi := max w.hi b }

/-- The sequence is in the window. -/
def Win.get {α : Type} (w : Win) (ds : List α) (i : Nat) : Res α :=
  if w.lo ≤ i ∧ i < w.hi then
    match ds[i]? with
    | some x => .ok x
    | none => .error (.other "AttributeError")
  else .error (.other "AttributeError")

/-- One call. -/
def step {α : Type} (ds : List α) (total : Nat) (w : Win) : Op → Res (Obs α) × Win
  | .load a b => if w.lo ≤ a ∧ a ≤ b then (.ok .unit, w.move a b) else (.error .assertion, w)
  | .isLess n =>
    -- a sequence before the window exists
    if n < w.lo then (.ok (.bool true), w)
    else if w.ended || w.known then (.ok (.bool (decide (n < ds.length))), w)
    else if n < ds.length then (.ok (.bool true), w.move w.lo (n + 1))
    else if w.lo < ds.length then (.ok (.bool false), { w.move w.lo (n + 1) with ended := true })
    -- the window starts at the end or later: this is not supported
    else (.error .assertion, w.move w.lo (n + 1))
  | .seqLength i =>
    if i < w.lo then (.error .assertion, w)
    else match ds[i]? with
      | some x => (.ok (.seq x), w.move w.lo (i + 1))
      | none => (.error (.other "AttributeError"), w.move w.lo (i + 1))
  | .tag i =>
    if i + 1 < w.lo then (.error .assertion, w)
    else if i < w.lo then (.error (.other "AttributeError"), w.move w.lo (i + 1))
    else match ds[i]? with
      | some x => (.ok (.seq x), w.move w.lo (i + 1))
      | none => (.error (.other "AttributeError"), w.move w.lo (i + 1))
  | .data i => (match w.get ds i with | .ok x => .ok (.seq x) | .error e => .error e, w)
  | .timesteps => if w.ended then (.ok (.nat total), w) else (.error .assertion, w)

def run {α : Type} (ds : List α) (total : Nat) : Win → List Op → List (Res (Obs α)) × Win
  | w, [] => ([], w)
  | w, o :: os =>
    let (r, w) := step ds total w o
    let (rs, w) := run ds total w os
    (r :: rs, w)

/-- No call skips a sequence: each `load_seqs` starts inside the window or right behind it. -/
def NoGap {α : Type} (ds : List α) (total : Nat) : Win → List Op → Prop
  | _, [] => True
  | w, o :: os => (∀ a b, o = .load a b → w.lo ≤ a → a ≤ b → a ≤ w.hi) ∧ NoGap ds total (step ds total w o).2 os

end Verif.Cached2.Spec
