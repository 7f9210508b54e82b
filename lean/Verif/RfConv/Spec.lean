import Verif.RfConv.Model
import Mathlib.Data.List.Forall2
/-
Convolution and pooling of one sequence.
-/
namespace Verif.RfConv

open Verif.Py

variable {X Y : Type}

/-- The frame of a sequence at an integer position; nothing outside. -/
def frameAt (x : List X) (i : Int) : Option X := if i < 0 then none else x[i.toNat]?

/-- Positions added to the left, and on both sides together. -/
def leftPad (o : Opts) : Nat :=
  match o.pad with
  | .same => (o.size - 1) * o.dil / 2
  | .valid => 0
  | .int p => p

def totalPad (o : Opts) : Nat :=
  match o.pad with
  | .same => (o.size - 1) * o.dil
  | .valid => 0
  | .int p => 2 * p

/-- The frames under the filter for output frame `t` of one sequence. -/
def refTaps (x : List X) (left s st d t : Nat) : List (Option X) :=
  (List.range s).map (fun k => frameAt x (((t * st + k * d : Nat) : Int) - left))

/-- The number of output frames: the filter starts at every `stride`-th position at which it does not pass the end. -/
def refLen (o : Opts) (n : Nat) : Nat := (n + totalPad o - (o.size - 1) * o.dil + o.stride - 1) / o.stride

/-- The result for one sequence. -/
def ref (agg : List (Option X) → Y) (o : Opts) (x : List X) : List Y :=
  (List.range (refLen o x.length)).map (fun t => agg (refTaps x (leftPad o) o.size o.stride o.dil t))

/-- The operation treats a frame with the fill value like no frame. -/
def Ignores (agg : List (Option X) → Y) (fill : X) : Prop :=
  ∀ l l' : List (Option X),
    List.Forall₂ (fun a b => a = b ∨ ((a = none ∨ a = some fill) ∧ (b = none ∨ b = some fill))) l l' → agg l = agg l'

/-- Sensible options. -/
def Valid (o : Opts) : Prop := 0 < o.size ∧ 0 < o.stride ∧ 0 < o.dil

/-- The padded batch is long enough for the filter. -/
def Fits (o : Opts) (T : Nat) : Prop := (o.size - 1) * o.dil < T + totalPad o

end Verif.RfConv
