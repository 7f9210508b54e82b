import Verif.Util.Py
import Mathlib.Algebra.Field.Defs
/-
Model of `RunningMean` of `returnn/frontend/reduce.py`: an exponential moving average which a model keeps as a parameter.

Simplifications for the whole file:
* numbers are elements of a field, so rounding is left out; `ι` stands for the cells of the mean vector;
* a tensor is its dims and what its mean over given axes is at every cell of the mean vector (broadcast over the dims which it does not have); dims are numbers;
* the train flag is a plain bool (eager mode), so `rf.cond` runs one of the two functions.
-/
namespace Verif.RunMean
open Verif Verif.Py

/-- An input: its dims, and `reduce_mean` of it over given axes, at the cells of the mean vector. -/
structure X (ι α : Type) where
  dims : List Nat
  meanOver : List Nat → ι → α

/-- The options, /repo/returnn/frontend/reduce.py:213-242. -/
structure Cfg (α : Type) where
  /-- `self.shape`. -/
  shape : List Nat
  /-- `in_dim` was given as one dim (and not as a sequence). -/
  single : Bool
  /-- the size of the dim, `None` if dynamic. -/
  size : Option Nat
  alpha : α
  isProb : Bool
  onlyInTrain : Bool

/-- The initial mean, /repo/returnn/frontend/reduce.py:236-240 (`rf.Parameter` starts with zeros). A sequence of dims has no `dimension`. -/
def initMean {ι α : Type} [Field α] (c : Cfg α) : Res (ι → α) :=
  if c.isProb then
    if c.single then
      match c.size with
      | none => .error .assertion
      | some n => .ok fun _ => 1 / (n : α)
    else .error (.other "AttributeError")
  else .ok fun _ => 0

/-- `_update_running_stats`, /repo/returnn/frontend/reduce.py:250-253. -/
def update {ι α : Type} [Field α] (c : Cfg α) (x : X ι α) (mean : ι → α) : Res (ι → α) :=
  if x.dims.all (fun d => decide (d ∈ c.shape)) then
    let x_ := x.meanOver (x.dims.filter fun d => decide (d ∉ c.shape))
    .ok fun i => mean i + c.alpha * (x_ i - mean i)
  else .error .assertion

/-- `__call__`, /repo/returnn/frontend/reduce.py:244-256; the result is also the new parameter. -/
def call {ι α : Type} [Field α] (c : Cfg α) (train : Bool) (x : X ι α) (mean : ι → α) : Res (ι → α) :=
  if !c.onlyInTrain || train then update c x mean else .ok mean

/-- A history of calls, with the train flag of each. -/
def calls {ι α : Type} [Field α] (c : Cfg α) : List (Bool × X ι α) → (ι → α) → Res (ι → α)
  | [], m => .ok m
  | (t, x) :: rest, m =>
    match call c t x m with
    | .error e => .error e
    | .ok m' => calls c rest m'

end Verif.RunMean
