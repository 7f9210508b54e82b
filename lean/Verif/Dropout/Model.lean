import Verif.Util.Py
import Mathlib.Algebra.Order.Floor.Ring
/-
Model of `returnn/frontend/dropout.py`.

Simplifications for the whole file:
* numbers are elements of an ordered field with floor, so rounding is left out; dims are numbers; a cell of a tensor is an index for every dim;
* `drop_prob` is a float, the train flag a plain bool (eager mode);
* what `random_uniform` gives for the noise dims is a function of the indices at these dims, with values from 0 (included) to 1 (excluded).
-/
namespace Verif.Dropout
open Verif Verif.Py

/-- The `axis` argument. -/
inductive Axis
  | none
  | false
  | true
  | dim (d : Nat)
  | dims (ds : List Nat)

/-- A tensor: its dims, and its values, by the indices of the dims. -/
structure T (α : Type) where
  dims : List Nat
  val : (Nat → Nat) → α

/-- `noise_dims`, /repo/returnn/frontend/dropout.py:42-49. -/
def noiseDims (src : List Nat) : Axis → Res (List Nat)
  | .none => .ok src
  | .false => .ok src
  | .true => .error .valueError
  | .dim d => .ok [d]
  | .dims ds => .ok ds

/-- `_dropout`, /repo/returnn/frontend/dropout.py:69-104: `u` is what `random_uniform(dims=noise_dims)` gives. -/
def apply {α : Type} [Field α] [LinearOrder α] [FloorRing α] (x : T α) (keep : α) (nd : List Nat) (u : List Nat → α) : T α :=
  { dims := x.dims
    val := fun i =>
      let random := keep + u (nd.map i)
      let binary : α := (⌊random⌋ : α) * (1 / keep)
      x.val i * binary }

/-- `dropout`, /repo/returnn/frontend/dropout.py:13-66. `rnd` gives the random numbers for the noise dims which are asked for. -/
def dropout {α : Type} [Field α] [LinearOrder α] [FloorRing α] (x : T α) (drop : α) (axis : Axis) (onForward train : Bool)
    (rnd : List Nat → List Nat → α) : Res (T α) :=
  let keep := 1 - drop
  match noiseDims x.dims axis with
  | .error e => .error e
  | .ok nd =>
    if nd.all (fun d => decide (d ∈ x.dims)) then
      if 0 < keep ∧ keep ≤ 1 then
        if keep = 1 then .ok x
        else if onForward then .ok (apply x keep nd (rnd nd))
        else if train then .ok (apply x keep nd (rnd nd))
        else .ok x
      else .error .valueError
    else .error .valueError

end Verif.Dropout
