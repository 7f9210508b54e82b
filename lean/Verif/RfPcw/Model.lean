import Verif.Util.Py
import Mathlib.Data.Rat.Lemmas
/-
Model of `PiecewiseLinear` of `returnn/frontend/piecewise_linear.py`, with the PyTorch backend.

Simplifications for the whole file:
* numbers are rational, so keys which are different stay different (float32 could make them equal); values are single numbers, which stands for one component of a tensor of values; `x` is a single number or one component of a tensor of at most one axis;
* the points are a dict: a list with different keys.
-/
namespace Verif.RfPcw
open Verif Verif.Py

/-- `sorted(points.items())`. /repo/returnn/frontend/piecewise_linear.py:27. -/
def sortPts (points : List (ℚ × ℚ)) : List (ℚ × ℚ) := points.mergeSort (fun a b => decide (a.1 ≤ b.1))

/-- `search_sorted` with `side="left"`: the first position whose key is not less. /repo/returnn/torch/frontend/_backend.py:1236-1265. -/
def searchSorted (keys : List ℚ) (x : ℚ) : Int := ((keys.takeWhile (fun k => decide (k < x))).length : Int)

/-- `clip_by_value`, as `torch.clamp`: the upper limit wins. /repo/returnn/torch/frontend/_backend.py:1289-1311. -/
def clamp (i lo hi : Int) : Int := min (max i lo) hi

/-- The same for numbers. /repo/returnn/torch/frontend/_backend.py:1289-1311. -/
def clampQ (x lo hi : ℚ) : ℚ := min (max x lo) hi

/-- `gather` by `Tensor.__getitem__`: negative indices are from the end. /repo/returnn/torch/frontend/_backend.py:949-1049. -/
def gather (l : List ℚ) (i : Int) : Res ℚ :=
  match l[(if i < 0 then i + l.length else i).toNat]? with
  | some v => .ok v
  | none => .error .indexError

/-- `x_frac`, clipped; `none` is NaN: zero by zero. Other numbers by zero are infinite and are clipped then. /repo/returnn/frontend/piecewise_linear.py:51-52. -/
def frac (x s e : ℚ) : Option ℚ :=
  if e - s = 0 then
    if x - s = 0 then none
    else if 0 < x - s then some 1
    else some 0
  else some (clampQ ((x - s) / (e - s)) 0 1)

/-- `rf.lerp`. /repo/returnn/torch/frontend/_backend.py:1314-1327. -/
def lerp (s e w : ℚ) : ℚ := s + w * (e - s)

/-- `PiecewiseLinear(points)(x)`; `none` is NaN. /repo/returnn/frontend/piecewise_linear.py:20-55. -/
def call (points : List (ℚ × ℚ)) (x : ℚ) : Res (Option ℚ) := do
  if points = [] then .error .valueError
  else do
    let pts := sortPts points
    let keys := pts.map (fun p => p.1)
    let values := pts.map (fun p => p.2)
    let index := clamp (searchSorted keys x) 1 ((keys.length : Int) - 1)
    let xs ← gather keys (index - 1)
    let xe ← gather keys index
    let ys ← gather values (index - 1)
    let ye ← gather values index
    .ok ((frac x xs xe).map (lerp ys ye))

/-- `PiecewiseLinearStepwiseScheduler`: the function at the current step. /repo/returnn/frontend/stepwise_scheduler.py:30-31. -/
def atStep (points : List (ℚ × ℚ)) (step : Nat) : Res (Option ℚ) := call points step

end Verif.RfPcw
