import Verif.Util.Py
import Mathlib.Algebra.Order.Floor.Ring
import Mathlib.Data.Rat.Floor
/-
Model of frontend/audio/specaugment.py and frontend/dropout.py.

One batch dim. An entry is its length (over `spatial_dim`) and its padded frames, each a list over `feature_dim`. Random numbers are arguments: naturals for `random_uniform` of ints (see `randInt`),
rationals in [0, 1) for floats. `topk` (torch) is an argument as well.
-/
namespace Verif.Augment
open Verif.Py

/-- `rf.random_uniform(minval=lo, maxval=hi, dtype="int32")`: any value in `lo ... hi - 1`, given by the raw number `u`. -/
def randInt (lo hi u : Nat) : Nat := lo + u % (hi - lo)

/-! ### SpecAugment -/

/-- specaugment.py 160-166 `mask`: which positions are masked: from `pos` to `pos2 = minimum(pos + amount, dim)`. -/
def blockMask (dim pos amount t : Nat) : Bool := decide (pos ≤ t) && decide (t < min (pos + amount) dim)

/-- `rf.where(cond, mask_value, x)` for the time axis (broadcast over features), and for the feature axis (broadcast over time). -/
def maskTime {V : Type} (mv : V) (p : Nat → Bool) (x : List (List V)) : List (List V) := x.mapIdx (fun t row => row.map (fun v => if p t then mv else v))
def maskFeat {V : Type} (mv : V) (p : Nat → Bool) (x : List (List V)) : List (List V) := x.map (fun row => row.mapIdx (fun f v => if p f then mv else v))

/-- 126-147: the loop of `random_mask` for one entry: `num` masks for it, `maxNum` for the batch. (With a constant number there is no `where`, which is the same since all `num` are equal.)
`amounts`: raw random numbers. -/
def maskLoop {X : Type} (apply : (Nat → Bool) → X → X) (dim maxDims : Nat) (idxs : List Nat) (amounts : List Nat) (num maxNum : Nat) (x : X) : X :=
  (List.range maxNum).foldl (fun x i =>
    let y := apply (blockMask dim (idxs.getD i 0) (randInt 1 (maxDims + 1) (amounts.getD i 0))) x
    if i < num then y else x) x

/-- `rf.top_k`: the padding is the lowest value (_backend.py 1538-1551). -/
def topkInput (dim : Nat) (noise : List Rat) : List (Option Rat) := noise.mapIdx (fun t v => if t < dim then some v else none)

/-- Raw random numbers of `random_mask` for one entry. -/
structure Draw where
  num : Nat
  noise : List Rat
  amounts : List Nat

/-- 75-148 `random_mask`. `dims`: the size of the axis for each entry, `full`: the padded size. torch's topk raises if `k` is larger than the axis. -/
def randomMask {X : Type} (topk : List (Option Rat) → Nat → List Nat) (apply : (Nat → Bool) → X → X) (minNum maxNum maxDims full : Nat) (draws : List Draw) (batch : List (Nat × X)) : Res (List X) :=
  let nums := draws.map (fun d => randInt minNum (maxNum + 1) d.num)
  let k := nums.foldl max 0
  if full < k then .error (.other "topk")
  else .ok (List.zipWith (fun (d : Draw) (e : Nat × X) => maskLoop apply e.1 maxDims (topk (topkInput e.1 d.noise) k) d.amounts (randInt minNum (maxNum + 1) d.num) k e.2) draws batch)

/-- Options of `specaugment`. -/
structure SpecCfg where
  stepDependent : Bool := true
  onlyOnTrain : Bool := true
  maxTime : Nat := 20
  maxFeat : Option Nat := none
  timeFactor : Nat := 100
  steps : Nat × Nat × Nat := (0, 1000, 2000)

/-- 36-43: `step0`, `step1`, `step2`. -/
def stepFlags (c : SpecCfg) (step : Nat) : Nat × Nat × Nat :=
  if c.stepDependent then ((if c.steps.1 ≤ step then 1 else 0), (if c.steps.2.1 ≤ step then 1 else 0), (if c.steps.2.2 ≤ step then 1 else 0)) else (1, 1, 1)

/-- 33-34: `max_consecutive_feature_dims` (0 is the same as not given). -/
def maxFeatOf (c : SpecCfg) (D : Nat) : Nat := match c.maxFeat with
  | none => D / 5
  | some 0 => D / 5
  | some n => n

/-- 54-57: `min_num` and `max_num` of the time mask. -/
def timeNums (c : SpecCfg) (s : Nat × Nat × Nat) (T : Nat) : Nat × Nat := (min (s.2.1 + s.2.2) T, min (max (T / c.timeFactor) 2 * (s.1 + s.2.1 + s.2.2 * 2)) T)

/-- 66-67: of the feature mask. -/
def featNums (s : Nat × Nat × Nat) : Nat × Nat := (s.2.1 + s.2.2, s.1 * 2 + s.2.1 + s.2.2 * 2)

/-- An entry: length and padded frames. -/
abbrev Ent (V : Type) := Nat × List (List V)

/-- 49-59: the time mask. `T`: the padded length. -/
def timeBranch {V : Type} (mv : V) (topk : List (Option Rat) → Nat → List Nat) (c : SpecCfg) (s : Nat × Nat × Nat) (T : Nat) (draws : List Draw) (batch : List (Ent V)) : Res (List (List (List V))) :=
  if 0 < c.maxTime ∧ 0 < c.timeFactor then randomMask topk (maskTime mv) (timeNums c s T).1 (timeNums c s T).2 c.maxTime T draws batch else .ok (batch.map Prod.snd)

/-- 61-69: the feature mask. -/
def featBranch {V : Type} (mv : V) (topk : List (Option Rat) → Nat → List Nat) (c : SpecCfg) (s : Nat × Nat × Nat) (D : Nat) (draws : List Draw) (xs : List (List (List V))) : Res (List (List (List V))) :=
  if 0 < maxFeatOf c D then randomMask topk (maskFeat mv) (featNums s).1 (featNums s).2 (maxFeatOf c D) D draws (xs.map (fun x => (D, x))) else .ok xs

/-- 15-72 `specaugment`. -/
def specaugment {V : Type} (mv : V) (topk : List (Option Rat) → Nat → List Nat) (c : SpecCfg) (train : Bool) (step T D : Nat) (tDraws fDraws : List Draw) (batch : List (Ent V)) :
    Res (List (List (List V))) :=
  if train || !c.onlyOnTrain then do
    let xs ← timeBranch mv topk c (stepFlags c step) T tDraws batch
    featBranch mv topk c (stepFlags c step) D fDraws xs
  else .ok (batch.map Prod.snd)

/-! ### Dropout -/

/-- dropout.py 88-98: the factor from one random number in [0, 1). -/
def noiseFactor (keep u : Rat) : Rat := (Rat.floor (keep + u) : Rat) * (1 / keep)

/-- dropout.py 14-66 on a tensor over positions `ι`; `proj`: the part of the position which belongs to `axis` (the noise is over this only). `train`: the train flag. -/
def dropout {ι ν : Type} (proj : ι → ν) (dropProb : Rat) (onForward train : Bool) (noise : ν → Rat) (x : ι → Rat) : Res (ι → Rat) :=
  let keep := 1 - dropProb
  if ¬ (0 < keep ∧ keep ≤ 1) then .error .valueError
  else if keep = 1 then .ok x
  else if onForward || train then .ok (fun i => x i * noiseFactor keep (noise (proj i)))
  else .ok x

end Verif.Augment
