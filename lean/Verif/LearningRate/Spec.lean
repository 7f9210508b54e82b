import Verif.LearningRate.Lemmas
/-
Specification of the learning rate schedule, as a function of the scores of the last two epochs.
Uses only the configuration and the epoch data, and none of the model's scheduling functions.
-/
namespace Verif.LearningRate
open Verif.Py

/-- Applying a decay or growth setting. -/
def upd : Update → ℚ → ℚ
  | .none, x => x
  | .factor f, x => x * f
  | .func f, x => f x
  | .other, x => x

/-- The score of an epoch: the key which is looked at, and the value. -/
def scoreOf (c : Cfg) (x : EpochData) : Option (String × ℚ) :=
  (errorKeyOf c x.error).bind (fun k => (x.error.get? k).map (fun v => (k, v)))

/-- The relative error (newbob), given the two scores and the rate of the newer epoch. -/
def relError (c : Cfg) (old new lr : ℚ) : ℚ :=
  let base := (new - old) / |if c.divByOld then old else new|
  if c.relLr ∧ 0 < lr then base / (lr / c.defaultLr) else base

/-- Decay (bounded by the minimum), or growth. -/
def change (c : Cfg) (decay : Prop) [Decidable decay] (lr : ℚ) : ℚ :=
  if decay then max (upd c.decay lr) c.minLr else upd c.growth lr

/-- The next rate after epochs with data `y`, then `x`, for `NewbobRelative`. -/
def relativeNext (c : Cfg) (thr : ℚ) (y x : EpochData) : ℚ :=
  match scoreOf c y, scoreOf c x with
  | some (k1, v1), some (k2, v2) => if k1 = k2 then change c (relError c v1 v2 x.lr > thr) x.lr else x.lr
  | _, _ => x.lr

/-- The next rate after epochs with data `y`, then `x`, for `NewbobAbs`. -/
def absNext (c : Cfg) (thr : ℚ) (y x : EpochData) : ℚ :=
  match scoreOf c y, scoreOf c x with
  | some (k1, v1), some (k2, v2) => if k1 = k2 then change c (v2 - v1 > thr) x.lr else x.lr
  | _, _ => x.lr

/-- The next rate, given the data of the latest epochs `a, b, ...` (ascending), for `NewbobMultiEpoch` in an epoch with
an update: the decision is on the mean of the relative errors. -/
def multiNext (c : Cfg) (thr growThr mean : ℚ) (lr : ℚ) : ℚ :=
  if mean > thr then max (upd c.decay lr) c.minLr else if mean < growThr then upd c.growth lr else lr

/-- A training from scratch: epochs 1, 2, ... get their rate in order, and every epoch gets scores any number of times
before the next epoch starts. `Train k c n d`: epoch `n` is running or done, and the data is `d`. -/
inductive Train (k : Control) (c : Cfg) : Int → Data → Prop
  | init : Train k c 0 []
  | epoch {n d lr d'} : Train k c n d → getLr k c d (n + 1) = .ok (lr, d') → Train k c (n + 1) d'
  | score {n d err d'} : Train k c n d → 1 ≤ n → setError k c d n err = .ok d' → Train k c n d'

end Verif.LearningRate
