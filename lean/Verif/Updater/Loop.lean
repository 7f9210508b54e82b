import Verif.Util.Py
import Mathlib.Data.Rat.Defs
/-!
Model of the learning rate in `Updater` (/repo/returnn/torch/updater.py 99-233, 397-436) and of the training loop (/repo/returnn/torch/engine.py 234-270, 322-530), as far as learning rates
and gradients are concerned. A batch is any type `B`; the gradient is the list of the batches whose gradients are summed up in it. Learning rates are any type `L`.
One process, no grad scaler, no gradient clipping.
-/

namespace Verif.Updater

/-- `dynamic_learning_rate` of the config: global train step, epoch, continuous epoch, learning rate of the epoch. -/
abbrev DynLr (L : Type) := Option (Nat → Nat → Option Rat → L → L)

/-- `Updater`: fields, and the learning rates of the parameter groups (`none`: no optimizer yet). -/
structure Upd (L : Type) where
  lr : L
  eff : L
  step : Nat
  epoch : Nat
  cont : Option Rat
  groupLrs : Option (List L)

/-- updater.py 177-190 `_update_effective_learning_rate`. -/
def updateEff {L : Type} (dyn : DynLr L) (u : Upd L) : Upd L :=
  let eff := match dyn with
    | none => u.lr
    | some f => f u.step u.epoch u.cont u.lr
  { u with eff := eff, groupLrs := u.groupLrs.map (fun l => l.map (fun _ => eff)) }

/-- updater.py 99-160 the constructor. -/
def newUpd {L : Type} (dyn : DynLr L) (lr : L) : Upd L := updateEff dyn { lr := lr, eff := lr, step := 0, epoch := 1, cont := some 0, groupLrs := none }

/-- updater.py 162-169 `set_learning_rate`. -/
def setLr {L : Type} (dyn : DynLr L) (v : L) (u : Upd L) : Upd L := updateEff dyn { u with lr := v }

/-- updater.py 192-213 `set_current_train_step`. -/
def setStep {L : Type} (dyn : DynLr L) (step epoch : Nat) (cont : Option Rat) (u : Upd L) : Upd L := updateEff dyn { u with step := step, epoch := epoch, cont := cont }

/-- updater.py 235-243, 425-432 `create_optimizer` with `n` parameter groups; `mult`: `learning_rate_multiplier`. -/
def createOpt {L : Type} (mult : L → L) (n : Nat) (u : Upd L) : Upd L := { u with groupLrs := some (List.replicate n (mult u.lr)) }

/-- updater.py 245-333 `load_optimizer`: the options of the groups, so also the learning rates, are those of the file. -/
def loadOpt {L : Type} (lrs : List L) (u : Upd L) : Upd L := { u with groupLrs := u.groupLrs.map (fun _ => lrs) }

/-- An update of the parameters: learning rates of the groups, and the gradient. -/
structure Update (L B : Type) where
  lrs : List L
  grad : List B

/-- State of the training: updater, `global_train_step`, the gradient in the parameters, and the updates so far. -/
structure Train (L B : Type) where
  upd : Upd L
  gstep : Nat
  grad : List B
  updates : List (Update L B)

/-- Local variables of `train_epoch`: `zero_grad_next_step`, `cur_count_grad_accum`. -/
structure Loc where
  zeroNext : Bool
  count : Nat

/-- engine.py 397-399: `epoch_continuous`; no `complete_frac` if it is negative. -/
def epochCont (epoch : Nat) (frac : Rat) : Option Rat := if 0 ≤ frac then some ((epoch : Rat) - 1 + frac) else none

/-- engine.py 402-406: start of an iteration. -/
def zeroGrad {L B : Type} (s : Train L B) (l : Loc) : Train L B × Loc := if l.zeroNext then ({ s with grad := [] }, { l with count := 0 }) else (s, l)

/-- engine.py 433-461: `accum`: `accum_grad_multiple_step` for this step; count, backward, maybe update. -/
def backwardAndUpdate {L B : Type} (accum : Int) (b : B) (s : Train L B) (l : Loc) : Train L B × Loc :=
  let perform := decide (accum ≤ ((l.count + 1 : Nat) : Int))
  let grad := s.grad ++ [b]
  ({ s with grad := grad, updates := if perform then s.updates ++ [{ lrs := s.upd.groupLrs.getD [], grad := grad }] else s.updates }, { zeroNext := perform, count := l.count + 1 })

/-- engine.py 525-529: the end of an iteration. -/
def endStep {L B : Type} (dyn : DynLr L) (epoch : Nat) (cont : Option Rat) (s : Train L B) : Train L B :=
  { s with gstep := s.gstep + 1, upd := setStep dyn (s.gstep + 1) epoch cont s.upd }

/-- engine.py 372-529: one iteration. `accum`: epoch, continuous epoch, global train step (a constant function if it is an int). -/
def oneStep {L B : Type} (dyn : DynLr L) (accum : Nat → Option Rat → Nat → Int) (epoch : Nat) (x : Train L B × Loc) (b : B × Rat) : Train L B × Loc :=
  let x := zeroGrad x.1 x.2
  let cont := epochCont epoch b.2
  let x := backwardAndUpdate (accum epoch cont x.1.gstep) b.1 x.1 x.2
  (endStep dyn epoch cont x.1, x.2)

/-- engine.py 322-529 `train_epoch`: the batches of the epoch with `complete_frac`. -/
def trainEpoch {L B : Type} (dyn : DynLr L) (accum : Nat → Option Rat → Nat → Int) (epoch : Nat) (batches : List (B × Rat)) (s : Train L B) : Train L B :=
  (batches.foldl (oneStep dyn accum epoch) (s, { zeroNext := true, count := 0 })).1

/-- engine.py 260-270 `init_train_epoch`; `lrOf`: from the learning rate control. -/
def initEpoch {L B : Type} (dyn : DynLr L) (lrOf : Nat → L) (epoch : Nat) (s : Train L B) : Train L B :=
  { s with upd := setStep dyn s.gstep epoch (some ((epoch : Rat) - 1)) (setLr dyn (lrOf epoch) s.upd) }

/-- engine.py 251-256 `train`: the epochs from `epoch` on, each with its batches. -/
def train {L B : Type} (dyn : DynLr L) (accum : Nat → Option Rat → Nat → Int) (lrOf : Nat → L) : Nat → List (List (B × Rat)) → Train L B → Train L B
  | _, [], s => s
  | epoch, batches :: rest, s => train dyn accum lrOf (epoch + 1) rest (trainEpoch dyn accum epoch batches (initEpoch dyn lrOf epoch s))

/-- engine.py 221-226: before the training: create the updater and the optimizer with `n` groups, maybe load the optimizer state. -/
def start {L B : Type} (dyn : DynLr L) (mult : L → L) (n : Nat) (lr : L) (loaded : Option (List L)) (gstep : Nat) : Train L B :=
  let u := createOpt mult n (newUpd dyn lr)
  { upd := match loaded with | none => u | some lrs => loadOpt lrs u, gstep := gstep, grad := [], updates := [] }

end Verif.Updater
