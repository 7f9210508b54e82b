import Verif.Util.Py
import Mathlib.Algebra.BigOperators.Fin
import Mathlib.Algebra.Module.Rat
/-
Distributed training with PyTorch: `returnn/torch/distributed.py` and the loops of `returnn/torch/engine.py` (`train`,
`init_train_epoch`, `train_epoch`, `eval_model`, `_check_missing_eval`) as one process per rank.

The processes run on their own and meet only in the collective operations of `torch.distributed`: one of them completes when all
ranks have called the same one (documentation of `torch.distributed`), it blocks until then.  The collectives here are: the sharing of the seed when an iterator of a data loader is
created, `all_reduce(_has_data)`, the gradient averaging of `DistributedDataParallel` (DDP), its broadcast of the buffers at the
begin of `forward`, the averaging of the parameters, `broadcast(_has_data)` and `broadcast_object_list`.

Simplifications: parameters and gradients are vectors over the rationals; the model, the data loaders, the optimizer and the
learning rate control are arbitrary functions; no gradient scaler, no logging.
-/
namespace Verif.Distrib

open Verif.Py

/-- The collective operations. -/
inductive Kind
  | seed | hasData | grad | buffers | param | flag | epochData
  deriving DecidableEq

/-- What a rank puts in, and gets back: booleans for `_has_data`, vectors for gradients and parameters, the data of an epoch. -/
def Val (V E : Type) : Kind → Type
  | .seed => Unit
  | .hasData => Bool
  | .grad => V
  | .buffers => Unit
  | .param => V
  | .flag => Bool
  | .epochData => Option E

/-- A process: finished, raised, a local step, a collective operation, or the loop `while _has_data: broadcast(_has_data, src=0)`
of the ranks other than 0 in `eval_model` (engine.py 608-610). -/
inductive Proc (V E S : Type) where
  | done (s : S)
  | fail (e : Err)
  | tau (p : Proc V E S)
  | coll (k : Kind) (x : Val V E k) (next : Val V E k → Proc V E S)
  | wait (p : Proc V E S)

/-- Mean over the ranks: `all_reduce` with `AVG`, or with `SUM` and a division by the world size (distributed.py 164-193). -/
def avg {V : Type} [AddCommGroup V] [Module ℚ V] {n : Nat} (x : Fin (n + 1) → V) : V := ((n + 1 : ℚ)⁻¹) • ∑ r, x r

/-- The minimum over the ranks, of booleans. -/
def allTrue {n : Nat} (x : Fin (n + 1) → Bool) : Bool := decide (∀ r, x r = true)

/-- The result of a collective operation on all ranks: the minimum for `all_reduce(_has_data)`, the mean for gradients and
parameters, the value of rank 0 for the broadcasts. -/
def combine {V E : Type} [AddCommGroup V] [Module ℚ V] {n : Nat} : (k : Kind) → (Fin (n + 1) → Val V E k) → Val V E k
  | .seed, _ => ()
  | .hasData, x => allTrue x
  | .grad, x => avg (V := V) x
  | .buffers, _ => ()
  | .param, x => avg (V := V) x
  | .flag, x => x 0
  | .epochData, x => x 0

/-- The collective operation in which a process waits, if any. -/
structure Offer (V E S : Type) where
  kind : Kind
  val : Val V E kind
  next : Val V E kind → Proc V E S

/-- The next round of the loop of a waiting rank: it goes on if it got `False`. -/
def waitNext {V E S : Type} (p : Proc V E S) (b : Bool) : Proc V E S := if b then .wait p else p

def offer {V E S : Type} : Proc V E S → Option (Offer V E S)
  | .coll k x next => some ⟨k, x, next⟩
  | .wait p => some ⟨.flag, true, waitNext p⟩
  | _ => none

/-- One step of the ranks `0, …, n`: a local step of one rank, or a collective operation of all of them. -/
inductive Step {V E S : Type} [AddCommGroup V] [Module ℚ V] {n : Nat} (a : Fin (n + 1) → Proc V E S) :
    (Fin (n + 1) → Proc V E S) → Prop where
  | tau (r : Fin (n + 1)) (p : Proc V E S) (h : a r = .tau p) : Step a (Function.update a r p)
  | coll (k : Kind) (x : Fin (n + 1) → Val V E k) (next : Fin (n + 1) → Val V E k → Proc V E S)
      (h : ∀ r, offer (a r) = some ⟨k, x r, next r⟩) : Step a (fun r => next r (combine k x))

/-! ### The engine -/

/-- A batch of the data loader with its `complete_frac`. -/
structure Batch (D : Type) where
  frac : ℚ
  data : D

/-- Everything which does not change during training.  Gradients, losses and new epoch data may depend on the rank (by random
numbers, or the host name). -/
structure Cfg (V O E D : Type) where
  /-- `reduce_type`: "grad" (true) or "param" (false) -/
  reduceGrad : Bool
  /-- `param_sync_step` -/
  syncStep : Nat
  /-- the module in DDP has buffers -/
  buffers : Bool
  /-- whether `no_sync` around `backward` suppresses the averaging, although `forward` ran outside of it (the documentation of
  DDP says that it does not) -/
  noSync : Bool
  /-- `accum_grad_multiple_step`: of the epoch, the part of it which is done, and the global step -/
  accum : Nat → ℚ → Nat → Nat
  gradOf : Nat → Nat → V → Batch D → V
  lossOf : Nat → Nat → V → Batch D → ℚ
  evalLoss : V → Batch D → ℚ
  optStep : ℚ → Nat → V → O → V → V × O
  lrOf : (Nat → Option E) → Nat → ℚ
  newData : Nat → ℚ → Option E → E
  trainErr : List ℚ → E → E
  evalErr : Nat → List ℚ → E → E
  evaluated : E → Nat → Bool
  /-- number of eval datasets -/
  numEval : Nat
  trainData : Nat → Nat → List (Batch D)
  evalData : Nat → Nat → List (Batch D)
  saveInterval : Nat
  finalEpoch : Nat

/-- The state of a rank: parameters, optimizer, gradients, the global step, `learning_rate_control.epoch_data`, the saved models
and the batches which were trained on. -/
structure St (V O E D : Type) where
  params : V
  opt : O
  grad : V
  gstep : Nat
  eps : Nat → Option E
  saved : List (Nat × V)
  used : List (Batch D)

/-- The local variables of `train_epoch`. -/
structure Loc (V O E D : Type) where
  st : St V O E D
  stepIdx : Nat
  zeroNext : Bool
  count : Nat
  losses : List ℚ

section
variable {V O E D S : Type} [AddCommGroup V]

/-- `forward` of DDP broadcasts the buffers of rank 0 before it runs (`broadcast_buffers`, default of DDP; engine.py 827-829). -/
def forward (c : Cfg V O E D) (p : Proc V E S) : Proc V E S :=
  if c.reduceGrad && c.buffers then .coll .buffers () (fun _ => p) else p

/-- `backward` (engine.py 437-446): DDP averages the accumulated gradients, unless suppressed by `no_sync`. -/
def syncGrad (c : Cfg V O E D) (perform : Bool) (g : V) (k : V → Proc V E S) : Proc V E S :=
  if c.reduceGrad && (perform || !c.noSync) then .coll .grad g k else k g

/-- `DistributedContext.step_after_param_update` (distributed.py 124-127). -/
def syncParam (c : Cfg V O E D) (stepIdx : Nat) (p : V) (k : V → Proc V E S) : Proc V E S :=
  if !c.reduceGrad && decide (stepIdx % c.syncStep = c.syncStep - 1) then .coll .param p k else k p

/-- The gradients before `backward`: cleared when a new accumulation starts (engine.py 403-405). -/
def grad0 (l : Loc V O E D) : V := if l.zeroNext then 0 else l.st.grad

/-- `cur_count_grad_accum` of this step (engine.py 405, 435). -/
def count1 (l : Loc V O E D) : Nat := (if l.zeroNext then 0 else l.count) + 1

/-- `perform_update_step` (engine.py 428-436). -/
def perform (c : Cfg V O E D) (epoch : Nat) (b : Batch D) (l : Loc V O E D) : Bool :=
  decide (c.accum epoch b.frac l.st.gstep ≤ count1 l)

/-- Parameters and optimizer state after the step (engine.py 455-457). -/
def update (c : Cfg V O E D) (lr : ℚ) (perf : Bool) (st : St V O E D) (g : V) : V × O :=
  if perf then c.optStep lr st.gstep st.params st.opt g else (st.params, st.opt)

/-- The variables at the end of a step (engine.py 458-519). -/
def after (c : Cfg V O E D) (rank : Nat) (perf : Bool) (b : Batch D) (l : Loc V O E D) (g : V) (o : O) (p : V) : Loc V O E D :=
  { st := { l.st with params := p, opt := o, grad := g, gstep := l.st.gstep + 1, used := l.st.used ++ [b] }
    stepIdx := l.stepIdx + 1
    zeroNext := perf
    count := count1 l
    losses := l.losses ++ [c.lossOf rank l.st.gstep l.st.params b] }

/-- One step of the loop of `train_epoch` (engine.py 391-519). -/
def trainStep (c : Cfg V O E D) (rank epoch : Nat) (lr : ℚ) (b : Batch D) (l : Loc V O E D) (k : Loc V O E D → Proc V E S) :
    Proc V E S :=
  forward c (.tau (
    let perf := perform c epoch b l
    syncGrad c perf (grad0 l + c.gradOf rank l.st.gstep l.st.params b) (fun g =>
      syncParam c l.stepIdx (update c lr perf l.st g).1 (fun p =>
        k (after c rank perf b l g (update c lr perf l.st g).2 p)))))

/-- The loop of `train_epoch` (engine.py 374-519). -/
def trainLoop (c : Cfg V O E D) (rank epoch : Nat) (lr : ℚ) (k : Loc V O E D → Proc V E S) :
    List (Batch D) → Loc V O E D → Proc V E S
  | [], l => .tau (.coll .hasData false (fun (ok : Bool) => if ok then .fail .typeError else k l))
  | b :: bs, l =>
    .tau (.coll .hasData true (fun (ok : Bool) =>
      if ok then trainStep c rank epoch lr b l (fun l' => trainLoop c rank epoch lr k bs l') else k l))

/-- The epoch data with the data of one epoch replaced. -/
def setEp (eps : Nat → Option E) (epoch : Nat) (e : Option E) : Nat → Option E := fun i => if i = epoch then e else eps i

/-- The steps of rank 0 in `eval_model` for one dataset, from step `i` on (engine.py 621-669). -/
def evalZero (c : Cfg V O E D) (params : V) (k : List ℚ → Proc V E S) : List (Batch D) → Nat → List ℚ → Proc V E S
  | [], _, acc => k acc
  | b :: bs, i, acc =>
    let rest : Proc V E S := forward c (.tau (evalZero c params k bs (i + 1) (acc ++ [c.evalLoss params b])))
    if i % 100 = 0 then .coll .flag true (fun _ => rest) else rest

/-- After the steps: no data is an error (engine.py 671-686). -/
def evalEnd (c : Cfg V O E D) (epoch d : Nat) (st : St V O E D) (k : St V O E D → Proc V E S) (acc : List ℚ) : Proc V E S :=
  if acc.isEmpty then .fail .assertion
  else .coll .flag false (fun _ => k { st with eps := setEp st.eps epoch ((st.eps epoch).map (c.evalErr d acc)) })

/-- `eval_model` for one dataset (engine.py 599-686). -/
def evalDataset (c : Cfg V O E D) (rank epoch d : Nat) (st : St V O E D) (k : St V O E D → Proc V E S) : Proc V E S :=
  .coll .seed () (fun _ =>
    if rank = 0 then evalZero c st.params (evalEnd c epoch d st k) (c.evalData epoch d) 0 [] else .wait (k st))

/-- `_is_dataset_evaluated` (engine/base.py 432-445). -/
def isEvaluated (c : Cfg V O E D) (epoch d : Nat) (st : St V O E D) : Bool := (st.eps epoch).any (fun e => c.evaluated e d)

/-- The loop over the eval datasets (engine.py 595-686). -/
def evalAll (c : Cfg V O E D) (rank epoch : Nat) (skip : Bool) (k : St V O E D → Proc V E S) :
    List Nat → St V O E D → Proc V E S
  | [], st => k st
  | d :: ds, st =>
    if skip && isEvaluated c epoch d st then evalAll c rank epoch skip k ds st
    else evalDataset c rank epoch d st (fun st' => evalAll c rank epoch skip k ds st')

/-- `eval_model` (engine.py 585-702). -/
def evalModel (c : Cfg V O E D) (rank epoch : Nat) (skip : Bool) (k : St V O E D → Proc V E S) (st : St V O E D) : Proc V E S :=
  evalAll c rank epoch skip
    (fun st' => .coll .epochData (st'.eps epoch) (fun e => k { st' with eps := setEp st'.eps epoch e })) (List.range c.numEval) st

/-- Only rank 0 saves the model (engine.py 567-572, `should_write_to_disk`). -/
def saveModel (c : Cfg V O E D) (rank epoch : Nat) (st : St V O E D) : List (Nat × V) :=
  if rank = 0 ∧ (epoch % c.saveInterval = 0 ∨ epoch = c.finalEpoch) then st.saved ++ [(epoch, st.params)] else st.saved

/-- The end of `train_epoch` before the evaluation (engine.py 526-572). -/
def endEpoch (c : Cfg V O E D) (rank epoch : Nat) (l : Loc V O E D) : St V O E D :=
  { l.st with eps := setEp l.st.eps epoch ((l.st.eps epoch).map (c.trainErr l.losses)), saved := saveModel c rank epoch l.st }

/-- `init_train_epoch` (engine.py 260-284). -/
def initEpoch (c : Cfg V O E D) (rank epoch : Nat) (st : St V O E D) : St V O E D :=
  { st with eps := setEp st.eps epoch (some (c.newData rank (c.lrOf st.eps epoch) (st.eps epoch))) }

/-- The variables at the begin of the loop (engine.py 338-371). -/
def startLoc (st : St V O E D) : Loc V O E D := ⟨st, 0, true, 0, []⟩

/-- `init_train_epoch` and `train_epoch`. -/
def trainEpoch (c : Cfg V O E D) (rank epoch : Nat) (k : St V O E D → Proc V E S) (st : St V O E D) : Proc V E S :=
  .tau (.coll .seed () (fun _ =>
    trainLoop c rank epoch (c.lrOf st.eps epoch) (fun l => evalModel c rank epoch false k (endEpoch c rank epoch l))
      (c.trainData rank epoch) (startLoc (initEpoch c rank epoch st))))

/-- The epochs from `epoch` on (engine.py 252-256). -/
def trainEpochs (c : Cfg V O E D) (rank : Nat) : Nat → Nat → St V O E D → Proc V E (St V O E D)
  | 0, _, st => .done st
  | n + 1, epoch, st => trainEpoch c rank epoch (trainEpochs c rank n (epoch + 1)) st

/-- `_check_missing_eval` (engine.py 1387-1412) for a training which goes on at `start`; the check of the scores of the epochs
before it is left out. -/
def checkMissing (c : Cfg V O E D) (rank start : Nat) (k : St V O E D → Proc V E S) (st : St V O E D) : Proc V E S :=
  if start ≤ 1 then k st
  else if (List.range c.numEval).all (fun d => isEvaluated c (start - 1) d st) then k st
  else evalModel c rank (start - 1) true k st

/-- `train` (engine.py 236-258). -/
def train (c : Cfg V O E D) (rank start : Nat) (st : St V O E D) : Proc V E (St V O E D) :=
  checkMissing c rank start (trainEpochs c rank (c.finalEpoch + 1 - start) start) st
end

end Verif.Distrib
