import Verif.Distrib.Model
/-
What distributed training should do: it ends whatever the schedule of the ranks is, every rank trains on the first batches it
has (as many as the rank with the fewest has), and the parameters are those of a training in one process with the mean of the
gradients of all ranks.
-/
namespace Verif.Distrib

variable {V O E D S : Type} [AddCommGroup V] [Module ℚ V] {n : Nat}

/-- `m` steps, in some schedule. -/
def Steps : Nat → (Fin (n + 1) → Proc V E S) → (Fin (n + 1) → Proc V E S) → Prop
  | 0, a, b => a = b
  | m + 1, a, b => ∃ a', Step a a' ∧ Steps m a' b

/-- No step is possible: all ranks are finished, or they wait forever. -/
def Stuck (a : Fin (n + 1) → Proc V E S) : Prop := ¬ ∃ b, Step a b

/-- In every schedule the ranks finish with the states `F`: there is no infinite execution, and an execution can go on unless
all ranks are finished with these states. -/
def Ends (a : Fin (n + 1) → Proc V E S) (F : Fin (n + 1) → S) : Prop :=
  ∃ N, ∀ m b, Steps m a b → m ≤ N ∧ (b = (fun r => .done (F r)) ∨ ∃ b', Step b b')

/-- Some schedule leads to a deadlock: no step is possible, but a rank is neither finished nor failed. -/
def Deadlocks (a : Fin (n + 1) → Proc V E S) : Prop :=
  ∃ m b, Steps m a b ∧ Stuck b ∧ ∃ r, (∀ s, b r ≠ .done s) ∧ ∀ e, b r ≠ .fail e

/-- The batches of a step, one for each rank: the first batches of all ranks, as many as the rank with the fewest has. -/
def Rows (bs : Fin (n + 1) → List (Batch D)) (rows : List (Fin (n + 1) → Batch D)) : Prop :=
  (∀ r, rows.map (fun row => row r) <+: bs r) ∧ ∃ r, rows.length = (bs r).length

/-- The epoch data with the entry of one epoch changed. -/
def putEp (eps : Nat → Option E) (epoch : Nat) (e : Option E) : Nat → Option E := fun i => if i = epoch then e else eps i

/-- One step of a training in one process with the mean of the gradients for all batches of the step. -/
def refStep (c : Cfg V O E D) (epoch : Nat) (lr : ℚ) (row : Fin (n + 1) → Batch D) (l : Loc V O E D) : Loc V O E D :=
  let cnt := (if l.zeroNext then 0 else l.count) + 1
  let upd : Bool := decide (c.accum epoch (row 0).frac l.st.gstep ≤ cnt)
  let g := (if l.zeroNext then 0 else l.st.grad) + avg (fun r => c.gradOf r l.st.gstep l.st.params (row r))
  let po := if upd then c.optStep lr l.st.gstep l.st.params l.st.opt g else (l.st.params, l.st.opt)
  { st := { l.st with params := po.1, opt := po.2, grad := g, gstep := l.st.gstep + 1, used := l.st.used ++ [row 0] }
    stepIdx := l.stepIdx + 1
    zeroNext := upd
    count := cnt
    losses := l.losses ++ [c.lossOf 0 l.st.gstep l.st.params (row 0)] }

/-- The evaluation of an epoch: the results for all datasets. -/
def refEval (c : Cfg V O E D) (epoch : Nat) (skip : Bool) (ds : List Nat) (params : V) (e : Option E) : Option E :=
  ds.foldl (fun e d =>
    if skip && e.any (fun e => c.evaluated e d) then e
    else e.map (c.evalErr d ((c.evalData epoch d).map (c.evalLoss params)))) e

/-- One epoch. -/
def refEpoch (c : Cfg V O E D) (rows : Nat → List (Fin (n + 1) → Batch D)) (epoch : Nat) (st : St V O E D) : St V O E D :=
  let lr := c.lrOf st.eps epoch
  let st := { st with eps := putEp st.eps epoch (some (c.newData 0 lr (st.eps epoch))) }
  let l := (rows epoch).foldl (fun l row => refStep c epoch lr row l) ⟨st, 0, true, 0, []⟩
  let e := refEval c epoch false (List.range c.numEval) l.st.params ((l.st.eps epoch).map (c.trainErr l.losses))
  { l.st with
    eps := putEp l.st.eps epoch e
    saved := if epoch % c.saveInterval = 0 ∨ epoch = c.finalEpoch then l.st.saved ++ [(epoch, l.st.params)] else l.st.saved }

/-- `k` epochs from `epoch` on. -/
def refEpochs (c : Cfg V O E D) (rows : Nat → List (Fin (n + 1) → Batch D)) : Nat → Nat → St V O E D → St V O E D
  | 0, _, st => st
  | k + 1, epoch, st => refEpochs c rows k (epoch + 1) (refEpoch c rows epoch st)

/-- The evaluation which was missing for the last epoch. -/
def refMissing (c : Cfg V O E D) (start : Nat) (st : St V O E D) : St V O E D :=
  if start ≤ 1 then st
  else { st with eps := putEp st.eps (start - 1) (refEval c (start - 1) true (List.range c.numEval) st.params (st.eps (start - 1))) }

/-- The whole training. -/
def refTrain (c : Cfg V O E D) (rows : Nat → List (Fin (n + 1) → Batch D)) (start : Nat) (st : St V O E D) : St V O E D :=
  refEpochs c rows (c.finalEpoch + 1 - start) start (refMissing c start st)

/-! ### Averaging of parameters -/

/-- One step of one rank on its own. -/
def ownStep (c : Cfg V O E D) (rank epoch : Nat) (lr : ℚ) (b : Batch D) (l : Loc V O E D) : Loc V O E D :=
  let cnt := (if l.zeroNext then 0 else l.count) + 1
  let upd : Bool := decide (c.accum epoch b.frac l.st.gstep ≤ cnt)
  let g := (if l.zeroNext then 0 else l.st.grad) + c.gradOf rank l.st.gstep l.st.params b
  let po := if upd then c.optStep lr l.st.gstep l.st.params l.st.opt g else (l.st.params, l.st.opt)
  { st := { l.st with params := po.1, opt := po.2, grad := g, gstep := l.st.gstep + 1, used := l.st.used ++ [b] }
    stepIdx := l.stepIdx + 1
    zeroNext := upd
    count := cnt
    losses := l.losses ++ [c.lossOf rank l.st.gstep l.st.params b] }

/-- One step of all ranks: each on its own, and after every `param_sync_step` steps of the epoch all take the mean. -/
def parStep (c : Cfg V O E D) (epoch : Nat) (lr : ℚ) (row : Fin (n + 1) → Batch D) (ls : Fin (n + 1) → Loc V O E D)
    (r : Fin (n + 1)) : Loc V O E D :=
  let own := fun r : Fin (n + 1) => ownStep c r epoch lr (row r) (ls r)
  if (own r).stepIdx % c.syncStep = 0 then
    { own r with st := { (own r).st with params := avg (fun r => (own r).st.params) } }
  else own r

/-- One epoch: then rank 0 saves its model and evaluates it, and all get its results. -/
def parEpoch (c : Cfg V O E D) (rows : Nat → List (Fin (n + 1) → Batch D)) (epoch : Nat) (st : Fin (n + 1) → St V O E D)
    (r : Fin (n + 1)) : St V O E D :=
  let lr := c.lrOf (st 0).eps epoch
  let ls := (rows epoch).foldl (fun ls row => parStep c epoch lr row ls) (fun r =>
    ⟨{ st r with eps := putEp (st r).eps epoch (some (c.newData r lr ((st r).eps epoch))) }, 0, true, 0, []⟩)
  let e := refEval c epoch false (List.range c.numEval) (ls 0).st.params (((ls 0).st.eps epoch).map (c.trainErr (ls 0).losses))
  { (ls r).st with
    eps := putEp (st r).eps epoch e
    saved := if r = 0 ∧ (epoch % c.saveInterval = 0 ∨ epoch = c.finalEpoch) then (st r).saved ++ [(epoch, (ls r).st.params)]
      else (st r).saved }

def parEpochs (c : Cfg V O E D) (rows : Nat → List (Fin (n + 1) → Batch D)) :
    Nat → Nat → (Fin (n + 1) → St V O E D) → Fin (n + 1) → St V O E D
  | 0, _, st => st
  | k + 1, epoch, st => parEpochs c rows k (epoch + 1) (parEpoch c rows epoch st)

def parMissing (c : Cfg V O E D) (start : Nat) (st : Fin (n + 1) → St V O E D) (r : Fin (n + 1)) : St V O E D :=
  if start ≤ 1 then st r
  else { st r with
    eps := putEp (st r).eps (start - 1) (refEval c (start - 1) true (List.range c.numEval) (st 0).params ((st 0).eps (start - 1))) }

/-- The whole training with averaging of parameters. -/
def parTrain (c : Cfg V O E D) (rows : Nat → List (Fin (n + 1) → Batch D)) (start : Nat) (st : Fin (n + 1) → St V O E D) :
    Fin (n + 1) → St V O E D :=
  parEpochs c rows (c.finalEpoch + 1 - start) start (parMissing c start st)

end Verif.Distrib
