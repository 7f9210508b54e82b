import Verif.Util.Py
import Verif.SeqOrder.Model
/-
Model of `returnn/datasets/distrib_files.py` `DistributeFilesDataset`: distribution of files over the sub-epochs and
shards (253-324, 359-423), and the caches of file orders and worker processes over a history of calls (253-324, 436-447).
-/
namespace Verif.DistribFiles
open Verif.Py

/-- The float arithmetic used to compare sizes (distrib_files.py 368, 395, 404, 412-413, 421). Nothing is assumed
about it (rounding included): the theorems hold for every choice. -/
structure Arith (Q : Type) where
  /-- `a / b` -/
  div : Int → Int → Q
  /-- `a <= q` -/
  le : Int → Q → Bool
  /-- `abs((taken + size) - q) <= abs(taken - q)` -/
  better : Int → Int → Q → Bool

/-- The local variables of the loop (distrib_files.py 381-385). -/
structure St (F Q : Type) where
  bins : List (List F)
  binIdx : Nat
  sizeTaken : Int
  totalTaken : Int
  avg : Q

/-- `files_per_bin[i].append(f)`. -/
def appendAt {F : Type} (bins : List (List F)) (i : Nat) (f : F) : Res (List (List F)) :=
  if i < bins.length then .ok (bins.modify i (· ++ [f])) else .error .indexError

/-- `(total_size - total_size_taken) / (num_bins - bin_idx)`. -/
def newAvg {Q : Type} (ar : Arith Q) (total taken : Int) (numBins binIdx : Nat) : Res Q :=
  if (numBins : Int) - (binIdx : Int) = 0 then .error .zeroDivision
  else .ok (ar.div (total - taken) ((numBins : Int) - (binIdx : Int)))

/-- One iteration of the loop (distrib_files.py 386-421); `numRemaining` is `len(files_order) - i`. -/
def step {F Q : Type} (ar : Arith Q) (size : F → Int) (numBins : Nat) (total : Int) (numRemaining : Nat)
    (s : St F Q) (f : F) : Res (St F Q) := do
  let sz := size f
  let taken := s.totalTaken + sz
  if (numRemaining : Int) ≤ (numBins : Int) - (s.binIdx : Int) - 1 then
    let cur ← getItem s.bins s.binIdx
    pyAssert (!cur.isEmpty)
    let b := s.binIdx + 1
    let avg ← newAvg ar total taken numBins b
    let bins ← appendAt s.bins b f
    .ok { bins := bins, binIdx := b, sizeTaken := sz, totalTaken := taken, avg := avg }
  else if (s.binIdx : Int) = (numBins : Int) - 1 then
    let bins ← appendAt s.bins s.binIdx f
    .ok { s with bins := bins, sizeTaken := s.sizeTaken + sz, totalTaken := taken }
  else if ar.le (s.sizeTaken + sz) s.avg then
    let bins ← appendAt s.bins s.binIdx f
    .ok { s with bins := bins, sizeTaken := s.sizeTaken + sz, totalTaken := taken }
  else
    let cur ← getItem s.bins s.binIdx
    if cur.isEmpty || ar.better s.sizeTaken sz s.avg then
      let bins ← appendAt s.bins s.binIdx f
      let avg ← newAvg ar total taken numBins (s.binIdx + 1)
      .ok { bins := bins, binIdx := s.binIdx + 1, sizeTaken := 0, totalTaken := taken, avg := avg }
    else
      let bins ← appendAt s.bins (s.binIdx + 1) f
      let avg ← newAvg ar total taken numBins (s.binIdx + 1)
      .ok { bins := bins, binIdx := s.binIdx + 1, sizeTaken := sz, totalTaken := taken, avg := avg }

/-- The loop (distrib_files.py 386-421); the remaining list has `num_remaining` elements. -/
def loop {F Q : Type} (ar : Arith Q) (size : F → Int) (numBins : Nat) (total : Int) :
    List F → St F Q → Res (St F Q)
  | [], s => .ok s
  | f :: rest, s => do
    let s ← step ar size numBins total (rest.length + 1) s f
    loop ar size numBins total rest s

/-- distrib_files.py 368, 381-385: the variables before the loop. -/
def initSt {F Q : Type} (ar : Arith Q) (numBins : Nat) (total : Int) : St F Q where
  bins := List.replicate numBins []
  binIdx := 0
  sizeTaken := 0
  totalTaken := 0
  avg := ar.div total numBins

/-- distrib_files.py 359-423 `_distribute_evenly_by_size`. -/
def distribute {F Q : Type} (ar : Arith Q) (size : F → Int) (numBins : Nat) (files : List F) : Res (List (List F)) := do
  let total := (files.map size).sum
  if numBins = 0 then .error .zeroDivision
  else
    pyAssert (decide (files.length ≥ numBins))
    let s ← loop ar size numBins total files (initSt ar numBins total)
    pyAssert (s.bins.all (fun b => !b.isEmpty))
    .ok s.bins

/-- Exact rational arithmetic, as an example. -/
def ratArith : Arith (Int × Int) where
  div a b := (a, b)
  le a q := decide (a * q.2 ≤ q.1)
  better t s q := decide (((t + s) * q.2 - q.1).natAbs ≤ (t * q.2 - q.1).natAbs)

/-- The dataset options (distrib_files.py 133-196). `random` is `seq_ordering == "random"` (else "default"; other
orderings raise). `seedCfg` has the options for the random seed, including `partition_epoch`. -/
structure Ds (F : Type) where
  files : List F
  size : F → Int
  random : Bool
  seedCfg : SeqOrder.Cfg Unit
  numShards : Nat
  shardIndex : Nat
  preload : Nat

/-- `self.partition_epoch` -/
def Ds.P {F : Type} (d : Ds F) : Nat := SeqOrder.orOne d.seedCfg.partitionEpoch

/-- `full_epoch_0idx` of an epoch (distrib_files.py 271, 278). Epochs are counted from 1. -/
def Ds.full {F : Type} (d : Ds F) (ep : Nat) : Nat := (ep - 1) / d.P

/-- distrib_files.py 281-291: the order of the files in full epoch `f`. -/
def filesOrder {F : Type} (d : Ds F) (rng : SeqOrder.Rng) (f : Nat) : List F :=
  if d.random then
    rng.shuffle (SeqOrder.getRandomSeedForEpoch d.seedCfg (some ((f * d.P + 1 : Nat) : Int))) 0 d.files
  else d.files

/-- distrib_files.py 281-299: the entry of the files order cache for full epoch `f`. -/
def orderEntry {F Q : Type} (ar : Arith Q) (d : Ds F) (rng : SeqOrder.Rng) (f : Nat) : Res (List (List F)) := do
  let bins ← distribute ar d.size (d.numShards * d.P) (filesOrder d rng f)
  .ok (slice bins (d.P * d.shardIndex) (d.P * d.shardIndex + d.P))

/-- A worker process (distrib_files.py 489-531): its files, its `epoch` argument `full_epoch_0idx + 1`, and an
identity of the process (processes are numbered in the order they are started). -/
structure Worker (F : Type) where
  files : List F
  innerEpoch : Nat
  pid : Nat
deriving DecidableEq, Repr

/-- The mutable attributes (distrib_files.py 166-167 and `self.epoch`). Dicts are association lists. -/
structure State (F : Type) where
  epoch : Option Nat := none
  orders : List (Nat × List (List F)) := []
  workers : List (Nat × Worker F) := []
  /-- how many worker processes were started so far -/
  started : Nat := 0

/-- distrib_files.py 277-299: one iteration of the loop filling the files order cache. -/
def fillOrder {F Q : Type} (ar : Arith Q) (d : Ds F) (rng : SeqOrder.Rng)
    (orders : List (Nat × List (List F))) (ep : Nat) : Res (List (Nat × List (List F))) :=
  match orders.lookup (d.full ep) with
  | some _ => .ok orders
  | none => do
    let e ← orderEntry ar d rng (d.full ep)
    .ok (orders ++ [(d.full ep, e)])

/-- distrib_files.py 306-321: one iteration of the loop starting the workers. The state is the dict of workers and
the number of processes started so far. -/
def fillWorker {F : Type} (d : Ds F) (orders : List (Nat × List (List F)))
    (ws : List (Nat × Worker F) × Nat) (ep : Nat) : Res (List (Nat × Worker F) × Nat) :=
  match ws.1.lookup ep with
  | some _ => .ok ws
  | none =>
    match orders.lookup (d.full ep) with
    | none => .error .keyError
    | some order => do
      let files ← getItem order ((ep - 1) % d.P)
      .ok (ws.1 ++ [(ep, { files := files, innerEpoch := d.full ep + 1, pid := ws.2 })], ws.2 + 1)

/-- Python loop over a list with a state and exceptions. -/
def foldRes {σ α : Type} (f : σ → α → Res σ) : List α → σ → Res σ
  | [], s => .ok s
  | a :: l, s => do
    let s ← f s a
    foldRes f l s

/-- distrib_files.py 253-324 `init_seq_order(epoch)`. -/
def initSeqOrder {F Q : Type} (ar : Arith Q) (d : Ds F) (rng : SeqOrder.Rng) (s : State F) (epoch : Nat) :
    Res (State F) := do
  let orders := s.orders.filter (fun e => !decide (e.1 < d.full epoch))
  let eps := List.range' epoch (d.preload + 1)
  let orders ← foldRes (fillOrder ar d rng) eps orders
  let workers := s.workers.filter (fun e => !decide (e.1 < epoch))
  let ws ← foldRes (fillWorker d orders) eps (workers, s.started)
  .ok { epoch := some epoch, orders := orders, workers := ws.1, started := ws.2 }

/-- distrib_files.py 436-447 `finish_epoch`. The base class (basic.py 744-750) sets `self.epoch = None` first. -/
def finishEpoch {F : Type} (s : State F) (freeResources : Bool) : State F :=
  let s := { s with epoch := none }
  if freeResources then { s with workers := [], orders := [] }
  else
    match s.epoch with
    | some e => { s with workers := s.workers.filter (fun w => !decide (w.1 = e)) }
    | none => s

/-- A call of the API. -/
inductive Call where
  | init (epoch : Nat)
  | finish (freeResources : Bool)

/-- A history of calls. -/
def runCalls {F Q : Type} (ar : Arith Q) (d : Ds F) (rng : SeqOrder.Rng) : List Call → State F → Res (State F)
  | [], s => .ok s
  | .init e :: cs, s => do
    let s ← initSeqOrder ar d rng s e
    runCalls ar d rng cs s
  | .finish b :: cs, s => runCalls ar d rng cs (finishEpoch s b)

/-- The files which are served in the current epoch (distrib_files.py 426: `self._workers[self.epoch]`). -/
def currentFiles {F : Type} (s : State F) : Option (Worker F) :=
  match s.epoch with
  | none => none
  | some e => s.workers.lookup e

end Verif.DistribFiles
