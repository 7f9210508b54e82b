import Verif.SeqWorker.Model
import Verif.SeqOrder.Model
/-
Model of `returnn/datasets/multi_proc.py` `MultiProcDataset`: distribution of the seqs over the worker processes
(336-375, 392-436) and `_collect_single_seq` (438-454). The worker loop is `Verif.SeqWorker`.
-/
namespace Verif.MultiProc
open Verif.Py

/-- Python `l[i::W]` (multi_proc.py 360, 363). -/
def stride {α : Type} (l : List α) (i W : Nat) : List α :=
  (List.range l.length).filterMap (fun k => l[i + k * W]?)

/-- multi_proc.py 346-370, sharding method "seq_order": the seqs of worker `i`, where `order` are the seqs of the wrapped
dataset in its order. Worker 0 computes the order and sends each other worker its shard; each worker re-initialises its
dataset with the explicit `seq_order`, which is assumed to give exactly these seqs. -/
def seqOrderShard {α : Type} (order : List α) (W i : Nat) : List α := stride order i W

/-- multi_proc.py 134-157, 339-345, sharding method "dedicated": worker `i` has the wrapped dataset with
`_num_shards = W`, `_shard_index = i`. -/
def dedicatedShard {Tag : Type} [DecidableEq Tag] (c : SeqOrder.Cfg Tag) (rng : SeqOrder.Rng) (epoch : Int) (n : Nat)
    (len : Option (Nat → Int)) (W i : Nat) : Res (List Nat) := do
  let o ← SeqOrder.getSeqOrderForEpoch { c with numShards := W, shardIndex := i } rng (some epoch) n len
  .ok o.idxs

/-- multi_proc.py 424-432: `num_seqs` for "seq_order" sharding is the length of the whole order. -/
def numSeqsSeqOrder {α : Type} (order : List α) : Nat := order.length

/-- multi_proc.py 413-421: `num_seqs` for "dedicated" sharding is the sum over the workers. -/
def numSeqsDedicated {α : Type} (shards : List (List α)) : Nat := (shards.map List.length).sum

/-- multi_proc.py 438-454 `_collect_single_seq` as a function of the seqs of all workers. `ws j` is the state of worker
`j`; before the request arrives, each worker `j` makes `pre j` prefetches. (The adjustment of `complete_frac` is not
modelled.) -/
def collect {α : Type} (shard : Nat → List α) (buffer W : Nat) (ws : Nat → SeqWorker.W α) (pre : Nat → Nat) (idx : Nat) :
    Res (Option α × (Nat → SeqWorker.W α)) := do
  let ws := fun j => SeqWorker.prefetch (shard j) buffer (pre j) (ws j)
  let j := idx % W
  let (x, w) ← SeqWorker.request (shard j) buffer (ws j) (idx / W)
  .ok (x, fun k => if k = j then w else ws k)

/-- Collecting the seqs `idx, idx+1, ...` one after the other (as `CachedDataset2._load_seqs` does). The list gives the
prefetches between the requests. -/
def collectAll {α : Type} (shard : Nat → List α) (buffer W : Nat) :
    List (Nat → Nat) → Nat → (Nat → SeqWorker.W α) → Res (List (Option α))
  | [], _, _ => .ok []
  | pre :: rest, idx, ws => do
    let (x, ws) ← collect shard buffer W ws pre idx
    let xs ← collectAll shard buffer W rest (idx + 1) ws
    .ok (x :: xs)

end Verif.MultiProc
