import Verif.NumbersDict.Model
import Verif.SeqOrder.Model
/-
Model of `returnn/torch/data/pipeline.py`: chunking (89-174), batching (206-323), bucket batching (326-401),
length filter (461-498), shuffling (504-573).
A generator is modelled by the list of the values which it yields, or the exception which it raises.
-/
namespace Verif.Pipeline
open Verif.Py Verif.NumbersDict

variable {K α : Type} [DecidableEq K]

/-- pipeline.py 307-309, 491-493: the lengths of a seq as `NumbersDict`. `lens` are the lengths of the data keys with
a time axis (`data.shape` not empty). -/
def seqLengths (lens : Dict K Nat) : ND K Int := ofDict (lens.map (fun e => (e.1, (e.2 : Int))))

/-! ### Batching -/

/-- The options of `BatchingIterDataPipe` (pipeline.py 231-232, 296-297), after `_parse_batch_size` and
`_parse_max_seqs`. They are functions of the seq since they can be callables. -/
structure BatchOpts (K α : Type) where
  lens : α → Dict K Nat
  maxSeqs : α → Int
  maxBatch : α → ND K Int

/-- `sys.maxsize`. -/
def maxsize : Int := 9223372036854775807

/-- pipeline.py 239-254 `_parse_batch_size` for the non-callable cases `None`, `int`, `dict`. -/
def parseBatchSize : Option (Int ⊕ Dict K Int) → ND K Int
  | none => ofScalar maxsize
  | some (.inl n) => ofScalar n
  | some (.inr d) => ofDict d

/-- pipeline.py 256-269 `_parse_max_seqs` for the non-callable cases. -/
def parseMaxSeqs : Option Int → Int
  | none => maxsize
  | some n => if n = -1 then maxsize else n

/-- The variables of the loop (pipeline.py 292-293). -/
structure BatchSt (K α : Type) where
  cur : List α := []
  curMax : ND K Int := ofScalar 0

/-- pipeline.py 298-299: the assertions on the limits. -/
def checkLimits (o : BatchOpts K α) (x : α) : Res Unit := do
  pyAssert (decide (o.maxSeqs x > 0))
  let m ← minValue (o.maxBatch x)
  pyAssert (decide (m > 0))

/-- pipeline.py 307-320: the part of the loop body after the `max_seqs` check. Gives the yielded batches. -/
def batchAdd (o : BatchOpts K α) (s : BatchSt K α) (x : α) : Res (List (List α) × BatchSt K α) := do
  let sl := seqLengths (o.lens x)
  let ml ← maxList [s.curMax, sl]
  let size := mulScalar ml ((s.cur.length : Int) + 1)
  let exceeds ← anyCompare size (o.maxBatch x) (fun a b => decide (a > b))
  if !s.cur.isEmpty && exceeds then .ok ([s.cur], { cur := [x], curMax := sl })
  else .ok ([], { cur := s.cur ++ [x], curMax := ml })

/-- pipeline.py 295-320: one iteration of the loop. -/
def batchStep (o : BatchOpts K α) (s : BatchSt K α) (x : α) : Res (List (List α) × BatchSt K α) := do
  checkLimits o x
  if (s.cur.length : Int) ≥ o.maxSeqs x then
    let (out, s') ← batchAdd o {} x
    .ok (s.cur :: out, s')
  else batchAdd o s x

/-- pipeline.py 295-323: the loop, and the last batch. -/
def batchLoop (o : BatchOpts K α) : List α → BatchSt K α → Res (List (List α))
  | [], s => .ok (if s.cur.isEmpty then [] else [s.cur])
  | x :: xs, s => do
    let (out, s') ← batchStep o s x
    let rest ← batchLoop o xs s'
    .ok (out ++ rest)

/-- pipeline.py 286-323 `BatchingIterDataPipe.__iter__`. -/
def batching (o : BatchOpts K α) (stream : List α) : Res (List (List α)) := batchLoop o stream {}

/-! ### Bucket batching -/

/-- pipeline.py 366-370: the checks and the sorting of the buckets `(max seq len, max num seqs)`. -/
def mkBuckets (buckets : List (Int × Int)) : Res (List (Int × Int)) := do
  pyAssert (!buckets.isEmpty)
  if buckets.all (fun b => decide (b.1 > 0 ∧ b.2 > 0)) then
    let s := stableSort (fun a b => decide (a.1 < b.1 ∨ (a.1 = b.1 ∧ a.2 ≤ b.2))) buckets
    pyAssert (decide ((s.map Prod.fst).Nodup))
    .ok s
  else .error .valueError

/-- `bisect.bisect_left(max_seq_lens, size)` for a sorted list. -/
def bisectLeft (l : List Int) (x : Int) : Nat := (l.takeWhile (fun a => decide (a < x))).length

/-- pipeline.py 379-389: the bucket of a seq of length `size`; `none` if it is dropped. `rnd` is the outcome of the
random generator: `none` if the best-fitting bucket is taken, else a number which selects one of the fitting buckets
(`randint(bucket_idx, n)`). -/
def bucketOf (lens : List Int) (size : Int) (rnd : Option Nat) : Option Nat :=
  let b := bisectLeft lens size
  if b ≥ lens.length then none
  else
    match rnd with
    | none => some b
    | some r => if b < lens.length - 1 then some (b + r % (lens.length - b)) else some b

/-- pipeline.py 390-394: append the seq to its bucket; yields the bucket when it is full. -/
def bucketAdd (sizes : List Int) (bs : List (List α)) (i : Nat) (x : α) : List (List α) × List (List α) :=
  let b := bs.getD i [] ++ [x]
  if (b.length : Int) ≥ sizes.getD i 0 then ([b], bs.set i []) else ([], bs.set i b)

/-- pipeline.py 377-397: the loop over the stream (each seq with the random outcome), and the leftovers. -/
def bucketLoop (buckets : List (Int × Int)) (size : α → Int) : List (α × Option Nat) → List (List α) → List (List α)
  | [], bs => bs.filter (fun b => !b.isEmpty)
  | (x, r) :: xs, bs =>
    match bucketOf (buckets.map Prod.fst) (size x) r with
    | none => bucketLoop buckets size xs bs
    | some i =>
      let (out, bs') := bucketAdd (buckets.map Prod.snd) bs i x
      out ++ bucketLoop buckets size xs bs'

/-- pipeline.py 339-401 `BucketOrderingIterDataPipe`: constructor and iteration. -/
def bucketing (buckets : List (Int × Int)) (size : α → Int) (stream : List (α × Option Nat)) : Res (List (List α)) := do
  let bks ← mkBuckets buckets
  .ok (bucketLoop bks size stream (List.replicate bks.length []))

/-! ### Chunking -/

/-- Python `range(0, n, step)`. -/
def pyRange0 (n : Nat) (step : Int) : Res (List Nat) :=
  if step = 0 then .error .valueError
  else if step < 0 then .ok []
  else .ok ((List.range ((n + step.toNat - 1) / step.toNat)).map (· * step.toNat))

/-- pipeline.py 144-148: the chunks of one data array. -/
def chunks (data : List α) (size : Nat) (step : Int) (minSize : Int) : Res (List (List α)) := do
  let starts ← pyRange0 data.length step
  .ok ((starts.map (fun s => slice data s (s + size))).filter (fun c => decide ((c.length : Int) ≥ minSize)))

/-- The options of `ChunkingIterDataPipe` (pipeline.py 113-114). Chunk sizes are non-negative (assertion in
`_parse_chunking`, datasets/basic.py 324). -/
structure ChunkOpts (K : Type) where
  size : ND K Nat
  step : ND K Int
  minSize : ND K Int

/-- `nd[key]` where the value is a number. -/
def ndItem {V : Type} (d : ND K V) (k : K) : Res V := do
  match ← NumbersDict.getItem d k with
  | some v => .ok v
  | none => .error .typeError

/-- pipeline.py 138-157: the loop over the data keys: chunks per key, all with the same number of chunks. -/
def chunkKeys (o : ChunkOpts K) (d : Dict K (List α)) : List K → Option Nat → Res (Dict K (List (List α)) × Option Nat)
  | [], n => .ok ([], n)
  | k :: ks, n => do
    let size ← ndItem o.size k
    let step ← ndItem o.step k
    let minSize ← ndItem o.minSize k
    let data ← d.getItem k
    let cs ← chunks data size step minSize
    match n with
    | none => pure ()
    | some m => pyAssert (decide (m = cs.length))
    let (rest, n') ← chunkKeys o d ks (some (n.getD cs.length))
    .ok ((k, cs) :: rest, n')

/-- pipeline.py 163-174: the `i`-th output for a seq: the `i`-th chunk of each chunked key, then the other keys
(copied). -/
def chunkOut (d : Dict K (List α)) (dc : Dict K (List (List α))) (i : Nat) : Dict K (List α) :=
  dc.map (fun e => (e.1, e.2.getD i [])) ++ d.filter (fun e => !decide (e.1 ∈ dc.keys))

/-- pipeline.py 127-133: the data keys to chunk, if not configured. -/
def defaultKeys (blackList : List K) (d : Dict K (List α)) : Res (List K) := do
  let ks := d.keys.filter (fun k => !decide (k ∈ blackList))
  pyAssert (!ks.isEmpty)
  .ok ks

/-- pipeline.py 135-174: the outputs for one seq. -/
def chunkSeq (o : ChunkOpts K) (keys : List K) (d : Dict K (List α)) : Res (List (Dict K (List α))) := do
  let (dc, n) ← chunkKeys o d keys none
  .ok ((List.range (n.getD 0)).map (chunkOut d dc))

/-- pipeline.py 125-174: the loop. `keys` is the variable `chunking_data_keys`, which is set at the first seq. -/
def chunkLoop (o : ChunkOpts K) (blackList : List K) : List (Dict K (List α)) → List K → Res (List (Dict K (List α)))
  | [], _ => .ok []
  | d :: ds, keys => do
    let keys ← if keys.isEmpty then defaultKeys blackList d else .ok keys
    let out ← chunkSeq o keys d
    let rest ← chunkLoop o blackList ds keys
    .ok (out ++ rest)

/-- pipeline.py 118-174 `ChunkingIterDataPipe.__iter__`. -/
def chunking (o : ChunkOpts K) (blackList : List K) (ds : List (Dict K (List α))) : Res (List (Dict K (List α))) :=
  chunkLoop o blackList ds o.size.dict.keys

/-! ### Length filter -/

/-- pipeline.py 483-498 `LenFilterDataPipe.__iter__`. -/
def lenFilter (lens : α → Dict K Nat) (minLen maxLen : ND K Int) : List α → Res (List α)
  | [] => .ok []
  | x :: xs => do
    if ← anyCompare (seqLengths (lens x)) minLen (fun a b => decide (a < b)) then lenFilter lens minLen maxLen xs
    else if ← anyCompare (seqLengths (lens x)) maxLen (fun a b => decide (a > b)) then lenFilter lens minLen maxLen xs
    else do
      let rest ← lenFilter lens minLen maxLen xs
      .ok (x :: rest)

/-! ### Shuffling -/

/-- A batch for `ShufflingDataPipe`: each data dict is its normal data and the values for the monotonic keys. -/
abbrev SBatch (β μ : Type) := List (β × μ)

/-- pipeline.py 548-551: the values of the monotonic keys of a buffer, in order. -/
def monoValues {β μ : Type} (buf : List (SBatch β μ)) : List μ := (buf.flatten).map Prod.snd

/-- pipeline.py 553-557: put the given monotonic values into a batch; gives the remaining values as well. -/
def putBatch {β μ : Type} : SBatch β μ → List μ → SBatch β μ × List μ
  | [], ms => ([], ms)
  | (b, m) :: rest, [] => ((b, m) :: rest, [])
  | (b, _) :: rest, m :: ms => let r := putBatch rest ms; ((b, m) :: r.1, r.2)

/-- pipeline.py 553-557: put the given monotonic values into the batches, in order. -/
def putMono {β μ : Type} : List (SBatch β μ) → List μ → List (SBatch β μ)
  | [], _ => []
  | b :: bs, ms => let r := putBatch b ms; r.1 :: putMono bs r.2

/-- pipeline.py 559-566: the loop over the buffer: while yielding each item, read one item into the next buffer.
The result is `(next_buffer, rest of the stream, has_ended)`. -/
def drain {γ : Type} : List γ → List γ → List γ → Bool → List γ × List γ × Bool
  | [], next, rest, ended => (next, rest, ended)
  | _ :: buf, next, rest, ended =>
    if ended then drain buf next rest true
    else
      match rest with
      | [] => drain buf next [] true
      | y :: rest => drain buf (next ++ [y]) rest false

/-- pipeline.py 545-573: the outer loop; `round` counts the shuffles. Each round takes at least one item of the stream
or ends, `fuel` bounds the rounds. -/
def shuffleLoop {β μ : Type} (rng : SeqOrder.Rng) (seed : Int) (size : Nat) :
    Nat → Nat → List (SBatch β μ) → List (SBatch β μ) → Bool → Res (List (SBatch β μ))
  | 0, _, _, _, _ => .error (.other "fuel")
  | fuel + 1, round, buf, rest, ended => do
    let shuffled := putMono (rng.shuffle seed round buf) (monoValues buf)
    let (next, rest', ended') := drain shuffled [] rest ended
    if buf.length < size then do
      pyAssert (ended' && next.isEmpty)
      .ok shuffled
    else do
      let out ← shuffleLoop rng seed size fuel (round + 1) next rest' ended'
      .ok (shuffled ++ out)

/-- pipeline.py 537-573 `ShufflingDataPipe.__iter__`, after `reset()`. -/
def shuffling {β μ : Type} (rng : SeqOrder.Rng) (seed : Int) (size : Nat) (stream : List (SBatch β μ)) :
    Res (List (SBatch β μ)) :=
  shuffleLoop rng seed size (stream.length + 2) 0 (stream.take size) (stream.drop size) false

end Verif.Pipeline
