import Verif.Util.Py
/-
Model of the sequence ordering of `returnn/datasets/basic.py`:
`Dataset.get_seq_order_for_epoch` (511-670), `_apply_partition_epoch_and_sharding` (672-703),
`_get_random_seed_for_epoch` (709-723).
-/
namespace Verif.SeqOrder
open Verif.Py

/-- `numpy.random.RandomState(seed)` (basic.py 575, 587, 624): the `k`-th call after seeding with `seed` of
`permutation(n)` gives `perm seed k n`. Only its contract (a permutation of `range(n)`) is assumed; the theorems
hold for every such generator. -/
structure Rng where
  perm : Int → Nat → Nat → List Nat
  isPerm : ∀ seed k n, (perm seed k n).Perm (List.range n)

/-- `random_generator.shuffle(part)` (basic.py 605), as the `k`-th call of the generator. -/
def Rng.shuffle {α : Type} (rng : Rng) (seed : Int) (k : Nat) (l : List α) : List α :=
  (rng.perm seed k l.length).filterMap (fun i => l[i]?)

/-- The bins option of `sort_bin_shuffle:` / `laplace:` (basic.py 590-596, 611-617):
absent, `.c` (approximate chunk size) or a number of bins. -/
inductive Bins where
  | absent
  | approx (c : Int)
  | count (b : Int)
deriving DecidableEq, Repr

/-- The parsed `seq_ordering` string (basic.py 553-637). The string parsing itself (`split(":")`, `int`) is not
modelled; `nth` is the optional number of epochs with a fixed seed (1 if absent). -/
inductive Ordering where
  | default
  | defaultEveryN (num : Int)
  | reverse
  | sorted
  | sortedReverse
  | random (nth : Int)
  | sortBinShuffle (x2 : Bool) (bins : Bins) (nth : Int)
  | laplace (bins : Bins) (nth : Int)
deriving DecidableEq, Repr

/-- The dataset attributes read by the ordering code (basic.py 97-207, 528-529, 639-657). -/
structure Cfg (Tag : Type) where
  ordering : Ordering
  partitionEpoch : Option Nat := none
  repeatEpoch : Option Nat := none
  fixedRandomSeed : Option Int := none
  randomSeedOffset : Int := 0
  numShards : Nat := 1
  shardIndex : Nat := 0
  uniqueSeqTags : Bool := false
  seqTagsFilter : Option (List Tag) := none
  allTags : List Tag := []
  totalNumSeqs : Nat := 0

/-- Python `x or 1` for `Optional[int]`. -/
def orOne (x : Option Nat) : Nat :=
  match x with
  | none => 1
  | some 0 => 1
  | some n => n

/-- Python `epoch or 1` (basic.py 692, 718). -/
def epochOrOne (epoch : Option Int) : Int :=
  match epoch with
  | none => 1
  | some e => if e = 0 then 1 else e

/-- basic.py 709-723 `_get_random_seed_for_epoch`. -/
def getRandomSeedForEpoch {Tag : Type} (c : Cfg Tag) (epoch : Option Int) (numEpochsFixed : Int := 1) : Int :=
  match c.fixedRandomSeed with
  | some s => s
  | none =>
    let P := orOne c.partitionEpoch
    let seed : Int := epochOrOne epoch
    let seed := if P > 1 then (seed - 1) / (P : Int) + 1 else seed
    let seed := if numEpochsFixed > 1 then (seed - 1) / numEpochsFixed + 1 else seed
    seed + c.randomSeedOffset

/-- `numpy.argsort(keys, kind="stable")` (basic.py 569, 632). -/
def argsortStable (keys : List Int) : List Nat :=
  stableSort (fun i j => decide (keys.getD i 0 ≤ keys.getD j 0)) (List.range keys.length)

/-- A sequence order: the indices, and whether numpy holds them with an integer dtype
(a float dtype makes a later use as list index raise `TypeError`). -/
structure Order where
  idxs : List Nat
  isInt : Bool
deriving DecidableEq, Repr

/-- basic.py 590-596 and 611-617: the number of bins. -/
def numBins (b : Bins) (numSeqs : Nat) : Res Int :=
  match b with
  | .absent => .ok 2
  | .approx c => if c = 0 then .error .zeroDivision else .ok (max (Int.fdiv numSeqs c) 2)
  | .count b => .ok b

/-- basic.py 555-562 `default_every_n`. `seq_index[i::num] += i * (n // num)` adds `(p % num) * (n // num)` at
position `p`. `num <= 0` raises (`ZeroDivisionError` for 0, `ValueError` from `repeat` for negative counts). -/
def defaultEveryN (num : Int) (n : Nat) : Res (List Nat) :=
  if num = 0 then .error .zeroDivision
  else if num < 0 then .error .valueError
  else
    let k := num.toNat
    let q := n / k
    .ok (((List.range q).flatMap (fun v => List.replicate k v)).mapIdx (fun p v => v + (p % k) * q))

/-- basic.py 599-606: one part of `sort_bin_shuffle`; the `k`-th bin in the shuffled bin order is bin `i`. -/
def sortBinPart (rng : Rng) (seed : Int) (x2 : Bool) (bins : Nat) (seqIndex : List Nat) (k i : Nat) : List Nat :=
  let m := seqIndex.length
  let part := if i = bins - 1 then seqIndex.drop (i * m / bins) else slice seqIndex (i * m / bins) ((i + 1) * m / bins)
  if x2 then rng.shuffle seed (k + 2) part else part

/-- basic.py 577-607 `sort_bin_shuffle` and `sort_bin_shuffle_x2`. The parts are Python lists, so if one of them is
empty, `numpy.concatenate` gives a float array. `bins <= 0`: `permutation` or `concatenate` raise `ValueError`. -/
def sortBinShuffle (rng : Rng) (seed : Int) (x2 : Bool) (b : Bins) (n : Nat) (len : Nat → Int) : Res Order := do
  let seqIndex := stableSort (fun i j => decide (len i ≤ len j)) (rng.perm seed 0 n)
  let bins ← numBins b n
  if bins ≤ 0 then .error .valueError
  else
    let bins := bins.toNat
    let binIds := rng.perm seed 1 bins
    let parts := binIds.mapIdx (fun k i => sortBinPart rng seed x2 bins seqIndex k i)
    .ok { idxs := parts.flatten, isInt := parts.all (fun p => !p.isEmpty) }

/-- basic.py 628-633: one part of `laplace`. -/
def laplacePart (bins : Nat) (seqIndex : List Nat) (len : Nat → Int) (i : Nat) : List Nat :=
  let m := seqIndex.length
  let part := slice seqIndex (i * m / bins) ((i + 1) * m / bins)
  let lens := part.map len
  let lens := if i % 2 = 1 then lens.map (fun x => -x) else lens
  (argsortStable lens).filterMap (fun j => part[j]?)

/-- basic.py 608-635 `laplace`. The parts are integer arrays. `bins <= 0`: `concatenate` of nothing raises. -/
def laplace (rng : Rng) (seed : Int) (b : Bins) (n : Nat) (len : Nat → Int) : Res Order := do
  let bins ← numBins b n
  let seqIndex := rng.perm seed 0 n
  if bins ≤ 0 then .error .valueError
  else
    let bins := bins.toNat
    .ok { idxs := (List.range bins).flatMap (laplacePart bins seqIndex len), isInt := true }

/-- basic.py 553-637: the order before the post-processing options. `len = none` is a missing `get_seq_len`. -/
def baseOrder {Tag : Type} (c : Cfg Tag) (rng : Rng) (epoch : Int) (n : Nat) (len : Option (Nat → Int)) :
    Res Order :=
  match c.ordering with
  | .default => .ok ⟨List.range n, true⟩
  | .defaultEveryN num => do
      let l ← defaultEveryN num n
      .ok ⟨l, true⟩
  | .reverse => .ok ⟨(List.range n).map (fun i => n - 1 - i), true⟩
  | .sorted =>
    match len with
    | none => .error .assertion
    | some len => .ok ⟨argsortStable ((List.range n).map len), true⟩
  | .sortedReverse =>
    match len with
    | none => .error .assertion
    | some len => .ok ⟨argsortStable ((List.range n).map (fun i => -1 * len i)), true⟩
  | .random nth => .ok ⟨rng.perm (getRandomSeedForEpoch c (some epoch) nth) 0 n, true⟩
  | .sortBinShuffle x2 b nth =>
    match len with
    | none => .error .assertion
    | some len => sortBinShuffle rng (getRandomSeedForEpoch c (some epoch) nth) x2 b n len
  | .laplace b nth =>
    match len with
    | none => .error .assertion
    | some len => laplace rng (getRandomSeedForEpoch c (some epoch) nth) b n len

/-- basic.py 698: cumulative sum by `functools.reduce`. -/
def cumSum (sizes : List Nat) : List Nat :=
  sizes.foldl (fun a x => a ++ [a.getLastD 0 + x]) [0]

/-- basic.py 672-703 `_apply_partition_epoch_and_sharding`, with its asserts.
`P = 0` would be a `ZeroDivisionError`; callers pass `P >= 1`. -/
def applyPartition {α : Type} (seqIndex : List α) (P : Nat) (epoch : Option Int) (S sh : Nat) : Res (List α) := do
  pyAssert (decide (sh < S))
  if P = 0 then .error .zeroDivision
  else
    let n := seqIndex.length
    let numPartitions := P * S
    let e : Int := epochOrOne epoch
    let cur := ((e - 1) % (P : Int)).toNat * S + sh
    let per := n / numPartitions
    let sizes := List.replicate (n % numPartitions) (per + 1) ++ List.replicate (numPartitions - n % numPartitions) per
    pyAssert (decide (sizes.sum = n ∧ sizes.length = numPartitions))
    let partitions := cumSum sizes
    pyAssert (decide (partitions.length = numPartitions + 1))
    let a ← getItem partitions cur
    let b ← getItem partitions (cur + 1)
    let res := slice seqIndex a b
    let sz ← getItem sizes cur
    pyAssert (decide (res.length = sz))
    .ok res

/-- basic.py 642-645: keep an index if its tag was not used before. Fails if an index is not a valid list index. -/
def uniqueTags {Tag : Type} [DecidableEq Tag] (tags : List Tag) : List Tag → List Nat → Res (List Nat)
  | _, [] => .ok []
  | used, i :: rest => do
    let t ← getItem tags i
    let r ← uniqueTags tags (t :: used) rest
    .ok (if t ∈ used then r else i :: r)

/-- basic.py 662: keep an index if its tag is in the filter. -/
def filterTags {Tag : Type} [DecidableEq Tag] (tags flt : List Tag) : List Nat → Res (List Nat)
  | [] => .ok []
  | i :: rest => do
    let t ← getItem tags i
    let r ← filterTags tags flt rest
    .ok (if t ∈ flt then i :: r else r)

/-- basic.py 639-645: `unique_seq_tags`. Float indices raise `TypeError`. -/
def uniqueStage {Tag : Type} [DecidableEq Tag] (c : Cfg Tag) (o : Order) : Res (List Nat) :=
  if c.uniqueSeqTags then
    (if o.isInt then uniqueTags c.allTags [] o.idxs else .error .typeError)
  else .ok o.idxs

/-- basic.py 646-649: partitioning and sharding. -/
def partitionStage {Tag : Type} (c : Cfg Tag) (epoch : Int) (l : List Nat) : Res (List Nat) :=
  if orOne c.partitionEpoch > 1 ∨ c.numShards > 1 then
    applyPartition l (orOne c.partitionEpoch) (some epoch) c.numShards c.shardIndex
  else .ok l

/-- basic.py 650-651: `repeat_epoch`. -/
def repeatStage {Tag : Type} (c : Cfg Tag) (l : List Nat) : List Nat :=
  if orOne c.repeatEpoch > 1 then (List.replicate (orOne c.repeatEpoch) l).flatten else l

/-- basic.py 652-669: `seq_tags_filter`. Float indices raise `TypeError`. -/
def filterStage {Tag : Type} [DecidableEq Tag] (c : Cfg Tag) (n : Nat) (isInt : Bool) (l : List Nat) :
    Res (List Nat) :=
  match c.seqTagsFilter with
  | none => .ok l
  | some flt => do
    pyAssert (!l.isEmpty)
    pyAssert (decide (c.allTags.length = n ∧ n = c.totalNumSeqs))
    if isInt then
      let l ← filterTags c.allTags flt l
      pyAssert (!l.isEmpty)
      .ok l
    else .error .typeError

/-- basic.py 639-670: the post-processing options, in the order of the code. -/
def postprocess {Tag : Type} [DecidableEq Tag] (c : Cfg Tag) (epoch : Int) (n : Nat) (o : Order) : Res Order := do
  let l ← uniqueStage c o
  let l ← partitionStage c epoch l
  let l ← filterStage c n o.isInt (repeatStage c l)
  .ok ⟨l, o.isInt⟩

/-- basic.py 511-670 `get_seq_order_for_epoch`. -/
def getSeqOrderForEpoch {Tag : Type} [DecidableEq Tag] (c : Cfg Tag) (rng : Rng) (epoch : Option Int) (n : Nat)
    (len : Option (Nat → Int)) : Res Order :=
  match epoch with
  | none => .ok ⟨[], true⟩
  | some e => do
    pyAssert (decide (n > 0))
    let o ← baseOrder c rng e n len
    postprocess c e n o

end Verif.SeqOrder
