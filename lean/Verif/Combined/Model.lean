import Verif.SeqOrder.Model
/-
Model of `CombinedDataset` in `returnn/datasets/meta.py`.

Simplifications: a sub-dataset is the list of its sequences in the current epoch (a sequence is its corpus index), and
`is_less_than_num_seqs(n)` of it is `n < num_seqs`; of its loading window, only the check of the start is kept
(`CachedDataset2._load_seqs`). The data keys (`_get_data`) are left out. Sub-datasets are numbered as in
`dataset_idx2key_map`. Python ints are natural numbers where they cannot be negative.
-/
namespace Verif.Combined
open Verif.Py

/-- The state between calls. -/
structure State (α : Type) where
  /-- `dataset_sorted_seq_idx_list` -/
  sorted : List (Nat × Nat)
  /-- the sub-datasets: their current sequences -/
  subs : List (List α)
  /-- `used_num_seqs_per_subset` -/
  used : List Nat
  /-- `estimated_num_seq_per_subset` -/
  est : List Int
  /-- `expected_load_seq_start` of the sub-datasets -/
  expected : List Nat
  /-- `expected_load_seq_start` -/
  start : Nat := 0
deriving DecidableEq

/-- meta.py:1107-1122 `_create_dataset_seq_idx_boundaries`. -/
def boundaries (sizes : List Nat) : List Nat := sizes.foldl (fun acc n => acc ++ [n + acc.getLastD 0]) [0]

/-- meta.py:1133-1135: the loop; the list is `dataset_seq_idx_boundaries[dataset_idx + 1 :]`. -/
def walk (seqIdx : Nat) : List Nat → Nat → Res Nat
  | [], _ => .error .indexError
  | b :: rest, d => if b ≤ seqIdx then walk seqIdx rest (d + 1) else .ok d

/-- meta.py:1124-1139 `_seq_idx_to_dataset_seq_idx`. -/
def locate (bounds : List Nat) (seqIdx : Nat) : Res (Nat × Nat) := do
  pyAssert (decide (seqIdx < bounds.getLastD 0))
  let d ← walk seqIdx bounds.tail 0
  let b ← getItem bounds d
  .ok (d, seqIdx - b)

/-- meta.py:1074-1080: the new index of every sequence. -/
def buildSorted (bounds : List Nat) : List Nat → List Nat → Res (List (Nat × Nat))
  | [], _ => .ok []
  | i :: order, counters => do
    let p ← locate bounds i
    let k ← getItem counters p.1
    let rest ← buildSorted bounds order (counters.set p.1 (k + 1))
    .ok ((p.1, k) :: rest)

/-- meta.py:1084-1089: the new orders of the sub-datasets, as corpus indices. -/
def buildSub {α : Type} (first : List (List α)) (bounds : List Nat) : List Nat → List (List α) → Res (List (List α))
  | [], acc => .ok acc
  | i :: order, acc => do
    let p ← locate bounds i
    let o ← getItem first p.1
    let c ← getItem o p.2
    let row ← getItem acc p.1
    buildSub first bounds order (acc.set p.1 (row ++ [c]))

/-- meta.py:1059-1099: the number of sequences is known. `first` are the orders of the sub-datasets after their own
`init_seq_order`, `order` is the joint order. -/
def initKnown {α : Type} (first : List (List α)) (est : List Int) (order : List Nat) : Res (State α) := do
  let bounds := boundaries (first.map List.length)
  let sorted ← buildSorted bounds order (List.replicate first.length 0)
  let subs ← buildSub first bounds order (List.replicate first.length [])
  .ok { sorted := sorted, subs := subs, used := subs.map List.length, est := est,
        expected := List.replicate first.length 0 }

/-- meta.py:1101-1103: the number of sequences is not known. -/
def initUnknown {α : Type} (first : List (List α)) (est : List Int) : State α :=
  { sorted := [], subs := first, used := List.replicate first.length 0, est := est,
    expected := List.replicate first.length 0 }

/-- meta.py:1035-1044: `init_seq_order` for the current epoch again: only the own window is reset. -/
def reinitSame {α : Type} (s : State α) : State α := { s with start := 0 }

/-- meta.py:1161-1164: the order from the shuffled datasets. -/
def randomOrder (bounds : List Nat) : List Nat → List Nat → Res (List Nat × List Nat)
  | [], counters => .ok ([], counters)
  | d :: ids, counters => do
    let k ← getItem counters d
    let b ← getItem bounds d
    let r ← randomOrder bounds ids (counters.set d (k + 1))
    .ok ((k + b) :: r.1, r.2)

/-- meta.py:1141-1175 `_get_random_dataset_seq_order`. -/
def randomDatasetOrder (sizes : List Nat) (shuffle : List Nat → List Nat) (P : Nat) (epoch : Option Int) (S sh : Nat)
    (rep : Nat) : Res (List Nat) := do
  let bounds := boundaries sizes
  let ids ← (List.range sizes.sum).mapM (fun i => (locate bounds i).map Prod.fst)
  let r ← randomOrder bounds (shuffle ids) (List.replicate sizes.length 0)
  pyAssert (decide (r.2.sum = sizes.sum))
  let o ← SeqOrder.applyPartition r.1 P epoch S sh
  .ok (List.replicate rep o).flatten

/-- meta.py:1203-1214: the sequences of one sub-dataset (`n` sequences, first index `b`) in an epoch. -/
def samplingRange (epoch : Nat) (size n b : Nat) : Res (List Nat) :=
  if n = 0 then .error .zeroDivision
  else
    let offset := ((epoch - 1) * size) % n
    .ok ((List.range' offset size).map (fun j => j % n + b))

/-- meta.py:1200-1218: the sequences of all sub-datasets; the argument are the pairs of sampling size and number of
sequences. -/
def samplingAll (epoch : Nat) (bounds : List Nat) : List (Nat × Nat) → Nat → Res (List Nat)
  | [], _ => .ok []
  | (size, n) :: rest, d => do
    let b ← getItem bounds d
    let r ← samplingRange epoch size n b
    let rs ← samplingAll epoch bounds rest (d + 1)
    .ok (r ++ rs)

/-- meta.py:1177-1230 `_get_sampling_seq_order`. `extra` is the sum of the sizes for keys which are not sub-datasets (the
zeros at the end), `remap` the order of the sample. -/
def samplingOrder (epoch : Nat) (cfg : List (Nat × Nat)) (extra : Nat) (remap : List Nat) : Res (List Nat) := do
  let l ← samplingAll epoch (boundaries (cfg.map Prod.snd)) cfg 0
  let l := l ++ List.replicate extra 0
  remap.mapM (getItem l)

/-- The `seq_ordering`. -/
inductive Ordering where
  | default
  | reversed
  | randomDataset
  | other
deriving DecidableEq

/-- `self.datasets[..].is_less_than_num_seqs(self.used_num_seqs_per_subset[d])` -/
def hasMore {α : Type} (s : State α) (d : Nat) : Bool :=
  match s.used[d]?, s.subs[d]? with
  | some u, some o => decide (u < o.length)
  | _, _ => false

/-- meta.py:1274-1277: `expected_remaining_seqs`. -/
def remaining {α : Type} (s : State α) : List Int := List.zipWith (fun (e : Int) (u : Nat) => e - (u : Int)) s.est s.used

/-- meta.py:1271-1299: the loop for `random_dataset`. `choose` is `numpy.random.choice` from the given candidates;
probabilities below zero are a `ValueError` of numpy. The fuel is the number of iterations. -/
def randomPick {α : Type} (choose : State α → List Nat → Nat) : Nat → State α → Res (Option Nat) × State α
  | 0, s => (.error (.other "endless loop"), s)
  | fuel + 1, s =>
    if (remaining s).sum ≤ 0 then
      let cands := (List.range s.subs.length).filter (hasMore s)
      if cands = [] then (.ok none, s)
      else
        let d := choose s cands
        (.ok (some d), { s with est := s.est.set d (s.est.getD d 0 + 1) })
    else if (remaining s).any (fun r => decide (r < 0)) then (.error .valueError, s)
    else
      let d := choose s ((List.range s.subs.length).filter (fun d => decide (0 < (remaining s).getD d 0)))
      if hasMore s d then (.ok (some d), s)
      else randomPick choose fuel { s with est := s.est.set d ((s.used.getD d 0 : Nat) : Int) }

/-- meta.py:1249-1319: the sub-dataset of the next sequence. -/
def pick {α : Type} (choose : State α → List Nat → Nat) (ord : Ordering) (s : State α) : Res (Option Nat) × State α :=
  match ord with
  | .default => (.ok ((List.range s.subs.length).find? (hasMore s)), s)
  | .reversed => (.ok ((List.range s.subs.length).reverse.find? (hasMore s)), s)
  | .randomDataset => randomPick choose (s.subs.length + 1) s
  | .other => if (List.range s.subs.length).any (hasMore s) then (.error (.other "Exception"), s) else (.ok none, s)

/-- meta.py:1322-1323: add a sequence of the sub-dataset. -/
def addSeq {α : Type} (s : State α) (d : Nat) : State α :=
  { s with sorted := s.sorted ++ [(d, s.used.getD d 0)], used := s.used.set d (s.used.getD d 0 + 1) }

/-- meta.py:1242-1324 `_expand_dataset_sec_idxs`. -/
def expand {α : Type} (choose : State α → List Nat → Nat) (ord : Ordering) : Nat → State α → Res Bool × State α
  | 0, s => (.ok true, s)
  | k + 1, s =>
    match pick choose ord s with
    | (.error e, s) => (.error e, s)
    | (.ok none, s) => (.ok false, s)
    | (.ok (some d), s) => expand choose ord k (addSeq s d)

/-- meta.py:1372-1380 `is_less_than_num_seqs`. -/
def isLess {α : Type} (choose : State α → List Nat → Nat) (ord : Ordering) (s : State α) (n : Nat) : Res Bool × State α :=
  if n < s.sorted.length then (.ok true, s) else expand choose ord (n - s.sorted.length + 1) s

/-- meta.py:1331-1338: the window of a sub-dataset for the sequences `start` to `end`. -/
def subWindow {α : Type} (s : State α) (start fin : Nat) (d : Nat) : Option (Nat × Nat) :=
  match ((slice s.sorted start fin).filter (fun p => decide (p.1 = d))).map Prod.snd with
  | [] => none
  | a :: l => some (l.foldl min a, l.foldl max a + 1)

/-- meta.py:1333-1339: load the sub-datasets, one after the other; cached2.py:115-119 checks and moves their start. -/
def loadSubs {α : Type} (s : State α) (start fin : Nat) : List Nat → List Nat → Res (List Nat)
  | [], expected => .ok expected
  | d :: ds, expected =>
    match subWindow s start fin d with
    | none => loadSubs s start fin ds expected
    | some w => do
      let e ← getItem expected d
      pyAssert (decide (e ≤ w.1))
      loadSubs s start fin ds (expected.set d w.1)

/-- meta.py:1326-1340 `_load_seqs`, with the check and move of the own start (cached2.py:115-119). -/
def loadSeqs {α : Type} (choose : State α → List Nat → Nat) (ord : Ordering) (s : State α) (start fin : Nat) :
    Res Unit × State α :=
  let r := if s.sorted.length < fin then expand choose ord (fin - s.sorted.length) s else (.ok true, s)
  match r with
  | (.error e, s) => (.error e, s)
  | (.ok _, s) =>
    match loadSubs s start fin (List.range s.subs.length) s.expected with
    | .error e => (.error e, s)
    | .ok expected =>
      if s.start ≤ start then (.ok (), { s with expected := expected, start := start })
      else (.error .assertion, { s with expected := expected })

/-- meta.py:1356-1370 `_collect_single_seq`, for an index in the list: the sub-dataset, and its sequence. -/
def collect {α : Type} (s : State α) (i : Nat) : Res (Nat × α) := do
  let p ← getItem s.sorted i
  let o ← getItem s.subs p.1
  let x ← getItem o p.2
  .ok (p.1, x)

end Verif.Combined
