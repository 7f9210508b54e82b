import Verif.Util.Dict
/-
Model of the path of sequences through `Engine.forward_with_callback` (`returnn/torch/engine.py` 1175-1362) with the torch
backend: `collate_batch` (`returnn/torch/data/pipeline.py` 55-86), `QueuedDataIter`
(`returnn/torch/data/queued_data_iter.py`), `raw_dict_to_extern_data`, `raw_dict_can_split_batch`, `raw_dict_split_batch`
(`returnn/torch/data/extern_data.py` 28-169).

Devices, dtypes and feature axes are not modelled (a frame is an element of `α`).  The model is the identity: what the
callback gets for a sequence are the data of the batch, so that it is seen whether every sequence gets its own.
-/
namespace Verif.ForwardSplit

open Verif.Py

/-- An entry of a sample: a sequence of frames, or a single value (0-d array). -/
inductive Sample (α : Type) where
  | seq (xs : List α)
  | num (x : α)
deriving DecidableEq, Repr

/-- An entry of a batch: shape `[B, T]`, `[B]`, `[B]` (the lengths), or 0-d. -/
inductive Val (α : Type) where
  | mat (rows : List (List α))
  | vec (xs : List α)
  | lens (ls : List Nat)
  | scalar (x : α)
deriving DecidableEq, Repr

abbrev Batch (α : Type) := Dict String (Val α)

/-- The name of the entry with the lengths (pipeline.py 79). -/
def lenKey (k : String) : String := k ++ ":seq_len"

/-! ### `collate_batch` -/

/-- `torch.nn.utils.rnn.pad_sequence`. -/
def padTo {α : Type} (zero : α) (n : Nat) (xs : List α) : List α := xs ++ List.replicate (n - xs.length) zero

def maxLen (ls : List Nat) : Nat := ls.foldl max 0

/-- The sequences of one key; torch raises if some are sequences and some are not. -/
def seqs {α : Type} : List (Sample α) → Res (List (List α))
  | [] => .ok []
  | .seq xs :: r =>
    match seqs r with
    | .error e => .error e
    | .ok ys => .ok (xs :: ys)
  | .num _ :: _ => .error .valueError

/-- The single values of one key. -/
def nums {α : Type} : List (Sample α) → Res (List α)
  | [] => .ok []
  | .num x :: r =>
    match nums r with
    | .error e => .error e
    | .ok ys => .ok (x :: ys)
  | .seq _ :: _ => .error .valueError

/-- `[sample[key] for sample in batch]` (pipeline.py 72). -/
def column {α : Type} (key : String) : List (Dict String (Sample α)) → Res (List (Sample α))
  | [] => .ok []
  | s :: r =>
    match s.getItem key with
    | .error e => .error e
    | .ok x =>
      match column key r with
      | .error e => .error e
      | .ok xs => .ok (x :: xs)

/-- `max` of 0-d arrays (pipeline.py 70). -/
def maxOf {α : Type} (le : α → α → Bool) : List α → Res α
  | [] => .error .valueError
  | x :: r => .ok (r.foldl (fun a b => if le b a then a else b) x)

/-- One key of the batch (pipeline.py 65-84). -/
def collateKey {α : Type} (zero : α) (le : α → α → Bool) (batch : List (Dict String (Sample α))) (res : Batch α)
    (key : String) : Res (Batch α) :=
  match column key batch with
  | .error e => .error e
  | .ok col =>
    if key = "num_seqs" ∨ key = "epoch" then
      match col with
      | .num x :: _ => .ok (res.set key (.scalar x))
      | _ => .error .typeError
    else if key = "complete_frac" then
      match nums col with
      | .error e => .error e
      | .ok xs =>
        match maxOf le xs with
        | .error e => .error e
        | .ok x => .ok (res.set key (.scalar x))
    else
      match col with
      | .seq _ :: _ =>
        match seqs col with
        | .error e => .error e
        | .ok xs =>
          let ls := xs.map List.length
          .ok ((res.set key (.mat (xs.map (padTo zero (maxLen ls))))).set (lenKey key) (.lens ls))
      | .num _ :: _ =>
        match nums col with
        | .error e => .error e
        | .ok xs => .ok (res.set key (.vec xs))
      | [] => .error .valueError

/-- The loop over the keys. -/
def collateKeys {α : Type} (zero : α) (le : α → α → Bool) (batch : List (Dict String (Sample α))) :
    List String → Batch α → Res (Batch α)
  | [], res => .ok res
  | k :: r, res =>
    match collateKey zero le batch res k with
    | .error e => .error e
    | .ok res' => collateKeys zero le batch r res'

/-- `collate_batch` (pipeline.py 55-86). -/
def collate {α : Type} (zero : α) (le : α → α → Bool) (batch : List (Dict String (Sample α))) : Res (Batch α) :=
  match batch with
  | [] => .error .assertion
  | s :: _ => collateKeys zero le batch s.keys []

/-! ### Splitting a batch -/

/-- `v.shape[0]`. -/
def shape0 {α : Type} : Val α → Res Nat
  | .mat rows => .ok rows.length
  | .vec xs => .ok xs.length
  | .lens ls => .ok ls.length
  | .scalar _ => .error .indexError

/-- The batch size from the first entry (extern_data.py 110-112, 126-128). -/
def batchSize {α : Type} (b : Batch α) : Res Nat :=
  match b with
  | [] => .error (.other "StopIteration")
  | (_, v) :: _ => shape0 v

/-- `raw_dict_can_split_batch` (extern_data.py 99-113). -/
def canSplit {α : Type} (b : Batch α) (numSplits : Nat) : Res Bool :=
  match batchSize b with
  | .error e => .error e
  | .ok n => .ok (decide (numSplits ≤ n))

/-- The loop of `_make_split_seq_from_num_splits` (extern_data.py 154-157): the sizes and the remaining. -/
def splitLoop (size : Nat) : Nat → Nat → List Nat × Nat
  | 0, remaining => ([], remaining)
  | k + 1, remaining =>
    let r := min remaining size
    let t := splitLoop size k (remaining - r)
    (r :: t.1, t.2)

/-- `_make_split_seq_from_num_splits` (extern_data.py 149-159). -/
def makeSplits (num total : Nat) : Res (List Nat) :=
  if num ≤ total then
    if num = 0 then .error .zeroDivision
    else
      let t := splitLoop (-(Int.fdiv (-(total : Int)) num)).toNat num total
      if t.2 = 0 ∧ t.1.length = num ∧ t.1.sum = total then .ok t.1 else .error .assertion
  else .error .assertion

/-- `v[offset : offset + size]`. -/
def sliceVal {α : Type} (v : Val α) (offset size : Nat) : Res (Val α) :=
  match v with
  | .mat rows => .ok (.mat (slice rows offset (offset + size)))
  | .vec xs => .ok (.vec (slice xs offset (offset + size)))
  | .lens ls => .ok (.lens (slice ls offset (offset + size)))
  | .scalar _ => .error .indexError

/-- One piece: all entries cut (extern_data.py 133-139).  The code has the loops the other way round; the pieces do not
depend on each other. -/
def piece {α : Type} (offset size : Nat) : Batch α → Res (Batch α)
  | [] => .ok []
  | (k, v) :: r =>
    match sliceVal v offset size with
    | .error e => .error e
    | .ok v' =>
      match piece offset size r with
      | .error e => .error e
      | .ok r' => .ok ((k, v') :: r')

/-- All pieces (extern_data.py 131-139). -/
def pieces {α : Type} (b : Batch α) : List Nat → Nat → Res (List (Batch α))
  | [], _ => .ok []
  | s :: r, offset =>
    match piece offset s b with
    | .error e => .error e
    | .ok p =>
      match pieces b r (offset + s) with
      | .error e => .error e
      | .ok ps => .ok (p :: ps)

/-- `v[:, :max(seq_len)]` if there are lengths (extern_data.py 142-146); the maximum of no number is an error. -/
def trimVal {α : Type} (d : Batch α) (k : String) (v : Val α) : Res (Val α) :=
  match d.get? (lenKey k) with
  | none => .ok v
  | some (.lens ls) =>
    if ls = [] then .error (.other "RuntimeError")
    else
      match v with
      | .mat rows => .ok (.mat (rows.map (List.take (maxLen ls))))
      | _ => .error .indexError
  | some _ => .error .typeError

/-- The loop over the entries of a piece (extern_data.py 142-146).  `d`: the piece; entries of lengths are not changed, so
reading from the original piece is the same. -/
def trimLoop {α : Type} (d : Batch α) : Batch α → Res (Batch α)
  | [] => .ok []
  | (k, v) :: r =>
    match trimVal d k v with
    | .error e => .error e
    | .ok v' =>
      match trimLoop d r with
      | .error e => .error e
      | .ok r' => .ok ((k, v') :: r')

def trimAll {α : Type} : List (Batch α) → Res (List (Batch α))
  | [] => .ok []
  | d :: r =>
    match trimLoop d d with
    | .error e => .error e
    | .ok d' =>
      match trimAll r with
      | .error e => .error e
      | .ok r' => .ok (d' :: r')

/-- `raw_dict_split_batch` for a list of sizes (extern_data.py 128-147). -/
def splitSizes {α : Type} (b : Batch α) (splits : List Nat) : Res (List (Batch α)) :=
  match batchSize b with
  | .error e => .error e
  | .ok n =>
    if splits.sum = n then
      match pieces b splits 0 with
      | .error e => .error e
      | .ok ps => trimAll ps
    else .error .assertion

/-- `raw_dict_split_batch` for a number of splits (extern_data.py 116-147). -/
def splitBatch {α : Type} (b : Batch α) (numSplits : Nat) : Res (List (Batch α)) :=
  match batchSize b with
  | .error e => .error e
  | .ok n =>
    match makeSplits numSplits n with
    | .error e => .error e
    | .ok splits => splitSizes b splits

/-! ### The iterator with the queue -/

/-- `QueuedDataIter` (queued_data_iter.py). -/
structure QIter (β : Type) where
  iter : List β
  queue : List β

/-- `extend` (queued_data_iter.py 21-26). -/
def QIter.extend {β : Type} (q : QIter β) (items : List β) : QIter β := { q with queue := q.queue ++ items.reverse }

/-- `__next__` (queued_data_iter.py 31-34). -/
def QIter.next {β : Type} (q : QIter β) : Option (β × QIter β) :=
  match q.queue.getLast? with
  | some x => some (x, { q with queue := q.queue.dropLast })
  | none =>
    match q.iter with
    | [] => none
    | x :: r => some (x, { q with iter := r })

/-! ### The forward loop -/

/-- An entry of `extern_data`: dims `[batch]` (`none`) or `[batch, time]`, the time dim given by a number. -/
structure Entry where
  key : String
  dim : Option Nat
deriving DecidableEq, Repr

/-- Batch size and sizes of the dynamic dims, which the first entry with the dim sets (extern_data.py 51-94). -/
abbrev Sizes := Option Nat × Dict Nat (List Nat)

/-- One entry (extern_data.py 57-94). -/
def addEntry {α : Type} (b : Batch α) (st : Sizes) (e : Entry) : Res Sizes :=
  match b.get? e.key with
  | none => .error .keyError
  | some v =>
    match e.dim, v with
    | none, .vec xs => .ok (st.1 <|> some xs.length, st.2)
    | some d, .mat rows =>
      if st.2.contains d then .ok (st.1 <|> some rows.length, st.2)
      else
        match b.get? (lenKey e.key) with
        | some (.lens ls) => .ok (st.1 <|> some rows.length, st.2.set d ls)
        | _ => .error .assertion
    | _, _ => .error .assertion

/-- `raw_dict_to_extern_data` (extern_data.py 28-96): the sizes. -/
def externSizes {α : Type} (b : Batch α) : List Entry → Sizes → Res Sizes
  | [], st => .ok st
  | e :: r, st =>
    match addEntry b st e with
    | .error x => .error x
    | .ok st' => externSizes b r st'

/-- One output of one sequence without the padding (engine.py 1241-1277). -/
def seqOut {α : Type} (b : Batch α) (sizes : Dict Nat (List Nat)) (i : Nat) (e : Entry) : Res (Sample α) :=
  match e.dim, b.get? e.key with
  | none, some (.vec xs) =>
    match getItem xs i with
    | .error x => .error x
    | .ok y => .ok (.num y)
  | some d, some (.mat rows) =>
    match getItem rows i, sizes.getItem d with
    | .ok row, .ok ls =>
      match getItem ls i with
      | .error x => .error x
      | .ok n => .ok (.seq (row.take n))
    | .error x, _ => .error x
    | _, .error x => .error x
  | _, _ => .error .assertion

/-- Everything the callback gets for one sequence (engine.py 1335-1338). -/
def seqOuts {α : Type} (b : Batch α) (sizes : Dict Nat (List Nat)) (i : Nat) : List Entry → Res (Dict String (Sample α))
  | [] => .ok []
  | e :: r =>
    match seqOut b sizes i e with
    | .error x => .error x
    | .ok y =>
      match seqOuts b sizes i r with
      | .error x => .error x
      | .ok ys => .ok ((e.key, y) :: ys)

/-- The loop over the batch (engine.py 1333-1338). -/
def processLoop {α : Type} (tmpl : List Entry) (b : Batch α) (sizes : Dict Nat (List Nat)) :
    List Nat → Res (List (Dict String (Sample α)))
  | [] => .ok []
  | i :: r =>
    match seqOuts b sizes i tmpl with
    | .error x => .error x
    | .ok y =>
      match processLoop tmpl b sizes r with
      | .error x => .error x
      | .ok ys => .ok (y :: ys)

/-- `float(v)`, `int(v)`: only for a single element. -/
def asNumber {α : Type} : Option (Val α) → Res Unit
  | none => .error .keyError
  | some (.scalar _) => .ok ()
  | some (.vec [_]) => .ok ()
  | some (.lens [_]) => .ok ()
  | some (.mat [[_]]) => .ok ()
  | some _ => .error .typeError

/-- What is read of a batch at the start of the step (engine.py 1300-1301). -/
def header {α : Type} (b : Batch α) : Res Unit :=
  match asNumber (b.get? "complete_frac") with
  | .error e => .error e
  | .ok () => asNumber (b.get? "num_seqs")

/-- What happens to a batch when the step runs out of memory (engine.py 1312-1324). -/
def onOom {α : Type} (auto : Bool) (b : Batch α) : Res (List (Batch α)) :=
  if auto then
    match canSplit b 2 with
    | .error e => .error e
    | .ok true => splitBatch b 2
    | .ok false => .error (.other "OutOfMemoryError")
  else .error (.other "OutOfMemoryError")

/-- The loop of `forward_with_callback` (engine.py 1297-1354).  `oom t`: whether the `t`-th step runs out of memory.
`fuel`: bound on the number of steps. -/
def forward {α : Type} (tmpl : List Entry) (auto : Bool) (oom : Nat → Bool) : Nat → Nat → QIter (Batch α) →
    List (Dict String (Sample α)) → Res (List (Dict String (Sample α)))
  | 0, _, _, _ => .error (.other "fuel")
  | fuel + 1, t, q, out =>
    match q.next with
    | none => .ok out
    | some (b, q') =>
      match header b with
      | .error e => .error e
      | .ok () =>
        match externSizes b tmpl (none, []) with
        | .error e => .error e
        | .ok (n, sizes) =>
          if oom t then
            match onOom auto b with
            | .error e => .error e
            | .ok ps => forward tmpl auto oom fuel (t + 1) (q'.extend ps) out
          else
            match processLoop tmpl b sizes (List.range (n.getD 0)) with
            | .error e => .error e
            | .ok ys => forward tmpl auto oom fuel (t + 1) q' (out ++ ys)

end Verif.ForwardSplit
