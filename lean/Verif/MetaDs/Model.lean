import Verif.Util.Py
/-
Model of `MetaDataset` in `returnn/datasets/meta.py`.

Simplifications: the sub-datasets are numbered. A sub-dataset is the list of its current sequences (tag and data) together
with the start of its loading window (`CachedDataset2`); what `init_seq_order` of a sub-dataset gives is an arbitrary
function. A sequence has one data value per sub-dataset (`data_map` is left out). Indices are natural numbers.
-/
namespace Verif.MetaDs
open Verif.Py

/-- A sub-dataset: the sequences of the epoch, and `expected_load_seq_start`. -/
structure Sub (T D : Type) where
  cur : List (T × D)
  start : Nat

/-- A loaded sequence (`DatasetSeq`): index, tag, data per sub-dataset. -/
structure Seq (T D : Type) where
  idx : Nat
  tag : T
  data : List D

structure State (T D : Type) where
  /-- `epoch` -/
  epoch : Option Int := none
  /-- `seq_list_ordered`, by sub-dataset -/
  ordered : Option (List (List T)) := none
  /-- `datasets` -/
  subs : List (Sub T D)
  /-- `expected_load_seq_start` -/
  start : Nat := 0
  /-- `added_data` -/
  added : List (Seq T D) := []
  /-- `_num_seqs` -/
  num : Option Nat := none

/-- What does not change. -/
structure Config (T D : Type) where
  /-- `seq_list_original`, by sub-dataset -/
  orig : List (List T)
  /-- `default_dataset_key` -/
  dflt : Nat
  /-- whether there is a `seq_order_control_dataset` (it is the default dataset then) -/
  control : Bool
  /-- sub-dataset, epoch, list of tags (if any) -> the sequences after `init_seq_order` -/
  react : Nat → Int → Option (List T) → List (T × D)
  /-- `get_current_seq_order` of the control dataset after `init_seq_order` for the epoch -/
  ctrlOrder : Int → List Nat
  /-- `get_seq_order_for_epoch` -/
  order : Int → Res (List Nat)

variable {T D : Type} [DecidableEq T]

/-- meta.py:261 `tag_idx`: the dict has the last index of a tag. -/
def tagIdx (l : List T) (t : T) : Res Nat :=
  match l.zipIdx.reverse.find? (fun p => decide (p.1 = t)) with
  | some p => .ok p.2
  | none => .error .keyError

/-- meta.py:394-401. -/
def needReinit (s : State T D) (epoch : Option Int) (seqList : Option (List T)) (seqOrder : Option (List Nat)) : Bool :=
  s.epoch.isNone || decide (s.epoch ≠ epoch) || s.ordered.isNone || seqList.isSome || seqOrder.isSome || decide (0 < s.start)

/-- cached2.py:55-61 (`super().init_seq_order`). -/
def reset (s : State T D) (epoch : Option Int) : State T D :=
  { s with epoch := epoch, start := 0, added := [], num := none }

/-- Whether the control dataset gives the order. -/
def byControl (c : Config T D) (seqList : Option (List T)) (seqOrder : Option (List Nat)) : Bool :=
  seqOrder.isNone && seqList.isNone && c.control

/-- meta.py:414-438 `seq_index`. -/
def seqIndex (c : Config T D) (e : Int) (seqList : Option (List T)) (seqOrder : Option (List Nat)) : Res (List Nat) :=
  match seqOrder, seqList with
  | some o, _ => .ok o
  | none, some l => l.mapM (tagIdx (c.orig.getD c.dflt []))
  | none, none => if c.control then .ok (c.ctrlOrder e) else c.order e

/-- meta.py:440 `seq_list_ordered`. -/
def orderLists (orig : List (List T)) (idx : List Nat) : Res (List (List T)) :=
  orig.mapM (fun ls => idx.mapM (getItem ls))

/-- meta.py:421: the control dataset is initialised before. -/
def initControl (c : Config T D) (e : Int) (seqList : Option (List T)) (seqOrder : Option (List Nat)) (s : State T D) :
    State T D :=
  if byControl c seqList seqOrder then
    { s with subs := s.subs.set c.dflt { cur := c.react c.dflt e none, start := 0 } }
  else s

/-- meta.py:442-446: the sub-datasets get their lists. -/
def initSubs (c : Config T D) (e : Int) (ctrl : Bool) (ordered : List (List T)) (subs : List (Sub T D)) : List (Sub T D) :=
  subs.mapIdx (fun d sub =>
    if ctrl && decide (d = c.dflt) then sub else { cur := c.react d e (some (ordered.getD d [])), start := 0 })

/-- meta.py:387-447 `init_seq_order`. The state after an exception is also given (`seq_list_ordered` unchanged). -/
def init (c : Config T D) (s : State T D) (epoch : Option Int) (seqList : Option (List T)) (seqOrder : Option (List Nat)) :
    Res Bool × State T D :=
  let need := needReinit s epoch seqList seqOrder
  let s := reset s epoch
  match epoch with
  | none => (.ok true, { s with num := some 0 })
  | some e =>
    if !need then (.ok false, { s with num := s.ordered.map (fun o => (o.getD c.dflt []).length) })
    else
      let s := initControl c e seqList seqOrder s
      match seqIndex c e seqList seqOrder with
      | .error err => (.error err, s)
      | .ok idx =>
        let s : State T D := { s with num := some idx.length }
        match orderLists c.orig idx with
        | .error err => (.error err, s)
        | .ok o => (.ok true, { s with ordered := some o, subs := initSubs c e (byControl c seqList seqOrder) o s.subs })

/-- cached2.py:205-212 `get_tag` of a sub-dataset: `_get_seq` gives `None` for a sequence which does not exist or is before
the window. -/
def Sub.get (b : Sub T D) (i : Nat) : Res (T × D) :=
  if i < b.start then .error (.other "AttributeError")
  else match b.cur[i]? with
    | some x => .ok x
    | none => .error (.other "AttributeError")

/-- meta.py:513-520 `_check_dataset_seq`. -/
def checkSeq (tags : List T) (b : Sub T D) (i : Nat) : Res Unit := do
  let x ← b.get i
  let t ← getItem tags i
  pyAssert (decide (x.1 = t))

/-- A loop of checks. -/
def checkAll (tags : List T) (b : Sub T D) : List Nat → Res Unit
  | [] => .ok ()
  | i :: is => do
    checkSeq tags b i
    checkAll tags b is

/-- meta.py:508-510: load in one sub-dataset and check. cached2.py:115-119: the window. -/
def loadSub (tags : List T) (b : Sub T D) (start fin : Nat) : Res (Sub T D) := do
  pyAssert (decide (b.start ≤ start))
  let b : Sub T D := { b with start := start }
  checkAll tags b (List.range' start (fin - start))
  .ok b

/-- meta.py:507-510: all sub-datasets (with their lists of tags). -/
def loadSubs (start fin : Nat) : List (Sub T D) → List (List T) → Res (List (Sub T D))
  | [], _ => .ok []
  | b :: bs, tags => do
    let b' ← loadSub (tags.headD []) b start fin
    let bs' ← loadSubs start fin bs tags.tail
    .ok (b' :: bs')

/-- meta.py:503-505: the first sequence which is not loaded. -/
def firstNew (s : State T D) (start : Nat) : Nat :=
  match s.added.getLast? with
  | some x => max (x.idx + 1) start
  | none => start

/-- meta.py:532-539 `_collect_single_seq`. -/
def collect (c : Config T D) (s : State T D) (i : Nat) : Res (Seq T D) := do
  let tag ← getItem ((s.ordered.getD []).getD c.dflt []) i
  let data ← s.subs.mapM (fun b => (b.get i).map Prod.snd)
  .ok { idx := i, tag := tag, data := data }

/-- meta.py:506-510. -/
def loadDatasets (s : State T D) (start fin : Nat) : Res (State T D) :=
  if firstNew s start < fin then do
    let subs ← loadSubs (firstNew s start) fin s.subs (s.ordered.getD [])
    .ok { s with subs := subs }
  else .ok s

/-- cached2.py:116-119: move the window. -/
def moveWindow (s : State T D) (start : Nat) : State T D :=
  if s.start < start then { s with added := s.added.dropWhile (fun x => decide (x.idx < start)), start := start } else s

/-- meta.py:494-511 `_load_seqs`, with cached2.py:106-125. (The state after an exception is the old one; the windows of
the sub-datasets may have moved in reality.) -/
def load (c : Config T D) (s : State T D) (start fin : Nat) : Res (State T D) := do
  let s ← loadDatasets s start fin
  pyAssert (decide (s.start ≤ start))
  let s := moveWindow s start
  let first := firstNew s start
  let seqs ← (List.range' first (fin - first)).mapM (collect c s)
  .ok { s with added := s.added ++ seqs }

/-- A call. -/
inductive Call (T : Type) where
  | init (epoch : Option Int) (seqList : Option (List T)) (seqOrder : Option (List Nat))
  | load (start fin : Nat)

/-- The state after a call (also if it raised an exception). -/
def step (c : Config T D) (s : State T D) : Call T → State T D
  | .init epoch seqList seqOrder => (init c s epoch seqList seqOrder).2
  | .load start fin => match load c s start fin with
    | .ok s' => s'
    | .error _ => s

/-- The state after the constructor. -/
def new (n : Nat) : State T D := { subs := List.replicate n { cur := [], start := 0 } }

end Verif.MetaDs
