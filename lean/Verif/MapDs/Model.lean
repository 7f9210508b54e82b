import Verif.Util.Py
import Verif.Util.Dict
/-
Model of `MapDatasetWrapper` and `FromListDataset` of `returnn/datasets/map.py`: a dataset from something with entries by index.

Simplifications for the whole file:
* what the user's object gives is given by functions: number, entries, tags, and optional lengths and orders; "optional" stands for `OptionalNotImplementedError`;
* the order of an epoch (`get_seq_order_for_epoch`, see C01) is a function of the number and lengths, which may ask for lengths; tags are numbers; data types and dims are left out.
-/
namespace Verif.MapDs
open Verif Verif.Py

/-- `OptionalNotImplementedError`. -/
def optional : Err := .other "OptionalNotImplementedError"

/-- The user's object (`MapDatasetBase`). /repo/returnn/datasets/map.py:12-70. -/
structure Ds (α : Type) where
  n : Nat
  item : Nat → Res α
  tag : Nat → Nat
  seqLen : Nat → Res Nat
  seqOrder : Option Nat → Res (List Nat)

/-- The options of the wrapper. -/
structure Cfg where
  /-- `seq_ordering` is "default", "reverse" or "random". -/
  plain : Bool
  /-- `get_seq_order_for_epoch`: epoch, number, lengths. -/
  order : Option Nat → Nat → Option (Nat → Res Nat) → Res (List Nat)

/-- `tag_to_idx`. /repo/returnn/datasets/map.py:129-132. -/
def tagToIdx {α : Type} (d : Ds α) : Dict Nat Nat := (List.range d.n).foldl (fun m i => m.set (d.tag i) i) []

/-- `[tag_to_idx[tag] for tag in seq_list]`. /repo/returnn/datasets/map.py:133. -/
def lookupAll (m : Dict Nat Nat) : List Nat → Res (List Nat)
  | [] => .ok []
  | t :: ts => do
    let i ← m.getItem t
    let r ← lookupAll m ts
    .ok (i :: r)

/-- The order without lengths, when they are not there. /repo/returnn/datasets/map.py:145-153. -/
def fallback {α : Type} (c : Cfg) (d : Ds α) (epoch : Option Nat) : Res (List Nat) :=
  if c.plain then c.order epoch d.n none else .error .assertion

/-- The order with lengths. /repo/returnn/datasets/map.py:140-144. -/
def byLens {α : Type} (c : Cfg) (d : Ds α) (epoch : Option Nat) : Res (List Nat) :=
  match c.order epoch d.n (some d.seqLen) with
  | .ok o => .ok o
  | .error e => if e = optional then fallback c d epoch else .error e

/-- The order of an epoch. /repo/returnn/datasets/map.py:137-153. -/
def epochOrder {α : Type} (c : Cfg) (d : Ds α) (epoch : Option Nat) : Res (List Nat) :=
  match d.seqOrder epoch with
  | .ok o => .ok o
  | .error e => if e = optional then byLens c d epoch else .error e

/-- `init_seq_order`: the new order. /repo/returnn/datasets/map.py:117-155. -/
def initSeqOrder {α : Type} (c : Cfg) (d : Ds α) (epoch : Option Nat) (seqList seqOrder : Option (List Nat)) : Res (List Nat) :=
  match seqList with
  | some ts => if seqOrder.isSome then .error .assertion else lookupAll (tagToIdx d) ts
  | none =>
    match seqOrder with
    | some o => .ok o
    | none => epochOrder c d epoch

/-- `_seq_order[seq_idx]`. None is not subscriptable. /repo/returnn/datasets/map.py:195-201. -/
def corpusIdx (o : Option (List Nat)) (i : Nat) : Res Nat :=
  match o with
  | none => .error .typeError
  | some o =>
    match o[i]? with
    | some j => .ok j
    | none => .error .indexError

/-- `num_seqs`. /repo/returnn/datasets/map.py:101-109. -/
def numSeqs (o : Option (List Nat)) : Res Nat :=
  match o with
  | none => .error .notImplemented
  | some o => .ok o.length

/-- `_collect_single_seq`: tag and data. /repo/returnn/datasets/map.py:165-173. -/
def collect {α : Type} (d : Ds α) (o : Option (List Nat)) (i : Nat) : Res (Nat × α) := do
  let j ← corpusIdx o i
  let x ← d.item j
  .ok (d.tag j, x)

/-- `get_tag`. /repo/returnn/datasets/map.py:182-188. -/
def getTag {α : Type} (d : Ds α) (o : Option (List Nat)) (i : Nat) : Res Nat := do
  let j ← corpusIdx o i
  .ok (d.tag j)

/-- `get_all_tags`. /repo/returnn/datasets/map.py:190-194. -/
def allTags {α : Type} (d : Ds α) : List Nat := (List.range d.n).map d.tag

/-- `supports_seq_order_sorting`. /repo/returnn/datasets/map.py:157-163. -/
def supportsSorting {α : Type} (d : Ds α) : Res Bool :=
  match d.seqLen 0 with
  | .ok _ => .ok true
  | .error e => if e = optional then .ok false else .error e

/-! ## FromListDataset -/

/-- An entry of a list: the lengths of its data by key, with the data. -/
structure Entry (α : Type) where
  lens : Dict Nat Nat
  data : α

/-- `get_seq_len`. /repo/returnn/datasets/map.py:295-302. -/
def listSeqLen {α : Type} (l : List (Entry α)) (sortKey : Option Nat) (i : Nat) : Res Nat :=
  match sortKey with
  | none => .error .assertion
  | some k =>
    match l[i]? with
    | none => .error .indexError
    | some e => e.lens.getItem k

/-- `self._data_list[seq_idx]`, no negative indices. /repo/returnn/datasets/map.py:287-293. -/
def listItem {α : Type} (l : List (Entry α)) (i : Nat) : Res (Entry α) :=
  match l[i]? with
  | none => .error .indexError
  | some e => .ok e

/-- `FromListDataset`; tags are `seq-%i`. /repo/returnn/datasets/map.py:265-302. -/
def fromList {α : Type} (l : List (Entry α)) (sortKey : Option Nat) : Ds (Entry α) where
  n := l.length
  item := listItem l
  tag := id
  seqLen := listSeqLen l sortKey
  seqOrder := fun _ => .error optional

end Verif.MapDs
