import Verif.Util.Py
/-
Model of the dataset of text dumps (`returnn/datasets/numpy_dump.py`).

Simplifications for the whole file:
* a file is known by its number; `both i` says that data and targets file `i` exist, and there are none from `limit` on;
* features and targets of a file are one opaque value; `valid i` says that their shapes are as asserted;
* the order of an epoch (`get_seq_order_for_epoch`, see the area SeqOrder) is given.
-/
namespace Verif.NpDump
open Verif Verif.Py

/-- The files. -/
structure Disk (F : Type) where
  both : Nat → Bool
  limit : Nat
  valid : Nat → Bool
  content : Nat → F

/-- `end_seq is not None and i >= end_seq`. -/
def atEnd (endSeq : Option Nat) (i : Nat) : Bool :=
  match endSeq with
  | none => false
  | some e => decide (e ≤ i)

/-- The loop in `_init_num_seqs`, /repo/returnn/datasets/numpy_dump.py:34-44: `last_seq` at its end. -/
def scan {F : Type} (d : Disk F) (endSeq : Option Nat) : Nat → Nat → Option Nat → Option Nat
  | 0, _, last => last
  | n + 1, i, last => if atEnd endSeq i then last else if d.both i then scan d endSeq n (i + 1) (some i) else last

/-- The end which is used, /repo/returnn/datasets/numpy_dump.py:45-49. -/
def usedEnd (last endSeq : Option Nat) : Res Nat :=
  match endSeq with
  | none =>
    match last with
    | none => .error .assertion
    | some l => .ok l
  | some e => if last.map (fun l : Nat => (l : Int)) = some ((e : Int) - 1) then .ok e else .error .assertion

/-- `_init_num_seqs`, /repo/returnn/datasets/numpy_dump.py:33-51. -/
def numSeqs {F : Type} (d : Disk F) (start : Nat) (endSeq : Option Nat) : Res Nat :=
  match usedEnd (scan d endSeq (d.limit + 1 - start) start none) endSeq with
  | .error e => .error e
  | .ok e => if start < e then .ok (e - start) else .error .assertion

/-- The state of an epoch: `_seq_index` and `cached_seqs`. -/
structure St (F : Type) where
  index : List Nat
  cache : List (Nat × F)

/-- `init_seq_order`, /repo/returnn/datasets/numpy_dump.py:67-81. -/
def initOrder {F : Type} (start : Nat) (order : List Nat) : St F := { index := order.map (· + start), cache := [] }

/-- `_cleanup_old_seq_cache`, /repo/returnn/datasets/numpy_dump.py:128-134. -/
def cleanup {F : Type} (seqEnd : Nat) (c : List (Nat × F)) : List (Nat × F) := c.dropWhile fun x => decide (x.1 < seqEnd)

/-- `_get_cache_seq`, /repo/returnn/datasets/numpy_dump.py:136-143. -/
def cacheGet? {F : Type} (c : List (Nat × F)) (i : Nat) : Option F := (c.find? fun x => decide (x.1 = i)).map Prod.snd

/-- `_get_cache_last_seq_idx() + 1`, /repo/returnn/datasets/numpy_dump.py:148-152. -/
def nextIdx {F : Type} (c : List (Nat × F)) : Nat :=
  match c.getLast? with
  | none => 0
  | some x => x.1 + 1

/-- `_load_numpy_seq` with `_add_cache_seq`, /repo/returnn/datasets/numpy_dump.py:53-63,154-157. -/
def loadSeq {F : Type} (d : Disk F) (s : St F) (i : Nat) : Res (St F) :=
  match s.index[i]? with
  | none => .error .indexError
  | some real =>
    if d.valid real then
      if i = nextIdx s.cache then .ok { s with cache := s.cache ++ [(i, d.content real)] } else .error .assertion
    else .error .assertion

/-- One round of the loop in `_load_seqs`. -/
def loadOne {F : Type} (d : Disk F) (s : St F) (i : Nat) : Res (St F) :=
  match cacheGet? s.cache i with
  | some _ => .ok s
  | none => loadSeq d s i

/-- `for i in range(start, end)` with `n = end - start`. -/
def loadLoop {F : Type} (d : Disk F) : Nat → Nat → St F → Res (St F)
  | 0, _, s => .ok s
  | n + 1, i, s =>
    match loadOne d s i with
    | .error e => .error e
    | .ok s' => loadLoop d n (i + 1) s'

/-- `_load_seqs`, /repo/returnn/datasets/numpy_dump.py:83-91. -/
def loadSeqs {F : Type} (d : Disk F) (s : St F) (a b : Nat) : Res (St F) := loadLoop d (b - a) a { s with cache := cleanup a s.cache }

/-- `get_input_data`, `get_targets`, /repo/returnn/datasets/numpy_dump.py:93-106. -/
def getData {F : Type} (s : St F) (i : Nat) : Res F :=
  match cacheGet? s.cache i with
  | none => .error (.other "not loaded")
  | some x => .ok x

/-- `get_seq_length`, /repo/returnn/datasets/numpy_dump.py:108-117: the sequence whose length it is, and the new state. -/
def getLength {F : Type} (d : Disk F) (s : St F) (i : Nat) : Res (F × St F) :=
  match loadOne d s i with
  | .error e => .error e
  | .ok s' =>
    match getData s' i with
    | .error e => .error e
    | .ok x => .ok (x, s')

end Verif.NpDump
