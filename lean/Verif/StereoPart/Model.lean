import Verif.Util.Py
/-
Model of the partitions of the stereo dataset (`returnn/datasets/stereo.py`).

Simplifications for the whole file:
* the files are the lists of names of their sequences, in the order in which the HDF library gives them;
* the order within an epoch (`get_seq_order_for_epoch`, see the area SeqOrder) is given; the epoch is at least 1;
* normalization and content of the sequences are not modelled.
-/
namespace Verif.StereoPart
open Verif Verif.Py

/-- `_seqMap` of `_get_total_number_of_sequences`, /repo/returnn/datasets/stereo.py:211-217: file number and name of each sequence. -/
def seqMapFrom : Nat → List (List String) → List (Nat × String)
  | _, [] => []
  | i, f :: fs => (f.map fun k => (i, k)) ++ seqMapFrom (i + 1) fs

def seqMap (files : List (List String)) : List (Nat × String) := seqMapFrom 0 files

/-- `_get_total_number_of_sequences`, /repo/returnn/datasets/stereo.py:199-217. -/
def total (files : List (List String)) : Nat := (seqMap files).length

/-- `seqs_per_epoch`, /repo/returnn/datasets/stereo.py:51-55. -/
def seqsPerEpoch (t p : Nat) : Nat := t / p

/-- `_seq_overhead`, /repo/returnn/datasets/stereo.py:34-36. -/
def overhead (t p : Nat) : Nat := t % p

/-- `_get_partition_size`, /repo/returnn/datasets/stereo.py:66-70. -/
def partSize (t p part : Nat) : Nat := seqsPerEpoch t p + (if part + 1 = p then overhead t p else 0)

/-- `_current_partition`, /repo/returnn/datasets/stereo.py:87. -/
def curPart (p epoch : Nat) : Nat := (epoch - 1) % p

/-- `partition_offset`, /repo/returnn/datasets/stereo.py:321. -/
def offset (t p part : Nat) : Nat := ((List.range part).map (partSize t p)).sum

/-- `self._seqMap[shuf_seq_idx]`, /repo/returnn/datasets/stereo.py:324. -/
def lookup (files : List (List String)) (k : Nat) : Res (Option (Nat × String)) :=
  match (seqMap files)[k]? with
  | none => .error .keyError
  | some x => .ok (some x)

/-- `_collect_single_seq`, /repo/returnn/datasets/stereo.py:313-326: which sequence it is. `None` at the end; a number without sequence is a KeyError. -/
def collect (files : List (List String)) (p epoch : Nat) (order : List Nat) (i : Nat) : Res (Option (Nat × String)) :=
  match order[i]? with
  | none => .ok none
  | some k => lookup files (k + offset (total files) p (curPart p epoch))

/-- `num_seqs` after `init_seq_order` (which sets `_num_seqs` to `None`), /repo/returnn/datasets/stereo.py:196-197,289-302. -/
def numSeqs (files : List (List String)) (p : Nat) : Nat := seqsPerEpoch (total files) p

/-- Reading an epoch: as long as `is_less_than_num_seqs`, /repo/returnn/datasets/cached2.py:127-138. -/
def readEpoch (files : List (List String)) (p epoch : Nat) (order : List Nat) : List (Res (Option (Nat × String))) :=
  (List.range (numSeqs files p)).map (collect files p epoch order)

end Verif.StereoPart
