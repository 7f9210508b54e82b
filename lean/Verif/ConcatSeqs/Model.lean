import Verif.Util.Dict
/-
`ConcatSeqsDataset` (`returnn/datasets/meta.py` 1407-1672): sequences which are the concatenation of sequences of another dataset.

Simplifications: tags are lists of characters; an array is its number of axes and the list of its frames (entries of the first
axis), so the check of equal frame shapes in `numpy.concatenate` is left out; the multiples in the options are not negative; the
order of the epoch (`get_seq_order_for_epoch`, and the epoch-wise filter) is an argument, it is modelled in `SeqOrder` and
`EpochFilter`; the caching of `CachedDataset2` is modelled in `Cached2`.
-/
namespace Verif.ConcatSeqs

open Verif.Py

abbrev Tag := List Char

/-- Put a character in front of the first piece. -/
def consHead (c : Char) : List Tag → List Tag
  | [] => [[c]]
  | p :: ps => (c :: p) :: ps

/-- Python `s.split(d)` for a non-empty `d`: the leftmost occurrence of `d` ends a piece. -/
def pySplit (d : Tag) : Tag → List Tag
  | [] => [[]]
  | c :: s => if d.isPrefixOf (c :: s) then [] :: pySplit d (s.drop (d.length - 1)) else consHead c (pySplit d s)
termination_by s => s.length
decreasing_by all_goals simp; try omega

/-- `str.split` with an empty separator raises `ValueError`. -/
def split (d s : Tag) : Res (List Tag) := if d = [] then .error .valueError else .ok (pySplit d s)

/-- An array: number of axes, frames. -/
structure Arr (α : Type) where
  ndim : Nat
  frames : List α
  deriving DecidableEq

/-- The sub dataset after `init_seq_order(seq_list=...)`: `get_tag` and `get_data` of a sequence index. -/
structure Sub (K α : Type) where
  tag : Nat → Res Tag
  data : Nat → K → Res (Arr α)

/-- The dataset (meta.py 1412-1481). -/
structure DS (K α : Type) where
  delim : Tag
  /-- `remove_in_between_postfix` -/
  post : Dict K α
  /-- `repeat_in_between_last_frame_up_to_multiple_of` -/
  rep : Dict K Nat
  /-- `pad_narrow_data_to_multiple_of_target_len` -/
  pad : Dict K (K × Nat)
  /-- `full_seq_list`, `seq_lens` -/
  full : List Tag
  lens : Dict Tag Nat
  /-- `get_data_keys()` of the sub dataset -/
  keys : List K
  /-- the sub dataset for a list of tags -/
  sub : List Tag → Sub K α

/-- The state after `init_seq_order`: `_seq_order`, `cur_seq_list`, `cur_sub_seq_idxs`, and the tags given to the sub dataset. -/
structure Cur where
  order : List Nat
  seqList : List Tag
  idxs : List (List Nat)
  subList : List Tag
  deriving DecidableEq

/-- `DatasetSeq`. -/
structure Seq (K α : Type) where
  idx : Nat
  tag : Tag
  features : List (K × List α)
  deriving DecidableEq

section
variable {K α : Type} [DecidableEq K] [DecidableEq α]

/-- The loop of `_get_full_seq_lens_list` for one tag (meta.py 1490-1491). -/
def fullLen (D : DS K α) (t : Tag) : Res Nat := do
  let subs ← split D.delim t
  let ls ← subs.mapM (fun s => D.lens.getItem s)
  .ok ls.sum

/-- `_get_full_seq_lens_list` (meta.py 1483-1493). -/
def fullSeqLens (D : DS K α) : Res (List Nat) := D.full.mapM (fullLen D)

/-- The loop of `init_seq_order` (meta.py 1525-1532), from sub sequence `i` on: `sub_seq_idxs`, `sub_seq_list`, the last
`sub_seq_idx`. -/
def subIdxs (d : Tag) : List Tag → Nat → Res (List (List Nat) × List Tag × Nat)
  | [], i => .ok ([], [], i)
  | t :: ts, i => do
    let subs ← split d t
    let idx := List.range' i subs.length
    let last ← (match idx.getLast? with | some x => .ok x | none => .error .indexError : Res Nat)
    let r ← subIdxs d ts (last + 1)
    .ok (idx :: r.1, subs ++ r.2.1, r.2.2)

/-- `init_seq_order` (meta.py 1495-1535) with the order of the epoch. -/
def initSeqOrder (D : DS K α) (order : List Nat) : Res Cur := do
  let seqList ← order.mapM (fun i => getItem D.full i)
  let r ← subIdxs D.delim seqList 0
  pyAssert (r.2.2 == r.2.1.length && seqList.length == r.1.length)
  .ok ⟨order, seqList, r.1, r.2.1⟩

/-- `get_corpus_seq_idx` (meta.py 1547-1554). -/
def corpusSeqIdx (c : Cur) (i : Nat) : Res Nat := getItem c.order i

/-- `data[-1:]`. -/
def lastFrame (l : List α) : List α := l.drop (l.length - 1)

/-- `numpy.concatenate([data] + [data[-1:]] * n)`. -/
def repeatLast (l : List α) (n : Nat) : List α := l ++ (List.replicate n (lastFrame l)).flatten

/-- `remove_in_between_postfix` (meta.py 1609-1611), if this is not the last sub sequence. -/
def dropPost (D : DS K α) (key : K) (between : Bool) (a : Arr α) : Res (List α) :=
  match D.post.get? key with
  | none => .ok a.frames
  | some label =>
    if between then
      if a.ndim ≠ 1 then .error .assertion
      else match a.frames.getLast? with
        | none => .error .indexError
        | some x => if x = label then .ok a.frames.dropLast else .error .assertion
    else .ok a.frames

/-- `repeat_in_between_last_frame_up_to_multiple_of` (meta.py 1612-1616). -/
def repeatBetween (D : DS K α) (key : K) (between : Bool) (l : List α) : Res (List α) :=
  match D.rep.get? key with
  | none => .ok l
  | some m =>
    if between then
      if m = 0 then .error .zeroDivision
      else if l.length % m ≠ 0 then do
        let l' := repeatLast l (m - l.length % m)
        pyAssert (l'.length % m == 0)
        .ok l'
      else .ok l
    else .ok l

/-- Narrow or pad to `n` frames (meta.py 1620-1627). -/
def padNarrow (l : List α) (n : Nat) : List α :=
  if n < l.length then l.take (l.length - (l.length - n))
  else if l.length < n then repeatLast l (n - l.length)
  else l

/-- `pad_narrow_data_to_multiple_of_target_len` (meta.py 1617-1627). -/
def padBetween (D : DS K α) (sub : Sub K α) (i : Nat) (key : K) (between : Bool) (l : List α) : Res (List α) :=
  match D.pad.get? key with
  | none => .ok l
  | some (target, m) =>
    if between then do
      let t ← sub.data i target
      let l' := padNarrow l (t.frames.length * m)
      pyAssert (l'.length == t.frames.length * m)
      .ok l'
    else .ok l

/-- The data of one sub sequence for one key (meta.py 1607-1628). -/
def part (D : DS K α) (sub : Sub K α) (i : Nat) (between : Bool) (key : K) : Res (List α) := do
  let a ← sub.data i key
  let l ← dropPost D key between a
  let l ← repeatBetween D key between l
  padBetween D sub i key between l

/-- `sub_seq_idx != sub_seq_idxs[-1]`. -/
def isBetween (idxs : List Nat) (i : Nat) : Bool := decide (idxs.getLast? ≠ some i)

/-- One round of the loop over the sub sequences: the tag is checked (meta.py 1593-1628). -/
def round (D : DS K α) (sub : Sub K α) (idxs : List Nat) (e : Nat × Tag) : Res (List (K × List α)) := do
  let tag ← sub.tag e.1
  pyAssert (tag == e.2)
  D.keys.mapM (fun key => do
    let l ← part D sub e.1 (isBetween idxs e.1) key
    .ok (key, l))

/-- `features[key]` after the loop, concatenated. -/
def joinKey (rows : List (List (K × List α))) (key : K) : List α :=
  rows.flatMap (fun row => ((row.filter (fun e => e.1 == key)).map Prod.snd).flatten)

/-- The keys of the options must be known (meta.py 1571-1592). -/
def checkKeys (D : DS K α) : Bool :=
  D.post.keys.all (fun k => D.keys.contains k) && D.rep.keys.all (fun k => D.keys.contains k) &&
    D.pad.keys.all (fun k => D.keys.contains k)

/-- `_collect_single_seq` (meta.py 1556-1630). -/
def collect (D : DS K α) (c : Cur) (i : Nat) : Res (Option (Seq K α)) :=
  if c.seqList.length ≤ i then .ok none
  else do
    let tag ← getItem c.seqList i
    let subs ← split D.delim tag
    let idxs ← getItem c.idxs i
    pyAssert (subs.length == idxs.length)
    pyAssert (i != 0 || checkKeys D)
    let rows ← (idxs.zip subs).mapM (round D (D.sub c.subList) idxs)
    .ok (some ⟨i, tag, D.keys.map (fun key => (key, joinKey rows key))⟩)

/-- The calls `load_seqs(i, i + 1)` on the sub dataset by `_collect_single_seq` if it does not raise (meta.py 1594). -/
def loads (c : Cur) (i : Nat) : List (Nat × Nat) := ((c.idxs[i]?).getD []).map (fun j => (j, j + 1))
end

end Verif.ConcatSeqs
