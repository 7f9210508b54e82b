import Verif.Util.Py
/-
Model of the sequence cache of `HDFDataset`: `returnn/datasets/cached.py` (`CachedDataset`) and
`HDFDataset._load_seqs` in `returnn/datasets/hdf.py`.

Simplifications for the whole file:
* frames (rows of the input array) are elements of `F`, with `z : F` for the row of zeros; `window = 1`;
* one target key, its entries are elements of `T`, with `t0` for the fill value `-1`; its buffer exists from the start;
* the arrays `_seq_start` are prefix sums of the lengths, computed on demand;
* `weights` is empty, so `sample` is true; `shuffle_frames_of_nseqs = 0`; the cache is enabled and `epoch >= 1`;
* `preload_set` is a list which stands for the set of its elements;
* `gc.collect()` and the printing are left out.
-/
namespace Verif.HdfCache
open Verif.Py

variable {F T : Type}

/-- One stored sequence: the rows of `inputs` and the entries of the target.
Models a slice of an HDF file by `file_seq_start`, /repo/returnn/datasets/hdf.py:274-287. -/
structure Item (F T : Type) where
  inp : List F
  tgt : List T
deriving DecidableEq, Repr

/-- One element of `alloc_intervals`: start, end, data. /repo/returnn/datasets/cached.py:166-176. -/
structure Iv (F : Type) where
  s : Nat
  e : Nat
  d : List F
deriving DecidableEq, Repr

/-- `_seq_start[i][0]` for the sequences in the order of `_seq_index`. /repo/returnn/datasets/cached.py:178-184. -/
def seqStart (ls : List Nat) (i : Nat) : Nat := (ls.take i).sum

/-- `x[o:o+len(y)] = y`, where the slice must have the length of `y`.
Models the numpy slice assignments /repo/returnn/datasets/cached.py:311 and /repo/returnn/datasets/hdf.py:283-285. -/
def writeAt {α : Type} (x : List α) (o : Nat) (y : List α) : Res (List α) :=
  if o + y.length ≤ x.length then .ok (x.take o ++ y ++ x.drop (o + y.length)) else .error .valueError

/-- The loop of `alloc_interval_index`, with a bound on the number of rounds. /repo/returnn/datasets/cached.py:319-337. -/
def idxLoop (ivs : List (Iv F)) (ids : Nat) : Nat → Nat → Nat → Option Nat
  | 0, _, _ => none
  | fuel + 1, s, e =>
    if s < e then
      match ivs[(s + e) / 2]? with
      | none => none
      | some iv =>
        if iv.s ≤ ids ∧ ids < iv.e then some ((s + e) / 2)
        else if iv.s ≤ ids then
          if s = (s + e) / 2 then none else idxLoop ivs ids fuel ((s + e) / 2) e
        else
          if e = (s + e) / 2 then none else idxLoop ivs ids fuel s ((s + e) / 2)
    else none

/-- `alloc_interval_index`; `none` is `-1`. /repo/returnn/datasets/cached.py:313-337. -/
def allocIntervalIndex (ivs : List (Iv F)) (ids : Nat) : Option Nat :=
  idxLoop ivs ids (ivs.length + 1) 0 ivs.length

/-- `_insert_alloc_interval(pos, (a, b))`; its result `r` is returned as `r + 1`.
The argument `merge` is always `False` in the code. /repo/returnn/datasets/cached.py:339-426. -/
def insertIv (ls : List Nat) (z : F) (ivs : List (Iv F)) (pos a b : Nat) : List (Iv F) × Nat :=
  if a = b then (ivs, 1)
  else (ivs.take (pos + 1) ++ [⟨a, b, List.replicate (seqStart ls b - seqStart ls a) z⟩] ++ ivs.drop (pos + 1), 2)

/-- `_remove_alloc_interval(pos, (a, b))`; its result `r` is returned as `r + 1`. /repo/returnn/datasets/cached.py:428-459. -/
def removeIv (ls : List Nat) (ivs : List (Iv F)) (pos a b : Nat) : Res (List (Iv F) × Nat) :=
  match ivs[pos]? with
  | none => .error .indexError
  | some iv =>
    if a = iv.s ∧ b = iv.e then .ok (ivs.take pos ++ ivs.drop (pos + 1), 0)
    else if a = iv.s then
      .ok (ivs.take pos ++ [⟨b, iv.e, iv.d.drop (seqStart ls b - seqStart ls iv.s)⟩] ++ ivs.drop (pos + 1), 1)
    else if b = iv.e then
      .ok (ivs.take pos ++ [⟨iv.s, a, iv.d.take (seqStart ls a - seqStart ls iv.s)⟩] ++ ivs.drop (pos + 1), 1)
    else
      .ok (ivs.take pos ++ [⟨iv.s, a, iv.d.take (seqStart ls a - seqStart ls iv.s)⟩,
        ⟨b, iv.e, iv.d.drop (seqStart ls b - seqStart ls iv.s)⟩] ++ ivs.drop (pos + 1), 2)

/-- `modify(i, v)`. /repo/returnn/datasets/cached.py:477. -/
def modify (ls : List Nat) (z : F) (ins : Bool) (ivs : List (Iv F)) (pos a b : Nat) : Res (List (Iv F) × Nat) :=
  if ins then .ok (insertIv ls z ivs pos a b) else removeIv ls ivs pos a b

/-- The bounds `(ci, ni)` of a round: the gap after interval `i` when inserting, else the interval itself.
/repo/returnn/datasets/cached.py:479-480. -/
def bounds (ins : Bool) (ivs : List (Iv F)) (i : Nat) : Res (Nat × Nat) :=
  match ivs[i]?, ivs[i + ins.toNat]? with
  | some c, some n => if ins then .ok (c.e, n.s) else .ok (c.s, c.e)
  | _, _ => .error .indexError

/-- The loop of `_modify_alloc_intervals`, with a bound on the number of rounds. /repo/returnn/datasets/cached.py:478-495. -/
def modLoop (ls : List Nat) (z : F) (ins : Bool) (start stop : Nat) :
    Nat → Nat → List (Iv F) → List Nat → Res (List (Iv F) × List Nat)
  | 0, _, ivs, sel => .ok (ivs, sel)
  | fuel + 1, i, ivs, sel =>
    if i + ins.toNat < ivs.length then do
      let (ci, ni) ← bounds ins ivs i
      pyAssert (decide (ci ≤ ni))
      if ci < stop ∧ stop ≤ ni then do
        let a := if ci ≤ start ∧ start < ni then start else ci
        let (ivs', _) ← modify ls z ins ivs i a stop
        .ok (ivs', sel ++ List.range' a (stop - a))
      else if ci ≤ start ∧ start < ni then do
        let (ivs', k) ← modify ls z ins ivs i start ni
        modLoop ls z ins start stop fuel (i + k) ivs' (sel ++ List.range' start (ni - start))
      else if (ci < start ∧ ni ≤ start) ∨ (stop ≤ ci ∧ stop < ni) then
        modLoop ls z ins start stop fuel (i + 1) ivs sel
      else do
        let (ivs', k) ← modify ls z ins ivs i ci ni
        modLoop ls z ins start stop fuel (i + k) ivs' (sel ++ List.range' ci (ni - ci))
    else .ok (ivs, sel)

/-- The empty intervals at both ends are put back. /repo/returnn/datasets/cached.py:496-507. -/
def fixEnds (z : F) (n : Nat) (ivs : List (Iv F)) : Res (List (Iv F)) :=
  match ivs with
  | [] => .error .indexError
  | h :: t =>
    let l := if h.s ≠ 0 then ⟨0, 0, [z]⟩ :: h :: t else h :: t
    match l.getLast? with
    | none => .error .indexError
    | some x => if x.e ≠ n then .ok (l ++ [⟨n, n, [z]⟩]) else .ok l

/-- `_modify_alloc_intervals` with `end` given; `ins` is `invert`. /repo/returnn/datasets/cached.py:461-508. -/
def modifyAlloc (ls : List Nat) (z : F) (ins : Bool) (ivs : List (Iv F)) (start stop : Nat) : Res (List (Iv F) × List Nat) := do
  if start = stop then .ok (ivs, [])
  else do
    pyAssert (decide (start < stop))
    let (ivs', sel) ← modLoop ls z ins start stop (ivs.length + 1) 0 ivs []
    let ivs'' ← fixEnds z ls.length ivs'
    .ok (ivs'', sel)

/-- What does not change: the stored sequences, the file of each, and the limits.
/repo/returnn/datasets/cached.py:20-35, 58-66; /repo/returnn/datasets/hdf.py:465-475. -/
structure Cfg (F T : Type) where
  corpus : List (Item F T)
  fileOf : Nat → Nat
  numFiles : Nat
  limitAtStart : Nat
  nbytes : Nat
  framesFree : Nat
  z : F
  t0 : T

/-- The fields of the dataset. /repo/returnn/datasets/cached.py:36-54. -/
structure St (F T : Type) where
  seqIndex : List Nat
  indexMap : List Nat
  ready : Bool
  ivs : List (Iv F)
  preload : List Nat
  preloadEnd : Nat
  ncs : Nat
  free : Int
  targets : List T
deriving DecidableEq, Repr

/-- The sequences in the order of `_seq_index`. /repo/returnn/datasets/cached.py:571-577. -/
def items (c : Cfg F T) (si : List Nat) : List (Item F T) := si.filterMap (fun i => c.corpus[i]?)

/-- The input lengths in the order of `_seq_index`. /repo/returnn/datasets/cached.py:182-184. -/
def lens (c : Cfg F T) (si : List Nat) : List Nat := (items c si).map (fun x => x.inp.length)

/-- The target lengths in the order of `_seq_index`. /repo/returnn/datasets/cached.py:182-184. -/
def tlens (c : Cfg F T) (si : List Nat) : List Nat := (items c si).map (fun x => x.tgt.length)

/-- The dataset after `initialize`, before the first epoch.
The buffer of the target has `_num_codesteps` entries. /repo/returnn/datasets/cached.py:20-66, hdf.py:277-281. -/
def init (c : Cfg F T) : St F T where
  seqIndex := []
  indexMap := []
  ready := false
  ivs := []
  preload := []
  preloadEnd := 0
  ncs := 0
  free := c.framesFree
  targets := List.replicate ((c.corpus.map (fun x => x.tgt.length)).sum) c.t0

/-- The loop of `_init_start_cache`: number of sequences and their bytes. /repo/returnn/datasets/cached.py:196-203. -/
def startCache (limit nbytes : Nat) : List Nat → Nat → Nat → Nat → Nat × Nat
  | [], _, num, bytes => (num, bytes)
  | l :: r, i, num, bytes =>
    if i = num ∧ bytes + l * nbytes ≤ limit then startCache limit nbytes r (i + 1) (i + 1) (bytes + l * nbytes)
    else startCache limit nbytes r (i + 1) num bytes

/-- `is_cached(start, end, blocking=False)`. /repo/returnn/datasets/cached.py:544-561. -/
def isCached (st : St F T) (start stop : Nat) : Bool :=
  if start = stop then true else (List.range' start (stop - start)).all (fun i => st.preload.contains i)

/-- What a loading thread does, one access to the shared fields after the other. -/
inductive Act where
  /-- `Dataset.load_seqs`: is there something to do? /repo/returnn/datasets/basic.py:447-460 -/
  | check (start stop : Nat)
  /-- `insert_alloc_interval`. /repo/returnn/datasets/hdf.py:236-244 -/
  | insert (start stop : Nat)
  /-- The others count as loaded. /repo/returnn/datasets/hdf.py:245 -/
  | markRest (start stop : Nat) (sel : List Nat)
  /-- The target of one sequence is copied. /repo/returnn/datasets/hdf.py:274-286 -/
  | wrT (idc : Nat)
  /-- The input of one sequence is copied. /repo/returnn/datasets/hdf.py:287-288 -/
  | wrI (idc : Nat)
  /-- The sequence counts as loaded. /repo/returnn/datasets/hdf.py:289 -/
  | mark (idc : Nat)
  /-- The end of `_preload_seqs`. /repo/returnn/datasets/cached.py:267 -/
  | done
deriving DecidableEq, Repr

/-- The order in which the selected sequences are read: file by file. /repo/returnn/datasets/hdf.py:246-273. -/
def loadOrder (c : Cfg F T) (si : List Nat) (sel : List Nat) : List Nat :=
  (List.range c.numFiles).flatMap (fun f => sel.filter (fun idc => c.fileOf (si.getD idc 0) == f))

/-- `_set_alloc_intervals_data`. /repo/returnn/datasets/cached.py:299-311. -/
def setData (ls : List Nat) (ivs : List (Iv F)) (idc : Nat) (data : List F) : Res (List (Iv F)) :=
  match allocIntervalIndex ivs idc with
  | none => .error .assertion
  | some idi =>
    match ivs[idi]? with
    | none => .error .indexError
    | some iv => do
      let d ← writeAt iv.d (seqStart ls idc - seqStart ls iv.s) data
      .ok (ivs.set idi { iv with d := d })

/-- One action of a loading thread: the fields after it, and what is to be done next.
/repo/returnn/datasets/hdf.py:225-289, /repo/returnn/datasets/cached.py:264-267, /repo/returnn/datasets/basic.py:440-460. -/
def exec (c : Cfg F T) (st : St F T) : Act → Res (St F T × List Act)
  | .check start stop => .ok (st, if isCached st start stop then [] else [.insert start stop])
  | .insert start stop => do
    pyAssert (decide (start < st.indexMap.length))
    pyAssert (decide (stop ≤ st.indexMap.length))
    let (ivs, sel) ← modifyAlloc (lens c st.seqIndex) c.z true st.ivs start stop
    pyAssert (decide (sel.length ≤ stop - start))
    .ok ({ st with ivs := ivs },
      .markRest start stop sel :: (loadOrder c st.seqIndex sel).flatMap (fun i => [.wrT i, .wrI i, .mark i]))
  | .markRest start stop sel =>
    .ok ({ st with preload := st.preload ++ (List.range' start (stop - start)).filter (fun i => !sel.contains i) }, [])
  | .wrT idc =>
    match (items c st.seqIndex)[idc]? with
    | none => .error .indexError
    | some x => do
      let t ← writeAt st.targets (seqStart (tlens c st.seqIndex) idc) x.tgt
      .ok ({ st with targets := t }, [])
  | .wrI idc =>
    match (items c st.seqIndex)[idc]? with
    | none => .error .indexError
    | some x => do
      let ivs ← setData (lens c st.seqIndex) st.ivs idc x.inp
      .ok ({ st with ivs := ivs }, [])
  | .mark idc => .ok ({ st with preload := st.preload ++ [idc] }, [])
  | .done => .ok ({ st with preloadEnd := st.ncs }, [])

/-- The loop of `delete(None)`, with a bound on the number of rounds. /repo/returnn/datasets/cached.py:528-538. -/
def deleteLoop (ls : List Nat) (z : F) (ncs : Nat) :
    Nat → Nat → List (Iv F) → List Nat → Nat → Res (List (Iv F) × List Nat × Nat)
  | 0, _, ivs, pre, del => .ok (ivs, pre, del)
  | fuel + 1, i, ivs, pre, del =>
    match ivs[i]? with
    | none => .ok (ivs, pre, del)
    | some ai =>
      if ncs < ai.e ∧ ai.s < ai.e then do
        let (ivs', removed) ← modifyAlloc ls z false ivs (max ai.s ncs) ai.e
        deleteLoop ls z ncs fuel i ivs' (pre.filter (fun j => !removed.contains j))
          (del + (removed.map (fun j => ls.getD j 0)).sum)
      else deleteLoop ls z ncs fuel (i + 1) ivs pre del

/-- `delete(None)`: the intervals, the set of loaded sequences, the number of deleted frames.
/repo/returnn/datasets/cached.py:516-538. -/
def delete (ls : List Nat) (z : F) (ncs : Nat) (ivs : List (Iv F)) (pre : List Nat) : Res (List (Iv F) × List Nat × Nat) :=
  deleteLoop ls z ncs (2 * ivs.length + 1) 0 ivs pre 0

/-- How far the cache is filled: the lengths of the sequences from `end` on. /repo/returnn/datasets/cached.py:254-260. -/
def extend : List Nat → Int → Nat → Int × Nat
  | [], free, stop => (free, stop)
  | l :: r, free, stop => if free - l < 0 then (free, stop) else extend r (free - l) (stop + 1)

/-- `get_seq_length_nd(i)[0]` for all sorted indices. /repo/returnn/datasets/cached.py:571-577. -/
def sortedLens (c : Cfg F T) (st : St F T) : List Nat := st.indexMap.map (fun i => (lens c st.seqIndex).getD i 0)

/-- `load_seqs` up to the start of the loading thread: the fields and what the thread does.
`clear` is always `True` in the code. /repo/returnn/datasets/cached.py:214-236, 241-262. -/
def loadSeqs (c : Cfg F T) (st : St F T) (start stop : Nat) : Res (St F T × Option (List Act)) := do
  pyAssert (decide (start ≤ stop))
  if isCached st start stop then .ok (st, none)
  else do
    let (ivs, pre, del) ← delete (lens c st.seqIndex) c.z st.ncs st.ivs st.preload
    let (free, stop') := extend ((sortedLens c st).drop stop) (st.free + del) stop
    .ok ({ st with ivs := ivs, preload := pre, free := free, preloadEnd := stop' }, some [.check start stop', .done])

/-- The test of `is_cached(start, end, blocking=True)`: `none` while it waits.
/repo/returnn/datasets/cached.py:544-561. -/
def waitCached (st : St F T) (start stop : Nat) : Option Bool :=
  if start = stop then some true
  else if stop ≤ st.preloadEnd then (if isCached st start stop then some true else none)
  else some (isCached st start stop)

/-- A new order: starts, intervals and start cache are set up. /repo/returnn/datasets/cached.py:112-122, 157-212. -/
def reinit (c : Cfg F T) (st : St F T) (si : List Nat) : St F T × Option (List Act) :=
  let ls := lens c si
  let num := (startCache c.limitAtStart c.nbytes ls 0 0 0).1
  let st' := { st with
    seqIndex := si, indexMap := List.range si.length, ready := true,
    ivs := [⟨0, 0, [c.z]⟩, ⟨si.length, si.length, [c.z]⟩], preload := [], ncs := num }
  if 0 < num then ({ st' with preloadEnd := num }, some [.check 0 num, .done]) else (st', none)

/-- `init_seq_order` with the order given: the fields, what a new thread does, and the result.
`_init_alloc_intervals` asserts that there are sequences. /repo/returnn/datasets/cached.py:78-131. -/
def initSeqOrder (c : Cfg F T) (st : St F T) (si : List Nat) : Res (St F T × Option (List Act) × Bool) :=
  if st.seqIndex = si ∧ st.ready then .ok ({ st with indexMap := List.range si.length }, none, false)
  else if st.ncs ≠ si.length ∨ st.ready = false then
    if si.length = 0 then .error .assertion
    else .ok ((reinit c st si).1, (reinit c st si).2, true)
  else
    match si.mapM (fun r => (st.seqIndex.reverse.idxOf? r).map (fun k => st.seqIndex.length - 1 - k)) with
    | none => .error .keyError
    | some m => .ok ({ st with indexMap := m }, none, decide (m ≠ st.indexMap))

/-- `get_input_data`. /repo/returnn/datasets/cached.py:606-615. -/
def getInputData (c : Cfg F T) (st : St F T) (sorted : Nat) : Res (List F) := do
  let idx ← getItem st.indexMap sorted
  match allocIntervalIndex st.ivs idx with
  | none => .error .assertion
  | some idi => do
    let iv ← getItem st.ivs idi
    let o := seqStart (lens c st.seqIndex) idx - seqStart (lens c st.seqIndex) iv.s
    let l := (sortedLens c st).getD sorted 0
    pyAssert (decide (o + l ≤ iv.d.length))
    .ok (slice iv.d o (o + l))

/-- `get_targets`. /repo/returnn/datasets/cached.py:622-627. -/
def getTargets (c : Cfg F T) (st : St F T) (sorted : Nat) : Res (List T) := do
  let idx ← getItem st.indexMap sorted
  let o := seqStart (tlens c st.seqIndex) idx
  .ok (slice st.targets o (o + (tlens c st.seqIndex).getD idx 0))

/-- The data which the reader asked for by the order of the epoch: `get_corpus_seq_idx`.
/repo/returnn/datasets/cached.py:646-652. -/
def corpusIdx (st : St F T) (sorted : Nat) : Option Nat := (st.indexMap[sorted]?).bind (fun i => st.seqIndex[i]?)

end Verif.HdfCache
