import Verif.Hdf.Spec
import Mathlib.Order.Defs.LinearOrder
/-
Model of `HDFDataset` (reading without cache), `SimpleHDFWriter` and `HDFDatasetWriter` (datasets/hdf.py 28-470, 1060-1594).

Simplifications: a frame is an opaque value (`F`), dtypes, feature dims and labels are left out. Only one time axis (with more, the code
stores the flattened data and an extra key "sizes", which is as any other extra key). Data keys are an ordered type with names for
"data", "classes", "inputs". Files are in memory: writing to a temporary file and the final move are left out.
-/
namespace Verif.Hdf
open Verif.Py

variable {K F T : Type} [LinearOrder K] [Inhabited F] [Inhabited T]

/-- The special data keys. -/
structure Names (K : Type) where
  data : K
  classes : K
  inputs : K

/-- `sorted(keys)` -/
def sortKeys (l : List K) : List K := stableSort (fun a b => decide (a ≤ b)) l

/-- The content of an HDF file: `inputs`, the group `targets` (`none` if missing), `seqLengths` with its number of columns, `seqTags`,
and the attributes `numTimesteps`, `numSeqs`. -/
structure File (K F T : Type) where
  inputs : Option (List F)
  targets : Option (Dict K (List F))
  width : Nat
  lens : List (List Nat)
  tags : List T
  numTimesteps : Nat
  numSeqs : Nat

/-! ### h5py -/

/-- `dataset.resize(n, axis=0)`; new entries are zero. -/
def resize {α : Type} (zero : α) (n : Nat) (l : List α) : List α := l.take n ++ List.replicate (n - l.length) zero

/-- `dataset[a:] = raw` -/
def assignFrom (l : List F) (a : Nat) (raw : List F) : Res (List F) :=
  if raw.length = l.length - a then .ok (l.take a ++ raw) else .error .typeError

/-- `seqLengths[i, j] = v` -/
def setLen (f : File K F T) (i j v : Nat) : Res (File K F T) :=
  if i < f.lens.length ∧ j < f.width then .ok { f with lens := f.lens.modify i (fun r => r.set j v) } else .error .valueError

/-! ### SimpleHDFWriter -/

/-- The attributes of the writer (1140-1160). -/
structure Writer (K F T : Type) where
  file : File K F T
  ext : Bool
  prepared : List K
  steps : Dict K Nat

/-- 1188-1217, 1219-1221: a new key, non-extending: new dataset, more columns. -/
def addKey (w : Writer K F T) (k : K) : Writer K F T :=
  { file := { w.file with targets := some ((w.file.targets.getD []).set k []), width := 1 + (w.prepared.length + 1),
                          lens := w.file.lens.map (resize 0 (1 + (w.prepared.length + 1))) },
    ext := w.ext, prepared := w.prepared ++ [k], steps := w.steps.set k 0 }

/-- 1207-1210: a new key when extending a file. -/
def addKeyExt (w : Writer K F T) (k : K) : Res (Writer K F T) :=
  match w.file.targets with
  | none => .error .keyError
  | some t =>
    match t.get? k with
    | none => .error .keyError
    | some d => .ok { w with prepared := w.prepared ++ [k], steps := w.steps.set k d.length }

/-- 1175-1222 `_prepare_extra` with one key; returns whether it was added. -/
def prepareExtra (nm : Names K) (w : Writer K F T) (k : K) : Res (Writer K F T × Bool) :=
  if k = nm.inputs then .error .assertion
  else if k ∈ w.prepared then .ok (w, false)
  else if w.ext then (addKeyExt w k).bind (fun w => .ok (w, true))
  else .ok (addKey w k, true)

/-- `_prepare_extra` with the keys of `extra_type` (they are distinct). -/
def prepareAll (nm : Names K) : List K → Writer K F T → Res (Writer K F T)
  | [], w => .ok w
  | k :: ks, w => (prepareExtra nm w k).bind (fun r => prepareAll nm ks r.1)

/-- 1078-1168 `__init__` without `extend_existing_file` -/
def create (nm : Names K) (extraType : List K) : Res (Writer K F T) :=
  prepareAll nm extraType ⟨⟨none, none, 2, [], [], 0, 0⟩, false, [], []⟩

/-- 1078-1168 `__init__` with `extend_existing_file` -/
def openExt (nm : Names K) (extraType : List K) (f : File K F T) : Res (Writer K F T) := prepareAll nm extraType ⟨f, true, [], []⟩

/-- 1233-1242: the dataset "inputs", with room for the new frames. -/
def inputsDataset (w : Writer K F T) (raw : List F) : Res (List F) :=
  match w.file.inputs with
  | none => if w.ext then .error .keyError else .ok (List.replicate raw.length default)
  | some l => .ok (resize default (l.length + raw.length) l)

/-- 1224-1246 `_insert_h5_inputs` -/
def insertInputs (w : Writer K F T) (raw : List F) : Res (Writer K F T) :=
  (inputsDataset w raw).bind (fun l => (assignFrom l w.file.numTimesteps raw).bind (fun l =>
    .ok { w with file := { w.file with inputs := some l, numTimesteps := w.file.numTimesteps + raw.length, numSeqs := w.file.numSeqs + 1 } }))

/-- 1285-1286: set the lengths of all keys, columns from `j`. -/
def reinit (i : Nat) (steps : Dict K Nat) : List K → Nat → File K F T → Res (File K F T)
  | [], _, f => .ok f
  | k :: ks, j, f => (steps.getItem k).bind (fun v => (setLen f i (j + 1) v).bind (reinit i steps ks (j + 1)))

/-- 1281-1286: after `_prepare_extra` -/
def afterPrepare (i : Nat) (r : Writer K F T × Bool) : Res (Writer K F T) :=
  if r.2 then
    if i = 0 ∨ r.1.ext = true then (reinit i r.1.steps (sortKeys r.1.prepared) 0 r.1.file).bind (fun f => .ok { r.1 with file := f })
    else .error .assertion
  else .ok r.1

/-- `sorted(self._prepared_extra).index(data_key)` -/
def keyIdx (l : List K) (k : K) : Res Nat := if k ∈ l then .ok (l.idxOf k) else .error .valueError

/-- 1288-1296: append the data of a key. -/
def appendOther (i : Nat) (k : K) (raw : List F) (w : Writer K F T) : Res (Writer K F T) :=
  (w.steps.getItem k).bind (fun n => (Dict.getItem (w.file.targets.getD []) k).bind (fun d =>
    (keyIdx (sortKeys w.prepared) k).bind (fun j => (setLen w.file i (j + 1) raw.length).bind (fun f =>
      (assignFrom (resize default (n + raw.length) d) n raw).bind (fun d =>
        .ok { w with file := { f with targets := some ((w.file.targets.getD []).set k d) }, steps := w.steps.set k (n + raw.length) })))))

/-- 1248-1296 `_insert_h5_other` -/
def insertOther (nm : Names K) (w : Writer K F T) (k : K) (raw : List F) : Res (Writer K F T) :=
  if w.file.numSeqs > 0 ∧ w.file.lens.length > 0 then
    (prepareExtra nm w k).bind (fun r => (afterPrepare (w.file.numSeqs - 1) r).bind (appendOther (w.file.numSeqs - 1) k raw))
  else .error .assertion

/-- 1362-1366 -/
def insertOthers (nm : Names K) : List (K × List F) → Writer K F T → Res (Writer K F T)
  | [], w => .ok w
  | e :: es, w => (insertOther nm w e.1 e.2).bind (insertOthers nm es)

/-- 1340-1366: one sequence, at row `i`. -/
def insertSeq (nm : Names K) (i : Nat) (b : BSeq K F T) (w : Writer K F T) : Res (Writer K F T) :=
  let w := { w with file := { w.file with tags := w.file.tags.set i b.tag } }
  (setLen w.file i 0 b.len).bind (fun f => (insertInputs { w with file := f } (b.frames.take b.len)).bind (insertOthers nm b.extra))

def insertSeqs (nm : Names K) : List (BSeq K F T) → Nat → Writer K F T → Res (Writer K F T)
  | [], _, w => .ok w
  | b :: bs, i, w => (insertSeq nm i b w).bind (insertSeqs nm bs (i + 1))

/-- 1298-1366 `insert_batch`; `time` is the size of the time axis. -/
def insertBatch (nm : Names K) (time : Nat) (batch : List (BSeq K F T)) (w : Writer K F T) : Res (Writer K F T) :=
  if batch = [] then .error .valueError
  else if (batch.map (fun b => b.len)).foldl max 0 = time then
    let n := w.file.lens.length
    insertSeqs nm batch n { w with file := { w.file with lens := resize (List.replicate w.file.width 0) (n + batch.length) w.file.lens,
                                                         tags := resize default (n + batch.length) w.file.tags } }
  else .error .assertion

/-- Calls of `insert_batch`, each with the size of its time axis. -/
def insertBatches (nm : Names K) : List (Nat × List (BSeq K F T)) → Writer K F T → Res (Writer K F T)
  | [], w => .ok w
  | b :: bs, w => (insertBatch nm b.1 b.2 w).bind (insertBatches nm bs)

/-- Write a new file, and `close`. -/
def writeFile (nm : Names K) (s : Session K F T) : Res (File K F T) :=
  (create nm s.extraType).bind (fun w => (insertBatches nm s.batches w).bind (fun w => .ok w.file))

/-- Add to a file with `extend_existing_file`, and `close`. -/
def extendFile (nm : Names K) (s : Session K F T) (f : File K F T) : Res (File K F T) :=
  (openExt nm s.extraType f).bind (fun w => (insertBatches nm s.batches w).bind (fun w => .ok w.file))

def extendAll (nm : Names K) : List (Session K F T) → File K F T → Res (File K F T)
  | [], f => .ok f
  | s :: ss, f => (extendFile nm s f).bind (extendAll nm ss)

/-- All uses of `SimpleHDFWriter` for a file: the first creates it, others extend it. -/
def writeHist (nm : Names K) (h : Hist K F T) : Res (File K F T) := (writeFile nm h.first).bind (extendAll nm h.exts)

def writeHists (nm : Names K) : List (Hist K F T) → Res (List (File K F T))
  | [] => .ok []
  | h :: hs => (writeHist nm h).bind (fun f => (writeHists nm hs).bind (fun fs => .ok (f :: fs)))

/-! ### HDFDataset -/

/-- An opened file: content and `file_seq_start`. -/
structure Opened (K F T : Type) where
  file : File K F T
  seqStart : List (List Nat)

/-- The attributes; `numOutputs` are the keys of `num_outputs`. -/
structure Ds (K F T : Type) where
  files : List (Opened K F T)
  fileStart : List Nat
  targetKeys : List K
  numOutputs : List K

/-- 106-122 -/
def targetKeys (nm : Names K) (f : File K F T) : List K :=
  match f.targets with
  | some t => sortKeys t.keys
  | none => [nm.classes]

/-- 138 -/
def numInputKeys (f : File K F T) : Nat := if f.inputs.isSome then 1 else 0

/-- 156: `seq_lengths[:, cols]` -/
def takeCols (cols : List Nat) (rows : List (List Nat)) : List (List Nat) := rows.map (fun r => cols.map (fun c => r.getD c 0))

/-- 145-158: other target keys than in the files before. -/
def filterKeys (prev tk : List K) (rows : List (List Nat)) : Res (List (List Nat)) :=
  if prev.all (fun k => decide (k ∈ tk)) then .ok (takeCols (0 :: prev.map (fun k => tk.idxOf k + 1)) rows) else .error .assertion

/-- 145-158 -/
def selectKeys (isFirst : Bool) (prev tk : List K) (rows : List (List Nat)) : Res (List K × List (List Nat)) :=
  if isFirst then .ok (tk, rows)
  else if prev = tk then .ok (tk, rows)
  else (filterKeys prev tk rows).bind (fun rows => .ok (prev, rows))

/-- 160-161: cumulative sums, starting with zeros. -/
def cumRows (acc : List Nat) : List (List Nat) → List (List Nat)
  | [] => [acc]
  | r :: rs => acc :: cumRows (List.zipWith (· + ·) acc r) rs

/-- 195-211: the keys of `num_outputs` of a file. -/
def outputKeys (nm : Names K) (f : File K F T) (tk : List K) : List K :=
  (if f.targets.isSome then tk else []) ++ (if f.inputs.isSome then [nm.data] else [])

/-- 160-223: the rest of `add_file`, with the selected keys and lengths. -/
def addSelected (nm : Names K) (ds : Ds K F T) (f : File K F T) (sel : List K × List (List Nat)) : Res (Ds K F T) :=
  match sel.2 with
  | [] => .error .indexError
  | row :: _ =>
    if f.inputs.isSome ∧ nm.data ∈ sel.1 then .error .assertion
    else
      let out := outputKeys nm f sel.1
      let old := if ds.numOutputs = [] then out else ds.numOutputs
      let files := ds.files ++ [⟨f, cumRows (List.replicate row.length 0) sel.2⟩]
      if old = out then
        if (files.head?.bind (fun o => o.seqStart.head?.map (fun r => r.length))) = some (numInputKeys f + sel.1.length) then
          .ok { files := files, fileStart := ds.fileStart ++ [ds.fileStart.getLastD 0 + sel.2.length], targetKeys := sel.1, numOutputs := old }
        else .error .assertion
      else .error .assertion

/-- 79-223 `add_file` -/
def addFile (nm : Names K) (ds : Ds K F T) (f : File K F T) : Res (Ds K F T) :=
  let tk := targetKeys nm f
  if f.width = numInputKeys f + tk.length then
    (selectKeys ds.files.isEmpty ds.targetKeys tk f.lens).bind (addSelected nm ds f)
  else .error .assertion

def addFiles (nm : Names K) : List (File K F T) → Ds K F T → Res (Ds K F T)
  | [], ds => .ok ds
  | f :: fs, ds => (addFile nm ds f).bind (addFiles nm fs)

/-- 34-60 `__init__` -/
def openFiles (nm : Names K) (fs : List (File K F T)) : Res (Ds K F T) := addFiles nm fs ⟨[], [0], [], []⟩

/-- 442-446 `get_total_num_seqs` -/
def totalNumSeqs (ds : Ds K F T) : Nat := ds.fileStart.getLastD 0

/-- 465-469 `_get_file_index` (`bisect.bisect(..) - 1`) -/
def fileIndex (ds : Ds K F T) (i : Nat) : Nat := (ds.fileStart.takeWhile (fun s => decide (s ≤ i))).length - 1

/-- `self.num_inputs > 0` -/
def hasInputs (ds : Ds K F T) : Bool := ds.files.any (fun o => o.file.inputs.isSome)

/-- 331-351: select the dataset and its column. -/
def column (nm : Names K) (ds : Ds K F T) (o : Opened K F T) (k : K) : Res (List F × Nat) :=
  if k = nm.data ∧ hasInputs ds = true then
    match o.file.inputs with
    | none => .error .assertion
    | some l => .ok (l, 0)
  else
    match o.file.targets with
    | none => .error .assertion
    | some t => (Dict.getItem t k).bind (fun d => (keyIdx ds.targetKeys k).bind (fun j => .ok (d, (if hasInputs ds then 1 else 0) + j)))

/-- 318-353 `_get_data_by_real_seq_idx` -/
def getData (nm : Names K) (ds : Ds K F T) (i : Nat) (k : K) : Res (List F) :=
  let fi := fileIndex ds i
  (getItem ds.files fi).bind (fun o => (getItem ds.fileStart fi).bind (fun st =>
    (getItem o.seqStart (i - st)).bind (fun p => (getItem o.seqStart (i - st + 1)).bind (fun q =>
      (column nm ds o k).bind (fun c => .ok (slice c.1 (p.getD c.2 0) (q.getD c.2 0)))))))

/-- 397-406 `_get_tag_by_real_idx` -/
def getTag (ds : Ds K F T) (i : Nat) : Res T :=
  let fi := fileIndex ds i
  (getItem ds.files fi).bind (fun o => (getItem ds.fileStart fi).bind (fun st => getItem o.file.tags (i - st)))

/-! ### HDFDatasetWriter -/

/-- A source dataset: its (sorted) data keys, target list, and sequences. -/
structure Src (K F T : Type) where
  keys : List K
  targetList : List K
  seqs : List (T × (K → List F))

/-- 1454-1462 -/
def inputKey (nm : Names K) (inputs : List K) : Res (Option K) :=
  match inputs with
  | [] => .ok none
  | [k] => .ok (some k)
  | _ => if nm.data ∈ inputs then .ok (some nm.data) else .error (.other "Exception")

/-- 1472-1475: `hdf_data_key_map` for a key which is not the input key. -/
def keyMap (nm : Names K) (k : K) : K := if k = nm.data then nm.classes else k

/-- 1494-1505: the sequences which are written. -/
def selected (s : Src K F T) (start : Nat) (endSeq : Option Nat) : List (T × (K → List F)) :=
  match endSeq with
  | none => s.seqs.drop start
  | some e => (s.seqs.take (e + 1)).drop start

/-- 1485-1493: there is something to write, according to `start_seq`, `end_seq`. -/
def rangeOk (n start : Nat) (endSeq : Option Nat) : Bool :=
  match endSeq with
  | none => decide (start < n)
  | some e => decide (start < min n e)

/-- 1570-1586 for one key: write the sequences to an array, from some offset. -/
def writeAll : List (List F) → Nat → List F → List F
  | [], _, l => l
  | d :: ds, off, l => writeAll ds (off + d.length) (l.take off ++ d ++ l.drop (off + d.length))

/-- The array of one key: created with the total length, then filled. -/
def dumpArray (data : List (List F)) : List F := writeAll data 0 (List.replicate (data.map List.length).sum default)

/-- 1430-1594 `dump_from_dataset`, with the number of seqs known -/
def dump (nm : Names K) (s : Src K F T) (start : Nat) (endSeq : Option Nat) : Res (File K F T) :=
  if s.keys = [] then .error .assertion
  else
    let tgt := s.targetList.filter (fun k => decide (k ∈ s.keys))
    (inputKey nm (s.keys.filter (fun k => decide (k ∉ tgt)))).bind (fun ik =>
      let others := s.keys.filter (fun k => decide (ik ≠ some k))
      let tgt := tgt ++ s.keys.filter (fun k => decide (k ∉ tgt) && decide (ik ≠ some k))
      if nm.data ∈ others ∧ nm.classes ∈ others then .error .assertion
      else if rangeOk s.seqs.length start endSeq then
        let seqs := selected s start endSeq
        .ok { inputs := ik.map (fun k => dumpArray (seqs.map (fun q => q.2 k))),
              targets := some (others.map (fun k => (keyMap nm k, dumpArray (seqs.map (fun q => q.2 k))))),
              width := s.keys.length,
              lens := seqs.map (fun q => (ik.toList ++ sortKeys tgt).map (fun k => (q.2 k).length)),
              tags := seqs.map Prod.fst, numTimesteps := 0, numSeqs := 0 }
      else .error .assertion)

end Verif.Hdf
