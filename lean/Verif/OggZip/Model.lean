import Verif.Util.Dict
import Mathlib.Data.Rat.Floor
/-
Model of `OggZipDataset` of `returnn/datasets/audio.py`.

Simplifications for the whole file:
* strings and bytes are lists of numbers; a zip file is what it has as text document, and its other files;
* the shuffling with the fixed seed, the order for an epoch, the filter of the epoch, feature extraction, vocabulary and text encoding are functions given from outside;
* `duration` is a rational number; the first entry is only checked for the keys it has, not for types;
* not modelled: access without zip, the cache manager, random seeds, the cache of sequences of the base class, negative indices.
-/
namespace Verif.OggZip
open Verif Verif.Py

abbrev S := List Nat

/-! ## File names -/

/-- Position behind the last dot, for `splitext`: the part before it, and the part from the dot on. -/
def splitDot (s : S) : Option (S × S) :=
  match s.reverse.span (· ≠ 46) with
  | (_, []) => none
  | (ext, _ :: rest) => some (rest.reverse, 46 :: ext.reverse)

/-- `os.path.splitext` of a name without slashes: dots at the beginning are no extension. -/
def splitext (s : S) : S × S :=
  match splitDot s with
  | none => (s, [])
  | some (stem, ext) => if stem.all (· == 46) then (s, []) else (stem, ext)

/-- `_get_internal_ogg_zip_name_ext` of a base name. /repo/returnn/datasets/audio.py:565-571. -/
def nameExt (base : S) : S × S :=
  let r := splitext base
  if r.2 = [46, 103, 122] then
    match splitDot r.1 with
    | some (stem, ext) => (stem, ext ++ r.2)
    | none => r
  else r

/-- The text ".zip". -/
def extZip : S := [46, 122, 105, 112]

/-- The text ".txt.gz". -/
def extTxtGz : S := [46, 116, 120, 116, 46, 103, 122]

/-- The loop over the paths: names of the zip files with the index of their path, and separate text files (of two with the same name, the last one counts). /repo/returnn/datasets/audio.py:122-134. -/
def sortPaths : List (S × Option S) → Nat → Res (List (S × Nat) × Dict S Nat)
  | [], _ => .ok ([], [])
  | (base, content) :: t, i => do
    let ne := nameExt base
    let name := content.getD ne.1
    if ne.2 = extTxtGz then
      let r ← sortPaths t (i + 1)
      .ok (r.1, if r.2.contains name then r.2 else (name, i) :: r.2)
    else do
      pyAssert (decide (ne.2 = extZip))
      let r ← sortPaths t (i + 1)
      .ok ((name, i) :: r.1, r.2)

/-- The names of a dataset; there must be one. /repo/returnn/datasets/audio.py:112-139. -/
def sorted (paths : List (S × Option S)) : Res (List (S × Nat) × Dict S Nat) := do
  let r ← sortPaths paths 0
  if r.1 = [] then .error .indexError else .ok r

/-! ## Loading -/

/-- An entry of a text document. -/
structure Raw where
  text : S
  duration : ℚ
  file : Option S
  seqName : Option S

/-- An entry with `_zip_file_index`. -/
structure Entry where
  raw : Raw
  zip : Nat

/-- A zip file. -/
structure Zip where
  name : S
  txt : Option (List Raw)
  audio : Dict S S

/-- `fixed_random_subset`. -/
inductive Subset where
  | frac (x : ℚ)
  | num (n : Int)

/-- The options, and what is given from outside. -/
structure Cfg where
  zips : List Zip
  txts : Dict S (List Raw)
  segments : Option (List S)
  hasAudio : Bool
  hasTargets : Bool
  namePrefix : Bool
  subset : Option Subset
  shuffle : Nat → List Nat
  order : Nat → Nat → (Nat → Int) → List Nat
  filter : Option (Nat → List Nat → (Nat → Int) → List Nat)
  extract : S → List S
  getSeq : S → List Nat
  enc : S → List Nat

/-- `_get_tag_from_info_dict`. /repo/returnn/datasets/audio.py:404-409. -/
def Raw.tag (r : Raw) : S := r.seqName.getD (r.file.getD [])

/-- The check of the first entry. /repo/returnn/datasets/audio.py:216-227. -/
def checkFirst (hasAudio : Bool) (data : List Raw) : Res Unit := do
  match data with
  | [] => .error .assertion
  | e :: _ =>
    match e.file with
    | some _ => .ok ()
    | none => do
      pyAssert (!hasAudio)
      match e.seqName with
      | some _ => .ok ()
      | none => .error .keyError

/-- What is kept of a part: `if self.segments`. /repo/returnn/datasets/audio.py:235-236. -/
def inSegments (segments : Option (List S)) (e : Entry) : Bool :=
  match segments with
  | none => true
  | some [] => true
  | some l => l.contains e.raw.tag

/-- `_collect_data_part`: the separate text file comes before the one inside of the zip file; the latter is read with `_read`, a `KeyError` when it is not there. /repo/returnn/datasets/audio.py:188-214 -/
def document (c : Cfg) (z : Zip) : Res (List Raw) :=
  match c.txts.get? z.name, z.txt with
  | some d, _ => .ok d
  | none, some d => .ok d
  | none, none => .error .keyError

/-- `_collect_data_part`, with `_read` for the text document. /repo/returnn/datasets/audio.py:188-237. -/
def collectPart (c : Cfg) (i : Nat) (z : Zip) : Res (List Entry) := do
  let data ← document c z
  checkFirst c.hasAudio data
  .ok ((data.map (fun r => Entry.mk r i)).filter (inSegments c.segments))

/-- The loop over the zip files. /repo/returnn/datasets/audio.py:258-260. -/
def collectAll (c : Cfg) : Nat → List Zip → Res (List Entry)
  | _, [] => .ok []
  | i, z :: t => do
    let d ← collectPart c i z
    let r ← collectAll c (i + 1) t
    .ok (d ++ r)

/-- How many sequences of the shuffled ones: `none` when the option is not used. /repo/returnn/datasets/audio.py:270-278. -/
def subsetCount (s : Option Subset) (len : Nat) : Res (Option Nat) :=
  match s with
  | none => .ok none
  | some (.frac x) =>
    if x = 0 then .ok none
    else if 0 < x ∧ x < 1 then
      let n := ((len : ℚ) * x).floor
      if 0 < n then .ok (some n.toNat) else .error .assertion
    else .error .assertion
  | some (.num n) => if n = 0 then .ok none else if 0 < n then .ok (some n.toNat) else .error .assertion

/-- `_lazy_init`: the data. /repo/returnn/datasets/audio.py:239-279. -/
def load (c : Cfg) : Res (List Entry) := do
  let data ← collectAll c 0 c.zips
  pyAssert (decide (0 < data.length))
  match ← subsetCount c.subset data.length with
  | none => .ok data
  | some n => .ok (((c.shuffle data.length).filterMap (fun i => data[i]?)).take n)

/-! ## The dataset -/

/-- The state: `_data`, `_seq_index_by_tag`, `_seq_order`, `_num_seqs`. -/
structure St where
  data : Option (List Entry)
  index : Option (Dict S Nat)
  seqOrder : Option (List Nat)
  numSeqs : Option Nat

/-- After `__init__`. -/
def St.init : St := ⟨none, none, none, none⟩

/-- `_lazy_init`. /repo/returnn/datasets/audio.py:239-279. -/
def lazyInit (c : Cfg) (s : St) : Res (St × List Entry) :=
  match s.data with
  | some d => .ok (s, d)
  | none => do
    let d ← load c
    .ok ({ s with data := some d }, d)

/-- The dict of tags, from entries which start at `i`. /repo/returnn/datasets/audio.py:310. -/
def mkIndex : List Entry → Nat → Dict S Nat → Dict S Nat
  | [], _, d => d
  | e :: t, i, d => mkIndex t (i + 1) (d.set e.raw.tag i)

/-- `_lazy_init_seq_index_by_tag`. /repo/returnn/datasets/audio.py:307-310. -/
def lazyIndex (s : St) (data : List Entry) : St × Dict S Nat :=
  match s.index with
  | some d => (s, d)
  | none => ({ s with index := some (mkIndex data 0 []) }, mkIndex data 0 [])

/-- `int(duration * 100)`. -/
def pyInt (q : ℚ) : Int := if 0 ≤ q then q.floor else q.ceil

/-- `get_seq_len`; outside of the data it is not called. /repo/returnn/datasets/audio.py:338-346. -/
def seqLen (data : List Entry) (i : Nat) : Int :=
  match data[i]? with
  | some e => pyInt (e.raw.duration * 100)
  | none => 0

/-- The indices of all tags, or an assertion. /repo/returnn/datasets/audio.py:351-356. -/
def lookupTags (d : Dict S Nat) : List S → Res (List Nat)
  | [] => .ok []
  | t :: ts =>
    match d.get? t with
    | none => .error .assertion
    | some i => do
      let r ← lookupTags d ts
      .ok (i :: r)

/-- The order of an epoch, with the filter. /repo/returnn/datasets/audio.py:358-364. -/
def epochOrder (c : Cfg) (data : List Entry) (epoch : Nat) : List Nat :=
  let o := c.order epoch data.length (seqLen data)
  match c.filter with
  | some f => f epoch o (seqLen data)
  | none => o

/-- `init_seq_order`. `epoch` without value is epoch 1. /repo/returnn/datasets/audio.py:312-367. -/
def initSeqOrder (c : Cfg) (s : St) (epoch : Option Nat) (seqList : Option (List S)) (seqOrder : Option (List Nat)) : Res St :=
  if epoch.isNone && seqList.isNone && seqOrder.isNone then .ok { s with numSeqs := some 0 }
  else do
    let (s, data) ← lazyInit c s
    match seqOrder, seqList with
    | some o, _ => .ok { s with seqOrder := some o, numSeqs := some o.length }
    | none, some l => do
      let (s, d) := lazyIndex s data
      let o ← lookupTags d l
      .ok { s with seqOrder := some o, numSeqs := some o.length }
    | none, none =>
      let o := epochOrder c data (epoch.getD 1)
      .ok { s with seqOrder := some o, numSeqs := some o.length }

/-- `finish_epoch`. /repo/returnn/datasets/audio.py:281-290. -/
def finishEpoch (s : St) (free : Bool) : St :=
  if free then { s with seqOrder := none, numSeqs := some 0, data := none } else { s with seqOrder := none, numSeqs := some 0 }

/-- A sequence. -/
structure Seq where
  seqIdx : Nat
  tag : S
  data : Option (List S)
  classes : Option (List Nat)
  raw : S
  orth : List Nat
deriving DecidableEq

/-- `_open_audio_file`, with `_read`. /repo/returnn/datasets/audio.py:507-520. -/
def readAudio (c : Cfg) (e : Entry) : Res S :=
  match c.zips[e.zip]?, e.raw.file with
  | some z, some f => z.audio.getItem (if c.namePrefix then z.name ++ [47] ++ f else f)
  | none, _ => .error .indexError
  | _, none => .error .keyError

/-- The features. -/
def features (c : Cfg) (e : Entry) : Res (Option (List S)) :=
  if c.hasAudio then
    match readAudio c e with
    | .ok b => .ok (some (c.extract b))
    | .error err => .error err
  else .ok none

/-- A sequence from an entry. /repo/returnn/datasets/audio.py:490-505, 545-562. -/
def makeSeq (c : Cfg) (i : Nat) (e : Entry) : Res Seq := do
  let d ← features c e
  .ok ⟨i, e.raw.tag, d, if c.hasTargets then some (c.getSeq e.raw.text) else none, e.raw.text, c.enc e.raw.text⟩

/-- `get_corpus_seq`. /repo/returnn/datasets/audio.py:538-562. -/
def corpusSeq (c : Cfg) (s : St) (i : Nat) : Res (St × Seq) := do
  let (s, data) ← lazyInit c s
  match data[i]? with
  | none => .error .indexError
  | some e => do
    let q ← makeSeq c i e
    .ok (s, q)

/-- `_get_ref_seq_idx`. /repo/returnn/datasets/audio.py:384-390. -/
def refIdx (s : St) (i : Nat) : Res Nat :=
  match s.seqOrder with
  | none => .error .typeError
  | some o =>
    match o[i]? with
    | none => .error .indexError
    | some j => .ok j

/-- `_collect_single_seq`. /repo/returnn/datasets/audio.py:522-530. -/
def collectSeq (c : Cfg) (s : St) (i : Nat) : Res (St × Seq) := do
  let j ← refIdx s i
  let (s, q) ← corpusSeq c s j
  .ok (s, { q with seqIdx := i })

/-- `get_tag`. /repo/returnn/datasets/audio.py:411-416. -/
def getTag (s : St) (i : Nat) : Res S := do
  let j ← refIdx s i
  match s.data with
  | none => .error .typeError
  | some d =>
    match d[j]? with
    | none => .error .indexError
    | some e => .ok e.raw.tag

/-- `get_all_tags`. /repo/returnn/datasets/audio.py:418-423. -/
def allTags (c : Cfg) (s : St) : Res (St × List S) := do
  let (s, d) ← lazyInit c s
  .ok (s, d.map (fun e => e.raw.tag))

end Verif.OggZip
