import Verif.Util.Dict
import Verif.LearningRate.Model
import Verif.MathUtil.Model
import Mathlib.Data.Nat.Digits.Defs
import Mathlib.Data.List.Dedup
/-
Model of `returnn/engine/base.py`: which model to load, where to resume the training, and which models to clean up.

Simplifications (for the whole file): config values have the right type (`config.int`, `config.value` are field
accesses; an option which is not set has its default); the `win32` special case of `epoch_model_filename` is left out;
scores are exact rationals without NaN; printing is left out.
-/
namespace Verif.Engine
open Verif.Py

/-- util/basic.py `BackendEngine`: the selected engine. -/
inductive Backend where
  | tf
  | torch
  | other
deriving DecidableEq, Repr

/-- The config options which base.py:63-226 reads. `startEpoch = none` is "auto"; `loadEpoch = none`: not set. -/
structure Cfg where
  backend : Backend
  train : Bool
  model : String
  numEpochs : Int := 5
  loadEpoch : Option Int := none
  startEpoch : Option Int := none
  load : String := ""
  importEpoch1 : String := ""
  startBatchAuto : Bool := true

/-- The file system, as base.py sees it: `os.path.exists`, and the name (without extension) to which
`model_epoch_from_filename` (util/basic.py:793-800) resolves symbolic links. -/
structure Fs where
  ex : String → Bool
  resolve : String → String := id

/-- `"%03d" % n` for `n ≥ 0` (base.py:239). -/
def pad3 (n : Nat) : List Char :=
  let ds := (Nat.digits 10 n).reverse.map Nat.digitChar
  List.replicate (3 - ds.length) '0' ++ ds

/-- base.py:228-239 `epoch_model_filename`. -/
def epochFile (model : String) (e : Int) (pretrain : Bool) : String :=
  model ++ (if pretrain then ".pretrain" else "") ++ "." ++ String.ofList (pad3 e.toNat)

/-- `[0-9]`. -/
def isDig (c : Char) : Bool := decide ('0' ≤ c) && decide (c ≤ '9')

/-- util/basic.py:801 `re.match(".*\\.([0-9]+)", filename)`: the digits after the last dot which has digits after it
(`.*` is greedy). Simplified: names without newlines. -/
def dotDigits : List Char → Option (List Char)
  | [] => none
  | c :: cs =>
    match dotDigits cs with
    | some ds => some ds
    | none => if c = '.' ∧ cs.head?.any isDig then some (cs.takeWhile isDig) else none

/-- `int(s)` for a string of digits. -/
def parseDigits (ds : List Char) : Nat := ds.foldl (fun a c => 10 * a + (c.toNat - 48)) 0

/-- util/basic.py:780-804 `model_epoch_from_filename`. -/
def epochFromFilename (fs : Fs) (fn : String) : Option Int :=
  (dotDigits (fs.resolve fn).toList).map (fun ds => (parseDigits ds : Int))

/-- Python `s[:-len(suf)] if s.endswith(suf)`. -/
def dropSuffix (suf s : String) : Option String :=
  if suf.toList.isSuffixOf s.toList then some (String.ofList (s.toList.take (s.toList.length - suf.toList.length)))
  else none

/-- util/basic.py:360-374 `get_checkpoint_filepattern`. -/
def filepattern (s : String) : String :=
  (((dropSuffix ".meta" s).or (dropSuffix ".index" s)).or (dropSuffix ".pt" s)).getD s

/-- util/basic.py:346-357 `get_model_filename_postfix`. -/
def modelPostfix : Backend → String
  | .tf => ".meta"
  | .torch => ".pt"
  | .other => ""

/-- base.py:64-72 `config_get_final_epoch`. -/
def finalEpoch (c : Cfg) : Int :=
  match c.loadEpoch with
  | some e => max c.numEpochs e
  | none => c.numEpochs

/-- base.py:92-108: the inner loop of `get_existing_models` over the names of one epoch. -/
def firstExisting (b : Backend) (ex : String → Bool) (forTraining : Bool) : List String → Option String
  | [] => none
  | fn :: fns =>
    if ex fn then some fn
    else match b with
      | .tf => if ex (fn ++ ".index") then some fn else firstExisting b ex forTraining fns
      | .torch =>
        if ex (fn ++ ".pt") then
          if forTraining && !ex (fn ++ ".opt.pt") then firstExisting b ex forTraining fns else some fn
        else firstExisting b ex forTraining fns
      | .other => firstExisting b ex forTraining fns

/-- base.py:92-93: the names of one epoch. -/
def epochNames (c : Cfg) (e : Int) : List String :=
  match c.backend with
  | .tf => [epochFile c.model e false, epochFile c.model e true]
  | _ => [epochFile c.model e false]

/-- `range(1, n + 1)`. -/
def epochRange (n : Int) : List Int := (List.range n.toNat).map (fun i : Nat => (i : Int) + 1)

/-- base.py:74-109 `get_existing_models`: the epochs with a model, ascending, with the file names. -/
def existingModels (c : Cfg) (fs : Fs) (forTraining : Bool) : List (Int × String) :=
  if c.model = "" then []
  else (epochRange (finalEpoch c)).filterMap
    (fun e => (firstExisting c.backend fs.ex forTraining (epochNames c e)).map (fun fn => (e, fn)))

/-- base.py:111-122 `get_start_epoch_no_existing_model`. -/
def startEpochNoModel (c : Cfg) : Res Int :=
  match c.startEpoch with
  | none => .ok 1
  | some s => if s ≥ 1 then .ok s else .error .assertion

/-- base.py:150-159: the epoch and the file name given by `load` / `load_epoch` (`""`: none). -/
def loadOpts (c : Cfg) (fs : Fs) (existing : List (Int × String)) : Res (Option Int × String) :=
  let load := filepattern c.load
  let le := c.loadEpoch.getD (-1)
  if load ≠ "" then
    .ok (if le ≤ 0 then epochFromFilename fs load else some le, load)
  else if le > 0 then
    match Dict.get? existing le with
    | none => .error .assertion
    | some fn => if epochFromFilename fs fn = some le then .ok (some le, fn) else .error .assertion
  else .ok (some le, "")

/-- base.py:161-191: the choice of the model. -/
def chooseModel (c : Cfg) (existing : List (Int × String)) (le : Option Int) (load : String) :
    Option Int × Option String :=
  if load ≠ "" ∧ (c.train = false ∨ c.startEpoch.isSome) then
    (if c.train ∧ c.startEpoch.isSome then none else le, some load)
  else match existing.getLast? with
    | some (e, fn) => (some e, some fn)
    | none =>
      if c.train ∧ filepattern c.importEpoch1 ≠ "" ∧ (c.startEpoch = none ∨ c.startEpoch = some 1) then
        (some 0, some (filepattern c.importEpoch1))
      else if load ≠ "" then (le, some load)
      else (none, none)

/-- base.py:193-203: the explicit `start_epoch`. -/
def applyStart (c : Cfg) (existing : List (Int × String)) (m : Option Int × Option String) :
    Res (Option Int × Option String) :=
  let truthy := m.1 ≠ none ∧ m.1 ≠ some 0
  match c.startEpoch with
  | none => .ok m
  | some s =>
    if s = 1 then
      if truthy then .ok (none, none) else .ok m
    else if s > 1 then
      if truthy then
        match Dict.get? existing (s - 1) with
        | none => .error .keyError
        | some fn => .ok (some (s - 1), some fn)
      else .ok m
    else .ok m

/-- base.py:124-203 `get_epoch_model`. -/
def getEpochModel (c : Cfg) (fs : Fs) : Res (Option Int × Option String) := do
  let _ ← startEpochNoModel c
  let load := filepattern c.load
  pyAssert (decide (load = "") || (fs.ex (load ++ modelPostfix c.backend) || fs.ex load))
  let imp := filepattern c.importEpoch1
  pyAssert (decide (imp = "") || fs.ex (imp ++ modelPostfix c.backend))
  let existing := existingModels c fs c.train
  let (le, load) ← loadOpts c fs existing
  applyStart c existing (chooseModel c existing le load)

/-- base.py:205-226 `get_train_start_epoch`. -/
def trainStartEpoch (c : Cfg) (fs : Fs) : Res Int := do
  if c.startBatchAuto then do
    let m ← getEpochModel c fs
    match m.1 with
    | none => pure 1
    | some e => pure (e + 1)
  else .error (.other "start_batch")

/-! ### `cleanup_old_models` -/

/-- The options of `cleanup_old_models` (base.py:325, 335-336, 372, 421-422). `unknownOpts`: the option dict has
other keys. -/
structure CleanupOpts where
  keepLastN : Int := 2
  keepBestN : Int := 4
  keep : Option (List Int) := none
  unknownOpts : Bool := false
  dryRun : Bool := false

/-- base.py:350-361: `keep_every` and `keep_doubles_of`. -/
def keepParams (last : Int) : Int × Int :=
  if last ≤ 10 then (4, 5)
  else if last ≤ 50 then (20, 5)
  else if last ≤ 100 then (40, 10)
  else (80 * MathUtil.nextPowerOfTwo (1 + last / 240), 20)

/-- base.py:362-366, 367-371: the two loops over `count`, until the value `f i` exceeds `last`. The fuel is enough
for the functions used here. -/
def countLoop (f : Nat → Int) (last : Int) : Nat → Nat → List Int
  | _, 0 => []
  | i, fuel + 1 => if f i > last then [] else f i :: countLoop f last (i + 1) fuel

/-- base.py:349-371: the default keep pattern, for the last stored epoch. -/
def keepPattern (last : Int) : List Int :=
  let p := keepParams last
  countLoop (fun i => p.1 * (i : Int)) last 1 last.toNat ++ countLoop (fun i => p.2 * 2 ^ i) last 0 last.toNat

/-- base.py:374-379: all score keys, sorted. The set is a list without duplicates. -/
def scoreKeys (d : LearningRate.Data) : List String :=
  stableSort (fun a b => decide (a ≤ b)) (d.flatMap (fun p => p.2.error.keys)).dedup

/-- base.py:381-384: the score dicts of the stored epochs. -/
def epochScores (d : LearningRate.Data) : List Int → Res (List (Dict String ℚ))
  | [] => .ok []
  | e :: l => do
    let x ← d.getItem e
    let r ← epochScores d l
    pure (x.error :: r)

/-- Python `max` of a non-empty list. -/
def maxOf : List ℚ → ℚ
  | [] => 0
  | x :: l => l.foldl max x

/-- base.py:385-396: a key is ignored if there are no scores or all are the same. -/
def useful (scores : List ℚ) : Bool :=
  match scores with
  | [] => false
  | x :: l => l.any (fun y => decide (y ≠ x))

/-- base.py:401-405: the best epochs for one key. -/
def bestFor (d : LearningRate.Data) (epochs : List Int) (scores : List (Dict String ℚ)) (key : String) (n : Nat) :
    List Int :=
  let worst := maxOf (scores.filterMap (fun s => s.get? key))
  let ranked := stableSort (fun a b => decide (a.1 < b.1 ∨ (a.1 = b.1 ∧ a.2 ≤ b.2)))
    (epochs.map (fun e => (((d.get? e).bind (fun x => x.error.get? key)).getD worst, e)))
  (ranked.take n).map Prod.snd

/-- base.py:372-373, 385-405: everything which is to be kept. -/
def keepList (o : CleanupOpts) (d : LearningRate.Data) (epochs : List Int) (last : Int)
    (scores : List (Dict String ℚ)) : List Int :=
  let keep := o.keep.getD (keepPattern last)
  let keep := keep ++ epochs.drop (epochs.length - o.keepLastN.toNat)
  let keys := (scoreKeys d).filter (fun k => useful (scores.filterMap (fun s => s.get? k)))
  keep ++ keys.flatMap (fun k => bestFor d epochs scores k o.keepBestN.toNat)

/-- base.py:315-429 `cleanup_old_models`: the epochs whose models are deleted, in this order.
`epochs`: the stored epochs (line 331), ascending. -/
def cleanup (o : CleanupOpts) (d : LearningRate.Data) (epochs : List Int) : Res (List Int) :=
  match epochs.getLast? with
  | none => .ok []
  | some last => do
    pyAssert (decide (o.keepLastN ≥ 1) && decide (o.keepBestN ≥ 0))
    if max o.keepLastN o.keepBestN ≥ (epochs.length : Int) then pure []
    else do
      pyAssert (!(scoreKeys d).isEmpty)
      let scores ← epochScores d epochs
      let keep := keepList o d epochs last scores
      let remove := epochs.filter (fun e => !keep.contains e)
      if remove.isEmpty then pure []
      else do
        pyAssert (!o.unknownOpts)
        if o.dryRun then pure [] else pure remove

end Verif.Engine
