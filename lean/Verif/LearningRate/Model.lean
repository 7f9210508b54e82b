import Verif.Util.Dict
import Mathlib.Algebra.Order.Field.Rat
import Mathlib.Algebra.Order.Ring.Abs
/-
Model of `returnn/learning_rate_control.py` : the scheduling logic.

Simplifications (for the whole file): floats are exact rationals (no NaN, no infinities, no rounding; the default
`filter_score=inf` is `none`); a learning rate of an `EpochData` is always a number (the constructor, lines 50-51,
enforces that, so the `is None` checks of lines 323, 556, 599, 651 are dead code and are left out); printing is left out;
`meta` is not read by the scheduling logic and is modelled in `LearningRate/Save.lean`.
-/
namespace Verif.LearningRate
open Verif.Py

/-- `s.startswith(pre)`. -/
def startsWith (pre s : String) : Bool := pre.toList.isPrefixOf s.toList

/-- learning_rate_control.py:24-69 `EpochData` (without `meta`). -/
structure EpochData where
  lr : ℚ
  error : Dict String ℚ
deriving DecidableEq, Repr

/-- learning_rate_control.py:140 `self.epoch_data`. -/
abbrev Data := Dict Int EpochData

/-- learning_rate_control.py:186-200: the type of `learning_rate_decay` / `learning_rate_growth`.
`other`: neither `None`, nor float, nor callable (e.g. the int `1`). -/
inductive Update where
  | none
  | factor (f : ℚ)
  | func (f : ℚ → ℚ)
  | other

/-- learning_rate_control.py:123,132 `error_measure_key`. -/
inductive ErrKey where
  | none
  | one (k : String)
  | many (ks : List String)
deriving DecidableEq, Repr

/-- learning_rate_control.py:116-128: the constructor arguments which the scheduling logic reads. -/
structure Cfg where
  defaultLr : ℚ
  minLr : ℚ
  errKey : ErrKey
  relLr : Bool
  minNum : Int
  divByOld : Bool
  decay : Update
  growth : Update

/-- learning_rate_control.py:537,562,613,667: the four control classes and their own options. -/
inductive Control where
  | constant
  | relative (threshold : ℚ)
  | abs (threshold : ℚ)
  | multi (numEpochs interval : Nat) (threshold growThreshold : ℚ)

/-- learning_rate_control.py:185-200 `_calc_learning_rate_update`. -/
def calcUpdate (lr : ℚ) : Update → Res ℚ
  | .none => .ok lr
  | .factor f => .ok (lr * f)
  | .func f => .ok (f lr)
  | .other => .error .assertion

/-- learning_rate_control.py:218-237 `calc_learning_rate_decay_or_grow`; `grow = none` is the Python default. -/
def decayOrGrow (c : Cfg) (lr : ℚ) (decay : Bool) (grow : Option Bool) : Res ℚ := do
  let grow := match grow with
    | none => !decay
    | some g => g
  pyAssert (!(grow && decay))
  let lr ← if decay then do
      let lr ← calcUpdate lr c.decay
      pure (if lr < c.minLr then c.minLr else lr)
    else pure lr
  if grow then calcUpdate lr c.growth else pure lr

/-- learning_rate_control.py:270, 305: `sorted([e for e in self.epoch_data.keys() if e < epoch])`. -/
def epochsBefore (d : Data) (e : Int) : List Int :=
  stableSort (fun a b => decide (a ≤ b)) (d.keys.filter (fun k => decide (k < e)))

/-- learning_rate_control.py:263-274 `_last_epochs_for_epoch`; only called with `num_epochs ≥ 2` (lines 253, 726),
so that `l[-num_epochs:]` are the last `num_epochs` entries. -/
def lastEpochs (d : Data) (e : Int) (num : Nat) : List Int :=
  (epochsBefore d e).drop ((epochsBefore d e).length - num)

/-- learning_rate_control.py:299-308 `get_last_epoch`. -/
def getLastEpoch (d : Data) (e : Int) : Option Int := (epochsBefore d e).getLast?

/-- learning_rate_control.py:310-326 `get_most_recent_learning_rate`. -/
def mostRecentLr (c : Cfg) (d : Data) (e : Int) (excludeCurrent : Bool) : ℚ :=
  match ((stableSort (fun a b => decide (a.1 ≤ b.1)) d).reverse).find?
      (fun p => !(decide (p.1 > e) || (excludeCurrent && decide (p.1 = e)))) with
  | some p => p.2.lr
  | none => c.defaultLr

/-- Python `sorted(keys)` for strings. -/
def sortedKeys (ks : List String) : List String := stableSort (fun a b => decide (a ≤ b)) ks

/-- learning_rate_control.py:395-403: the candidate keys from the config, then the default ones. -/
def candidateKeys (c : Cfg) : List String :=
  (match c.errKey with
    | .none => []
    | .one k => [k, k ++ "_output"]
    | .many ks => ks.flatMap (fun k => [k, k ++ "_output"])) ++ ["dev_score", "dev_score_output"]

/-- learning_rate_control.py:390-419 `get_error_key` for an epoch with data. -/
def errorKeyOf (c : Cfg) (err : Dict String ℚ) : Option String :=
  if err.isEmpty then none
  else if err.length = 1 && err.contains "old_format_score" then some "old_format_score"
  else
    ((candidateKeys c).find? (fun k => err.contains k)).or <|
    ((sortedKeys err.keys).find? (fun k =>
      decide (k = "dev_score_output/output") || startsWith "dev_score_output/output_" k)).or <|
    ((sortedKeys err.keys).find? (startsWith "dev_score_output/")).or <|
    ((sortedKeys err.keys).find? (startsWith "dev_")).or <|
    (["train_score", "train_score_output"].find? (fun k => err.contains k)).or <|
    (sortedKeys err.keys).head?

/-- learning_rate_control.py:379-419 `get_error_key`. -/
def getErrorKey (c : Cfg) (d : Data) (e : Int) : Res (Option String) :=
  match d.get? e with
  | none =>
    match c.errKey with
    | .none => .ok none
    | .one k => .ok (some k)
    | .many ks => match ks with
      | [] => .error .indexError
      | k :: _ => .ok (some k)
  | some x => .ok (errorKeyOf c x.error)

/-- learning_rate_control.py:449-466 `get_epoch_error_key_value`. -/
def errorKeyValue (c : Cfg) (d : Data) (e : Int) : Res (Option (String × ℚ)) :=
  match d.get? e with
  | none => .ok none
  | some x =>
    if x.error.isEmpty then .ok none
    else match errorKeyOf c x.error with
      | none => .error .assertion
      | some k =>
        if k = "" then .error .assertion
        else match x.error.get? k with
          | none => .error .assertion
          | some v => .ok (some (k, v))

/-- Python `a / b` for floats. -/
def fdiv (a b : ℚ) : Res ℚ := if b = 0 then .error .zeroDivision else .ok (a / b)

/-- learning_rate_control.py:328-351 `calc_relative_error`. -/
def calcRelativeError (c : Cfg) (d : Data) (old new : Int) : Res (Option ℚ) := do
  let o ← errorKeyValue c d old
  let n ← errorKeyValue c d new
  match o, n with
  | some (ok, ov), some (nk, nv) =>
    if ok ≠ nk then pure none
    else do
      let rel ← if c.divByOld then fdiv (nv - ov) |ov| else fdiv (nv - ov) |nv|
      if c.relLr then
        let lr := mostRecentLr c d new false
        if lr > 0 then do
          let q ← fdiv lr c.defaultLr
          let rel ← fdiv rel q
          pure (some rel)
        else pure (some rel)
      else pure (some rel)
  | _, _ => pure none

/-- learning_rate_control.py:707-717 `_calc_mean_relative_error`: the relative errors of neighbouring epochs. -/
def relErrors (c : Cfg) (d : Data) : List Int → Res (List (Option ℚ))
  | a :: b :: l => do
    let r ← calcRelativeError c d a b
    let rs ← relErrors c d (b :: l)
    pure (r :: rs)
  | _ => .ok []

/-- `numpy.mean`. -/
def mean (l : List ℚ) : ℚ := l.sum / l.length

/-- learning_rate_control.py:707-732 `_calc_mean_relative_error`, `_calc_recent_mean_relative_error`. -/
def recentMean (c : Cfg) (d : Data) (numEpochs : Nat) (e : Int) : Res (Option ℚ) :=
  let l := lastEpochs d e (numEpochs + 1)
  if l.length ≤ 1 then .ok none
  else do
    let errs ← relErrors c d l
    if errs.any Option.isNone then pure none
    else pure (some (mean (errs.filterMap id)))

/-- learning_rate_control.py:544-559, 588-610, 639-664, 734-753 `calc_learning_rate_for_epoch` of the four classes.
The `update_interval` test is on `Nat`-like Python `%` (the modulus is ≥ 1). -/
def calcLr (k : Control) (c : Cfg) (d : Data) (e : Int) : Res ℚ :=
  match k with
  | .constant =>
    match getLastEpoch d e with
    | none => .ok c.defaultLr
    | some p => do
      let x ← d.getItem p
      pure x.lr
  | .relative thr =>
    match getLastEpoch d e with
    | none => .ok c.defaultLr
    | some p => do
      let x ← d.getItem p
      match getLastEpoch d p with
      | none => pure x.lr
      | some p2 => do
        match ← calcRelativeError c d p2 p with
        | none => pure x.lr
        | some r => decayOrGrow c x.lr (decide (r > thr)) none
  | .abs thr =>
    match getLastEpoch d e with
    | none => .ok c.defaultLr
    | some p => do
      let x ← d.getItem p
      match getLastEpoch d p with
      | none => pure x.lr
      | some p2 => do
        let o ← errorKeyValue c d p2
        let n ← errorKeyValue c d p
        match o, n with
        | some (ok, ov), some (nk, nv) =>
          if ok ≠ nk then pure x.lr
          else decayOrGrow c x.lr (decide (nv - ov > thr)) none
        | _, _ => pure x.lr
  | .multi num interval thr growThr =>
    let lr := mostRecentLr c d e true
    if interval > 1 && decide (e % (interval : Int) ≠ 1) then .ok lr
    else do
      match ← recentMean c d num e with
      | none => pure lr
      | some m => decayOrGrow c lr (decide (m > thr)) (some (decide (m < growThr)))

/-- `len(set(l)) >= 2`. -/
def atLeastTwo (l : List ℚ) : Bool := l.any (fun x => l.any (fun y => decide (x ≠ y)))

/-- learning_rate_control.py:254-257: the learning rates of the given epochs. -/
def lrsOf (d : Data) : List Int → Res (List ℚ)
  | [] => .ok []
  | e :: l => do
    let x ← d.getItem e
    let r ← lrsOf d l
    pure (x.lr :: r)

/-- learning_rate_control.py:247-261 `calc_new_learning_rate_for_epoch`. -/
def calcNewLr (k : Control) (c : Cfg) (d : Data) (e : Int) : Res ℚ := do
  if c.minNum > 1 then do
    let lrs ← lrsOf d (lastEpochs d e c.minNum.toNat)
    if atLeastTwo lrs || (decide (0 < lrs.length) && decide ((lrs.length : Int) < c.minNum)) then
      match lrs.getLast? with
      | some lr => pure lr
      | none => .error .indexError
    else calcLr k c d e
  else calcLr k c d e

/-- learning_rate_control.py:288-297 `set_default_learning_rate_for_epoch`. -/
def setDefault (d : Data) (e : Int) (lr : ℚ) : Data :=
  match d.get? e with
  | some x => if x.lr = 0 then d.set e { x with lr := lr } else d
  | none => d.set e ⟨lr, []⟩

/-- learning_rate_control.py:276-286 `get_learning_rate_for_epoch`: the rate, and the new state. -/
def getLr (k : Control) (c : Cfg) (d : Data) (e : Int) : Res (ℚ × Data) := do
  pyAssert (decide (e ≥ 1))
  match d.get? e with
  | some x => pure (x.lr, d)
  | none => do
    let lr ← calcNewLr k c d e
    pure (lr, setDefault d e lr)

/-- A score given to `set_epoch_error`: a number, or a dict over the losses. -/
inductive Score where
  | num (v : ℚ)
  | dict (v : Dict String ℚ)
deriving DecidableEq, Repr

/-- learning_rate_control.py:370-371: `k1[k1.index(":") + 1:]` if there is a colon. -/
def stripColon (k : String) : String :=
  if ':' ∈ k.toList then String.ofList ((k.toList.dropWhile (fun ch => decide (ch ≠ ':'))).drop 1) else k

/-- learning_rate_control.py:363-372: one iteration of the flattening loop. -/
def flattenStep (err : Dict String Score) (kv : String × Score) : Dict String Score :=
  match kv.2 with
  | .num _ => err
  | .dict v =>
    let err := err.erase kv.1
    match v with
    | [(_, x)] => err.set kv.1 (.num x)
    | _ => v.foldl (fun err e => err.set (kv.1 ++ "_" ++ stripColon e.1) (.num e.2)) err

/-- learning_rate_control.py:362-372: the flattening loop, over a snapshot of the items. -/
def flatten (err : Dict String Score) : Dict String Score := err.foldl flattenStep err

/-- learning_rate_control.py:373-374: all values are floats now. -/
def toNums : Dict String Score → Res (Dict String ℚ)
  | [] => .ok []
  | (k, .num v) :: l => do
    let r ← toNums l
    pure ((k, v) :: r)
  | (_, .dict _) :: _ => .error .assertion

/-- Python `d.update(other)`. -/
def updateDict {V : Type _} (d other : Dict String V) : Dict String V := other.foldl (fun d e => d.set e.1 e.2) d

/-- learning_rate_control.py:353-377 `set_epoch_error`. -/
def setError (k : Control) (c : Cfg) (d : Data) (e : Int) (err : Dict String Score) : Res Data := do
  let d ← if d.contains e then pure d else do
    let r ← getLr k c d e
    pure r.2
  let nums ← toNums (flatten err)
  let x ← d.getItem e
  pure (d.set e { x with error := updateDict x.error nums })

/-- learning_rate_control.py:155-162: the constructor sets the rates of `default_learning_rates`
(after loading the file). -/
def initData (loaded : Data) (lrs : List (Int × ℚ)) : Data := lrs.foldl (fun d p => setDefault d p.1 p.2) loaded

/-- One call of the API by the engine. -/
inductive Op where
  | getLr (e : Int)
  | setError (e : Int) (err : Dict String Score)
  | setDefault (e : Int) (lr : ℚ)

/-- The state after one call. -/
def step (k : Control) (c : Cfg) (d : Data) : Op → Res Data
  | .getLr e => do
    let r ← getLr k c d e
    pure r.2
  | .setError e err => setError k c d e err
  | .setDefault e lr => .ok (setDefault d e lr)

/-- The state after a list of calls. -/
def runOps (k : Control) (c : Cfg) : Data → List Op → Res Data
  | d, [] => .ok d
  | d, o :: os => do
    let d ← step k c d o
    runOps k c d os

/-- A comparison `v <= filter_score` (`none` is `inf`). -/
def leFilter (v : ℚ) : Option ℚ → Bool
  | none => true
  | some f => decide (v ≤ f)

/-- learning_rate_control.py:491-494: the epochs of the range which have a score, with key and value. -/
def scoredEpochs (c : Cfg) (d : Data) : List Int → Res (List ((String × ℚ) × Int))
  | [] => .ok []
  | e :: l => do
    let kv ← errorKeyValue c d e
    let r ← scoredEpochs c d l
    match kv with
    | some p => pure ((p, e) :: r)
    | none => pure r

/-- Python `min` over `(value, epoch)` tuples. -/
def minPair : List (ℚ × Int) → Option (ℚ × Int)
  | [] => none
  | p :: l => some (l.foldl (fun m q => if q.1 < m.1 ∨ (q.1 = m.1 ∧ q.2 < m.2) then q else m) p)

/-- learning_rate_control.py:487-488: `only_last_epochs` moves the first epoch. -/
def firstOf (last first : Int) : Option Int → Int
  | none => first
  | some n => if n = 0 then first else max first (last - n + 1)

/-- learning_rate_control.py:468-507 `get_last_best_epoch`; `only_last_epochs = none` or `0` is "not set". -/
def lastBest (c : Cfg) (d : Data) (last first : Int) (onlyLast : Option Int) (filterScore : Option ℚ)
    (onlyLastN : Int) (minDist : ℚ) : Res (Option Int) :=
  let first := firstOf last first onlyLast
  if first > last then .ok none
  else do
    let values ← scoredEpochs c d ((List.range (last - first + 1).toNat).map (fun i : Nat => first + (i : Int)))
    match values.getLast? with
    | none => pure none
    | some ((lastKey, latest), _) =>
      let vs := (values.filter (fun p => decide (p.1.1 = lastKey))).map (fun p => (p.1.2, p.2))
      let vs := vs.filter (fun p => leFilter p.1 filterScore)
      if vs.isEmpty then pure none
      else
        let vs := if onlyLastN ≥ 1 then vs.drop (vs.length - onlyLastN.toNat) else vs
        let vs := vs.filter (fun p => decide (p.1 + minDist < latest))
        pure ((minPair vs).map Prod.snd)

end Verif.LearningRate
