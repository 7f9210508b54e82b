import Verif.Util.Py
/-
Model of `CachedDataset2`, `returnn/datasets/cached2.py` 20-273, together with `Dataset.load_seqs` (`returnn/datasets/basic.py`
440-460) for `shuffle_frames_of_nseqs = 0` and `Dataset.is_less_than_num_seqs` (1100-1109).
The subclass is given by the list of its sequences in the current epoch: `_collect_single_seq(i)` is `ds[i]`, `None` past the end.
-/
namespace Verif.Cached2
open Verif.Py

/-- The attributes (cached2.py 34-41, 55-61). `collected` is a ghost: the arguments of all `_collect_single_seq` calls so far. -/
structure State (α : Type) where
  expected : Nat := 0
  reachedFinal : Bool := false
  added : List (Nat × α) := []
  timesteps : Nat := 0
  numSeqs : Option Nat := none
  epoch : Option Nat := none
  collected : List Nat := []

/-- cached2.py 43-62 `init_seq_order`. A subclass which knows the number of seqs sets `_num_seqs` afterwards (`known`). -/
def initSeqOrder {α : Type} (s : State α) (epoch : Option Nat) (known : Option Nat) : State α :=
  { s with expected := 0, reachedFinal := false, added := [], timesteps := 0, numSeqs := known, epoch := epoch, collected := [] }

/-- cached2.py 64-73 `_cleanup_old_seqs`. -/
def cleanup {α : Type} (added : List (Nat × α)) (e : Nat) : List (Nat × α) := added.dropWhile (fun d => decide (¬ d.1 ≥ e))

/-- cached2.py 75-83 `_get_seq`. -/
def getSeq {α : Type} (s : State α) (i : Nat) : Option α := (s.added.find? (fun d => decide (d.1 = i))).map Prod.snd

/-- cached2.py 116-118: where `_load_seqs` starts to collect. -/
def startFrom {α : Type} (added : List (Nat × α)) (start : Nat) : Nat :=
  match added.getLast? with | none => start | some d => max (d.1 + 1) start

/-- cached2.py 106-125 `_load_seqs`, after the assertion. -/
def loadBody {α : Type} (ds : List α) (frames : α → Nat) (s : State α) (start fin : Nat) : State α :=
  let added := if start > s.expected then cleanup s.added start else s.added
  let start' := startFrom added start
  let idxs := List.range' start' (fin - start')
  let seqs := idxs.filterMap (fun i => (ds[i]?).map (fun x => (i, x)))
  { s with expected := if start > s.expected then start else s.expected, added := added ++ seqs,
           timesteps := s.timesteps + (seqs.map (fun d => frames d.2)).sum, collected := s.collected ++ idxs }

/-- cached2.py 106-125 `_load_seqs`. -/
def loadSeqs_ {α : Type} (ds : List α) (frames : α → Nat) (s : State α) (start fin : Nat) : Res Unit × State α :=
  if ¬ start ≥ s.expected then (.error .assertion, s) else (.ok (), loadBody ds frames s start fin)

/-- basic.py 440-460 `load_seqs`; `is_cached` is always False (cached2.py 85-93). -/
def loadSeqs {α : Type} (ds : List α) (frames : α → Nat) (s : State α) (start fin : Nat) : Res Unit × State α :=
  if ¬ start ≤ fin then (.error .assertion, s) else loadSeqs_ ds frames s start fin

/-- cached2.py 95-104 `num_seqs`. -/
def numSeqsProp {α : Type} (s : State α) : Res Nat :=
  match s.numSeqs with
  | some n => .ok n
  | none => match s.epoch with
    | none => .ok 0
    | some _ => .error .notImplemented

/-- cached2.py 127-149 `is_less_than_num_seqs`. -/
def isLess {α : Type} (ds : List α) (frames : α → Nat) (s : State α) (n : Nat) : Res Bool × State α :=
  if n < s.expected then (.ok true, s)
  else
    match s.epoch with
    | none => (.ok false, s)
    | some _ =>
      match numSeqsProp s with
      | .ok m => (.ok (decide (n < m)), s)
      | .error _ =>
        match loadSeqs_ ds frames s s.expected (n + 1) with
        | (.error e, s) => (.error e, s)
        | (.ok _, s) =>
          if (getSeq s n).isSome then (.ok true, s)
          else
            match s.added.getLast? with
            | none => (.error .assertion, s)
            | some d =>
              let s := { s with numSeqs := some (d.1 + 1) }
              if ¬ n ≥ d.1 + 1 then (.error .assertion, s)
              else (.ok false, { s with reachedFinal := true })

/-- cached2.py 174-183 `get_seq_length`, and with `check := false` 205-212 `get_tag`, as the sequence of which the length or tag
is returned; `None.num_frames` is an AttributeError. -/
def getLoaded {α : Type} (ds : List α) (frames : α → Nat) (check : Bool) (s : State α) (i : Nat) : Res α × State α :=
  if check && decide (¬ i ≥ s.expected) then (.error .assertion, s)
  else
    match loadSeqs ds frames s s.expected (i + 1) with
    | (.error e, s) => (.error e, s)
    | (.ok _, s) =>
      match getSeq s i with
      | none => (.error (.other "AttributeError"), s)
      | some x => (.ok x, s)

/-- cached2.py 185-190 `get_data`. -/
def getData {α : Type} (s : State α) (i : Nat) : Res α :=
  match getSeq s i with
  | none => .error (.other "AttributeError")
  | some x => .ok x

/-- cached2.py 158-166 `get_num_timesteps`. -/
def getNumTimesteps {α : Type} (s : State α) : Res Nat := if s.reachedFinal then .ok s.timesteps else .error .assertion

/-- The calls of a user. -/
inductive Op where
  | load (start fin : Nat)
  | isLess (n : Nat)
  | seqLength (i : Nat)
  | tag (i : Nat)
  | data (i : Nat)
  | timesteps
deriving Repr, DecidableEq

/-- What a call returns. -/
inductive Obs (α : Type) where
  | unit
  | bool (b : Bool)
  | seq (x : α)
  | nat (n : Nat)
deriving Repr, DecidableEq

def mapRes {β γ σ : Type} (f : β → γ) (r : Res β × σ) : Res γ × σ :=
  (match r.1 with | .ok x => .ok (f x) | .error e => .error e, r.2)

def step {α : Type} (ds : List α) (frames : α → Nat) (s : State α) : Op → Res (Obs α) × State α
  | .load a b => mapRes (fun _ => .unit) (loadSeqs ds frames s a b)
  | .isLess n => mapRes .bool (isLess ds frames s n)
  | .seqLength i => mapRes .seq (getLoaded ds frames true s i)
  | .tag i => mapRes .seq (getLoaded ds frames false s i)
  | .data i => mapRes .seq (getData s i, s)
  | .timesteps => mapRes .nat (getNumTimesteps s, s)

/-- A history of calls; exceptions are caught by the caller, which goes on. -/
def run {α : Type} (ds : List α) (frames : α → Nat) : State α → List Op → List (Res (Obs α)) × State α
  | s, [] => ([], s)
  | s, o :: os =>
    let (r, s) := step ds frames s o
    let (rs, s) := run ds frames s os
    (r :: rs, s)

end Verif.Cached2
