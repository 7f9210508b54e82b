import Verif.Util.Py
/-
Model of `MultiEpochDataset` in `returnn/datasets/meta.py`.

Simplifications: the inner dataset is a function which gives the sequences for an epoch (or for no epoch), and
`is_less_than_num_seqs(n)` of it is `n < num_seqs`. A sequence is any value (data and tag together).
-/
namespace Verif.MultiEpoch
open Verif.Py

/-- The state between calls. -/
structure State (α : Type) where
  /-- the current sequences of `self._dataset` -/
  cur : List α
  /-- `_cur_inner_start_epoch` -/
  startEpoch : Option Int
  /-- `_cur_inner_epoch_offset` -/
  off : Nat
  /-- `_cur_inner_epoch_seq_idx_offset` -/
  seqOff : Nat
  /-- `_epoch_have_predefined_seq_order` -/
  predefined : Bool

/-- meta.py:2022. -/
def innerStart (epoch : Option Int) (m : Nat) : Option Int := epoch.map (fun e => (e - 1) * m + 1)

/-- What the inner dataset gives: the selected sequences, or those of the epoch. -/
def innerSeqs {α : Type} (inner : Option Int → List α) (epoch : Option Int) : Option (List α) → List α
  | some sel => sel
  | none => inner epoch

/-- meta.py:2017-2025 `init_seq_order`. `sel` are the sequences selected by `seq_list` or `seq_order`, if one of them is
given. `bool(seq_list or seq_order)` is false for an empty list. -/
def init {α : Type} (inner : Option Int → List α) (m : Nat) (epoch : Option Int) (sel : Option (List α)) : State α :=
  { cur := innerSeqs inner (innerStart epoch m) sel, startEpoch := innerStart epoch m, off := 0, seqOff := 0,
    predefined := !(sel.getD []).isEmpty }

/-- meta.py:2059-2068: go to the next inner epoch, and take its first sequence. -/
def nextInner {α : Type} (inner : Option Int → List α) (s : State α) (start : Int) (seqIdx : Nat) :
    Res (Option α) × State α :=
  let s' : State α := { s with cur := inner (some (start + s.off)), seqOff := seqIdx }
  match s'.cur with
  | [] => (.error .assertion, s')
  | x :: _ => (.ok (some x), s')

/-- meta.py:2048-2068 `_collect_single_seq`. -/
def collect {α : Type} (inner : Option Int → List α) (m : Nat) (s : State α) (seqIdx : Nat) : Res (Option α) × State α :=
  if seqIdx < s.seqOff then (.error .assertion, s)
  else
    match s.cur[seqIdx - s.seqOff]? with
    | some x => (.ok (some x), s)
    | none =>
      if s.predefined then (.ok none, s)
      else
        match s.startEpoch with
        | none => (.ok none, s)
        | some start =>
          let s : State α := { s with off := s.off + 1 }
          if m ≤ s.off then (.ok none, s) else nextInner inner s start seqIdx

/-- A sequence of calls; ends with the first exception. -/
def collectAll {α : Type} (inner : Option Int → List α) (m : Nat) : State α → List Nat → Res (List (Option α)) × State α
  | s, [] => (.ok [], s)
  | s, i :: is =>
    match collect inner m s i with
    | (.error e, s) => (.error e, s)
    | (.ok x, s) =>
      match collectAll inner m s is with
      | (.error e, s) => (.error e, s)
      | (.ok xs, s) => (.ok (x :: xs), s)

end Verif.MultiEpoch
