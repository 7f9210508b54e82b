import Verif.Util.Py
import Mathlib.Analysis.Real.Sqrt
/-
Model of how far an epoch is: from `Dataset.get_complete_frac` (`returnn/datasets/basic.py`) over the dataset wrapper for PyTorch (`returnn/torch/data/returnn_dataset_wrapper.py`) and batches
(`returnn/torch/data/pipeline.py`) to the engine (`returnn/torch/engine.py`).

Simplifications for the whole file:
* fractions are real numbers (float32 and float64 in the code);
* a dataset is the list of its sequences (`is_less_than_num_seqs(i)`: there is a sequence `i`, see C25 for `CachedDataset2`), each with its own fraction if it has one; of the data there is only the tag.
-/
namespace Verif.EpochFrac
open Verif.Py

/-- What a dataset says about `num_seqs`: a number, infinite, or an exception; in the last case there may be an estimate. -/
inductive NumSeqs where
  | known (n : Nat)
  | infinite
  | unknown (estimated : Option Nat)

/-- `generic_complete_frac`. /repo/returnn/datasets/basic.py:927-941. -/
noncomputable def generic (i : Nat) (n : Option Nat) : ℝ :=
  match n with
  | some (n + 1) => min (((i : ℝ) + 1) / ((n : ℝ) + 1)) 1
  | _ => max (1 / 10 ^ 10) ((1 - 1 / (Real.sqrt i / 100 + 1)) * (99 / 100))

/-- The end of `get_complete_frac`, with a number or None. /repo/returnn/datasets/basic.py:982-985. -/
noncomputable def fracOf (i : Nat) (n : Option Nat) : Res (Option ℝ) :=
  match n with
  | some m => if i < m then .ok (some (generic i n)) else .error .assertion
  | none => .ok (some (generic i none))

/-- `Dataset.get_complete_frac`. `math.isinf(None)` is an error. /repo/returnn/datasets/basic.py:943-985. -/
noncomputable def completeFrac (ns : NumSeqs) (i : Nat) (lrSuitable : Bool) : Res (Option ℝ) :=
  match ns with
  | .known n => fracOf i (some n)
  | .infinite => if lrSuitable then .ok none else fracOf i none
  | .unknown est =>
    if lrSuitable then .ok none
    else
      match est with
      | some n => fracOf i (some n)
      | none => .error .typeError

/-- `CachedDataset2.get_complete_frac`: the fraction of the sequence, if it has one. /repo/returnn/datasets/cached2.py:231-238. -/
noncomputable def cachedFrac (ns : NumSeqs) (i : Nat) (own : Option ℝ) (lrSuitable : Bool) : Res (Option ℝ) :=
  match own with
  | some f => .ok (some f)
  | none => completeFrac ns i lrSuitable

/-- A sequence: tag, and its own fraction. -/
structure Seq where
  tag : Nat
  own : Option ℝ

/-- What the data pipe yields, without the data. -/
structure Sample where
  tag : Nat
  seqIdx : Nat
  epoch : Nat
  numSeqs : Option Int
  frac : ℝ

/-- `num_seqs` as a number: -1 when not known; `none` is infinite. /repo/returnn/torch/data/returnn_dataset_wrapper.py:94-98. -/
def NumSeqs.asInt : NumSeqs → Option Int
  | .known n => some n
  | .infinite => none
  | .unknown _ => some (-1)

/-- The checks and the value for a sample. /repo/returnn/torch/data/returnn_dataset_wrapper.py:119-129. -/
noncomputable def checkFrac (f : Option ℝ) (last : ℝ) : Res ℝ :=
  match f with
  | some f => if 0 ≤ f ∧ f ≤ 1 then if last ≤ f then .ok f else .error .assertion else .error .assertion
  | none => .ok (-1)

/-- The loop of `__iter__`, from sequence `i` on: what is yielded, and the error at the end, if any. /repo/returnn/torch/data/returnn_dataset_wrapper.py:103-133. -/
noncomputable def pipeFrom (ns : NumSeqs) (epoch : Nat) : Nat → ℝ → List Seq → List Sample × Option Err
  | _, _, [] => ([], none)
  | i, last, s :: t =>
    match cachedFrac ns i s.own true with
    | .error e => ([], some e)
    | .ok f =>
      match checkFrac f last with
      | .error e => ([], some e)
      | .ok v =>
        let r := pipeFrom ns epoch (i + 1) v t
        (⟨s.tag, i, epoch, ns.asInt, v⟩ :: r.1, r.2)

/-- `ReturnnDatasetIterDataPipe.__iter__`. /repo/returnn/torch/data/returnn_dataset_wrapper.py:89-139. -/
noncomputable def pipe (ns : NumSeqs) (epoch : Nat) (seqs : List Seq) : List Sample × Option Err := pipeFrom ns epoch 0 (-1) seqs

/-- `complete_frac` of a batch: the maximum; a batch is not empty. /repo/returnn/torch/data/pipeline.py:69-71. -/
noncomputable def batchFrac (b : Sample × List Sample) : ℝ := b.2.foldl (fun m s => max m s.frac) b.1.frac

/-- `epoch_continuous` of a step. /repo/returnn/torch/engine.py:400-401. -/
noncomputable def epochContinuous (epoch : Nat) (frac : ℝ) : Option ℝ := if 0 ≤ frac then some ((epoch : ℝ) - 1 + frac) else none

/-- `epoch_continuous` for a user function of the batch size. /repo/returnn/torch/data/pipeline.py:271-284. -/
noncomputable def userEpochContinuous (s : Sample) : Option ℝ :=
  if 0 ≤ s.frac then some ((s.epoch : ℝ) - 1 + s.frac)
  else
    match s.numSeqs with
    | some n => if 0 < n then some ((s.epoch : ℝ) - 1 + ((s.seqIdx : ℝ) + 1) / (n : ℝ)) else none
    | none => none

/-- `_print_process`: remaining time and percentage; nothing when the verbosity is lower. /repo/returnn/torch/engine.py:1452-1481. -/
noncomputable def printProcess (verbose : Bool) (elapsed : ℝ) (frac : Option ℝ) : Res (Option (ℝ × ℝ)) :=
  if verbose then
    match frac with
    | some f => if 0 < f ∧ f ≤ 1 then .ok (some (elapsed / f - elapsed, f * 100)) else .error .assertion
    | none => .ok none
  else .ok none

/-- The steps of `train_epoch`: `epoch_continuous` of each; printing after each step. `elapsed`: per step. /repo/returnn/torch/engine.py:370-530. -/
noncomputable def trainEpoch (verbose : Bool) (elapsed : Nat → ℝ) (epoch : Nat) : Nat → List (Sample × List Sample) → List (Option ℝ) × Option Err
  | _, [] => ([], none)
  | step, b :: t =>
    match printProcess verbose (elapsed step) (some (batchFrac b)) with
    | .error e => ([epochContinuous epoch (batchFrac b)], some e)
    | .ok _ =>
      let r := trainEpoch verbose elapsed epoch (step + 1) t
      (epochContinuous epoch (batchFrac b) :: r.1, r.2)

/-- `MultiProcDataset._collect_single_seq`: the maximum so far; `max(None, ...)` is an error. /repo/returnn/datasets/multi_proc.py:447-452. -/
noncomputable def fixUp : ℝ → List (Option ℝ) → Res (List ℝ)
  | _, [] => .ok []
  | _, none :: _ => .error .typeError
  | cur, some f :: t => do
    let r ← fixUp (max f cur) t
    .ok (max f cur :: r)

end Verif.EpochFrac
