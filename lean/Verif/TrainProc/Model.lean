import Verif.Util.Py
/-
Model of the training process manager (`returnn/util/train_proc_manager.py`): it runs the training in a subprocess, and starts it
again after a crash as long as there is progress.
-/
namespace Verif.TrainProc

open Verif.Py

/-- What is outside: the epochs of the models which exist after `n` runs of the subprocess, and the return code of run `n`. -/
structure World where
  models : Nat → List Nat
  codes : Nat → Int

/-- `max(models) if models else 0` (train_proc_manager.py 58-59). -/
def curEpoch (models : List Nat) : Nat := models.foldl max 0

/-- The loop of `main_proc_manager` (train_proc_manager.py 53-95): number of starts and exit code.  `none`: the fuel did not suffice.
`n` is `num_starts`. -/
def loop (final : Nat) (w : World) : Nat → Nat → Option Nat → Option Int → Option (Res (Nat × Int))
  | 0, _, _, _ => none
  | fuel + 1, n, last, code =>
    let cur := curEpoch (w.models n)
    if cur = final then
      match code with
      | none => some (.ok (n, 0))
      | some c => some (.ok (n, c))
    else
      match last with
      | none => loop final w fuel (n + 1) (some cur) (some (w.codes n))
      | some l =>
        if l ≤ cur then
          if cur = l then some (.ok (n, code.getD (-1)))
          else loop final w fuel (n + 1) (some cur) (some (w.codes n))
        else some (.error .assertion)

/-- `main_proc_manager`. -/
def manager (final : Nat) (w : World) (fuel : Nat) : Option (Res (Nat × Int)) := loop final w fuel 0 none none

/-- What `maybe_start_train_proc_manager` looks at. -/
structure Setup where
  managed : Bool
  task : String
  startEpoch : String
  horovod : Bool
  distributed : Bool

/-- Whether `maybe_start_train_proc_manager` (train_proc_manager.py 19-37) starts the manager. -/
def starts (s : Setup) : Bool :=
  if s.managed then false
  else if s.task ≠ "train" then false
  else if s.startEpoch ≠ "auto" then false
  else if s.horovod then false
  else if s.distributed then false
  else true

/-- The setup which the subprocess sees: the same arguments, with `__RETURNN_PROC_MANAGED` set (train_proc_manager.py 44, 87-89). -/
def child (s : Setup) : Setup := { s with managed := true }

end Verif.TrainProc
