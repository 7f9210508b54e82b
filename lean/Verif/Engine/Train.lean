import Verif.Engine.Model
/-
Model of the training loop of `returnn/torch/engine.py` with its effects on the disk, under crashes and restarts.

Simplifications: one process at a time (no distributed training); a checkpoint file and the learning rate file are
written atomically, because they are renamed into place (engine.py:1130-1150, updater.py:366-381, see
`LearningRate.Save` for the learning rate file, whose round trip is taken as identity here); training and evaluation of
an epoch are functions of the epoch, the learning rate, the weights and the optimizer state (the code seeds the random
generators from epoch and step, engine.py:290-295); the learning rate schedule is a function which does not fail
(it is modelled in `LearningRate`); `model` and the learning rate file are set in the config, `_do_save()` is true;
the epoch loop works with the default config options for loading (`start_epoch = "auto"`, no `load`, no `load_epoch`).
-/
namespace Verif.Engine
open Verif.Py LearningRate

variable {M O : Type}

/-- A training job. `M`: model weights, `O`: optimizer state. -/
structure Job (M O : Type) where
  /-- num_epochs -/
  final : Int
  /-- save_interval (engine.py:215) -/
  interval : Int
  /-- apply_cleanup_old_models_to_optim_states (engine.py:1180) -/
  keepOpt : Bool
  /-- the names of the eval datasets -/
  evals : List String
  /-- explicit learning rates -/
  presets : List (Int × ℚ)
  /-- learning rate schedule: `calc_new_learning_rate_for_epoch` -/
  sched : Data → Int → ℚ
  /-- initial weights and optimizer state -/
  init : M × O
  /-- one epoch of training -/
  train : Int → ℚ → M × O → M × O
  /-- the scores for a dataset (or "train"), as given to `set_epoch_error` (engine.py:557, 674) -/
  score : String → Int → M × O → Dict String ℚ
  /-- cleanup_old_models -/
  cleanupOpts : Option CleanupOpts

/-- The files: model and optimizer file of every epoch, and the learning rate file. -/
structure Disk (M O : Type) where
  model : Int → Option M
  opt : Int → Option O
  lr : Data

/-- What the process does next. -/
inductive Pc where
  /-- engine.py:1407-1412: evaluate the datasets of the last epoch which are missing -/
  | missing (e : Int) (todo : List String)
  /-- engine.py:253-256: the top of the loop -/
  | loop (e : Int)
  /-- engine.py:560-561 -/
  | saveLr (e : Int)
  /-- engine.py:569 -/
  | saveModel (e : Int)
  /-- engine.py:570, 1176 -/
  | saveOpt (e : Int)
  /-- engine.py:1178-1184 -/
  | cleanOpt (e : Int)
  /-- engine.py:574, 595 -/
  | eval (e : Int) (todo : List String)
  /-- engine.py:575-576 -/
  | cleanup (e : Int)
  /-- base.py:428, engine.py:1376-1379 -/
  | delModel (e : Int) (todo : List Int)
  /-- engine.py:1380-1383 -/
  | delOpt (e : Int) (r : Int) (todo : List Int)
  | finished
  | failed (err : Err)
deriving DecidableEq

/-- A running process: program counter, weights and optimizer state, the learning rate data in memory. -/
structure Proc (M O : Type) where
  pc : Pc
  w : M × O
  mem : Data

/-- The whole system. `proc = none`: no process is running. -/
structure St (M O : Type) where
  disk : Disk M O
  proc : Option (Proc M O)

/-- `d[k] = v` for a map from epochs to files. -/
def upd {α : Type} (f : Int → Option α) (k : Int) (v : Option α) : Int → Option α := fun j => if j = k then v else f j

/-- base.py:74-109 `get_existing_models(for_training=True)`: epochs with model and optimizer file. -/
def resumable (J : Job M O) (d : Disk M O) : List Int :=
  (epochRange J.final).filter (fun e => (d.model e).isSome && (d.opt e).isSome)

/-- base.py:326, 331: `get_existing_models(for_training=False)`: epochs with a model file. -/
def stored (J : Job M O) (d : Disk M O) : List Int := (epochRange J.final).filter (fun e => (d.model e).isSome)

/-- base.py:205-226 `get_train_start_epoch`. -/
def resumeEpoch (J : Job M O) (d : Disk M O) : Int :=
  match (resumable J d).getLast? with
  | none => 1
  | some e => e + 1

/-- base.py:432-445 `_is_dataset_evaluated`. -/
def isEvaluated (d : Data) (name : String) (e : Int) : Bool :=
  match d.get? e with
  | none => false
  | some x => x.error.keys.any (fun k => startsWith (name ++ "_score") k || startsWith (name ++ "_loss") k)

/-- learning_rate_control.py:353-377 `set_epoch_error` for plain scores, on an epoch with data. -/
def setScores (d : Data) (e : Int) (s : Dict String ℚ) : Data :=
  match d.get? e with
  | none => d
  | some x => d.set e { x with error := updateDict x.error s }

/-- learning_rate_control.py:276-286 `get_learning_rate_for_epoch`: the new state. -/
def withLr (J : Job M O) (d : Data) (e : Int) : Data :=
  match d.get? e with
  | some _ => d
  | none => LearningRate.setDefault d e (J.sched d e)

/-- learning_rate_control.py:276-286 `get_learning_rate_for_epoch`: the rate. -/
def lrFor (J : Job M O) (d : Data) (e : Int) : ℚ :=
  match d.get? e with
  | some x => x.lr
  | none => J.sched d e

/-- A new process: engine.py:192-226 (load), 243-247 and 1387-1412 `_check_missing_eval`. -/
def boot (J : Job M O) (d : Disk M O) : Proc M O :=
  let mem := initData d.lr J.presets
  let s := resumeEpoch J d
  if s = 1 then ⟨.loop 1, J.init, mem⟩
  else match d.model (s - 1), d.opt (s - 1) with
    | some m, some o =>
      if (epochRange (s - 2)).all (fun e => ("train" :: J.evals).all (fun n => isEvaluated mem n e)) then
        if isEvaluated mem "train" (s - 1) then ⟨.missing (s - 1) J.evals, (m, o), mem⟩
        else ⟨.failed (.other "Scores of last train epoch are missing."), (m, o), mem⟩
      else ⟨.failed (.other "Scores are missing."), (m, o), mem⟩
    | some m, none => ⟨.failed (.other "FileNotFoundError"), (m, J.init.2), mem⟩
    | none, _ => ⟨.failed (.other "FileNotFoundError"), J.init, mem⟩

/-- One step of the process; every step makes at most one change on disk. -/
def stepProc (J : Job M O) (d : Disk M O) (p : Proc M O) : Disk M O × Proc M O :=
  match p.pc with
  | .missing e [] => (d, { p with pc := .loop (e + 1) })
  | .missing e (n :: ns) =>
    if isEvaluated p.mem n e then (d, { p with pc := .missing e ns })
    else
      let mem := setScores p.mem e (J.score n e p.w)
      ({ d with lr := mem }, { p with pc := .missing e ns, mem := mem })
  | .loop e =>
    if e > J.final then (d, { p with pc := .finished })
    else
      let w := J.train e (lrFor J p.mem e) p.w
      let mem := setScores (withLr J p.mem e) e (J.score "train" e w)
      (d, ⟨.saveLr e, w, mem⟩)
  | .saveLr e =>
    ({ d with lr := p.mem }, { p with pc := if e % J.interval = 0 ∨ e = J.final then .saveModel e else .eval e J.evals })
  | .saveModel e => ({ d with model := upd d.model e (some p.w.1) }, { p with pc := .saveOpt e })
  | .saveOpt e => ({ d with opt := upd d.opt e (some p.w.2) }, { p with pc := .cleanOpt e })
  | .cleanOpt e =>
    if e - 2 > 0 ∧ J.keepOpt = false then ({ d with opt := upd d.opt (e - 2) none }, { p with pc := .eval e J.evals })
    else (d, { p with pc := .eval e J.evals })
  | .eval e [] => (d, { p with pc := if J.cleanupOpts.isSome then .cleanup e else .loop (e + 1) })
  | .eval e (n :: ns) =>
    let mem := setScores p.mem e (J.score n e p.w)
    ({ d with lr := mem }, { p with pc := .eval e ns, mem := mem })
  | .cleanup e =>
    match cleanup (J.cleanupOpts.getD {}) p.mem (stored J d) with
    | .ok rs => (d, { p with pc := .delModel e rs })
    | .error err => (d, { p with pc := .failed err })
  | .delModel e [] => (d, { p with pc := .loop (e + 1) })
  | .delModel e (r :: rs) =>
    if (d.model r).isSome then ({ d with model := upd d.model r none }, { p with pc := .delOpt e r rs })
    else (d, { p with pc := .failed .assertion })
  | .delOpt e r rs => ({ d with opt := upd d.opt r none }, { p with pc := .delModel e rs })
  | .finished => (d, p)
  | .failed _ => (d, p)

/-- Events: a process is started, it makes a step, it is killed. -/
inductive Ev where
  | start
  | step
  | crash
deriving DecidableEq

/-- The effect of an event; `none`: not possible. -/
def St.next (J : Job M O) (s : St M O) : Ev → Option (St M O)
  | .start =>
    match s.proc with
    | none => some { s with proc := some (boot J s.disk) }
    | some _ => none
  | .step =>
    match s.proc with
    | none => none
    | some p => some ⟨(stepProc J s.disk p).1, some (stepProc J s.disk p).2⟩
  | .crash =>
    match s.proc with
    | none => none
    | some _ => some { s with proc := none }

/-- The beginning: no files. -/
def St.empty : St M O := ⟨⟨fun _ => none, fun _ => none, []⟩, none⟩

/-- All states which can be reached by starts, steps and crashes. -/
inductive Reach (J : Job M O) : St M O → Prop
  | empty : Reach J St.empty
  | next {s s' : St M O} (ev : Ev) : Reach J s → s.next J ev = some s' → Reach J s'

end Verif.Engine
