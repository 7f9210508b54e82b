import Verif.Engine.Train
/-
Specification of crash-safe training: the run without crashes, and what is assumed about a training job.
-/
namespace Verif.Engine
open Verif.Py LearningRate

variable {M O : Type}

/-- All datasets which get scores. -/
def Job.names (J : Job M O) : List String := "train" :: J.evals

/-- The training without any crash, without files: weights, optimizer state and learning rate data after `e` epochs. -/
def ideal (J : Job M O) : Nat → (M × O) × Data
  | 0 => (J.init, initData [] J.presets)
  | e + 1 =>
    let prev := ideal J e
    let lr := lrFor J prev.2 (e + 1)
    let w := J.train (e + 1) lr prev.1
    (w, J.names.foldl (fun d n => setScores d (e + 1) (J.score n (e + 1) w)) (withLr J prev.2 (e + 1)))

/-- The weights after epoch `e`. -/
def idealW (J : Job M O) (e : Int) : M × O := (ideal J e.toNat).1

/-- Two entries of the learning rate data have the same content (the order inside the dict does not matter). -/
def SameEntry (a b : Option EpochData) : Prop :=
  (a = none ∧ b = none) ∨
    ∃ x y, a = some x ∧ b = some y ∧ x.lr = y.lr ∧ ∀ key, x.error.get? key = y.error.get? key

/-- The entries of a well-formed score dict. -/
def DataWf (d : Data) : Prop := d.Wf ∧ ∀ e x, d.get? e = some x → x.error.Wf

/-- The name of a score belongs to the dataset (`_is_dataset_evaluated`). -/
def ownKey (name key : String) : Prop :=
  startsWith (name ++ "_score") key = true ∨ startsWith (name ++ "_loss") key = true

/-- What is assumed of a job. -/
structure JobOk (J : Job M O) : Prop where
  interval : 1 ≤ J.interval
  presets : ∀ p ∈ J.presets, 1 ≤ p.1
  nodup : J.names.Nodup
  wf : ∀ n e w, (J.score n e w).Wf
  /-- every dataset has a loss -/
  scores : ∀ n ∈ J.names, ∀ e w, J.score n e w ≠ []
  own : ∀ n ∈ J.names, ∀ e w, ∀ key ∈ (J.score n e w).keys, ownKey n key
  /-- the name of one dataset, with "_loss" or "_score", is not a prefix of a score name of another dataset -/
  other : ∀ n ∈ J.names, ∀ n' ∈ J.names, n ≠ n' → ∀ e w, ∀ key ∈ (J.score n e w).keys, ¬ ownKey n' key
  /-- the schedule looks at earlier epochs only -/
  past : ∀ d d' e, DataWf d → DataWf d' → (∀ j, j < e → SameEntry (d.get? j) (d'.get? j)) → J.sched d e = J.sched d' e
  cleanup : ∀ o, J.cleanupOpts = some o → 1 ≤ o.keepLastN ∧ 0 ≤ o.keepBestN ∧ o.unknownOpts = false

end Verif.Engine
