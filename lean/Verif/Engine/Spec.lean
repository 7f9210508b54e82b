import Verif.Engine.Model
/-
Specification for the resume logic and the model cleanup, independent of the model's control flow.
-/
namespace Verif.Engine
open Verif.Py

/-- The epoch is not after `num_epochs`, or not after `load_epoch`. -/
def UpToFinal (c : Cfg) (e : Int) : Prop := e ≤ c.numEpochs ∨ ∃ le, c.loadEpoch = some le ∧ e ≤ le

/-- There is a checkpoint of epoch `e` with name `fn` from which the training can be resumed (PyTorch): the file
itself, or the model file and the optimizer file. -/
def TorchCkpt (c : Cfg) (fs : Fs) (e : Int) (fn : String) : Prop :=
  c.model ≠ "" ∧ 1 ≤ e ∧ UpToFinal c e ∧ fn = epochFile c.model e false ∧
    (fs.ex fn = true ∨ (fs.ex (fn ++ ".pt") = true ∧ (c.train = true → fs.ex (fn ++ ".opt.pt") = true)))

/-- There is a checkpoint of epoch `e` (TensorFlow): the normal name is preferred over the pretrain name. -/
def TfCkpt (c : Cfg) (fs : Fs) (e : Int) (fn : String) : Prop :=
  c.model ≠ "" ∧ 1 ≤ e ∧ UpToFinal c e ∧
    let has (fn : String) : Prop := fs.ex fn = true ∨ fs.ex (fn ++ ".index") = true
    (fn = epochFile c.model e false ∧ has fn) ∨
      (fn = epochFile c.model e true ∧ has fn ∧ ¬ has (epochFile c.model e false))

/-- There is a checkpoint (any engine). -/
def Ckpt (c : Cfg) (fs : Fs) (e : Int) (fn : String) : Prop :=
  match c.backend with
  | .torch => TorchCkpt c fs e fn
  | .tf => TfCkpt c fs e fn
  | .other => c.model ≠ "" ∧ 1 ≤ e ∧ UpToFinal c e ∧ fn = epochFile c.model e false ∧ fs.ex fn = true

/-- `e` is the last epoch with a checkpoint. -/
def LastCkpt (c : Cfg) (fs : Fs) (e : Int) (fn : String) : Prop :=
  Ckpt c fs e fn ∧ ∀ e' fn', Ckpt c fs e' fn' → e' ≤ e

/-- The files which the options name are there, so that the checks of the options succeed. -/
def OptsOk (c : Cfg) (fs : Fs) : Prop :=
  (filepattern c.load = "" ∨ fs.ex (filepattern c.load ++ modelPostfix c.backend) = true ∨
    fs.ex (filepattern c.load) = true) ∧
  (filepattern c.importEpoch1 = "" ∨ fs.ex (filepattern c.importEpoch1 ++ modelPostfix c.backend) = true)

/-! ### Cleanup -/

/-- The score of epoch `e` for `key`; a missing score counts as the worst one. -/
structure IsScore (d : LearningRate.Data) (epochs : List Int) (key : String) (e : Int) (v : ℚ) : Prop where
  has : ∀ x w, d.get? e = some x → x.error.get? key = some w → v = w
  missing : (∀ x w, d.get? e = some x → x.error.get? key ≠ some w) →
    (∃ e' ∈ epochs, ∃ x, d.get? e' = some x ∧ x.error.get? key = some v) ∧
    ∀ e' ∈ epochs, ∀ x w, d.get? e' = some x → x.error.get? key = some w → w ≤ v

/-- The stored epochs have at least two different scores for this key. -/
def Informative (d : LearningRate.Data) (epochs : List Int) (key : String) : Prop :=
  ∃ e₁ ∈ epochs, ∃ e₂ ∈ epochs, ∃ x₁ x₂ v₁ v₂, d.get? e₁ = some x₁ ∧ d.get? e₂ = some x₂ ∧
    x₁.error.get? key = some v₁ ∧ x₂.error.get? key = some v₂ ∧ v₁ ≠ v₂

/-- Epoch `e` is among the best `n` epochs for `key`: fewer than `n` epochs are better, where of two epochs with the
same score the earlier one is better. -/
def AmongBest (d : LearningRate.Data) (epochs : List Int) (key : String) (n : Nat) (e : Int) : Prop :=
  ∃ better : List Int, better.length < n ∧
    ∀ e' ∈ epochs, e' ≠ e → (∃ v v', IsScore d epochs key e v ∧ IsScore d epochs key e' v' ∧
      (v' < v ∨ (v' = v ∧ e' < e))) → e' ∈ better

/-- Epoch `e` is among the last `n` epochs: fewer than `n` are later. -/
def AmongLast (epochs : List Int) (n : Nat) (e : Int) : Prop :=
  e ∈ epochs ∧ (epochs.filter (fun e' => decide (e < e'))).length < n

/-- The default pattern: multiples of `every`, and `base`, `2 base`, `4 base`, ... (base.py:350-371). -/
def DefaultKeep (last e : Int) : Prop :=
  let (every, base) : Int × Int :=
    if last ≤ 10 then (4, 5) else if last ≤ 50 then (20, 5) else if last ≤ 100 then (40, 10)
    else (80 * MathUtil.nextPowerOfTwo (1 + last / 240), 20)
  e ≤ last ∧ ((0 < e ∧ every ∣ e) ∨ ∃ i : Nat, e = base * 2 ^ i)

/-- What must be kept. -/
def MustKeep (o : CleanupOpts) (d : LearningRate.Data) (epochs : List Int) (last e : Int) : Prop :=
  (∃ ks, o.keep = some ks ∧ e ∈ ks) ∨ (o.keep = none ∧ DefaultKeep last e) ∨
  AmongLast epochs o.keepLastN.toNat e ∨
  ∃ key, Informative d epochs key ∧ AmongBest d epochs key o.keepBestN.toNat e

end Verif.Engine
