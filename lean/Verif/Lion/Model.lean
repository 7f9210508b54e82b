import Verif.Util.Py
import Mathlib.Algebra.Order.Field.Basic
/-
Model of the optimizer `Lion` of `returnn/torch/optim/lion.py` (the path without Triton).

Simplifications for the whole file:
* numbers are elements of an ordered field, so rounding is left out; all operations are elementwise, `ι` stands for the cells of a parameter;
* parameters are numbers; gradients are given (the closure of `step` is left out); torch refuses a parameter which is in two groups.
-/
namespace Verif.Lion
open Verif Verif.Py

/-- The options of a group as they are at a step. -/
structure Opt (α : Type) where
  lr : α
  wd : α
  beta1 : α
  beta2 : α

/-- The optimizer, /repo/returnn/torch/optim/lion.py:21-42: what is fixed at construction. -/
structure Cfg (α : Type) where
  initLr : α
  decoupled : Bool

/-- Parameters and `self.state`. -/
structure St (ι α : Type) where
  val : Nat → ι → α
  expAvg : Nat → Option (ι → α)

/-- `sign_` of one cell. -/
def sign {α : Type} [Field α] [LinearOrder α] (x : α) : α := if 0 < x then 1 else if x < 0 then -1 else 0

/-- The weight decay which is used, /repo/returnn/torch/optim/lion.py:67-68. -/
def effWd {α : Type} [Field α] (c : Cfg α) (wd : α) : α := if c.decoupled then wd / c.initLr else wd

/-- `update_fn` on one cell: new value and new average. /repo/returnn/torch/optim/lion.py:88-103. -/
def cell {α : Type} [Field α] [LinearOrder α] (o : Opt α) (wd p g m : α) : α × α :=
  let p1 := p * (1 - o.lr * wd)
  let u := sign (m * o.beta1 + (1 - o.beta1) * g)
  (p1 + (-o.lr) * u, m * o.beta2 + (1 - o.beta2) * g)

/-- `state["exp_avg"]`, zeros at first. /repo/returnn/torch/optim/lion.py:72-75. -/
def avgOf {ι α : Type} [Field α] (m : Option (ι → α)) : ι → α :=
  match m with
  | none => fun _ => 0
  | some m => m

/-- One parameter in `step`, /repo/returnn/torch/optim/lion.py:52-80. -/
def stepParam {ι α : Type} [Field α] [LinearOrder α] (c : Cfg α) (grad : Nat → Option (ι → α)) (o : Opt α) (s : St ι α) (k : Nat) : St ι α :=
  match grad k with
  | none => s
  | some g =>
    let new := fun i => cell o (effWd c o.wd) (s.val k i) (g i) (avgOf (s.expAvg k) i)
    { val := fun j => if j = k then fun i => (new i).1 else s.val j
      expAvg := fun j => if j = k then some fun i => (new i).2 else s.expAvg j }

/-- All parameters of a group. -/
def stepGroup {ι α : Type} [Field α] [LinearOrder α] (c : Cfg α) (grad : Nat → Option (ι → α)) (s : St ι α) (g : Opt α × List Nat) : St ι α :=
  g.2.foldl (stepParam c grad g.1) s

/-- `step`, /repo/returnn/torch/optim/lion.py:44-82. -/
def step {ι α : Type} [Field α] [LinearOrder α] (c : Cfg α) (grad : Nat → Option (ι → α)) (groups : List (Opt α × List Nat)) (s : St ι α) : St ι α :=
  groups.foldl (stepGroup c grad) s

/-- A training: in every step, the groups with their current options (the learning rate changes), and the gradients. -/
def steps {ι α : Type} [Field α] [LinearOrder α] (c : Cfg α) (h : List (List (Opt α × List Nat) × (Nat → Option (ι → α)))) (s : St ι α) : St ι α :=
  h.foldl (fun s p => step c p.2 p.1 s) s

end Verif.Lion
