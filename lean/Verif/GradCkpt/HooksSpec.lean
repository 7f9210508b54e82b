import Verif.GradCkpt.Hooks
/-
How the scopes are used: blocks are left in the reverse order in which they are entered.
-/
namespace Verif.GradCkpt.Hooks

open Verif.Py

/-- The state of the program: the blocks which are open (innermost first), the scopes used so far, the checkpoint scopes which were
left with tensors alive, and those of them of which the tensors are still alive. -/
structure P where
  opened : List Nat
  used : List Nat
  kept : List Nat
  alive : List Nat

def P.init : P := ⟨[], [], [], []⟩

/-- What the program does. -/
def P.step (e : Ev) (p : P) : P :=
  match e with
  | .enter s => { p with opened := s :: p.opened, used := s :: p.used }
  | .ckEnter c => { p with opened := c :: p.opened, used := c :: p.used }
  | .leave _ => { p with opened := p.opened.tail }
  | .ckLeave c alive =>
    { p with opened := p.opened.tail, kept := if alive then c :: p.kept else p.kept,
             alive := if alive then c :: p.alive else p.alive }
  | .die c _ => { p with alive := p.alive.filter (fun x => x ≠ c) }

/-- What the program may do: new scopes are entered, the innermost block is left, tensors go away once. -/
def P.may (e : Ev) (p : P) : Prop :=
  match e with
  | .enter s => s ∉ p.used
  | .ckEnter c => c ∉ p.used
  | .leave s => ∃ r, p.opened = s :: r
  | .ckLeave c _ => ∃ r, p.opened = c :: r
  | .die c _ => c ∈ p.alive

/-- When a checkpoint scope is left with tensors alive, and there are none alive of an earlier one, then it is not inside of
another block. -/
def P.alone (e : Ev) (p : P) : Prop :=
  match e with
  | .ckLeave c true => p.alive ≠ [] ∨ p.opened = [c]
  | _ => True

/-- A program which keeps to the conditions.  Another thread may be registered only while tensors of this thread are alive. -/
def Ok : List (Bool × Ev) → P → Prop
  | [], _ => True
  | (o, e) :: r, p => p.may e ∧ p.alone e ∧ (o = true → p.alive ≠ []) ∧ Ok r (p.step e)

/-- The program alone. -/
def P.run : List (Bool × Ev) → P → P
  | [], p => p
  | (_, e) :: r, p => P.run r (p.step e)

end Verif.GradCkpt.Hooks
