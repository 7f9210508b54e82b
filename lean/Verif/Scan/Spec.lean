import Verif.Util.Py
/-
What `rf.scan` should compute, per sequence, without batching, padding or masks.

The state of a loop has a part per sequence (`P`) and a part shared by all sequences (`G`, e.g. a step counter).
-/
namespace Verif.Scan

/-- The user functions: `body` (its output and the two parts of the new state) and `cond`. -/
structure Prog (X G P Y : Type) where
  stepG : G → G
  step : X → G → P → Y × P
  cond : G → P → Bool

variable {X G P Y : Type}

/-- The loop over the frames of one sequence: outputs and final state. -/
def runSeq (pr : Prog X G P Y) : List X → G → P → List Y × G × P
  | [], g, p => ([], g, p)
  | x :: xs, g, p =>
    let r := runSeq pr xs (pr.stepG g) (pr.step x g p).2
    ((pr.step x g p).1 :: r.1, r.2)

/-- The state of one sequence after `n` iterations (without inputs). -/
def stateAfter (pr : Prog Unit G P Y) (g : G) (p : P) (n : Nat) : G × P := (runSeq pr (List.replicate n ()) g p).2

/-- The loop may run iteration `n` (counted from 0): `while cond: body`, resp. with `before = false` no check before the first one. -/
def MayRun (pr : Prog Unit G P Y) (before : Bool) (g : G) (p : P) (n : Nat) : Prop :=
  (n = 0 ∧ before = false) ∨ pr.cond (stateAfter pr g p n).1 (stateAfter pr g p n).2 = true

/-- `n` is the number of iterations of the loop of one sequence, with at most `max` iterations. -/
def IsLen (pr : Prog Unit G P Y) (before : Bool) (max : Option Nat) (g : G) (p : P) (n : Nat) : Prop :=
  (∀ k, k < n → MayRun pr before g p k) ∧ (∀ m, max = some m → n ≤ m) ∧ (max = some n ∨ ¬ MayRun pr before g p n)

end Verif.Scan
