import Verif.Hooks.Model
/-
What hooks should do: a history of registering and removing, and the hooks which are active after it.
-/
namespace Verif.Hooks
open Verif Verif.Py

/-- What a user does. `remove n`: remove the hook which was registered as number `n`. -/
inductive Op (A R : Type) where
  | add (o : Nat) (a : Attr) (h : Hook A R) (prepend : Bool)
  | remove (n : Nat)

/-- An active hook. -/
structure Active (A R : Type) where
  id : Nat
  obj : Nat
  attr : Attr
  hook : Hook A R

/-- How many were registered, and which are active, in the order in which they are called. -/
def specStep {A R : Type} (s : Nat × List (Active A R)) : Op A R → Nat × List (Active A R)
  | .add o a h true => (s.1 + 1, ⟨s.1, o, a, h⟩ :: s.2)
  | .add o a h false => (s.1 + 1, s.2 ++ [⟨s.1, o, a, h⟩])
  | .remove n => (s.1, s.2.filter (fun x => x.id ≠ n))

/-- The active hooks of a method of an object after a history. -/
def hooksOf {A R : Type} (ops : List (Op A R)) (o : Nat) (a : Attr) : List (Hook A R) :=
  ((ops.foldl specStep (0, [])).2.filter (fun x => x.obj = o ∧ x.attr = a)).map Active.hook

/-- The result which is wanted: the original one, then changed by one hook after the other. -/
def wanted {A R : Type} (impl : Attr → Nat → A → R) (ops : List (Op A R)) (o : Nat) (a : Attr) (x : A) : R :=
  (hooksOf ops o a).foldl (fun r h => h o x r) (impl a o x)

/-- Running a history with the code. The second part: the handles. -/
def runOp {A R : Type} (s : St A R × List Handle) : Op A R → Res (St A R × List Handle)
  | .add o a h pre => .ok ((register s.1 o a h pre).1, s.2 ++ [(register s.1 o a h pre).2])
  | .remove n =>
    match s.2[n]? with
    | none => .ok s
    | some hd => do
      let s' ← remove s.1 hd
      .ok (s', s.2)

/-- All of it. -/
def runOps {A R : Type} : List (Op A R) → St A R × List Handle → Res (St A R × List Handle)
  | [], s => .ok s
  | op :: t, s => do
    let s' ← runOp s op
    runOps t s'

end Verif.Hooks
