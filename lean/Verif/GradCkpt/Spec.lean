import Verif.GradCkpt.Model
/-
What is assumed about the operations in the scope.
-/
namespace Verif.GradCkpt

open Verif.Py

variable {V M S : Type}

/-- An output refers to one of `n` arguments, if to any. -/
def Out.InRange (n : Nat) : Out V M → Prop
  | .fresh _ _ _ => True
  | .view i _ => i < n
  | .same i => i < n

/-- The operation draws only from its generators, and is a function of the values and of the states of these. -/
structure FnOk (fn : Func V M S) : Prop where
  depends : ∀ vs r r', (∀ g ∈ fn.uses, r g = r' g) →
    (fn.run vs r).1 = (fn.run vs r').1 ∧ (fn.run vs r).2.1 = (fn.run vs r').2.1 ∧
      ∀ g ∈ fn.uses, (fn.run vs r).2.2 g = (fn.run vs r').2.2 g
  frame : ∀ vs r g, g ∉ fn.uses → (fn.run vs r).2.2 g = r g
  outs : ∀ vs r, ∀ o ∈ (fn.run vs r).2.1, o.InRange vs.length

/-- The devices of an operation: the CPU, the device of each tensor argument, and devices given as argument. -/
def DeviceOf (st : St V M S) (fn : Func V M S) (args : List Nat) (d : Nat) : Prop :=
  d = 0 ∨ (∃ o ∈ args, (st.objs o).dev = d) ∨ d ∈ fn.devArgs

/-- The operations in the scope, the first `n` tensor objects being from outside, and `E` the storages from outside which are
used: the arguments exist; each generator is the one of a device of the arguments, or of the CPU; and no operation changes what
is in a storage from outside. -/
def Valid (phys : Nat → Nat) (n : Nat) (E : Nat → Prop) :
    List (Func V M S × List Nat) → St V M S × Graph V M S → Prop
  | [], _ => True
  | p :: r, s =>
    FnOk p.1 ∧
    (∀ o ∈ p.2, o < s.1.on ∧ (o < n → E (s.1.objs o).sto)) ∧
    (∀ g ∈ p.1.uses, ∃ d, DeviceOf s.1 p.1 p.2 d ∧ phys d = g) ∧
    (∀ a, E a → (record phys p.1 p.2 s).1.heap a = s.1.heap a) ∧
    Valid phys n E r (record phys p.1 p.2 s)

/-- A later state of the process: there may be more storages and objects, and the storages from outside have the same values as
before. -/
structure Later (E : Nat → Prop) (st st' : St V M S) : Prop where
  hn : st.hn ≤ st'.hn
  on : st.on ≤ st'.on
  objs : ∀ o < st.on, st'.objs o = st.objs o
  heap : ∀ a, E a → st'.heap a = st.heap a

/-- No two names of devices which are seen in the scope mean the same generator. -/
def NamesUnique (phys : Nat → Nat) (rngs : Dict Nat S) : Prop :=
  ∀ a ∈ rngs.keys, ∀ b ∈ rngs.keys, phys a = phys b → a = b

end Verif.GradCkpt
