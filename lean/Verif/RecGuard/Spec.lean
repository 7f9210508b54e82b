import Verif.Util.Py
/-
Specification: programs with nested guards. What a guard does depends on the guards which are open around it, and on nothing that happened before.
-/
namespace Verif.RecGuard

/-- How a piece of code ends. -/
inductive Out where
  | ok
  | user (e : Nat)
  | recursion
  | valueError
  | keyError
deriving DecidableEq

/-- A program with guards: the key is the list of identities of the arguments. -/
inductive Prog where
  | done
  | fail (e : Nat)
  | seq (p q : Prog)
  | tryExcept (p q : Prog)
  | guarded (key : List Nat) (body : Prog)

namespace Spec

/-- The outcome, given the keys of the open guards. -/
def outcome (opened : List (List Nat)) : Prog → Out
  | .done => .ok
  | .fail e => .user e
  | .seq p q => if outcome opened p = .ok then outcome opened q else outcome opened p
  | .tryExcept p q => if outcome opened p = .ok then .ok else outcome opened q
  | .guarded key body =>
    if key = [] then .valueError
    else if key ∈ opened then .recursion
    else outcome (key :: opened) body

/-- Calls nested in each other, each with its own guard. -/
def nested (body : Prog) : List (List Nat) → Prog
  | [] => body
  | k :: ks => .guarded k (nested body ks)

end Spec
end Verif.RecGuard
