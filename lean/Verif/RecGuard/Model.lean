import Verif.RecGuard.Spec
/-
Model of `guard_infinite_recursion` (`returnn/util/basic.py`).

Simplification: one thread (the cache is thread-local); arguments are given by their identities, which stay the same while the guard holds them.
-/
namespace Verif.RecGuard

/-- `_guard_infinite_recursion_cache`, /repo/returnn/util/basic.py:3626: the attribute `cache` may be missing. -/
abbrev Cache := Option (List (List Nat))

/-- The check for the attribute, /repo/returnn/util/basic.py:3642-3643. -/
def ensure : Cache → List (List Nat)
  | none => []
  | some c => c

/-- `set.add`. -/
def add (k : List Nat) (c : List (List Nat)) : List (List Nat) := if k ∈ c then c else k :: c

/-- `finally: cache.remove(key)`, /repo/returnn/util/basic.py:3649-3650; a KeyError replaces the outcome of the body. -/
def leave (k : List Nat) : Out × Cache → Out × Cache
  | (o, c) => if k ∈ ensure c then (o, some ((ensure c).erase k)) else (.keyError, c)

/-- Running a program; a guard is /repo/returnn/util/basic.py:3629-3650. -/
def run : Prog → Cache → Out × Cache
  | .done, c => (.ok, c)
  | .fail e, c => (.user e, c)
  | .seq p q, c => if (run p c).1 = .ok then run q (run p c).2 else run p c
  | .tryExcept p q, c => if (run p c).1 = .ok then run p c else run q (run p c).2
  | .guarded key body, c =>
    if key = [] then (.valueError, c)
    else if key ∈ ensure c then (.recursion, some (ensure c))
    else leave key (run body (some (add key (ensure c))))

end Verif.RecGuard
