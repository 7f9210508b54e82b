import Verif.NumbersDict.Model
/-
Specification for `NumbersDict`: the observable number for a key, and what the operations should do with it.
-/
namespace Verif.NumbersDict
open Verif.Py

variable {K V W : Type} [DecidableEq K]

/-- No explicit item is `None` (`None` items only occur in results of `elem_eq`). -/
def NoNone (a : ND K V) : Prop := ∀ e ∈ a.dict, e.2 ≠ none

/-- The number that `d` has for key `k`, explicit or broadcast. -/
inductive HasNumber (a : ND K V) (k : K) (v : V) : Prop where
  | explicit (h : a.dict.get? k = some (some v))
  | broadcast (h1 : a.dict.get? k = none) (h2 : a.value = some v)

/-- What a key-wise operation with neutral element `zero` should give for the (optional) numbers of a key. -/
def Keywise (f : V → V → V) (zero : V) : Option V → Option V → Option V
  | none, none => none
  | some x, none => some (f x zero)
  | none, some y => some (f zero y)
  | some x, some y => some (f x y)

end Verif.NumbersDict
