import Verif.Lru.Model
/-
Specification of the LRU cache: a bounded list of entries, ordered by recency.
-/
namespace Verif.Lru
open Verif.Py

variable {K V : Type} [DecidableEq K]

/-- The abstract cache: the entries, least recently used first. -/
structure Abs (K V : Type) where
  entries : Dict K V
  hits : Nat
  misses : Nat
  maxsize : Nat

/-- One step of the abstract cache. -/
def Abs.step (a : Abs K V) : Call K V → Ret V × Abs K V
  | .lookup k =>
    match a.entries.get? k with
    | some v => (.value (some v), { a with entries := a.entries.erase k ++ [(k, v)], hits := a.hits + 1 })
    | none => (.miss, { a with misses := a.misses + 1 })
  | .set k v =>
    if a.maxsize = 0 ∨ k ∈ a.entries.keys then (.unit, a)
    else (.unit, { a with entries := (if a.entries.length < a.maxsize then a.entries else a.entries.tail) ++ [(k, v)] })
  | .peek k u =>
    match a.entries.get? k with
    | some v => (.value (some v), if u then { a with hits := a.hits + 1 } else a)
    | none => (.miss, if u then { a with misses := a.misses + 1 } else a)
  | .pop k fb =>
    match a.entries.get? k with
    | some v => (.value (some v), { a with entries := a.entries.erase k })
    | none => (if fb then .miss else .keyError, a)
  | .popOldest fb =>
    match a.entries with
    | [] => (if fb then .miss else .keyError, a)
    | e :: r => (.value (some e.2), { a with entries := r })
  | .setMaxsize n => (.unit, { a with entries := a.entries.drop (a.entries.length - n), maxsize := n })
  | .clear => (.unit, { a with entries := [], hits := 0, misses := 0 })
  | .info => (.info a.hits a.misses a.maxsize a.entries.length, a)

/-- The results of a history. -/
def Abs.run (a : Abs K V) : List (Call K V) → List (Ret V)
  | [] => []
  | c :: cs => (a.step c).1 :: Abs.run (a.step c).2 cs

/-- The state after a history. -/
def Abs.after (a : Abs K V) : List (Call K V) → Abs K V
  | [] => a
  | c :: cs => Abs.after (a.step c).2 cs

/-- The empty cache. -/
def Abs.new (maxsize : Nat) : Abs K V := ⟨[], 0, 0, maxsize⟩

/-- The steps which use (touch) the key: they make it the most recently used one, if it is in the cache afterwards. -/
def Uses (k : K) : Call K V → Bool
  | .lookup k' => decide (k' = k)
  | .set k' _ => decide (k' = k)
  | _ => false

end Verif.Lru
