import Verif.FrontCache.Model
/-
A function with a cache should be like the function without.
-/
namespace Verif.FrontCache
open Verif Verif.Py

/-- The dims of a key. -/
def dimsOf (key : List Item) : List Nat := key.filterMap (fun i => match i with | .dim d => some d | _ => none)

/-- Other dims in a key. -/
def rename (σ : Nat → Nat) : Item → Item
  | .dim d => .dim (σ d)
  | i => i

/-- Other dims in a value. -/
def Val.rename (σ : Nat → Nat) (v : Val) : Val := ⟨v.payload, v.dims.map σ⟩

/-- Of the dims, the function only uses the known sizes: with other dims of the same known sizes it gives the same with the other dims. -/
def Natural (w : World) (K : List Item → Prop) (f : List Item → Val) : Prop :=
  ∀ (k : List Item) (σ : Nat → Nat), K k → K (k.map (rename σ)) → (∀ d ∈ dimsOf k, w.size (σ d) = w.size d) → (∀ d ∈ dimsOf k, w.size d = none → σ d = d) →
    (∀ d, d ∉ dimsOf k → σ d = d) → f (k.map (rename σ)) = (f k).rename σ

/-- Where one key has a dim twice, the other one has as well. -/
def Compat (k k' : List Item) : Prop := ∀ (i j : Nat) (a b c : Nat), k[i]? = some (.dim a) → k[j]? = some (.dim a) → k'[i]? = some (.dim b) → k'[j]? = some (.dim c) → b = c

/-- All states of the cache, with calls of the function with keys of `K`, and dims which die. -/
inductive Reach (w : World) (K : List Item → Prop) (f : List Item → Val) (n : Nat) : Cache → Prop
  | init : Reach w K f n ⟨n, [], []⟩
  | call {c c' : Cache} {k : List Item} {v : Val} : Reach w K f n c → K k → memo w f c k = .ok (c', v) → Reach w K f n c'
  | die {c : Cache} (d : Nat) : Reach w K f n c → Reach w K f n (die c d)

end Verif.FrontCache
