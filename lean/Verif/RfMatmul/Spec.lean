import Verif.BinOp.Spec
import Mathlib.Algebra.BigOperators.Group.Finset.Basic
/-
What a product of tensors with a sum over named dims means (Einstein summation by names).
-/
namespace Verif.RfMatmul

open Verif.BinOp

/-- `σ` with dim `c` at position `i`. -/
def moveTo (σ : Nat → Nat) (c i : Nat) : Nat → Nat := fun c' => if c' = c then i else σ c'

/-- The sum of `f` over all positions of the dims `ds`, one after the other. -/
def sumOver {R : Type} [AddCommMonoid R] (sz : Nat → Nat) : List Dim → ((Nat → Nat) → R) → (Nat → Nat) → R
  | [], f, σ => f σ
  | d :: ds, f, σ => ∑ i ∈ Finset.range (sz d.cls), sumOver sz ds f (moveTo σ d.cls i)

/-- The classes of dims. -/
def classes (ds : List Dim) : List Nat := ds.map Dim.cls

/-- `out` is the product of `a` and `b`, summed over `reduce`: at each position of its dims the value is the sum over the
positions of the reduce dims of the products of the values of `a` and `b`.  The dims are those of both except `reduce`,
in the documented order: common dims as sorted in `a`, then those only in `a`, then those only in `b`. -/
structure IsMatmul {R : Type} [AddCommMonoid R] [Mul R] (sz : Nat → Nat) (reduce : List Dim) (a b out : Tensor R) :
    Prop where
  dims : out.dims =
    a.dims.filter (fun d => decide (d.cls ∉ classes reduce ∧ d.cls ∈ classes b.dims)) ++
    a.dims.filter (fun d => decide (d.cls ∉ classes reduce ∧ d.cls ∉ classes b.dims)) ++
    b.dims.filter (fun d => decide (d.cls ∉ classes reduce ∧ d.cls ∉ classes a.dims))
  valid : Valid sz out
  value : ∀ σ : Nat → Nat, (∀ d ∈ out.dims, σ d.cls < sz d.cls) →
    valueAt out σ = sumOver sz reduce (fun τ => valueAt a τ * valueAt b τ) σ

end Verif.RfMatmul
