import Verif.RfMatmul.Spec
/-
What gathering by named dims means.
-/
namespace Verif.RfGather

open Verif.BinOp Verif.RfMatmul

/-- `out` is `source` where the position on `axis` is given by `pos`, a function of the position of the other dims; `own`
are the dims which take the place of the axis. -/
structure IsGather {α : Type} (sz : Nat → Nat) (source : Tensor α) (axis : Dim) (own : List Dim) (pos : (Nat → Nat) → Int)
    (out : Tensor α) : Prop where
  /-- The own dims are where the axis was. -/
  dims : ∃ pre post x, x.cls = axis.cls ∧ source.dims = pre ++ [x] ++ post ∧ out.dims = pre ++ own ++ post
  valid : Valid sz out
  value : ∀ σ : Nat → Nat, (∀ d ∈ out.dims, σ d.cls < sz d.cls) →
    ∃ i : Nat, (i : Int) = pos σ ∧ i < sz axis.cls ∧ valueAt out σ = valueAt source (moveTo σ axis.cls i)

/-- The dims of the indices which are not dims of the source, or are the axis. -/
def OwnDims (source : List Dim) (axis : Dim) (indices own : List Dim) : Prop :=
  own = indices.filter (fun d => decide (d.cls ∉ classes source ∨ d.cls = axis.cls))

/-- `x` limited to `0 .. n - 1`. -/
def limit (x n : Int) : Int := if x < 0 then 0 else if x < n then x else n - 1

end Verif.RfGather
