import Verif.TensorDict.Model
/-
Raw tensors and sizes should arrive on the other side.
-/
namespace Verif.TensorDict
open Verif Verif.Py

/-- The same names with the same dims in the same order; raw tensors may be different. -/
inductive SameTemplate : TD → TD → Prop
  | nil : SameTemplate [] []
  | cons {k : K} {v v' : T} {t t' : TD} : v.dims = v'.dims → SameTemplate t t' → SameTemplate ((k, v) :: t) ((k, v') :: t')

/-- A dim of the template fits to the one of the source: the same kind, and a tensor of sizes of the same kind. The batch dim may also have none on one of the sides, when it is a scalar on the other. -/
def Fits (d d' : D) : Prop :=
  d.isBatch = d'.isBatch ∧ d.size = d'.size ∧
  (d.isBatch = false → d.ext.map Ext.scalar = d'.ext.map Ext.scalar) ∧
  (d.isBatch = true → (∀ e, d.ext = some e → e.scalar = true) ∧ ∀ e, d'.ext = some e → e.scalar = true)

/-- The size of a dim: what the batch dim has otherwise, or the raw tensor. -/
def SizeIs (batchValue : Nat → Res Raw) (h : Heap) (d : Nat) (v : Raw) : Prop :=
  ((h d).isBatch = true ∧ (∀ e, (h d).ext = some e → e.raw = .none) ∧ batchValue d = .ok v) ∨
  (∃ e, (h d).ext = some e ∧ e.raw = v ∧ ((h d).isBatch = true → e.raw ≠ .none))

/-- Dims with a size which can change. -/
def Dynamic (d : D) : Prop := d.isBatch = true ∨ d.ext.isSome

end Verif.TensorDict
