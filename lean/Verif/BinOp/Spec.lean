import Verif.BinOp.Model
import Mathlib.Data.List.Forall2
/-
What broadcasting by named dims means, without the search for axes, permutations and reshapes.
-/
namespace Verif.BinOp

/-- The raw tensor has one axis per dim, of the size of that dim (`sz`: the size of each dim up to `==`). -/
def Valid {α : Type} (sz : Nat → Nat) (t : Tensor α) : Prop := t.raw.shape = t.dims.map (fun d => sz d.cls)

/-- No two dims are equal. -/
def Unique {α : Type} (t : Tensor α) : Prop := (t.dims.map Dim.cls).Nodup

/-- The value of a tensor if each named dim `c` is at position `σ c`. -/
def valueAt {α : Type} (t : Tensor α) (σ : Nat → Nat) : α := t.raw.get (t.dims.map (fun d => σ d.cls))

/-- `out` is `op(a, b)` by named dims: it has the dims of both, each once, and at each position of the named dims the
value is the operation on the values of `a` and `b` at this position. -/
structure IsBroadcast {α β : Type} (sz : Nat → Nat) (op : α → α → β) (a b : Tensor α) (out : Tensor β) : Prop where
  valid : Valid sz out
  unique : Unique out
  dims : ∀ c, c ∈ out.dims.map Dim.cls ↔ c ∈ a.dims.map Dim.cls ∨ c ∈ b.dims.map Dim.cls
  value : ∀ σ : Nat → Nat, (∀ d ∈ out.dims, σ d.cls < sz d.cls) →
    valueAt out σ = op (valueAt a σ) (valueAt b σ)

/-- `f` maps each axis of `ds` to a different axis of `outs` with an equal dim. -/
def AxisMap (ds outs : List Dim) (f : Nat → Nat) : Prop :=
  (∀ j (d : Dim), ds[j]? = some d → ∃ o, outs[f j]? = some o ∧ o.cls = d.cls) ∧
  ∀ i < ds.length, ∀ j < ds.length, f i = f j → i = j

/-- The index of an operand, picked from the index of the result. -/
def along (n : Nat) (f : Nat → Nat) (idx : List Nat) : List Nat := (List.range n).map (fun j => idx.getD (f j) 0)

/-- As `IsBroadcast`, but a tensor may have several equal dims (a square matrix): each axis of an operand has its own
axis of the result, of an equal dim, and a dim occurs in the result as often as in the operand with more of it. -/
structure IsBroadcastAxes {α β : Type} (sz : Nat → Nat) (op : α → α → β) (a b : Tensor α) (out : Tensor β) : Prop where
  valid : Valid sz out
  dims : ∀ c, (out.dims.map Dim.cls).count c = max ((a.dims.map Dim.cls).count c) ((b.dims.map Dim.cls).count c)
  value : ∃ fa fb, AxisMap a.dims out.dims fa ∧ AxisMap b.dims out.dims fb ∧
    ∀ idx : List Nat, List.Forall₂ (fun i s => i < s) idx out.raw.shape →
      out.raw.get idx = op (a.raw.get (along a.dims.length fa idx)) (b.raw.get (along b.dims.length fb idx))

/-- The dims of the result are in the order of `order`; others come last; apart from that the order of `ds` is kept. -/
def OrderedBy (order ds out : List Dim) : Prop :=
  out.Perm ds ∧
  (∀ x y : Dim, [x, y].Sublist out → orderPos order x ≤ orderPos order y) ∧
  ∀ x y : Dim, [x, y].Sublist ds → orderPos order x ≤ orderPos order y → [x, y].Sublist out
where
  /-- Where an equal dim is in `order`. -/
  orderPos : List Dim → Dim → Nat
    | [], _ => 0
    | o :: r, d => if d.cls = o.cls then 0 else orderPos r d + 1

/-- One of the operands has all the dims of the result. -/
def OneHasAll {α : Type} (a b : Tensor α) : Prop :=
  (∀ d ∈ b.dims, d.cls ∈ a.dims.map Dim.cls) ∨ (∀ d ∈ a.dims, d.cls ∈ b.dims.map Dim.cls)

end Verif.BinOp
