import Verif.BinOp.Model
import Mathlib.Algebra.BigOperators.Group.Finset.Basic
/-
Model of `rf.matmul` with the torch backend (`TorchBackend.matmul`, `returnn/torch/frontend/_backend.py` 1338-1436), on
the tensors and dims of `Verif.BinOp.Model`.

Numbers are elements of any type with a commutative addition and a multiplication, so there is no rounding.  Names, dtypes
and devices are not modelled.
-/
namespace Verif.RfMatmul

open Verif.Py Verif.BinOp

/-- `get_axis_from_description` for a dim (tensor/_tensor_extra.py 2485-2507). -/
def axisOf (dims : List Dim) (d : Dim) : Res Nat := axisLoop d dims 0 none

/-- `[x.get_axis_from_description(d) for d in ds]` (_backend.py 1364-1365). -/
def axesOf (dims : List Dim) : List Dim → Res (List Nat)
  | [] => .ok []
  | d :: ds =>
    match axisOf dims d with
    | .error e => .error e
    | .ok i =>
      match axesOf dims ds with
      | .error e => .error e
      | .ok r => .ok (i :: r)

/-- `d in dims`. -/
def inDims (dims : List Dim) (d : Dim) : Bool := dims.any (fun x => x.eq d)

/-- `dims.index(d)`. -/
def index (dims : List Dim) (d : Dim) : Nat := dims.findIdx (fun x => x.eq d)

/-- The sorting of the reduce dims (_backend.py 1358-1360). -/
def sortReduce (dims reduce : List Dim) : List Dim :=
  if reduce.length > 1 then stableSort (fun x y => decide (index dims x ≤ index dims y)) reduce else reduce

/-- `common_dims` (_backend.py 1368). -/
def commonDims (a b : List Dim) (ra : List Nat) : List Dim :=
  ((List.range a.length).filter (fun i => inDims b (a.getD i default) && !ra.contains i)).map (fun i => a.getD i default)

/-- `a_unique_axes`, `b_unique_axes` (_backend.py 1372-1373). -/
def uniqueAxes (n : Nat) (reduce common : List Nat) : List Nat :=
  (List.range n).filter (fun i => !reduce.contains i && !common.contains i)

/-- `tuple(shape[i] for i in axes)`. -/
def sizes (shape axes : List Nat) : List Nat := axes.map (fun i => shape.getD i 0)

variable {R : Type} [AddCommMonoid R] [Mul R]

/-- `torch.nn.functional.linear(x, w)`: `x` is `[*, K]`, `w` is `[M, K]`, the result is `[*, M]`. -/
def linear (x w : Raw R) : Res (Raw R) :=
  match w.shape with
  | [m, k] =>
    if x.shape.getLast? = some k then
      .ok ⟨x.shape.dropLast ++ [m],
        fun idx => ∑ i ∈ Finset.range k, x.get (idx.dropLast ++ [i]) * w.get [idx.getLastD 0, i]⟩
    else .error .valueError
  | _ => .error .valueError

/-- `torch.mm`. -/
def mm (x y : Raw R) : Res (Raw R) :=
  match x.shape, y.shape with
  | [n, k], [k', m] =>
    if k = k' then
      .ok ⟨[n, m], fun idx => ∑ i ∈ Finset.range k, x.get [idx.getD 0 0, i] * y.get [i, idx.getD 1 0]⟩
    else .error .valueError
  | _, _ => .error .valueError

/-- `torch.bmm`. -/
def bmm (x y : Raw R) : Res (Raw R) :=
  match x.shape, y.shape with
  | [b, n, k], [b', k', m] =>
    if b = b' ∧ k = k' then
      .ok ⟨[b, n, m], fun idx =>
        ∑ i ∈ Finset.range k, x.get [idx.getD 0 0, idx.getD 1 0, i] * y.get [idx.getD 0 0, i, idx.getD 2 0]⟩
    else .error .valueError
  | _, _ => .error .valueError

/-- The case of `torch.nn.functional.linear` (_backend.py 1401-1404). -/
def viaLinear (a b : Raw R) (ua ra ub rb : List Nat) : Res (Raw R) :=
  match permute a (ua ++ ra) with
  | .error e => .error e
  | .ok pa =>
    match permute b (ub ++ rb) with
    | .error e => .error e
    | .ok pb => linear pa pb

/-- `torch.mm` on the reshaped tensors (_backend.py 1411-1414). -/
def viaMm (pa pb : Raw R) (nua nr nub : Nat) : Res (Raw R) :=
  match reshape pa [nua, nr] with
  | .error e => .error e
  | .ok xa =>
    match reshape pb [nr, nub] with
    | .error e => .error e
    | .ok xb => mm xa xb

/-- `torch.bmm` on the reshaped tensors (_backend.py 1416-1424). -/
def viaBmm (pa pb : Raw R) (nc nua nr nub : Nat) : Res (Raw R) :=
  match reshape pa [nc, nua, nr] with
  | .error e => .error e
  | .ok xa =>
    match reshape pb [nc, nr, nub] with
    | .error e => .error e
    | .ok xb => bmm xa xb

/-- The choice between `torch.mm` and `torch.bmm` (_backend.py 1410-1424). -/
def viaMmOrBmm (pa pb : Raw R) (nc nua nr nub : Nat) : Res (Raw R) :=
  if nc = 1 then viaMm pa pb nua nr nub else viaBmm pa pb nc nua nr nub

/-- The general case (_backend.py 1406-1426); `sc`, `sua`, `sr`, `sub` are the shapes. -/
def viaMatmul (a b : Raw R) (ca ua ra cb ub rb : List Nat) (sc sua sr sub : List Nat) : Res (Raw R) :=
  match permute a (ca ++ ua ++ ra) with
  | .error e => .error e
  | .ok pa =>
    match permute b (cb ++ rb ++ ub) with
    | .error e => .error e
    | .ok pb =>
      match viaMmOrBmm pa pb (numel sc) (numel sua) (numel sr) (numel sub) with
      | .error e => .error e
      | .ok r => reshape r (sc ++ sua ++ sub)

/-- The computation, for given axes (_backend.py 1375-1426). -/
def matmulRaw (a b : Raw R) (ca ua ra cb ub rb : List Nat) : Res (Raw R) :=
  if sizes a.shape ca ≠ sizes b.shape cb then .error .assertion
  else if sizes a.shape ra ≠ sizes b.shape rb then .error .assertion
  else if cb.length = 0 ∧ rb.length = 1 ∧ ub.length = 1 then viaLinear a b ua ra ub rb
  else viaMatmul a b ca ua ra cb ub rb (sizes a.shape ca) (sizes a.shape ua) (sizes a.shape ra) (sizes b.shape ub)

/-- The part of `matmul` after the reduce axes are known (_backend.py 1367-1436). -/
def matmulAxes (a b : Tensor R) (ra rb : List Nat) : Res (Tensor R) :=
  let common := commonDims a.dims b.dims ra
  let ca := common.map (index a.dims)
  let cb := common.map (index b.dims)
  let ua := uniqueAxes a.dims.length ra ca
  let ub := uniqueAxes b.dims.length rb cb
  match matmulRaw a.raw b.raw ca ua ra cb ub rb with
  | .error e => .error e
  | .ok r =>
    .ok ⟨common ++ ua.map (fun i => a.dims.getD i default) ++ ub.map (fun i => b.dims.getD i default), none, none, r⟩

/-- `matmul` (_backend.py 1338-1436).  `dyn`: the dim has `dyn_size_ext`.  With behavior version 22 the check for it
raises `TypeError` instead of `NotImplementedError` (a tensor as a bool, tensor/_tensor_op_overloads.py 20-29). -/
def matmul (dyn : Dim → Bool) (useMask : Bool) (a b : Tensor R) (reduce : List Dim) : Res (Tensor R) :=
  if useMask && reduce.any dyn then .error .notImplemented
  else if !reduce.all (inDims a.dims) then .error .assertion
  else if !reduce.all (inDims b.dims) then .error .assertion
  else
    match axesOf a.dims (sortReduce a.dims reduce) with
    | .error e => .error e
    | .ok ra =>
      match axesOf b.dims (sortReduce a.dims reduce) with
      | .error e => .error e
      | .ok rb => matmulAxes a b ra rb

end Verif.RfMatmul
