import Verif.RfMatmul.Model
/-
Model of `rf.gather` with the torch backend (`TorchBackend.gather`, `returnn/torch/frontend/_backend.py` 948-1049), on the
tensors and dims of `Verif.BinOp.Model`.

Names, dtypes and devices are not modelled, nor the feature dim of the result.  `sz` gives the size of each dim
(`get_dim_value`).
-/
namespace Verif.RfGather

open Verif.Py Verif.BinOp Verif.RfMatmul

/-- Whether an index is accepted for an axis of size `n`; indexing with `[]` also accepts negative ones (`neg`). -/
def inRange (neg : Bool) (n : Nat) (i : Int) : Bool :=
  if i < 0 then neg && decide (-(n : Int) ≤ i) else decide (i < (n : Int))

/-- The position for an accepted index. -/
def norm (n : Nat) (i : Int) : Nat := if i < 0 then (i + n).toNat else i.toNat

/-- All values of a raw tensor satisfy `p`. -/
def allValues {β : Type} (p : β → Bool) (r : Raw β) : Bool :=
  (List.range (numel r.shape)).all (fun k => p (r.get (unravel r.shape k)))

/-- Selection of positions of one axis: `torch.index_select`, `torch.embedding` (`neg := false`), `x[:, ..., j]`
(`neg := true`); the axes of `j` take the place of the axis. -/
def selectAxis {α : Type} (neg : Bool) (r : Raw α) (axis : Nat) (j : Raw Int) : Res (Raw α) :=
  if allValues (inRange neg (r.shape.getD axis 0)) j then
    .ok ⟨r.shape.take axis ++ j.shape ++ r.shape.drop (axis + 1), fun idx =>
      r.get (idx.take axis ++ [norm (r.shape.getD axis 0) (j.get ((idx.drop axis).take j.shape.length))] ++
        idx.drop (axis + j.shape.length))⟩
  else .error .indexError

/-- `torch.gather`. -/
def torchGather {α : Type} (r : Raw α) (axis : Nat) (j : Raw Int) : Res (Raw α) :=
  if j.shape.length = r.shape.length ∧ (∀ d < r.shape.length, d ≠ axis → j.shape.getD d 0 ≤ r.shape.getD d 0) then
    if allValues (inRange false (r.shape.getD axis 0)) j then
      .ok ⟨j.shape, fun idx => r.get (idx.take axis ++ [norm (r.shape.getD axis 0) (j.get idx)] ++ idx.drop (axis + 1))⟩
    else .error .indexError
  else .error .valueError

/-- Expansion of axes of size 1 (`unbroadcast=True` in `copy_compatible_to`). -/
def expandTo {α : Type} (r : Raw α) (shape : List Nat) : Res (Raw α) :=
  if List.Forall₂ (fun s t => s = t ∨ s = 1) r.shape shape then .ok ⟨shape, fun idx => r.get (project r.shape idx)⟩
  else .error .valueError

/-- `index_own_dims` (_backend.py 1001). -/
def ownDims (source : List Dim) (axis : Dim) (indices : List Dim) : List Dim :=
  indices.filter (fun d => !inDims source d || d.eq axis)

/-- Whether there are common dims other than the axis (_backend.py 1010). -/
def haveCommon (source : List Dim) (axis : Dim) (indices : List Dim) : Bool :=
  indices.any (fun d => inDims source d && !d.eq axis)

/-- Merging the own dims of the indices into one axis, or adding one (_backend.py 1013-1022): nothing to do for a single
dim, otherwise the axes of these dims are adjacent and in order, so this is a reshape. -/
def mergeOwn {α : Type} (own : List Dim) (r : Raw α) (shape : List Nat) : Res (Raw α) :=
  match own with
  | [_] => .ok r
  | _ => reshape r shape

/-- The generic case (_backend.py 1011-1037).  `copy_compatible_to` is modelled as `copy_compatible_to_dims_raw` with an
expansion. -/
def gatherCommon {α : Type} (sz : Nat → Nat) (source : Tensor α) (axis : Nat) (own outs : List Dim) (indices : Tensor Int) :
    Res (Raw α) :=
  match copyCompatPy indices.dims indices.raw outs with
  | .error e => .error e
  | .ok j0 =>
    match expandTo j0 (outs.map (fun d => sz d.cls)) with
    | .error e => .error e
    | .ok j1 =>
      match mergeOwn own j1 (source.raw.shape.take axis ++ [numel (own.map (fun d => sz d.cls))] ++
          source.raw.shape.drop (axis + 1)) with
      | .error e => .error e
      | .ok j2 =>
        match torchGather source.raw axis j2 with
        | .error e => .error e
        | .ok r => mergeOwn own r (outs.map (fun d => sz d.cls))

/-- `torch.index_select` with the flattened indices (_backend.py 1047-1053). -/
def gatherFlat {α : Type} (r : Raw α) (axis : Nat) (j : Raw Int) : Res (Raw α) :=
  match reshape j [numel j.shape] with
  | .error e => .error e
  | .ok jf =>
    match selectAxis false r axis jf with
    | .error e => .error e
    | .ok o => reshape o (r.shape.take axis ++ j.shape ++ r.shape.drop (axis + 1))

/-- The cases without common dims (_backend.py 1038-1053). -/
def gatherOwn {α : Type} (r : Raw α) (axis : Nat) (j : Raw Int) : Res (Raw α) :=
  if axis = 0 ∧ j.shape.length = 0 then selectAxis true r axis j
  else if axis = 0 ∧ r.shape.length = 2 then selectAxis false r axis j
  else if j.shape.length ≤ 1 then selectAxis true r axis j
  else gatherFlat r axis j

/-- The dims of the result (_backend.py 1002-1007). -/
def outDims (source : List Dim) (axis : Nat) (own : List Dim) : List Dim := source.take axis ++ own ++ source.drop (axis + 1)

/-- `gather` after the indices are clipped (_backend.py 1001-1054). -/
def gatherMain {α : Type} (sz : Nat → Nat) (source : Tensor α) (axis : Dim) (axisInt : Nat) (indices : Tensor Int) :
    Res (Tensor α) :=
  let own := ownDims source.dims axis indices.dims
  let outs := outDims source.dims axisInt own
  match (if haveCommon source.dims axis indices.dims then gatherCommon sz source axisInt own outs indices
      else gatherOwn source.raw axisInt indices.raw) with
  | .error e => .error e
  | .ok r => .ok ⟨outs, none, source.sparse, r⟩

/-- `torch.clamp(i, 0, n - 1)`. -/
def clampIndex (i n : Int) : Int := min (max i 0) (n - 1)

/-- The clipping of the indices (_backend.py 993-1000).  `sizes`: `dyn_size_ext` of the axis.  `clip_by_value` is modelled
as a binary operation with broadcasting of all sources. -/
def clipIndices {α : Type} (source : Tensor α) (axisInt : Nat) (sizes : Option (Tensor Int)) (indices : Tensor Int) :
    Res (Tensor Int) :=
  match sizes with
  | some s => opPy clampIndex false true (.tensor indices) (.tensor s) none
  | none =>
    .ok ⟨indices.dims, indices.feat, indices.sparse,
      ⟨indices.raw.shape, fun idx => clampIndex (indices.raw.get idx) (source.raw.shape.getD axisInt 0)⟩⟩

/-- `gather` with indices (_backend.py 962-1054). -/
def gather {α : Type} (sz : Nat → Nat) (source : Tensor α) (axis : Dim) (indices : Tensor Int) (clip : Bool)
    (sizes : Option (Tensor Int)) : Res (Tensor α) :=
  match axisOf source.dims axis with
  | .error e => .error e
  | .ok axisInt =>
    if clip then
      match clipIndices source axisInt sizes indices with
      | .error e => .error e
      | .ok i => gatherMain sz source axis axisInt i
    else gatherMain sz source axis axisInt indices

/-- The index 0 (_backend.py 966-979): `source[0]` or `source[:, ..., 0]`. -/
def gatherZero {α : Type} (source : Tensor α) (axisInt : Nat) : Res (Tensor α) :=
  match selectAxis true source.raw axisInt (scalarRaw 0) with
  | .error e => .error e
  | .ok r => .ok ⟨source.dims.take axisInt ++ source.dims.drop (axisInt + 1), none, source.sparse, r⟩

/-- `gather` with a constant index (_backend.py 962-991). -/
def gatherInt {α : Type} (sz : Nat → Nat) (source : Tensor α) (axis : Dim) (index : Int) (clip : Bool)
    (sizes : Option (Tensor Int)) : Res (Tensor α) :=
  match axisOf source.dims axis with
  | .error e => .error e
  | .ok axisInt =>
    if index = 0 then gatherZero source axisInt
    else gather sz source axis ⟨[], none, none, scalarRaw index⟩ clip sizes

end Verif.RfGather
