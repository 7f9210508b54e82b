import Verif.RfGather.Model
/-
Model of the functions of the frontend which change the shape of a tensor (frontend/array_.py) with the torch backend (torch/frontend/_backend.py), on the tensors and dims of `Verif.BinOp.Model`.

`sz` gives the size of each dim (`get_dim_value`). Names, dtypes and devices are not modelled; the feature dim only where it has an effect on the order of the dims.
-/
namespace Verif.RfShape

open Verif.Py Verif.BinOp Verif.RfMatmul Verif.RfGather

variable {α : Type}

/-- The sizes of dims: `[d.get_dim_value() for d in dims]`. -/
def shapeOf (sz : Nat → Nat) (ds : List Dim) : List Nat := ds.map (fun d => sz d.cls)

/-- `copy_transpose` with dims (tensor/_tensor_extra.py 656-671); `copy_compatible_to_dims` is the native one. -/
def transposeTo (t : Tensor α) (outs : List Dim) : Res (Raw α) :=
  if outs.length = t.dims.length then copyCompatNative t.dims t.raw outs else .error .assertion

/-- `min(l)` of a list which is not empty. -/
def minOf : List Nat → Nat
  | [] => 0
  | [a] => a
  | a :: l => min a (minOf l)

/-- `torch.reshape` to given dims. -/
def reshapeTo (sz : Nat → Nat) (r : Raw α) (dims : List Dim) (sparse : Option Dim) : Res (Tensor α) :=
  match reshape r (shapeOf sz dims) with
  | .error e => .error e
  | .ok r => .ok ⟨dims, none, sparse, r⟩

/-- _backend.py 261-292 `merge_dims`. The index of a dim which is not there raises `ValueError`. -/
def mergeDims (sz : Nat → Nat) (t : Tensor α) (ds : List Dim) (out : Dim) : Res (Tensor α) :=
  if ds.length < 2 then .error .assertion
  else if ds.any (fun d => !inDims t.dims d) then .error .valueError
  else
    let first := minOf (ds.map (index t.dims))
    let pre := t.dims.take first
    let post := t.dims.filter (fun d => !inDims ds d && !inDims pre d)
    match transposeTo t (pre ++ ds ++ post) with
    | .error e => .error e
    | .ok r => reshapeTo sz r (pre ++ [out] ++ post) t.sparse

/-- _backend.py 295-315 `split_dims`. -/
def splitDims (sz : Nat → Nat) (t : Tensor α) (axis : Dim) (ds : List Dim) : Res (Tensor α) :=
  match axisOf t.dims axis with
  | .error e => .error e
  | .ok i => reshapeTo sz t.raw (t.dims.take i ++ ds ++ t.dims.drop (i + 1)) t.sparse

/-- The axes which are not in `axes`: `permute` after the pops (_backend.py 323-327). -/
def restAxes (n : Nat) (axes : List Nat) : List Nat := (List.range n).filter (fun i => !axes.contains i)

/-- _backend.py 318-335 `reshape`. -/
def reshapeDims (sz : Nat → Nat) (t : Tensor α) (ins outs : List Dim) : Res (Tensor α) :=
  match axesOf t.dims ins with
  | .error e => .error e
  | .ok axes =>
    if ¬ axes.Nodup then .error .assertion
    else if axes = [] then .error .valueError
    else
      let rest := restAxes t.dims.length axes
      let perm := rest.take (minOf axes) ++ axes ++ rest.drop (minOf axes)
      let dims := rest.map (fun i => t.dims.getD i default)
      match permute t.raw perm with
      | .error e => .error e
      | .ok r => reshapeTo sz r (dims.take (minOf axes) ++ outs ++ dims.drop (minOf axes)) t.sparse

/-- _backend.py (frontend) 1069-1084 `replace_dim`: the raw tensor stays. -/
def replaceDim (t : Tensor α) (inDim out : Dim) : Res (Tensor α) :=
  match axisOf t.dims inDim with
  | .error e => .error e
  | .ok i => .ok { t with dims := t.dims.take i ++ [out] ++ t.dims.drop (i + 1) }

/-! ### Parts of an axis -/

/-- `torch.narrow`: `len` positions of the axis from `start`. -/
def narrow (r : Raw α) (axis start len : Nat) : Raw α := ⟨r.shape.set axis len, fun idx => r.get (idx.set axis (start + idx.getD axis 0))⟩

/-- The parts of `torch.split`. -/
def splitParts (r : Raw α) (axis : Nat) : Nat → List Nat → List (Raw α)
  | _, [] => []
  | start, n :: ns => narrow r axis start n :: splitParts r axis (start + n) ns

/-- `torch.split` with sections. -/
def torchSplit (r : Raw α) (axis : Nat) (ns : List Nat) : Res (List (Raw α)) :=
  if ns.sum = r.shape.getD axis 0 then .ok (splitParts r axis 0 ns) else .error .valueError

/-- _backend.py 338-352 `split`. -/
def split (sz : Nat → Nat) (t : Tensor α) (axis : Dim) (outs : List Dim) : Res (List (Tensor α)) :=
  match axisOf t.dims axis with
  | .error e => .error e
  | .ok i =>
    match torchSplit t.raw i (shapeOf sz outs) with
    | .error e => .error e
    | .ok rs => .ok (List.zipWith (fun d r => ⟨t.dims.take i ++ [d] ++ t.dims.drop (i + 1), t.feat, t.sparse, r⟩) outs rs)

/-- The value of the concatenated tensor at an index. -/
def catGet (axis : Nat) : Raw α → List (Raw α) → List Nat → α
  | r, [], idx => r.get idx
  | r, r2 :: rs, idx =>
    if idx.getD axis 0 < r.shape.getD axis 0 then r.get idx else catGet axis r2 rs (idx.set axis (idx.getD axis 0 - r.shape.getD axis 0))

/-- `torch.cat`: all shapes must be equal, except for the axis. -/
def torchCat (axis : Nat) (r : Raw α) (rs : List (Raw α)) : Res (Raw α) :=
  if ∀ x ∈ rs, x.shape.eraseIdx axis = r.shape.eraseIdx axis ∧ x.shape.length = r.shape.length then
    .ok ⟨r.shape.set axis ((r :: rs).map (fun x => x.shape.getD axis 0)).sum, catGet axis r rs⟩
  else .error .valueError

/-- `list.remove`. -/
def removeDim (ds : List Dim) (d : Dim) : List Dim := ds.eraseIdx (index ds d)

/-- `set(a) == set(b)`. -/
def sameSet (a b : List Dim) : Bool := a.all (inDims b) && b.all (inDims a)

/-- _backend.py 407-412: the dims of one more source. -/
def addOthers (others : List Dim) (s : Tensor α) (d : Dim) : List Dim :=
  s.dims.foldl (fun acc x => if x.eq d then acc else if inDims acc x then acc else acc ++ [x]) others

/-- _backend.py 402-412: all other dims, and whether a source lacks some. -/
def allOthers : List Dim → Bool → List (Tensor α × Dim) → Res (List Dim × Bool)
  | others, need, [] => .ok (others, need)
  | others, need, (s, d) :: r =>
    if !inDims s.dims d then .error .assertion
    else allOthers (addOthers others s d) (need || !sameSet (s.dims.filter (fun x => !x.eq d)) others) r

/-- The dims of a source in the right order, with `d` at the axis. -/
def withAxis (others : List Dim) (axis : Nat) (d : Dim) : List Dim := others.take axis ++ [d] ++ others.drop axis

/-- `copy_compatible_to(templ, unbroadcast=True)` on the raw tensor. -/
def unbroadcastTo (sz : Nat → Nat) (t : Tensor α) (outs : List Dim) : Res (Raw α) :=
  match copyCompatPy t.dims t.raw outs with
  | .error e => .error e
  | .ok r => expandTo r (shapeOf sz outs)

/-- _backend.py 413-432: the raw tensor of one source. -/
def catSource (sz : Nat → Nat) (bc : Bool) (others : List Dim) (axis : Nat) (s : Tensor α × Dim) : Res (Raw α) :=
  if bc then unbroadcastTo sz s.1 (withAxis others axis s.2)
  else if sameSet (withAxis others axis s.2) s.1.dims then transposeTo s.1 (withAxis others axis s.2)
  else .error .assertion

/-- array_.py `concat` (the checks on the sources) and _backend.py 389-438 `concat`. `dyn`: `not d.is_static()`; `handle`: `handle_dynamic_dims` is not false. -/
def concat (sz : Nat → Nat) (dyn : Dim → Bool) (s0 : Tensor α × Dim) (ss : List (Tensor α × Dim)) (allow handle : Bool) (out : Dim) : Res (Tensor α) := do
  if !allow && (s0 :: ss).any (fun s => !sameSet (s.1.dims.filter (fun x => !x.eq s.2)) (s0.1.dims.filter (fun x => !x.eq s0.2))) then throw .assertion
  if handle && (s0 :: ss).dropLast.any (fun s => dyn s.2) then throw .assertion
  let axis ← axisOf s0.1.dims s0.2
  let (others, need) ← if allow then allOthers (removeDim s0.1.dims s0.2) false ss else .ok (removeDim s0.1.dims s0.2, false)
  let r0 ← catSource sz (allow && need) others axis s0
  let rs ← ss.mapM (catSource sz (allow && need) others axis)
  let r ← torchCat axis r0 rs
  return ⟨withAxis others axis out, none, s0.1.sparse, r⟩

/-! ### New axes -/

/-- `torch.stack` on the first axis: all shapes must be equal. -/
def torchStack (r : Raw α) (rs : List (Raw α)) : Res (Raw α) :=
  if ∀ x ∈ rs, x.shape = r.shape then .ok ⟨(rs.length + 1) :: r.shape, fun idx => ((r :: rs).getD (idx.headD 0) r).get idx.tail⟩ else .error .valueError

/-- _backend.py 537-543 `stack`. -/
def stack (s0 : Tensor α) (ss : List (Tensor α)) (out : Dim) : Res (Tensor α) := do
  let r0 ← copyCompatNative s0.dims s0.raw s0.dims
  let rs ← ss.mapM (fun s => copyCompatNative s.dims s.raw s0.dims)
  let r ← torchStack r0 rs
  return ⟨out :: s0.dims, none, s0.sparse, r⟩

/-- `torch.unsqueeze`. -/
def unsqueeze (r : Raw α) (axis : Nat) : Raw α := ⟨r.shape.take axis ++ [1] ++ r.shape.drop axis, fun idx => r.get (idx.eraseIdx axis)⟩

/-- `torch.tile`. -/
def tile (r : Raw α) (reps : List Nat) : Raw α := ⟨List.zipWith (· * ·) r.shape reps, fun idx => r.get (List.zipWith (· % ·) idx r.shape)⟩

/-- _backend.py 357-368: where the new dim goes. `dyn`: `is_dynamic`. -/
def expandAxis (dyn : Dim → Bool) (t : Tensor α) (d : Dim) : Nat :=
  if dyn d then
    match (List.range t.dims.length).reverse.find? (fun i => dyn (t.dims.getD i default)) with
    | some i => i + 1
    | none => t.dims.length
  else t.feat.getD t.dims.length

/-- _backend.py 355-378 `expand_dim`. -/
def expandDim (sz : Nat → Nat) (dyn : Dim → Bool) (t : Tensor α) (d : Dim) : Res (Tensor α) :=
  if inDims t.dims d then .error .assertion
  else
    let axis := expandAxis dyn t d
    let dims := t.dims.take axis ++ [d] ++ t.dims.drop axis
    let r := unsqueeze t.raw axis
    let r := if dyn d || sz d.cls ≠ 1 then tile r (dims.map (fun x => if x.eq d then sz d.cls else 1)) else r
    .ok ⟨dims, none, t.sparse, r⟩

/-- `torch.squeeze` of one axis: nothing if its size is not 1. -/
def torchSqueeze (r : Raw α) (axis : Nat) : Raw α :=
  if r.shape.getD axis 0 = 1 then ⟨r.shape.eraseIdx axis, fun idx => r.get (idx.take axis ++ [0] ++ idx.drop axis)⟩ else r

/-- array_.py and _backend.py 381-386 `squeeze`. -/
def squeeze (sz : Nat → Nat) (t : Tensor α) (axis : Dim) : Res (Tensor α) :=
  if sz axis.cls ≠ 1 then .error .assertion
  else
    match axisOf t.dims axis with
    | .error e => .error e
    | .ok i => .ok ⟨t.dims.eraseIdx i, none, t.sparse, torchSqueeze t.raw i⟩

/-- array_.py 159-205 `merge_dims` with `out_dim` given. -/
def mergeFront (sz : Nat → Nat) (dyn : Dim → Bool) (t : Tensor α) (ds : List Dim) (out : Dim) : Res (Tensor α) :=
  match ds with
  | [] => if sz out.cls = 1 then expandDim sz dyn t out else .error .assertion
  | [d] => if out.eq d then .ok t else replaceDim t d out
  | ds => mergeDims sz t ds out

/-! ### Sizes of merged dims -/

/-- The size of a dim: a number, or one per sequence (`dyn_size_ext` over the batch dim). `cap`: the padded size. -/
structure Size where
  cap : Nat
  lens : Option (List Nat)

/-- `Dim.need_masking` without explicit capacity (tensor/_dim_extra.py 968-982). -/
def Size.masked (s : Size) : Bool := s.lens.isSome

/-- `a * b` on sizes. -/
def Size.mul (a b : Size) : Size where
  cap := a.cap * b.cap
  lens := match a.lens, b.lens with
    | none, none => none
    | some l, none => some (l.map (· * b.cap))
    | none, some l => some (l.map (a.cap * ·))
    | some l, some k => some (List.zipWith (· * ·) l k)

/-- array_.py 186-203: the dim of the result: the product, unless a later dim needs masking (`capacity` is not set, thus not 1): then without lengths. -/
def mergedSize : List Size → Size
  | [] => ⟨1, none⟩
  | s :: ss =>
    let p := ss.foldl Size.mul s
    if ss.any Size.masked then ⟨(ss.map Size.cap).foldl (· * ·) s.cap, none⟩ else p

end Verif.RfShape
