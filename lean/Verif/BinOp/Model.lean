import Verif.Util.Py
/-
Model of the binary operations on tensors of the frontend (`a + b`, `rf.combine`, `rf.compare`): the native code
`returnn/frontend/_native/tensor_ops.cpp` and the Python code which it replaces (`returnn/frontend/_utils.py`,
`_backend.py`, `returnn/tensor/_tensor_extra.py`).

Names, dtypes, devices and reference counts are not modelled.
-/
namespace Verif.BinOp

open Verif.Py

/-- A `Dim` object.  `id`: the identity of the object.  `cls`: what `==` compares (two dims are equal if they have
the same class; `==` is taken as an equivalence relation here).  `prio`: `match_priority`. -/
structure Dim where
  id : Nat
  cls : Nat
  prio : Int
deriving DecidableEq, Repr, Inhabited

/-- `a == b`. -/
def Dim.eq (a b : Dim) : Bool := a.cls == b.cls

/-! ### Raw tensors -/

/-- A raw tensor (torch): the shape and the value at each index. -/
structure Raw (α : Type) where
  shape : List Nat
  get : List Nat → α

/-- Number of elements. -/
def numel : List Nat → Nat
  | [] => 1
  | s :: ss => s * numel ss

/-- Position of an index in row-major order. -/
def ravel : List Nat → List Nat → Nat
  | _ :: ss, i :: is => i * numel ss + ravel ss is
  | _, _ => 0

/-- The index at a position in row-major order. -/
def unravel : List Nat → Nat → List Nat
  | [], _ => []
  | _ :: ss, n => n / numel ss :: unravel ss (n % numel ss)

/-- `torch.permute`. -/
def permute {α : Type} (r : Raw α) (perm : List Nat) : Res (Raw α) :=
  if perm.length == r.shape.length && (List.range r.shape.length).all (fun j => perm.contains j) then
    .ok ⟨perm.map (fun j => r.shape.getD j 0),
      fun idx => r.get ((List.range r.shape.length).map (fun j => idx.getD (perm.idxOf j) 0))⟩
  else .error .valueError

/-- `torch.reshape`. -/
def reshape {α : Type} (r : Raw α) (shape : List Nat) : Res (Raw α) :=
  if numel shape = numel r.shape then .ok ⟨shape, fun idx => r.get (unravel r.shape (ravel shape idx))⟩
  else .error .valueError

/-- Broadcasting of two sizes. -/
def bcSize (x y : Nat) : Res Nat :=
  if x = y then .ok x else if x = 1 then .ok y else if y = 1 then .ok x else .error .valueError

/-- Broadcasting of shapes, last axis first. -/
def bcShapeRev : List Nat → List Nat → Res (List Nat)
  | [], ys => .ok ys
  | xs, [] => .ok xs
  | x :: xs, y :: ys =>
    match bcSize x y with
    | .error e => .error e
    | .ok s =>
      match bcShapeRev xs ys with
      | .error e => .error e
      | .ok r => .ok (s :: r)

/-- The index of the operand which belongs to an index of the result: the last axes, and 0 for axes of size 1. -/
def project (shape idx : List Nat) : List Nat :=
  List.zipWith (fun s i => if s = 1 then 0 else i) shape (idx.drop (idx.length - shape.length))

/-- An element-wise operation of torch with broadcasting. -/
def rawOp {α β : Type} (op : α → α → β) (a b : Raw α) : Res (Raw β) :=
  match bcShapeRev a.shape.reverse b.shape.reverse with
  | .error e => .error e
  | .ok s => .ok ⟨s.reverse, fun idx => op (a.get (project a.shape idx)) (b.get (project b.shape idx))⟩

/-! ### Tensors -/

/-- A `Tensor`.  `feat`: `_feature_dim_axis`.  `sparse`: `sparse_dim`. -/
structure Tensor (α : Type) where
  dims : List Dim
  feat : Option Nat
  sparse : Option Dim
  raw : Raw α

/-- `feature_dim` (tensor/tensor.py 194-207). -/
def Tensor.featureDim {α : Type} (t : Tensor α) : Option Dim := t.feat.bind (fun i => t.dims[i]?)

/-- The loop of `get_axis_from_description` for a dim (tensor/_tensor_extra.py 2485-2502): `i` is the axis,
`res` the best axis so far. -/
def axisLoop (d : Dim) : List Dim → Nat → Option (Nat × Dim) → Res Nat
  | [], _, none => .error (.other "Exception")
  | [], _, some (i, _) => .ok i
  | t :: r, i, none => if t.eq d then axisLoop d r (i + 1) (some (i, t)) else axisLoop d r (i + 1) none
  | t :: r, i, some (j, x) =>
    if t.eq d then
      if x.prio < t.prio then axisLoop d r (i + 1) (some (i, t))
      else if x.prio > t.prio then axisLoop d r (i + 1) (some (j, x))
      else .error (.other "Exception")
    else axisLoop d r (i + 1) (some (j, x))

/-- The `feature_dim` setter (tensor/tensor.py 209-218) on a tensor without `sparse_dim`: the axis. -/
def featAxis (dims : List Dim) : Option Dim → Res (Option Nat)
  | none => .ok none
  | some d =>
    match axisLoop d dims 0 none with
    | .error e => .error e
    | .ok i => .ok (some i)

/-- `res_feature_dim`, `res_sparse_dim` (_utils.py 139-168); `_consistentFeatureDim`, `_consistentSparseDim`
(tensor_ops.cpp 702-732). -/
def consistent (a b : Option Dim) : Option Dim :=
  match a, b with
  | some x, none => some x
  | none, some y => some y
  | some x, some y => if x.eq y then some x else none
  | none, none => none

/-! ### Finding the axes -/

/-- The loop over the dims of the superset (tensor_ops.cpp 233-247, 515-568; _tensor_extra.py 1189-1226):
`pick` chooses an axis which is not yet taken. -/
def permLoop (pick : List Bool → Dim → Res (Option Nat)) : List Dim → List Bool → Res (List (Option Nat) × List Bool)
  | [], taken => .ok ([], taken)
  | d :: r, taken =>
    match pick taken d with
    | .error e => .error e
    | .ok none =>
      match permLoop pick r taken with
      | .error e => .error e
      | .ok (p, t) => .ok (none :: p, t)
    | .ok (some j) =>
      match permLoop pick r (taken.set j true) with
      | .error e => .error e
      | .ok (p, t) => .ok (some j :: p, t)

/-- `_isSeqSubsetFast` (tensor_ops.cpp 206-224): `is` only, same order.  `i` is the index in the subset. -/
def subsetFast : Nat → List Dim → List Dim → Option (List (Option Nat))
  | _, [], sup => some (sup.map (fun _ => none))
  | _, _ :: _, [] => none
  | i, a :: r, b :: s =>
    if a = b then (subsetFast (i + 1) r s).map (some i :: ·) else (subsetFast i (a :: r) s).map (none :: ·)

/-- The free axes of `ds` which satisfy `f`, from the front. -/
def freeAxes (ds : List Dim) (taken : List Bool) (f : Dim → Bool) : List Nat :=
  (List.range ds.length).filter (fun j => !taken.getD j false && f (ds.getD j default))

/-- The inner loop of `_isSeqSubsetReorderFast` (tensor_ops.cpp 235-245): the first free axis with this very dim. -/
def pickSame (ds : List Dim) (taken : List Bool) (d : Dim) : Res (Option Nat) :=
  .ok (freeAxes ds taken (fun x => decide (x = d))).head?

/-- `_isSeqSubsetReorderFast` (tensor_ops.cpp 229-253): `is` only, any order. -/
def subsetReorderFast (sub sup : List Dim) : Option (List (Option Nat)) :=
  if sub.length > sup.length then none
  else
    match permLoop (pickSame sub) sup (List.replicate sub.length false) with
    | .error _ => none
    | .ok (p, taken) => if taken.all id then some p else none

/-- The candidates of the generic code (tensor_ops.cpp 517-529; _tensor_extra.py 1190-1198): the very dim alone if there
is one, otherwise all equal ones. -/
def candidates (ds : List Dim) (taken : List Bool) (d : Dim) : List Nat :=
  match freeAxes ds taken (fun x => decide (x = d)) with
  | j :: _ => [j]
  | [] => freeAxes ds taken (fun x => d.eq x)

/-- The loop which finds the highest `match_priority` (tensor_ops.cpp 542-563; _tensor_extra.py 1210-1218):
the best candidate so far, its priority, how many have it. -/
def bestLoop (ds : List Dim) : List Nat → Option (Nat × Int × Nat) → Option (Nat × Int × Nat)
  | [], best => best
  | j :: r, none => bestLoop ds r (some (j, (ds.getD j default).prio, 1))
  | j :: r, some (k, m, c) =>
    let q := (ds.getD j default).prio
    if q > m then bestLoop ds r (some (j, q, 1))
    else if q = m then bestLoop ds r (some (k, m, c + 1))
    else bestLoop ds r (some (k, m, c))

/-- The choice of the generic code (tensor_ops.cpp 530-573; _tensor_extra.py 1200-1226). -/
def pickGeneric (ds : List Dim) (taken : List Bool) (d : Dim) : Res (Option Nat) :=
  match candidates ds taken d with
  | [] => .ok none
  | [j] => .ok (some j)
  | js =>
    match bestLoop ds js none with
    | none => .error .assertion
    | some (k, _, c) => if c > 1 then .error .valueError else .ok (some k)

/-- The number of matched dims. -/
def matched (p : List (Option Nat)) : Nat := (p.filter Option.isSome).length

/-- `get_out_permutation_to_dims` (_tensor_extra.py 1180-1230). -/
def permPy (ds outs : List Dim) : Res (List (Option Nat)) :=
  match permLoop (pickGeneric ds) outs (List.replicate ds.length false) with
  | .error e => .error e
  | .ok (p, _) => if matched p = ds.length then .ok p else .error .assertion

/-- `_getPermutationSupersetToSubset` (tensor_ops.cpp 502-585). -/
def permNative (ds outs : List Dim) : Res (List (Option Nat)) :=
  match subsetFast 0 ds outs with
  | some p => .ok p
  | none =>
    match subsetReorderFast ds outs with
    | some p => .ok p
    | none =>
      match permLoop (pickGeneric ds) outs (List.replicate ds.length false) with
      | .error e => .error e
      | .ok (p, _) => if matched p = ds.length then .ok p else .error .valueError

/-! ### Permute and add axes -/

/-- `-1` for a dim which is not there. -/
def permInt : Option Nat → Int
  | none => -1
  | some j => j

/-- The matched axes, in the order of the result. -/
def somes : List (Option Nat) → List Nat
  | [] => []
  | some j :: p => j :: somes p
  | none :: p => somes p

/-- The size of an axis of the result: of the matched axis, or 1. -/
def optSize (shape : List Nat) : Option Nat → Nat
  | some j => shape.getD j 0
  | none => 1

/-- `needPermute` (tensor_ops.cpp 604-610). -/
def needPermute : List (Option Nat) → Bool
  | p :: q :: r => decide (permInt q ≠ permInt p + 1) || needPermute (q :: r)
  | _ => false

/-- The new shape (tensor_ops.cpp 648-663); `shape` is the shape after the permutation. -/
def extShape : List (Option Nat) → List Nat → List Nat
  | [], _ => []
  | some _ :: p, shape => shape.headD 1 :: extShape p shape.tail
  | none :: p, shape => 1 :: extShape p shape

/-- The permutation part of `_permuteAndExtend` (tensor_ops.cpp 603-630). -/
def permuteNative {α : Type} (raw : Raw α) (perm : List (Option Nat)) : Res (Raw α) :=
  if needPermute perm then permute raw (somes perm) else .ok raw

/-- The reshape part of `_permuteAndExtend` (tensor_ops.cpp 632-668). -/
def extendNative {α : Type} (nDims nOut : Nat) (raw : Raw α) (perm : List (Option Nat)) : Res (Raw α) :=
  if nOut > nDims then
    if raw.shape.length ≠ nDims then .error .valueError else reshape raw (extShape perm raw.shape)
  else .ok raw

/-- `_permuteAndExtend` with a permutation (tensor_ops.cpp 588-671). -/
def permuteAndExtend {α : Type} (dims : List Dim) (raw : Raw α) (outs : List Dim) (perm : List (Option Nat)) :
    Res (Raw α) :=
  match permuteNative raw perm with
  | .error e => .error e
  | .ok r => extendNative dims.length outs.length r perm

/-- `_permuteAndExtend` without a permutation (tensor_ops.cpp 597-598); also the raw part of
`tensorCopyCompatibleToDims` (tensor_ops.cpp 849-885), the native `copy_compatible_to_dims_raw`. -/
def copyCompatNative {α : Type} (dims : List Dim) (raw : Raw α) (outs : List Dim) : Res (Raw α) :=
  match permNative dims outs with
  | .error e => .error e
  | .ok p => permuteAndExtend dims raw outs p

/-- `copy_compatible_to_dims_raw` (_tensor_extra.py 1290-1308). -/
def copyCompatPy {α : Type} (dims : List Dim) (raw : Raw α) (outs : List Dim) : Res (Raw α) :=
  match permPy dims outs with
  | .error e => .error e
  | .ok p =>
    if p = (List.range dims.length).map some then .ok raw
    else
      match permute raw (somes p) with
      | .error e => .error e
      | .ok r => reshape r (p.map (optSize raw.shape))

/-! ### The dims of the result -/

/-- `dims.count(dim)`. -/
def countEq (ds : List Dim) (d : Dim) : Nat := (ds.filter (fun x => x.eq d)).length

/-- The loop body of `bin_op_out_template` (_utils.py 97-111). -/
def addDimPy (a b acc : List Dim) (d : Dim) : List Dim :=
  if acc.any (fun x => x.eq d) then acc
  else if countEq a d ≤ 1 ∧ countEq b d ≤ 1 then acc ++ [d]
  else if countEq a d ≥ countEq b d then acc ++ a.filter (fun x => x.eq d)
  else acc ++ b.filter (fun x => x.eq d)

/-- The dims of the result (_utils.py 95-111). -/
def allDimsPy (a b : List Dim) : List Dim := (a ++ b).foldl (addDimPy a b) []

/-- The equal dims of the operand which has more of them (tensor_ops.cpp 1216-1228).  The loop over `b` ends after as
many dims as are equal (`bDimsCount` instead of the size). -/
def moreDims (a b : List Dim) (d : Dim) : List Dim :=
  if countEq a d ≥ countEq b d then a.filter (fun x => x.eq d)
  else (b.take (countEq b d)).filter (fun x => x.eq d)

/-- The loop body of the native code (tensor_ops.cpp 1191-1236), which raises a `SystemError` if a dim was missed. -/
def addDimNative (a b : List Dim) (acc : Res (List Dim)) (d : Dim) : Res (List Dim) :=
  match acc with
  | .error e => .error e
  | .ok acc =>
    if acc.any (fun x => x.eq d) then .ok acc
    else if countEq a d ≤ 1 ∧ countEq b d ≤ 1 then .ok (acc ++ [d])
    else if (moreDims a b d).length ≠ max (countEq a d) (countEq b d) then .error (.other "SystemError")
    else .ok (acc ++ moreDims a b d)

/-- The dims of the result (tensor_ops.cpp 1190-1243). -/
def allDimsNative (a b : List Dim) : Res (List Dim) := (a ++ b).foldl (addDimNative a b) (.ok [])

/-- `dim_order.index(d) if d in dim_order else len(dim_order)` (_utils.py 123; `getIndex`, tensor_ops.cpp 1275-1285). -/
def orderIndex (order : List Dim) (d : Dim) : Nat := order.findIdx (fun x => d.eq x)

/-- Sorting by `dim_order` (_utils.py 122-123; tensor_ops.cpp 1262-1298). -/
def sortDims (order : Option (List Dim)) (ds : List Dim) : List Dim :=
  match order with
  | none => ds
  | some o => stableSort (fun x y => decide (orderIndex o x ≤ orderIndex o y)) ds

/-! ### The operations -/

/-- `tensorCopyTemplateSimple` with the raw tensor set (tensor_ops.cpp 148-185). -/
def likeTensor {α β : Type} (t : Tensor α) (isBool : Bool) (raw : Raw β) : Tensor β :=
  ⟨t.dims, t.feat, if isBool then none else t.sparse, raw⟩

/-- A raw operation, with the dims of `t`. -/
def opLike {α β : Type} (op : α → α → β) (isBool : Bool) (t : Tensor α) (x y : Raw α) : Res (Tensor β) :=
  match rawOp op x y with
  | .error e => .error e
  | .ok r => .ok (likeTensor t isBool r)

/-- `_compareOrCombine_subsetDims` (tensor_ops.cpp 673-700). -/
def opSubset {α β : Type} (op : α → α → β) (isBool bIsSubset : Bool) (a b : Tensor α) (perm : List (Option Nat)) :
    Res (Tensor β) :=
  if bIsSubset then
    match permuteAndExtend b.dims b.raw a.dims perm with
    | .error e => .error e
    | .ok r => opLike op isBool a a.raw r
  else
    match permuteAndExtend a.dims a.raw b.dims perm with
    | .error e => .error e
    | .ok r => opLike op isBool b r b.raw

/-- The result with new dims (tensor_ops.cpp 1321-1347; _utils.py 124-127). -/
def newTensor {α β : Type} (isBool : Bool) (a b : Tensor α) (dims : List Dim) (raw : Raw β) : Res (Tensor β) :=
  match featAxis dims (consistent a.featureDim b.featureDim) with
  | .error e => .error e
  | .ok f => .ok ⟨dims, f, if isBool then none else consistent a.sparse b.sparse, raw⟩

/-- `_isTupleSubsetReorderList` (tensor_ops.cpp 256-289): the second search, with `==`, begins at the end of the list,
so only `is` counts. -/
def isSubsetList (sub sup : List Dim) : Bool := (subsetReorderFast sub sup).isSome

/-- The generic part of `compareOrCombine` (tensor_ops.cpp 1186-1349). -/
def opGeneric {α β : Type} (op : α → α → β) (isBool allow : Bool) (a b : Tensor α) (order : Option (List Dim)) :
    Res (Tensor β) :=
  match allDimsNative a.dims b.dims with
  | .error e => .error e
  | .ok all =>
    if !isSubsetList a.dims all && !isSubsetList b.dims all && !allow then .error .valueError
    else
      let outs := sortDims order all
      match copyCompatNative a.dims a.raw outs with
      | .error e => .error e
      | .ok ra =>
        match copyCompatNative b.dims b.raw outs with
        | .error e => .error e
        | .ok rb =>
          match rawOp op ra rb with
          | .error e => .error e
          | .ok r => newTensor isBool a b outs r

/-- `dimOrder == Py_None || _isSameSeqFast(dims, dimOrderSeq)`. -/
def orderIs (order : Option (List Dim)) (dims : List Dim) : Bool :=
  match order with
  | none => true
  | some o => decide (dims = o)

/-- `compareOrCombine` on two tensors (tensor_ops.cpp 1079-1349). -/
def opTensors {α β : Type} (op : α → α → β) (isBool allow : Bool) (a b : Tensor α) (order : Option (List Dim)) :
    Res (Tensor β) :=
  if a.dims = b.dims ∧ orderIs order a.dims then opLike op isBool a a.raw b.raw
  else if b.dims.length = 0 ∧ orderIs order a.dims then opLike op isBool a a.raw b.raw
  else if a.dims.length = 0 ∧ orderIs order b.dims then opLike op isBool b a.raw b.raw
  else
    match subsetFast 0 b.dims a.dims, orderIs order a.dims with
    | some p, true => opSubset op isBool true a b p
    | _, _ =>
      match subsetFast 0 a.dims b.dims, orderIs order b.dims with
      | some p, true => opSubset op isBool false a b p
      | _, _ =>
        match subsetReorderFast b.dims a.dims, orderIs order a.dims with
        | some p, true => opSubset op isBool true a b p
        | _, _ =>
          match subsetReorderFast a.dims b.dims, orderIs order b.dims with
          | some p, true => opSubset op isBool false a b p
          | _, _ => opGeneric op isBool allow a b order

/-- An operand: a tensor or a number. -/
inductive Arg (α : Type) where
  | tensor (t : Tensor α)
  | scalar (v : α)

/-- A number as raw tensor. -/
def scalarRaw {α : Type} (v : α) : Raw α := ⟨[], fun _ => v⟩

/-- `compareOrCombine` (tensor_ops.cpp 1017-1349). -/
def opNative {α β : Type} (op : α → α → β) (isBool allow : Bool) (a b : Arg α) (order : Option (List Dim)) :
    Res (Tensor β) :=
  match a, b with
  | .tensor a, .tensor b => opTensors op isBool allow a b order
  | .tensor a, .scalar v =>
    if order.isSome then .error .typeError else opLike op isBool a a.raw (scalarRaw v)
  | .scalar v, .tensor b =>
    if order.isSome then .error .typeError else opLike op isBool b (scalarRaw v) b.raw
  | .scalar _, .scalar _ => .error .typeError

/-- `convert_to_tensor` of a number. -/
def Arg.toTensor {α : Type} : Arg α → Tensor α
  | .tensor t => t
  | .scalar v => ⟨[], none, none, scalarRaw v⟩

/-- `set(x.dims) != set(all_dims)` is false (_utils.py 112): the same dims up to `==`. -/
def sameDims (x all : List Dim) : Bool :=
  x.all (fun d => all.any (fun e => e.eq d)) && all.all (fun d => x.any (fun e => e.eq d))

/-- `if not allow_scalar or a.dims: a.copy_compatible_to_dims_raw(all_dims) else: a.raw_tensor` (_utils.py 128-135). -/
def operandPy {α : Type} (t : Tensor α) (outs : List Dim) : Res (Raw α) :=
  if t.dims = [] then .ok t.raw else copyCompatPy t.dims t.raw outs

/-- `combine`, `compare` (_backend.py 823-876) with `bin_op_out_template` (_utils.py 55-136) and `combine_raw` of torch
(torch/frontend/_backend.py 822-858).  `allow`: `allow_broadcast_all_sources` is `True`. -/
def opPy {α β : Type} (op : α → α → β) (isBool allow : Bool) (a b : Arg α) (order : Option (List Dim)) :
    Res (Tensor β) :=
  let a := a.toTensor
  let b := b.toTensor
  let all := allDimsPy a.dims b.dims
  if !sameDims a.dims all && !sameDims b.dims all && !allow then .error .valueError
  else
    let outs := sortDims order all
    match operandPy a outs with
    | .error e => .error e
    | .ok ra =>
      match operandPy b outs with
      | .error e => .error e
      | .ok rb =>
        if ra.shape.length = rb.shape.length ∨ ra.shape.length = 0 ∨ rb.shape.length = 0 then
          match rawOp op ra rb with
          | .error e => .error e
          | .ok r => newTensor isBool a b outs r
        else .error .assertion

end Verif.BinOp
