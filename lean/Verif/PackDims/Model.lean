import Verif.Util.Py
/-
Model of which dims `pack_padded` and `pad_packed` of `returnn/frontend/array_.py` accept, and of the values for the dims of a mask (the values of the packing
itself are in `RfSeq`, C69).

Simplifications for the whole file:
* a dim is a number with what its size is: one number for all sequences, or a number for every index of other dims; capacities, copies and caches are left out;
* a cell is an index for every dim.
-/
namespace Verif.PackDims
open Verif Verif.Py

/-- The size of a dim: static or scalar dynamic (e.g. the batch dim), or dynamic with the dims of `dyn_size_ext` and its values. -/
inductive Size
  | plain (n : Nat)
  | dyn (sizeDims : List Nat) (sizes : (Nat → Nat) → Nat)

/-- The sizes of all dims. -/
abbrev Env := Nat → Size

/-- `need_masking`, /repo/returnn/tensor/_dim_extra.py:968-982. -/
def needMasking (e : Env) (d : Nat) : Bool :=
  match e d with
  | .plain _ => false
  | .dyn ds _ => !ds.isEmpty

/-- Dims and values of a mask. -/
structure Mask where
  dims : List Nat
  val : (Nat → Nat) → Bool

/-- The dims of the sizes, `dyn_size_ext.dims`. -/
def sizeDims (e : Env) (d : Nat) : List Nat :=
  match e d with
  | .plain _ => []
  | .dyn ds _ => ds

/-- The size for a sequence. -/
def sizeAt (e : Env) (d : Nat) (i : Nat → Nat) : Nat :=
  match e d with
  | .plain n => n
  | .dyn _ f => f i

/-- `get_mask(dim_order=dims)`, /repo/returnn/tensor/_dim_extra.py:825-882: first the dims in the wanted order, then the others. -/
def getMask (e : Env) (order : List Nat) (d : Nat) : Mask :=
  let dflt := sizeDims e d ++ [d]
  let first := order.filter fun x => decide (x ∈ dflt)
  { dims := first ++ dflt.filter (fun x => decide (x ∉ first)), val := fun i => decide (i d < sizeAt e d i) }

/-- `opt_logical_and` of two masks, with all their dims. -/
def both (a b : Mask) : Mask :=
  { dims := a.dims ++ b.dims.filter (fun x => decide (x ∉ a.dims)), val := fun i => a.val i && b.val i }

/-- `sequence_mask`, /repo/returnn/frontend/array_.py:688-704. -/
def sequenceMask (e : Env) (dims : List Nat) : Res Mask :=
  if dims.isEmpty then .error .assertion
  else .ok (((dims.filter (needMasking e)).map (getMask e dims)).foldl both { dims := [], val := fun _ => true })

/-- How `masked_select` and `masked_scatter` go on. -/
inductive Way
  | whole
  | part
deriving DecidableEq

/-- The checks of `masked_select` / `masked_scatter`, /repo/returnn/frontend/array_.py:611-618, 660-668. -/
def checkDims (mask : Mask) (dims : List Nat) : Res Way :=
  if dims.all (fun d => decide (d ∈ mask.dims)) then
    if dims.isEmpty then .error .valueError
    else if mask.dims.all (fun d => decide (d ∈ dims)) then .ok .whole else .ok .part
  else .error .valueError

/-- `pack_padded` (and `pad_packed`, with the same mask and dims), /repo/returnn/frontend/array_.py:707-746: which way, and the mask. -/
def packPadded (e : Env) (dims : List Nat) : Res (Way × Mask) :=
  match sequenceMask e dims with
  | .error x => .error x
  | .ok m =>
    match checkDims m dims with
    | .error x => .error x
    | .ok w => .ok (w, m)

end Verif.PackDims
