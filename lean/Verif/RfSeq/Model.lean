import Mathlib.Tactic.Common
import Verif.Util.Py
/-
Model of the array functions of the frontend on batches of padded sequences (frontend/array_.py, torch/frontend/_backend.py).

A tensor [B,T] with a dynamic axis `T` is a list of sequences: each with its length and its row of the raw tensor, which has the padded length.
`masked` is `Dim.need_masking()` (tensor/_dim_extra.py 968-982): the lengths differ or could differ.
-/
namespace Verif.RfSeq
open Verif.Py

/-- A tensor with axes batch and time. Other axes are in `α` (they play no role in these functions). -/
structure Padded (α : Type) where
  T : Nat
  masked : Bool
  seqs : List (Nat × List α)
deriving DecidableEq

/-- torch.nn.functional.pad with mode "constant", one row. -/
def padRaw {α : Type} (left right : Nat) (v : α) (row : List α) : List α := List.replicate left v ++ row ++ List.replicate right v

/-- `torch.where(range < n, row, v)`, one row. -/
def whereBefore {α : Type} (n : Nat) (v : α) (row : List α) : List α := row.mapIdx (fun i x => if i < n then x else v)

/-- _backend.py 502-533 for one sequence: `handle`: `handle_dynamic_dims`; `r`: padding of this sequence, `R` the maximum. With `value` not given
(`none`), `torch.where` raises. -/
def padRow {α : Type} [Inhabited α] (masked handle : Bool) (left R : Nat) (value : Option α) (n : Nat) (row : List α) : Res (List α) :=
  if handle && masked && R != 0 then
    match value with
    | none => .error .typeError
    | some v => .ok (whereBefore (left + n) v (padRaw left R v row))
  else .ok (padRaw left R (value.getD default) row)

/-- array_.py 452-493, _backend.py 441-534 `pad` with mode "constant" on one axis: `left` an int (or a scalar), `R`/`rs` the right padding: maximum and for each sequence
(all the same for an int), `value` a scalar; `default` is 0. The lengths of the result are `left + middle + right` (480). `mask` of the result: of the axis or of the right padding. -/
def pad {α : Type} [Inhabited α] (x : Padded α) (left R : Nat) (rs : List Nat) (value : Option α) (handle : Bool) : Res (Padded α) := do
  let rows ← (x.seqs.zip rs).mapM (fun p => (padRow x.masked handle left R value p.1.1 p.1.2).map (fun row => (left + p.1.1 + p.2, row)))
  return { T := left + x.T + R, masked := x.masked || rs.any (fun r => r != R), seqs := rows }

/-- The same with an int for the right padding. -/
def padInt {α : Type} [Inhabited α] (x : Padded α) (left right : Nat) (value : Option α) (handle : Bool) : Res (Padded α) :=
  pad x left right (x.seqs.map (fun _ => right)) value handle

/-- _backend.py 493-501 and 502-533: the case that `value` is a tensor [B]: one frame is appended, whatever the padding is. The `torch.where` needs the
shape to fit. -/
def padTensor {α : Type} (x : Padded α) (left right : Nat) (values : List α) (handle : Bool) : Res (Padded α) :=
  if handle && x.masked && right != 0 then
    if left + right = 1 then
      .ok { T := left + x.T + right, masked := x.masked
            seqs := (x.seqs.zip values).map (fun p => (left + p.1.1 + right, whereBefore (left + p.1.1) p.2 (p.1.2 ++ [p.2]))) }
    else .error (.other "shape")
  else .ok { T := left + x.T + right, masked := x.masked, seqs := (x.seqs.zip values).map (fun p => (left + p.1.1 + right, p.1.2 ++ [p.2])) }

/-- torch.narrow on one row: a negative start counts from the end; everything must be inside. -/
def narrow {α : Type} (row : List α) (start length : Int) : Res (List α) :=
  let s := if start < 0 then start + row.length else start
  if 0 ≤ s ∧ 0 ≤ length ∧ s + length ≤ row.length then .ok ((row.drop s.toNat).take length.toNat) else .error (.other "narrow")

/-- `size` of `slice`: an int, or a dim with the maximum and the lengths. -/
inductive SliceSize where
  | int (n : Nat)
  | dim (T : Nat) (masked : Bool) (ns : List Nat)
deriving DecidableEq

/-- `ceildiv_right` (1061-1064); no step or 1: nothing. -/
def ceildiv (n : Nat) (step : Option Nat) : Nat := match step with
  | none => n
  | some k => (n + k - 1) / k

/-- array_.py 1032-1053: the size of the slice without step, for one size of the axis. -/
def sliceLen (start : Int) (stop : Option Int) (n : Nat) : Res Nat :=
  if 0 ≤ start then
    match stop with
    | none => .ok (n - start.toNat)
    | some e => if e < 0 then .ok (n - start.toNat - (-e).toNat) else .ok (e - start).toNat
  else match stop with
    | none => .ok (-start).toNat
    | some e => if e < 0 then .ok (-start + e).toNat else .error .assertion

/-- Whether the resulting size depends on the sequence. -/
def sliceDyn (start : Int) (stop : Option Int) : Bool := 0 ≤ start && (match stop with | none => true | some e => e < 0)

/-- `size` as maximum, masking and lengths (1022-1028). -/
def sizeOf {α : Type} (x : Padded α) : SliceSize → Nat × Bool × List Nat
  | .int n => (n, false, x.seqs.map (fun _ => n))
  | .dim T m ns => (T, m, ns)

/-- _backend.py 1169-1171: with `size`. -/
def sliceBySize {α : Type} (x : Padded α) (start : Int) (sz : SliceSize) : Res (Padded α) := do
  let rows ← (x.seqs.zip (sizeOf x sz).2.2).mapM (fun p => (narrow p.1.2 start (sizeOf x sz).1).map (fun row => (p.2, row)))
  return { T := (sizeOf x sz).1, masked := (sizeOf x sz).2.1, seqs := rows }

/-- One sequence of `sliceByEnd`. -/
def sliceEndRow {α : Type} (T : Nat) (start : Int) (stop : Option Int) (step : Option Nat) (p : Nat × List α) : Res (Nat × List α) := do
  let n ← sliceLen start stop p.1
  let row ← narrow p.2 start (stop.getD T - start)
  return (ceildiv n step, row)

/-- array_.py 1031-1069, _backend.py 1172-1178: without `size`. The backend does not use `step`. -/
def sliceByEnd {α : Type} (x : Padded α) (start : Int) (stop : Option Int) (step : Option Nat) : Res (Padded α) := do
  let T ← sliceLen start stop x.T
  let rows ← x.seqs.mapM (sliceEndRow x.T start stop step)
  return { T := ceildiv T step, masked := x.masked && sliceDyn start stop, seqs := rows }

/-- array_.py 989-1074, _backend.py 1146-1179 `slice`, for ints (and a dim as `size`), without `out_dim`. -/
def slice {α : Type} (x : Padded α) (start stop : Option Int) (step : Option Nat) (size : Option SliceSize) : Res (Padded α) :=
  if step = some 0 then .error .valueError
  else match size with
    | some sz => if (step = none ∨ step = some 1) ∧ stop = none then sliceBySize x (start.getD 0) sz else .error .assertion
    | none => sliceByEnd x (start.getD 0) stop step

/-- The dim of the axis, as `size`. -/
def axisSize {α : Type} (x : Padded α) : SliceSize := .dim x.T x.masked (x.seqs.map Prod.fst)

/-- array_.py 1077-1081 `shift_right`; `handle`: the default of `handle_dynamic_dims` (depends on the behavior version). -/
def shiftRight {α : Type} [Inhabited α] (x : Padded α) (v : α) (amount : Nat) (handle : Bool) : Res (Padded α) := do
  let p ← padInt x amount 0 (some v) handle
  slice p none none none (some (axisSize x))

/-- The same with a tensor [B] as `pad_value`. -/
def shiftRightTensor {α : Type} (x : Padded α) (vs : List α) (amount : Nat) (handle : Bool) : Res (Padded α) := do
  let p ← padTensor x amount 0 vs handle
  slice p none none none (some (axisSize x))

/-- array_.py 1084-1090 `shift_left`. -/
def shiftLeft {α : Type} [Inhabited α] (x : Padded α) (v : α) (amount : Nat) : Res (Padded α) := do
  let p ← padInt x 0 amount (some v) true
  slice p (some (amount : Int)) none none (some (axisSize x))

/-- The same with a tensor [B] as `pad_value`. -/
def shiftLeftTensor {α : Type} (x : Padded α) (vs : List α) (amount : Nat) : Res (Padded α) := do
  let p ← padTensor x 0 amount vs true
  slice p (some (amount : Int)) none none (some (axisSize x))

/-- torch.clamp: if min is greater than max, the result is max. -/
def clamp (x lo hi : Int) : Int := min (max x lo) hi

/-- torch.gather on one row. -/
def gatherRow {α : Type} (row : List α) (idxs : List Int) : Res (List α) :=
  idxs.mapM (fun i => if i < 0 then .error .indexError else getItem row i.toNat)

/-- array_.py 1108: the indices; 994-996 clipped to the valid part. -/
def reverseIdxs (T n : Nat) : List Int := (List.range T).map (fun (i : Nat) => clamp ((n : Int) - (i : Int) - 1) 0 ((n : Int) - 1))

/-- array_.py 1093-1109 `reverse_sequence`. -/
def reverseSequence {α : Type} (x : Padded α) (handle : Bool) : Res (Padded α) :=
  if !handle || !x.masked then .ok { x with seqs := x.seqs.map (fun p => (p.1, p.2.reverse)) }
  else do
    let rows ← x.seqs.mapM (fun p => (gatherRow p.2 (reverseIdxs x.T p.1)).map (fun row => (p.1, row)))
    return { x with seqs := rows }

/-- tensor/_tensor_extra.py 2915-2975 `copy_masked` on the axis. -/
def copyMasked {α : Type} (x : Padded α) (v : α) : Padded α :=
  if x.masked then { x with seqs := x.seqs.map (fun p => (p.1, whereBefore p.1 v p.2)) } else x

/-! ### Packing -/

/-- The raw tensor in the order [B,T] or [T,B], flat. -/
def flatBT {α : Type} (rows : List (List α)) : List α := rows.flatten

/-- Time major: frame `t` of all rows, for each `t`. -/
def flatTB {α : Type} (T : Nat) (rows : List (List α)) : List α := (List.range T).flatMap (fun t => rows.filterMap (fun row => row[t]?))

/-- `Dim.get_mask` for a row. -/
def maskRow (T n : Nat) : List Bool := (List.range T).map (fun i => decide (i < n))

/-- torch/util/array_.py 10-40 `masked_select`: nonzero positions of the mask, then index. Without remaining dims (those are in `α`). -/
def maskedSelectRaw {α : Type} (mask : List Bool) (flat : List α) : List α :=
  ((List.range mask.length).filter (fun i => mask.getD i false)).filterMap (fun i => flat[i]?)

/-- torch `masked_scatter_`: the next element of the source at each position of the mask. -/
def maskedScatterRaw {α : Type} : List Bool → List α → List α → Res (List α)
  | [], _, _ => .ok []
  | _ :: _, [], _ => .ok []
  | false :: m, o :: out, src => (maskedScatterRaw m out src).map (o :: ·)
  | true :: _, _ :: _, [] => .error (.other "masked_scatter_")
  | true :: m, _ :: out, s :: src => (maskedScatterRaw m out src).map (s :: ·)

/-- The order of `dims`. -/
inductive Order where
  | bt
  | tb
deriving DecidableEq

/-- Flat raw tensor for an order of dims. -/
def flat {α : Type} (o : Order) (T : Nat) (rows : List (List α)) : List α := match o with
  | .bt => flatBT rows
  | .tb => flatTB T rows

/-- Position of frame `t` of sequence `b` in it. -/
def flatPos (o : Order) (T B b t : Nat) : Nat := match o with
  | .bt => b * T + t
  | .tb => t * B + b

/-- array_.py 706-734 `pack_padded` with `dims` in an order. -/
def packPadded {α : Type} (o : Order) (x : Padded α) : List α :=
  maskedSelectRaw (flat o x.T (x.seqs.map (fun p => maskRow x.T p.1))) (flat o x.T (x.seqs.map Prod.snd))

/-- array_.py 737-742 `pad_packed` (the result flat, in the order of the dims), _backend.py 1769-1813. -/
def padPacked {α : Type} [Inhabited α] (o : Order) (T : Nat) (ns : List Nat) (packed : List α) : Res (List α) :=
  maskedScatterRaw (flat o T (ns.map (maskRow T))) (List.replicate (ns.length * T) default) packed

/-! ### masked_select for the time axis only -/

/-- torch.cumsum of a mask. -/
def cumsum : Nat → List Bool → List Nat
  | _, [] => []
  | acc, b :: l => (acc + b.toNat) :: cumsum (acc + b.toNat) l

/-- 639: the target indices. -/
def selectIdxs (newTime : Nat) (mask : List Bool) : List Nat :=
  ((cumsum 0 mask).zip mask).map (fun p => if p.2 then p.1 - 1 else newTime)

/-- `scatter_add_` on one row. -/
def scatterAdd {α : Type} [Add α] (out : List α) : List (Nat × α) → List α
  | [] => out
  | (i, v) :: l => scatterAdd (out.modify i (· + v)) l

/-- array_.py 622-643 `masked_select` with `dims` = the time axis and a mask [B,T]; lengths and rows of the result. `zero`: fill value. -/
def maskedSelectTime {α : Type} [Add α] (zero : α) (x : Padded α) (masks : List (List Bool)) : Padded α :=
  let ms := (x.seqs.zip masks).map (fun p => if x.masked then whereBefore p.1.1 false p.2 else p.2)
  let sizes := ms.map (fun m => (cumsum 0 m).getD (x.T - 1) 0)
  let newTime := sizes.foldl max 0
  { T := newTime, masked := true
    seqs := (sizes.zip (ms.zip (copyMasked x zero).seqs)).map (fun p =>
      (p.1, (scatterAdd (List.replicate (newTime + 1) zero) ((selectIdxs newTime p.2.1).zip p.2.2.2)).take newTime)) }

/-! ### window -/

/-- array_.py 389-393: repeat and flatten, then pad. -/
def windowFlat {α : Type} (W : Nat) (v : α) (row : List α) : List α := (List.replicate W row).flatten ++ List.replicate W v

/-- array_.py 394-401: the rows of the shape [window, out + window], and the slice to `out` frames. -/
def windowRows {α : Type} (W out : Nat) (v : α) (row : List α) : List (List α) :=
  (List.range W).map (fun w => (((windowFlat W v row).drop (w * (out + W))).take (out + W)).take out)

/-- array_.py 389-401: the raw result [window, time] for one row with `out` frames. The reshape needs the right number of elements. -/
def windowRow {α : Type} (W out : Nat) (v : α) (row : List α) : Res (List (List α)) :=
  if (windowFlat W v row).length = W * (out + W) then .ok (windowRows W out v row) else .error (.other "shape")

/-- array_.py 382-387: with a stride, by gather: [time, window]. -/
def windowStrided {α : Type} (W out stride : Nat) (row : List α) : Res (List (List α)) :=
  (List.range ((out + stride - 1) / stride)).mapM (fun t => gatherRow row ((List.range W).map (fun w => ((t * stride + w : Nat) : Int))))

/-- array_.py 345-375 for padding "same": the padded input; `useMask`: mask with 0 before. -/
def windowInput {α : Type} [Inhabited α] (x : Padded α) (left right : Nat) (padValue : Option α) (useMask handle : Bool) : Res (Padded α) :=
  padInt (if useMask then copyMasked x default else x) left right padValue handle

end Verif.RfSeq
