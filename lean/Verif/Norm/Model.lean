import Verif.RfSeq.Reduce
import Mathlib.Algebra.Order.Field.Basic
/-
Model of frontend/normalization.py (moments, LayerNorm, RMSNorm, GroupNorm, BatchNorm) on top of the model of `reduce` (Verif.RfSeq.Reduce), and of
`batch_norm` in torch/frontend/_backend.py.

Numbers are a field `K` (exact, no rounding). `rsqrt` is any function. NaN and inf in the result are the error "nan".
-/
namespace Verif.Norm
open Verif.Py Verif.RfSeq

variable {K : Type} [Field K] [DecidableEq K]

/-- A function on each cell of the raw tensor. -/
def mapF {α β : Type} (f : α → β) (x : Padded α) : Padded β :=
  { T := x.T, masked := x.masked, seqs := x.seqs.map (fun p => (p.1, p.2.map f)) }

/-- dims.py 222-266 `num_elements_of_shape([B,T])`. -/
def numElements {α : Type} (x : Padded α) (useMask : Bool) : Nat := if useMask then (x.seqs.map Prod.fst).sum else x.seqs.length * x.T

/-- normalization.py 37-43, the end of `moments`: the correction of the variance. -/
def corrected (n corr var : K) : Option K := if corr = 0 then some var else if n - corr = 0 then none else some (var * (n / (n - corr)))

/-- normalization.py 14-43 `moments` over batch and time, of one feature. The mean is computed without `use_mask` (37), that is, with the default, masked. -/
def moments (x : Padded K) (useMask : Bool) (corr : K) : Option (K × K) := do
  let mean ← reduceMeanAll x true
  let var ← reduceMeanAll (mapF (fun v => (v - mean) * (v - mean)) x) useMask
  let var ← corrected (numElements x useMask : K) corr var
  return (mean, var)

/-! ### BatchNorm -/

/-- Options of BatchNorm (171-220): `use_mask` and the default of it from the config (dims.py 311-347, `default=True`), momentum, epsilon. -/
structure Cfg (K : Type) where
  useMask : Option Bool
  configMask : Bool
  momentum : K
  eps : K

/-- 254-259: normalize, then gamma and beta. -/
def normCell (rsqrt : K → K) (eps : K) (s : K × K) (aff : Option (K × K)) (v : K) : K :=
  match aff with
  | none => (v - s.1) * rsqrt (s.2 + eps)
  | some (g, b) => (v - s.1) * rsqrt (s.2 + eps) * g + b

/-- 243-245 `_update_running_stats`. -/
def update (m : K) (cur s : K × K) : K × K := (s.1 + (cur.1 - s.1) * m, s.2 + (cur.2 - s.2) * m)

/-- 231-260: the implementation with masking, one feature. `st`: running mean and variance (`none`: `track_running_stats=False`). Result: the statistics which
are used, and the new running statistics. -/
def maskedStats (c : Cfg K) (train : Bool) (st : Option (K × K)) (x : Padded K) : Option ((K × K) × Option (K × K)) := do
  let useCur := st.isNone || train
  let upd := st.isSome && train
  let cur ← if useCur || upd then moments x true 0 else st
  let st' := if upd then st.map (update c.momentum cur) else st
  let used ← if useCur then some cur else st'
  return (used, st')

/-- torch.nn.functional.batch_norm, one channel with all its cells: in training, the statistics of the cells are used, and the running statistics updated,
with the unbiased variance. A single value raises in training; no value is not modelled further (nan). -/
def fusedStats (c : Cfg K) (train : Bool) (st : Option (K × K)) (cells : List K) : Res ((K × K) × Option (K × K)) :=
  if train || st.isNone then
    if cells.length = 1 then .error .valueError
    else if cells = [] then .error (.other "nan")
    else
      let mean := cells.sum / (cells.length : K)
      let sq := (cells.map (fun v => (v - mean) * (v - mean))).sum
      .ok ((mean, sq / (cells.length : K)),
        st.map (fun s => ((1 - c.momentum) * s.1 + c.momentum * mean, (1 - c.momentum) * s.2 + c.momentum * (sq / ((cells.length : K) - 1)))))
  else match st with
    | some s => .ok (s, st)
    | none => .error .valueError

/-- NaN as an error. -/
def ofNan {α : Type} : Option α → Res α
  | none => .error (.other "nan")
  | some a => .ok a

/-- 222-229: whether the mask is used. -/
def effMask (c : Cfg K) (masked : Bool) : Bool := if masked then c.useMask.getD c.configMask else false

/-- 222-281 `BatchNorm.__call__`, one feature. All other dims of `source` are batch and time. -/
def bnCall (rsqrt : K → K) (c : Cfg K) (train : Bool) (st aff : Option (K × K)) (x : Padded K) : Res (Padded K × Option (K × K)) := do
  let r ← if effMask c x.masked then ofNan (maskedStats c train st x) else fusedStats c train st (x.seqs.flatMap Prod.snd)
  return (mapF (normCell rsqrt c.eps r.1 aff) x, r.2)

/-- A sequence of calls, in training or not, with the running statistics kept in the module. -/
def bnRun (rsqrt : K → K) (c : Cfg K) (aff : Option (K × K)) : Option (K × K) → List (Bool × Padded K) → Res (List (Padded K) × Option (K × K))
  | st, [] => .ok ([], st)
  | st, (train, x) :: rest => do
    let (y, st) ← bnCall rsqrt c train st aff x
    let (ys, st) ← bnRun rsqrt c aff st rest
    return (y :: ys, st)

/-- _backend.py 1846-1852: the raw tensor of shape `shape` is reshaped to (pre, C, -1), C the axis `axis`. The positions of the cells of channel `ch` in the flat tensor,
as torch's batch_norm takes them. -/
def channelCells (shape : List Nat) (axis ch : Nat) : List Nat :=
  let pre := if axis = 0 then 1 else (shape.take axis).prod
  let C := shape.getD axis 0
  let post := shape.prod / (pre * C)
  (List.range pre).flatMap (fun n => (List.range post).map (fun j => (n * C + ch) * post + j))

/-! ### LayerNorm, RMSNorm, GroupNorm: per frame, a static feature axis -/

/-- `reduce_mean` over a static axis. -/
def meanRow (row : List K) : Option K := fdiv row.sum row.length

/-- `moments` over a static axis. -/
def momentsRow (row : List K) : Option (K × K) := do
  let mean ← meanRow row
  let var ← meanRow (row.map (fun v => (v - mean) * (v - mean)))
  return (mean, var)

/-- `norm_x * scale + bias` (71-75), without a bias if it is `none`. -/
def affineRow (scale : List K) (bias : Option (List K)) (row : List K) : List K :=
  match bias with
  | none => List.zipWith (· * ·) row scale
  | some b => List.zipWith (· + ·) (List.zipWith (· * ·) row scale) b

/-- 69-70, 122-123: `(x - mean) * rsqrt(variance + eps)`. -/
def normRow (rsqrt : K → K) (eps : K) (row : List K) : Option (List K) := do
  let s ← momentsRow row
  return row.map (fun v => (v - s.1) * rsqrt (s.2 + eps))

/-- 46-75 LayerNorm on one frame. -/
def layerNorm (rsqrt : K → K) (eps : K) (scale : List K) (bias : Option (List K)) (row : List K) : Option (List K) :=
  (normRow rsqrt eps row).map (affineRow scale bias)

/-- 78-104 RMSNorm on one frame. -/
def rmsNorm (rsqrt : K → K) (eps : K) (scale : List K) (bias : Option (List K)) (row : List K) : Option (List K) := do
  let v ← meanRow (row.map (fun a => a * a))
  return affineRow scale bias (row.map (fun a => a * rsqrt (v + eps)))

/-- torch.reshape of a row to `n` rows of length `m`. -/
def chunks {α : Type} (n m : Nat) (row : List α) : List (List α) := (List.range n).map (fun i => (row.drop (i * m)).take m)

/-- 107-125 GroupNorm on one frame: the size of the group is `ceildiv` (115); the reshape raises if it does not fit. -/
def groupNorm (rsqrt : K → K) (eps : K) (groups : Nat) (scale : List K) (bias : List K) (row : List K) : Res (List K) := do
  let m := (row.length + groups - 1) / groups
  if groups * m ≠ row.length then throw (.other "reshape")
  let rows ← ofNan ((chunks groups m row).mapM (normRow rsqrt eps))
  return affineRow scale (some bias) rows.flatten

/-- 284-298 `normalize` over batch and time. -/
def normalize (rsqrt : K → K) (eps : K) (x : Padded K) : Option (Padded K) := do
  let s ← moments x true 0
  return mapF (fun v => (v - s.1) * rsqrt (s.2 + eps)) x

/-! ### Label smoothing -/

/-- label_smoothing.py 26-38: dense probabilities over a static axis. Python's division raises for a single label. -/
def smoothDense (s : K) (p : List K) : Res (List K) :=
  if p.length = 1 then .error .zeroDivision
  else
    let floor := s / ((p.length : K) - 1)
    let factor := 1 - (p.length : K) * floor
    .ok (p.map (fun a => a * factor + floor))

/-- array_.py 1169-1189 `sparse_to_dense` of one label. -/
def sparseToDense (D : Nat) (label : Nat) (labelValue otherValue : K) : List K := (List.range D).map (fun i => if label = i then labelValue else otherValue)

/-- label_smoothing.py 41-52 `smooth_one_hot`. -/
def smoothOneHot (D : Nat) (label : Nat) (labelProb : K) : Res (List K) :=
  if D = 1 then .error .zeroDivision else .ok (sparseToDense D label labelProb ((1 - labelProb) / ((D : K) - 1)))

/-- label_smoothing.py 22-25: sparse. -/
def smoothSparse (s : K) (D label : Nat) : Res (List K) := smoothOneHot D label (1 - s)

/-- label_smoothing.py 114-132: scale and shift of each label. `excl`: `exclude_labels` (`[]` also for `None`). -/
def scaleShift (s : K) (excl : List Nat) (D : Nat) : Res (List (K × K)) :=
  if excl = [] then
    if D = 1 then .error .zeroDivision
    else
      let floor := s / ((D : K) - 1)
      .ok (List.replicate D (1 - (D : K) * floor, -floor))
  else if (D : K) - (excl.length : K) - 1 = 0 then .error .zeroDivision
  else
    let floor := s / ((D : K) - (excl.length : K) - 1)
    let factor := 1 - ((D : K) - (excl.length : K)) * floor
    .ok ((List.range D).map (fun i => if excl.all (fun l => i != l) then (factor, -floor) else (1, -0)))

variable [LinearOrder K]

/-- torch/util/scaled_gradient.py 62-73 `_ScaledGradientExt.backward`, one row along the label axis, with `scale_shift_by_sum_over_axis`. -/
def backwardRow (ss : List (K × K)) (grad : List K) : List K :=
  let m := (grad.map (fun g => |g|)).sum
  List.zipWith (fun g c => g * c.1 + c.2 * m) grad ss

/-- label_smoothing.py 55-135 `label_smoothed_log_prob_gradient`: the gradient which the input gets if the output has gradient `grad`. (The value is the input.) -/
def smoothGrad (s : K) (excl : List Nat) (grad : List K) : Res (List K) :=
  if s = 0 then .ok grad else (scaleShift s excl grad.length).map (fun ss => backwardRow ss grad)

/-- _backend.py 240-251: scale and shift go in as raw tensors. The same with a tensor of two axes, of which the first one is the label axis, `grad` a list of rows of length
`T`: a number (no `exclude_labels`) is right, but a raw tensor of shape [D] is broadcast along the last axis, which raises
if the sizes differ (an axis of size 1 is not modelled: torch sums the broadcast result). -/
def smoothGradFirst (s : K) (excl : List Nat) (T : Nat) (grad : List (List K)) : Res (List (List K)) := do
  if s = 0 then return grad
  let ss ← scaleShift s excl grad.length
  let m := (List.range T).map (fun t => (grad.map (fun row => |row.getD t 0|)).sum)
  if excl = [] then
    return List.zipWith (fun row c => List.zipWith (fun g mt => g * c.1 + c.2 * mt) row m) grad ss
  if T ≠ grad.length then throw (.other "broadcast")
  return grad.map (fun row => List.zipWith (fun (g : K) (c : (K × K) × K) => g * c.1.1 + c.1.2 * c.2) row (ss.zip m))

end Verif.Norm
