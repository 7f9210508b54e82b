import Verif.Util.Py
import Mathlib.Data.Rat.Defs
import Mathlib.Algebra.Order.Ring.Unbundled.Rat
/-
Convolution and pooling over one spatial axis of a padded batch: `rf.conv` and `rf.pool` (`returnn/frontend/conv.py`), with the
PyTorch backend (`returnn/torch/frontend/_backend.py` 1873-2070).

A batch is a list of rows of the same number of frames, each with its sequence length.  A frame is anything (a vector of channels,
or for a convolution over more axes also all other axes), so the operation is given by a function `agg` of the frames under the
filter (with channels, groups and bias inside).  `torch.nn.functional.conv1d` and the poolings are modelled by their documented
behaviour.  Simplifications: one batch dim and one spatial axis; strings "same" and "valid" in lower case; no ONNX export; sizes of
dims as numbers (the dim math is modelled in `DimMath`), `use_mask` and `rf_use_consistent_same_padding` already evaluated.
-/
namespace Verif.RfConv

open Verif.Py

inductive Pad
  | same | valid | int (p : Nat)
  deriving DecidableEq

/-- Filter size, stride, dilation, padding, `use_mask`, and the result of `_should_use_consistent_same_padding`. -/
structure Opts where
  size : Nat
  stride : Nat
  dil : Nat
  pad : Pad
  useMask : Bool
  consistent : Bool
  deriving DecidableEq

/-- One sequence in the padded batch. -/
structure Row (X : Type) where
  frames : List X
  len : Nat

variable {X Y : Type}

/-- `copy_masked` (conv.py 213-217, 485-489): the frames behind the sequence are replaced. -/
def maskRow (fill : X) (r : Row X) : List X := r.frames.take r.len ++ List.replicate (r.frames.length - r.len) fill

/-- The frame at a position of the sequence with `left` positions in front of it. -/
def getPad (x : List X) (left i : Nat) : Option X := if i < left then none else x[i - left]?

/-- The frames under the filter for output frame `t`; `none` for the padding. -/
def taps (x : List X) (left s st d t : Nat) : List (Option X) := (List.range s).map (fun k => getPad x left (t * st + k * d))

/-- `torch.nn.functional.conv1d` with padding. -/
def torchConv (agg : List (Option X) → Y) (x : List X) (left right s st d : Nat) : Res (List Y) :=
  if x.length + left + right < d * (s - 1) + 1 then .error (.other "kernel size can't be greater than actual input size")
  else .ok ((List.range ((x.length + left + right - d * (s - 1) - 1) / st + 1)).map (fun t => agg (taps x left s st d t)))

/-- `torch.nn.functional.pad` on the left; negative numbers remove frames. -/
def padLeft (n : Int) (z : X) (x : List X) : List X := if 0 ≤ n then List.replicate n.toNat z ++ x else x.drop (-n).toNat

/-- The same on the right. -/
def padRight (n : Int) (z : X) (x : List X) : List X :=
  if 0 ≤ n then x ++ List.replicate n.toNat z else x.take (x.length - (-n).toNat)

/-- `TorchBackend.conv` (_backend.py 1911-1994). -/
def convBackend (agg : List (Option X) → Y) (z : X) (o : Opts) (x : List X) : Res (List Y) :=
  match o.pad with
  | .same =>
    if o.stride ≤ 1 ∧ o.size % 2 = 1 then torchConv agg x ((o.size - 1) / 2) ((o.size - 1) / 2) o.size o.stride o.dil
    else if 1 < o.stride then
      let pad : Int := (o.size : Int) - 1 - ((x.length : Int) - 1) % o.stride
      torchConv agg (padRight (pad - pad / 2) z (padLeft (pad / 2) z x)) 0 0 o.size o.stride o.dil
    else
      let total := o.dil * (o.size - 1)
      torchConv agg x (total / 2) (total - total / 2) o.size o.stride o.dil
  | .valid => torchConv agg x 0 0 o.size o.stride o.dil
  | .int p => torchConv agg x p p o.size o.stride o.dil

/-- Whether `_consistent_same_padding` is used (conv.py 221, 493). -/
def usesConsistent (o : Opts) : Bool := decide (o.pad = .same) && decide (o.stride ≠ 1) && o.consistent

/-- `_consistent_same_padding` (conv.py 828-874): the new sequence. -/
def consistentPad (z : X) (o : Opts) (x : List X) : List X :=
  if o.size % 2 = 1 then x
  else
    let left := (o.size - 1) * o.dil / 2
    List.replicate left z ++ x ++ List.replicate ((o.size - 1) * o.dil - left) z

/-- `_consistent_same_padding`: the new padding. -/
def consistentOpts (o : Opts) : Opts :=
  if o.size % 2 = 1 then { o with pad := .int (o.size / 2 * o.dil) } else { o with pad := .int 0 }

/-- `_consistent_same_padding`: the new size of the spatial dim for a sequence. -/
def consistentLen (o : Opts) (n : Nat) : Nat := if o.size % 2 = 1 then n else n + (o.size - 1) * o.dil

/-- The input after masking (conv.py 213-217). -/
def input (fill : X) (o : Opts) (r : Row X) : List X := if o.useMask then maskRow fill r else r.frames

/-- `rf.conv` for one row of the batch (conv.py 170-241).  The result depends on the other rows only by the number of frames. -/
def convRow (agg : List (Option X) → Y) (z : X) (o : Opts) (r : Row X) : Res (List Y) :=
  if usesConsistent o then convBackend agg z (consistentOpts o) (consistentPad z o (input z o r))
  else convBackend agg z o (input z o r)

/-- `ceildiv` (conv.py 764-774). -/
def ceildiv (a b : Nat) : Nat := (a + b - 1) / b

/-- `_calc_out_dim` (conv.py 746-792) for the size of a sequence. -/
def calcOut (o : Opts) (n : Nat) : Nat :=
  match o.pad with
  | .same => ceildiv n o.stride
  | .valid => ceildiv (n - (o.size - 1) * o.dil) o.stride
  | .int p => ceildiv (p + n + p - (o.size - 1) * o.dil) o.stride

/-- `make_conv_out_spatial_dims` (conv.py 686-743): the same dim in some cases. -/
def makeOut (o : Opts) (n : Nat) : Nat :=
  if (o.size = 1 ∧ o.stride = 1 ∧ (o.pad = .valid ∨ o.pad = .same ∨ o.pad = .int 0)) ∨ (o.stride = 1 ∧ o.pad = .same) then n
  else calcOut o n

/-- The sequence length in the result of `rf.conv` and `rf.pool`. -/
def outLen (o : Opts) (n : Nat) : Nat := if usesConsistent o then makeOut (consistentOpts o) (consistentLen o n) else makeOut o n

/-- The size of the output of the poolings of PyTorch (`pooling_output_shape`). -/
def poolSize (n p s st d : Nat) (ceil : Bool) : Nat :=
  let m := (n + p + p - d * (s - 1) - 1 + (if ceil then st - 1 else 0)) / st + 1
  if ceil ∧ n + p ≤ (m - 1) * st then m - 1 else m

/-- `torch.nn.functional.max_pool1d` and `avg_pool1d`.  (The padding must be at most half of the filter.) -/
def torchPool (agg : List (Option X) → Y) (x : List X) (p s st d : Nat) (ceil : Bool) : Res (List Y) :=
  if d * (s - 1) + 1 < 2 * p then .error (.other "pad should be at most half of effective kernel size")
  else if x.length + p + p < d * (s - 1) + 1 then .error (.other "output size is too small")
  else .ok ((List.range (poolSize x.length p s st d ceil)).map (fun t => agg (taps x p s st d t)))

/-- The padding and `ceil_mode` of `TorchBackend.pool` (_backend.py 2038-2053). -/
def poolPad (o : Opts) (n : Nat) : Int × Bool :=
  match o.pad with
  | .same => (((o.size : Int) - 1 - ((n : Int) - 1) % o.stride) / 2, true)
  | .valid => (0, false)
  | .int p => (p, false)

/-- `torch.reshape` to the dims of the result (_backend.py 2067). -/
def checkSize (n : Nat) (y : List Y) : Res (List Y) := if y.length = n then .ok y else .error (.other "shape is invalid for input")

/-- `TorchBackend.pool` (_backend.py 2006-2070) for one row; the size of the result must be the one of the out dim. -/
def poolBackend (agg : List (Option X) → Y) (o : Opts) (x : List X) : Res (List Y) := do
  let p := poolPad o x.length
  if p.1 < 0 then .error (.other "pad must be non-negative")
  else do
    let y ← torchPool agg x p.1.toNat o.size o.stride o.dil p.2
    checkSize (makeOut o x.length) y

/-- `rf.pool` for one row of the batch (conv.py 420-520), without the mask on the result. -/
def poolRow (agg : List (Option X) → Y) (fill : X) (o : Opts) (r : Row X) : Res (List Y) :=
  if usesConsistent o then poolBackend agg (consistentOpts o) (consistentPad fill o (input fill o r))
  else poolBackend agg o (input fill o r)

/-! ### The operations on the frames under the filter -/

/-- Convolution: each frame by the weights for its position, zeros for the padding. -/
def convAgg {X Y : Type} [Zero X] [Add Y] [Zero Y] (w : List (X → Y)) (bias : Y) (l : List (Option X)) : Y :=
  (List.zipWith (fun f x => f (x.getD 0)) w l).foldl (· + ·) bias

/-- The larger of two values, where `none` is minus infinity. -/
def maxBot : Option ℚ → Option ℚ → Option ℚ
  | none, b => b
  | some a, none => some a
  | some a, some b => some (if a ≤ b then b else a)

/-- Max pooling: `none` is minus infinity. -/
def maxAgg (l : List (Option (Option ℚ))) : Option ℚ := l.foldl (fun m x => maxBot m (x.getD none)) none

/-- Average pooling with `count_include_pad=False`. -/
def avgAgg (l : List (Option ℚ)) : ℚ := (l.filterMap id).foldl (· + ·) 0 / ((l.filterMap id).length : ℚ)

end Verif.RfConv
