import Verif.Util.Py
import Mathlib.Analysis.SpecialFunctions.Log.Basic
/-
Model of `rf.scatter` and the functions built on it: `returnn/frontend/array_.py` and `TorchBackend.scatter` in
`returnn/torch/frontend/_backend.py`.

Simplifications for the whole file:
* batch and feature dims are independent of each other, so a single row is modelled: the values and the indices over the (merged) index dim;
* the frames from `n` on are padding; a dim which needs no masking has `need = false`;
* indices are natural numbers; PyTorch refuses indices out of range, on padding as well;
* a single out dim; `outLen` is its size, `O` the size of the padded axis;
* `sort`, `top_k`: any result which PyTorch may give, so nothing is assumed about the order of equal values.
-/
namespace Verif.RfScatter
open Verif.Py

/-- `copy_masked` for one dim. /repo/returnn/tensor/_tensor_extra.py:2915-2995. -/
def maskTo {α : Type} (n : Nat) (v : α) (src : List α) : List α := src.mapIdx (fun i x => if i < n then x else v)

/-- The values which go to the out index `o`. -/
def hits {α : Type} (idx : List Nat) (src : List α) (o : Nat) : List α := ((idx.zip src).filter (fun p => p.1 == o)).map (fun p => p.2)

/-- The check of the indices by PyTorch. -/
def inBounds (O : Nat) (idx : List Nat) : Res Unit :=
  if idx.all (fun i => decide (i < O)) then .ok () else .error (.other "RuntimeError")

/-- `scatter_add_` into zeros. /repo/returnn/torch/frontend/_backend.py:1110-1112. -/
def scatterAdd {α : Type} (add : α → α → α) (zero : α) (O : Nat) (idx : List Nat) (src : List α) : Res (List α) := do
  inBounds O idx
  .ok ((List.range O).map (fun o => (hits idx src o).foldl add zero))

/-- The reduction of the values for one out index. -/
def reduceOr {α : Type} (f : α → α → α) (fill : α) : List α → α
  | [] => fill
  | x :: xs => xs.foldl f x

/-- `scatter_reduce_` with `include_self=False` into a tensor filled with `fill`. /repo/returnn/torch/frontend/_backend.py:1113-1131. -/
def scatterReduce {α : Type} (f : α → α → α) (fill : α) (O : Nat) (idx : List Nat) (src : List α) : Res (List α) := do
  inBounds O idx
  .ok ((List.range O).map (fun o => reduceOr f fill (hits idx src o)))

/-- The sizes of a call: whether an index dim needs masking, `use_mask`, valid frames, size and padded size of the out dim.
/repo/returnn/frontend/array_.py:846-855. -/
structure Dims where
  need : Bool
  useMask : Bool
  n : Nat
  outLen : Nat
  O : Nat

/-- `use_mask` after the test of the dims. /repo/returnn/frontend/array_.py:847-853. -/
def Dims.masked (d : Dims) : Bool := d.need && d.useMask

/-- The source after masking. /repo/returnn/frontend/array_.py:850-851. -/
def maskSrc {α : Type} (d : Dims) (fill : α) (src : List α) : List α := if d.masked then maskTo d.n fill src else src

/-- `scatter` with `mode="sum"`. /repo/returnn/frontend/array_.py:829-863, /repo/returnn/torch/frontend/_backend.py:1110-1121. -/
def scatterSum {α : Type} [DecidableEq α] (add : α → α → α) (zero : α) (fill : Option α) (d : Dims) (idx : List Nat) (src : List α) :
    Res (List α) :=
  let fill := fill.getD zero
  if fill = zero then scatterAdd add zero d.O idx (maskSrc d fill src)
  else scatterReduce add fill d.O idx (maskSrc d fill src)

/-- The out dim after the reduction. /repo/returnn/frontend/array_.py:860-862. -/
def maskOut {α : Type} (d : Dims) (zero : α) (out : List α) : List α := if d.masked then maskTo d.outLen zero out else out

/-- `scatter` with `mode="max"` or `"min"`; `mx` is the reduction, `bot` its default fill value.
/repo/returnn/frontend/array_.py:829-863, /repo/returnn/torch/frontend/_backend.py:1122-1131. -/
def scatterMax {α : Type} (mx : α → α → α) (bot zero : α) (fill : Option α) (d : Dims) (idx : List Nat) (src : List α) : Res (List α) := do
  let out ← scatterReduce mx (fill.getD bot) d.O idx (maskSrc d (fill.getD bot) src)
  .ok (maskOut d zero out)

/-- `gather` with the same indices. /repo/returnn/frontend/array_.py:746-783. -/
def gatherIdx {α : Type} (out : List α) (zero : α) (idx : List Nat) : List α := idx.map (fun i => out.getD i zero)

/-- `copy_masked(False)` on the mask of the maxima. /repo/returnn/frontend/array_.py:900. -/
def maskBool (d : Dims) (m : List Bool) : List Bool := if d.need then maskTo d.n false m else m

/-- The positions of the maxima. /repo/returnn/frontend/array_.py:899-903. -/
def maxPositions {α : Type} [DecidableEq α] (d : Dims) (maxInvalid : Int) (srcMax src : List α) : List Int :=
  (maskBool d (List.zipWith (fun a b => decide (a = b)) srcMax src)).mapIdx (fun i b => if b then (i : Int) else maxInvalid)

/-- `scatter_argmax`. /repo/returnn/frontend/array_.py:866-915. -/
def scatterArgmax {α : Type} [LinearOrder α] (bot zero : α) (maxInvalid invalid : Int) (d : Dims) (idx : List Nat) (src : List α) :
    Res (List Int) := do
  let outMax ← scatterMax max bot zero none d idx src
  let srcMax := gatherIdx outMax zero idx
  let out ← scatterMax min maxInvalid 0 (some invalid) d idx (maxPositions d maxInvalid srcMax src)
  .ok (if maxInvalid ≠ invalid then out.map (fun x => if x ≠ maxInvalid then x else invalid) else out)

/-! ## Floating point numbers without rounding -/

/-- Floating point values, with real numbers for the finite ones. -/
inductive Fl where
  | nan
  | ninf
  | fin (x : ℝ)
  | pinf

/-- Sum of floating point values (IEEE 754). -/
noncomputable def Fl.add : Fl → Fl → Fl
  | .nan, _ => .nan
  | _, .nan => .nan
  | .ninf, .pinf => .nan
  | .pinf, .ninf => .nan
  | .ninf, _ => .ninf
  | _, .ninf => .ninf
  | .pinf, _ => .pinf
  | _, .pinf => .pinf
  | .fin x, .fin y => .fin (x + y)

/-- The negative value (IEEE 754). -/
noncomputable def Fl.neg : Fl → Fl
  | .nan => .nan
  | .ninf => .pinf
  | .pinf => .ninf
  | .fin x => .fin (-x)

/-- `torch.exp`. -/
noncomputable def Fl.exp : Fl → Fl
  | .nan => .nan
  | .ninf => .fin 0
  | .pinf => .pinf
  | .fin x => .fin (Real.exp x)

/-- `torch.log`. -/
noncomputable def Fl.log : Fl → Fl
  | .nan => .nan
  | .ninf => .nan
  | .pinf => .pinf
  | .fin x => if x = 0 then .ninf else if x < 0 then .nan else .fin (Real.log x)

/-- `torch.maximum`, `amax`: NaN wins. -/
noncomputable def Fl.max : Fl → Fl → Fl
  | .nan, _ => .nan
  | _, .nan => .nan
  | .pinf, _ => .pinf
  | _, .pinf => .pinf
  | .ninf, y => y
  | x, .ninf => x
  | .fin x, .fin y => .fin (Max.max x y)

/-- `where(is_neg_infinite(max_x), 0, tensor)`. /repo/returnn/frontend/array_.py:954. -/
noncomputable def zeroIfNinf : Fl → Fl → Fl
  | .ninf, _ => .fin 0
  | _, t => t

noncomputable instance : DecidableEq Fl := Classical.decEq _

/-- `scatter_logsumexp`. With `fill_value`, the code passes a tensor to `torch.full`, which refuses it.
/repo/returnn/frontend/array_.py:918-956. -/
noncomputable def scatterLogsumexp (fill : Option Fl) (d : Dims) (idx : List Nat) (src : List Fl) : Res (List Fl) := do
  let maxX ← scatterMax Fl.max .ninf (.fin 0) none d idx src
  let maxX' := gatherIdx maxX (.fin 0) idx
  let src' := List.zipWith (fun x m => (Fl.add x m.neg).exp) src maxX'
  if fill.isSome then .error .typeError
  else do
    let t ← scatterSum Fl.add (.fin 0) none d idx src'
    .ok (List.zipWith (fun m x => Fl.add (zeroIfNinf m x.log) m) maxX t)

/-- `scatter_logmeanexp`. /repo/returnn/frontend/array_.py:959-985. -/
noncomputable def scatterLogmeanexp (fill : Option Fl) (d : Dims) (idx : List Nat) (src : List Fl) : Res (List Fl) := do
  let counts ← scatterSum Fl.add (.fin 0) (some (.fin 1)) d idx (idx.map (fun _ => .fin 1))
  let y ← scatterLogsumexp fill d idx src
  .ok (List.zipWith (fun y c => Fl.add y (c.log).neg) y counts)

/-! ## Masks of the largest values -/

/-- What `torch.sort(..., descending=True)` may give for the positions. -/
def SortedDesc (probs : List ℚ) (order : List Nat) : Prop :=
  order.Perm (List.range probs.length) ∧ (order.map (fun i => probs.getD i 0)).Pairwise (fun a b => b ≤ a)

/-- `cumsum`. /repo/returnn/torch/frontend/_backend.py:1330-1336. -/
def cumsum (l : List ℚ) : List ℚ := (List.range l.length).map (fun i => (l.take (i + 1)).sum)

/-- `shift_right(mask, pad_value=True)` without a change of the size. /repo/returnn/frontend/array_.py:1077-1081. -/
def shiftRight (m : List Bool) : List Bool := (true :: m).take m.length

/-- `top_p_mask`, after the sort gave `order`; a scatter of booleans is an "or".
/repo/returnn/frontend/array_.py:1216-1245. -/
def topPMask (probs : List ℚ) (order : List Nat) (p : ℚ) (oneMore : Bool) : Res (List Bool) := do
  pyAssert (decide (0 ≤ p ∧ p ≤ 1))
  let mask := (cumsum (order.map (fun i => probs.getD i 0))).map (fun c => decide (c ≤ p))
  let mask := if oneMore then shiftRight mask else mask
  scatterSum (fun a b => a || b) false none ⟨false, false, order.length, probs.length, probs.length⟩ order mask

/-- What `torch.topk` may give for the positions. -/
def TopK (l : List ℚ) (k : Nat) (order : List Nat) : Prop :=
  order.length = k ∧ order.Nodup ∧ (∀ i ∈ order, i < l.length) ∧
    ∀ i ∈ order, ∀ j, j < l.length → j ∉ order → l.getD j 0 ≤ l.getD i 0

/-- `top_k_mask`, after `top_k` gave `order`. /repo/returnn/frontend/array_.py:1202-1213. -/
def topKMask (l : List ℚ) (order : List Nat) : Res (List Bool) :=
  scatterSum (fun a b => a || b) false (some false) ⟨false, false, order.length, l.length, l.length⟩ order (order.map (fun _ => true))

end Verif.RfScatter
