import Verif.RfSeq.Model
import Mathlib.Order.MinMax
import Mathlib.Algebra.BigOperators.Group.List.Basic
import Mathlib.Algebra.Field.Basic
/-
Model of `rf.reduce_*`, `rf.top_k`, `rf.top_p_mask` and `rf.scatter` on padded sequences (returnn/torch/frontend/_backend.py, returnn/frontend/array_.py, returnn/frontend/dims.py).
Numbers are exact (a linear order, a field), not floats. `lo` and `hi` are `torch.finfo(dtype).min` and `.max` (not minus infinity).
-/
namespace Verif.RfSeq
open Verif.Py

/-! ### reduce -/

/-- _backend.py 1477-1498 and 1538-1551: the raw rows, with the mask value on the padding. -/
def maskedRows {α : Type} (x : Padded α) (useMask : Bool) (v : α) : List (List α) :=
  x.seqs.map (fun p => if useMask && x.masked then whereBefore p.1 v p.2 else p.2)

/-- `torch.max` over an axis. It needs at least one element. -/
def rowMax {α : Type} [LinearOrder α] : List α → Res α
  | [] => .error .indexError
  | a :: l => .ok (l.foldl max a)

/-- `torch.min`. -/
def rowMin {α : Type} [LinearOrder α] : List α → Res α
  | [] => .error .indexError
  | a :: l => .ok (l.foldl min a)

/-- Search for the first maximum: position of the next element, best position, best value. -/
def argmaxFrom {α : Type} [LinearOrder α] : Nat → Nat → α → List α → Nat
  | _, best, _, [] => best
  | i, best, m, b :: l => if m < b then argmaxFrom (i + 1) i b l else argmaxFrom (i + 1) best m l

/-- `torch.argmax`: the first position of the maximum. -/
def rowArgmax {α : Type} [LinearOrder α] : List α → Res Nat
  | [] => .error .indexError
  | a :: l => .ok (argmaxFrom 1 0 a l)

/-- 1462-1522 mode "max", over the time axis (the others remain). -/
def reduceMax {α : Type} [LinearOrder α] (lo : α) (x : Padded α) (useMask : Bool) : Res (List α) := (maskedRows x useMask lo).mapM rowMax

/-- The same over all axes. -/
def reduceMaxAll {α : Type} [LinearOrder α] (lo : α) (x : Padded α) (useMask : Bool) : Res α := rowMax (maskedRows x useMask lo).flatten

/-- Mode "min". -/
def reduceMin {α : Type} [LinearOrder α] (hi : α) (x : Padded α) (useMask : Bool) : Res (List α) := (maskedRows x useMask hi).mapM rowMin

/-- Mode "argmax". -/
def reduceArgmax {α : Type} [LinearOrder α] (lo : α) (x : Padded α) (useMask : Bool) : Res (List Nat) := (maskedRows x useMask lo).mapM rowArgmax

/-- Mode "sum" over the time axis. -/
def reduceSum {α : Type} [AddMonoid α] (x : Padded α) (useMask : Bool) : List α := (maskedRows x useMask 0).map List.sum

/-- Mode "sum" over all axes. -/
def reduceSumAll {α : Type} [AddMonoid α] (x : Padded α) (useMask : Bool) : α := (maskedRows x useMask 0).flatten.sum

/-- Mode "all". -/
def reduceAll (x : Padded Bool) (useMask : Bool) : List Bool := (maskedRows x useMask true).map (fun r => r.all id)

/-- Mode "any". -/
def reduceAny (x : Padded Bool) (useMask : Bool) : List Bool := (maskedRows x useMask false).map (fun r => r.any id)

/-- Division, `none` for inf and nan (and so is the product with it: 0 * inf). -/
def fdiv {K : Type} [Field K] (a : K) (b : Nat) : Option K := if b = 0 then none else some (a / (b : K))

/-- dims.py 222-283 `masked_fraction_of_shape(inverse=True)`: number of all cells, number of valid cells. -/
def correction {K : Type} [Field K] (x : Padded K) (total valid : Nat) : Option K := if x.masked then fdiv (total : K) valid else some 1

/-- Mode "mean" of a sequence: `torch.mean`, times the correction (1486-1488, 1509-1514). -/
def meanOf {K : Type} [Field K] (x : Padded K) (useMask : Bool) (row : List K) (n : Nat) : Option K := do
  let m ← fdiv row.sum row.length
  let c ← if useMask then correction x x.T n else some 1
  return m * c

/-- Mode "mean" over the time axis. -/
def reduceMean {K : Type} [Field K] (x : Padded K) (useMask : Bool) : List (Option K) :=
  ((maskedRows x useMask 0).zip (x.seqs.map Prod.fst)).map (fun p => meanOf x useMask p.1 p.2)

/-- Mode "mean" over batch and time: the number of valid frames is the sum of the lengths (dims.py 246-266, the batch dim is postponed). -/
def reduceMeanAll {K : Type} [Field K] (x : Padded K) (useMask : Bool) : Option K := do
  let rows := (maskedRows x useMask 0).flatten
  let m ← fdiv rows.sum rows.length
  let c ← if useMask then correction x (x.seqs.length * x.T) (x.seqs.map Prod.fst).sum else some 1
  return m * c

/-! ### top_k -/

/-- What `torch.topk` gives for a row: `k` values and positions, sorted. The order of equal values is not determined. -/
structure IsTopK {α : Type} [LinearOrder α] (row : List α) (k : Nat) (res : List (α × Nat)) : Prop where
  len : res.length = k
  get : ∀ r ∈ res, row[r.2]? = some r.1
  nodup : (res.map Prod.snd).Nodup
  sorted : res.Pairwise (fun a b => b.1 ≤ a.1)
  best : ∀ j a, row[j]? = some a → j ∉ res.map Prod.snd → ∀ r ∈ res, a ≤ r.1

/-- _backend.py 1526-1590 `top_k` over the time axis. -/
def TopK {α : Type} [LinearOrder α] (lo : α) (x : Padded α) (k : Nat) (res : List (List (α × Nat))) : Prop :=
  List.Forall₂ (fun row r => IsTopK row k r) (maskedRows x true lo) res

/-- 1565-1574: the index of the merged axes, split again; last axis first. The state: remaining index, the indices so far. `none`: a dynamic dim, `Dim.dimension` is None. -/
def splitIdx : List (Option Nat) → Nat → Res (Nat × List Nat)
  | [], i => .ok (i, [])
  | none :: ds, i => do
    let _ ← splitIdx ds i
    .error .typeError
  | some d :: ds, i => do
    let r ← splitIdx ds i
    return (r.1 / d, r.1 % d :: r.2)

/-! ### top_p_mask -/

/-- cumsum of numbers. -/
def cumsumK {K : Type} [Add K] : K → List K → List K
  | _, [] => []
  | acc, a :: l => (acc + a) :: cumsumK (acc + a) l

/-- array_.py 1238-1243: the mask in the sorted order (`sorted`: the sorted probs). -/
def topPSorted {K : Type} [Add K] [LinearOrder K] (zero p : K) (oneMore : Bool) (sorted : List K) : List Bool :=
  let mask := (cumsumK zero sorted).map (fun c => decide (c ≤ p))
  if oneMore then (true :: mask).take mask.length else mask

/-- 1244: `scatter` of a mask with positions; `torch.scatter_add_` on bools is "or". -/
def scatterMask (V : Nat) (pairs : List (Nat × Bool)) : List Bool :=
  pairs.foldl (fun out p => out.modify p.1 (· || p.2)) (List.replicate V false)

/-- 1216-1245 `top_p_mask` for one row of probs; `order`: the positions in the sorted order (from `rf.sort`). -/
def topPMask {K : Type} [Add K] [LinearOrder K] (zero p : K) (oneMore : Bool) (probs : List K) (order : List Nat) : List Bool :=
  scatterMask probs.length (order.zip (topPSorted zero p oneMore (order.map (fun i => probs.getD i zero))))

/-! ### scatter -/

/-- The values for one position. -/
def reduceOne {α : Type} (f : α → α → α) (fill : α) : List α → α
  | [] => fill
  | a :: l => l.foldl f a

/-- `torch.scatter_reduce_` with `include_self=False` on a row: at each position all values with this index, or the fill value. An index has to be in range. -/
def scatterReduce {α : Type} (f : α → α → α) (O : Nat) (fill : α) (pairs : List (Nat × α)) : Res (List α) :=
  if pairs.all (fun p => p.1 < O) then
    .ok ((List.range O).map (fun o => reduceOne f fill ((pairs.filter (fun p => p.1 == o)).map Prod.snd)))
  else .error (.other "index out of bounds")

/-- array_.py 848-859 `scatter` for one sequence (`n` valid frames of `row`), with the frontend's masking; `f`: sum, max or min. With fill value 0, `scatter_add_` onto zeros is the
same as the reduction. -/
def scatterRow {α : Type} (f : α → α → α) (fill : α) (masked useMask : Bool) (n : Nat) (row : List α) (idxs : List Nat) (O : Nat) : Res (List α) :=
  scatterReduce f O fill (idxs.zip (if masked && useMask then whereBefore n fill row else row))

/-- array_.py 982-983: the counts for `scatter_logmeanexp`. -/
def scatterCounts (masked useMask : Bool) (n T : Nat) (idxs : List Nat) (O : Nat) : Res (List Int) :=
  scatterRow (· + ·) 1 masked useMask n (List.replicate T 1) idxs O

/-- array_.py 902-906: the position of each frame which has the maximum of its target, else the largest int. -/
def argmaxSrc {α : Type} [DecidableEq α] (big : Int) (masked : Bool) (n : Nat) (row srcMax : List α) : List Int :=
  (row.zip srcMax).mapIdx (fun i p => if decide (p.2 = p.1) && (!masked || decide (i < n)) then (i : Int) else big)

/-- array_.py 866-915 `scatter_argmax` for one sequence; `bot`: minus infinity, `big`: the largest index. -/
def scatterArgmax {α : Type} [LinearOrder α] (bot : α) (big invalid : Int) (masked useMask : Bool) (n : Nat) (row : List α) (idxs : List Nat) (O : Nat) : Res (List Int) := do
  let outMax ← scatterRow max bot masked useMask n row idxs O
  let srcMax := idxs.map (fun i => outMax.getD i bot)
  let out ← scatterRow min invalid masked useMask n (argmaxSrc big masked n row srcMax) idxs O
  return out.map (fun i => if i ≠ big then i else invalid)

end Verif.RfSeq
