import Verif.Util.Py
import Mathlib.Algebra.BigOperators.Group.List.Basic
import Mathlib.Data.Rat.Defs
import Mathlib.Algebra.Field.Rat
/-
Model of losses and their normalization: frontend/run_ctx.py (`mark_as_loss`, `total_loss`, `Loss`), frontend/dims.py (`num_elements_of_shape`, `masked_fraction_of_shape`), `reduce` with modes sum and mean of
torch/frontend/_backend.py, and the accumulation over the epoch in torch/engine.py.

A position gives an index for each dim. Dims are numbers. The size of a dim may depend on the position in other dims (`dyn_size_ext`). Values are rational numbers.
-/
namespace Verif.RfLoss

open Verif.Py

/-- An index for each dim. -/
abbrev Pos := Nat → Nat

/-- A dim: the dims of `dyn_size_ext`, the size at a position, the padded size (`get_dim_value`), and whether it is static. -/
structure DimInfo where
  deps : List Nat
  len : Pos → Nat
  cap : Nat
  static : Bool

/-- `need_masking` without explicit capacity (tensor/_dim_extra.py 968-982). -/
def DimInfo.masked (d : DimInfo) : Bool := !d.deps.isEmpty

/-- A tensor: its dims, and the value at a position (which depends on these dims only). -/
structure Ten (R : Type) where
  dims : List Nat
  val : Pos → R

/-- The position with another index for a dim. -/
def upd (σ : Pos) (d i : Nat) : Pos := fun c => if c = d then i else σ c

/-- `torch.sum` over axes: all positions up to the padded sizes. -/
def torchSum {R : Type} [AddCommMonoid R] (ctx : Nat → DimInfo) : List Nat → (Pos → R) → Pos → R
  | [], f, σ => f σ
  | d :: ds, f, σ => ((List.range (ctx d).cap).map (fun (i : Nat) => torchSum ctx ds f (upd σ d i))).sum

/-- `torch.where(mask, x, 0)` for each axis with lengths (_backend.py 1494-1497). -/
def maskAll {R : Type} [AddCommMonoid R] (ctx : Nat → DimInfo) (axis : List Nat) (f : Pos → R) (σ : Pos) : R :=
  if ∀ d ∈ axis, (ctx d).masked = true → σ d < (ctx d).len σ then f σ else 0

/-- _backend.py 1462-1521 `reduce` with mode sum. An axis which is not there, or a mask with dims which are not there, raises. -/
def reduceSum {R : Type} [AddCommMonoid R] (ctx : Nat → DimInfo) (x : Ten R) (axis : List Nat) : Res (Ten R) :=
  if axis.any (fun d => !x.dims.contains d) then .error .valueError
  else if axis.any (fun d => (ctx d).masked && (ctx d).deps.any (fun e => !x.dims.contains e)) then .error .assertion
  else .ok ⟨x.dims.filter (fun d => !axis.contains d), torchSum ctx axis (maskAll ctx axis x.val)⟩

/-- `n *= dim.size` or `n *= dim.get_size_tensor()` (dims.py 257-260). -/
def mulSize (ctx : Nat → DimInfo) (n : Ten Nat) (d : Nat) : Ten Nat := ⟨n.dims ++ (ctx d).deps, fun σ => n.val σ * (ctx d).len σ⟩

/-- dims.py 250-256: another dim has a size which depends on this one (no dim depends on itself). -/
def related (ctx : Nat → DimInfo) (ds : List Nat) (d : Nat) : Bool := ds.any (fun e => (ctx e).deps.contains d)

/-- dims.py 222-266 `num_elements_of_shape` with `use_mask`. -/
def numElements (ctx : Nat → DimInfo) (ds : List Nat) : Res (Ten Nat) :=
  if ds.all (fun d => (ctx d).static) then .ok ⟨[], fun _ => ds.foldl (fun n d => n * (ctx d).cap) 1⟩
  else
    match ds with
    | [d] => .ok ⟨(ctx d).deps, (ctx d).len⟩
    | ds =>
      let n := (ds.filter (fun d => !related ctx ds d)).foldl (mulSize ctx) ⟨[], fun _ => 1⟩
      let postponed := ds.filter (related ctx ds)
      if postponed.isEmpty then .ok n else reduceSum ctx n postponed

/-- The product of the padded sizes. -/
def totalSize (ctx : Nat → DimInfo) (ds : List Nat) : Nat := ds.foldl (fun n d => n * (ctx d).cap) 1

/-- dims.py 269-283 `masked_fraction_of_shape(dims, inverse=True)`. -/
def invFraction (ctx : Nat → DimInfo) (ds : List Nat) : Res (Ten Rat) :=
  if ds.any (fun d => (ctx d).masked) then
    match numElements ctx ds with
    | .error e => .error e
    | .ok n => .ok ⟨n.dims, fun σ => (totalSize ctx ds : Rat) / (n.val σ : Rat)⟩
  else .ok ⟨[], fun _ => 1⟩

/-- `reduce` with mode mean: the mean over all positions, padding as 0, times the correction (`copy_compatible_to_dims_raw` raises for dims which are not there). -/
def reduceMean (ctx : Nat → DimInfo) (x : Ten Rat) (axis : List Nat) : Res (Ten Rat) :=
  match reduceSum ctx x axis with
  | .error e => .error e
  | .ok s =>
    match invFraction ctx axis with
    | .error e => .error e
    | .ok c =>
      if c.dims.any (fun d => !s.dims.contains d) then .error .assertion
      else .ok ⟨s.dims, fun σ => s.val σ / (totalSize ctx axis : Rat) * c.val σ⟩

/-! ### Losses -/

/-- run_ctx.py 395-413 `Loss`. -/
structure Loss where
  loss : Ten Rat
  scale : Rat := 1
  asError : Bool := false
  normalized : Bool := false
  custom : Option (Ten Rat) := none

/-- Any position, for tensors without dims. -/
def zero : Pos := fun _ => 0

/-- A tensor without dims as a number. -/
def scalar {R : Type} : Res (Ten R) → Res R
  | .error e => .error e
  | .ok t => .ok (t.val zero)

/-- run_ctx.py 415-424 `get_summed_loss`. -/
def Loss.summed (ctx : Nat → DimInfo) (l : Loss) : Res Rat :=
  if l.loss.dims.isEmpty then .ok (l.loss.val zero) else scalar (reduceSum ctx l.loss l.loss.dims)

/-- run_ctx.py 426-443 `get_mean_loss`. A division by 0 is `none` of the float, here the error `zeroDivision`. -/
def Loss.mean (ctx : Nat → DimInfo) (l : Loss) : Res Rat :=
  match l.custom with
  | some c =>
    match l.summed ctx, scalar (reduceSum ctx c c.dims) with
    | .ok s, .ok n => if n = 0 then .error .zeroDivision else .ok (s * n⁻¹)
    | .error e, _ => .error e
    | _, .error e => .error e
  | none => if l.loss.dims.isEmpty then .ok (l.loss.val zero) else scalar (reduceMean ctx l.loss l.loss.dims)

/-- The number of elements as a rational. -/
def count : Res (Ten Nat) → Res Rat
  | .error e => .error e
  | .ok t => .ok (t.val zero : Rat)

/-- run_ctx.py 445-453 `get_inv_norm_factor`. -/
def Loss.invNorm (ctx : Nat → DimInfo) (l : Loss) : Res Rat :=
  match l.custom with
  | some c => if c.dims.isEmpty then .ok (c.val zero) else scalar (reduceSum ctx c c.dims)
  | none => count (numElements ctx l.loss.dims)

/-- run_ctx.py 455-463 `get_scaled_reduced_loss`. -/
def Loss.scaled (ctx : Nat → DimInfo) (l : Loss) : Res Rat :=
  match (if l.normalized then l.mean ctx else l.summed ctx) with
  | .error e => .error e
  | .ok x => .ok (x * l.scale)

/-- run_ctx.py 374-385 `total_loss`: the loop. -/
def totalFrom (ctx : Nat → DimInfo) : Rat → List Loss → Res Rat
  | acc, [] => .ok acc
  | acc, l :: ls =>
    if l.scale = 0 ∨ l.asError = true then totalFrom ctx acc ls
    else
      match l.scaled ctx with
      | .error e => .error e
      | .ok x => totalFrom ctx (acc + x) ls

/-- run_ctx.py 374-385 `total_loss`. -/
def totalLoss (ctx : Nat → DimInfo) (ls : List Loss) : Res Rat := if ls.isEmpty then .error .assertion else totalFrom ctx 0 ls

/-- run_ctx.py 176-247 `mark_as_loss`: a name twice is an error. -/
def markLoss (losses : List (String × Loss)) (name : String) (l : Loss) : Res (List (String × Loss)) :=
  if losses.any (fun p => p.1 == name) then .error .assertion else .ok (losses ++ [(name, l)])

/-! ### Epochs -/

/-- A float division of Python. -/
def pyDiv (a b : Rat) : Res Rat := if b = 0 then .error .zeroDivision else .ok (a / b)

/-- torch/engine.py 419-472 and 642-658: the accumulation over the steps for one loss; the score of each step is reported, thus computed. -/
def accumulate : Rat × Rat → List (Rat × Rat) → Res (Rat × Rat)
  | acc, [] => .ok acc
  | acc, (s, n) :: r =>
    match pyDiv s n with
    | .error e => .error e
    | .ok _ => accumulate (acc.1 + s, acc.2 + n) r

/-- torch/engine.py 555, 671: the score of the epoch. -/
def epochScore (steps : List (Rat × Rat)) : Res Rat :=
  match accumulate (0, 0) steps with
  | .error e => .error e
  | .ok (s, n) => pyDiv s n

/-- The number of the batch dim and of the time dim. -/
def B : Nat := 0
def T : Nat := 1

/-- The dims of a batch of sequences: batch and time, the lengths are a tensor over the batch. -/
def batchCtx {α : Type} (seqs : List (List α)) : Nat → DimInfo
  | 0 => ⟨[], fun _ => seqs.length, seqs.length, false⟩
  | 1 => ⟨[B], fun σ => (seqs.getD (σ B) []).length, (seqs.map List.length).foldl max 0, false⟩
  | _ => ⟨[], fun _ => 1, 1, true⟩

/-- A padded batch with one value per frame. -/
def batchVal (seqs : List (List Rat)) (pad : Pos → Rat) (σ : Pos) : Rat := ((seqs.getD (σ B) [])[σ T]?).getD (pad σ)

/-- A frame-wise loss of a batch; `timeMajor`: dims `[T, B]`. -/
def frameLoss (seqs : List (List Rat)) (pad : Pos → Rat) (timeMajor : Bool) : Loss := ⟨⟨if timeMajor then [T, B] else [B, T], batchVal seqs pad⟩, 1, false, false, none⟩

/-- A loss per sequence. -/
def seqLoss (vals : List Rat) : Loss := ⟨⟨[B], fun σ => vals.getD (σ B) 0⟩, 1, false, false, none⟩

/-- What a step gives: sum and norm. -/
def stepStats (ctx : Nat → DimInfo) (l : Loss) : Res (Rat × Rat) :=
  match l.summed ctx, l.invNorm ctx with
  | .ok s, .ok n => .ok (s, n)
  | .error e, _ => .error e
  | _, .error e => .error e

/-- A batch of an epoch: the values per frame of its sequences, what is in the padding, and the order of dims. -/
structure Batch where
  seqs : List (List Rat)
  pad : Pos → Rat
  timeMajor : Bool

/-- The sums and norms of all steps. -/
def allStats : List Batch → Res (List (Rat × Rat))
  | [] => .ok []
  | b :: bs =>
    match stepStats (batchCtx b.seqs) (frameLoss b.seqs b.pad b.timeMajor), allStats bs with
    | .ok s, .ok r => .ok (s :: r)
    | .error e, _ => .error e
    | _, .error e => .error e

/-- The epoch for a frame-wise loss. -/
def runEpoch (bs : List Batch) : Res Rat :=
  match allStats bs with
  | .error e => .error e
  | .ok s => epochScore s

end Verif.RfLoss
