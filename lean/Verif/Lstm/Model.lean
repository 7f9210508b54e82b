import Verif.Util.Py
import Verif.Scan.Model
import Mathlib.Algebra.Field.Basic
/-
Model of frontend/rec.py (LSTM, ZoneoutLSTM) and of `lstm` in torch/frontend/_backend.py, with packed sequences.

Numbers are a field `K` (exact), `sigmoid` and `tanh` any functions. A vector over `out_dim` is a list.
-/
namespace Verif.Lstm
open Verif.Py

/-! ### Packed sequences -/

/-- One entry of the batch: length, its frames (all of the padded length), initial state. -/
structure Entry (X S : Type) where
  len : Nat
  xs : List X
  st : S

/-- torch `pack_padded_sequence`: the number of sequences which have a frame `t`. -/
def batchSize {X S : Type} (sorted : List (Entry X S)) (t : Nat) : Nat := sorted.countP (fun e => t < e.len)

/-- torch `pack_padded_sequence`: the data of frame `t`, of the first `batchSize` sequences of the sorted batch. (The packed data is all of these one after the other, `batch_sizes` their lengths.) -/
def packSlice {X S : Type} (sorted : List (Entry X S)) (t : Nat) : List X := (sorted.take (batchSize sorted t)).filterMap (fun e => e.xs[t]?)

/-- The longest sequence. -/
def maxLen {X S : Type} (batch : List (Entry X S)) : Nat := (batch.map Entry.len).foldl max 0

/-- torch `lstm` on packed data, one frame: the first states go on, the others stay. -/
def stepSlice {X S Y : Type} (cell : X → S → Y × S) (sl : List X) (st : List S) : List Y × List S :=
  (List.zipWith (fun x s => (cell x s).1) sl st, List.zipWith (fun x s => (cell x s).2) sl st ++ st.drop sl.length)

/-- torch `lstm` on packed data: outputs (packed again) and final states. -/
def runPacked {X S Y : Type} (cell : X → S → Y × S) (slices : List (List X)) (st : List S) : List (List Y) × List S :=
  slices.foldl (fun r sl => (r.1 ++ [(stepSlice cell sl r.2).1], (stepSlice cell sl r.2).2)) ([], st)

/-- `invert_permutation`: the position in the sorted batch of entry `b`. -/
def unsorted (perm : List Nat) (b : Nat) : Nat := perm.idxOf b

/-- `pad_packed_sequence`, one entry: the output of each frame, zero after its end. -/
def padPacked {Y : Type} (zero : Y) (outs : List (List Y)) (j : Nat) : List Y := outs.map (fun sl => sl.getD j zero)

/-- _backend.py 2199-2282 `lstm`: `perm` are the `sorted_indices`: torch sorts by length, decreasing (the order of equal lengths is not determined). Result for each entry: outputs and final state.
Several batch dims are merged into one by a reshape, here there is one. torch raises for a length of 0 and for an empty batch. -/
def lstmCall {X S Y : Type} (cell : X → S → Y × S) (zero : Y) (perm : List Nat) (batch : List (Entry X S)) : Res (List (List Y × S)) :=
  if batch.any (fun e => e.len == 0) || batch.isEmpty then .error (.other "pack")
  else
    let sorted := perm.filterMap (fun i => batch[i]?)
    let r := runPacked cell ((List.range (maxLen batch)).map (packSlice sorted)) (sorted.map Entry.st)
    .ok ((List.range batch.length).filterMap (fun b => (r.2[unsorted perm b]?).map (fun s => (padPacked zero r.1 (unsorted perm b), s))))

/-- _backend.py 2167-2171, 2274-2275: a single step is a sequence with one frame. -/
def lstmStep {X S Y : Type} (cell : X → S → Y × S) (zero : Y) (perm : List Nat) (batch : List (X × S)) : Res (List (Y × S)) := do
  let r ← lstmCall cell zero perm (batch.map (fun b => { len := 1, xs := [b.1], st := b.2 }))
  return r.map (fun p => (p.1.getD 0 zero, p.2))

/-! ### The cells -/

variable {K : Type} [Field K]

def addV (a b : List K) : List K := List.zipWith (· + ·) a b
def mulV (a b : List K) : List K := List.zipWith (· * ·) a b
def scaleV (f : K) (a : List K) : List K := a.map (fun x => f * x)

/-- `rf.dot(x, w, reduce=...)`: each row of `w` times the vector. -/
def matVec (w : List (List K)) (x : List K) : List K := w.map (fun row => (mulV row x).sum)

/-- Parameters (rec.py 34-44). -/
structure Params (K : Type) where
  H : Nat
  ffW : List (List K)
  recW : List (List K)
  bias : Option (List K)

/-- State: `h` and `c`. -/
abbrev LSt (K : Type) := List K × List K

/-- Part `k` of four (torch `chunk`, `rf.split`). -/
def part (H k : Nat) (v : List K) : List K := (v.drop (k * H)).take H

/-- What goes into the gates of torch's LSTM, from the input part and the recurrent part: `rf.LSTM` hands over half of the bias twice (_backend.py 2178-2197). -/
def torchSum (bias : Option (List K)) (a r : List K) : List K :=
  match bias with
  | none => addV a r
  | some b => addV (addV a (b.map (· * (1 / 2)))) (addV r (b.map (· * (1 / 2))))

/-- The cell of torch's LSTM: `w_ih`, `w_hh`, and the two biases, with half of the bias each (_backend.py 2178-2197). Order of the gates: i, f, g, o. -/
def torchCell (sigmoid tanh : K → K) (p : Params K) (x : List K) (s : LSt K) : List K × LSt K :=
  let a := matVec p.ffW x
  let r := matVec p.recW s.1
  let g := torchSum p.bias a r
  let c := addV (mulV ((part p.H 1 g).map sigmoid) s.2) (mulV ((part p.H 0 g).map sigmoid) ((part p.H 2 g).map tanh))
  let h := mulV ((part p.H 3 g).map sigmoid) (c.map tanh)
  (h, (h, c))

/-- The gates in `parts_order` ("c" and "g" are "j"). -/
inductive Gate where
  | i | j | f | o
deriving DecidableEq, Repr

/-- Options of ZoneoutLSTM (rec.py 96-143). -/
structure ZCfg (K : Type) where
  factorC : K
  factorH : K
  zoneoutOutput : Bool
  forgetBias : K
  order : List Gate

/-- 142: the check of `parts_order`. -/
def ZCfg.valid (c : ZCfg K) : Bool := c.order.length == 4 && [Gate.i, .j, .f, .o].all (fun g => c.order.contains g)

/-- dropout.py 54-100 with the given noise (true: keep), in training: scaled by `1 / keep_prob`. -/
def dropout (f : K) (keep : List Bool) (v : List K) : List K := List.zipWith (fun a b => a * ((if b then 1 else 0) * (1 / (1 - f)))) v keep

variable [DecidableEq K]

/-- rec.py 217-225 `_zoneout`. `keep`: in training, the noise; `none`: not in training. `1 - f` times the vector etc. -/
def zoneout (f : K) (keep : Option (List Bool)) (prev cur : List K) : Res (List K) :=
  if f = 0 then .ok cur
  else match keep with
    | none => .ok (addV (scaleV (1 - f) cur) (scaleV f prev))
    | some k => if 1 - f = 0 then .error .valueError else .ok (addV (scaleV (1 - f) (dropout f k (List.zipWith (· - ·) cur prev))) prev)

/-- 147, 208-210: the part of the input which does not depend on the state. -/
def zInput (p : Params K) (x : List K) : List K :=
  match p.bias with
  | none => matVec p.ffW x
  | some b => addV (matVec p.ffW x) b

/-- 153-154: the parts by name. -/
def gateOf (c : ZCfg K) (H : Nat) (g : Gate) (v : List K) : List K := part H (c.order.idxOf g) v

/-- rec.py 145-184 `_inner_step`. -/
def innerStep (sigmoid tanh : K → K) (p : Params K) (c : ZCfg K) (keep : Option (List Bool × List Bool)) (x : List K) (s : LSt K) : Res (List K × LSt K) := do
  let g := addV x (matVec p.recW s.1)
  let newC := addV (mulV ((gateOf c p.H .f g).map (fun a => sigmoid (a + c.forgetBias))) s.2) (mulV ((gateOf c p.H .i g).map sigmoid) ((gateOf c p.H .j g).map tanh))
  let newH := mulV ((gateOf c p.H .o g).map sigmoid) (newC.map tanh)
  let cc ← zoneout c.factorC (keep.map Prod.fst) s.2 newC
  let h ← zoneout c.factorH (keep.map Prod.snd) s.1 newH
  return (if c.zoneoutOutput then h else newH, (h, cc))

/-- The step as a function, where an error cannot happen (no training, or factors which are not 1). -/
def innerStep! (sigmoid tanh : K → K) (p : Params K) (c : ZCfg K) (keep : Option (List Bool × List Bool)) (x : List K) (s : LSt K) : List K × LSt K :=
  match innerStep sigmoid tanh p c keep x s with
  | .ok r => r
  | .error _ => ([], ([], []))

/-- rec.py 186-214 `ZoneoutLSTM.__call__` over a spatial dim: the input part of all frames, then `rf.scan` (model: Verif.Scan). `keeps`: the noise of each step, the same for all entries of the batch
(`dropout_broadcast`); `none`: not in training. -/
def zoneoutCall (sigmoid tanh : K → K) (p : Params K) (c : ZCfg K) (keeps : Option (Nat → List Bool × List Bool)) (batch : List (Entry (List K) (LSt K))) : Option (List (List (List K) × LSt K)) :=
  (Verif.Scan.scanXs (G := Nat) { stepG := (· + 1), step := fun x t s => innerStep! sigmoid tanh p c (keeps.map (fun k => k t)) x s, cond := fun _ _ => true }
    (maxLen batch + 1) 0 (batch.map (fun e => (e.len, e.xs.map (zInput p), e.st)))).map (fun r => r.ents.map (fun e => (e.ys, e.p)))

end Verif.Lstm
