import Mathlib.Algebra.Field.Basic
import Mathlib.Algebra.BigOperators.Group.List.Basic
import Verif.RfSeq.Model
/-!
Model of the attention modules of the frontend, /repo/returnn/frontend/attention.py, and of the Transformer decoder, /repo/returnn/frontend/decoder/transformer.py.

Numbers are in any field `R` (no rounding) with any function `exp`. A frame is a list of features. A tensor [B,T,...] with a dynamic axis is `RfSeq.Padded`. Without dropout (evaluation, or
dropout 0). The value `-inf` of the mask is `none`, with `exp(-inf) = 0`; values in padded frames are finite (`0 * x = 0`).
-/

namespace Verif.Attention
open Verif.Py Verif.RfSeq

variable {R : Type} [Field R]

/-- Features of a frame. -/
abbrev Frame (R : Type) := List R

/-- [num_heads, dim per head]. -/
abbrev Heads (R : Type) := List (List R)

/-- `rf.matmul` of two vectors. -/
def dot (a b : List R) : R := (List.zipWith (fun x y => x * y) a b).sum

/-- `a * s` for a vector. -/
def scaleVec (s : R) (a : List R) : List R := a.map (fun x => s * x)

/-- `a + b` for vectors. -/
def addVec (a b : List R) : List R := List.zipWith (fun x y => x + y) a b

/-- `torch.softmax`; the subtraction of the maximum cancels. -/
def softmax (exp : R → R) (es : List (Option R)) : List R :=
  let w := es.map (fun e => match e with | none => 0 | some e => exp e)
  w.map (fun x => x / w.sum)

/-- torch/frontend/_backend.py 564-580 `softmax`: with a mask (`some n`: the axis needs masking, and has length `n` here). -/
def maskEnergies (n : Option Nat) (es : List R) : List (Option R) :=
  es.mapIdx (fun j e => match n with | none => some e | some n => if j < n then some e else none)

/-- `rf.matmul(att_weights, values, reduce=axis, use_mask=False)`, for values with `dv` features. -/
def weightedSum (dv : Nat) (ws : List R) (vs : List (List R)) : List R :=
  (List.range dv).map (fun i => ((ws.zip vs).map (fun p => p.1 * p.2.getD i 0)).sum)

/-- attention.py 72-141: a self attention module: `H`, `dk`, `dv`: number of heads and dims per head; `qkv` and `proj` are the linear layers, `scale` is `key_dim_per_head.dimension**-0.5`. -/
structure Att (R : Type) where
  H : Nat
  dk : Nat
  dv : Nat
  scale : R
  qkv : Frame R → Frame R
  proj : Frame R → Frame R

/-- `split_dims` of the feature axis into `H` parts of size `d`. -/
def splitDims (H d : Nat) (x : List R) : Heads R := (List.range H).map (fun h => (x.drop (h * d)).take d)

/-- attention.py 143-154 `forward_qkv`, for one frame. -/
def Att.fwd (a : Att R) (x : Frame R) : Heads R × Heads R × Heads R :=
  let y := splitDims a.H (2 * a.dk + a.dv) (a.qkv x)
  (y.map (fun z => z.take a.dk), y.map (fun z => (z.drop a.dk).take a.dk), y.map (fun z => z.drop (2 * a.dk)))

/-- The features of head `h`. -/
def head (x : Heads R) (h : Nat) : List R := x.getD h []

/-- The kinds of self attention. `rope`: `pe p` is the sinusoidal encoding of position `p`. `rel`: `emb i` is the encoding of relative position `i` (after `linear_pos`, per head; all
heads the same without `separate_pos_emb_per_head`), `u`, `v` the position biases. -/
inductive Kind (R : Type) where
  | plain
  | rope (pe : Nat → List R)
  | rel (u v : Option (Heads R)) (emb : Int → Heads R)

/-- attention.py 345-363 `_apply_rope`: the first half of `pe` are sines, the second half cosines; `x` has pairs (real, imaginary). -/
def applyRope (dk : Nat) (pe x : List R) : List R :=
  (List.range (dk / 2)).flatMap (fun i =>
    let s := (pe.take (dk / 2)).getD i 0
    let c := (pe.drop (dk / 2)).getD i 0
    let re := x.getD (2 * i) 0
    let im := x.getD (2 * i + 1) 0
    [re * c - im * s, re * s + im * c])

/-- attention.py 55-56: energies of a query with the keys: the query is scaled before. -/
def dotEnergies (a : Att R) (q : List R) (ks : List (List R)) : List R := ks.map (fun k => dot (scaleVec a.scale q) k)

/-- attention.py 850-866, 892-895 `_make_indices` for a single step: `T`: size of the history axis, `n`: length of the history of the sequence. -/
def makeIndicesStep (T n : Nat) : List Int := (List.range T).map (fun (j : Nat) => (j : Int) - ((n : Int) - 1))

/-- attention.py 868-890 `_make_indices` for a sequence with `T` queries and `T` keys, offset 0. -/
def makeIndicesSeq (T : Nat) : List Int := (List.range (T - 1)).map (fun (p : Nat) => (p : Int) - ((T - 1 : Nat) : Int)) ++ (List.range T).map (fun (p : Nat) => (p : Int))

/-- attention.py 503-525 `_rel_pos_enc_shift`: [T,2T-1] to [T,T]: pad a column left, reshape to [2T,T], drop the first row, reshape to [T,2T-1], take T columns. -/
def relShift (T : Nat) (x : List (List R)) : Res (List (List R)) :=
  let flat := ((x.map (fun row => 0 :: row)).flatten).drop T
  if flat.length = T * (2 * T - 1) then .ok ((List.range T).map (fun i => ((flat.drop (i * (2 * T - 1))).take (2 * T - 1)).take T)) else .error (.other "shape")

/-- `q + bias` if there is one. -/
def addBias (q : List R) (u : Option (Heads R)) (h : Nat) : List R := match u with
  | none => q
  | some u => addVec q (head u h)

/-- The energies of head `h` in a single step: `q`: query, `ks`: keys over the history axis (with padding), `n`: length of the history.
For `rope` attention.py 319-340 (`gather` at `last_frame_position_of_dim`), for `rel` 607-637. -/
def stepEnergies (a : Att R) (kind : Kind R) (h : Nat) (q : Heads R) (ks : List (Heads R)) (n : Nat) : List R :=
  match kind with
  | .plain => dotEnergies a (head q h) (ks.map (fun k => head k h))
  | .rope pe =>
    let enc := (List.range ks.length).map pe
    dotEnergies a (applyRope a.dk (enc.getD (n - 1) []) (head q h)) ((ks.zip enc).map (fun p => applyRope a.dk p.2 (head p.1 h)))
  | .rel u v emb =>
    let ac := ks.map (fun k => dot (addBias (head q h) u h) (head k h))
    let bd := (makeIndicesStep ks.length n).map (fun i => dot (addBias (head q h) v h) (head (emb i) h))
    (List.zipWith (fun x y => x + y) ac bd).map (fun x => x * a.scale)

/-- The energies [query, key] of head `h` for a whole sequence. `rope`: 280-300 or 319-340; `rel`: 453-487 or 609-637. -/
def seqEnergies (a : Att R) (kind : Kind R) (h : Nat) (qs ks : List (Heads R)) : Res (List (List R)) :=
  match kind with
  | .plain => .ok (qs.map (fun q => dotEnergies a (head q h) (ks.map (fun k => head k h))))
  | .rope pe =>
    let enc := (List.range ks.length).map pe
    .ok ((qs.zip enc).map (fun p => dotEnergies a (applyRope a.dk p.2 (head p.1 h)) ((ks.zip enc).map (fun p => applyRope a.dk p.2 (head p.1 h)))))
  | .rel u v emb => do
    let bd ← relShift ks.length (qs.map (fun q => (makeIndicesSeq ks.length).map (fun i => dot (addBias (head q h) v h) (head (emb i) h))))
    let ac := qs.map (fun q => ks.map (fun k => dot (addBias (head q h) u h) (head k h)))
    return List.zipWith (fun x y => (List.zipWith (fun x y => x + y) x y).map (fun x => x * a.scale)) ac bd

/-- attention.py 57-66, 156-170, 638-645: softmax and weighted sum for one head; `n` for the mask. -/
def attHead (exp : R → R) (a : Att R) (h : Nat) (es : List R) (vs : List (Heads R)) (n : Option Nat) : List R :=
  weightedSum a.dv (softmax exp (maskEnergies n es)) (vs.map (fun v => head v h))

/-- attention.py 255-270 `CausalSelfAttentionState`: `k` and `v` over the axis `accum_axis`; `dim`: its static dimension (`none`: dynamic). -/
structure State (R : Type) where
  k : Padded (Heads R)
  v : Padded (Heads R)
  dim : Option Nat

/-- array_.py 546-571 `cum_concat_step`. -/
def cumConcatStep (x : Padded (Heads R)) (frames : List (Heads R)) : Res (Padded (Heads R)) := padTensor x 0 1 frames true

/-- attention.py 205-219 `default_initial_state`, with `B` sequences. -/
def initState (R : Type) (B : Nat) : State R := { k := { T := 0, masked := false, seqs := List.replicate B (0, []) }, v := { T := 0, masked := false, seqs := List.replicate B (0, []) }, dim := some 0 }

/-- attention.py 192-203 (also 308-342, 601-647) and 230-237 for a single step: the frames of the step, one for each sequence. -/
def callStep (exp : R → R) (a : Att R) (kind : Kind R) (xs : List (Frame R)) (st : Option (State R)) : Res (List (Frame R) × State R) :=
  match st with
  | none => .error .assertion
  | some st => do
    let k ← cumConcatStep st.k (xs.map (fun x => (a.fwd x).2.1))
    let v ← cumConcatStep st.v (xs.map (fun x => (a.fwd x).2.2))
    let out := (xs.zip (k.seqs.zip v.seqs)).map (fun p =>
      a.proj ((List.range a.H).flatMap (fun h => attHead exp a h (stepEnergies a kind h (a.fwd p.1).1 p.2.1.2 p.2.1.1) p.2.2.2 (if k.masked then some p.2.1.1 else none))))
    return (out, { k := k, v := v, dim := st.dim.map (fun d => d + 1) })

/-- The raw output of one sequence; `mask t`: length for the mask at query `t`. -/
def seqRow (exp : R → R) (a : Att R) (kind : Kind R) (mask : Nat → Option Nat) (row : List (Frame R)) : Res (List (Frame R)) := do
  let es ← (List.range a.H).mapM (fun h => seqEnergies a kind h (row.map (fun x => (a.fwd x).1)) (row.map (fun x => (a.fwd x).2.1)))
  return (List.range row.length).map (fun t => a.proj ((List.range a.H).flatMap (fun h => attHead exp a h ((es.getD h []).getD t []) (row.map (fun x => (a.fwd x).2.2)) (mask t))))

/-- Whether a state is given which is not the initial one (its axis does not have static dimension 0). -/
def nonInitial (st : Option (State R)) : Bool := match st with | some s => decide (s.dim ≠ some 0) | none => false

/-- attention.py 192-203 (also 308-342, 601-647) and 238-252 for a sequence: the mask at query `t` is of length `t + 1` (249-251). `dim`: static dimension of the axis. -/
def callSeq (exp : R → R) (a : Att R) (kind : Kind R) (x : Padded (Frame R)) (dim : Option Nat) (st : Option (State R)) : Res (Padded (Frame R) × State R) :=
  if nonInitial st then .error .notImplemented
  else do
    let rows ← x.seqs.mapM (fun p => (seqRow exp a kind (fun t => some (t + 1)) p.2).map (fun r => (p.1, r)))
    return ({ x with seqs := rows },
      { k := { x with seqs := x.seqs.map (fun p => (p.1, p.2.map (fun f => (a.fwd f).2.1))) }, v := { x with seqs := x.seqs.map (fun p => (p.1, p.2.map (fun f => (a.fwd f).2.2))) }, dim := dim })

/-- attention.py 173-184 `SelfAttention`, 273-300 `RotaryPosSelfAttention`, 451-494 `RelPosSelfAttention`: not causal, masked with the lengths of the sequences. -/
def callFull (exp : R → R) (a : Att R) (kind : Kind R) (x : Padded (Frame R)) : Res (Padded (Frame R)) := do
  let rows ← x.seqs.mapM (fun p => (seqRow exp a kind (fun _ => if x.masked then some p.1 else none) p.2).map (fun r => (p.1, r)))
  return { x with seqs := rows }

/-- attention.py 815-817: index into the learned embedding. -/
def learnedIdx (clipping : Nat) (causal : Bool) (i : Int) : Int := clamp i (-clipping) (if causal then 0 else clipping) + clipping

/-- attention.py 935-947, 1002-1012: the sinusoidal encoding of a position for `d` features; `div i` are the frequencies, `halfPi` is pi / 2. -/
def sinEnc (sin : R → R) (halfPi : R) (div : Nat → R) (d : Nat) (p : R) : List R :=
  (List.range (d / 2)).map (fun i => sin (p * div i)) ++ (List.range (d / 2)).map (fun i => sin (p * div i + halfPi))

end Verif.Attention
