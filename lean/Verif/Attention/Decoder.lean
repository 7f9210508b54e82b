import Verif.Attention.Model
/-!
Model of cross attention, /repo/returnn/frontend/attention.py 650-774, and of the Transformer decoder, /repo/returnn/frontend/decoder/transformer.py.

Simplifications: no dropout (as in recognition); layer norm, feed-forward, linear layers and the embedding are arbitrary functions on single frames (they reduce over the feature axis only);
`state.pos` is a list with the position of each sequence (in the code a scalar before it depends on the sequence); layers and their states and encoder states are lists in the order of the
layers instead of dicts with the layer name as key; `collected_outputs` is left out.
-/

namespace Verif.Attention
open Verif.Py Verif.RfSeq

variable {R : Type} [Field R]

/-- attention.py 650-721 `CrossAttention`. -/
structure Cross (R : Type) where
  H : Nat
  dk : Nat
  dv : Nat
  scale : R
  kv : Frame R → Frame R
  q : Frame R → Frame R
  proj : Frame R → Frame R

/-- attention.py 730-744 `forward_kv`, for one frame. -/
def Cross.fwdKv (c : Cross R) (x : Frame R) : Heads R × Heads R :=
  let y := splitDims c.H (c.dk + c.dv) (c.kv x)
  (y.map (fun z => z.take c.dk), y.map (fun z => z.drop c.dk))

/-- attention.py 746-754 `forward_query`, for one frame. -/
def Cross.fwdQ (c : Cross R) (x : Frame R) : Heads R := splitDims c.H c.dk (c.q x)

/-- The parameters for `dot_attention`. -/
def Cross.att (c : Cross R) : Att R := { H := c.H, dk := c.dk, dv := c.dv, scale := c.scale, qkv := c.q, proj := c.proj }

/-- The state of `transform_encoder`. -/
structure Enc (R : Type) where
  k : Padded (Heads R)
  v : Padded (Heads R)

/-- attention.py 723-728 `transform_encoder`. -/
def transformEncoder (c : Cross R) (e : Padded (Frame R)) : Enc R :=
  { k := { T := e.T, masked := e.masked, seqs := e.seqs.map (fun p => (p.1, p.2.map (fun f => (c.fwdKv f).1))) },
    v := { T := e.T, masked := e.masked, seqs := e.seqs.map (fun p => (p.1, p.2.map (fun f => (c.fwdKv f).2))) } }

/-- attention.py 756-774: cross attention for one query frame of sequence `b`. -/
def crossFrame (exp : R → R) (c : Cross R) (e : Enc R) (b : Nat) (x : Frame R) : Frame R :=
  let k := e.k.seqs.getD b (0, [])
  let v := e.v.seqs.getD b (0, [])
  c.proj ((List.range c.H).flatMap (fun h =>
    attHead exp c.att h (dotEnergies c.att (head (c.fwdQ x) h) (k.2.map (fun k => head k h))) v.2 (if e.k.masked then some k.1 else none)))

/-- transformer.py 251-348 `TransformerDecoderLayer`. -/
structure Layer (R : Type) where
  saLn : Frame R → Frame R
  att : Att R
  kind : Kind R
  cross : Option ((Frame R → Frame R) × Cross R)
  ffLn : Frame R → Frame R
  ff : Frame R → Frame R

/-- transformer.py 370-375: cross attention with its residual connection; without an encoder state `encoder.cross_att` fails. -/
def crossBlock (exp : R → R) (l : Layer R) (enc : Option (Enc R)) (b : Nat) (x : Frame R) : Res (Frame R) :=
  match l.cross, enc with
  | none, _ => .ok x
  | some _, none => .error (.other "AttributeError")
  | some c, some e => .ok (addVec (crossFrame exp c.2 e b (c.1 x)) x)

/-- transformer.py 370-381: cross attention and feed-forward for one frame of sequence `b`. -/
def layerRest (exp : R → R) (l : Layer R) (enc : Option (Enc R)) (b : Nat) (x : Frame R) : Res (Frame R) := do
  let y ← crossBlock exp l enc b x
  return addVec (l.ff (l.ffLn y)) y

/-- transformer.py 359-383 for a single step. -/
def layerStep (exp : R → R) (l : Layer R) (enc : Option (Enc R)) (xs : List (Frame R)) (st : State R) : Res (List (Frame R) × State R) := do
  let sa ← callStep exp l.att l.kind (xs.map l.saLn) (some st)
  let ys ← (List.zipWith (fun y x => addVec y x) sa.1 xs).zipIdx.mapM (fun p => layerRest exp l enc p.2 p.1)
  return (ys, sa.2)

/-- transformer.py 359-383 for a sequence. -/
def layerSeq (exp : R → R) (l : Layer R) (enc : Option (Enc R)) (x : Padded (Frame R)) (dim : Option Nat) (st : State R) : Res (Padded (Frame R) × State R) := do
  let sa ← callSeq exp l.att l.kind { T := x.T, masked := x.masked, seqs := x.seqs.map (fun p => (p.1, p.2.map l.saLn)) } dim (some st)
  let rows ← (sa.1.seqs.zip x.seqs).zipIdx.mapM (fun p => ((List.zipWith (fun y x => addVec y x) p.1.1.2 p.1.2.2).mapM (fun y => layerRest exp l enc p.2 y)).map (fun r => (p.1.2.1, r)))
  return ({ T := x.T, masked := x.masked, seqs := rows }, sa.2)

/-- transformer.py 231-240 for a single step: the loop over the layers, with their encoder states and states. -/
def layersStep (exp : R → R) : List (Layer R) → List (Option (Enc R)) → List (State R) → List (Frame R) → Res (List (Frame R) × List (State R))
  | [], _, _, xs => .ok (xs, [])
  | l :: ls, e :: es, s :: ss, xs => do
    let r ← layerStep exp l e xs s
    let q ← layersStep exp ls es ss r.1
    return (q.1, r.2 :: q.2)
  | _ :: _, _, _, _ => .error .keyError

/-- transformer.py 231-240 for a sequence. -/
def layersSeq (exp : R → R) (dim : Option Nat) : List (Layer R) → List (Option (Enc R)) → List (State R) → Padded (Frame R) → Res (Padded (Frame R) × List (State R))
  | [], _, _, x => .ok (x, [])
  | l :: ls, e :: es, s :: ss, x => do
    let r ← layerSeq exp l e x dim s
    let q ← layersSeq exp dim ls es ss r.1
    return (q.1, r.2 :: q.2)
  | _ :: _, _, _, _ => .error .keyError

/-- transformer.py 28-183 `TransformerDecoder`. -/
structure Dec (R : Type) where
  embed : Nat → Frame R
  embScale : R
  posEnc : Option (Nat → Frame R)
  inProj : Frame R → Frame R
  layers : List (Layer R)
  outLn : Frame R → Frame R
  logits : Frame R → Frame R

structure DecState (R : Type) where
  pos : List Nat
  layers : List (State R)

/-- transformer.py 185-189, 350-352 `default_initial_state`. -/
def decInit (d : Dec R) (B : Nat) : DecState R := { pos := List.replicate B 0, layers := d.layers.map (fun _ => initState R B) }

/-- transformer.py 354-357 `transform_encoder` of a layer. -/
def layerEncoder (e : Padded (Frame R)) (l : Layer R) : Res (Option (Enc R)) := match l.cross with | some c => .ok (some (transformEncoder c.2 e)) | none => .error .assertion

/-- transformer.py 191-196 `transform_encoder`, for each layer; a layer without cross attention fails its assertion. -/
def decEncoder (d : Dec R) (e : Padded (Frame R)) : Res (List (Option (Enc R))) :=
  d.layers.mapM (layerEncoder e)

/-- `encoder[layer_name] if encoder else None`. -/
def encOrNone (d : Dec R) (enc : Option (List (Option (Enc R)))) : List (Option (Enc R)) := enc.getD (d.layers.map (fun _ => none))

/-- transformer.py 222-227: the input of the first layer for a label at a position. -/
def decInput (d : Dec R) (label pos : Nat) : Frame R :=
  let x := scaleVec d.embScale (d.embed label)
  d.inProj (match d.posEnc with | none => x | some pe => addVec x (pe pos))

/-- transformer.py 198-248 `__call__` for a single step. -/
def decStep (exp : R → R) (d : Dec R) (enc : Option (List (Option (Enc R)))) (labels : List Nat) (st : DecState R) : Res (List (Frame R) × DecState R) := do
  let r ← layersStep exp d.layers (encOrNone d enc) st.layers (List.zipWith (fun l p => decInput d l p) labels st.pos)
  return (r.1.map (fun y => d.logits (d.outLn y)), { pos := st.pos.map (fun p => p + 1), layers := r.2 })

/-- The input of the first layer for a sequence: position `t` of sequence `b` has position `t + state.pos[b]`. -/
def decInputSeq (d : Dec R) (x : Padded Nat) (pos : List Nat) : Padded (Frame R) :=
  { T := x.T, masked := x.masked, seqs := List.zipWith (fun p o => (p.1, p.2.mapIdx (fun t l => decInput d l (t + o)))) x.seqs pos }

/-- transformer.py 198-248 `__call__` for a sequence, without `output_only_last_frame`. -/
def decSeq (exp : R → R) (d : Dec R) (enc : Option (List (Option (Enc R)))) (x : Padded Nat) (dim : Option Nat) (st : DecState R) : Res (Padded (Frame R) × DecState R) := do
  let r ← layersSeq exp dim d.layers (encOrNone d enc) st.layers (decInputSeq d x st.pos)
  return ({ T := r.1.T, masked := r.1.masked, seqs := r.1.seqs.map (fun p => (p.1, p.2.map (fun y => d.logits (d.outLn y)))) },
    { pos := List.zipWith (fun o p => o + p.1) st.pos x.seqs, layers := r.2 })

/-- dims.py 286-308 `last_frame_position_of_dim`. -/
def lastFramePosition (n : Nat) : Nat := max (n - 1) 0

/-- `gather` of the last frame of a sequence. -/
def gatherLast (p : Nat × List (Frame R)) : Res (Frame R) := match p.2[lastFramePosition p.1]? with | some y => .ok y | none => .error .indexError

/-- transformer.py 198-248 `__call__` for a sequence with `output_only_last_frame`: `gather` (242-243) fails when the axis has size 0. -/
def decSeqLast (exp : R → R) (d : Dec R) (enc : Option (List (Option (Enc R)))) (x : Padded Nat) (dim : Option Nat) (st : DecState R) : Res (List (Frame R) × DecState R) := do
  let r ← layersSeq exp dim d.layers (encOrNone d enc) st.layers (decInputSeq d x st.pos)
  let ys ← r.1.seqs.mapM gatherLast
  return (ys.map (fun y => d.logits (d.outLn y)), { pos := List.zipWith (fun o p => o + p.1) st.pos x.seqs, layers := r.2 })

end Verif.Attention
