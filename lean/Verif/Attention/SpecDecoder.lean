import Verif.Attention.Decoder
import Verif.Attention.Spec
/-!
Specification of the Transformer decoder on one sequence of labels, without padding and without any state.
-/

namespace Verif.Attention
open Verif.Py Verif.RfSeq

variable {R : Type} [Field R]

/-- Cross attention of a frame to the frames of the encoder. -/
def crossSpec (exp : R → R) (c : Cross R) (enc : List (Frame R)) (x : Frame R) : Frame R :=
  let e := fun h j => c.scale * dot (head (c.fwdQ x) h) (head (c.fwdKv (enc.getD j [])).1 h)
  c.proj ((List.range c.H).flatMap (fun h => (List.range c.dv).map (fun i =>
    ((List.range enc.length).map (fun j => exp (e h j) * (head (c.fwdKv (enc.getD j [])).2 h).getD i 0)).sum / ((List.range enc.length).map (fun j => exp (e h j))).sum)))

/-- After self attention. -/
def restSpec (exp : R → R) (l : Layer R) (enc : List (Frame R)) (x : Frame R) : Frame R :=
  let y := match l.cross with | none => x | some (ln, c) => addVec (crossSpec exp c enc (ln x)) x
  addVec (l.ff (l.ffLn y)) y

/-- The output of a layer at position `t`, for the inputs `xs` of the layer. -/
def layerAt (exp : R → R) (l : Layer R) (enc : List (Frame R)) (xs : List (Frame R)) (t : Nat) : Frame R :=
  restSpec exp l enc (addVec (causal exp l.att l.kind (xs.map l.saLn) t) (xs.getD t []))

def layerSpec (exp : R → R) (l : Layer R) (enc : List (Frame R)) (xs : List (Frame R)) : List (Frame R) := (List.range xs.length).map (fun t => layerAt exp l enc xs t)

def layersSpec (exp : R → R) (ls : List (Layer R)) (enc : List (Frame R)) (xs : List (Frame R)) : List (Frame R) := ls.foldl (fun xs l => layerSpec exp l enc xs) xs

/-- The input of the first layer for a label at a position: the scaled embedding of the label plus the encoding of the position (if there is one), projected. -/
def inputAt (d : Dec R) (label i : Nat) : Frame R :=
  match d.posEnc with
  | none => d.inProj ((d.embed label).map (fun x => d.embScale * x))
  | some pe => d.inProj (List.zipWith (fun x y => x + y) ((d.embed label).map (fun x => d.embScale * x)) (pe i))

/-- The inputs of the first layer: label `i` is at position `i`. -/
def inputSpec (d : Dec R) (labels : List Nat) : List (Frame R) := labels.mapIdx (fun i l => inputAt d l i)

/-- The logits for each position. -/
def decSpec (exp : R → R) (d : Dec R) (enc : List (Frame R)) (labels : List Nat) : List (Frame R) :=
  (layersSpec exp d.layers enc (inputSpec d labels)).map (fun y => d.logits (d.outLn y))

/-- A batch of `B`. -/
def batch {α : Type} (B : Nat) (f : Nat → α) : List α := (List.range B).map f

/-- The state of each layer is the one after the given inputs of the first layer. -/
def LayersOf (exp : R → R) (B : Nat) (enc : Nat → List (Frame R)) : List (Layer R) → List (State R) → (Nat → List (Frame R)) → Prop
  | [], ss, _ => ss = []
  | l :: ls, ss, xs => ∃ s ss', ss = s :: ss' ∧ StateOf l.att s (batch B (fun b => (xs b).map l.saLn)) ∧ LayersOf exp B enc ls ss' (fun b => layerSpec exp l (enc b) (xs b))

/-- The state of the decoder is the one after the given labels. -/
def DecStateOf (exp : R → R) (d : Dec R) (B : Nat) (enc : Nat → List (Frame R)) (st : DecState R) (labels : Nat → List Nat) : Prop :=
  st.pos = batch B (fun b => (labels b).length) ∧ LayersOf exp B enc d.layers st.layers (fun b => inputSpec d (labels b))

/-- The encoder state for a layer is the one for the given encoder frames, or the layer has no cross attention. -/
def EncFor (B : Nat) (enc : Nat → List (Frame R)) (l : Layer R) (e : Option (Enc R)) : Prop :=
  ∀ ln c, l.cross = some (ln, c) → ∃ x : Padded (Frame R), x.Ok ∧ x.valid = batch B enc ∧ e = some (transformEncoder c x)

end Verif.Attention
