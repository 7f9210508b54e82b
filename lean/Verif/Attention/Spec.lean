import Verif.Attention.Model
import Verif.RfSeq.Props
/-!
Specification of (causal) self attention on one sequence without padding: the textbook formula, with the framewise projections `fwd` and `proj` of the module.
-/

namespace Verif.Attention
open Verif.Py Verif.RfSeq

variable {R : Type} [Field R]

/-- Query, key and value of frame `j` in head `h`. -/
def qAt (a : Att R) (xs : List (Frame R)) (h j : Nat) : List R := head (a.fwd (xs.getD j [])).1 h
def kAt (a : Att R) (xs : List (Frame R)) (h j : Nat) : List R := head (a.fwd (xs.getD j [])).2.1 h
def vAt (a : Att R) (xs : List (Frame R)) (h j : Nat) : List R := head (a.fwd (xs.getD j [])).2.2 h

/-- The energy of the query at position `m` and the key at position `j`. -/
def energy (a : Att R) (kind : Kind R) (xs : List (Frame R)) (h m j : Nat) : R :=
  match kind with
  | .plain => a.scale * dot (qAt a xs h m) (kAt a xs h j)
  | .rope pe => a.scale * dot (applyRope a.dk (pe m) (qAt a xs h m)) (applyRope a.dk (pe j) (kAt a xs h j))
  | .rel u v emb => a.scale * (dot (addBias (qAt a xs h m) u h) (kAt a xs h j) + dot (addBias (qAt a xs h m) v h) (head (emb ((j : Int) - (m : Int))) h))

/-- The attention output at position `m` over the first `n` positions. -/
def attend (exp : R → R) (a : Att R) (kind : Kind R) (xs : List (Frame R)) (n m : Nat) : Frame R :=
  a.proj ((List.range a.H).flatMap (fun h => (List.range a.dv).map (fun i =>
    ((List.range n).map (fun j => exp (energy a kind xs h m j) * (vAt a xs h j).getD i 0)).sum / ((List.range n).map (fun j => exp (energy a kind xs h m j))).sum)))

/-- Causal self attention: position `m` sees the positions up to itself. -/
def causal (exp : R → R) (a : Att R) (kind : Kind R) (xs : List (Frame R)) (m : Nat) : Frame R := attend exp a kind xs (m + 1) m

/-- The state is the one after the frames `hs` (one list for each sequence). -/
structure StateOf (a : Att R) (st : State R) (hs : List (List (Frame R))) : Prop where
  kOk : st.k.Ok
  vOk : st.v.Ok
  kValid : st.k.valid = hs.map (fun h => h.map (fun x => (a.fwd x).2.1))
  vValid : st.v.valid = hs.map (fun h => h.map (fun x => (a.fwd x).2.2))
  same : st.k.T = st.v.T ∧ st.k.masked = st.v.masked

end Verif.Attention
