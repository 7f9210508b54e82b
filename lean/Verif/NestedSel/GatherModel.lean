import Verif.NestedSel.Model
/-
Model of `gather_nested` of `returnn/frontend/nested.py`: hypotheses go on from others, by indices (like backpointers of a beam).

Simplifications as in `Model.lean`; the indices are places among all hypotheses before (flat, over all sequences of the batch); indices out of range, an error or something undefined in torch, are left out; sizes which do not depend on the beam are static here.
-/
namespace Verif.NestedSel
open Verif Verif.Py

/-- `rf.gather` on the axis of the hypotheses. /repo/returnn/frontend/nested.py:170-173. -/
def gat {α : Type} (idx : List Nat) (l : List α) : List α := idx.filterMap (fun j => l[j]?)

/-- `_gather_prepare_dims`. /repo/returnn/frontend/nested.py:150-162. -/
def gatPrep {α : Type} (idx : List Nat) (st : Env × Dict Nat Nat) (leaf : Leaf α) : Env × Dict Nat Nat :=
  match leaf with
  | .dim d =>
    match size st.1 d with
    | .full l => if st.2.contains d then st else (st.1 ++ [.full (gat idx l)], st.2.set d st.1.length)
    | _ => st
  | _ => st

/-- `_gather`: the dim is replaced first, then it is gathered. /repo/returnn/frontend/nested.py:165-182. -/
def gatLeaf {α : Type} (z : α) (idx : List Nat) (env : Env) (m : Dict Nat Nat) : Leaf α → Leaf α
  | .glob x => .glob x
  | .hyp xs => .hyp (gat idx xs)
  | .seq d rows =>
    match m.get? d with
    | some d' => .seq d' (gat idx (rows.map (resize z (size env d').value)))
    | none => .seq d (gat idx rows)
  | .dim d =>
    match size env d with
    | .full _ => .dim ((m.get? d).getD d)
    | _ => .dim d

/-- `gather_nested`. /repo/returnn/frontend/nested.py:133-147. -/
def gatNested {α : Type} (z : α) (idx : List Nat) (env : Env) (ls : List (Leaf α)) : (Env × Dict Nat Nat) × List (Leaf α) :=
  let st := ls.foldl (gatPrep idx) (env, [])
  (st, ls.map (gatLeaf z idx st.1 st.2))

end Verif.NestedSel
