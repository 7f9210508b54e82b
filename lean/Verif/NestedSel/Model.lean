import Verif.Util.Py
import Verif.Util.Dict
/-
Model of `masked_select_nested` and `masked_scatter_nested` of `returnn/frontend/nested.py`: take some hypotheses out of a nested state (packed), and put them back.

Simplifications for the whole file:
* the nested structure is the list of its leaves (`tree.map_structure`); the masked dims (like batch and beam) are one axis, flat, in the order of `dims`; a tensor which has only some of them counts as expanded to all;
* a tensor has at most one further dim which matters here (a sequence), other dims are in the type of the entries;
* dims are numbers, with their sizes in an environment: the same for all, or one for each hypothesis, or one for each packed hypothesis; devices (`mask_cpu`) and names are left out;
* shapes of masks and tensors are expected to match, `sel` and `scat` give something short otherwise; the maximum of no sizes, which torch refuses, is 0;
* the source of a size or a dim which is in the reversed map and has another backup dim cannot be brought to the packed shape: an error.
-/
namespace Verif.NestedSel
open Verif Verif.Py

/-- Sizes of a dim. -/
inductive Size where
  | static (n : Nat)
  | full (l : List Nat)
  | packed (l : List Nat)
deriving DecidableEq

/-- `get_dim_value`: the maximum. -/
def Size.value : Size → Nat
  | .static n => n
  | .full l => l.foldr max 0
  | .packed l => l.foldr max 0

/-- Sizes of all dims. -/
abbrev Env := List Size

/-- Sizes of a dim. -/
def size (env : Env) (d : Nat) : Size := env.getD d (.static 0)

/-- Leaves: a tensor without the masked dims, with them, with them and a sequence dim, or a dim. -/
inductive Leaf (α : Type) where
  | glob (x : α)
  | hyp (xs : List α)
  | seq (d : Nat) (rows : List (List α))
  | dim (d : Nat)
deriving DecidableEq

/-- `rf.masked_select` with all dims of the mask. /repo/returnn/torch/frontend/_backend.py:1721-1766. -/
def sel {α : Type} : List Bool → List α → List α
  | true :: m, x :: l => x :: sel m l
  | false :: m, _ :: l => sel m l
  | _, _ => []

/-- `rf.masked_scatter` with all dims of the mask. /repo/returnn/torch/frontend/_backend.py:1768-1817. -/
def scat {α : Type} : List Bool → List α → List α → List α
  | true :: m, x :: s, _ :: b => x :: scat m s b
  | true :: m, [], y :: b => y :: scat m [] b
  | false :: m, s, y :: b => y :: scat m s b
  | _, _, _ => []

/-! ## Select -/

/-- `_masked_select_prepare_dims`. /repo/returnn/frontend/nested.py:233-245. -/
def selPrep {α : Type} (mask : List Bool) (st : Env × Dict Nat Nat) (leaf : Leaf α) : Env × Dict Nat Nat :=
  match leaf with
  | .dim d =>
    match size st.1 d with
    | .full l => if st.2.contains d then st else (st.1 ++ [.packed (sel mask l)], st.2.set d st.1.length)
    | _ => st
  | _ => st

/-- `_masked_select`. A dim with sizes per hypothesis is always in the map after the first pass. /repo/returnn/frontend/nested.py:248-276. -/
def selLeaf {α : Type} (mask : List Bool) (env : Env) (m : Dict Nat Nat) : Leaf α → Leaf α
  | .glob x => .glob x
  | .hyp xs => .hyp (sel mask xs)
  | .seq d rows =>
    match m.get? d with
    | some d' => .seq d' ((sel mask rows).map (fun r => r.take (size env d').value))
    | none => .seq d (sel mask rows)
  | .dim d =>
    match size env d with
    | .full _ => .dim ((m.get? d).getD d)
    | _ => .dim d

/-- `masked_select_nested`. /repo/returnn/frontend/nested.py:185-230. -/
def selNested {α : Type} (mask : List Bool) (env : Env) (ls : List (Leaf α)) : (Env × Dict Nat Nat) × List (Leaf α) :=
  let st := ls.foldl (selPrep mask) (env, [])
  (st, ls.map (selLeaf mask st.1 st.2))

/-! ## Scatter -/

/-- `{v: k for k, v in masked_select_dim_map.items()}`. /repo/returnn/frontend/nested.py:305. -/
def revMap (m : Dict Nat Nat) : Dict Nat Nat := m.foldl (fun r kv => r.set kv.2 kv.1) []

/-- Number of packed hypotheses. -/
def numSel (mask : List Bool) : Nat := mask.count true

/-- The size tensor of the source, one for each packed hypothesis. -/
def srcSizes (mask : List Bool) : Size → Res (List Nat)
  | .static n => .ok (List.replicate (numSel mask) n)
  | .packed l => .ok l
  | .full _ => .error (.other "shape")

/-- The size tensor of the backup, one for each hypothesis. -/
def bakSizes (mask : List Bool) : Size → Res (List Nat)
  | .static n => .ok (List.replicate mask.length n)
  | .full l => .ok l
  | .packed _ => .error (.other "shape")

/-- `_masked_scatter_merge_dims`. /repo/returnn/frontend/nested.py:336-372. -/
def scatPrep {α : Type} (mask : List Bool) (rev : Dict Nat Nat) (st : Env × Dict Nat Nat) (p : Leaf α × Leaf α) : Res (Env × Dict Nat Nat) :=
  match p with
  | (.dim a, .dim b) =>
    let a' := (rev.get? a).getD a
    if a' = b then .ok st
    else if st.2.contains a' then .ok st
    else do
      let x ← srcSizes mask (size st.1 a')
      let y ← bakSizes mask (size st.1 b)
      .ok (st.1 ++ [.full (scat mask x y)], (st.2.set a' st.1.length).set b st.1.length)
  | (.dim _, _) => .error .assertion
  | _ => .ok st

/-- The first pass. -/
def scatPrepAll {α : Type} (mask : List Bool) (rev : Dict Nat Nat) : Env × Dict Nat Nat → List (Leaf α × Leaf α) → Res (Env × Dict Nat Nat)
  | st, [] => .ok st
  | st, p :: ps => do
    let st ← scatPrep mask rev st p
    scatPrepAll mask rev st ps

/-- `replace_dim_v2` on a row: cut, or fill up with zeros. /repo/returnn/frontend/dims.py:153-179. -/
def resize {α : Type} (z : α) (n : Nat) (row : List α) : List α := row.take n ++ List.replicate (n - row.length) z

/-- Replace the packed dim by the one before packing; it must not get shorter. /repo/returnn/frontend/nested.py:392-397. -/
def unpackDim {α : Type} (z : α) (env : Env) (rev : Dict Nat Nat) (d : Nat) (rows : List (List α)) : Res (Nat × List (List α)) :=
  match rev.get? d with
  | none => .ok (d, rows)
  | some d' => if (size env d').value < (size env d).value then .error .valueError else .ok (d', rows.map (resize z (size env d').value))

/-- Replace a merged dim. /repo/returnn/frontend/nested.py:398-404. -/
def mergeDim {α : Type} (z : α) (env : Env) (mg : Dict Nat Nat) (d : Nat) (rows : List (List α)) : Nat × List (List α) :=
  match mg.get? d with
  | none => (d, rows)
  | some d' => (d', rows.map (resize z (size env d').value))

/-- `_masked_scatter`. /repo/returnn/frontend/nested.py:375-416. -/
def scatLeaf {α : Type} (z : α) (mask : List Bool) (env : Env) (rev mg : Dict Nat Nat) : Leaf α × Leaf α → Res (Leaf α)
  | (.dim a, _) =>
    let a' := (rev.get? a).getD a
    .ok (.dim ((mg.get? a').getD a'))
  | (.glob x, .glob y) => .ok (.hyp (scat mask (List.replicate (numSel mask) x) (List.replicate mask.length y)))
  | (.glob x, .hyp ys) => .ok (.hyp (scat mask (List.replicate (numSel mask) x) ys))
  | (.hyp xs, .glob y) => .ok (.hyp (scat mask xs (List.replicate mask.length y)))
  | (.hyp xs, .hyp ys) => .ok (.hyp (scat mask xs ys))
  | (.seq d rows, .seq e brows) => do
    let (d, rows) ← unpackDim z env rev d rows
    let (d, rows) := mergeDim z env mg d rows
    let (e, brows) := mergeDim z env mg e brows
    if d = e then .ok (.seq d (scat mask rows brows)) else .error .assertion
  | (.seq d rows, .hyp ys) => do
    let (d, rows) ← unpackDim z env rev d rows
    let (d, rows) := mergeDim z env mg d rows
    .ok (.seq d (scat mask rows (ys.map (List.replicate (size env d).value))))
  | (.seq d rows, .glob y) => do
    let (d, rows) ← unpackDim z env rev d rows
    let (d, rows) := mergeDim z env mg d rows
    .ok (.seq d (scat mask rows (List.replicate mask.length (List.replicate (size env d).value y))))
  | _ => .error .assertion

/-- All leaves. -/
def scatLeaves {α : Type} (z : α) (mask : List Bool) (env : Env) (rev mg : Dict Nat Nat) : List (Leaf α × Leaf α) → Res (List (Leaf α))
  | [] => .ok []
  | p :: ps => do
    let x ← scatLeaf z mask env rev mg p
    let r ← scatLeaves z mask env rev mg ps
    .ok (x :: r)

/-- `masked_scatter_nested`: the pairs of leaves of the packed structure and the backup. /repo/returnn/frontend/nested.py:279-333. -/
def scatNested {α : Type} (z : α) (mask : List Bool) (env : Env) (m : Dict Nat Nat) (ps : List (Leaf α × Leaf α)) : Res ((Env × Dict Nat Nat) × List (Leaf α)) := do
  let rev := revMap m
  let st ← scatPrepAll mask rev (env, []) ps
  let r ← scatLeaves z mask st.1 rev st.2 ps
  .ok (st, r)

end Verif.NestedSel
