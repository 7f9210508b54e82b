import Verif.Util.Py
/-
Model of control flow contexts (`returnn/tensor/control_flow_ctx.py`, `returnn/frontend/control_flow_ctx.py`), of the random journal
(`returnn/frontend/_random_journal.py`), and of the tensors of a state (`returnn/frontend/state.py`).

Simplifications for the whole file:
* a context is the list of its frames, itself first, each with an identity; the empty list is `None`, the root. So equality of contexts is identity;
* dims and tensors are numbers where only their identity matters; a journal entry is what it contains, with dtype and dim sizes of its tensor;
* the graph of consumers of a tensor is given.
-/
namespace Verif.CtxJournal
open Verif Verif.Py

/-- One context object without its outer one: identity, whether it is a loop, and its spatial dim. -/
structure Frame where
  id : Nat
  loop : Bool
  dim : Option Nat
deriving DecidableEq

abbrev Ctx := List Frame

/-- The chain in `_abs_ctx_stack`, before it is reversed: self, outer, ... /repo/returnn/tensor/control_flow_ctx.py:76-80. -/
def chain : Ctx → List Ctx
  | [] => []
  | f :: outer => (f :: outer) :: chain outer

/-- `abs_ctx_stack`, /repo/returnn/tensor/control_flow_ctx.py:71-92. -/
def absCtxStack (c : Ctx) : List Ctx := (chain c).reverse

/-- `abs_ctx_stack_with_root`, /repo/returnn/tensor/control_flow_ctx.py:94-104. -/
def absCtxStackWithRoot (c : Ctx) : List Ctx := [] :: absCtxStack c

/-- The loop `while child` of `is_parent_or_same`, /repo/returnn/tensor/control_flow_ctx.py:119-122. -/
def searchUp (parent : Ctx) : Ctx → Bool
  | [] => false
  | f :: outer => if f :: outer = parent then true else searchUp parent outer

/-- `is_parent_or_same`, /repo/returnn/tensor/control_flow_ctx.py:106-123. -/
def isParentOrSame (parent child : Ctx) : Bool :=
  if parent = child then true
  else if parent = [] then true
  else if child = [] then false
  else searchUp parent child

/-- `ctx_.is_loop() and ctx_.loop_spatial_dim`. -/
def loopDim (c : Ctx) : Option Nat :=
  match c with
  | [] => none
  | f :: _ => if f.loop then f.dim else none

/-- `collect_parent_dims`, /repo/returnn/tensor/control_flow_ctx.py:125-135. -/
def collectParentDims (c : Ctx) : List Nat := (absCtxStack c).filterMap loopDim

/-- Programs with contexts: blocks `with control_flow_ctx(c)`, reads of the current context, and failures. -/
inductive Prog
  | read
  | fail
  | seq (a b : Prog)
  | withCtx (c : Ctx) (body : Prog)

/-- Running with the global `_ctx`: the new global, whether it failed, and what was read.
/repo/returnn/frontend/control_flow_ctx.py:14-34: `finally` sets it back. -/
def run : Prog → Ctx → Ctx × Bool × List Ctx
  | .read, g => (g, false, [g])
  | .fail, g => (g, true, [])
  | .seq a b, g =>
    let ra := run a g
    if ra.2.1 then ra
    else
      let rb := run b ra.1
      (rb.1, rb.2.1, ra.2.2 ++ rb.2.2)
  | .withCtx c body, g =>
    let r := run body c
    (g, r.2.1, r.2.2)

/-- The tensor of an entry or template: dtype and sizes of the dims. -/
structure Tmpl where
  dtype : Nat
  sizes : List (Option Nat)
deriving DecidableEq

/-- An entry, with everything else as `info`. -/
structure Entry where
  out : Tmpl
  info : Nat
deriving DecidableEq

/-- /repo/returnn/frontend/_random_journal.py:22-25. -/
structure Journal where
  entries : List Entry
  cur : Nat
deriving DecidableEq

/-- `append`, /repo/returnn/frontend/_random_journal.py:27-55. -/
def append (j : Journal) (e : Entry) : Journal := { j with entries := j.entries ++ [e] }

/-- All sizes are equal, `zip` of both. -/
def sizesEq : List (Option Nat) → List (Option Nat) → Bool
  | a :: as, b :: bs => if a = b then sizesEq as bs else false
  | _, _ => true

/-- The checks of the template. -/
def fits (t : Option Tmpl) (e : Entry) : Bool :=
  match t with
  | none => true
  | some t => decide (t.dtype = e.out.dtype) && decide (t.sizes.length = e.out.sizes.length) && sizesEq t.sizes e.out.sizes

/-- `get_next`, /repo/returnn/frontend/_random_journal.py:57-78. -/
def getNext (j : Journal) (t : Option Tmpl) : Res (Entry × Journal) :=
  match j.entries[j.cur]? with
  | none => .error .assertion
  | some e => if fits t e then .ok (e, { j with cur := j.cur + 1 }) else .error .assertion

/-- `reached_end`, /repo/returnn/frontend/_random_journal.py:80-82. -/
def reachedEnd (j : Journal) : Bool := decide (j.entries.length ≤ j.cur)

/-- Reading with given templates, one after another. -/
def replay : Journal → List (Option Tmpl) → Res (List Entry × Journal)
  | j, [] => .ok ([], j)
  | j, t :: ts =>
    match getNext j t with
    | .error e => .error e
    | .ok r =>
      match replay r.2 ts with
      | .error e => .error e
      | .ok rs => .ok (r.1 :: rs.1, rs.2)

/-- A node which reads the journal in a graph. -/
structure Node where
  tensor : Nat
  ctx : Ctx
  runCtx : Nat
  /-- the consumers (with itself first) in the order of `walk_tensor_consumers`, with their contexts. -/
  consumers : List (Nat × Ctx)

/-- `get_recent_graph_reader_node_in_accessible_ctx`, /repo/returnn/frontend/_random_journal.py:97-119, on the nodes with the newest first. The walk stops with the
first consumer which can be accessed. -/
def recentReader (cur : Ctx) (run : Nat) (newestFirst : List Node) : Res (Option Nat) :=
  match newestFirst with
  | [] => .ok none
  | n :: _ =>
    if n.runCtx ≠ run then .ok none
    else if isParentOrSame n.ctx cur then .ok (some n.tensor)
    else
      match n.consumers.find? fun c => isParentOrSame c.2 cur with
      | none => .error (.other "cannot handle")
      | some c => .ok (some c.1)

/-- A state: tensors, dicts and lists, or something else. -/
inductive Obj
  | tensor (t : Nat)
  | node (xs : List Obj)
  | other

/-- The number of objects, enough rounds for the loop. -/
def Obj.size : Obj → Nat
  | .tensor _ => 1
  | .node xs => 1 + (xs.map Obj.size).sum
  | .other => 1

/-- `while queue` of `cls_flatten_tensors`, /repo/returnn/frontend/state.py:79-90; the last of the queue is first in the list here, so `extend` puts the new ones
reversed in front. -/
def flattenLoop : Nat → List Obj → List Nat → Res (List Nat)
  | _, [], acc => .ok acc
  | 0, _ :: _, _ => .error (.other "out of rounds")
  | n + 1, x :: q, acc =>
    match x with
    | .tensor t => flattenLoop n q (if t ∈ acc then acc else acc ++ [t])
    | .node xs => flattenLoop n (xs.reverse ++ q) acc
    | .other => .error .typeError

/-- `cls_flatten_tensors`, /repo/returnn/frontend/state.py:68-92. -/
def flatten (x : Obj) : Res (List Nat) := flattenLoop x.size [x] []

end Verif.CtxJournal
