import Verif.Util.Py
/-
Model of `TensorArray` of `returnn/frontend/tensor_array.py`, with the eager lists of `returnn/frontend/_backend.py` and `returnn/torch/frontend/_backend.py`.

Simplifications for the whole file:
* dims are numbers, without duplicates in a tensor; a raw tensor is a function of the indices in the order of the dims; all sizes fit;
* dtype and other template data apart from dims and sparse dim are left out; every tensor is an instance of `Tensor`;
* Python lists are places of a heap, so that two objects can share one.
-/
namespace Verif.TensorArr
open Verif Verif.Py

/-- A tensor: dims in order, sparse dim, raw values by position. -/
structure T (α : Type) where
  dims : List Nat
  sparse : Option Nat
  raw : List Nat → α

/-- The lists in memory. -/
abbrev Heap (α : Type) := List (List (T α))

/-- A `TensorArray`: /repo/returnn/frontend/tensor_array.py:33-49. `ref`: which list `_backend_tensor_array` is. -/
structure TA where
  dims : List Nat
  sparse : Option Nat
  ref : Nat
  delayed : Bool

/-- The list of an array. -/
def content {α : Type} (h : Heap α) (a : TA) : List (T α) := (h[a.ref]?).getD []

/-- `TensorArray(template)`: a new empty list (`tensor_array_create`, /repo/returnn/frontend/_backend.py:1320-1326). -/
def create {α : Type} (h : Heap α) (dims : List Nat) (sparse : Option Nat) : Heap α × TA :=
  (h ++ [[]], { dims := dims, sparse := sparse, ref := h.length, delayed := false })

/-- `dims_set` equality. -/
def sameSet (a b : List Nat) : Bool := a.all (fun d => decide (d ∈ b)) && b.all (fun d => decide (d ∈ a))

/-- `_check_matching_tensor`, /repo/returnn/frontend/tensor_array.py:90-99. -/
def check {α : Type} (a : TA) (x : T α) : Res Unit :=
  if sameSet x.dims a.dims then
    if x.sparse = a.sparse then .ok () else .error .assertion
  else .error .assertion

/-- `tensor_array_push_back`, /repo/returnn/frontend/_backend.py:1348-1357: the list itself is changed. -/
def append {α : Type} (h : Heap α) (ref : Nat) (x : T α) : Heap α := h.modify ref fun l => l ++ [x]

/-- `push_back`, /repo/returnn/frontend/tensor_array.py:66-76. -/
def pushBack {α : Type} (h : Heap α) (a : TA) (x : T α) : Res (Heap α × TA) :=
  if a.delayed then .ok (append h a.ref x, { a with ref := a.ref })
  else
    match check a x with
    | .error e => .error e
    | .ok _ => .ok (append h a.ref x, { a with ref := a.ref })

/-- `tensor_array_unstack` for torch: `torch.unbind` at the axis. /repo/returnn/torch/frontend/_backend.py:2286-2296. `n`: size of the axis. -/
def unbind {α : Type} (x : T α) (axis n : Nat) : List (T α) :=
  (List.range n).map fun k =>
    { dims := x.dims.eraseIdx (x.dims.idxOf axis), sparse := x.sparse, raw := fun idx => x.raw (idx.insertIdx (x.dims.idxOf axis) k) }

/-- `unstack`, /repo/returnn/frontend/tensor_array.py:51-61. -/
def unstack {α : Type} (h : Heap α) (x : T α) (axis n : Nat) : Res (Heap α × TA) :=
  if axis ∈ x.dims then
    .ok (h ++ [unbind x axis n], { dims := x.dims.eraseIdx (x.dims.idxOf axis), sparse := x.sparse, ref := h.length, delayed := false })
  else .error (.other "AxisNotFound")

/-- `copy_transpose(dims)`, /repo/returnn/tensor/_tensor_extra.py:656-671. -/
def transpose {α : Type} (x : T α) (dims : List Nat) : Res (T α) :=
  if dims.length = x.dims.length then
    if x.dims.all (fun d => decide (d ∈ dims)) then
      .ok { x with dims := dims, raw := fun idx => x.raw (x.dims.map fun d => (idx[dims.idxOf d]?).getD 0) }
    else .error .valueError
  else .error .assertion

/-- All tensors in the same order of dims. -/
def transposeAll {α : Type} (dims : List Nat) : List (T α) → Res (List (T α))
  | [] => .ok []
  | x :: xs =>
    match transpose x dims with
    | .error e => .error e
    | .ok y =>
      match transposeAll dims xs with
      | .error e => .error e
      | .ok ys => .ok (y :: ys)

/-- `torch.stack` at position 0; `zero` outside (never read, as `k` is smaller than the number). -/
def rawStack {α : Type} (zero : α) (ys : List (T α)) : List Nat → α
  | [] => zero
  | k :: idx => match ys[k]? with
    | none => zero
    | some y => y.raw idx

/-- `stack` with `tensor_array_stack` of torch: /repo/returnn/frontend/tensor_array.py:101-105, /repo/returnn/torch/frontend/_backend.py:2299-2311. -/
def stack {α : Type} (zero : α) (h : Heap α) (a : TA) (axis : Nat) : Res (T α) :=
  match content h a with
  | [] => .ok { dims := axis :: a.dims, sparse := a.sparse, raw := fun _ => zero }
  | x :: xs =>
    match transposeAll x.dims (x :: xs) with
    | .error e => .error e
    | .ok ys => .ok { dims := axis :: x.dims, sparse := x.sparse, raw := rawStack zero ys }

/-- `__getitem__` with a number (or a scalar tensor), as Python lists count. /repo/returnn/frontend/_backend.py:1360-1371. -/
def getItemAt {α : Type} (h : Heap α) (a : TA) (i : Int) : Res (T α) :=
  let l := content h a
  let j := if i < 0 then i + l.length else i
  if 0 ≤ j then getItem l j.toNat else .error .indexError

/-- A history of `push_back` calls, each on the object before: `a = a.push_back(x)`. -/
def pushAll {α : Type} (h : Heap α) (a : TA) : List (T α) → Res (Heap α × TA)
  | [] => .ok (h, a)
  | x :: xs =>
    match pushBack h a x with
    | .error e => .error e
    | .ok r => pushAll r.1 r.2 xs

end Verif.TensorArr
