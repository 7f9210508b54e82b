import Verif.Util.Dict
/-
Model of the recording and the recomputation of `gradient_checkpoint_scope` (`returnn/torch/util/gradient_checkpoint.py`):
`_RecordGraph`, `_Graph`, `_GraphOp`, `_GraphTensor`, `_reset_rng_states_scope`, the pack and the unpack hook.

Tensor objects have a storage, so that in-place operations and views are covered.  The operations are arbitrary functions of
the values of their arguments and of the states of the random number generators.  Not modelled: AMP states, exceptions in
operations, keyword arguments (part of the function), the life time of objects (see `Verif.GradCkpt.Hooks` for the stack of
hooks).
-/
namespace Verif.GradCkpt

open Verif.Py

/-- A tensor object: its storage, the name of its device, and the rest (strides, offset, ...). -/
structure Obj (M : Type) where
  sto : Nat
  dev : Nat
  info : M

/-- What an operation returns: a new tensor, a new tensor object on the storage of an argument, or an argument itself
(in-place operations). -/
inductive Out (V M : Type) where
  | fresh (v : V) (dev : Nat) (info : M)
  | view (i : Nat) (info : M)
  | same (i : Nat)

/-- An (aten) operation.  `devArgs`: the names of devices in the arguments, as for `torch.rand(..., device=...)`.  `uses`: the
generators it draws from.  `run` gets the values of the arguments and the states of all generators, and gives the new values of
the storages of the arguments, the outputs, and the new states of the generators. -/
structure Func (V M S : Type) where
  devArgs : List Nat
  uses : List Nat
  run : List (V × M) → (Nat → S) → List V × List (Out V M) × (Nat → S)

/-- The state of the process: storages, tensor objects (both with the number of those in use) and generators. -/
structure St (V M S : Type) where
  heap : Nat → V
  hn : Nat
  objs : Nat → Obj M
  on : Nat
  rng : Nat → S

def upd {β : Type} (f : Nat → β) (i : Nat) (x : β) : Nat → β := fun j => if j = i then x else f j

variable {V M S : Type}

/-- The value of a tensor object. -/
def valOf (st : St V M S) (o : Nat) : V × M := (st.heap (st.objs o).sto, (st.objs o).info)

/-- The storages of the arguments get their new values. -/
def writeBack : List Nat → List V → (Nat → V) → (Nat → V)
  | s :: ss, v :: vs, h => writeBack ss vs (upd h s v)
  | _, _, h => h

/-- The tensor objects of the outputs. -/
def mkOuts (args : List Nat) : List (Out V M) → St V M S → St V M S × List Nat
  | [], st => (st, [])
  | .fresh v d m :: r, st =>
    let t := mkOuts args r
      { st with heap := upd st.heap st.hn v, hn := st.hn + 1, objs := upd st.objs st.on ⟨st.hn, d, m⟩, on := st.on + 1 }
    (t.1, st.on :: t.2)
  | .view i m :: r, st =>
    let a := st.objs (args.getD i 0)
    let t := mkOuts args r { st with objs := upd st.objs st.on ⟨a.sto, a.dev, m⟩, on := st.on + 1 }
    (t.1, st.on :: t.2)
  | .same i :: r, st =>
    let t := mkOuts args r st
    (t.1, args.getD i 0 :: t.2)

/-- `func(*args)`. -/
def call (fn : Func V M S) (args : List Nat) (st : St V M S) : St V M S × List Nat :=
  let res := fn.run (args.map (valOf st)) st.rng
  mkOuts args res.2.1
    { st with heap := writeBack (args.map (fun o => (st.objs o).sto)) res.1 st.heap, rng := res.2.2 }

/-- An argument of a recorded operation: a tensor from outside, or `_GraphTensor` (operation and index of the output). -/
inductive Arg where
  | ext (o : Nat)
  | graph (op out : Nat)
deriving DecidableEq, Repr

/-- `_GraphOp` (gradient_checkpoint.py 380-402). -/
structure GOp (V M S : Type) where
  fn : Func V M S
  args : List Arg

/-- `_Graph` (gradient_checkpoint.py 250-377).  `done`: `recomputed_out_flat` of the operations which are recomputed; the
operation `i` is in `done` if there is such an entry, otherwise in `ops`. -/
structure Graph (V M S : Type) where
  done : List (List Nat)
  ops : List (GOp V M S)
  tensors : Dict Nat (Nat × Nat)
  rngs : Dict Nat S

def Graph.empty : Graph V M S := ⟨[], [], [], []⟩

/-- `maybe_store_rng_state` (gradient_checkpoint.py 296-312); `phys`: the generator which is meant by a name of a device, as
`cuda` and `cuda:0` are different names for the same. -/
def storeRng (phys : Nat → Nat) (rng : Nat → S) (rngs : Dict Nat S) (dev : Nat) : Dict Nat S :=
  if rngs.contains dev then rngs else rngs.set dev (rng (phys dev))

/-- The name of the CPU. -/
def cpu : Nat := 0

/-- The devices for which the state is stored before an operation (gradient_checkpoint.py 238-241). -/
def devNames (st : St V M S) (fn : Func V M S) (args : List Nat) : List Nat :=
  cpu :: (args.map (fun o => (st.objs o).dev) ++ fn.devArgs)

/-- `maybe_map_raw_tensor_to_graph_tensor` (gradient_checkpoint.py 326-328). -/
def wrap (tensors : Dict Nat (Nat × Nat)) (o : Nat) : Arg :=
  match tensors.get? o with
  | some (i, j) => .graph i j
  | none => .ext o

/-- The loop over the outputs in `record_op` (gradient_checkpoint.py 289-294). -/
def addOuts (op : Nat) : List Nat → Nat → Dict Nat (Nat × Nat) → Dict Nat (Nat × Nat)
  | [], _, tensors => tensors
  | o :: r, j, tensors => addOuts op r (j + 1) (if tensors.contains o then tensors else tensors.set o (op, j))

/-- `__torch_dispatch__` with `record_op` (gradient_checkpoint.py 235-244, 276-294). -/
def record (phys : Nat → Nat) (fn : Func V M S) (args : List Nat) (s : St V M S × Graph V M S) : St V M S × Graph V M S :=
  let t := call fn args s.1
  (t.1, { s.2 with
    ops := s.2.ops ++ [⟨fn, args.map (wrap s.2.tensors)⟩]
    tensors := addOuts (s.2.done.length + s.2.ops.length) t.2 0 s.2.tensors
    rngs := (devNames s.1 fn args).foldl (storeRng phys s.1.rng) s.2.rngs })

/-- All operations in the scope. -/
def recordAll (phys : Nat → Nat) : List (Func V M S × List Nat) → St V M S × Graph V M S → St V M S × Graph V M S
  | [], s => s
  | p :: r, s => recordAll phys r (record phys p.1 p.2 s)

/-- `_GraphTensor.get_recomputed` (gradient_checkpoint.py 410-413). -/
def resolve (done : List (List Nat)) : Arg → Nat
  | .ext o => o
  | .graph i j => (done.getD i []).getD j 0

/-- The loop of `maybe_recompute` (gradient_checkpoint.py 369-375) with `_GraphOp.recompute` (389-402). -/
def recomputeOps : List (GOp V M S) → List (List Nat) → St V M S → St V M S × List (List Nat)
  | [], done, st => (st, done)
  | op :: r, done, st =>
    let t := call op.fn (op.args.map (resolve done)) st
    recomputeOps r (done ++ [t.2]) t.1

/-- `for dev, state in states.items(): _set_dev_rng_state(dev, state)`. -/
def setRngs (phys : Nat → Nat) : List (Nat × S) → (Nat → S) → (Nat → S)
  | [], rng => rng
  | (dev, s) :: r, rng => setRngs phys r (upd rng (phys dev) s)

/-- `maybe_recompute` (gradient_checkpoint.py 330-377) with `_reset_rng_states_scope` (416-430). -/
def maybeRecompute (phys : Nat → Nat) (s : St V M S × Graph V M S) : St V M S × Graph V M S :=
  if s.2.ops.isEmpty then s
  else
    let prev := s.2.rngs.map (fun e => (e.1, s.1.rng (phys e.1)))
    let t := recomputeOps s.2.ops s.2.done { s.1 with rng := setRngs phys s.2.rngs s.1.rng }
    ({ t.1 with rng := setRngs phys prev t.1.rng }, { s.2 with done := t.2, ops := [], rngs := [] })

/-- The pack hook (gradient_checkpoint.py 191-204). -/
def pack (g : Graph V M S) (o : Nat) : Arg := wrap g.tensors o

/-- The unpack hook (gradient_checkpoint.py 206-213). -/
def unpack (phys : Nat → Nat) (a : Arg) (s : St V M S × Graph V M S) : (St V M S × Graph V M S) × Nat :=
  match a with
  | .ext o => (s, o)
  | .graph i j =>
    let s' := maybeRecompute phys s
    (s', resolve s'.2.done (.graph i j))

end Verif.GradCkpt
