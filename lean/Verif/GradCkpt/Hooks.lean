import Verif.Util.Py
/-
Model of the stack of `torch.autograd.graph.saved_tensors_hooks` with `gradient_checkpoint_scope`
(`returnn/torch/util/gradient_checkpoint.py` 141-227, 482-616), as seen from one thread.

Scopes are numbers.  Stacks have their top in front.  `other` says whether some other thread is registered, in which case the
methods of torch are replaced also for this thread.  The graph and the values are in `Verif.GradCkpt.Model`.  Not modelled:
exceptions as the reason of an exit (they make no difference), the end of the process.
-/
namespace Verif.GradCkpt.Hooks

open Verif.Py

/-- What is known of a `gradient_checkpoint_scope`: `exit_args` is set, `exited_saved_tensors_hooks_scope`, and whether any of its
tensors is alive. -/
structure Ck where
  exitArgs : Bool
  exited : Bool
  alive : Bool
deriving DecidableEq, Repr

/-- The state of a thread: the stack of torch, and `_custom_saved_tensors_hooks_tls_ctx` (gradient_checkpoint.py 497, 514-520);
`active` is the same as being in `_custom_saved_tensors_hooks_registered_threads`; `inited`: the attributes exist. -/
structure T where
  real : List Nat
  stack : List Nat
  callbacks : List Nat
  queued : List Nat
  active : Bool
  inited : Bool
  ck : Nat → Ck

def T.init : T := ⟨[], [], [], [], false, false, fun _ => ⟨false, false, false⟩⟩

/-- The original `__enter__`. -/
def origEnter (s : Nat) (t : T) : T := { t with real := s :: t.real }

/-- The original `__exit__`: takes away the top, whatever it is. -/
def origExit (t : T) : Res T :=
  match t.real with
  | [] => .error (.other "RuntimeError")
  | _ :: r => .ok { t with real := r }

/-- The loop of `_custom_saved_tensors_hooks_exit` (gradient_checkpoint.py 570-579), on stack, queued exits and the stack of torch. -/
def popLoop : List Nat → List Nat → List Nat → Res (List Nat × List Nat × List Nat)
  | [], queued, real => .ok ([], queued, real)
  | s :: stack, queued, real =>
    if s ∈ queued then
      match real with
      | [] => .error (.other "RuntimeError")
      | _ :: real' => popLoop stack (queued.erase s) real'
    else .ok (s :: stack, queued, real)

/-- `_unregister_custom_saved_tensors_hooks` (gradient_checkpoint.py 527-548). -/
def unregister (inCb : Bool) (t : T) : Res T :=
  if t.stack = [] ∧ (inCb ∨ t.callbacks = []) ∧ t.queued = [] then .ok { t with active := false } else .error .assertion

/-- The end of `_custom_saved_tensors_hooks_exit` (gradient_checkpoint.py 570-583). -/
def finishExit (inCb : Bool) (t : T) : Res T :=
  match popLoop t.stack t.queued t.real with
  | .error e => .error e
  | .ok (stack, queued, real) =>
    let t' := { t with stack := stack, queued := queued, real := real }
    if stack = [] then
      if queued = [] then
        if t'.active then unregister inCb t' else .ok t'
      else .error .assertion
    else .ok t'

/-- `_custom_saved_tensors_hooks_exit` (gradient_checkpoint.py 559-583) inside of a callback. -/
def customExitIn (s : Nat) (t : T) : Res T :=
  if s ∈ t.stack then finishExit true { t with queued := t.queued ++ [s] } else .error (.other "mismatch")

/-- `exit_saved_tensors_hooks_scope` (gradient_checkpoint.py 180-190) inside of a callback. -/
def exitScopeIn (other : Bool) (c : Nat) (t : T) : Res T :=
  if (t.ck c).exitArgs && !(t.ck c).exited then
    let t' := { t with ck := fun i => if i = c then { t.ck c with exited := true } else t.ck i }
    if t'.active || other then customExitIn c t' else origExit t'
  else .ok t

/-- `[cb for cb in callbacks if cb()]` (gradient_checkpoint.py 601-603) with `_custom_saved_tensors_hooks_callback` (220-227). -/
def cbLoop (other : Bool) : List Nat → T → Res (List Nat × T)
  | [], t => .ok ([], t)
  | c :: r, t =>
    if (t.ck c).exitArgs then
      if (t.ck c).alive then
        match cbLoop other r t with
        | .error e => .error e
        | .ok (kept, t') => .ok (c :: kept, t')
      else
        match exitScopeIn other c t with
        | .error e => .error e
        | .ok t' => cbLoop other r t'
    else .error .assertion

/-- `_custom_saved_tensors_hooks_call_callbacks` (gradient_checkpoint.py 595-607). -/
def callCallbacks (other : Bool) (t : T) : Res T :=
  if t.inited then
    match cbLoop other t.callbacks t with
    | .error e => .error e
    | .ok (kept, t') =>
      if t'.active ∨ (kept = [] ∧ t'.stack = []) then .ok { t' with callbacks := kept } else .error .assertion
  else .error (.other "AttributeError")

/-- `_custom_saved_tensors_hooks_exit` (gradient_checkpoint.py 559-583). -/
def customExit (other : Bool) (s : Nat) (t : T) : Res T :=
  if t.inited then
    if s ∈ t.stack then
      match callCallbacks other { t with queued := t.queued ++ [s] } with
      | .error e => .error e
      | .ok t' => finishExit false t'
    else .error (.other "mismatch")
  else .error (.other "AttributeError")

/-- `saved_tensors_hooks.__exit__`. -/
def doExit (other : Bool) (s : Nat) (t : T) : Res T :=
  if t.active || other then customExit other s t else origExit t

/-- `saved_tensors_hooks.__enter__`, with `_custom_saved_tensors_hooks_enter` (gradient_checkpoint.py 551-556). -/
def doEnter (other : Bool) (s : Nat) (t : T) : Res T :=
  if t.active || other then
    match callCallbacks other t with
    | .error e => .error e
    | .ok t' => .ok (origEnter s (if t'.active then { t' with stack := s :: t'.stack } else t'))
  else .ok (origEnter s t)

/-- `exit_saved_tensors_hooks_scope` (gradient_checkpoint.py 180-190). -/
def exitScope (other : Bool) (c : Nat) (t : T) : Res T :=
  if (t.ck c).exitArgs && !(t.ck c).exited then
    doExit other c { t with ck := fun i => if i = c then { t.ck c with exited := true } else t.ck i }
  else .ok t

/-- `_register_custom_saved_tensors_hooks` (gradient_checkpoint.py 501-524). -/
def register (c : Nat) (t : T) : T :=
  if t.active then t
  else
    let t' := if t.inited then t else { t with stack := [], callbacks := [], queued := [], inited := true }
    { t' with active := true, stack := c :: t'.stack }

/-- `gradient_checkpoint_scope.__exit__` (gradient_checkpoint.py 154-167). -/
def ckptExit (other : Bool) (c : Nat) (alive : Bool) (t : T) : Res T :=
  let t1 := { t with ck := fun i => if i = c then ⟨true, (t.ck c).exited, alive⟩ else t.ck i }
  if alive then
    let t2 := register c t1
    .ok { t2 with callbacks := t2.callbacks ++ [c] }
  else exitScope other c t1

/-- The last tensor of a scope goes away.  `here`: the hook of the tensor runs, and in the thread of the scope
(`_tensor_del_hook`, gradient_checkpoint.py 215-219, `_maybe_exit_saved_tensors_hooks_scope` 169-177). -/
def tensorsDie (other : Bool) (c : Nat) (here : Bool) (t : T) : Res T :=
  let t1 := { t with ck := fun i => if i = c then { t.ck c with alive := false } else t.ck i }
  if here then exitScope other c t1 else .ok t1

/-- What can happen: a scope of the user is entered or left; a checkpoint scope is entered or left (with tensors alive or not); the
tensors of a checkpoint scope go away. -/
inductive Ev where
  | enter (s : Nat)
  | leave (s : Nat)
  | ckEnter (c : Nat)
  | ckLeave (c : Nat) (alive : Bool)
  | die (c : Nat) (here : Bool)
deriving DecidableEq, Repr

def step (other : Bool) (e : Ev) (t : T) : Res T :=
  match e with
  | .enter s => doEnter other s t
  | .leave s => doExit other s t
  | .ckEnter c => doEnter other c t
  | .ckLeave c alive => ckptExit other c alive t
  | .die c here => tensorsDie other c here t

/-- A run; each event with whether another thread is registered at that time. -/
def run : List (Bool × Ev) → T → Res T
  | [], t => .ok t
  | (o, e) :: r, t =>
    match step o e t with
    | .error x => .error x
    | .ok t' => run r t'

end Verif.GradCkpt.Hooks
