import Verif.Util.Py
/-
Modules and their parameters: `named_modules`, `named_parameters`, `get_deep`, `set_deep`, `apply` (`returnn/frontend/module.py`), and the
conversion to a PyTorch module (`RFModuleAsPTModule` in `returnn/torch/frontend/bridge.py`).

Modules and parameters are numbered objects; modules may be shared and there may be cycles.  Simplifications: attribute names have no dots,
so that a dotted name is the list of its parts; attributes are those of `vars(mod)` (no class attributes); values are parameters, modules
or anything else (which includes plain PyTorch modules and tensors); a PyTorch module is represented by the entries of its `state_dict()`
in their order; no clash of an attribute with a method of `torch.nn.Module`.
-/
namespace Verif.ModTree

open Verif.Py

/-- The value of an attribute. -/
inductive Val
  | param (p : Nat) | mod (m : Nat) | other
  deriving DecidableEq

/-- A dotted name. -/
abbrev Name := List String

/-- All modules with their attributes, and which parameters are auxiliary. -/
structure Graph where
  mods : List (List (String × Val))
  aux : Nat → Bool := fun _ => false

/-- `vars(mod).items()`. -/
def Graph.vars (g : Graph) (m : Nat) : List (String × Val) := g.mods.getD m []

/-- `AttributeError`. -/
def attributeError : Err := .other "AttributeError"

/-- `getattr`. -/
def getattr (g : Graph) (m : Nat) (a : String) : Res Val :=
  match (g.vars m).find? (fun e => e.1 == a) with
  | some e => .ok e.2
  | none => .error attributeError

/-- `Module.get_deep` (module.py 112-130). -/
def getDeep (g : Graph) : Nat → Name → Res Val
  | m, [] => .ok (.mod m)
  | m, [a] => getattr g m a
  | m, a :: b :: rest =>
    match getattr g m a with
    | .error e => .error e
    | .ok (.mod m') => getDeep g m' (b :: rest)
    | .ok _ => .error attributeError

/-- `setattr`: an existing attribute keeps its place. -/
def setVars (l : List (String × Val)) (a : String) (v : Val) : List (String × Val) :=
  match l with
  | [] => [(a, v)]
  | e :: l => if e.1 = a then (a, v) :: l else e :: setVars l a v

def setattr (g : Graph) (m : Nat) (a : String) (v : Val) : Graph := { g with mods := g.mods.set m (setVars (g.vars m) a v) }

/-- `Module.set_deep` (module.py 132-147).  `target.rsplit(".", 2)` gives three parts if there are two dots or more, and the assignment to
two variables raises. -/
def setDeep (g : Graph) (m : Nat) (target : Name) (v : Val) : Res Graph :=
  match target with
  | [] => .error attributeError
  | [a] => .ok (setattr g m a v)
  | [a, b] =>
    match getDeep g m [a] with
    | .error e => .error e
    | .ok (.mod m') => .ok (setattr g m' b v)
    | .ok _ => .error attributeError
  | _ => .error .valueError

/-- The inner loop of `named_modules` (module.py 192-201): the modules among the attributes which are not in the memo. -/
def visit (pre : Name) : List (String × Val) → List Nat → List (Name × Nat) × List Nat
  | [], memo => ([], memo)
  | (a, .mod m) :: rest, memo =>
    if m ∈ memo then visit pre rest memo
    else ((pre ++ [a], m) :: (visit pre rest (memo ++ [m])).1, (visit pre rest (memo ++ [m])).2)
  | _ :: rest, memo => visit pre rest memo

/-- The loop over the queue (module.py 190-201).  The first argument bounds the number of rounds; every module is queued once. -/
def bfs (g : Graph) (recurse : Bool) : Nat → List (Name × Nat) → List Nat → List (Name × Nat)
  | 0, _, _ => []
  | _ + 1, [], _ => []
  | f + 1, (pre, m) :: queue, memo =>
    (visit pre (g.vars m) memo).1
      ++ bfs g recurse f (if recurse then queue ++ (visit pre (g.vars m) memo).1 else queue) (visit pre (g.vars m) memo).2

/-- `Module.named_modules` (module.py 168-201). -/
def namedModules (g : Graph) (recurse includeSelf : Bool) (root : Nat) : List (Name × Nat) :=
  (if includeSelf then [([], root)] else []) ++ bfs g recurse g.mods.length [([], root)] [root]

/-- The parameters of one module (module.py 213-217). -/
def visitParams (pre : Name) : List (String × Val) → List Nat → List (Name × Nat) × List Nat
  | [], memo => ([], memo)
  | (a, .param p) :: rest, memo =>
    if p ∈ memo then visitParams pre rest memo
    else ((pre ++ [a], p) :: (visitParams pre rest (memo ++ [p])).1, (visitParams pre rest (memo ++ [p])).2)
  | _ :: rest, memo => visitParams pre rest memo

/-- All modules (module.py 212-217). -/
def collect (g : Graph) : List (Name × Nat) → List Nat → List (Name × Nat)
  | [], _ => []
  | (pre, m) :: rest, memo => (visitParams pre (g.vars m) memo).1 ++ collect g rest (visitParams pre (g.vars m) memo).2

/-- `Module.named_parameters` (module.py 203-217). -/
def namedParameters (g : Graph) (recurse : Bool) (root : Nat) : List (Name × Nat) :=
  collect g (if recurse then namedModules g true true root else [([], root)]) []

/-- `RecursionError`. -/
def recursionError : Err := .other "RecursionError"

/-- Does this for all elements, and concatenates. -/
def concatM {α β : Type} (f : α → Res (List β)) : List α → Res (List β)
  | [] => .ok []
  | x :: xs => do
    let a ← f x
    let b ← concatM f xs
    .ok (a ++ b)

/-- `Module.children` (module.py 149-153). -/
def children (g : Graph) (m : Nat) : List Nat := (namedModules g false false m).map Prod.snd

/-- `Module.apply` (module.py 237-247): the order in which the function is applied.  The first argument bounds the depth of the recursion. -/
def applyOrder (g : Graph) : Nat → Nat → Res (List Nat)
  | 0, _ => .error recursionError
  | f + 1, m => do
    let l ← concatM (applyOrder g f) (children g m)
    .ok (l ++ [m])

/-- Whether a parameter becomes a buffer. -/
def isBuffer (g : Graph) (auxAsBuffers : Bool) (p : Nat) : Bool := g.aux p && auxAsBuffers

/-- The parameters among the attributes. -/
def ownParams (g : Graph) (m : Nat) : List (String × Nat) := (g.vars m).filterMap (fun e =>
  match e.2 with
  | .param p => some (e.1, p)
  | _ => none)

/-- The modules among the attributes. -/
def ownMods (g : Graph) (m : Nat) : List (String × Nat) := (g.vars m).filterMap (fun e =>
  match e.2 with
  | .mod m' => some (e.1, m')
  | _ => none)

/-- `RFModuleAsPTModule` (bridge.py 108-136): the entries of the `state_dict()` of the PyTorch module: its parameters, its buffers, and
those of its children; each with name, parameter and whether it is a buffer.  The first argument bounds the depth of the recursion. -/
def toPT (g : Graph) (auxAsBuffers : Bool) : Nat → Nat → Res (List (Name × Nat × Bool))
  | 0, _ => .error recursionError
  | f + 1, m => do
    let sub ← concatM (fun e : String × Nat => do
      let l ← toPT g auxAsBuffers f e.2
      .ok (l.map (fun x => (e.1 :: x.1, x.2)))) (ownMods g m)
    .ok (((ownParams g m).filter (fun e => !isBuffer g auxAsBuffers e.2)).map (fun e => ([e.1], e.2, false))
      ++ ((ownParams g m).filter (fun e => isBuffer g auxAsBuffers e.2)).map (fun e => ([e.1], e.2, true)) ++ sub)

/-- First occurrences. -/
def firstOf : List (Name × Nat) → List Nat → List (Name × Nat)
  | [], _ => []
  | e :: rest, memo => if e.2 ∈ memo then firstOf rest memo else e :: firstOf rest (memo ++ [e.2])

/-- `torch.nn.Module.named_parameters()` of the converted module: every parameter once, depth first. -/
def ptNamedParameters (l : List (Name × Nat × Bool)) : List (Name × Nat) :=
  firstOf ((l.filter (fun x => !x.2.2)).map (fun x => (x.1, x.2.1))) []

end Verif.ModTree
