import Verif.Util.Py
import Verif.Util.Dict
/-!
Model of the parameter groups for weight decay, /repo/returnn/torch/updater.py 448-563, with the module traversal of torch.
Modules and parameters are objects with an id (a number). A module is given as the tree of its submodules; a submodule which is shared occurs several times in the tree, with the same id.
A module which contains itself cannot be expressed. Names are lists of characters.
-/

namespace Verif.Updater
open Verif.Py

abbrev Name := List Char

/-- `torch.nn.Module`: id, whether its type (or the type of the RF module) is in the blacklist, own parameters and submodules (dicts, in order). -/
inductive Mod where
  | mk (id : Nat) (black : Bool) (params : List (Name × Nat)) (children : List (Name × Mod))

def Mod.id : Mod → Nat | .mk i _ _ _ => i
def Mod.black : Mod → Bool | .mk _ b _ _ => b
def Mod.params : Mod → List (Name × Nat) | .mk _ _ p _ => p
def Mod.children : Mod → List (Name × Mod) | .mk _ _ _ c => c

/-- The name of something inside a module: `prefix + ("." if prefix else "") + name` (torch), line 525 in updater.py. -/
def subName (pre name : Name) : Name := if pre = [] then name else pre ++ '.' :: name

mutual
/-- `torch.nn.Module.named_modules(memo, prefix)` (`remove_duplicate=True`): the modules with their names, and the memo afterwards. -/
def namedModules : Mod → Name → List Nat → List (Name × Mod) × List Nat
  | .mk i b ps cs, pre, memo =>
    if i ∈ memo then ([], memo)
    else
      let r := namedChildren cs pre (i :: memo)
      ((pre, .mk i b ps cs) :: r.1, r.2)
/-- The loop over the submodules. -/
def namedChildren : List (Name × Mod) → Name → List Nat → List (Name × Mod) × List Nat
  | [], _, memo => ([], memo)
  | (n, m) :: cs, pre, memo =>
    let r := namedModules m (subName pre n) memo
    let r' := namedChildren cs pre r.2
    (r.1 ++ r'.1, r'.2)
end

/-- The loop over modules and their parameters with the visited parameters (514-524; `named_parameters(recurse=False)` omits duplicates inside the module itself, so does the check in 522):
(full name, module, parameter name, parameter). -/
def visit (l : List (Name × Mod × Name × Nat)) : List (Name × Mod × Name × Nat) :=
  (l.foldl (fun acc e => if e.2.2.2 ∈ acc.2 then acc else (acc.1 ++ [e], e.2.2.2 :: acc.2)) (([] : List (Name × Mod × Name × Nat)), ([] : List Nat))).1

/-- All (module, parameter) pairs in the order of the loops. -/
def allParams (root : Mod) : List (Name × Mod × Name × Nat) :=
  (namedModules root [] []).1.flatMap (fun e => e.2.params.map (fun p => (subName e.1 p.1, e.2, p.1, p.2)))

/-- `torch.nn.Module.named_parameters()`: the same traversal (`_named_members`, with `named_modules` and a memo of the parameters). -/
def namedParameters (root : Mod) : Dict Name Nat := (visit (allParams root)).map (fun e => (e.1, e.2.2.2))

/-- `str.endswith`. -/
def endsWith (s suffix : Name) : Bool := suffix.reverse.isPrefixOf s.reverse

/-- 526-545: whether a parameter goes to the group without weight decay. The custom check gets the name of the parameter inside of the module as `full_param_name` (530). -/
def isNoWd (custom : Mod → Name → Nat → Option Bool) (m : Mod) (name : Name) (p : Nat) : Bool :=
  match custom m name p with
  | some incl => !incl
  | none => endsWith name "bias".toList || m.black

/-- `sorted(list(...))` of strings. -/
def sortNames (l : List Name) : List Name := stableSort (fun a b => decide (a ≤ b)) l

/-- 504-553: the names of the two groups. Sets of names: no duplicates. -/
def wdNames (custom : Mod → Name → Nat → Option Bool) (root : Mod) (noWd : Bool) : List Name :=
  (((visit (allParams root)).filter (fun e => isNoWd custom e.2.1 e.2.2.1 e.2.2.2 == noWd)).map (fun e => e.1)).eraseDups

/-- The options which concern weight decay: `weight_decay`, whether `weight_decay_modules_blacklist` and `weight_decay_custom_include_check` are given (the blacklist itself is in `Mod.black`). -/
structure WdOpts (K : Type) where
  weightDecay : Option K
  hasBlacklist : Bool
  custom : Option (Mod → Name → Nat → Option Bool)

/-- The constructor of the optimizer is called with the remaining options; it does not know these two. -/
def checkLeft {K : Type} (opts : WdOpts K) : Res Unit := if opts.hasBlacklist || opts.custom.isSome then .error .typeError else .ok ()

/-- 448-563 `_get_optimizer_param_groups` without `param_groups_custom`, and the call of the constructor (431-432): weight decay and parameters of each group. `accepts`: the optimizer has
the option `weight_decay`. -/
def paramGroups {K : Type} [DecidableEq K] (zero : K) (accepts : Bool) (opts : WdOpts K) (root : Mod) : Res (List (Option K × List Nat)) :=
  if !accepts then
    if opts.weightDecay.isSome then .error .assertion else (checkLeft opts).map (fun _ => [(none, (namedParameters root).map Prod.snd)])
  else if opts.weightDecay.getD zero = zero then (checkLeft opts).map (fun _ => [(opts.weightDecay, (namedParameters root).map Prod.snd)])
  else do
    let custom := opts.custom.getD (fun _ _ _ => none)
    let d := (namedParameters root).foldl (fun d e => Dict.set d e.1 e.2) ([] : Dict Name Nat)
    let wd ← (sortNames (wdNames custom root false)).mapM (Dict.getItem d)
    let noWd ← (sortNames (wdNames custom root true)).mapM (Dict.getItem d)
    return [(opts.weightDecay, wd), (some zero, noWd)]

end Verif.Updater
