import Verif.Util.Py
import Verif.Util.Dict
/-!
Model of saving and loading the optimizer state, /repo/returnn/torch/updater.py 245-382. Parameters are numbers (their `id`). The content of the state of a parameter is any type `S`,
the options of a parameter group (everything except "params") any type `G`. Tensors are not converted to other devices or dtypes.
-/

namespace Verif.Updater
open Verif.Py

/-- The network as `Updater` sees it: `named_parameters()` as the dict `param_id_to_name` (338-340), and `requires_grad`. -/
structure Net where
  names : Dict Nat String
  requiresGrad : Nat → Bool

/-- `torch.optim.Optimizer`: `param_groups` and `state`. -/
structure Opt (G S : Type) where
  groups : List (G × List Nat)
  state : Dict Nat S

/-- All parameters of the optimizer, in the order of the groups. -/
def Opt.params {G S : Type} (o : Opt G S) : List Nat := o.groups.flatMap Prod.snd

/-- What is in the file (`save_optimizer` 365-377, as far as `load_optimizer` looks at it): parameters are numbered in the order of the groups. `names = none`: the key "param_names" is missing,
or the old format (255-257). -/
structure Ckpt (G S : Type) where
  names : Option (List String)
  groups : List (G × List Nat)
  state : Dict Nat S

/-- 337-345 `_get_opt_param_names`. -/
def optNames {G S : Type} (o : Opt G S) (net : Net) : Res (List String) := o.params.mapM net.names.getItem

/-- `torch.optim.Optimizer.state_dict`: groups and state with the positions of the parameters. (A parameter in the state which is in no group is a KeyError in torch; this does not occur.) -/
def stateDict {G S : Type} (o : Opt G S) : List (G × List Nat) × Dict Nat S :=
  (o.groups.map (fun g => (g.1, g.2.map (fun p => o.params.idxOf p))), o.state.map (fun e => (o.params.idxOf e.1, e.2)))

/-- 347-382 `save_optimizer`. -/
def save {G S : Type} (o : Opt G S) (net : Net) : Res (Ckpt G S) := do
  let names ← optNames o net
  return { names := some names, groups := (stateDict o).1, state := (stateDict o).2 }

/-- `dict(zip(...))`: later entries win. -/
def mkDict {K V : Type} [DecidableEq K] (l : List (K × V)) : Dict K V := l.foldl (fun d e => d.set e.1 e.2) []

/-- The state in `load_state_dict`: entries for known positions go to the parameter. (Others are kept by torch under their number; no parameter sees them, they are dropped here.) -/
def stateEntries {S : Type} (idMap : Dict Nat Nat) (state : Dict Nat S) : List (Nat × S) :=
  state.filterMap (fun e => (idMap.get? e.1).map (fun p => (p, e.2)))

/-- `torch.optim.Optimizer.load_state_dict`: number of groups and of parameters in each group must be equal; then by position. -/
def loadStateDict {G S : Type} (o : Opt G S) (groups : List (G × List Nat)) (state : Dict Nat S) : Res (Opt G S) :=
  if o.groups.length ≠ groups.length then .error .valueError
  else if o.groups.map (fun g => g.2.length) ≠ groups.map (fun g => g.2.length) then .error .valueError
  else
    let idMap := mkDict ((groups.flatMap Prod.snd).zip o.params)
    .ok { groups := List.zipWith (fun g c => (c.1, g.2)) o.groups groups, state := mkDict (stateEntries idMap state) }

/-- `{name: i for i, name in enumerate(names)}` (268, 270). -/
def indexDict (names : List String) : Dict String Nat := mkDict names.zipIdx

/-- 276-277: `network.get_parameter(name).requires_grad`. -/
def requiresGradName (net : Net) (name : String) : Bool :=
  match net.names.find? (fun e => e.2 == name) with
  | some e => net.requiresGrad e.1
  | none => false

/-- 274-278: the names of the own parameters with `requires_grad`. -/
def critical (net : Net) (selfNames : List String) : List String := selfNames.filter (requiresGradName net)

/-- 309-327: one group: the trainable parameters have to be the same; then the own parameters, by their positions. -/
def remapGroup {G : Type} (net : Net) (selfNames ckptNames : List String) (ckptGroup selfGroup : G × List Nat) : Res (G × List Nat) := do
  let selfGroupNames ← selfGroup.2.mapM net.names.getItem
  let ckptGroupNames ← ckptGroup.2.mapM (getItem ckptNames)
  if (critical net selfNames).all (fun n => decide (n ∈ ckptGroupNames) == decide (n ∈ selfGroupNames)) then
    let idxs ← selfGroupNames.mapM (indexDict selfNames).getItem
    return (ckptGroup.1, idxs)
  else .error .valueError

/-- 283-288 and 328-332: the state with the own positions; entries of unknown parameters are dropped. -/
def remapState {S : Type} (selfNames ckptNames : List String) (state : Dict Nat S) : Dict Nat S :=
  mkDict (state.filterMap (fun e => (ckptNames[e.1]?).bind (fun n => ((indexDict selfNames).get? n).map (fun j => (j, e.2)))))

/-- 267-332: remapping of the file content, if the parameter names are not the same list. -/
def remap {G S : Type} (o : Opt G S) (net : Net) (selfNames ckptNames : List String) (ck : Ckpt G S) : Res (List (G × List Nat) × Dict Nat S) :=
  if (critical net selfNames).all (fun n => ((indexDict ckptNames).get? n).isSome) then do
    let groups ← (ck.groups.zip o.groups).mapM (fun p => remapGroup net selfNames ckptNames p.1 p.2)
    return (groups, remapState selfNames ckptNames ck.state)
  else .error .valueError

/-- 245-336 `load_optimizer`, from the file content. -/
def load {G S : Type} (o : Opt G S) (net : Net) (ck : Ckpt G S) : Res (Opt G S) :=
  match ck.names with
  | none => loadStateDict o ck.groups ck.state
  | some ckptNames =>
    if o.groups.length ≠ ck.groups.length then .error .valueError
    else do
      let selfNames ← optNames o net
      if selfNames = ckptNames then loadStateDict o ck.groups ck.state
      else do
        let r ← remap o net selfNames ckptNames ck
        loadStateDict o r.1 r.2

end Verif.Updater
