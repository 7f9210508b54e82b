import Verif.Util.Dict
/-
Loading the parameters of a model: the PyTorch engine, `Engine._load_model` (`returnn/torch/engine.py` 847-1078), with the checkpoint
and with `preload_from_files`, and which parameters are saved (`_save_model` 1116-1160).

Names of parameters are lists of characters.  A value has a shape, and anything else.  Simplifications: a file with its `checkpoint_key`
is already selected (it may be a failure); the pattern of an entry without file is a predicate on names; order of keys of entries by a
number; logging is not modelled, apart from the set of unexpected keys; devices, dtypes, hooks and garbage collection are not modelled.
`torch.nn.Module.load_state_dict` is modelled by its documented behaviour.
-/
namespace Verif.LoadModel

open Verif.Py

abbrev Name := List Char

structure Val where
  shape : List Nat
  data : Nat
  deriving DecidableEq

abbrev State := Dict Name Val

/-- `init_for_train` of an entry: not set, `True`, `"always"`, or anything else. -/
inductive Init
  | no | yes | always | bad
  deriving DecidableEq

/-- One entry of `preload_from_files`.  `src = none` means `filename` is `None`. -/
structure Entry where
  key : Nat
  src : Option (Res State)
  init : Init
  pattern : Name → Bool := fun _ => false
  prefix_ : Name := []
  ignoreParams : List Name := []
  ignorePrefixes : List Name := []
  mapping : List (Name × Name) := []
  ignoreMissing : Bool := false

/-- The model: its state dict after creation, which of the names are parameters (the others are buffers), and which are
`non_critical_for_restore`. -/
structure Net where
  init : State
  isParam : Name → Bool
  nonCritical : List Name

/-- The situation: training or not, and whether `is_first_train_epoch`. -/
structure Task where
  training : Bool
  first : Bool

/-- What `_load_model` keeps while loading. -/
structure L where
  params : State
  loaded : List Name
  missing : List Name
  ignore : List Name

/-- Whether `load_state_dict` finds another shape. -/
def shapeMismatch (params st : State) : Bool :=
  params.any (fun kv => match st.get? kv.1 with
    | some v => decide (v.shape ≠ kv.2.shape)
    | none => false)

/-- The value after `load_state_dict`. -/
def newVal (st : State) (kv : Name × Val) : Name × Val :=
  match st.get? kv.1 with
  | some v => (kv.1, v)
  | none => kv

/-- `load_state_dict(st, strict=False)`: other shapes are errors; otherwise every parameter in `st` is replaced. -/
def loadState (params st : State) : Res State :=
  if shapeMismatch params st then .error (.other "size mismatch") else .ok (params.map (newVal st))

/-- The missing keys which `load_state_dict` returns. -/
def missingOf (params st : State) : List Name := params.keys.filter (fun k => !st.contains k)

/-- Whether an entry is used (engine.py 922-944). -/
def active (t : Task) (e : Entry) : Res Bool :=
  match e.init with
  | .no => .ok (!t.training)
  | .yes => .ok t.first
  | .always => .ok true
  | .bad => .error .valueError

/-- Adding the prefix (engine.py 963-969). -/
def addPrefix (p : Name) (st : State) : State := if p = [] then st else st.map (fun kv => (p ++ kv.1, kv.2))

/-- Whether a key is to be ignored (engine.py 970-975). -/
def ignored (e : Entry) (k : Name) : Bool := e.ignoreParams.contains k || e.ignorePrefixes.any (fun q => q.isPrefixOf k)

/-- One renaming: `state[new] = state.pop(old)` (engine.py 980-981). -/
def rename (st : State) (m : Name × Name) : Res State := do
  let v ← st.getItem m.2
  .ok ((st.erase m.2).set m.1 v)

/-- The state which is loaded for an entry with file (engine.py 955-981). -/
def prepared (e : Entry) (file : Res State) : Res State := do
  let st ← file
  let st := (addPrefix e.prefix_ st).filter (fun kv => !ignored e kv.1)
  e.mapping.foldlM rename st

/-- The keys of the model with the prefix of the entry (engine.py 995-1004). -/
def prefixKeys (e : Entry) (params : State) : List Name := params.keys.filter (fun k => e.prefix_.isPrefixOf k)

/-- The parameters which are always loaded from this entry (engine.py 982-984). -/
def addIgnore (e : Entry) (params st : State) (ignore : List Name) : List Name :=
  if e.init = .always then ignore ++ st.keys.filter (fun k => params.contains k) else ignore

/-- The missing keys after an entry (engine.py 985-1018).  `loaded` already has the keys of the entry. -/
def addMissing (e : Entry) (params st : State) (loaded missing : List Name) : List Name :=
  let left := missing.filter (fun k => !st.contains k)
  if e.ignoreMissing then left
  else left ++ (prefixKeys e params).filter (fun k => !st.contains k && !loaded.contains k)

/-- An entry with file, after preparation (engine.py 982-1025). -/
def loadEntry (e : Entry) (st : State) (l : L) : Res L := do
  let ignore := addIgnore e l.params st l.ignore
  let params ← loadState l.params st
  let loaded := l.loaded ++ st.keys
  if (prefixKeys e params).isEmpty && !e.prefix_.isEmpty then .error (.other "No keys with prefix found in model")
  else if !(prefixKeys e params).any (fun k => st.contains k) then .error (.other "No keys with prefix found in preload model state")
  else .ok { params := params, loaded := loaded, missing := addMissing e params st loaded l.missing, ignore := ignore }

/-- An entry without file (engine.py 945-954): matching parameters need not be loaded. -/
def skipRandom (e : Entry) (l : L) : L :=
  { l with missing := l.missing.filter (fun k => !(e.pattern k && l.params.contains k)) }

/-- An entry which is used. -/
def useEntry (e : Entry) (l : L) : Res L :=
  match e.src with
  | none => .ok (skipRandom e l)
  | some file => do
    let st ← prepared e file
    loadEntry e st l

/-- One entry (engine.py 922-1025). -/
def step (t : Task) (l : L) (e : Entry) : Res L := do
  let a ← active t e
  if a then useEntry e l else .ok l

/-- The main checkpoint (engine.py 889-908). -/
def loadMain (net : Net) : Option State → Res L
  | none => .ok { params := net.init, loaded := [], missing := [], ignore := [] }
  | some st => do
    let params ← loadState net.init st
    .ok { params := params, loaded := st.keys, missing := missingOf net.init st, ignore := [] }

/-- `reversed(sorted(preload_from_files.items()))` (engine.py 922). -/
def order (es : List Entry) : List Entry := (stableSort (fun a b => decide (a.key ≤ b.key)) es).reverse

/-- The end: always loaded parameters become buffers, and missing keys are errors (engine.py 1027-1049). -/
def finish (net : Net) (l : L) : Res L :=
  if l.ignore.any (fun k => !net.isParam k) then .error .valueError
  else if (l.missing.filter (fun k => !net.nonCritical.contains k)).isEmpty then .ok l
  else .error (.other "Any missing key is an error.")

/-- `_load_model` (engine.py 847-1049): the parameters in the end, and those which are not trained and not saved. -/
def load (net : Net) (t : Task) (main : Option State) (es : List Entry) : Res (State × List Name) := do
  let l ← loadMain net main
  let l ← (order es).foldlM (step t) l
  let l ← finish net l
  .ok (l.params, l.ignore)

/-- The model state in a checkpoint (engine.py 1128-1140): all but the always loaded parameters. -/
def saved (params : State) (ignore : List Name) : State := params.filter (fun kv => !ignore.contains kv.1)

end Verif.LoadModel
