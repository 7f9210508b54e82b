import Verif.LearningRate.Model
/-
Model of saving and loading the learning rate file: `returnn/learning_rate_control.py:24-77, 509-534` and
`returnn/util/basic.py:1145-1173, 1230-1239` (`better_repr`, `dict_joined`).

Simplifications: the text of the file is modelled by its syntax tree (`Expr`); that Python parses the text of a literal
back to the literal is trusted. White space (the two dict layouts of `better_repr`) is left out. Of the Python values, `None`,
bool, int, float, str, list, tuple and dict with string keys are modelled (no set, deque, numpy scalars).
-/
namespace Verif.LearningRate.Save
open Verif.Py Verif.LearningRate

/-- A Python float. -/
inductive PyFloat where
  | fin (q : ℚ)
  | nan
  | inf
  | negInf
deriving DecidableEq, Repr

/-- A Python value. -/
inductive PyVal where
  | none
  | bool (b : Bool)
  | int (i : Int)
  | float (f : PyFloat)
  | str (s : String)
  | list (l : List PyVal)
  | tuple (l : List PyVal)
  | dict (l : List (String × PyVal))

/-- The syntax tree of what is written. `raw s` is a piece of text which is not a literal: what Python makes of it depends
on the text. -/
inductive Expr where
  | none
  | bool (b : Bool)
  | int (i : Int)
  | num (q : ℚ)
  | floatCall (f : PyFloat)
  | name (f : PyFloat)
  | str (s : String)
  | raw (s : String)
  | list (l : List Expr)
  | tuple (l : List Expr)
  | dict (l : List (String × Expr))

/-- `repr` of a float: NaN and the infinities are written as names. -/
def floatRepr : PyFloat → Expr
  | .fin q => .num q
  | f => .name f

/-- util/basic.py:1170-1173: floats in `better_repr`. -/
def betterFloat : PyFloat → Expr
  | .fin q => .num q
  | f => .floatCall f

mutual
/-- Python's builtin `repr` (which `str` of a container uses, too): NaN and the infinities are written as names. -/
def pyRepr : PyVal → Expr
  | .none => .none
  | .bool b => .bool b
  | .int i => .int i
  | .float f => floatRepr f
  | .str s => .str s
  | .list l => .list (pyReprs l)
  | .tuple l => .tuple (pyReprs l)
  | .dict l => .dict (pyReprItems l)
/-- The elements of a list or tuple. -/
def pyReprs : List PyVal → List Expr
  | [] => []
  | v :: l => pyRepr v :: pyReprs l
/-- The items of a dict. -/
def pyReprItems : List (String × PyVal) → List (String × Expr)
  | [] => []
  | (k, v) :: l => (k, pyRepr v) :: pyReprItems l
end

/-- Python's `str`: as `repr`, but a string itself is written without quotes. -/
def pyStr : PyVal → Expr
  | .str s => .raw s
  | v => pyRepr v

/-- util/basic.py:1158-1161: a tuple of one element is formatted by `%s`, others by `better_repr` of the elements. -/
def betterTuple : List PyVal → List Expr → List Expr
  | [v], _ => [pyStr v]
  | _, r => r

/-- `sorted(o.items())` for distinct string keys: by key. -/
def sortItems {V : Type} (l : List (String × V)) : List (String × V) := stableSort (fun a b => decide (a.1 ≤ b.1)) l

mutual
/-- util/basic.py:1145-1173 `better_repr`.
The items of a dict are sorted by their keys here after formatting the values, which is the same. -/
def betterRepr : PyVal → Expr
  | .none => .none
  | .bool b => .bool b
  | .int i => .int i
  | .float f => betterFloat f
  | .str s => .str s
  | .list l => .list (betterReprs l)
  | .tuple l => .tuple (betterTuple l (betterReprs l))
  | .dict l => .dict (sortItems (betterReprItems l))
/-- The elements of a list or tuple. -/
def betterReprs : List PyVal → List Expr
  | [] => []
  | v :: l => betterRepr v :: betterReprs l
/-- The items of a dict. -/
def betterReprItems : List (String × PyVal) → List (String × Expr)
  | [] => []
  | (k, v) :: l => (k, betterRepr v) :: betterReprItems l
end

mutual
/-- learning_rate_control.py:534: Python's `eval` on the syntax tree; `nan` and `inf` are names in its environment.
`evalRaw` is what Python does with non-literal text. -/
def eval (evalRaw : String → Res PyVal) : Expr → Res PyVal
  | .none => .ok .none
  | .bool b => .ok (.bool b)
  | .int i => .ok (.int i)
  | .num q => .ok (.float (.fin q))
  | .floatCall f => .ok (.float f)
  | .name f => .ok (.float f)
  | .str s => .ok (.str s)
  | .raw s => evalRaw s
  | .list l => do
    let r ← evals evalRaw l
    pure (.list r)
  | .tuple l => do
    let r ← evals evalRaw l
    pure (.tuple r)
  | .dict l => do
    let r ← evalItems evalRaw l
    pure (.dict r)
/-- The elements of a list or tuple. -/
def evals (evalRaw : String → Res PyVal) : List Expr → Res (List PyVal)
  | [] => .ok []
  | x :: l => do
    let v ← eval evalRaw x
    let r ← evals evalRaw l
    pure (v :: r)
/-- The items of a dict. -/
def evalItems (evalRaw : String → Res PyVal) : List (String × Expr) → Res (List (String × PyVal))
  | [] => .ok []
  | (k, x) :: l => do
    let v ← eval evalRaw x
    let r ← evalItems evalRaw l
    pure ((k, v) :: r)
end

/-- learning_rate_control.py:24-69 `EpochData`. -/
structure EpochData where
  lr : PyFloat
  error : Dict String PyVal
  info : Dict String PyVal  -- `meta`

/-- The prefix of lines 62-66, 76. -/
def metaPrefix : String := ":meta:"

/-- learning_rate_control.py:76: `f":meta:{k}"`. -/
def addMeta (k : String) : String := metaPrefix ++ k

/-- learning_rate_control.py:62: `k[len(":meta:"):]`. -/
def dropMeta (k : String) : String := String.ofList (k.toList.drop metaPrefix.length)

/-- learning_rate_control.py:62: `k.startswith(":meta:")`. -/
def isMeta (k : String) : Bool := startsWith metaPrefix k

/-- util/basic.py:1230-1239 `dict_joined` of two dicts, in learning_rate_control.py:76. -/
def joined (x : EpochData) : Dict String PyVal :=
  updateDict (updateDict [] x.error) (x.info.map (fun p => (addMeta p.1, p.2)))

/-- The syntax tree of one epoch: `EpochData(learningRate=..., error=...)`. -/
structure EpochExpr where
  lr : Expr
  error : Expr

/-- learning_rate_control.py:71-77 `EpochData.__repr__`. -/
def reprEpoch (x : EpochData) : EpochExpr := ⟨betterRepr (.float x.lr), betterRepr (.dict (joined x))⟩

/-- learning_rate_control.py:31-69: the constructor, called by keywords `learningRate` and `error` (so that `meta` is
`None`). A float `error` is the old format. -/
def mkEpoch (lr error : PyVal) : Res EpochData :=
  match lr with
  | .float f =>
    let split (err : Dict String PyVal) : Res EpochData :=
      .ok ⟨f, err.filter (fun p => !isMeta p.1),
        (err.filter (fun p => isMeta p.1)).foldl (fun d p => d.set (dropMeta p.1) p.2) []⟩
    match error with
    | .float s => split [("old_format_score", .float s)]
    | .none => split []
    | .dict err => split err
    | _ => .error .typeError
  | _ => .error .typeError

/-- learning_rate_control.py:524: `better_repr(self.epoch_data)`: sorted by epoch. -/
def reprData (d : Dict Int EpochData) : List (Int × EpochExpr) :=
  (stableSort (fun a b => decide (a.1 ≤ b.1)) d).map (fun p => (p.1, reprEpoch p.2))

/-- learning_rate_control.py:529-534 `load`: evaluate the dict of epochs. -/
def loadData (evalRaw : String → Res PyVal) : List (Int × EpochExpr) → Res (Dict Int EpochData)
  | [] => .ok []
  | (e, x) :: l => do
    let lr ← eval evalRaw x.lr
    let err ← eval evalRaw x.error
    let v ← mkEpoch lr err
    let r ← loadData evalRaw l
    pure ((e, v) :: r)

/-! ### The file system side of `save` -/

/-- The two files: `self.filename` and `self.filename + ".new_tmp"`. -/
structure Files where
  main : Option (List Char)
  tmp : Option (List Char)

/-- Where `save` is (lines 523-527). -/
inductive Phase where
  | idle
  | writing (written : Nat)
  | closed
deriving DecidableEq, Repr

/-- Files, where the running `save` is, and the text it saves. -/
structure FsState where
  files : Files
  phase : Phase
  text : List Char

/-- What can happen. `begin`: `open(tmp, "w")` truncates. `flush n`: buffered data gets to disk up to position `n`.
`close`: the rest is flushed. `rename`. `crash`: the process dies or gets an error (disk full); a new process starts. -/
inductive FsEvent where
  | begin (text : List Char)
  | flush (n : Nat)
  | close
  | rename
  | crash
deriving DecidableEq, Repr

/-- learning_rate_control.py:522-527. -/
def fsStep (s : FsState) : FsEvent → Option FsState
  | .begin text =>
    if s.phase = .idle then some ⟨⟨s.files.main, some []⟩, .writing 0, text⟩ else none
  | .flush n =>
    match s.phase with
    | .writing m =>
      if m ≤ n ∧ n ≤ s.text.length then some ⟨⟨s.files.main, some (s.text.take n)⟩, .writing n, s.text⟩ else none
    | _ => none
  | .close =>
    match s.phase with
    | .writing _ => some ⟨⟨s.files.main, some s.text⟩, .closed, s.text⟩
    | _ => none
  | .rename =>
    match s.phase with
    | .closed => some ⟨⟨s.files.tmp, none⟩, .idle, s.text⟩
    | _ => none
  | .crash => some ⟨s.files, .idle, s.text⟩

/-- All events in order. -/
def fsRun : FsState → List FsEvent → Option FsState
  | s, [] => some s
  | s, ev :: l => (fsStep s ev).bind (fun s => fsRun s l)

end Verif.LearningRate.Save
