import Verif.Util.Py
import Verif.Util.Dict
import Mathlib.Data.Rat.Defs
/-
Model of config.py (Config and the global config) and of `init_config` in __main__.py.

Strings are lists of characters. Typed values are as far as the accessors look at them; elements of lists are no lists again. `index` is not negative. Parts of Python which are not modelled
(`str` of numbers and objects, parsing of numbers, `eval`, running a Python file) are parameters.
-/
namespace Verif.ConfigPy
open Verif.Py

abbrev Str := List Char

/-- A value which is no list. `obj`: anything else (dict, function, ...). -/
inductive Atom where
  | none | bool (b : Bool) | int (i : Int) | flt (q : Rat) | str (s : Str) | obj (id : Nat)
deriving DecidableEq

/-- A value in `typed_dict`. -/
inductive Val where
  | at (a : Atom) | list (l : List Atom) | tuple (l : List Atom)
deriving DecidableEq

/-- Result of `eval(value)`: a value, SyntaxError, or any other exception. -/
inductive EvalRes where
  | ok (v : Val) | syntaxError | exc
deriving DecidableEq

/-- config.py 26-35: `typed_dict`, `dict`, `files`. -/
structure Cfg where
  typed : Dict Str Val
  untyped : Dict Str (List Str)
  files : List Str

def Cfg.empty : Cfg := ⟨[], [], []⟩

/-- The parts of Python which are parameters. `eval` runs in the scope of `add_line`: it sees `self`, `key` and `value`. `strAtom` is for numbers and objects, `strVal` for lists. -/
structure Python where
  eval : Cfg → Str → Str → EvalRes
  strAtom : Atom → Str
  strVal : Val → Str
  toInt : Str → Option Int
  toFloat : Str → Option Rat

/-- `str(a)`: of a string, itself. -/
def Python.str (P : Python) : Atom → Str
  | .str s => s
  | a => P.strAtom a

/-! ### Setting values -/

/-- `value.split(",")`. -/
def splitComma : Str → List Str
  | [] => [[]]
  | c :: s =>
    if c = ',' then [] :: splitComma s
    else match splitComma s with
      | [] => [[c]]
      | a :: l => (c :: a) :: l

/-- `sep.join(l)`. -/
def join (sep : Str) : List Str → Str
  | [] => []
  | [a] => a
  | a :: b :: l => a ++ sep ++ join sep (b :: l)

/-- 296-299: the value of an untyped option. `find(",") > 0`: there is a comma, and not at the start. -/
def untypedValue (v : Str) : List Str :=
  match v with
  | [] => [v]
  | c :: _ => if c = ',' then [v] else if v.contains ',' then splitComma v else [v]

def typeIsStr : Val → Bool
  | .at (.str _) => true
  | _ => false

/-- 274-295: overwriting a value which was typed before. -/
def typedLine (P : Python) (c : Cfg) (k v : Str) (old : Val) : Res Cfg :=
  if typeIsStr old then .ok { c with typed := c.typed.set k (.at (.str v)) }
  else match P.eval c k v with
    | .ok x => .ok { c with typed := c.typed.set k x }
    | .syntaxError => .ok { c with typed := c.typed.set k (.at (.str v)) }
    | .exc => .error (.other "eval")

def includeKey : Str := "include".toList

/-- 267-304 `add_line`. `load`: `load_file`. -/
def addLine (P : Python) (load : Cfg → Str → Res Cfg) (c : Cfg) (k v : Str) : Res Cfg :=
  match c.typed.get? k with
  | some old => typedLine P c k v old
  | none =>
    if k = includeKey then (untypedValue v).foldlM load c
    else .ok { c with untyped := c.untyped.set k (untypedValue v) }

/-- 355-360 `set`. -/
def Cfg.set (c : Cfg) (k : Str) (v : Val) : Cfg := { c with typed := c.typed.set k v }

/-- 362-367 `update`. -/
def Cfg.update (c : Cfg) (d : Dict Str Val) : Cfg := d.foldl (fun c kv => c.set kv.1 kv.2) c

/-- A config file. `py`: what running it does with the names (any function, may raise). `items`: JSON, or a module of a package. `text`: its lines. -/
inductive File where
  | py (run : Dict Str Val → Res (Dict Str Val))
  | items (d : Dict Str Val)
  | text (lines : List Str)

def isSpace (c : Char) : Bool := c = ' ' || c = '\t' || c = '\n' || c = '\r'

/-- `line.strip()`. -/
def strip (s : Str) : Str := ((s.dropWhile isSpace).reverse.dropWhile isSpace).reverse

/-- 133-143: one line of the old format: nothing, or key and value. -/
def parseLine (line : Str) : Res (Option (Str × Str)) :=
  let l := strip (line.takeWhile (· ≠ '#'))
  if l = [] then .ok none
  else
    let key := l.takeWhile (fun c => !isSpace c)
    let val := (l.dropWhile (fun c => !isSpace c)).dropWhile isSpace
    if val = [] then .error .assertion else .ok (some (key, val))

/-- 118-120: names which are always set for a Python file. -/
def setPyNames (d : Dict Str Val) (filename : Str) : Dict Str Val :=
  ((d.set "config".toList (.at (.obj 0))).set "__file__".toList (.at (.str filename))).set "__name__".toList (.at (.str "__returnn_config__".toList))

/-- 81-143 `load_file`. `fs`: the file system. `fuel`: depth of `include` (Python has its recursion limit). -/
def loadFile (P : Python) (fs : Str → Option File) : Nat → Cfg → Str → Res Cfg
  | 0, _, _ => .error (.other "recursion")
  | n + 1, c, f =>
    match fs f with
    | none => .error .assertion
    | some file =>
      let c : Cfg := { c with files := c.files ++ [f] }
      match file with
      | .py run => do
        let t ← run (setPyNames c.typed f)
        return { c with typed := t }
      | .items d => .ok (c.update d)
      | .text lines => lines.foldlM (fun c line => do
          match ← parseLine line with
          | none => return c
          | some (k, v) => addLine P (loadFile P fs n) c k v) c

/-- Command line after optparse: options which are set, in the order of their definition (`--config` is the last one), and the other arguments. -/
structure Cmd where
  opts : List (Str × Str)
  loadConfig : Option Str
  rest : List Str

/-- 263-264. -/
def cmdValue (v : Str) : Str := if v.take 2 = "+-".toList then v.drop 1 else v

/-- 259-265: the `++key value` pairs. -/
def restLines (P : Python) (load : Cfg → Str → Res Cfg) : List Str → Cfg → Res Cfg
  | [], c => .ok c
  | [_], _ => .error .assertion
  | k :: v :: rest, c => do
    if k.take 2 ≠ "++".toList then throw .assertion
    let c ← addLine P load c (k.drop 2) (cmdValue v)
    restLines P load rest c

/-- A file name which may be missing. -/
def loadOpt (load : Cfg → Str → Res Cfg) (f : Option Str) (c : Cfg) : Res Cfg :=
  match f with
  | none => .ok c
  | some f => load c f

/-- 159-265 `parse_cmd_args` after optparse. -/
def parseCmd (P : Python) (load : Cfg → Str → Res Cfg) (cmd : Cmd) (c : Cfg) : Res Cfg := do
  let c ← cmd.opts.foldlM (fun c kv => addLine P load c kv.1 kv.2) c
  let c ← loadOpt load cmd.loadConfig c
  if cmd.rest.length % 2 ≠ 0 then throw .assertion
  restLines P load cmd.rest c

/-- __main__.py 94-103: arguments up to the first with "-" or "+" (or empty) are config files. -/
def splitFiles (args : List Str) : List Str × List Str :=
  let isFile : Str → Bool := fun a => match a with
    | [] => false
    | c :: _ => c ≠ '-' && c ≠ '+'
  (args.takeWhile isFile, args.dropWhile isFile)

/-- `if command_line_options: config.parse_cmd_args(...)`. -/
def parseCmdIf (P : Python) (load : Cfg → Str → Res Cfg) (optparse : List Str → Cmd) (args : List Str) (c : Cfg) : Res Cfg :=
  if args.isEmpty then .ok c else parseCmd P load (optparse args) c

/-- __main__.py 55-118 `init_config`. `optparse`: what optparse makes of the arguments. Without arguments, `parse_cmd_args` is not called. -/
def initConfig (P : Python) (fs : Str → Option File) (fuel : Nat) (optparse : List Str → Cmd) (filename : Option Str) (args : List Str) (dflt extra : Dict Str Val) : Res Cfg := do
  let load := loadFile P fs fuel
  let files := (splitFiles args).1
  let args := (splitFiles args).2
  let c := (Cfg.empty.update dflt).update extra
  let c ← parseCmdIf P load optparse args c
  let c ← loadOpt load filename c
  let c ← files.foldlM load c
  parseCmdIf P load optparse args (c.update extra)

/-! ### Reading values -/

def Cfg.has (c : Cfg) (k : Str) : Bool := c.typed.contains k || c.untyped.contains k

/-- 385-409 `value`. -/
def Cfg.value (P : Python) (c : Cfg) (k : Str) (default : Val) (index : Option Nat) (sep : Str) : Res Val :=
  match c.typed.get? k with
  | some ls =>
    match index with
    | none =>
      match ls with
      | .list l => .ok (.at (.str (join sep (l.map P.str))))
      | .tuple l => .ok (.at (.str (join sep (l.map P.str))))
      | .at .none => .ok default
      | .at a => .ok (.at (.str (P.str a)))
    | some i =>
      match ls with
      | .list l | .tuple l =>
        match l[i]? with
        | some a => .ok (.at (.str (P.str a)))
        | none => .error .indexError
      | .at (.str s) =>
        match s[i]? with
        | some ch => .ok (.at (.str [ch]))
        | none => .error .indexError
      | _ => .error .typeError
  | none =>
    match c.untyped.get? k with
    | some ls =>
      match index with
      | none => .ok (.at (.str (join sep ls)))
      | some i =>
        match ls[i]? with
        | some s => .ok (.at (.str s))
        | none => .error .indexError
    | none => .ok default

/-- 417-424: the index into a typed value. -/
def indexVal (v : Val) (i : Nat) : Res Val :=
  match v with
  | .list l | .tuple l =>
    match l[i]? with
    | some a => .ok (.at a)
    | none => .error .indexError
  | .at a => if i = 0 then .ok (.at a) else .error .assertion

/-- 411-424 `typed_value`. -/
def Cfg.typedValue (c : Cfg) (k : Str) (default : Val) (index : Option Nat) : Res Val :=
  match index with
  | none => .ok ((c.typed.get? k).getD default)
  | some i => indexVal ((c.typed.get? k).getD default) i

/-- `isinstance(v, int)` (a bool is an int). -/
def isInt : Val → Bool
  | .at (.int _) | .at (.bool _) => true
  | _ => false

/-- `value is not None`, then an assertion. -/
def assertOrNone (ok : Val → Bool) (v : Val) : Res Val := if v = .at .none then .ok v else if ok v then .ok v else .error .assertion

/-- `int(s)`. -/
def parseInt (P : Python) (v : Val) : Res Val :=
  match v with
  | .at (.str s) =>
    match P.toInt s with
    | some i => .ok (.at (.int i))
    | none => .error .valueError
  | _ => .error .typeError

/-- 435-450 `int`. -/
def Cfg.int (P : Python) (c : Cfg) (k : Str) (default : Val) (index : Nat := 0) : Res Val := do
  if c.typed.contains k then
    let v ← c.typedValue k default (some index)
    assertOrNone isInt v
  else if c.untyped.contains k then
    let v ← c.value P k default (some index) []
    parseInt P v
  else return default

def lower (s : Str) : Str := s.map Char.toLower

/-- util/basic.py 2533-2548 `to_bool` of a string. -/
def toBool (P : Python) (s : Str) : Res Bool :=
  match P.toInt s with
  | some i => .ok (i ≠ 0)
  | none =>
    if lower s ∈ ["true".toList, "yes".toList, "on".toList, "1".toList] then .ok true
    else if lower s ∈ ["false".toList, "no".toList, "off".toList, "0".toList] then .ok false
    else .error .valueError

/-- `if isinstance(value, int): value = bool(value)`. -/
def intToBool : Val → Val
  | .at (.int i) => .at (.bool (i ≠ 0))
  | v => v

def isBool : Val → Bool
  | .at (.bool _) => true
  | _ => false

/-- 468-474: an untyped value as bool. -/
def untypedBool (P : Python) (default : Val) (v : Val) : Res Val :=
  match v with
  | .at (.str []) => .ok default
  | .at (.str s) => (toBool P s).map (fun b => .at (.bool b))
  | _ => .error .typeError

/-- 452-474 `bool`. -/
def Cfg.bool (P : Python) (c : Cfg) (k : Str) (default : Val) (index : Nat := 0) : Res Val := do
  if c.typed.contains k then
    let v ← c.typedValue k default (some index)
    assertOrNone isBool (intToBool v)
  else if c.untyped.contains k then
    let v ← c.value P k (.at .none) (some index) []
    untypedBool P default v
  else return default

/-- `bool(v)`. -/
def truth : Val → Bool
  | .at .none => false
  | .at (.bool b) => b
  | .at (.int i) => i ≠ 0
  | .at (.flt q) => q ≠ 0
  | .at (.str s) => s ≠ []
  | .at (.obj _) => true
  | .list l => l ≠ []
  | .tuple l => l ≠ []

/-- 324-332 `is_true`. -/
def Cfg.isTrue (P : Python) (c : Cfg) (k : Str) (default : Bool := false) : Res Val :=
  match c.typed.get? k with
  | some v => .ok (.at (.bool (truth v)))
  | none => c.bool P k (.at (.bool default))

def isNumber : Val → Bool
  | .at (.int _) | .at (.bool _) | .at (.flt _) => true
  | _ => false

/-- 509-514: `float(value)` of a string. -/
def castFloat (P : Python) : Val → Res Val
  | .at (.str s) =>
    match P.toFloat s with
    | some q => .ok (.at (.flt q))
    | none => .error .valueError
  | v => .ok v

/-- 497-515 `float`. -/
def Cfg.float (P : Python) (c : Cfg) (k : Str) (default : Val) (index : Nat := 0) : Res Val := do
  let v ← if c.typed.contains k then c.typedValue k default (some index) else c.value P k default (some index) []
  let v ← castFloat P v
  assertOrNone isNumber v

/-- 524-531 etc.: a typed value as list; `none` for None. -/
def asList : Val → Option (List Atom)
  | .at .none => none
  | .at a => some [a]
  | .list l => some l
  | .tuple l => some l

/-- 517-533 `list`. `default` None is the empty list. -/
def Cfg.list (c : Cfg) (k : Str) (default : List Atom) : List Atom :=
  match c.typed.get? k with
  | some v => (asList v).getD default
  | none =>
    match c.untyped.get? k with
    | some l => l.map Atom.str
    | none => default

/-- `int(x)` of an element. -/
def atomToInt (P : Python) : Atom → Res Int
  | .str s => match P.toInt s with
    | some i => .ok i
    | none => .error .valueError
  | .int i => .ok i
  | .bool b => .ok (if b then 1 else 0)
  | _ => .error .typeError

def atomIsInt : Atom → Bool
  | .int _ | .bool _ => true
  | _ => false

/-- 535-551 `int_list`. -/
def Cfg.intList (P : Python) (c : Cfg) (k : Str) (default : List Atom) : Res (List Atom) :=
  match c.typed.get? k with
  | some v =>
    match asList v with
    | none => .ok default
    | some l => if l.all atomIsInt then .ok l else .error .assertion
  | none => (c.list k default).mapM (fun a => (atomToInt P a).map Atom.int)

/-! ### Copies and the global config -/

/-- 37-79 `__getstate__` and `__setstate__`: only `typed_dict` is pickled. -/
def Cfg.copy (c : Cfg) : Cfg := { Cfg.empty with typed := c.typed }

/-- The global state: `_global_config`, whether TensorFlow is imported, and the attribute on its default graph. `C` are config objects. -/
structure Glob (C : Type) where
  cur : Option C
  tf : Bool
  graph : Option C
deriving DecidableEq

/-- 613-621, 659-679 `set_global_config`. -/
def Glob.set {C : Type} (g : Glob C) (c : Option C) : Glob C := { g with cur := c, graph := if g.tf then c else g.graph }

/-- 624-656 `get_global_config`, as far as the state decides. -/
def Glob.get {C : Type} (g : Glob C) : Option C := (if g.tf then g.graph else none).or g.cur

/-- 599-610 `global_config_ctx` around a body. The body maps the state and may raise; `finally` runs in any case. -/
def Glob.ctx {C E A : Type} (g : Glob C) (c : Option C) (body : Glob C → Except E A × Glob C) : Except E A × Glob C :=
  let r := body (g.set c)
  (r.1, { r.2 with cur := g.cur })

end Verif.ConfigPy
