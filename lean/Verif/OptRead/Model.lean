import Verif.Util.Py
import Verif.Util.Dict
/-
Model of options whose reads are tracked (`CollectionReadCheckCovered`, `returnn/util/basic.py`).

Simplification: keys are strings; the set of read keys is a list.
-/
namespace Verif.OptRead
open Verif Verif.Py

/-- /repo/returnn/util/basic.py:2724-2734. -/
structure Opts (V : Type) where
  collection : Dict String V
  truth : Bool
  got : List String

/-- `__init__`, /repo/returnn/util/basic.py:2724-2734. -/
def init {V : Type} (c : Dict String V) (truth : Option Bool) : Opts V :=
  { collection := c, truth := (match truth with | none => !c.isEmpty | some b => b), got := [] }

/-- The values which `from_bool_or_dict` gets. -/
inductive Arg (V : Type)
  | bool (b : Bool)
  | dict (d : Dict String V)
  | other

/-- `from_bool_or_dict`, /repo/returnn/util/basic.py:2738-2747. -/
def fromBoolOrDict {V : Type} : Arg V → Res (Opts V)
  | .bool b => .ok (init [] (some b))
  | .dict d => .ok (init d none)
  | .other => .error .typeError

/-- `__getitem__`, /repo/returnn/util/basic.py:2749-2752: what comes back, and the new state. -/
def getItem {V : Type} (o : Opts V) (k : String) : Res V × Opts V :=
  match Dict.get? o.collection k with
  | none => (.error .keyError, o)
  | some v => (.ok v, { o with got := k :: o.got })

/-- `get`, /repo/returnn/util/basic.py:2754-2763. -/
def get {V : Type} (o : Opts V) (k : String) (dflt : V) : V × Opts V :=
  match (getItem o k).1 with
  | .ok v => (v, (getItem o k).2)
  | .error _ => (dflt, (getItem o k).2)

/-- `__iter__` where the consumer takes the items of the given keys, /repo/returnn/util/basic.py:2773-2775. -/
def iterKeys {V : Type} (o : Opts V) : List String → List V × Opts V
  | [] => ([], o)
  | k :: ks =>
    match (getItem o k).1 with
    | .error _ => ([], o)
    | .ok v => (v :: (iterKeys (getItem o k).2 ks).1, (iterKeys (getItem o k).2 ks).2)

/-- The consumer stops after `n` items. -/
def iter {V : Type} (o : Opts V) (n : Nat) : List V × Opts V := iterKeys o ((o.collection.map Prod.fst).take n)

/-- `__bool__`, /repo/returnn/util/basic.py:2765-2766. -/
def toBool {V : Type} (o : Opts V) : Bool := o.truth

/-- `__len__`, /repo/returnn/util/basic.py:2770-2771. -/
def len {V : Type} (o : Opts V) : Nat := o.collection.length

/-- `set(self.collection).difference(self.got_items)`. -/
def remaining {V : Type} (o : Opts V) : List String := (o.collection.map Prod.fst).filter fun k => !decide (k ∈ o.got)

/-- `assert_all_read`, /repo/returnn/util/basic.py:2777-2782. -/
def assertAllRead {V : Type} (o : Opts V) : Res Unit := if (remaining o).isEmpty then .ok () else .error .assertion

/-- What a user does with it. -/
inductive Op (V : Type)
  | item (k : String)
  | get (k : String) (dflt : V)
  | iter (n : Nat)

def step {V : Type} (o : Opts V) : Op V → Opts V
  | .item k => (getItem o k).2
  | .get k d => (get o k d).2
  | .iter n => (iter o n).2

def steps {V : Type} (o : Opts V) (ops : List (Op V)) : Opts V := ops.foldl step o

end Verif.OptRead
