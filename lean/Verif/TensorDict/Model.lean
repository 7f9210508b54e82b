import Verif.Util.Dict
/-
Model of `TensorDict` of `returnn/tensor/tensor_dict.py`: raw tensors with all dynamic sizes, to a plain dict and back.

Simplifications for the whole file:
* raw tensors are numbers; dims are numbers, `==` is identity; of a dim there is: whether it is the batch dim, the static size, and the tensor of sizes (scalar or not, and its raw tensor);
* `get_dim_value` of a batch dim without sizes is given from outside (it may be an error), and types of values (`expected_value_type`) are not checked;
* caches and derived dims, which `reset_raw` also handles, are left out.
-/
namespace Verif.TensorDict
open Verif Verif.Py

/-- A raw value: None, a raw tensor, or a Python int. -/
inductive Raw where
  | none
  | tensor (id : Nat)
  | int (n : Nat)
deriving DecidableEq

/-- `dyn_size_ext`. -/
structure Ext where
  scalar : Bool
  raw : Raw
deriving DecidableEq

/-- A dim. -/
structure D where
  isBatch : Bool
  size : Option Nat
  ext : Option Ext
deriving DecidableEq

/-- All dims. -/
abbrev Heap := Nat → D

/-- Names; the text `f"{key}:size{i}"` is the function `sizeKey`. -/
abbrev K := List Nat

/-- A tensor: raw tensor and dims. -/
structure T where
  raw : Raw
  dims : List Nat
deriving DecidableEq

/-- `TensorDict.data`. -/
abbrev TD := Dict K T

/-- `update` with another dict: copies, which replace those of the same name. /repo/returnn/tensor/tensor_dict.py:32-53. -/
def update (td : TD) : List (K × T) → TD
  | [] => td
  | (k, v) :: t => update (td.set k v) t

/-- The dims of one tensor, those which are new. /repo/returnn/tensor/tensor_dict.py:170-174. -/
def addDims (out : List Nat) : List Nat → List Nat
  | [] => out
  | d :: t => addDims (if d ∈ out then out else out ++ [d]) t

/-- `all_dims`. /repo/returnn/tensor/tensor_dict.py:163-175. -/
def allDims (td : TD) : List Nat := td.foldl (fun out kv => addDims out kv.2.dims) []

/-- `reset_raw(only_self=True)`. /repo/returnn/tensor/_dim_extra.py:373-398. -/
def D.reset (d : D) : D := { d with ext := d.ext.map (fun e => { e with raw := .none }) }

/-- One step of `reset_content` over the dims. -/
def resetDim (h : Heap) (d : Nat) : Heap := fun x => if x = d then (h d).reset else h x

/-- `reset_content`. /repo/returnn/tensor/tensor_dict.py:61-72. -/
def resetContent (h : Heap) (td : TD) : Heap × TD := ((allDims td).foldl resetDim h, td.map (fun kv => (kv.1, { kv.2 with raw := .none })))

/-- A visit of the loops: a tensor, or one of its dims. -/
inductive Ev where
  | data (k : K) (raw : Raw)
  | size (k : K) (i : Nat) (d : Nat)
deriving DecidableEq

/-- The dims of a tensor, from axis `i` on; those seen before are skipped when `excl` is set. The loop is the same in both functions. /repo/returnn/tensor/tensor_dict.py:98-101, 125, 144-148, 161. -/
def dimEvents (excl : Bool) (k : K) : Nat → List Nat → List Nat → List Ev × List Nat
  | _, [], seen => ([], seen)
  | i, d :: t, seen =>
    if excl && decide (d ∈ seen) then dimEvents excl k (i + 1) t seen
    else
      let r := dimEvents excl k (i + 1) t (d :: seen)
      (.size k i d :: r.1, r.2)

/-- All visits. /repo/returnn/tensor/tensor_dict.py:90-98, 140-144. -/
def events (excl : Bool) : TD → List Nat → List Ev
  | [], _ => []
  | (k, v) :: t, seen =>
    let r := dimEvents excl k 0 v.dims seen
    .data k v.raw :: (r.1 ++ events excl t r.2)

/-- The options of `as_raw_tensor_dict`. -/
structure Opts where
  constSizes : Bool
  scalarDyn : Bool
  excludeDup : Bool

/-- What is written for a dim, if anything. /repo/returnn/tensor/tensor_dict.py:103-124. -/
def sizeValue (o : Opts) (batchValue : Nat → Res Raw) (h : Heap) (d : Nat) : Res (Option Raw) :=
  if (h d).isBatch && ((h d).ext.isNone || (h d).ext.any (fun e => decide (e.raw = .none))) then
    if o.scalarDyn then
      match batchValue d with
      | .ok v => .ok (some v)
      | .error e => .error e
    else .ok none
  else
    match (h d).ext, (h d).size with
    | some e, _ => if o.scalarDyn || !e.scalar then .ok (some e.raw) else .ok none
    | none, some n => if o.scalarDyn && o.constSizes then .ok (some (.int n)) else .ok none
    | none, none => .error (.other "cannot handle dim")

/-- One visit of `as_raw_tensor_dict`. /repo/returnn/tensor/tensor_dict.py:92-125. -/
def write (sizeKey : K → Nat → K) (o : Opts) (batchValue : Nat → Res Raw) (h : Heap) (out : Dict K Raw) : Ev → Res (Dict K Raw)
  | .data k raw => do
    pyAssert (!out.contains k)
    .ok (out.set k raw)
  | .size k i d => do
    pyAssert (!out.contains (sizeKey k i))
    match ← sizeValue o batchValue h d with
    | some v => .ok (out.set (sizeKey k i) v)
    | none => .ok out

/-- All visits, in order. -/
def writeAll (sizeKey : K → Nat → K) (o : Opts) (batchValue : Nat → Res Raw) (h : Heap) : List Ev → Dict K Raw → Res (Dict K Raw)
  | [], out => .ok out
  | e :: t, out => do
    let out ← write sizeKey o batchValue h out e
    writeAll sizeKey o batchValue h t out

/-- `as_raw_tensor_dict`. /repo/returnn/tensor/tensor_dict.py:78-126. -/
def asRaw (sizeKey : K → Nat → K) (o : Opts) (batchValue : Nat → Res Raw) (h : Heap) (td : TD) : Res (Dict K Raw) := do
  pyAssert (!(o.constSizes && !o.scalarDyn))
  writeAll sizeKey o batchValue h (events o.excludeDup td []) []

/-- The batch dim gets a scalar tensor of sizes when it has none. /repo/returnn/tensor/tensor_dict.py:149-151. -/
def D.prepared (d : D) : D := if d.isBatch && d.reset.ext.isNone then { d.reset with ext := some ⟨true, .none⟩ } else d.reset

/-- What a dim gets. /repo/returnn/tensor/tensor_dict.py:149-160. -/
def D.assigned (withScalar : Bool) (d : D) (given : Option Raw) : Res D :=
  match d.prepared.ext with
  | some e =>
    if !withScalar && e.scalar then .ok d.prepared
    else
      match given with
      | some v => .ok { d.prepared with ext := some { e with raw := v } }
      | none => .error .assertion
  | none =>
    match given, d.prepared.size with
    | some (.int n), some m => if m = n then .ok d.prepared else .error .assertion
    | some _, _ => .error .assertion
    | none, _ => .ok d.prepared

/-- One visit of `assign_from_raw_tensor_dict_`. /repo/returnn/tensor/tensor_dict.py:141-161. -/
def read (sizeKey : K → Nat → K) (withScalar : Bool) (raw : Dict K Raw) (s : TD × Heap) : Ev → Res (TD × Heap)
  | .data k _ =>
    match raw.get? k, s.1.get? k with
    | some v, some t => .ok (s.1.set k { t with raw := v }, s.2)
    | _, _ => .error .assertion
  | .size k i d =>
    match (s.2 d).assigned withScalar (raw.get? (sizeKey k i)) with
    | .ok d' => .ok (s.1, fun x => if x = d then d' else s.2 x)
    | .error e => .error e

/-- All visits, in order. -/
def readAll (sizeKey : K → Nat → K) (withScalar : Bool) (raw : Dict K Raw) : List Ev → TD × Heap → Res (TD × Heap)
  | [], s => .ok s
  | e :: t, s => do
    let s ← read sizeKey withScalar raw s e
    readAll sizeKey withScalar raw t s

/-- `assign_from_raw_tensor_dict_`. /repo/returnn/tensor/tensor_dict.py:128-161. -/
def assign (sizeKey : K → Nat → K) (withScalar excluded : Bool) (raw : Dict K Raw) (h : Heap) (td : TD) : Res (TD × Heap) :=
  readAll sizeKey withScalar raw (events excluded td []) (td, h)

end Verif.TensorDict
