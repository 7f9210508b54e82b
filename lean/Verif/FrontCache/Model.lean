import Verif.Util.Dict
/-
Model of `Cache` of `returnn/frontend/_cache.py`, and of `sinusoidal_positional_encoding`, which uses it (`returnn/frontend/attention.py`).

Simplifications for the whole file:
* an eager backend (so there is no run context in the keys), the same backend for everything;
* dims and tensors are numbers, their identities; `==` of dims is identity (no `mark_as_equal`); what is known about the size of a dim does not change during its life;
* key items which are no dims and no tensors are numbers, equal when Python says so; hashes of different things are different;
* a value is something opaque together with the list of all dims in it; the nested structure is left out;
* the least recently used logic: an entry is not moved when it is read (`cache_peek`); the lists of the linked implementation are in `Verif.Lru`.
-/
namespace Verif.FrontCache
open Verif Verif.Py

/-- A part of a key. -/
inductive Item where
  | raw (v : Nat)
  | tensor (id rawId : Nat)
  | dim (id : Nat)
deriving DecidableEq

/-- What is known of dims: the size, when static or a scalar (`_dim_value_for_key`), and the tensor of sizes. /repo/returnn/frontend/_cache.py:198-206. -/
structure World where
  size : Nat → Option Nat
  dyn : Nat → Option Nat

/-- `TensorWrapper`, `DimWrapper`, or anything else. /repo/returnn/frontend/_cache.py:144-195. -/
inductive W where
  | raw (v : Nat)
  | tensor (id rawId : Nat)
  | dim (value : Option Nat) (id : Nat) (dyn : Option Nat)
deriving DecidableEq

/-- `_transform_key_item`; a second wrapper of the same dim is the same. /repo/returnn/frontend/_cache.py:120-133, 166-184. -/
def wrap (w : World) : Item → W
  | .raw v => .raw v
  | .tensor i r => .tensor i r
  | .dim d => .dim (w.size d) d (match w.size d with | some _ => none | none => w.dyn d)

/-- `_transform_key`. /repo/returnn/frontend/_cache.py:102-117. -/
def transform (w : World) (key : List Item) : List W := key.map (wrap w)

/-- `__hash__`: equal for these. /repo/returnn/frontend/_cache.py:157-158, 184, 193-194. -/
def hashEq : W → W → Bool
  | .raw a, .raw b => decide (a = b)
  | .tensor a _, .tensor b _ => decide (a = b)
  | .dim (some a) _ _, .dim (some b) _ _ => decide (a = b)
  | .dim none a _, .dim none b _ => decide (a = b)
  | _, _ => false

/-- `__eq__`: of something in the cache with something new. Without a tensor of sizes `dyn_size_ref` is None, and a call of it an error. /repo/returnn/frontend/_cache.py:152-155, 186-191. -/
def eqW : W → W → Res Bool
  | .raw a, .raw b => .ok (decide (a = b))
  | .tensor a r, .tensor b s => .ok (decide (a = b) && decide (r = s))
  | .dim (some a) _ _, .dim v _ _ => .ok (decide (some a = v))
  | .dim none a r, .dim _ b s =>
    if a = b then
      match r, s with
      | some r, some s => .ok (decide (r = s))
      | _, _ => .error .typeError
    else .ok false
  | _, _ => .ok false

/-- The hashes of two tuples are equal. -/
def hashEqs : List W → List W → Bool
  | [], [] => true
  | a :: s, b :: t => hashEq a b && hashEqs s t
  | _, _ => false

/-- Equality of tuples, from the left. -/
def eqs : List W → List W → Res Bool
  | [], [] => .ok true
  | a :: s, b :: t =>
    match eqW a b with
    | .error e => .error e
    | .ok false => .ok false
    | .ok true => eqs s t
  | _, _ => .ok false

/-- A value with all its dims. -/
structure Val where
  payload : Nat
  dims : List Nat
deriving DecidableEq

/-- The cache: entries, the oldest first, and the dims which are not alive any more. -/
structure Cache where
  maxSize : Nat
  entries : List (List W × Val)
  dead : List Nat

/-- The entry of a key. -/
def find : List (List W × Val) → List W → Res (Option (List W × Val))
  | [], _ => .ok none
  | e :: t, k =>
    if hashEqs e.1 k then
      match eqs e.1 k with
      | .error err => .error err
      | .ok true => .ok (some e)
      | .ok false => find t k
    else find t k

/-- `dim_map`, from the dims of the entry to those of the key. /repo/returnn/frontend/_cache.py:57-64. -/
def dimMap (dead : List Nat) : List W → List W → Dict Nat Nat → Res (Dict Nat Nat)
  | .dim _ a _ :: s, .dim _ b _ :: t, m => if a ∈ dead then .error .assertion else dimMap dead s t (m.set a b)
  | .dim _ _ _ :: _, _ :: _, _ => .error .assertion
  | _ :: s, _ :: t, m => dimMap dead s t m
  | _, _, m => .ok m

/-- `_map_output`. /repo/returnn/frontend/_cache.py:67-77. -/
def mapOutput (m : Dict Nat Nat) (v : Val) : Val := { v with dims := v.dims.map (fun d => (m.get? d).getD d) }

/-- `Cache.get`. /repo/returnn/frontend/_cache.py:45-79. -/
def get (w : World) (c : Cache) (key : List Item) : Res (Option Val) :=
  match find c.entries (transform w key) with
  | .error e => .error e
  | .ok none => .ok none
  | .ok (some e) =>
    match dimMap c.dead e.1 (transform w key) [] with
    | .error err => .error err
    | .ok m => .ok (some (mapOutput m e.2))

/-- `Cache.set`, with `_cache_insert`: a key which is there already keeps its value; the oldest one goes when it is full. /repo/returnn/frontend/_cache.py:81-95, /repo/returnn/util/lru_cache.py:108-144. -/
def set (w : World) (c : Cache) (key : List Item) (v : Val) : Res Cache :=
  match find c.entries (transform w key) with
  | .error e => .error e
  | .ok (some _) => .ok c
  | .ok none =>
    if c.maxSize = 0 then .ok c else
    let es := if c.entries.length < c.maxSize then c.entries else c.entries.drop 1
    .ok { c with entries := es ++ [(transform w key, v)] }

/-- A dim whose wrapper has no value: the finalizer is only there for these. /repo/returnn/frontend/_cache.py:175-176. -/
def refersTo (d : Nat) : W → Bool
  | .dim none a _ => decide (a = d)
  | _ => false

/-- Nothing else has a reference to dim `d` any more: it dies, except when a value of the cache has it, and the finalizer takes out entries. /repo/returnn/frontend/_cache.py:87-88, 175-176. -/
def die (c : Cache) (d : Nat) : Cache :=
  if c.entries.any (fun e => e.2.dims.contains d) then c
  else { c with entries := c.entries.filter (fun e => !e.1.any (refersTo d)), dead := d :: c.dead }

/-- How the cache is used: look, otherwise compute and set. /repo/returnn/frontend/attention.py:924-950, 986-1018. -/
def memo (w : World) (f : List Item → Val) (c : Cache) (key : List Item) : Res (Cache × Val) :=
  match get w c key with
  | .error e => .error e
  | .ok (some v) => .ok (c, v)
  | .ok none =>
    match set w c key (f key) with
    | .error e => .error e
    | .ok c' => .ok (c', f key)

/-- The key of `sinusoidal_positional_encoding`, with one number for offset, base, dtype and device. /repo/returnn/frontend/attention.py:985. -/
def posKey (spatial feat opts : Nat) : List Item := [.dim spatial, .dim feat, .raw opts]

/-- What `sinusoidal_positional_encoding` computes: the axes, and numbers which depend on the sizes and options. /repo/returnn/frontend/attention.py:991-1017. -/
def posEnc (table : Option Nat → Option Nat → Nat → Nat) (w : World) (singleStep : Nat) : List Item → Val
  | [.dim s, .dim f, .raw o] => if s = singleStep then ⟨table none (w.size f) o, [f]⟩ else ⟨table (w.size s) (w.size f) o, [s, f]⟩
  | _ => ⟨0, []⟩

end Verif.FrontCache
