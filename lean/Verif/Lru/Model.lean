import Verif.Util.Dict
/-
Model of `returnn/util/lru_cache.py` `_lru_cache_wrapper` (65-264) at the level of the linked list in the heap.
A link (a Python list `[PREV, NEXT, KEY, RESULT]`) is a heap cell with a number as its identity; `link.clear()` makes the
cell `none`, any later access to a field of it is an error. The keys here are the results of `_make_key`, which is modelled
at the end. `cache_parameters` and hash/eq side effects of keys are not modelled.
-/
namespace Verif.Lru
open Verif.Py

variable {K V : Type} [DecidableEq K]

/-- lru_cache.py 69: a link. -/
structure Node (K V : Type) where
  prev : Nat
  next : Nat
  key : Option K
  result : Option V

/-- The heap of links. -/
abbrev Heap (K V : Type) := Nat → Option (Node K V)

/-- Access to a link. -/
def deref (h : Heap K V) (i : Nat) : Res (Node K V) :=
  match h i with
  | some n => .ok n
  | none => .error .indexError

/-- Write a link. -/
def write (h : Heap K V) (i : Nat) (n : Option (Node K V)) : Heap K V := fun j => if j = i then n else h j

/-- `link[NEXT] = x`. -/
def setNext (h : Heap K V) (i x : Nat) : Res (Heap K V) := do
  let n ← deref h i
  .ok (write h i (some { n with next := x }))

/-- `link[PREV] = x`. -/
def setPrev (h : Heap K V) (i x : Nat) : Res (Heap K V) := do
  let n ← deref h i
  .ok (write h i (some { n with prev := x }))

/-- `link[KEY] = k; link[RESULT] = v`. -/
def setKV (h : Heap K V) (i : Nat) (k : Option K) (v : Option V) : Res (Heap K V) := do
  let n ← deref h i
  .ok (write h i (some { n with key := k, result := v }))

/-- lru_cache.py 71-80: the variables of the closure. `fresh` is the next unused link identity. -/
structure St (K V : Type) where
  heap : Heap K V
  fresh : Nat
  root : Nat
  cache : Dict K Nat
  hits : Nat
  misses : Nat
  full : Bool
  maxsize : Nat

/-- lru_cache.py 71-80. -/
def St.new (maxsize : Nat) : St K V where
  heap := fun i => if i = 0 then some ⟨0, 0, none, none⟩ else none
  fresh := 1
  root := 0
  cache := []
  hits := 0
  misses := 0
  full := false
  maxsize := maxsize

/-- The results of the API. -/
inductive Ret (V : Type) where
  | value (v : Option V)
  | miss
  | keyError
  | unit
  | info (hits misses maxsize size : Nat)
deriving DecidableEq

/-- lru_cache.py 82-102: the first part of a call of the wrapped function: a hit returns the result, else the user
function is called (`miss`), outside of the lock. -/
def lookup (s : St K V) (k : K) : Res (Ret V × St K V) :=
  match s.cache.get? k with
  | some i => do
    let n ← deref s.heap i
    let h ← setNext s.heap n.prev n.next
    let h ← setPrev h n.next n.prev
    let last := (← deref h s.root).prev
    let h ← setNext h last i
    let h ← setPrev h s.root i
    let h ← setPrev h i last
    let h ← setNext h i s.root
    .ok (.value n.result, { s with heap := h, hits := s.hits + 1 })
  | none => .ok (.miss, { s with misses := s.misses + 1 })

/-- lru_cache.py 108-144 `_cache_insert`. -/
def insert (s : St K V) (k : K) (v : V) : Res (St K V) :=
  match s.cache.get? k with
  | some _ => .ok s
  | none =>
    if s.full then do
      let h ← setKV s.heap s.root (some k) (some v)
      let root := (← deref h s.root).next
      let oldkey := (← deref h root).key
      let h ← setKV h root none none
      match oldkey with
      | none => .error .keyError
      | some ok =>
        match s.cache.get? ok with
        | none => .error .keyError
        | some _ => .ok { s with heap := h, root := root, cache := (s.cache.erase ok).set k s.root }
    else do
      let last := (← deref s.heap s.root).prev
      let h := write s.heap s.fresh (some ⟨last, s.root, some k, some v⟩)
      let h ← setNext h last s.fresh
      let h ← setPrev h s.root s.fresh
      let cache := s.cache.set k s.fresh
      .ok { s with heap := h, cache := cache, fresh := s.fresh + 1, full := decide (cache.length ≥ s.maxsize) }

/-- lru_cache.py 103-106 (the second part of a call, after the user function gave `v`) and 168-175 `cache_set`. -/
def set (s : St K V) (k : K) (v : V) : Res (St K V) := if s.maxsize > 0 then insert s k v else .ok s

/-- lru_cache.py 146-149 `cache_info`. -/
def info (s : St K V) : Ret V := .info s.hits s.misses s.maxsize s.cache.length

/-- lru_cache.py 151-160 `cache_clear`. -/
def clear (s : St K V) : St K V :=
  let h : Heap K V := s.cache.values.foldl (fun h i => write h i none) s.heap
  { s with heap := write h s.root (some ⟨s.root, s.root, none, none⟩), cache := [], hits := 0, misses := 0, full := false }

/-- lru_cache.py 177-191 `cache_peek`; `miss` stands for the fallback value. -/
def peek (s : St K V) (k : K) (upd : Bool) : Res (Ret V × St K V) :=
  match s.cache.get? k with
  | some i => do
    let n ← deref s.heap i
    .ok (.value n.result, if upd then { s with hits := s.hits + 1 } else s)
  | none => .ok (.miss, if upd then { s with misses := s.misses + 1 } else s)

/-- lru_cache.py 195-215 `cache_pop`; `fb`: a fallback value is given (`miss`). -/
def pop (s : St K V) (k : K) (fb : Bool) : Res (Ret V × St K V) :=
  match s.cache.get? k with
  | some i => do
    let n ← deref s.heap i
    let h ← setNext s.heap n.prev n.next
    let n ← deref h i
    let h ← setPrev h n.next n.prev
    let n ← deref h i
    let h := write h i none
    match n.key with
    | none => .error .keyError
    | some ok =>
      match s.cache.get? ok with
      | none => .error .keyError
      | some _ =>
        let cache := s.cache.erase ok
        .ok (.value n.result, { s with heap := h, cache := cache, full := decide (cache.length ≥ s.maxsize) })
  | none => .ok (if fb then .miss else .keyError, s)

/-- lru_cache.py 217-237 `cache_pop_oldest`. -/
def popOldest (s : St K V) (fb : Bool) : Res (Ret V × St K V) :=
  if s.cache.isEmpty then .ok (if fb then .miss else .keyError, s)
  else do
    let i := (← deref s.heap s.root).next
    let n ← deref s.heap i
    let h ← setPrev s.heap n.next s.root
    let n ← deref h i
    let h ← setNext h s.root n.next
    let n ← deref h i
    let h := write h i none
    match n.key with
    | none => .error .keyError
    | some ok =>
      match s.cache.get? ok with
      | none => .error .keyError
      | some _ =>
        let cache := s.cache.erase ok
        .ok (.value n.result, { s with heap := h, cache := cache, full := decide (cache.length ≥ s.maxsize) })

/-- lru_cache.py 248-249: the loop of `cache_set_maxsize`; `fuel` bounds the number of iterations. -/
def popLoop : Nat → St K V → Res (St K V)
  | 0, s => if s.cache.length > s.maxsize then .error (.other "fuel") else .ok s
  | fuel + 1, s =>
    if s.cache.length > s.maxsize then do
      let r ← popOldest s false
      match r.1 with
      | .keyError => .error .keyError
      | _ => popLoop fuel r.2
    else .ok s

/-- lru_cache.py 239-250 `cache_set_maxsize`. -/
def setMaxsize (s : St K V) (n : Nat) : Res (St K V) := do
  let s ← popLoop s.cache.length { s with maxsize := n }
  .ok { s with full := decide (s.cache.length ≥ s.maxsize) }

/-- The atomic steps of the API (each runs under the lock). A call of the wrapped function is a `lookup` and, on a miss,
a later `set` with the value of the user function; other steps (of other threads, or of the user function itself) may come
in between. -/
inductive Call (K V : Type) where
  | lookup (k : K)
  | set (k : K) (v : V)
  | peek (k : K) (updateStatistics : Bool)
  | pop (k : K) (fallback : Bool)
  | popOldest (fallback : Bool)
  | setMaxsize (n : Nat)
  | clear
  | info

/-- One step. -/
def step (s : St K V) : Call K V → Res (Ret V × St K V)
  | .lookup k => lookup s k
  | .set k v => do let s ← set s k v; .ok (.unit, s)
  | .peek k u => peek s k u
  | .pop k fb => pop s k fb
  | .popOldest fb => popOldest s fb
  | .setMaxsize n => do let s ← setMaxsize s n; .ok (.unit, s)
  | .clear => .ok (.unit, clear s)
  | .info => .ok (info s, s)

/-- A history of steps: the results. -/
def run : St K V → List (Call K V) → Res (List (Ret V))
  | _, [] => .ok []
  | s, c :: cs => do
    let r ← step s c
    let rs ← run r.2 cs
    .ok (r.1 :: rs)

/-! ### Keys -/

/-- Python objects as `_make_key` sees them: `U` are the objects up to `==`, `O` the argument objects, with their `==`-class
and their type; keyword names and the mark object are objects too. -/
structure Objs (O U : Type) where
  val : O → U
  ty : O → U
  name : String → U
  mark : U
  fast : U → Bool

/-- lru_cache.py 267-293 `_make_key`. `.inl`: the single argument itself, `.inr`: a `_HashedSeq` (a list). -/
def makeKey {O U : Type} (w : Objs O U) (typed : Bool) (args : List O) (kwds : List (String × O)) : U ⊕ List U :=
  let key := args.map w.val ++
    (if kwds.isEmpty then [] else w.mark :: kwds.flatMap (fun e => [w.name e.1, w.val e.2]))
  if typed then
    .inr (key ++ args.map w.ty ++ kwds.map (fun e => w.ty e.2))
  else
    match args, kwds with
    | [o], [] => if w.fast (w.ty o) then .inl (w.val o) else .inr key
    | _, _ => .inr key

end Verif.Lru
