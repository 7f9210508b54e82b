import Verif.Util.Py
/-
Model of the worker process loop which serves sequences with prefetching.
The same loop is in `returnn/datasets/distrib_files.py` (573-675) and `returnn/datasets/multi_proc.py` (219-390).
-/
namespace Verif.SeqWorker
open Verif.Py

/-- The local variables of the worker loop (distrib_files.py 590-592, multi_proc.py 236-238) after
`init_seq_order`. A cache entry is `(seq_idx, data)`. -/
structure W (α : Type) where
  cache : List (Nat × α) := []
  next : Nat := 0
deriving Repr, DecidableEq

/-- distrib_files.py 595-608 / multi_proc.py 241-254 `_add_to_cache`. `none` means that it returned False.
`ds` is the list of seqs of the wrapped dataset in its current order. -/
def addToCache {α : Type} (ds : List α) (buffer : Nat) (w : W α) : Option (W α) :=
  if w.cache.length ≥ buffer then none
  else
    match ds[w.next]? with
    | none => none
    | some x => some { cache := w.cache ++ [(w.next, x)], next := w.next + 1 }

/-- distrib_files.py 616-620: the loop over the cache in `_get_from_cache`. -/
def searchCache {α : Type} (i : Nat) : List (Nat × α) → Res (Option α)
  | [] => .error .assertion
  | (j, x) :: rest => do
    pyAssert (decide (j ≤ i))
    if j = i then .ok (some x) else searchCache i rest

/-- distrib_files.py 611-620 / multi_proc.py 257-266 `_get_from_cache`. -/
def getFromCache {α : Type} (cache : List (Nat × α)) (i : Nat) : Res (Option α) :=
  match cache.getLast? with
  | none => .ok none
  | some (k, _) => if i > k then .ok none else searchCache i cache

/-- distrib_files.py 634-642 / multi_proc.py 280-288: the `while True` loop. Every iteration adds one entry to the
cache, so it ends after at most `buffer + 1` iterations; `fuel` is that bound. -/
def fillLoop {α : Type} (ds : List α) (buffer i : Nat) : Nat → W α → Res (Option α × W α)
  | 0, _ => .error (.other "fuel")
  | fuel + 1, w =>
    match addToCache ds buffer w with
    | none => .error (.other "buffer too small")
    | some w' =>
      match w'.cache.getLast? with
      | none => .error .indexError
      | some (k, x) => do
        pyAssert (decide (k ≤ i))
        if k = i then .ok (some x, w') else fillLoop ds buffer i fuel w'

/-- distrib_files.py 623-642 / multi_proc.py 269-288 `_get`. -/
def get {α : Type} (ds : List α) (buffer : Nat) (w : W α) (i : Nat) : Res (Option α × W α) := do
  match w.cache with
  | (k, _) :: _ => if i < k then .error (.other "cannot go backwards") else .ok ()
  | [] => .ok ()
  match ← getFromCache w.cache i with
  | some x => .ok (some x, w)
  | none =>
    if i < ds.length then do
      pyAssert (decide (w.next ≤ i))
      fillLoop ds buffer i (buffer + 1) w
    else .ok (none, w)

/-- distrib_files.py 653-658 / multi_proc.py 299-304: the `get_data_seq` message: drop old cache entries, then `_get`. -/
def request {α : Type} (ds : List α) (buffer : Nat) (w : W α) (i : Nat) : Res (Option α × W α) :=
  get ds buffer { w with cache := w.cache.dropWhile (fun e => decide (e.1 < i)) } i

/-- distrib_files.py 646-649 / multi_proc.py 292-295: prefetching while no message is there; `k` is how many seqs are
prefetched before the next message arrives (decided by the scheduling of the processes). -/
def prefetch {α : Type} (ds : List α) (buffer : Nat) : Nat → W α → W α
  | 0, w => w
  | k + 1, w =>
    match addToCache ds buffer w with
    | none => w
    | some w' => prefetch ds buffer k w'

/-- The worker loop after `init_seq_order`, for a list of requests; request `(k, i)` arrives after `k` prefetches.
Gives the list of answers. -/
def serve {α : Type} (ds : List α) (buffer : Nat) : W α → List (Nat × Nat) → Res (List (Option α) × W α)
  | w, [] => .ok ([], w)
  | w, (k, i) :: rest => do
    let (x, w) ← request ds buffer (prefetch ds buffer k w) i
    let (xs, w) ← serve ds buffer w rest
    .ok (x :: xs, w)

end Verif.SeqWorker
