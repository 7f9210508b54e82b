import Verif.HdfCache.Model
import Mathlib.Logic.Relation
/-
What the intervals hold, and how the threads of the cache run.
-/
namespace Verif.HdfCache
open Verif.Py

variable {F T : Type}

/-- The frames which a list of intervals holds for sequence `i`, found by going through the list. -/
def held (ls : List Nat) : List (Iv F) → Nat → Option (List F)
  | [], _ => none
  | v :: r, i =>
    if v.s ≤ i ∧ i < v.e then
      some ((v.d.drop ((ls.take i).sum - (ls.take v.s).sum)).take (ls.getD i 0))
    else held ls r i

/-- Non-empty intervals in increasing order without overlap between `lo` and `hi`, each with all its frames. -/
def Sorted (ls : List Nat) (lo hi : Nat) : List (Iv F) → Prop
  | [] => lo ≤ hi
  | v :: r => lo ≤ v.s ∧ v.s < v.e ∧ v.d.length = (ls.take v.e).sum - (ls.take v.s).sum ∧ Sorted ls v.e hi r

/-- The intervals between two empty ones at both ends. -/
def Proper (ls : List Nat) (ivs : List (Iv F)) : Prop :=
  ∃ z1 z2 mid, ivs = ⟨0, 0, z1⟩ :: mid ++ [⟨ls.length, ls.length, z2⟩] ∧ Sorted ls 0 ls.length mid

/-- What the reader does at the moment. -/
inductive Main where
  | idle
  | waiting (s e : Nat)

/-- The dataset, its loading threads and its reader; `win` is the range of the last `load_seqs` which returned,
`order` is the order given to the last `init_seq_order`. -/
structure Sys (F T : Type) where
  st : St F T
  threads : List (List Act)
  main : Main
  win : Option (Nat × Nat)
  order : List Nat

/-- All loading threads are finished. -/
def Sys.quiet (s : Sys F T) : Prop := ∀ th ∈ s.threads, th = []

/-- One step of one thread, in any interleaving. The reader calls `init_seq_order` with the allowed orders, and `load_seqs`
with ranges of sequences of the epoch. With `joined`, it calls both only when all loading threads are finished. -/
inductive Step (c : Cfg F T) (allowed : List Nat → Prop) (joined : Bool) : Sys F T → Sys F T → Prop
  | act {s : Sys F T} {t1 t2 : List (List Act)} {a : Act} {r more : List Act} {st' : St F T}
      (ht : s.threads = t1 ++ (a :: r) :: t2) (hx : exec c s.st a = .ok (st', more)) :
      Step c allowed joined s { s with st := st', threads := t1 ++ (more ++ r) :: t2 }
  | die {s : Sys F T} {t1 t2 : List (List Act)} {a : Act} {r : List Act} {e : Err}
      (ht : s.threads = t1 ++ (a :: r) :: t2) (hx : exec c s.st a = .error e) :
      Step c allowed joined s { s with threads := t1 ++ [] :: t2 }
  | epoch {s : Sys F T} {si : List Nat} {st' : St F T} {th : Option (List Act)} {b : Bool}
      (hm : s.main = .idle) (hj : joined = true → s.quiet) (ha : allowed si)
      (hx : initSeqOrder c s.st si = .ok (st', th, b)) :
      Step c allowed joined s { st := st', threads := s.threads ++ th.toList, main := .idle, win := none, order := si }
  | load {s : Sys F T} {a b : Nat} {st' : St F T} {th : List Act}
      (hm : s.main = .idle) (hj : joined = true → s.quiet) (hb : b ≤ s.order.length)
      (hx : loadSeqs c s.st a b = .ok (st', some th)) :
      Step c allowed joined s { s with st := st', threads := s.threads ++ [th], main := .waiting a b, win := none }
  | loadCached {s : Sys F T} {a b : Nat} {st' : St F T}
      (hm : s.main = .idle) (hj : joined = true → s.quiet) (hb : b ≤ s.order.length)
      (hx : loadSeqs c s.st a b = .ok (st', none)) :
      Step c allowed joined s { s with st := st', win := some (a, b) }
  | ret {s : Sys F T} {a b : Nat} {r : Bool} (hm : s.main = .waiting a b) (hw : waitCached s.st a b = some r) :
      Step c allowed joined s { s with main := .idle, win := some (a, b) }

/-- After `initialize`. -/
def start (c : Cfg F T) : Sys F T := { st := init c, threads := [], main := .idle, win := none, order := [] }

/-- All runs. -/
def Run (c : Cfg F T) (allowed : List Nat → Prop) (joined : Bool) : Sys F T → Sys F T → Prop :=
  Relation.ReflTransGen (Step c allowed joined)

/-- The files are consistent: every sequence is in one of them. -/
def FilesOk (c : Cfg F T) : Prop := ∀ i, i < c.corpus.length → c.fileOf i < c.numFiles

/-- The order of an epoch, up to permutation: some sequences of the corpus, none twice. -/
def BaseOk (c : Cfg F T) (base : List Nat) : Prop := base ≠ [] ∧ base.Nodup ∧ ∀ i ∈ base, i < c.corpus.length

end Verif.HdfCache
