import Verif.Util.Py
/-
Model of `ConcatDataset` in `returnn/datasets/meta.py`.

Simplifications: a sub-dataset is the list of its sequences in the epoch, with the start of its loading window
(`CachedDataset2`), and its `num_seqs` is known. The offsets are kept with the other sign (so they are natural numbers). A
sequence is any value (data and tag together). `load_seqs` is only modelled for `start <= end`.
-/
namespace Verif.Concat
open Verif.Py

/-- A sub-dataset: the sequences of the epoch, `expected_load_seq_start`, and the end of what was loaded. -/
structure Sub (α : Type) where
  cur : List α
  start : Nat
  loaded : Nat

structure State (α : Type) where
  /-- `epoch` -/
  epoch : Option Int
  /-- `dataset_seq_idx_offsets`, with the other sign -/
  offs : List Nat
  /-- `datasets` -/
  subs : List (Sub α)
  /-- `expected_load_seq_start` -/
  start : Nat
  /-- `added_data` -/
  added : List (Nat × α)

/-- meta.py:795-798: the given list is split; `seq_lists += ..` makes one flat list of it. -/
def splitList {T : Type} : List Nat → List T → List T × List T
  | [], l => ([], l)
  | n :: ns, l =>
    let r := splitList ns (l.drop n)
    (l.take n ++ r.1, r.2)

/-- meta.py:793-806: `seq_lists` for a given list of tags (`sizes` are the `num_seqs` of the sub-datasets). -/
def listsFor {T : Type} (sizes : List Nat) (l : List T) : Res (List T) := do
  pyAssert (splitList sizes l).2.isEmpty
  pyAssert (decide ((splitList sizes l).1.length = sizes.length))
  .ok (splitList sizes l).1

/-- meta.py:779-809 `init_seq_order` without a list. `inner` gives the sequences of the sub-datasets for an epoch. -/
def init {α : Type} (inner : Option Int → List (List α)) (s : State α) (epoch : Option Int) : State α :=
  let s' : State α := { s with epoch := epoch, offs := [0], start := 0, added := [] }
  if s.epoch.isNone || decide (s.epoch ≠ epoch) then
    { s' with subs := (inner epoch).map (fun l => { cur := l, start := 0, loaded := 0 }) }
  else s'

/-- meta.py:811-821 `_get_dataset_for_seq_idx`; the argument are the offsets from `i` on. -/
def dsFor (seqIdx : Nat) : List Nat → Nat → Nat
  | [], i => i - 1
  | o :: os, i => if seqIdx < o then i - 1 else dsFor seqIdx os (i + 1)

/-- meta.py:845-847: the slice assignment. -/
def setOff (offs : List Nat) (d v : Nat) : List Nat := offs.take (d + 1) ++ [v] ++ offs.drop (d + 2)

/-- meta.py:830-848: the loop (the first argument is the number of iterations left). The sub-dataset checks the start of the
window. -/
def loadLoop {α : Type} : Nat → State α → Nat → Nat → Res (State α)
  | 0, _, _, _ => .error (.other "endless loop")
  | fuel + 1, s, subStart, fin => do
    let d := dsFor subStart s.offs 0
    let b ← getItem s.subs d
    let o ← getItem s.offs d
    pyAssert (decide (b.start ≤ subStart - o))
    let s : State α := { s with subs := s.subs.set d { cur := b.cur, start := subStart - o, loaded := max b.loaded (fin - o) } }
    if fin - o < b.cur.length then .ok s
    else if d + 1 = s.subs.length then .ok s
    else loadLoop fuel { s with offs := setOff s.offs d (o + b.cur.length) } (o + b.cur.length) fin

/-- meta.py:851-861 `_collect_single_seq`: a sequence which is not in the window, or not there, is an `AttributeError`. -/
def collect {α : Type} (s : State α) (i : Nat) : Res (Nat × α) := do
  let d := dsFor i s.offs 0
  let b ← getItem s.subs d
  let o ← getItem s.offs d
  if i - o < b.start ∨ b.loaded ≤ i - o then .error (.other "AttributeError")
  else match b.cur[i - o]? with
    | some x => .ok (i, x)
    | none => .error (.other "AttributeError")

/-- cached2.py:116-119: move the window. -/
def moveWindow {α : Type} (s : State α) (start : Nat) : State α :=
  if s.start < start then { s with added := s.added.dropWhile (fun x => decide (x.1 < start)), start := start } else s

/-- cached2.py:120-121. -/
def firstNew {α : Type} (s : State α) (start : Nat) : Nat :=
  match s.added.getLast? with
  | some x => max (x.1 + 1) start
  | none => start

/-- meta.py:823-849 `_load_seqs`, with cached2.py:106-125. -/
def load {α : Type} (s : State α) (start fin : Nat) : Res (State α) := do
  let s ← loadLoop (s.subs.length + 1) s start fin
  pyAssert (decide (s.start ≤ start))
  let s := moveWindow s start
  let first := firstNew s start
  let seqs ← (List.range' first (fin - first)).mapM (collect s)
  .ok { s with added := s.added ++ seqs }

/-- A sequence of windows. -/
def loads {α : Type} (s : State α) : List (Nat × Nat) → Res (State α)
  | [] => .ok s
  | w :: ws => do
    let s ← load s w.1 w.2
    loads s ws

end Verif.Concat
