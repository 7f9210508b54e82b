import Verif.Util.Py
/-
Model of datasets/sprint.py `SprintDatasetBase`: one thread (Sprint, or the reader of `ExternSprintDataset`) adds sequences, another one (training) reads them. Both share a buffer, guarded by one reentrant lock with a condition
variable. Everything between two waits on the condition is one step. `cond.wait()` sleeps until a `notify_all`; after that the loop around it checks again.

Not modelled: features and targets of a sequence (a sequence is one value), predefined orders (`predefined_seq_list_order`), the printing of the first shape in `load_seqs` (`suppress_load_seqs_print` is set), and the sub process.
-/
namespace Verif.SprintData

/-- sprint.py 52-53. -/
def cachedMax : Nat := 200
def cachedMin : Nat := 100

/-- The shared fields, as `_reset_cache` (180-188) sets them. -/
structure Sh (α : Type) where
  expected : Nat := 0
  requested : Nat := 0
  next : Nat := 0
  final : Bool := false
  ready : Bool := true
  added : List (Nat × α) := []

/-- What the adding thread does, in this order: `wait_for_returnn_epoch`, `init_sprint_epoch`, `add_new_data`, `finish_sprint_epoch`. -/
inductive POp (α : Type) where
  | waitEpoch (k : Nat)
  | reset
  | add (x : α)
  | finish

/-- Where the adding thread is: between calls, in one of the two waits, or ended by an exception. -/
inductive PPc (α : Type) where
  | run
  | waitAdd (idx : Nat) (x : α) (awake : Bool)
  | waitEp (k : Nat) (awake : Bool)
  | failed

/-- The calls of the reading thread: `init_seq_order`, `is_less_than_num_seqs`, `load_seqs`, `get_data`. -/
inductive COp where
  | initEpoch (k : Nat)
  | less (n : Nat)
  | load (s e : Nat)
  | get (i : Nat)
deriving DecidableEq

/-- The result of a call; `noData`: `None` in place of a sequence, the access to it then raises; `assertion`: it raised. -/
inductive CRes (α : Type) where
  | unit
  | bool (b : Bool)
  | data (x : α)
  | noData
  | assertion
deriving DecidableEq

/-- Where the reading thread is. -/
inductive CPc where
  | idle
  | wait (op : COp) (awake : Bool)

/-- The state of both threads. `hist` has the finished calls, newest first. -/
structure St (α : Type) where
  sh : Sh α
  epoch : Option Nat
  prog : List (POp α)
  ppc : PPc α
  cpc : CPc
  hist : List (COp × CRes α)

variable {α : Type}

def PPc.wake : PPc α → PPc α
  | .waitAdd i x _ => .waitAdd i x true
  | .waitEp k _ => .waitEp k true
  | p => p

def CPc.wake : CPc → CPc
  | .wait op _ => .wait op true
  | c => c

/-- `self.cond.notify_all()`. -/
def notify (st : St α) : St α := { st with ppc := st.ppc.wake, cpc := st.cpc.wake }

/-! ### The reading thread -/

/-- sprint.py 302-307: the loop of `_have_seqs_added`; `none`: the assertion fails. -/
def haveLoop : List (Nat × α) → Nat → Nat → Option Bool
  | [], _, _ => some false
  | (i, _) :: r, start, stop =>
    if start < i then none
    else if (if i = start then start + 1 else start) ≥ stop then some true
    else haveLoop r (if i = start then start + 1 else start) stop

/-- sprint.py 297-308 `_have_seqs_added`. -/
def haveSeqs (added : List (Nat × α)) (start stop : Nat) : Option Bool := if start ≥ stop then some true else haveLoop added start stop

/-- sprint.py 245-256 `_wait_for_seq_can_pass_check`. -/
def canPass (sh : Sh α) (start stop : Nat) : Option Bool := if sh.final then some true else haveSeqs sh.added start stop

/-- Which sequences a call waits for. -/
def COp.start : COp → Nat
  | .initEpoch _ => 0
  | .less n => n
  | .load s _ => s
  | .get i => i

def COp.stop : COp → Nat
  | .initEpoch _ => 0
  | .less n => n + 1
  | .load _ e => e
  | .get i => i + 1

/-- What a call returns after the wait: 557-564 `is_less_than_num_seqs`, 330-344 `load_seqs`, 617-625 `get_data` with 310-319 `_get_seq`. -/
def result (sh : Sh α) : COp → CRes α
  | .initEpoch _ => .unit
  | .less n => .bool (decide (n < sh.next))
  | .load _ _ => .unit
  | .get i =>
    match sh.added.find? (fun p => p.1 == i) with
    | some p => .data p.2
    | none => .noData

/-- A call returns. -/
def done (st : St α) (op : COp) (r : CRes α) : St α := { st with cpc := .idle, hist := (op, r) :: st.hist }

/-- sprint.py 272-290: go on, or sleep. -/
def check (st : St α) (op : COp) : St α :=
  match canPass st.sh op.start op.stop with
  | none => done st op .assertion
  | some true => done st op (result st.sh op)
  | some false => { st with cpc := .wait op false }

/-- sprint.py 267-271: ask for the sequences. -/
def request (st : St α) (stop : Nat) : St α :=
  if stop > st.sh.requested then notify { st with sh := { st.sh with requested := stop } } else st

/-- sprint.py 228-234 `_cleanup_old_seq_cache`. -/
def cleanup (added : List (Nat × α)) (s : Nat) : List (Nat × α) := added.dropWhile (fun p => decide (p.1 < s))

/-- sprint.py 356-361: `_load_seqs` before the wait. -/
def advance (st : St α) (s : Nat) : St α :=
  if s > st.sh.expected then notify { st with sh := { st.sh with added := cleanup st.sh.added s, expected := s } } else st

/-- A call starts. `init_seq_order` is 211-226, `load_seqs` is 330-362 with datasets/basic.py 440-460. -/
def startOp (st : St α) : COp → St α
  | .initEpoch k => done (notify { st with epoch := some k }) (.initEpoch k) .unit
  | .load s e =>
    if s = e then done st (.load s e) .unit
    else if ¬ s ≤ e then done st (.load s e) .assertion
    else if s < st.sh.expected then done st (.load s e) .assertion
    else check (request (advance st s) e) (.load s e)
  | .less n => check (request st (n + 1)) (.less n)
  | .get i => check (request st (i + 1)) (.get i)

/-- One step of the reading thread. What it calls next depends on what it got so far. -/
def stepC (client : List (COp × CRes α) → Option COp) (st : St α) : Option (St α) :=
  match st.cpc with
  | .idle => (client st.hist).map (startOp st)
  | .wait op true => some (check st op)
  | .wait _ false => none

/-! ### The adding thread -/

/-- sprint.py 507-509. -/
def append (st : St α) (idx : Nat) (x : α) : St α :=
  notify { st with sh := { st.sh with added := st.sh.added ++ [(idx, x)] }, ppc := .run }

/-- sprint.py 502-505: the loop while the buffer is full. -/
def addCheck (st : St α) (idx : Nat) (x : α) : St α :=
  if idx + 1 > st.sh.requested + cachedMin then
    if st.sh.final ∨ idx + 1 ≠ st.sh.next then { st with ppc := .failed } else { st with ppc := .waitAdd idx x false }
  else append st idx x

/-- sprint.py 458-509: `add_new_data`, the part with the lock. -/
def addStart (st : St α) (x : α) : St α :=
  if ¬ st.sh.ready ∨ st.sh.final then { st with ppc := .failed }
  else
    let st1 := notify { st with sh := { st.sh with next := st.sh.next + 1 } }
    if st.sh.next + 1 > st.sh.requested + cachedMax then addCheck st1 st.sh.next x else append st1 st.sh.next x

/-- sprint.py 236-243 `wait_for_returnn_epoch`. -/
def epochCheck (st : St α) (k : Nat) : St α :=
  match st.epoch with
  | none => { st with ppc := .failed }
  | some e => if e = k then { st with ppc := .run } else if k > e then { st with ppc := .waitEp k false } else { st with ppc := .failed }

/-- One step of the adding thread. -/
def stepP (st : St α) : Option (St α) :=
  match st.ppc with
  | .failed => none
  | .waitAdd idx x true => some (addCheck st idx x)
  | .waitAdd _ _ false => none
  | .waitEp k true => some (epochCheck st k)
  | .waitEp _ false => none
  | .run =>
    match st.prog with
    | [] => none
    | .waitEpoch k :: r => some (epochCheck { st with prog := r } k)
    | .reset :: r => some (notify { st with prog := r, sh := {} })
    | .add x :: r => some (addStart { st with prog := r } x)
    | .finish :: r => some (notify { st with prog := r, sh := { st.sh with final := true, ready := false } })

/-- A step of one of the threads. -/
def Step (client : List (COp × CRes α) → Option COp) (s t : St α) : Prop := stepP s = some t ∨ stepC client s = some t

/-- The state after `init_sprint_epoch`, before the sequences come. -/
def fresh (items : List α) : St α := ⟨{}, none, items.map .add ++ [.finish], .run, .idle, []⟩

end Verif.SprintData
