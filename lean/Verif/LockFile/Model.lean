import Verif.Util.Py
/-
Model of `LockFile` (returnn/util/basic.py 3098-3205) as a transition system: any number of processes, each system call is one step, any
interleaving, processes may die at any point. The directory is assumed to exist, and the file system operations do not fail for other
reasons. `touch` is the background thread of `FileCache` which updates the mtime of the lock file of a living owner.
-/
namespace Verif.LockFile

inductive Pc where
  /-- 3175-3177: next is the exclusive creation -/
  | start
  /-- 3120: next is `getmtime` -/
  | stat
  /-- 3123: next is `time.time()`, compared to the mtime -/
  | decide (mtime : Int)
  /-- 3135: next is `os.remove` -/
  | remove (mtime : Int)
  /-- after `lock()` -/
  | held
  /-- after `unlock()` -/
  | done
  /-- `unlock()` failed: FileNotFoundError at 3198 -/
  | failed
  | dead
deriving Repr, DecidableEq

structure File where
  owner : Nat
  mtime : Int
deriving Repr, DecidableEq

structure St where
  now : Int
  file : Option File := none
  pc : Nat → Pc := fun _ => .start

def St.setPc (s : St) (p : Nat) (c : Pc) : St := { s with pc := fun q => if q = p then c else s.pc q }

inductive Ev where
  /-- the next system call of process `p` in `lock()` -/
  | next (p : Nat)
  /-- process `p` calls `unlock()` -/
  | unlock (p : Nat)
  /-- process `p` updates the mtime of the lock file -/
  | touch (p : Nat)
  /-- process `p` dies -/
  | crash (p : Nat)
  /-- time goes on -/
  | tick (d : Nat)
deriving Repr, DecidableEq

/-- basic.py 3151-3191 `lock`, with 3114-3137. -/
def next (timeout : Int) (s : St) (p : Nat) : Option St :=
  match s.pc p with
  | .start =>
    match s.file with
    | none => some ({ s with file := some ⟨p, s.now⟩ }.setPc p .held)
    | some _ => some (s.setPc p .stat)
  | .stat =>
    match s.file with
    | none => some (s.setPc p .start)
    | some f => some (s.setPc p (.decide f.mtime))
  | .decide m =>
    if m ≠ 0 ∧ (s.now - m > timeout ∨ m - s.now > timeout) then some (s.setPc p (.remove m)) else some (s.setPc p .start)
  | .remove _ => some ({ s with file := none }.setPc p .start)
  | _ => none

/-- basic.py 3193-3198 `unlock`. -/
def unlock (s : St) (p : Nat) : Option St :=
  match s.pc p with
  | .held =>
    match s.file with
    | none => some (s.setPc p .failed)
    | some _ => some ({ s with file := none }.setPc p .done)
  | _ => none

def step (timeout : Int) (s : St) : Ev → Option St
  | .next p => next timeout s p
  | .unlock p => unlock s p
  | .touch p =>
    match s.pc p with
    | .held => some { s with file := s.file.map (fun f => ⟨f.owner, s.now⟩) }
    | _ => none
  | .crash p => some (s.setPc p .dead)
  | .tick d => some { s with now := s.now + d }

/-- The states which can be reached by events which satisfy a condition. -/
inductive Reach (timeout : Int) (ok : St → Ev → Prop) : St → Prop
  | init (now : Int) : Reach timeout ok { now := now }
  | step {s s' : St} {e : Ev} : Reach timeout ok s → ok s e → step timeout s e = some s' → Reach timeout ok s'

end Verif.LockFile
