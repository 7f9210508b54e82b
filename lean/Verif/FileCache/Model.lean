import Verif.Util.Py
/-
Model of the copy protocol of `FileCache` (returnn/util/file_cache.py 319-382, 396-426, 439-459) for one source file, as a
transition system of system calls. The lock file (C29) is assumed to work: at most one process is between lock and unlock. Any
number of processes may get the lock one after another, and a process may die or get an exception (e.g. disk full) at any point.
Source files may be changed at any time, in place or by replacing them. Cleanups of other processes may remove the files in the
cache directory at any time.

Not modelled: a source file which vanishes, machine crashes with loss of unflushed data, other source files whose cache file name
collides (`x` and `x.copy`). `os.utime` (130-131) after the copy changes no content.
-/
namespace Verif.FileCache

abbrev Content := List UInt8

structure Src where
  content : Content
  mtime : Nat
deriving Repr, DecidableEq

/-- The info file (439-459): not (fully) written, or with an mtime. -/
inductive Info where
  | corrupt
  | ok (mtime : Nat)
deriving Repr, DecidableEq

/-- Where the process with the lock is; the arguments are its local variables. The mtime `m` is not used after 355. -/
inductive Pc where
  /-- 365 `os.path.exists(dst_filename)` -/
  | exists_
  /-- 367 -/
  | statSrc
  /-- 368 -/
  | statDst (size mtime : Nat)
  /-- 370, 375-379 -/
  | loadInfo (size mtime dstSize : Nat)
  /-- 380 -/
  | remove
  /-- 354, and before it the disk space cleanup 339 and the age check 342-350, which may raise -/
  | statMtime
  /-- 451: opening for writing truncates -/
  | infoOpen (m : Nat)
  /-- 452 -/
  | infoWrite (m : Nat)
  /-- 409 -/
  | copyStat (m : Nat)
  /-- 410 -/
  | tmpOpen (m size : Nat)
  /-- 411-420 -/
  | falloc (m size : Nat)
  /-- 421 -/
  | srcOpen (m size : Nat)
  /-- 425: the open source file (`none`: still the file under the source name), how much has been copied -/
  | copy (m size : Nat) (fd : Option Content) (off : Nat)
  /-- 426 -/
  | truncate (m size : Nat)
  /-- 358 -/
  | rename (m : Nat)
deriving Repr, DecidableEq

structure St where
  src : Src
  dst : Option Content := none
  tmp : Option Content := none
  info : Option Info := none
  pc : Option Pc := none
  /-- Ghost: all source contents since the process with the lock got it, latest first. -/
  seen : List Content := []
deriving Repr, DecidableEq

/-- How `_copy_file_if_needed` ends. -/
inductive Ret where
  | hit
  | copied
  | raised
  | decodeError
deriving Repr, DecidableEq

inductive Ev where
  /-- a process gets the lock (328) -/
  | acquire
  /-- the process with the lock does its next system call -/
  | next
  /-- 425: it reads and writes at most `k + 1` bytes -/
  | chunk (k : Nat)
  /-- it dies, and its lock times out -/
  | crash
  /-- it gets an exception and releases the lock -/
  | fail
  /-- the source is changed in place -/
  | srcWrite (c : Content) (mtime : Nat)
  /-- the source is replaced by another file -/
  | srcReplace (c : Content) (mtime : Nat)
  /-- files are removed by a cleanup (237, 242) -/
  | rmDst
  | rmTmp
  | rmInfo
deriving Repr, DecidableEq

/-- Write `data` at offset `off`. -/
def writeAt (t : Content) (off : Nat) (data : Content) : Content := t.take off ++ data ++ t.drop (off + data.length)

/-- 375-382: the cached file can be used. -/
def usable (size mtime dstSize known : Nat) : Bool := !(decide (size ≠ dstSize) || decide (mtime > known))

/-- The next system call of the process with the lock. -/
def stepPc (s : St) : Pc → St × Option Ret
  | .exists_ =>
    match s.dst with
    | none => ({ s with pc := some .statMtime }, none)
    | some _ => ({ s with pc := some .statSrc }, none)
  | .statSrc => ({ s with pc := some (.statDst s.src.content.length s.src.mtime) }, none)
  | .statDst size mtime =>
    match s.dst with
    | none => ({ s with pc := none }, some .raised)
    | some d => ({ s with pc := some (.loadInfo size mtime d.length) }, none)
  | .loadInfo size mtime dstSize =>
    match s.info with
    | none => ({ s with pc := some .remove }, none)
    | some .corrupt => ({ s with pc := none }, some .decodeError)
    | some (.ok known) =>
      if usable size mtime dstSize known then ({ s with pc := none }, some .hit) else ({ s with pc := some .remove }, none)
  | .remove =>
    match s.dst with
    | none => ({ s with pc := none }, some .raised)
    | some _ => ({ s with dst := none, pc := some .statMtime }, none)
  | .statMtime => ({ s with pc := some (.infoOpen s.src.mtime) }, none)
  | .infoOpen m => ({ s with info := some .corrupt, pc := some (.infoWrite m) }, none)
  | .infoWrite m => ({ s with info := s.info.map (fun _ => .ok m), pc := some (.copyStat m) }, none)
  | .copyStat m => ({ s with pc := some (.tmpOpen m s.src.content.length) }, none)
  | .tmpOpen m size => ({ s with tmp := some [], pc := some (.falloc m size) }, none)
  | .falloc m size =>
    ({ s with tmp := s.tmp.map (fun _ => if size > 0 then List.replicate (size + 1) 0 else []), pc := some (.srcOpen m size) }, none)
  | .srcOpen m size => ({ s with pc := some (.copy m size none 0) }, none)
  | .copy m size fd off => ({ s with pc := some (.copy m size fd off) }, none)
  | .truncate m size =>
    ({ s with tmp := s.tmp.map (fun t => t.take size ++ List.replicate (size - t.length) 0), pc := some (.rename m) }, none)
  | .rename _ =>
    match s.tmp with
    | none => ({ s with pc := none }, some .raised)
    | some t => ({ s with dst := some t, tmp := none, pc := none }, some .copied)

/-- 425 `shutil.copyfileobj`: one read and write. -/
def stepChunk (s : St) (k : Nat) (m size : Nat) (fd : Option Content) (off : Nat) : St :=
  let data := (((fd.getD s.src.content).drop off).take (k + 1))
  if data = [] then { s with pc := some (.truncate m size) }
  else { s with tmp := s.tmp.map (fun t => writeAt t off data), pc := some (.copy m size fd (off + data.length)) }

/-- The open source file after the source was replaced. -/
def Pc.detach (c : Content) : Pc → Pc
  | .copy m size fd off => .copy m size (some (fd.getD c)) off
  | p => p

/-- One event. `later a b`: whether a change of the source may change its mtime from `a` to `b`. `none`: not possible. -/
def step (later : Nat → Nat → Bool) (s : St) : Ev → Option (St × Option Ret)
  | .acquire =>
    match s.pc with
    | some _ => none
    | none => some ({ s with pc := some .exists_, seen := [s.src.content] }, none)
  | .next =>
    match s.pc with
    | none => none
    | some p => some (stepPc s p)
  | .chunk k =>
    match s.pc with
    | some (.copy m size fd off) => some (stepChunk s k m size fd off, none)
    | _ => none
  | .crash => some ({ s with pc := none }, none)
  | .fail =>
    match s.pc with
    | none => none
    | some _ => some ({ s with pc := none }, some .raised)
  | .srcWrite c m => if later s.src.mtime m then some ({ s with src := ⟨c, m⟩, seen := c :: s.seen }, none) else none
  | .srcReplace c m =>
    if later s.src.mtime m then some ({ s with src := ⟨c, m⟩, seen := c :: s.seen, pc := s.pc.map (Pc.detach s.src.content) }, none)
    else none
  | .rmDst => some ({ s with dst := none }, none)
  | .rmTmp => some ({ s with tmp := none }, none)
  | .rmInfo => some ({ s with info := none }, none)

/-- A state which can be reached from an empty cache. -/
inductive Reach (later : Nat → Nat → Bool) : St → Prop
  | init (src : Src) : Reach later { src := src }
  | step {s s' : St} {e : Ev} {r : Option Ret} : Reach later s → step later s e = some (s', r) → Reach later s'

/-- Several events. -/
def runs (later : Nat → Nat → Bool) (s : St) : List Ev → Option (St × List Ret)
  | [] => some (s, [])
  | e :: es =>
    match step later s e with
    | none => none
    | some (s', r) =>
      match runs later s' es with
      | none => none
      | some (s'', rs) => some (s'', r.toList ++ rs)

end Verif.FileCache
