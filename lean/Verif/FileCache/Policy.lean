import Verif.Util.Py
import Verif.Util.Dict
/-
Model of the retry loop (100-134), the cleanup policy (149-256), the usage counters (462-520) and the parent directories (523-531) of
returnn/util/file_cache.py.
-/
namespace Verif.FileCache
open Verif Verif.Py

/-- How `_copy_file_if_needed` ends; the errors have an id. -/
inductive Attempt where
  | ok
  | full (id : Nat)
  | other (id : Nat)
deriving Repr, DecidableEq

inductive GetResult where
  | returned
  | raised (id : Nat)
deriving Repr, DecidableEq

/-- file_cache.py 113-126: `n` tries are left, the next one is the `i`-th. Gives `last_error`, or the error raised at 126. -/
def tryLoop (att : Nat → Attempt) : Nat → Nat → Option Nat → Except Nat (Option Nat)
  | 0, _, last => .ok last
  | n + 1, i, last =>
    match att i with
    | .ok => .ok last
    | .full id => tryLoop att n (i + 1) (some id)
    | .other id => .error id

/-- file_cache.py 112-134 `get_file`. -/
def getFile (att : Nat → Attempt) (numTries : Nat) : GetResult :=
  match tryLoop att numTries 0 none with
  | .error id => .raised id
  | .ok (some id) => .raised id
  | .ok none => .returned

/-! Cleanup. Times are integers in some unit; the names of the files are given by their rank in the order of strings. -/

structure File where
  mtime : Int
  size : Nat
  name : Nat
deriving Repr, DecidableEq

/-- file_cache.py 191: the order of the tuples (mtime, -size, name). -/
def fileLe (a b : File) : Bool :=
  decide (a.mtime < b.mtime ∨ (a.mtime = b.mtime ∧ (b.size < a.size ∨ (a.size = b.size ∧ a.name ≤ b.name))))

structure Cfg where
  /-- `cleanup_files_always_older_than_days` -/
  always : Int
  /-- `cleanup_files_wanted_older_than_days` -/
  wanted : Int
  /-- `cur_used_time_threshold`, 194 -/
  used : Int
deriving Repr, DecidableEq

structure Out where
  raised : Bool
  /-- the files which it tried to delete -/
  attempted : List File
  /-- `cur_expected_free` -/
  free : Int
deriving Repr, DecidableEq

/-- file_cache.py 250-256: after the loop. -/
def finish (need free : Int) (attempted : List File) : Out := ⟨decide (need > free), attempted, free⟩

/-- file_cache.py 203-248. `rmOk`: whether `os.remove` of the file works. -/
def cleanupLoop (cfg : Cfg) (now need want : Int) (rmOk : File → Bool) : List File → Bool → List File → Int → Out
  | [], _, att, free => finish need free att
  | f :: fs, reached, att, free =>
    let old := decide (now - f.mtime > cfg.always)
    let reached := reached || !old
    if !old && decide (need > free) && !decide (now - f.mtime > cfg.used) then ⟨true, att, free⟩
    else
      let reason := old || decide (need > free)
      if !reason && decide (want > free) && !decide (now - f.mtime > cfg.wanted) then finish need free att
      else
        let reason := reason || decide (want > free)
        let free := if reason && rmOk f then free + f.size else free
        let att := if reason then att ++ [f] else att
        if reached && decide (want ≤ free) then finish need free att
        else cleanupLoop cfg now need want rmOk fs reached att free

/-- file_cache.py 149-256 `cleanup`, without the removal of empty directories; `want` is `want_free_space_size` (156-159), `last` the time
of the last full cleanup (`none`: never), `recent` 10 minutes. -/
def cleanup (cfg : Cfg) (recent now : Int) (last : Option Int) (need want : Int) (rmOk : File → Bool) (files : List File) (free : Int) : Out :=
  if decide (want ≤ free) && (match last with | none => false | some t => decide (now - t < recent)) then ⟨false, [], free⟩
  else cleanupLoop cfg now need want rmOk (stableSort fileLe files) false [] free

/-- file_cache.py 156-159, with the float options as rationals. -/
def wantFree (multiplier ratio : Rat) (need total : Nat) : Int := max (multiplier * need).floor (ratio * total).floor

/-! Usage counters. -/

/-- file_cache.py 500-501: `self.files[file] += 1`, where `files` is a `defaultdict(int)`. -/
def fileAdd {κ : Type} [DecidableEq κ] (files : Dict κ Int) (f : κ) : Dict κ Int := files.set f ((files.get? f).getD 0 + 1)

/-- file_cache.py 509-511. -/
def fileRemove {κ : Type} [DecidableEq κ] (files : Dict κ Int) (f : κ) : Dict κ Int :=
  let files := files.set f ((files.get? f).getD 0 - 1)
  if (files.get? f).getD 0 ≤ 0 then files.erase f else files

/-- A call of `files_extend` or `files_remove`. -/
inductive TouchOp (κ : Type) where
  | extend (fs : List κ)
  | remove (fs : List κ)

/-- file_cache.py 494-511. -/
def touchStep {κ : Type} [DecidableEq κ] (files : Dict κ Int) : TouchOp κ → Dict κ Int
  | .extend fs => fs.foldl fileAdd files
  | .remove fs => fs.foldl fileRemove files

def touchRun {κ : Type} [DecidableEq κ] (ops : List (TouchOp κ)) : Dict κ Int := ops.foldl touchStep []

/-! Parent directories. -/

abbrev Path := List Char

/-- Python `s.rstrip("/")`. -/
def rstripSlash (p : Path) : Path := (p.reverse.dropWhile (fun c => decide (c = '/'))).reverse

/-- Python `p[: p.rfind("/") + 1]`. -/
def upToSlash (p : Path) : Path := (p.reverse.dropWhile (fun c => decide (c ≠ '/'))).reverse

/-- Python `posixpath.dirname`. -/
def dirname (p : Path) : Path :=
  let head := upToSlash p
  if head ≠ [] ∧ head ≠ List.replicate head.length '/' then rstripSlash head else head

/-- file_cache.py 525-531; `none`: not finished after `fuel` iterations. -/
def parentLoop (base : Path) : Nat → Path → List Path → Option (List Path)
  | 0, _, _ => none
  | fuel + 1, p, dirs =>
    let p := dirname p
    if p = base then some dirs else parentLoop base fuel p (dirs ++ [p])

/-- file_cache.py 523-531 `_all_parent_dirs`. -/
def allParentDirs (base : Path) (fuel : Nat) (p : Path) : Res (Option (List Path)) :=
  if (base ++ ['/']).isPrefixOf p then .ok (parentLoop base fuel p []) else .error .assertion

end Verif.FileCache
