import Verif.Util.Py
/-
Model of the cache of compiled libraries (`returnn/util/native_code_compiler.py`).

Simplifications for the whole file:
* one directory of the cache, with the library and the info file only; the times of `include_deps` are left out (no `include_deps`);
* the relevant keys of the info (code hash, version, macros, linker flags, compiler, platform) are one value; the hash in the name of the directory is given, so that the
  configurations are those with the same directory;
* the compiler writes a library which is not complete until it is done.
-/
namespace Verif.NativeComp
open Verif Verif.Py

/-- A configuration: the keys in `_relevant_info_keys`, /repo/returnn/util/native_code_compiler.py:157, and what else the compiler call depends on, :286-298. -/
structure Cfg where
  relevant : Nat
  cxx11Abi : Bool
  includePaths : List String
  deriving DecidableEq

/-- The library file: not complete, or compiled with a configuration. -/
inductive Lib where
  | incomplete
  | built (c : Cfg)
  deriving DecidableEq

/-- `info.py`: written in part (cannot be evaluated), or with the relevant keys. -/
inductive Info where
  | torn
  | keys (r : Nat)
  deriving DecidableEq

structure Dir where
  lib : Option Lib
  info : Option Info
  deriving DecidableEq

def empty : Dir := ⟨none, none⟩

/-- The comparison with the old info, /repo/returnn/util/native_code_compiler.py:211-223. -/
def infoDiffers (c : Cfg) : Option Info → Res Bool
  | none => .ok true
  | some .torn => .error (.other "SyntaxError")
  | some (.keys r) => .ok (decide (r ≠ c.relevant))

/-- `_need_recompile`, /repo/returnn/util/native_code_compiler.py:200-226. -/
def needRecompile (c : Cfg) (d : Dir) : Res Bool :=
  match d.lib with
  | none => .ok true
  | some _ => infoDiffers c d.info

/-- The states of the directory in `_maybe_compile_inner`, /repo/returnn/util/native_code_compiler.py:279-329, before the last one: before the compiler, while it writes, after it,
and while the info is written. The run may stop in each of them. -/
def compileStops (c : Cfg) (d : Dir) : List Dir :=
  [d, { d with lib := some .incomplete }, { d with lib := some (.built c) }, { lib := some (.built c), info := some .torn }]

/-- And the last one. -/
def compiled (c : Cfg) : Dir := { lib := some (.built c), info := some (.keys c.relevant) }

/-- The states in `_cleanup_old_path`, /repo/returnn/util/native_code_compiler.py:132-141, where the files are removed in any order. -/
def cleanupStops (d : Dir) : List Dir := [d, { d with lib := none }, { d with info := none }, empty]

/-- `_maybe_compile`, /repo/returnn/util/native_code_compiler.py:228-249, when no other process has the lock: all states in which the run may stop, and whether it returned. -/
def outcomes (cleanup : Bool) (c : Cfg) (d : Dir) : List (Dir × Bool) :=
  match needRecompile c d with
  | .error _ => [(d, false)]
  | .ok false => [(d, true)]
  | .ok true =>
    (if cleanup then cleanupStops d else []).map (fun d' => (d', false)) ++
      (compileStops c (if cleanup then empty else d)).map (fun d' => (d', false)) ++ [(compiled c, true)]

/-- The same when another process has the lock at the test in line 245, and leaves the directory as `d`: there is no cleanup, and no test after the lock was taken. -/
def outcomesWaited (c : Cfg) (d : Dir) : List (Dir × Bool) := (compileStops c d).map (fun d' => (d', false)) ++ [(compiled c, true)]

/-- An entry of the directory above, in `_cleanup_old`. Times in seconds. -/
structure Entry where
  own : Bool
  isDir : Bool
  locked : Bool
  infoTime : Option Int
  libTime : Option Int

/-- `_cleanup_old`, /repo/returnn/util/native_code_compiler.py:103-130: whether the entry is deleted. -/
def deleted (now : Int) (days : Int) (e : Entry) : Bool :=
  if e.own then false
  else if !e.isDir then false
  else if e.locked then false
  else match e.infoTime with
    | none => true
    | some _ =>
      match e.libTime with
      | none => true
      | some t => decide (now - t > days * 24 * 60 * 60)

/-- `os.utime(self._info_filename, None)`, /repo/returnn/util/native_code_compiler.py:236,242: a use of the library. -/
def touch (now : Int) (e : Entry) : Entry := { e with infoTime := some now }

end Verif.NativeComp
