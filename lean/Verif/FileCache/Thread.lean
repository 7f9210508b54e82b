import Verif.Util.Py
/-
Model of the main loop of `_TouchFilesThread` (returnn/util/file_cache.py 471-485) together with the users of the files, as a transition
system. The parent directories are not modelled here.
-/
namespace Verif.FileCache.Thread

structure St (κ : Type) where
  /-- `self.files` -/
  tracked : List κ := []
  /-- the files which exist -/
  exist : List κ := []
  /-- `all_files` which are still to be touched in this round -/
  pending : List κ := []
  alive : Bool := true
  /-- ghost: the files touched in this round -/
  touched : List κ := []
deriving DecidableEq, Repr

inductive Ev (κ : Type) where
  /-- `files_extend([f])` of a file which is not yet tracked -/
  | track (f : κ)
  /-- `files_remove([f])` by the last user -/
  | untrack (f : κ)
  | create (f : κ)
  | unlink (f : κ)
  /-- 474-477 -/
  | snapshot
  /-- 478-483, one file -/
  | touch
deriving DecidableEq, Repr

def step {κ : Type} [DecidableEq κ] (s : St κ) : Ev κ → Option (St κ)
  | .track f => some { s with tracked := s.tracked ++ [f] }
  | .untrack f => some { s with tracked := s.tracked.filter (· ≠ f) }
  | .create f => some { s with exist := f :: s.exist }
  | .unlink f => some { s with exist := s.exist.filter (· ≠ f) }
  | .snapshot => if s.alive && s.pending.isEmpty then some { s with pending := s.tracked, touched := [] } else none
  | .touch =>
    if s.alive then
      match s.pending with
      | [] => none
      | f :: fs => if f ∈ s.exist then some { s with pending := fs, touched := s.touched ++ [f] } else some { s with alive := false }
    else none

inductive Reach {κ : Type} [DecidableEq κ] (ok : St κ → Ev κ → Prop) : St κ → Prop
  | init : Reach ok {}
  | step {s s' : St κ} {e : Ev κ} : Reach ok s → ok s e → step s e = some s' → Reach ok s'

end Verif.FileCache.Thread
