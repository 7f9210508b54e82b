import Verif.EnvVars.Spec
/-
Model of `expand_env_vars` (`returnn/util/basic.py`).

Simplification: the matches of the regular expression are written as a recursion over the text.
-/
namespace Verif.EnvVars
open Verif Verif.Py

/-- `_convert` for a name, /repo/returnn/util/basic.py:694-703: the environment, and then the defaults. -/
def lookup (environ : List Char → Option (List Char)) (tmp user : List Char) (name : List Char) : Option (List Char) :=
  match environ name with
  | some v => some v
  | none =>
    if name = "TMPDIR".toList ∨ name = "TEMP".toList ∨ name = "TMP".toList then some tmp
    else if name = "USER".toList then some user
    else none

def app (a : List Char) : Res (List Char) → Res (List Char)
  | .error e => .error e
  | .ok l => .ok (a ++ l)

/-- The replacement for a name, or ValueError. -/
def sub (v : Option (List Char)) (r : Res (List Char)) : Res (List Char) :=
  match v with
  | none => .error .valueError
  | some v => app v r

/-- `expand_env_vars`, /repo/returnn/util/basic.py:659-711. -/
def expand (env : List Char → Option (List Char)) : List Char → Res (List Char)
  | [] => .ok []
  | c :: r =>
    if c = '$' then
      match r with
      | [] => .error .valueError
      | d :: r' =>
        if d = '$' then app ['$'] (expand env r')
        else if identStart d then sub (env (d :: r'.takeWhile identChar)) (expand env (r'.dropWhile identChar))
        else .error .valueError
    else app [c] (expand env r)
termination_by s => s.length
decreasing_by
  · simp; omega
  · have := (List.dropWhile_sublist identChar (l := r')).length_le
    simp; omega
  · simp

end Verif.EnvVars
