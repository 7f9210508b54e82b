import Verif.ConfigPy.Model
/-
What the sources of a config should give.
-/
namespace Verif.ConfigPy
open Verif.Py

/-- The value meant by an argument of the command line: `+-1` is `-1`. -/
def meant : Str → Str
  | '+' :: '-' :: r => '-' :: r
  | v => v

/-- What a user sees for key `k` comes from the option value `v`: the string itself, or (if the key was typed) what Python makes of it. -/
def FromCmd (P : Python) (c : Cfg) (k v : Str) : Prop :=
  match c.typed.get? k with
  | none => ∀ d, c.value P k d none [','] = .ok (.at (.str v))
  | some x => x = .at (.str v) ∨ ∃ c0, P.eval c0 k v = .ok x

/-- What the config has for `k` is the same in both. -/
def SameAt (k : Str) (c c' : Cfg) : Prop := c'.typed.get? k = c.typed.get? k ∧ c'.untyped.get? k = c.untyped.get? k

/-- The arguments `++k v ...`. -/
def pairArgs (ps : List (Str × Str)) : List Str := ps.flatMap (fun p => ['+' :: '+' :: p.1, p.2])

/-- The keys of the options, without files which are loaded by options. -/
def Cmd.plain (cmd : Cmd) (ps : List (Str × Str)) : Prop :=
  cmd.loadConfig = none ∧ cmd.rest = pairArgs ps ∧ (∀ p ∈ cmd.opts, p.1 ≠ includeKey) ∧ ∀ p ∈ ps, p.1 ≠ includeKey

/-- `k` is no key of the options. -/
def Cmd.lacks (cmd : Cmd) (ps : List (Str × Str)) (k : Str) : Prop := (∀ p ∈ cmd.opts, p.1 ≠ k) ∧ ∀ p ∈ ps, p.1 ≠ k

/-- Loading the file gives `k` the value `x` / does not touch `k`. -/
def FileSets (P : Python) (fs : Str → Option File) (fuel : Nat) (f k : Str) (x : Val) : Prop := ∀ c c', loadFile P fs fuel c f = .ok c' → c'.typed.get? k = some x
def FileKeeps (P : Python) (fs : Str → Option File) (fuel : Nat) (f k : Str) : Prop := ∀ c c', loadFile P fs fuel c f = .ok c' → c'.typed.get? k = c.typed.get? k

end Verif.ConfigPy
