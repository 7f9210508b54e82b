import Verif.Util.Py
/-
Specification: a text with variables, as its parts.
-/
namespace Verif.EnvVars
open Verif.Py

/-- ASCII letters and the underscore. -/
def identStart (c : Char) : Bool := c == '_' || (decide ('a' ≤ c) && decide (c ≤ 'z')) || (decide ('A' ≤ c) && decide (c ≤ 'Z'))

/-- And digits. -/
def identChar (c : Char) : Bool := identStart c || (decide ('0' ≤ c) && decide (c ≤ '9'))

/-- A character, an escaped dollar, or a variable. -/
inductive Part where
  | lit (c : Char)
  | dollar
  | var (name : List Char)

namespace Spec

/-- The text of the parts. -/
def render : List Part → List Char
  | [] => []
  | .lit c :: ps => c :: render ps
  | .dollar :: ps => '$' :: '$' :: render ps
  | .var n :: ps => '$' :: n ++ render ps

/-- A name: a letter or underscore, and then letters, digits and underscores. -/
def Name (n : List Char) : Prop := ∃ c r, n = c :: r ∧ identStart c = true ∧ ∀ x ∈ r, identChar x = true

/-- The text begins with a character which could be part of a name. -/
def Continues : List Char → Prop
  | [] => False
  | c :: _ => identChar c = true

/-- The parts are those one sees in the text: no dollar as a literal, and names as long as possible. -/
def Parts : List Part → Prop
  | [] => True
  | .lit c :: ps => c ≠ '$' ∧ Parts ps
  | .dollar :: ps => Parts ps
  | .var n :: ps => Name n ∧ ¬ Continues (render ps) ∧ Parts ps

/-- The value of the parts, if all variables are defined. -/
def value (env : List Char → Option (List Char)) : List Part → Option (List Char)
  | [] => some []
  | .lit c :: ps => (value env ps).map (c :: ·)
  | .dollar :: ps => (value env ps).map ('$' :: ·)
  | .var n :: ps =>
    match env n with
    | none => none
    | some v => (value env ps).map (v ++ ·)

end Spec
end Verif.EnvVars
