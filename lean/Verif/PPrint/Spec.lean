/-
Objects and what their text has to be, up to whitespace.
-/
namespace Verif.PPrint

/-- A part of a text: a token, some spaces, or a new line. -/
inductive Piece where
  | tok (s : String)
  | sp
  | nl
  deriving DecidableEq, Repr

mutual
/-- A Python object: the text of a number, string or other object by `repr`; containers, where the items of a dict have a key (its text by `repr`) and others none; an array
is the list it is converted to, and the name of its type. -/
inductive Obj where
  | leaf (repr : String)
  | list (xs : Items)
  | tuple (xs : Items)
  | set (xs : Items)
  | dict (xs : Items)
  | array (toList : Obj) (dtype : String)
inductive Items where
  | nil
  | cons (key : Option String) (x : Obj) (rest : Items)
end

namespace Spec

/-- The tokens of a text. -/
def toks : List Piece → List String
  | [] => []
  | .tok s :: l => s :: toks l
  | _ :: l => toks l

mutual
/-- The tokens of the Python expression for an object, as `repr` has them. -/
def expr : Obj → List String
  | .leaf r => [r]
  | .list xs => "[" :: exprs xs ++ ["]"]
  | .tuple .nil => ["(", ")"]
  | .tuple (.cons _ x .nil) => "(" :: expr x ++ [",", ")"]
  | .tuple xs => "(" :: exprs xs ++ [")"]
  | .set .nil => ["set", "(", ")"]
  | .set xs => "{" :: exprs xs ++ ["}"]
  | .dict xs => "{" :: exprs xs ++ ["}"]
  | .array l t => "numpy.array" :: "(" :: expr l ++ [",", "dtype=numpy." ++ t, ")"]
/-- Items with commas between them, and keys in front. -/
def exprs : Items → List String
  | .nil => []
  | .cons k x .nil => keyToks k ++ expr x
  | .cons k x rest => keyToks k ++ expr x ++ "," :: exprs rest
def keyToks : Option String → List String
  | none => []
  | some k => [k, ":"]
end

/-- Goes through a text and counts the open brackets; a new line outside of all brackets, or a bracket closed which is not open, is not allowed. -/
def scan : Nat → List Piece → Option Nat
  | d, [] => some d
  | d, .sp :: l => scan d l
  | d, .nl :: l => if d = 0 then none else scan d l
  | d, .tok s :: l =>
    if s = "[" ∨ s = "(" ∨ s = "{" then scan (d + 1) l
    else if s = "]" ∨ s = ")" ∨ s = "}" then (if d = 0 then none else scan (d - 1) l)
    else scan d l

end Spec
end Verif.PPrint
