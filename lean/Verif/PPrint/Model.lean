import Verif.PPrint.Spec
/-
Model of `pprint` (`returnn/util/pprint.py`).

Simplifications for the whole file:
* a text is a list of tokens, spaces and new lines; the text of numbers, strings and keys is one token, with the spaces and new lines it may have in it;
* `line_postfix` is a new line or empty (`multi`), as in all calls within the file; the order of a set is given;
* the score which decides whether an object goes on one line (`_type_simplicity_score`) is any function of the object.
-/
namespace Verif.PPrint

/-- The arguments `prefix`, `postfix`, `line_prefix` and whether `line_postfix` is a new line, /repo/returnn/util/pprint.py:80. -/
structure Args where
  pre : List Piece
  post : List Piece
  line : List Piece
  multi : Bool

def Args.linePost (a : Args) : List Piece := if a.multi then [.nl] else []

/-- The change for a simple object, /repo/returnn/util/pprint.py:86-90. -/
def enter (simple : Bool) (a : Args) : Args :=
  if a.multi && simple then ⟨a.line ++ a.pre, a.post ++ [.nl], [], false⟩ else a

/-- `postfix_.endswith(",")`, /repo/returnn/util/pprint.py:94. -/
def endsComma (l : List Piece) : Bool := l.getLast? == some (.tok ",")

/-- The arguments of the call in `_sub_pprint`, /repo/returnn/util/pprint.py:92-103. -/
def subArgs (a : Args) (pre post : List Piece) (indent : Bool) : Args :=
  ⟨pre, if !a.multi && endsComma post then post ++ [.sp] else post,
    if a.multi then a.line ++ (if indent then [.sp] else []) else [], a.multi⟩

/-- `_print` as the only call, /repo/returnn/util/pprint.py:105-114. -/
def printAll (a : Args) (s : List Piece) : List Piece := a.line ++ a.pre ++ s ++ a.post ++ a.linePost

/-- `_print` at the begin, /repo/returnn/util/pprint.py:105-114. -/
def printBegin (a : Args) (s : String) : List Piece := a.line ++ a.pre ++ [.tok s] ++ a.linePost

/-- `_print` at the end, when the prefix is gone. -/
def printEnd (a : Args) (s : String) : List Piece := a.line ++ [.tok s] ++ a.post ++ a.linePost

/-- `prefix_` for an item of a dict, /repo/returnn/util/pprint.py:158; none for others, :118. -/
def keyPre : Option String → List Piece
  | none => []
  | some k => [.tok k, .tok ":", .sp]

mutual
/-- `pprint`, /repo/returnn/util/pprint.py:80-172. -/
def pp (simple : Obj → Bool) : Obj → Args → List Piece
  | .leaf r, a => printAll (enter (simple (.leaf r)) a) [.tok r]
  | .list .nil, a => printAll (enter (simple (.list .nil)) a) [.tok "[", .tok "]"]
  | .list (.cons k x xs), a =>
    printBegin (enter (simple (.list (.cons k x xs))) a) "[" ++ ppItems simple (.cons k x xs) (enter (simple (.list (.cons k x xs))) a) ++
      printEnd (enter (simple (.list (.cons k x xs))) a) "]"
  | .tuple .nil, a => printAll (enter (simple (.tuple .nil)) a) [.tok "(", .tok ")"]
  | .tuple (.cons k x .nil), a =>
    pp simple x (subArgs (enter (simple (.tuple (.cons k x .nil))) a) ((enter (simple (.tuple (.cons k x .nil))) a).pre ++ [.tok "("])
      ([.tok ",", .tok ")"] ++ (enter (simple (.tuple (.cons k x .nil))) a).post) false)
  | .tuple (.cons k x (.cons k' x' xs)), a =>
    printBegin (enter (simple (.tuple (.cons k x (.cons k' x' xs)))) a) "(" ++
      ppItems simple (.cons k x (.cons k' x' xs)) (enter (simple (.tuple (.cons k x (.cons k' x' xs)))) a) ++
      printEnd (enter (simple (.tuple (.cons k x (.cons k' x' xs)))) a) ")"
  | .set .nil, a => printAll (enter (simple (.set .nil)) a) [.tok "set", .tok "(", .tok ")"]
  | .set (.cons k x xs), a =>
    printBegin (enter (simple (.set (.cons k x xs))) a) "{" ++ ppItems simple (.cons k x xs) (enter (simple (.set (.cons k x xs))) a) ++
      printEnd (enter (simple (.set (.cons k x xs))) a) "}"
  | .dict .nil, a => printAll (enter (simple (.dict .nil)) a) [.tok "{", .tok "}"]
  | .dict (.cons k x xs), a =>
    printBegin (enter (simple (.dict (.cons k x xs))) a) "{" ++ ppItems simple (.cons k x xs) (enter (simple (.dict (.cons k x xs))) a) ++
      printEnd (enter (simple (.dict (.cons k x xs))) a) "}"
  | .array l t, a =>
    pp simple l (subArgs (enter (simple (.array l t)) a) ((enter (simple (.array l t)) a).pre ++ [.tok "numpy.array", .tok "("])
      ([.tok ",", .sp, .tok ("dtype=numpy." ++ t), .tok ")"] ++ (enter (simple (.array l t)) a).post) false)
/-- The loops over the items, /repo/returnn/util/pprint.py:116-118,157-158. -/
def ppItems (simple : Obj → Bool) : Items → Args → List Piece
  | .nil, _ => []
  | .cons k x .nil, a => pp simple x (subArgs a (keyPre k) [] true)
  | .cons k x (.cons k' x' xs), a => pp simple x (subArgs a (keyPre k) [.tok ","] true) ++ ppItems simple (.cons k' x' xs) a
end

/-- `pformat`, /repo/returnn/util/pprint.py:175-183. -/
def pformat (simple : Obj → Bool) (o : Obj) : List Piece := pp simple o ⟨[], [], [], true⟩

end Verif.PPrint
