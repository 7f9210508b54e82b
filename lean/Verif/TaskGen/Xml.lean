import Verif.Util.Py
/-
Model of the XML task (`returnn/datasets/generating.py`), with given random choices. The stack is a list with the top first.
-/
namespace Verif.TaskGen
open Verif Verif.Py

/-- One character in `TaskXmlModelingDataset.make_output_seq`, /repo/returnn/datasets/generating.py:498-531: new state and stack, and the output. -/
def stepXml (state : Nat) (stack : List (List Char)) (c : Char) : Res (Nat × List (List Char) × Char) :=
  if c = ' ' ∨ c = '>' then
    if state = 1 then .error .assertion else .ok (1, stack, '<')
  else if state = 1 then
    if c = '<' then .ok (2, stack, ' ') else .error .assertion
  else if state = 2 then
    if c = '/' then
      match stack with
      | [] => .error .assertion
      | [] :: _ => .error .indexError
      | (x :: t) :: st => .ok (4, t :: st, x)
    else if c = '<' then .error .assertion
    else .ok (3, [c] :: stack, ' ')
  else if state = 3 then
    match stack with
    | [] => .error .indexError
    | t :: st => .ok (3, (t ++ [c]) :: st, ' ')
  else if state = 4 then
    match stack with
    | [] => .error .assertion
    | [] :: st => .ok (0, st, '>')
    | (x :: t) :: st => .ok (4, t :: st, x)
  else .error .assertion

def runXml : Nat → List (List Char) → List Char → Res (List Char)
  | _, _, [] => .ok []
  | state, stack, c :: cs =>
    match stepXml state stack c with
    | .error e => .error e
    | .ok (state', stack', x) =>
      match runXml state' stack' cs with
      | .error e => .error e
      | .ok l => .ok (x :: l)

/-- `TaskXmlModelingDataset.make_output_seq`, /repo/returnn/datasets/generating.py:488-532. -/
def outXml (cs : List Char) : Res (List Char) := runXml 0 [] cs

/-- The random choices of `generate_input_seq`, /repo/returnn/datasets/generating.py:473-486: a new tag, or the end of the last one. -/
inductive Ev where
  | opn (tag : List Char)
  | cls

/-- The text of `generate_input_seq` after the blank, for given choices and stack. -/
def inXml : List (List Char) → List Ev → List Char
  | _, [] => []
  | st, .opn tag :: evs => '<' :: tag ++ '>' :: inXml (tag :: st) evs
  | [], .cls :: evs => inXml [] evs
  | tag :: st, .cls :: evs => '<' :: '/' :: tag ++ '>' :: inXml st evs

end Verif.TaskGen
