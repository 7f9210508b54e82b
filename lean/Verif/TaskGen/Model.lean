import Verif.Util.Py
/-
Model of the targets of generated tasks (`returnn/datasets/generating.py`).

Simplifications for the whole file: inputs and outputs are characters (the code maps them from and to class numbers by their position in a string, which is one to one);
the random inputs are given.
-/
namespace Verif.TaskGen
open Verif Verif.Py

/-- One character in `Task12AXDataset.make_output_seq`, /repo/returnn/datasets/generating.py:333-345: new outer and inner state, and the output. The empty string is
`none`. -/
def step12AX (outer inner : Option Char) (c : Char) : Option Char × Option Char × Char :=
  if c = '1' ∨ c = '2' then (some c, inner, 'L')
  else if c = 'A' ∨ c = 'B' then (outer, some c, 'L')
  else if c = 'X' ∨ c = 'Y' then
    (outer, none, if (outer = some '1' ∧ inner = some 'A' ∧ c = 'X') ∨ (outer = some '2' ∧ inner = some 'B' ∧ c = 'Y') then 'R' else 'L')
  else (outer, inner, 'L')

def run12AX : Option Char → Option Char → List Char → List Char
  | _, _, [] => []
  | o, i, c :: cs => (step12AX o i c).2.2 :: run12AX (step12AX o i c).1 (step12AX o i c).2.1 cs

/-- `Task12AXDataset.make_output_seq`, /repo/returnn/datasets/generating.py:323-346. -/
def out12AX (cs : List Char) : List Char := run12AX none none cs

/-- The loop of `TaskEpisodicCopyDataset.make_output_seq`, /repo/returnn/datasets/generating.py:418-434. -/
def runCopy : Bool → List Char → List Char → List Char
  | _, _, [] => []
  | false, mem, c :: cs =>
    if c = ' ' then ' ' :: runCopy false mem cs
    else if c = '.' then ' ' :: runCopy true mem cs
    else ' ' :: runCopy false (mem ++ [c]) cs
  | true, mem, _ :: cs =>
    match mem with
    | [] => '.' :: runCopy true [] cs
    | m :: mem' => m :: runCopy true mem' cs

/-- `TaskEpisodicCopyDataset.make_output_seq`, /repo/returnn/datasets/generating.py:408-435. -/
def outCopy (cs : List Char) : List Char := runCopy false [] cs

/-- `TaskEpisodicCopyDataset.generate_input_seq`, /repo/returnn/datasets/generating.py:394-406, with given random characters and number of blanks. -/
def inCopy (chars : List Char) (blanks : Nat) : List Char :=
  chars ++ List.replicate blanks ' ' ++ ['.'] ++ List.replicate (chars.length + 1) '.'

/-- The number of the digits, in the loop over the reversed digits, /repo/returnn/datasets/generating.py:726-728. -/
def sumDigits (base : Nat) : Nat → List Nat → Nat
  | _, [] => 0
  | i, d :: ds => d * base ^ i + sumDigits base (i + 1) ds

def number (base : Nat) (ds : List Nat) : Nat := sumDigits base 0 ds.reverse

/-- `while number`, /repo/returnn/datasets/generating.py:730-732, for a base of at least 2. -/
def digitsLoop (base : Nat) (hb : 2 ≤ base) (n : Nat) (acc : List Nat) : List Nat :=
  if h : n = 0 then acc else digitsLoop base hb (n / base) (n % base :: acc)
termination_by n
decreasing_by exact Nat.div_lt_self (by omega) (by omega)

/-- `TaskNumberBaseConvertDataset.make_output_seq`, /repo/returnn/datasets/generating.py:721-735. -/
def convert (inBase outBase : Nat) (hb : 2 ≤ outBase) (ds : List Nat) : List Nat :=
  match digitsLoop outBase hb (number inBase ds) [] with
  | [] => [0]
  | l => l

end Verif.TaskGen
