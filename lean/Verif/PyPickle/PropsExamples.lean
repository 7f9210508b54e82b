import Verif.PyPickle.PropsExact
import Verif.PyPickle.PropsWellFormed
/-
Concrete cases of C81 and C82, and the texts on which the converter disagrees with Python.
-/
namespace Verif.PyPickle

open Verif.Py

/-- Some `strtod`: one number, and no range error on anything else. -/
def someStod (l : List Nat) : Option Nat := if l = [49, 46, 53] then some 0x3FF8000000000000 else some 0

theorem someStod_bits : Bits64 someStod := by
  intro l b h
  unfold someStod at h
  split at h <;> simp only [Option.some.injEq] at h <;> omega

/-- The parts of ` {'a\x0a\u00e4': [1, -2, 1.5], "k": {None, 70000, }} `. -/
def exItems : Items :=
  .more [] (.int none [49]) [] (.more [32] (.int (some 45) [50]) [] (.last [32] (.float none [49] [53]) []))
def exSet : Items := .more [] .none [] (.more [32] (.int none [55, 48, 48, 48, 48]) [] (.nil [32]))
def exDict : DItems :=
  .more [] (.str 39 [.raw 97, .hex 120 2 10, .hex 117 4 0xe4]) [] [32] (.list exItems) []
    (.last [32] (.str 34 [.raw 107]) [] [32] (.set exSet) [])

/-- Its text. -/
example : (Cst.dict exDict).text
    = [123, 39, 97, 92, 120, 48, 97, 92, 117, 48, 48, 101, 52, 39, 58, 32, 91, 49, 44, 32, 45, 50, 44, 32, 49, 46, 53, 93, 44, 32, 34, 107, 34, 58, 32, 123, 78, 111, 110, 101, 44, 32, 55, 48, 48, 48, 48, 44, 32, 125, 125] := by decide

theorem exDict_ok : (Cst.dict exDict).ok someStod := by
  simp [Cst.ok, exDict, DItems.ok, exItems, exSet, Items.ok, Items.hashable, Items.nonempty, Cst.hashable, Ws, SignOk,
    Digits, Piece.ok, intVal, intVal.digitsNum, someStod]

/-- The hypotheses of `literal_eval_small` hold for it, and `literal_eval` gives the value. -/
example : literalEval someStod ([32, 123, 39, 97, 92, 120, 48, 97, 92, 117, 48, 48, 101, 52, 39, 58, 32, 91, 49, 44, 32, 45, 50, 44, 32, 49, 46, 53, 93, 44, 32, 34, 107, 34, 58, 32, 123, 78, 111, 110, 101, 44, 32, 55, 48, 48, 48, 48, 44, 32, 125, 125, 32])
    = .ok (.ok (.dict [
        (.str [97, 10, 0xe4], .list [.int 1, .int (-2), .float 0x3FF8000000000000]),
        (.str [107], .set [.none, .int 70000])])) := by
  have h := literal_eval_small someStod someStod_bits (.dict exDict) exDict_ok [32] [32]
    (by intro c hc; simp at hc; omega) (by intro c hc; simp at hc; omega) (by decide) (by decide)
    (by simp [Cst.allInt, exDict, DItems.allInt, exItems, exSet, Items.allInt, Int32, intVal, intVal.digitsNum])
  exact h

/-- The result of the library on a text. -/
def run (inp : List Nat) : Run (Nat × List Nat) := pyToPickleC someStod inp (inp.length + 1000)

/-- `[1, 2]` as protocol 3 pickle. -/
example : run ([91, 49, 44, 32, 50, 93]) = .ok (0, [0x80, 3, 93, 40, 75, 1, 75, 2, 101, 46]) := by decide +kernel

/-- Errors: no literal, a list which does not end, `True`, a tuple. -/
example : run [] = .ok (1, [0x80, 3]) := by decide +kernel
example : run ([91, 49, 44, 32, 50]) = .ok (1, [0x80, 3, 93, 40, 75, 1, 75, 2, 46]) := by decide +kernel
example : run ([84, 114, 117, 101]) = .ok (1, [0x80, 3]) := by decide +kernel
example : run ([40, 49, 44, 32, 50, 41]) = .ok (1, [0x80, 3]) := by decide +kernel
/-- Too small a buffer. -/
example : pyToPickleC someStod ([91, 49, 44, 32, 50, 93]) 9 = .ok (2, [0x80, 3, 93, 40, 75, 1, 75, 2, 101]) := by decide +kernel

/-! ### Disagreements with Python -/

/-- Not the value of the literal: integers from `2 ^ 31` on wrap around. -/
theorem int_wraps : literalEval someStod ([50, 49, 52, 55, 52, 56, 51, 54, 52, 56]) = .ok (.ok (.int (-2147483648))) := by
  obtain ⟨b, e1, e2⟩ := literal_loads someStod someStod_bits (.int none ([50, 49, 52, 55, 52, 56, 51, 54, 52, 56]))
    (by simp [Cst.ok, SignOk, Digits, intVal, intVal.digitsNum]) [] [] (by intro c hc; simp at hc) (by intro c hc; simp at hc)
    (by decide) (by decide)
  unfold literalEval
  simp only [List.nil_append, List.append_nil, Cst.text, Option.toList_none] at e1
  rw [e1]
  simp only [e2]
  rfl

/-- A float which begins with the point terminates the process. -/
theorem leading_point_crash (stod : List Nat → Option Nat) (ds : List Nat) (h : Digits ds) :
    literalEval stod (46 :: ds) = .error (.other "terminated") := by
  have hnum : ∀ c ∈ ds, isNumChar c = true := by
    intro c hc
    have := h c hc
    simp [isNumChar, isDigit, this]
  have hl : numLoop ds = (ds, none, []) := by
    clear h
    induction ds with
    | nil => rfl
    | cons c r ih => rw [numLoop, if_pos (hnum c (by simp)), ih (fun x hx => hnum x (by simp [hx]))]
  have hcode : numCode stod 46 ds = .error .crash := by
    unfold numCode
    have hno : ds.any (· == 46) = false := by
      rw [List.any_eq_false]
      intro c hc
      have := h c hc
      simp; omega
    simp [hno, stol, strtol, strtolDigits, isDigit, isSpace]
  unfold literalEval pyToPickle pyToPickleC fullPass fuel
  simp only
  generalize hcap : (46 :: ds).length + 1000 = cap
  generalize hst0 : write cap (write cap ⟨46 :: ds, [], false, false⟩ [0x80]) [3] = st0
  have hin0 : st0.inp = 46 :: ds := by rw [← hst0, write_inp, write_inp]
  rw [parse, hin0]
  simp [isSpace, isNumChar, isDigit, parseNum, hl, hcode]

/-- `1e5` gives 1, `0x10` gives 0, `'a' 'b'` gives `'a'`, three quotes give the empty string. -/
example : run ([49, 101, 53]) = run ([49]) := by decide +kernel
example : run ([48, 120, 49, 48]) = run ([48]) := by decide +kernel
example : run ([39, 97, 39, 32, 39, 98, 39]) = run ([39, 97, 39]) := by decide +kernel
example : run ([34, 34, 34, 97, 98, 99, 34, 34, 34]) = run ([34, 34]) := by decide +kernel
/-- A backslash at the end of a line stands for a line end, not for nothing. -/
example : run ([39, 97, 92, 10, 98, 39]) = run ([39, 97, 92, 110, 98, 39]) := by decide +kernel
/-- Accepted although Python has no such literal. -/
example : run ([123, 49, 58, 125]) = run ([123, 49, 125]) := by decide +kernel
example : run ([91, 49, 44, 44, 50, 93]) = run ([91, 49, 44, 50, 93]) := by decide +kernel
example : run ([91, 44, 93]) = run ([91, 93]) := by decide +kernel
/-- A key which is not hashable: accepted by the converter, rejected by `pickle.loads`. -/
example : run ([123, 91, 93, 58, 49, 125]) = .ok (0, [0x80, 3, 125, 40, 93, 40, 101, 75, 1, 117, 46]) := by decide +kernel
example : loads [0x80, 3, 125, 40, 93, 40, 101, 75, 1, 117, 46] = .error .unhashable := rfl

end Verif.PyPickle
