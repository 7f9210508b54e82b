import Mathlib.Algebra.Order.Field.Rat
import Verif.Util.Py
/-
Model of `Stats` in `returnn/util/basic.py:3954-4045`.

Simplifications: exact rationals instead of floats; one coordinate (for data of shape (time, dim), all numpy operations
used here work on every coordinate alone, with the same length).
-/
namespace Verif.Stats
open Verif.Py

/-- The fields, basic.py:3961-3973. -/
structure St where
  mean : ℚ := 0
  meanSq : ℚ := 0
  var : ℚ := 0
  min : Option ℚ := none
  max : Option ℚ := none
  totalLen : Nat := 0
  numSeqs : Nat := 0
deriving DecidableEq

/-- `numpy.mean`. -/
def npMean (l : List ℚ) : ℚ := l.sum / l.length

/-- `numpy.var` (population variance). -/
def npVar (l : List ℚ) : ℚ := (l.map (fun x => (x - npMean l) * (x - npMean l))).sum / l.length

/-- `numpy.min` / `numpy.max` of data with at least one element. -/
def npMin : List ℚ → ℚ
  | [] => 0
  | x :: l => l.foldl Min.min x

def npMax : List ℚ → ℚ
  | [] => 0
  | x :: l => l.foldl Max.max x

/-- basic.py:3994-4026 `collect`. -/
def collect (s : St) (data : List ℚ) : St :=
  if data.length = 0 then s
  else
    let mn := npMin data
    let mx := npMax data
    let n : ℚ := data.length
    let newTotal := s.totalLen + data.length
    let meanDiff := npMean data - s.mean
    let ma := s.var * s.totalLen
    let mb := npVar data * n
    let m2 := ma + mb + meanDiff * meanDiff * s.totalLen * n / newTotal
    let delta := data.sum - s.mean * n
    let deltaSq := (data.map (fun x => x * x)).sum - s.meanSq * n
    { numSeqs := s.numSeqs + 1
      min := some (match s.min with | none => mn | some m => Min.min m mn)
      max := some (match s.min, s.max with | some _, some m => Max.max m mx | _, _ => mx)
      var := m2 / newTotal
      mean := s.mean + delta / newTotal
      meanSq := s.meanSq + deltaSq / newTotal
      totalLen := newTotal }

/-- Several calls of `collect` on a new object. -/
def collectAll (chunks : List (List ℚ)) : St := chunks.foldl collect {}

/-- basic.py:4028-4034 `get_mean`. -/
def getMean (s : St) : Res ℚ := if s.numSeqs > 0 then .ok s.mean else .error .assertion

/-- basic.py:4036-4044 `get_std_dev`, before the square root. -/
def getVar (s : St) : Res ℚ := if s.numSeqs > 0 then .ok s.var else .error .assertion

end Verif.Stats
