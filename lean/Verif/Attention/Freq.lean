import Mathlib.Analysis.SpecialFunctions.Pow.Real
import Verif.Util.Py
/-!
The frequencies of /repo/returnn/frontend/attention.py `sinusoidal_positional_encoding`.
-/

namespace Verif.Attention
open Verif.Py

/-- attention.py 1002-1005: the frequencies of `sinusoidal_positional_encoding`, for `d` features. -/
noncomputable def divTerm (base : ℝ) (d : Nat) (i : Nat) : ℝ := Real.exp ((i : ℝ) * -(Real.log base / (((d / 2 : Nat) : ℝ) - 1)))

/-- The division by `feat2_dim.dimension - 1` is one of Python floats. -/
noncomputable def divTermPy (base : ℝ) (d : Nat) (i : Nat) : Res ℝ := if d / 2 = 1 then .error .zeroDivision else .ok (divTerm base d i)

/-- attention.py 291, 328: the base for rotary positions. -/
noncomputable def ropeBase (d : Nat) : ℝ := (10000 : ℝ) ^ ((1 : ℝ) - 2 / (d : ℝ))

end Verif.Attention
