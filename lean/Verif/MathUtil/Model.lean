import Verif.Util.Py
import Verif.Util.Dict
/-
Model of `returnn/util/math.py`. Python ints are `Int`, floats are replaced by exact rationals.
-/
namespace Verif.MathUtil
open Verif.Py

/-- math.py 12-14 `ceil_div`: `-(-a // b)`. -/
def ceilDiv (a b : Int) : Res Int := if b = 0 then .error .zeroDivision else .ok (-(Int.fdiv (-a) b))

/-- Python `int.bit_length` of a non-negative number. -/
def bitLength (n : Nat) : Nat := if n = 0 then 0 else bitLength (n / 2) + 1

/-- math.py 17-19 `next_power_of_two`: `2 ** int(n - 1).bit_length()`; `bit_length` ignores the sign. -/
def nextPowerOfTwo (n : Int) : Int := 2 ^ bitLength (n - 1).natAbs

/-- The common arguments of `PiecewiseLinear` and `StepFunction` (math.py 28-45, 92-108). -/
structure CallOpts where
  kwName : Option String := none
  ignoreOtherKwargs : Bool := false

/-- Remove the first entry with that key: `kwargs.pop(k, None)`. -/
def popKw (kwargs : List (String × Option Rat)) (k : String) : Option Rat × List (String × Option Rat) :=
  match kwargs with
  | [] => (none, [])
  | (k', v) :: r => if k' = k then (v, r) else let (x, r') := popKw r k; (x, (k', v) :: r')

/-- math.py 66-78 and 129-141: get `x` from the arguments of the call. An empty `kw_name` counts as not given. -/
def selectArg (o : CallOpts) (args : List (Option Rat)) (kwargs : List (String × Option Rat)) : Res Rat := do
  let (x, kwargs) ←
    if o.kwName.getD "" ≠ "" then
      if args ≠ [] then .error .typeError
      else .ok (popKw kwargs (o.kwName.getD ""))
    else
      match args with
      | [x] => .ok (x, kwargs)
      | _ => .error .typeError
  if !o.ignoreOtherKwargs && kwargs ≠ [] then .error .typeError
  else
    match x with
    | none => .error .assertion
    | some x => .ok x

/-- The loop of `bisect.bisect_left(keys, x)` of the Python library. -/
def bisectLoop (keys : List Rat) (x : Rat) : Nat → Nat → Nat → Nat
  | 0, lo, _ => lo
  | fuel + 1, lo, hi =>
    if lo < hi then
      let mid := (lo + hi) / 2
      if (keys[mid]?).getD 0 < x then bisectLoop keys x fuel (mid + 1) hi
      else bisectLoop keys x fuel lo mid
    else lo

/-- `bisect.bisect_left(keys, x)`. -/
def bisectLeft (keys : List Rat) (x : Rat) : Nat := bisectLoop keys x keys.length 0 keys.length

/-- `sorted(values.keys())`. -/
def sortedKeys {V : Type} (values : Dict Rat V) : List Rat := stableSort (fun a b => decide (a ≤ b)) values.keys

/-- math.py 142-149, the lookup of `StepFunction.__call__`. -/
def stepLookup {V : Type} (values : Dict Rat V) (x : Rat) : Res V := do
  let keys := sortedKeys values
  pyAssert (decide (keys ≠ []))
  let i := bisectLeft keys x
  let k ←
    if i ≥ keys.length then getItem keys (i - 1)
    else do
      let cur ← getItem keys i
      if i > 0 then do
        let prev ← getItem keys (i - 1)
        if x - prev ≤ cur - x then .ok prev else .ok cur
      else .ok cur
  values.getItem k

/-- math.py 104-108 and 129-149: construct the `StepFunction` and call it. -/
def stepFunction {V : Type} (values : Dict Rat V) (o : CallOpts) (args : List (Option Rat))
    (kwargs : List (String × Option Rat)) : Res V := do
  pyAssert (decide (values.keys ≠ []))
  let x ← selectArg o args kwargs
  stepLookup values x

/-- `numpy.interp` between the sample points, `p` is the last one which is not after `x`. -/
def interpFrom (p : Rat × Rat) : List (Rat × Rat) → Rat → Rat
  | [], _ => p.2
  | q :: r, x => if x < q.1 then (q.2 - p.2) / (q.1 - p.1) * (x - p.1) + p.2 else interpFrom q r x

/-- `numpy.interp(x, xp, fp)` for sorted sample points. -/
def interp : List (Rat × Rat) → Rat → Res Rat
  | [], _ => .error .valueError
  | p :: r, x => .ok (if x < p.1 then p.2 else interpFrom p r x)

/-- math.py 41-45, 66-81: construct the `PiecewiseLinear` and call it. -/
def piecewiseLinear (values : Dict Rat Rat) (o : CallOpts) (args : List (Option Rat))
    (kwargs : List (String × Option Rat)) : Res Rat := do
  let x ← selectArg o args kwargs
  interp (stableSort (fun a b : Rat × Rat => decide (a.1 < b.1 ∨ (a.1 = b.1 ∧ a.2 ≤ b.2))) values) x

/-- `s.rstrip(c)`. -/
def rstrip (c : Char) (s : List Char) : List Char := (s.reverse.dropWhile (· == c)).reverse

/-- math.py 152-157 `simplify_and_format_number` on the string `str(n)`. -/
def simplifyFormat (s : List Char) : List Char := rstrip '.' (rstrip '0' s)

/-- `int(n).to_bytes(8, "big", signed=True)`, the `i`-th byte from the end. -/
def toBytes8 (n : Int) : Res (List Nat) :=
  if -9223372036854775808 ≤ n ∧ n < 9223372036854775808 then
    let u := (n % 18446744073709551616).toNat
    .ok [u / 256 ^ 7 % 256, u / 256 ^ 6 % 256, u / 256 ^ 5 % 256, u / 256 ^ 4 % 256,
      u / 256 ^ 3 % 256, u / 256 ^ 2 % 256, u / 256 % 256, u % 256]
  else .error (.other "OverflowError")

/-- math.py 168: the bytes which are hashed. -/
def seedBytes : List Int → Res (List Nat)
  | [] => .ok []
  | n :: ns => do
    let a ← toBytes8 n
    let b ← seedBytes ns
    .ok (a ++ b)

/-- `int.from_bytes(b, "big", signed=False)`. -/
def fromBytes (b : List Nat) : Nat := b.foldl (fun acc x => 256 * acc + x) 0

/-- math.py 160-173 `merge_random_seeds`; the hash function is a parameter. -/
def mergeRandomSeeds (sha256 : List Nat → List Nat) (sources : List Int) (numBytes : Nat) (signed : Bool) : Res Int := do
  let combined ← seedBytes sources
  let b := (sha256 combined).take numBytes
  let u := fromBytes b
  .ok (if signed && decide (2 * u ≥ 256 ^ b.length) && decide (b ≠ []) then (u : Int) - 256 ^ b.length else u)

end Verif.MathUtil
