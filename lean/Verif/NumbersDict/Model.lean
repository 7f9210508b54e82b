import Verif.Util.Dict
/-
Model of `returnn/util/basic.py` `NumbersDict` (1868-2266).
`None` is `Option.none`. Values in the dict can be `None` (results of `elem_eq`).
-/
namespace Verif.NumbersDict
open Verif.Py

/-- `NumbersDict` (basic.py 1895-1896): explicit items and the optional broadcast value. -/
structure ND (K V : Type) where
  dict : Dict K (Option V) := []
  value : Option V := none
deriving DecidableEq, Repr

variable {K V W : Type} [DecidableEq K]

/-- basic.py 1874-1897: `NumbersDict(x)` for a number `x`. -/
def ofScalar (v : V) : ND K V := ⟨[], some v⟩

/-- basic.py 1874-1897: `NumbersDict(d)` for a dict `d`. -/
def ofDict (d : Dict K V) : ND K V := ⟨d.map (fun e => (e.1, some e.2)), none⟩

/-- basic.py 1905-1916 `constant_like`. -/
def constantLike (v : V) (n : ND K W) : ND K V :=
  ⟨n.dict.map (fun e => (e.1, some v)), if n.value.isSome then some v else none⟩

/-- basic.py 1942-1953 `keys_union` of two: the loop over the second's keys, `seen` are the keys so far. -/
def keysUnionLoop : List K → List K → List K
  | seen, [] => seen
  | seen, k :: ks => if k ∈ seen then keysUnionLoop seen ks else keysUnionLoop (seen ++ [k]) ks

/-- basic.py 1942-1953 `keys_union(self, other)`. -/
def keysUnion (a : ND K V) (b : ND K W) : List K := keysUnionLoop (keysUnionLoop [] a.dict.keys) b.dict.keys

/-- basic.py 1969-1976 `get(key, None)`. -/
def get (a : ND K V) (k : K) : Option V := (a.dict.get? k).getD a.value

/-- basic.py 1955-1958 `__getitem__`. -/
def getItem (a : ND K V) (k : K) : Res (Option V) :=
  match a.value with
  | some v => .ok ((a.dict.get? k).getD (some v))
  | none => a.dict.getItem k

/-- basic.py 1999-2003 `values()`. -/
def values (a : ND K V) : List (Option V) := a.dict.values ++ (if a.value.isSome then [a.value] else [])

/-- basic.py 1918-1931 `copy_like`. (`self[k]` cannot fail at these places.) -/
def copyLike (a : ND K V) (n : ND K W) : ND K V :=
  if a.value.isSome then
    ⟨n.dict.map (fun e => (e.1, get a e.1)), if n.value.isSome then a.value else none⟩
  else
    ⟨(n.dict.filter (fun e => a.dict.contains e.1)).map (fun e => (e.1, get a e.1)), none⟩

/-- basic.py 2023-2034 `unary_op`. -/
def unaryOp (op : V → W) (a : ND K V) : ND K W := ⟨a.dict.map (fun e => (e.1, e.2.map op)), a.value.map op⟩

/-- basic.py 2036-2051 `bin_op_scalar_optional`. -/
def binOpScalarOptional (a b zero : Option V) (op : Option V → Option V → Option W) : Option W :=
  match a, b with
  | none, none => none
  | none, some b => op zero (some b)
  | some a, none => op (some a) zero
  | some a, some b => op (some a) (some b)

/-- basic.py 2073-2074: the loop of `bin_op` into a separate result. -/
def binOpLoop (a b : ND K V) (op : Option V → Option V → Option W) (zero : Option V) :
    List K → Dict K (Option W) → Dict K (Option W)
  | [], r => r
  | k :: ks, r => binOpLoop a b op zero ks (r.set k (binOpScalarOptional (get a k) (get b k) zero op))

/-- basic.py 2053-2076 `bin_op` of two `NumbersDict` with `result=None`. -/
def binOp (a b : ND K V) (op : Option V → Option V → Option W) (zero : Option V) : ND K W :=
  ⟨binOpLoop a b op zero (keysUnion a b) [], binOpScalarOptional a.value b.value zero op⟩

/-- basic.py 2073-2074: the loop of `bin_op` with `result=self` (in-place operators): `self` changes in the loop. -/
def iBinOpLoop (b : ND K V) (op : Option V → Option V → Option V) (zero : Option V) : List K → ND K V → ND K V
  | [], a => a
  | k :: ks, a =>
    iBinOpLoop b op zero ks { a with dict := a.dict.set k (binOpScalarOptional (get a k) (get b k) zero op) }

/-- basic.py 2053-2076 `bin_op` with `result=self` (`+=`, `-=`, `*=`, ...), `other` is a different object. -/
def iBinOp (a b : ND K V) (op : Option V → Option V → Option V) (zero : Option V) : ND K V :=
  let a' := iBinOpLoop b op zero (keysUnion a b) a
  { a' with value := binOpScalarOptional a'.value b.value zero op }

/-- basic.py 2073-2074: the same where `other is self` (`d += d`). -/
def selfBinOpLoop (op : Option V → Option V → Option V) (zero : Option V) : List K → ND K V → ND K V
  | [], a => a
  | k :: ks, a =>
    selfBinOpLoop op zero ks { a with dict := a.dict.set k (binOpScalarOptional (get a k) (get a k) zero op) }

/-- basic.py 2053-2076 `bin_op` with `result=self` and `other is self`. -/
def selfBinOp (a : ND K V) (op : Option V → Option V → Option V) (zero : Option V) : ND K V :=
  let a' := selfBinOpLoop op zero (keysUnion a a) a
  { a' with value := binOpScalarOptional a'.value a'.value zero op }

/-- A Python binary operator on numbers (never called with `None`, where it would raise). -/
def lift2 (f : V → V → W) : Option V → Option V → Option W
  | some a, some b => some (f a b)
  | _, _ => none

/-- basic.py 2078-2079 `__add__` (both `NumbersDict`). -/
def add (a b : ND K Int) : ND K Int := binOp a b (lift2 (· + ·)) (some 0)
/-- basic.py 2086-2087 `__sub__`. -/
def sub (a b : ND K Int) : ND K Int := binOp a b (lift2 (· - ·)) (some 0)
/-- basic.py 2095-2096 `__mul__`. -/
def mul (a b : ND K Int) : ND K Int := binOp a b (lift2 (· * ·)) (some 1)
/-- basic.py 2114-2115 `__floordiv__` (a zero divisor raises in Python; not modelled). -/
def floordiv (a b : ND K Int) : ND K Int := binOp a b (lift2 Int.fdiv) (some 1)
/-- basic.py 2120-2121 `__neg__`. -/
def neg (a : ND K Int) : ND K Int := unaryOp (fun x => -x) a
/-- basic.py 2063-2069: `nd + number`, `number + nd` (`__radd__ = __add__`). -/
def addScalar (a : ND K Int) (v : Int) : ND K Int := add a (constantLike v a)
/-- basic.py 2063-2069: `nd * number`. -/
def mulScalar (a : ND K Int) (v : Int) : ND K Int := mul a (constantLike v a)
/-- basic.py 2089-2090 `number - nd`. -/
def rsubScalar (a : ND K Int) (v : Int) : ND K Int := binOp a (constantLike v a) (lift2 (fun x y => y - x)) (some 0)
/-- basic.py 2083-2084 `__iadd__`. -/
def iadd (a b : ND K Int) : ND K Int := iBinOp a b (lift2 (· + ·)) (some 0)

/-- basic.py 2143-2153: `op` of `elem_eq`. -/
def eqOp [DecidableEq V] : Option V → Option V → Option Bool
  | some a, some b => some (decide (a = b))
  | _, _ => none

/-- basic.py 2128-2158 `elem_eq`. -/
def elemEq [DecidableEq V] (a b : ND K V) (withDefault : Bool := true) : ND K Bool :=
  let r := binOp a b eqOp none
  if withDefault then r else { r with value := none }

/-- basic.py 2160-2165 `__eq__`: `all` of the values, `None` is falsy. -/
def eq [DecidableEq V] (a b : ND K V) : Bool := (values (elemEq a b)).all (fun x => x = some true)

/-- basic.py 2123-2124 `__bool__` for numbers. -/
def toBool (a : ND K Int) : Bool := (values a).any (fun x => match x with | some v => decide (v ≠ 0) | none => false)

/-- basic.py 2184-2190: the loop of `any_compare`. -/
def anyCompareLoop (a b : ND K V) (cmp : V → V → Bool) : List K → Res Bool
  | [] => .ok false
  | k :: ks => do
    let x ← getItem a k
    if b.dict.contains k then do
      let y ← getItem b k
      match x, y with
      | some x, some y => if cmp x y then .ok true else anyCompareLoop a b cmp ks
      | _, _ => .error .typeError
    else
      match b.value with
      | none => anyCompareLoop a b cmp ks
      | some y =>
        match x with
        | some x => if cmp x y then .ok true else anyCompareLoop a b cmp ks
        | none => .error .typeError

/-- basic.py 2179-2194 `any_compare`. (`cmp` on `None` raises a TypeError.) -/
def anyCompare (a b : ND K V) (cmp : V → V → Bool) : Res Bool := do
  if ← anyCompareLoop a b cmp a.dict.keys then .ok true
  else
    match a.value, b.value with
    | some x, some y => .ok (cmp x y)
    | _, _ => .ok false

/-- basic.py 2196-2203 `_max` of two. -/
def maxOp : Option Int → Option Int → Option Int
  | none, b => b
  | a, none => a
  | some a, some b => some (max a b)

/-- basic.py 2205-2212 `_min` of two. -/
def minOp : Option Int → Option Int → Option Int
  | none, b => b
  | a, none => a
  | some a, some b => some (min a b)

/-- basic.py 2214-2226 `max(items)` for `NumbersDict` items. -/
def maxList : List (ND K Int) → Res (ND K Int)
  | [] => .error .assertion
  | [a] => .ok a
  | [a, b] => .ok (binOp a b maxOp none)
  | a :: rest => do
    let r ← maxList rest
    .ok (binOp a r maxOp none)

/-- basic.py 2228-2239 `min(items)` for `NumbersDict` items. -/
def minList : List (ND K Int) → Res (ND K Int)
  | [] => .error .assertion
  | [a] => .ok a
  | [a, b] => .ok (binOp a b minOp none)
  | a :: rest => do
    let r ← minList rest
    .ok (binOp a r minOp none)

/-- Python `max(l)` / `min(l)` of a list of numbers: fails for an empty list, and for `None`
(except that Python gives `None` for the single element `None`; here this is an error as well). -/
def pyExtremum (better : Int → Int → Int) : List (Option Int) → Res Int
  | [] => .error .valueError
  | [some a] => .ok a
  | [none] => .error .typeError
  | some a :: rest => do
    let r ← pyExtremum better rest
    .ok (better a r)
  | none :: _ => .error .typeError

/-- basic.py 2246-2250 `max_value`. -/
def maxValue (a : ND K Int) : Res Int := pyExtremum max (values a)
/-- basic.py 2252-2256 `min_value`. -/
def minValue (a : ND K Int) : Res Int := pyExtremum min (values a)

end Verif.NumbersDict
