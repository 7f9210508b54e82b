import Verif.Util.Py
/-
Model of the arithmetic on `Dim`, `returnn/tensor/_dim_extra.py` 2077-2292, 2317-2854, 1099-1292, 1949-1997.

Simplifications: a dim is the tree of its `derived_from_op`; `same_as` and batch/control flow contexts are left out. An int operand
is the constant dim which `_make_dim` makes of it. The kinds (batch, spatial, feature) are left out; they only matter for the
equality of dims, which is a parameter here (`Params.eq`), as is the content of the caches of results (`Params.cache`), so that the
theorems hold for every equality which only identifies equal dims, and for every content of the caches which has the right values.
-/
namespace Verif.DimMath
open Verif.Py

/-- `floordiv`, `ceildiv`, `truediv`. -/
inductive DK where
  | floor | ceil | exact
deriving DecidableEq, Repr

/-- A `Dim`: user dims (`dim` is the static size or `None`), `_make_constant_static_dim` (2317-2329), and the `derived_from_op` kinds
`add`, `mul`, `floordiv_right`, `floordiv_left`, and so on (inputs are numerator and denominator). -/
inductive D where
  | base (id : Nat) (dim : Option Int)
  | const (v : Int)
  | add (a b : D)
  | mul (a b : D)
  | div (k : DK) (right : Bool) (num den : D)
deriving DecidableEq, Repr

/-- The keys of the caches. -/
inductive CK where
  | add | addLeft | sub | subLeft | mul | mulLeft | div (k : DK) (right : Bool)
deriving DecidableEq, Repr

structure Params where
  /-- `Dim.__eq__` -/
  eq : D → D → Bool
  /-- `cache_dim_math` of the first dim -/
  cache : CK → D → D → Option D

/-- Python `-(-a // b)`. -/
def ceilDiv (a b : Int) : Int := -((-a).fdiv b)

/-- The size of a quotient: 2655-2666, 1250-1253. -/
def quot : DK → Int → Int → Int
  | .floor, a, b => a.fdiv b
  | .ceil, a, b => ceilDiv a b
  | .exact, a, b => a.fdiv b

def lift2 (f : Int → Int → Int) : Option Int → Option Int → Option Int
  | some a, some b => some (f a b)
  | _, _ => none

/-- `dimension`: 2343-2346, 2651-2666. -/
def D.dimension : D → Option Int
  | .base _ d => d
  | .const v => some v
  | .add a b => lift2 (· + ·) a.dimension b.dimension
  | .mul a b => lift2 (· * ·) a.dimension b.dimension
  | .div k _ a b => lift2 (quot k) a.dimension b.dimension

/-- 2288-2292 `is_constant_static_dim` -/
def D.isConst : D → Bool
  | .const _ => true
  | _ => false

/-- 2332-2355 `_math_get_dim_via_bin_op` for "mul" -/
def binMul (P : Params) (a b : D) : D :=
  match (if a.isConst && !b.isConst then P.cache .mulLeft b a else P.cache .mul a b) with
  | some r => r
  | none => .mul a b

/-- 2332-2355 `_math_get_dim_via_bin_op` for "add" -/
def binAdd (P : Params) (a b : D) : D :=
  match (if a.isConst && !b.isConst then P.cache .addLeft b a else P.cache .add a b) with
  | some r => r
  | none => .add a b

/-! ### `_OpMultTerm`: a list of factors -/

/-- 2417-2428 `from_dim` -/
def multFromDim : D → List D
  | .const v => if v = 1 then [] else [.const v]
  | .mul a b => [a, b]
  | d => [d]

/-- 2463-2471 `dimension` -/
def multDimension : List D → Option Int
  | [] => some 1
  | d :: ds => lift2 (· * ·) d.dimension (multDimension ds)

/-- 2482-2486 `is_constant_static_dim` -/
def multIsConst (t : List D) : Bool := t.all D.isConst

/-- 2700-2711 `as_dim` -/
def multAsDim (P : Params) : List D → D
  | [] => .const 1
  | d :: ds => ds.foldl (binMul P) d

/-- 2557-2561, 2605-2607: `term` is a quotient by `other`; the result is the numerator. -/
def cancelTerm (P : Params) (right : Bool) (term other : D) : Option D :=
  match term with
  | .div .exact r num den => if r = right ∧ P.eq den other = true then some num else none
  | _ => none

/-- 2614-2620: product of two constants; `some none` is for one. -/
def mulConsts : D → D → Option (Option D)
  | .const a, .const b => some (if a * b = 1 then none else some (.const (a * b)))
  | _, _ => none

/-- 2557-2567 and 2604-2620: what becomes of `term` if it can be simplified with the new factor `other` (`none`: it cannot be; `some
none`: the term is removed). -/
def simplifyMul (P : Params) (right : Bool) (term other : D) : Option (Option D) :=
  match cancelTerm P right term other with
  | some n => some (some n)
  | none =>
    match cancelTerm P (!right) other term with
    | some n => some (some n)
    | none => mulConsts term other

/-- 2556: the first factor (from the left) which can be simplified. -/
def simplifyFirst (P : Params) (right : Bool) (other : D) : List D → Option (List D)
  | [] => none
  | t :: ts =>
    match simplifyMul P right t other with
    | some none => some ts
    | some (some n) => some (n :: ts)
    | none => (simplifyFirst P right other ts).map (t :: ·)

/-- 2556: in reversed order for `right`. -/
def simplifyAny (P : Params) (right : Bool) (other : D) (terms : List D) : Option (List D) :=
  if right then (simplifyFirst P right other terms.reverse).map List.reverse else simplifyFirst P right other terms

/-- 2597-2620, 2634-2639: `extend_mul_div_` for "mul" with one factor -/
def multMul1 (P : Params) (right : Bool) (other : D) (terms : List D) : List D :=
  match simplifyAny P right other terms with
  | some r => r
  | none => if right then terms ++ [other] else other :: terms

/-- 2578-2640 `extend_mul_div_` for "mul" -/
def multMul (P : Params) (right : Bool) : D → List D → List D
  | .mul a b, terms =>
    if terms = [] then [.mul a b]
    else if right then multMul P right b (multMul P right a terms)
    else multMul P right a (multMul P right b terms)
  | other, terms =>
    if other = .const 1 then terms
    else if terms = [] then [other]
    else multMul1 P right other terms

/-- 2492-2498 `negative` -/
def multNegative (P : Params) (terms : List D) : List D :=
  match terms with
  | .const v :: ts => if v = -1 then ts else multMul P false (.const (-1)) terms
  | _ => multMul P false (.const (-1)) terms

/-- 2431-2436 `from_dim_factors` -/
def fromFactors (P : Params) (ds : List D) : List D := ds.foldl (fun t d => multMul P true d t) []

/-- 2524-2540 `can_simplify` for "mul" -/
def canSimplify (P : Params) (right : Bool) : D → List D → Bool
  | .mul a b, terms =>
    if right then canSimplify P right a terms && canSimplify P right b (multMul P right a terms)
    else canSimplify P right b terms && canSimplify P right a (multMul P right b terms)
  | other, terms => (simplifyAny P right other terms).isSome

/-! ### `_OpLinearTerm`: a list of products -/

/-- 2746-2755 `as_dim` -/
def linAsDim (P : Params) : List (List D) → D
  | [] => .const 0
  | t :: ts => (ts.map (multAsDim P)).foldl (binAdd P) (multAsDim P t)

/-- `terms[-1 if right else 0]` -/
def mostRecent {α : Type} (right : Bool) (l : List α) : Option α := if right then l.getLast? else l.head?

/-- `terms.pop(-1 if right else 0)` -/
def popRecent {α : Type} (right : Bool) (l : List α) : List α := if right then l.dropLast else l.tail

/-- 2806-2809 -/
def pushRecent {α : Type} (right : Bool) (l : List α) (x : α) : List α := if right then l ++ [x] else x :: l

/-- `==` of lists of dims -/
def eqList (P : Params) : List D → List D → Bool
  | [], [] => true
  | a :: as, b :: bs => P.eq a b && eqList P as bs
  | _, _ => false

/-- 2794: the last factors are equal. -/
def sameLast (P : Params) (m t : List D) : Option (D × D) :=
  match m.getLast?, t.getLast? with
  | some x, some y => if P.eq x y then some (x, y) else none
  | _, _ => none

mutual
/-- 2766-2809 `extend_add_sub_` (the first argument is the recursion limit of Python) -/
def linAdd (P : Params) : Nat → D → Bool → Bool → List (List D) → Res (List (List D))
  | 0, _, _, _, _ => .error (.other "RecursionError")
  | fuel + 1, other, sub, right, terms =>
    match other with
    | .const 0 => .ok terms
    | .add a b =>
      if right then do
        let terms ← linAdd P fuel a sub right terms
        linAdd P fuel b sub right terms
      else do
        let terms ← linAdd P fuel b sub right terms
        linAdd P fuel a sub right terms
    | other =>
      let pos := multFromDim other
      let neg := multNegative P pos
      linAdd1 P fuel (if sub then neg else pos) (if sub then pos else neg) right terms

/-- 2784-2809 -/
def linAdd1 (P : Params) : Nat → List D → List D → Bool → List (List D) → Res (List (List D))
  | 0, _, _, _, _ => .error (.other "RecursionError")
  | fuel + 1, term, negTerm, right, terms =>
    match mostRecent right terms with
    | none => .ok (pushRecent right terms term)
    | some m =>
      if eqList P m negTerm then .ok (popRecent right terms)
      else if multIsConst m && multIsConst term then
        match multDimension m, multDimension term with
        | some x, some y => .ok (pushRecent right (popRecent right terms) (multFromDim (.const (x + y))))
        | _, _ => .error .typeError
      else
        match sameLast P m term with
        | some (_, l) => do
          let a := multAsDim P (fromFactors P m.dropLast)
          let b := multAsDim P (fromFactors P term.dropLast)
          let s ← addMerged P fuel right a b
          .ok (pushRecent right (popRecent right terms) (multMul P true l (multFromDim s)))
        | none => .ok (pushRecent right terms term)

/-- 2798-2802: `a + b` or `b + a`, where one of them may be an int -/
def addMerged (P : Params) : Nat → Bool → D → D → Res D
  | 0, _, _, _ => .error (.other "RecursionError")
  | fuel + 1, right, a, b =>
    if a.isConst && !b.isConst then (if right then dRadd P fuel b a else dAdd P fuel b a)
    else if b.isConst && !a.isConst then (if right then dAdd P fuel a b else dRadd P fuel a b)
    else (if right then dAdd P fuel a b else dAdd P fuel b a)

/-- 2077-2093 `__add__` -/
def dAdd (P : Params) : Nat → D → D → Res D
  | 0, _, _ => .error (.other "RecursionError")
  | fuel + 1, a, b =>
    match P.cache .add a b with
    | some r => .ok r
    | none => do
      let t ← linAdd P fuel a false true []
      let t ← linAdd P fuel b false true t
      .ok (linAsDim P t)

/-- 2095-2111 `__radd__`: `other + self` -/
def dRadd (P : Params) : Nat → D → D → Res D
  | 0, _, _ => .error (.other "RecursionError")
  | fuel + 1, a, b =>
    match P.cache .addLeft a b with
    | some r => .ok r
    | none => do
      let t ← linAdd P fuel a false true []
      let t ← linAdd P fuel b false false t
      .ok (linAsDim P t)
end

/-- 2720-2725 `from_dim` -/
def linFromDim (P : Params) (fuel : Nat) (d : D) : Res (List (List D)) := linAdd P fuel d false true []

/-- 2120-2136 `sub_right`: `self - other` -/
def dSub (P : Params) (fuel : Nat) (a b : D) : Res D :=
  match P.cache .sub a b with
  | some r => .ok r
  | none => do
    let t ← linFromDim P fuel a
    let t ← linAdd P fuel b true true t
    .ok (linAsDim P t)

/-- 2138-2154 `sub_left`: `(-other) + self` -/
def dSubLeft (P : Params) (fuel : Nat) (a b : D) : Res D :=
  match P.cache .subLeft a b with
  | some r => .ok r
  | none => do
    let t ← linFromDim P fuel a
    let t ← linAdd P fuel b true false t
    .ok (linAsDim P t)

/-- 2819-2823: "Do it the other way around" -/
def swapMul (P : Params) (fuel : Nat) (other : D) (right : Bool) (terms : List (List D)) : Res (List (List D) × D × Bool) :=
  if right && !terms.all (canSimplify P right other) then
    (linFromDim P fuel other).bind (fun ts => .ok (ts, linAsDim P terms, false))
  else .ok (terms, other, right)

/-- 2811-2833 `extend_mul_div_` for "mul" -/
def linMul (P : Params) (fuel : Nat) (other : D) (right : Bool) (terms : List (List D)) : Res (List (List D)) :=
  (swapMul P fuel other right terms).bind (fun r =>
    if r.2.1 = .const 1 then .ok r.1 else .ok (r.1.map (multMul P r.2.2 r.2.1)))

/-- 2156-2171 `__mul__` -/
def dMul (P : Params) (fuel : Nat) (a b : D) : Res D :=
  match P.cache .mul a b with
  | some r => .ok r
  | none => do
    let t ← linFromDim P fuel a
    let t ← linMul P fuel b true t
    .ok (linAsDim P t)

/-- 2173-2188 `__rmul__`: `other * self` -/
def dRmul (P : Params) (fuel : Nat) (a b : D) : Res D :=
  match P.cache .mulLeft a b with
  | some r => .ok r
  | none => do
    let t ← linFromDim P fuel a
    let t ← linMul P fuel b false t
    .ok (linAsDim P t)

/-! ### Division -/

/-- 2651-2670: the checks for static sizes; the result is the kind (for the cache key) and whether it divides. -/
def divKind (num den : D) (k : DK) (right : Bool) : Res (DK × Bool) :=
  match num.dimension, den.dimension with
  | some a, some b =>
    if b = 0 then .error .zeroDivision
    else match k with
      | .floor => .ok (.floor, decide (a.fmod b = 0))
      | .ceil => .ok (if a.fmod b = 0 ∧ right = true then .floor else .ceil, decide (a.fmod b = 0))
      | .exact => if a.fmod b ≠ 0 then .error .valueError else .ok (if right then .floor else .exact, true)
  | _, _ => .ok (k, false)

/-- 2642-2698 `new_div_dim` -/
def newDiv (P : Params) (num den : D) (k : DK) (right : Bool) : Res D :=
  (divKind num den k right).bind (fun r =>
    match P.cache (.div r.1 right) num den with
    | some c => .ok c
    | none => .ok (.div (if r.2 then .exact else r.1) right num den))

/-- 2625-2630: the last (first) factor is a quotient of the same kind. -/
def sameQuot (k : DK) (right : Bool) : D → Option (D × D)
  | .div k' r num den => if k' = k ∧ r = right then some (num, den) else none
  | _ => none

/-- 2597-2603, 2625-2633: `extend_mul_div_` for a division by one factor -/
def multDiv1 (P : Params) (fuel : Nat) (k : DK) (right : Bool) (other : D) (terms : List D) : Res (List D) :=
  match mostRecent right terms with
  | none => (newDiv P (.const 1) other k right).bind (fun r => .ok [r])
  | some t =>
    if P.eq other t then .ok (popRecent right terms)
    else match sameQuot k right t with
      | some (num, den) =>
        (dMul P fuel den other).bind (fun den' =>
          (newDiv P num den' k right).bind (fun r => .ok (pushRecent right (popRecent right terms) r)))
      | none => (newDiv P (multAsDim P terms) other k right).bind (fun r => .ok [r])

/-- 2578-2640 `extend_mul_div_` for a division -/
def multDiv (P : Params) (fuel : Nat) (k : DK) (right : Bool) : D → List D → Res (List D)
  | .mul a b, terms =>
    if terms = [] then (newDiv P (.const 1) (.mul a b) k right).bind (fun r => .ok [r])
    else if right then (multDiv P fuel k right a terms).bind (multDiv P fuel k right b)
    else (multDiv P fuel k right b terms).bind (multDiv P fuel k right a)
  | other, terms => if other = .const 1 then .ok terms else multDiv1 P fuel k right other terms

/-- 2516-2522 -/
def divisible1 (P : Params) (right : Bool) (other : D) (terms : List D) : Res Bool :=
  match mostRecent right terms with
  | none => .ok false
  | some t =>
    if P.eq other t then .ok true
    else match t.dimension, other.dimension with
      | some a, some b => if b = 0 then .error .zeroDivision else .ok (decide (a.fmod b = 0))
      | _, _ => .ok false

/-- 2500-2522 `divisible` -/
def divisible (P : Params) (fuel : Nat) (right : Bool) : D → List D → Res Bool
  | .mul a b, terms =>
    if terms = [] then .ok false
    else if right then
      (divisible P fuel right a terms).bind (fun r1 => if r1 then
        (multDiv P fuel .exact right a terms).bind (fun tmp => (divisible P fuel right b tmp).bind (fun r2 =>
          if r2 then (multDiv P fuel .exact right b tmp).bind (fun _ => .ok true) else .ok false)) else .ok false)
    else
      (divisible P fuel right b terms).bind (fun r1 => if r1 then
        (multDiv P fuel .exact right b terms).bind (fun tmp => (divisible P fuel right a tmp).bind (fun r2 =>
          if r2 then (multDiv P fuel .exact right a tmp).bind (fun _ => .ok true) else .ok false)) else .ok false)
  | other, terms => divisible1 P right other terms

/-- 2827: whether all are divisible (stops at the first which is not) -/
def allDivisible (P : Params) (fuel : Nat) (right : Bool) (other : D) : List (List D) → Res Bool
  | [] => .ok true
  | t :: ts => (divisible P fuel right other t).bind (fun r => if r then allDivisible P fuel right other ts else .ok false)

/-- 2832-2833 -/
def divEach (P : Params) (fuel : Nat) (k : DK) (right : Bool) (other : D) : List (List D) → Res (List (List D))
  | [] => .ok []
  | t :: ts => (multDiv P fuel k right other t).bind (fun r => (divEach P fuel k right other ts).bind (fun rs => .ok (r :: rs)))

/-- 2811-2833 `extend_mul_div_` for a division -/
def linDiv (P : Params) (fuel : Nat) (k : DK) (right : Bool) (other : D) (terms : List (List D)) : Res (List (List D)) :=
  if other = .const 1 then .ok terms
  else if 2 ≤ terms.length then
    (allDivisible P fuel right other terms).bind (fun r =>
      if r then divEach P fuel k right other terms
      else (newDiv P (linAsDim P terms) other k right).bind (fun r => .ok [multFromDim r]))
  else divEach P fuel k right other terms

/-- 2190-2280: `__floordiv__`, `div_left`, `div_right`, `ceildiv_left`, `ceildiv_right` -/
def dDiv (P : Params) (fuel : Nat) (k : DK) (right : Bool) (a b : D) : Res D :=
  match P.cache (.div k right) a b with
  | some r => .ok r
  | none => do
    let t ← linFromDim P fuel a
    let t ← linDiv P fuel k right b t
    .ok (linAsDim P t)

/-! ### Sizes of dynamic dims -/

/-- 1099-1292 `complete_dyn_size`, 1276: the size for one sequence; `env` are the sizes of the user dims with dynamic size. A
static size is used as it is (1276), sums are never negative (1244-1247). -/
def dynSize (env : Nat → Int) : D → Int
  | .base id d => d.getD (env id)
  | .const v => v
  | .add a b => ((lift2 (· + ·) a.dimension b.dimension).getD (max (dynSize env a + dynSize env b) 0))
  | .mul a b => ((lift2 (· * ·) a.dimension b.dimension).getD (dynSize env a * dynSize env b))
  | .div k _ a b => ((lift2 (quot k) a.dimension b.dimension).getD (quot k (dynSize env a) (dynSize env b)))

/-- 1278, 1961-1997 `get_dim_value`: computed in the same way, from the maxima of the sizes of the user dims. -/
def dimValue (envs : List (Nat → Int)) (d : D) : Int :=
  dynSize (fun id => (envs.map (fun env => env id)).foldl max 0) d

/-! ### Convolution -/

/-- frontend/conv.py:750-792 `_calc_out_dim` for a `Dim` and `padding="same"` -/
def convSame (P : Params) (fuel : Nat) (d : D) (stride : Int) : Res D := dDiv P fuel .ceil true d (.const stride)

/-- The padding on both sides. -/
def convPad (P : Params) (fuel : Nat) (d : D) (pad : Int) : Res D :=
  if pad = 0 then .ok d else (dRadd P fuel d (.const pad)).bind (fun d => dAdd P fuel d (.const pad))

/-- frontend/conv.py:750-792 `_calc_out_dim` for a `Dim`, `padding="valid"` (0) or a number -/
def convValid (P : Params) (fuel : Nat) (d : D) (filter stride dilation pad : Int) : Res D := do
  pyAssert (decide (0 ≤ pad))
  let d ← convPad P fuel d pad
  let left := ((filter - 1) * dilation).fdiv 2
  let d ← dSubLeft P fuel d (.const left)
  let d ← dSub P fuel d (.const ((filter - 1) * dilation - left))
  dDiv P fuel .ceil true d (.const stride)

end Verif.DimMath
