import Verif.DimMath.Model
/-
Specification of the arithmetic on dims: the value of a dim, when the user dims have the sizes `env`, as plain integer arithmetic.
-/
namespace Verif.DimMath

/-- The value of a dim by plain integer arithmetic (no clipping, no simplification). -/
def val (env : Nat → Int) : D → Int
  | .base id d => d.getD (env id)
  | .const v => v
  | .add a b => val env a + val env b
  | .mul a b => val env a * val env b
  | .div .floor _ a b => (val env a).fdiv (val env b)
  | .div .ceil _ a b => -((-(val env a)).fdiv (val env b))
  | .div .exact _ a b => (val env a).fdiv (val env b)

/-- All divisions in the dim make sense for these sizes: the denominators are positive, and `truediv` has no remainder. If `q` does
not hold, there are no divisions in the dim. -/
def ValidW (q : Prop) (env : Nat → Int) : D → Prop
  | .base _ _ => True
  | .const _ => True
  | .add a b => ValidW q env a ∧ ValidW q env b
  | .mul a b => ValidW q env a ∧ ValidW q env b
  | .div k _ a b => ValidW q env a ∧ ValidW q env b ∧ 0 < val env b ∧ (k = .exact → val env b ∣ val env a) ∧ q

/-- All divisions in the dim make sense. -/
def Valid (env : Nat → Int) (d : D) : Prop := ValidW True env d

/-- There are no divisions in the dim: it is made of user dims, numbers, sums and products. -/
def NoDiv : D → Prop
  | .base _ _ => True
  | .const _ => True
  | .add a b => NoDiv a ∧ NoDiv b
  | .mul a b => NoDiv a ∧ NoDiv b
  | .div _ _ _ _ => False

/-- What an operation means on numbers. -/
def meaning : CK → Int → Int → Int
  | .add, a, b => a + b
  | .addLeft, a, b => b + a
  | .sub, a, b => a - b
  | .subLeft, a, b => -b + a
  | .mul, a, b => a * b
  | .mulLeft, a, b => b * a
  | .div .floor _, a, b => a.fdiv b
  | .div .ceil _, a, b => -((-a).fdiv b)
  | .div .exact _, a, b => a.fdiv b

/-- When it is defined (for divisions: only if `q`). -/
def Defined (q : Prop) : CK → Int → Int → Prop
  | .div k _, a, b => 0 < b ∧ (k = .exact → b ∣ a) ∧ q
  | _, _, _ => True

/-- The equality of dims only identifies dims of equal size, and the caches have right results. -/
structure SoundW (q : Prop) (P : Params) (env : Nat → Int) : Prop where
  eq : ∀ a b, P.eq a b = true → val env a = val env b
  cache : ∀ k a b r, P.cache k a b = some r → ValidW q env a → ValidW q env b → Defined q k (val env a) (val env b) →
    ValidW q env r ∧ val env r = meaning k (val env a) (val env b)

/-- The equality of dims only identifies dims of equal size, and the caches have right results. -/
def Sound (P : Params) (env : Nat → Int) : Prop := SoundW True P env

/-- Sums and products of dims without divisions are not taken from the caches with divisions in them. -/
def CacheNoDiv (P : Params) : Prop := ∀ k a b r, P.cache k a b = some r → NoDiv a → NoDiv b → (∀ dk right, k ≠ .div dk right) → NoDiv r

/-- All factors are positive. -/
def PosFactors (env : Nat → Int) : D → Prop
  | .mul a b => PosFactors env a ∧ PosFactors env b
  | d => 0 < val env d

/-- A term (a product, given as the list of its factors) is harmless for a division of this kind and side: it is a single factor, or no
factor is itself a quotient of this kind and side. -/
def Harmless (k : DK) (right : Bool) (t : List D) : Prop := t.length ≤ 1 ∨ ∀ num den, D.div k right num den ∉ t

/-- No sum in the dim is negative. -/
def NonnegSums (env : Nat → Int) : D → Prop
  | .base _ _ => True
  | .const _ => True
  | .add a b => NonnegSums env a ∧ NonnegSums env b ∧ 0 ≤ val env a + val env b
  | .mul a b => NonnegSums env a ∧ NonnegSums env b
  | .div _ _ a b => NonnegSums env a ∧ NonnegSums env b

/-- The size grows with the sizes of the user dims: sums, products, and quotients by positive numbers, of user dims and non-negative
numbers. A negative number can be added to a dim of dynamic size (this is cut at zero). -/
def Monotone : D → Prop
  | .base _ d => ∀ v, d = some v → 0 ≤ v
  | .const v => 0 ≤ v
  | .add (.const v) b => Monotone b ∧ (b.dimension = none ∨ 0 ≤ v)
  | .add a (.const v) => Monotone a ∧ (a.dimension = none ∨ 0 ≤ v)
  | .add a b => Monotone a ∧ Monotone b
  | .mul a b => Monotone a ∧ Monotone b
  | .div _ _ a (.const v) => Monotone a ∧ 0 < v
  | .div _ _ _ _ => False

/-- The only user dim of dynamic size in it is `i`. -/
def OnlyDim (i : Nat) : D → Prop
  | .base j d => j = i ∨ d ≠ none
  | .const _ => True
  | .add a b => OnlyDim i a ∧ OnlyDim i b
  | .mul a b => OnlyDim i a ∧ OnlyDim i b
  | .div _ _ a b => OnlyDim i a ∧ OnlyDim i b

end Verif.DimMath
