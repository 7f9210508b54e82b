import Mathlib.Tactic.Common
/-
Model of equality, hash and `declare_same_as` of dims (tensor/_dim_extra.py 1294-1489, 1523-1555, 1599-1773).

The heap maps object ids to dims. Without `_extra` the properties return the defaults (176-259), so a dim without `_extra` is one with default values; in
`_eq_simple` the default values (no kind, not auto-generated) have the same effect as the check of `_extra`.
-/
namespace Verif.DimEq

/-- 26-36 `DimTypes`; `Unspecified` is `none`. -/
inductive Kind where
  | batch
  | spatial
  | feature
deriving DecidableEq

/-- dim.py 58-93, _dim_extra.py 86-122: what equality depends on. `hasDyn`: `dyn_size is not None`; `undef`: the property `undefined` (1578-1597). -/
structure DimRec where
  size : Option Nat
  name : Option String
  kind : Option Kind := none
  special : Bool := false
  auto : Bool := false
  sameAs : Option Nat := none
  derivedFrom : Option Nat := none
  hasDyn : Bool := false
  undef : Bool := false
deriving DecidableEq

abbrev Heap := Nat → DimRec

/-- 1523-1532 `get_same_base` (also inlined in 1428-1435, 1478-1481); `none`: not finished after so many rounds of the loop. -/
def getBase (h : Heap) : Nat → Nat → Option Nat
  | 0, _ => none
  | n + 1, i => match (h i).sameAs with
    | none => some i
    | some j => getBase h n j

/-- 1534-1555 `get_same_derived_base(same_dim=True)`: the loop. -/
def derivedLoop (h : Heap) (self : Nat) : Nat → Nat → Nat → Option Nat
  | 0, _, _ => none
  | n + 1, base, last => match (h base).sameAs with
    | some j => derivedLoop h self n j last
    | none => match (h base).derivedFrom with
      | none => some last
      | some j => derivedLoop h self n j (if (h j).size = (h self).size then j else last)

/-- 1436-1448: `_eq_simple` for two bases. -/
def eqBases (h : Heap) (a b : Nat) : Bool :=
  if a = b then true
  else if (h a).kind = some .batch ∧ (h b).kind = some .batch then true
  else if (h a).auto = true ∧ (h b).auto = true ∧ (h a).name = (h b).name then true
  else false

/-- 1420-1448 `_eq_simple`: `==` for behavior version 16 and later. -/
def eqSimple (h : Heap) (n a b : Nat) : Option Bool :=
  if a = b then some true
  else (getBase h n a).bind (fun ra => (getBase h n b).bind (fun rb => some (eqBases h ra rb)))

/-- Options of `is_equal`. -/
structure Opts where
  ignoreFeature : Bool := false
  allowSameFeature : Bool := false
  allowSameSpatial : Option Bool := none
  treatFeatureAsSpatial : Bool := false
  broadcast : Bool := false
  unknownSpatial : Bool := false
  undefined : Bool := false
  derived : Bool := false
  allowOld : Bool := false

/-- 1349-1356. -/
def asSpatial (treat : Bool) (k : Option Kind) : Option Kind :=
  if treat = true ∧ (k = some .feature ∨ k = none) then some .spatial else k

/-- 1358-1364, 1380-1382: one of the two is an auto-generated dim of size 1. -/
def bcast (o : Opts) (x y : DimRec) : Bool := o.broadcast && ((x.size == some 1 && x.auto) || (y.size == some 1 && y.auto))

/-- 1389-1398. -/
def spatialMatches (o : Opts) (x y : DimRec) : Bool :=
  ((o.allowSameSpatial.getD o.allowSameFeature) && (x.size.isSome || (o.broadcast && (x.size == some 1 || y.size == some 1)))) ||
  (o.unknownSpatial && (!x.hasDyn || !y.hasDyn)) || (o.undefined && (x.undef || y.undef))

/-- 1368-1405, with the kinds. -/
def isEqualKinds (simple : Bool) (o : Opts) (x y : DimRec) (kx ky : Option Kind) : Bool :=
  if kx ≠ ky then false
  else if kx = some .batch then true
  else if simple = true ∧ o.allowOld = false ∧ (x.auto = false ∨ y.auto = false) ∧ bcast o x y = false then false
  else if kx = some .feature ∧ o.allowSameFeature = true then true
  else if kx = some .spatial ∧ spatialMatches o x y = true then true
  else x.auto && y.auto && (x.name == y.name)

/-- 1345-1405: after the comparison of the bases. -/
def isEqualRecs (simple : Bool) (o : Opts) (x y : DimRec) : Bool :=
  if x.kind = some .feature ∧ y.kind = some .feature ∧ o.ignoreFeature = true then true
  else if x.size ≠ y.size ∧ bcast o x y = false then false
  else isEqualKinds simple o x y (asSpatial o.treatFeatureAsSpatial x.kind) (asSpatial o.treatFeatureAsSpatial y.kind)

/-- 1341-1342. -/
def compareBase (h : Heap) (o : Opts) (n a : Nat) : Option Nat := if o.derived then derivedLoop h a n a a else getBase h n a

/-- 1297-1405 `is_equal`; `simple` is `_SimpleEquality`. -/
def isEqual (h : Heap) (simple : Bool) (o : Opts) (n a b : Nat) : Option Bool :=
  if a = b then some true
  else if (h a).special = true ∨ (h b).special = true then some false
  else (compareBase h o n a).bind (fun ra => (compareBase h o n b).bind (fun rb =>
    some (if ra = rb then true else isEqualRecs simple o (h a) (h b))))

/-- What is hashed (1482-1489). -/
inductive HashKey where
  | byId (i : Nat)
  | empty
  | fields (kind : Option Kind) (size : Option Nat) (name : Option String)
deriving DecidableEq

/-- 1482-1489, for the base. -/
def hashBase (h : Heap) (r : Nat) : HashKey :=
  if (h r).special = true then .byId r
  else if (h r).kind = some .batch then .empty
  else if (h r).auto = true then .fields (h r).kind (h r).size (h r).name
  else .byId r

/-- 1468-1489 `__hash__`. -/
def hashDim (h : Heap) (n a : Nat) : Option HashKey := (getBase h n a).map (hashBase h)

/-- `getBase` gives a result after enough rounds. -/
def Base (h : Heap) (i r : Nat) : Prop := ∃ n, getBase h n i = some r

/-- 1675, 1743: what `declare_same_as` changes of `self` = `a` with base `ra`, for `other` with base `rb`; sizes, `undefined` and `derived_from_...` of all
dims may change as well (1647-1741), names, kinds and the special flag not. -/
def Linked (h : Heap) (a ra rb : Nat) (h' : Heap) : Prop :=
  ∀ i, (h' i).name = (h i).name ∧ (h' i).kind = (h i).kind ∧ (h' i).special = (h i).special ∧
    (h' i).sameAs = (if i = a then some rb else (h i).sameAs) ∧ (h' i).auto = (if i = a ∨ i = ra then (h rb).auto else (h i).auto)

/-- 1599-1773 `self.declare_same_as(other)`: heap before and after. The conditions to do it the other way around (1617-1646) are left open: in every state
both are possible (`swap`); `guard_infinite_recursion` raises if this goes on forever. Not modelled: new dims (variants for a batch). -/
inductive Decl : Heap → Nat → Nat → Heap → Prop where
  /-- 1606-1607 -/
  | self (h : Heap) (a : Nat) : Decl h a a h
  /-- 1611-1616 -/
  | already (h : Heap) (a b rb : Nat) (hb : Base h b rb) (ha : a = rb ∨ (h a).sameAs = some rb ∨ Base h a rb) : Decl h a b h
  /-- 1617-1620, 1627-1640, 1643-1646 -/
  | swap (h : Heap) (a b : Nat) (h' : Heap) (hrec : Decl h b a h') : Decl h a b h'
  /-- 1647-1766, if `self` is its own base -/
  | link (h : Heap) (a b ra rb : Nat) (h' : Heap) (ha : Base h a ra) (hb : Base h b rb) (hne : ra ≠ rb) (hself : ra = a) (hl : Linked h a ra rb h') : Decl h a b h'
  /-- 1647-1773, if not -/
  | linkBase (h : Heap) (a b ra rb : Nat) (h1 h' : Heap) (ha : Base h a ra) (hb : Base h b rb) (hne : ra ≠ rb) (hself : ra ≠ a) (hl : Linked h a ra rb h1)
      (hrec : Decl h1 ra rb h') : Decl h a b h'

end Verif.DimEq
