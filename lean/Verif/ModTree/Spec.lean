import Verif.ModTree.Model
/-
Attribute paths in a graph of modules.
-/
namespace Verif.ModTree

open Verif.Py

/-- `Path g m q v`: following the attributes `q` from module `m` leads to `v`. -/
inductive Path (g : Graph) : Nat → Name → Val → Prop
  | nil (m : Nat) : Path g m [] (.mod m)
  | leaf {m : Nat} {a : String} {v : Val} : (a, v) ∈ g.vars m → Path g m [a] v
  | cons {m m' : Nat} {a : String} {q : Name} {v : Val} : (a, .mod m') ∈ g.vars m → q ≠ [] → Path g m' q v → Path g m (a :: q) v

/-- A module is reachable from another. -/
def Reach (g : Graph) (m m' : Nat) : Prop := ∃ q, Path g m q (.mod m')

/-- A parameter belongs to a module. -/
def Owns (g : Graph) (m p : Nat) : Prop := ∃ q, Path g m q (.param p)

/-- The attributes of a module are a dict, and modules are those of the graph. -/
structure Graph.Wf (g : Graph) : Prop where
  names : ∀ m, ((g.vars m).map Prod.fst).Nodup
  closed : ∀ m a m', (a, Val.mod m') ∈ g.vars m → m' < g.mods.length

/-- No module contains itself: there is a height. -/
def Acyclic (g : Graph) (height : Nat → Nat) : Prop := ∀ m a m', (a, Val.mod m') ∈ g.vars m → height m' < height m

/-- Nothing is shared: one path to everything. -/
def IsTree (g : Graph) (m : Nat) : Prop := ∀ q q' v, v ≠ .other → Path g m q v → Path g m q' v → q = q'

end Verif.ModTree
