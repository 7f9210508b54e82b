import Verif.LoadModel.Model
/-
What loading a model means.
-/
namespace Verif.LoadModel

open Verif.Py

/-- The entry is used, and has a value for this name. -/
def Provides (t : Task) (e : Entry) (k : Name) (v : Val) : Prop :=
  active t e = .ok true ∧ ∃ file st, e.src = some file ∧ prepared e file = .ok st ∧ st.get? k = some v

/-- The entry says that the name is not loaded. -/
def Random (t : Task) (e : Entry) (k : Name) : Prop := active t e = .ok true ∧ e.src = none ∧ e.pattern k = true

/-- The entry is used, and must have all names with its prefix. -/
def Requires (t : Task) (e : Entry) (k : Name) : Prop :=
  active t e = .ok true ∧ e.src.isSome ∧ e.ignoreMissing = false ∧ e.prefix_ <+: k

/-- The entry can be used: the file is fine, has only values of the right shape, and something for the prefix. -/
def Usable (net : Net) (t : Task) (e : Entry) : Prop :=
  active t e = .ok false ∨ (active t e = .ok true ∧ ∀ file, e.src = some file →
    ∃ st, prepared e file = .ok st
      ∧ (∀ k v w, st.get? k = some v → net.init.get? k = some w → v.shape = w.shape)
      ∧ (∃ k ∈ net.init.keys, e.prefix_ <+: k ∧ k ∈ st.keys))

/-- Two states with the same names and shapes. -/
def SameShapes (p q : State) : Prop := p.map (fun kv => (kv.1, kv.2.shape)) = q.map (fun kv => (kv.1, kv.2.shape))

end Verif.LoadModel
