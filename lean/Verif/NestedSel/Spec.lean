import Verif.NestedSel.Model
/-
What leaves mean for a hypothesis, for C129.
-/
namespace Verif.NestedSel
open Verif Verif.Py

/-- What a hypothesis has in a leaf: a value, the valid frames of a sequence, or a length. -/
inductive V (α : Type) where
  | one (x : α)
  | seq (l : List α)
  | len (n : Nat)
deriving DecidableEq

/-- The length for hypothesis `i`. -/
def lenAt : Size → Nat → Option Nat
  | .static n, _ => some n
  | .full l, i => l[i]?
  | .packed l, i => l[i]?

/-- What hypothesis `i` has. -/
def meaning {α : Type} (env : Env) (i : Nat) : Leaf α → Option (V α)
  | .glob x => some (.one x)
  | .hyp xs => xs[i]?.map .one
  | .seq d rows => (rows[i]?).bind (fun r => (lenAt (size env d) i).map (fun n => .seq (r.take n)))
  | .dim d => (lenAt (size env d) i).map .len

/-- The place of hypothesis `i` among the packed ones. -/
def rank (mask : List Bool) (i : Nat) : Nat := (mask.take i).count true

/-- Sizes for `n` hypotheses which are not packed. -/
def SizeFull (n : Nat) : Size → Prop
  | .static _ => True
  | .full l => l.length = n
  | .packed _ => False

/-- Sizes for `n` packed hypotheses. -/
def SizePacked (n : Nat) : Size → Prop
  | .static _ => True
  | .full _ => False
  | .packed l => l.length = n

/-- A state for `n` hypotheses which are not packed: shapes fit. -/
def WfFull {α : Type} (env : Env) (n : Nat) : Leaf α → Prop
  | .glob _ => True
  | .hyp xs => xs.length = n
  | .seq d rows => d < env.length ∧ SizeFull n (size env d) ∧ rows.length = n ∧ ∀ r ∈ rows, r.length = (size env d).value
  | .dim d => d < env.length ∧ SizeFull n (size env d)

/-- A state for `n` packed hypotheses. -/
def WfPacked {α : Type} (env : Env) (n : Nat) : Leaf α → Prop
  | .glob _ => True
  | .hyp xs => xs.length = n
  | .seq d rows => d < env.length ∧ SizePacked n (size env d) ∧ rows.length = n ∧ ∀ r ∈ rows, r.length = (size env d).value
  | .dim d => d < env.length ∧ SizePacked n (size env d)

/-- Each sequence dim with lengths per hypothesis is also a leaf. -/
def DimsThere {α : Type} (env : Env) (ls : List (Leaf α)) : Prop := ∀ d rows, Leaf.seq d rows ∈ ls → (∃ n, size env d = .static n) ∨ Leaf.dim d ∈ ls

/-- The entries of the hypotheses in the mask, in their order. -/
def picked {α : Type} (mask : List Bool) (l : List α) : List α := ((mask.zip l).filter Prod.fst).map Prod.snd

/-- A map as it comes from a selection: each dim with one size for each hypothesis to its own packed dim, with the sizes of the hypotheses in the mask. -/
structure MapOk (mask : List Bool) (env : Env) (m : Dict Nat Nat) : Prop where
  wf : m.Wf
  entry : ∀ d d', m.get? d = some d' → d < env.length ∧ d' < env.length ∧ ∃ l, size env d = .full l ∧ size env d' = .packed (picked mask l)
  inj : ∀ d1 d2 d', m.get? d1 = some d' → m.get? d2 = some d' → d1 = d2

/-- A dim of the packed state, and its dim in the backup: the packed one of it, or the same static one, or a new one. -/
def DimPair (env : Env) (m : Dict Nat Nat) (a b : Nat) : Prop :=
  m.get? b = some a ∨ (a = b ∧ ∃ n, size env a = .static n) ∨ ((∀ k, m.get? k ≠ some a) ∧ (∃ la, size env a = .packed la) ∧ ∃ lb, size env b = .full lb)

/-- The same kind of leaf. -/
def SameKind {α : Type} : Leaf α × Leaf α → Prop
  | (.dim _, .dim _) => True
  | (.seq _ _, .seq _ _) => True
  | (.glob _, .glob _) => True
  | (.glob _, .hyp _) => True
  | (.hyp _, .glob _) => True
  | (.hyp _, .hyp _) => True
  | _ => False

/-- Packed state and backup fit. -/
structure PairsOk {α : Type} (mask : List Bool) (env : Env) (m : Dict Nat Nat) (ps : List (Leaf α × Leaf α)) : Prop where
  kind : ∀ p ∈ ps, SameKind p
  packed : ∀ p ∈ ps, WfPacked env (mask.count true) p.1
  full : ∀ p ∈ ps, WfFull env mask.length p.2
  dims : ∀ a b, (Leaf.dim a, Leaf.dim b) ∈ ps → DimPair env m a b
  one : ∀ a b a' b', (Leaf.dim a, Leaf.dim b) ∈ ps → (Leaf.dim a', Leaf.dim b') ∈ ps → (a = a' ↔ b = b')
  seqs : ∀ d rows e brows, (Leaf.seq d rows, Leaf.seq e brows) ∈ ps → (d = e ∧ ∃ n, size env d = .static n) ∨ (Leaf.dim d, Leaf.dim e) ∈ ps

end Verif.NestedSel
