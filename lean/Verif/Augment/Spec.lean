import Verif.Augment.Model
/-
What SpecAugment should do: mask whole frames and whole features in blocks, and nothing else.
-/
namespace Verif.Augment

/-- torch's topk, as documented: `k` different indices of the largest values, largest first; the order of equal values is open. -/
structure IsTopK (vals : List (Option Rat)) (k : Nat) (idxs : List Nat) : Prop where
  len : idxs.length = k
  nodup : idxs.Nodup
  bound : ∀ i ∈ idxs, i < vals.length
  sorted : idxs.Pairwise (fun i j => ∀ v w, vals[i]? = some v → vals[j]? = some w → w = none ∨ ∃ a b, v = some a ∧ w = some b ∧ b ≤ a)
  largest : ∀ i ∈ idxs, ∀ j, j ∉ idxs → ∀ v w, vals[i]? = some v → vals[j]? = some w → w = none ∨ ∃ a b, v = some a ∧ w = some b ∧ b ≤ a

/-- topk is right wherever it may be called. -/
def TopKOk (topk : List (Option Rat) → Nat → List Nat) : Prop := ∀ vals k, k ≤ vals.length → IsTopK vals k (topk vals k)

/-- A block of positions: start and number. -/
structure Block where
  start : Nat
  num : Nat

def Block.has (b : Block) (t : Nat) : Prop := b.start ≤ t ∧ t < b.start + b.num

/-- What masking with blocks means on an axis with `dim` valid positions: there are `n` blocks, at different positions, of 1 to `maxDims` positions, of which as many as possible start within the
sequence. -/
structure Blocks (dim n maxDims : Nat) (bs : List Block) : Prop where
  len : bs.length = n
  starts : (bs.map Block.start).Nodup
  size : ∀ b ∈ bs, 1 ≤ b.num ∧ b.num ≤ maxDims
  inside : ∀ b ∈ bs.take dim, b.start < dim

/-- Some block covers the (valid) position. -/
def Covered (dim : Nat) (bs : List Block) (t : Nat) : Prop := t < dim ∧ ∃ b ∈ bs, b.has t

instance (b : Block) (t : Nat) : Decidable (b.has t) := by unfold Block.has; infer_instance
instance (dim : Nat) (bs : List Block) (t : Nat) : Decidable (Covered dim bs t) := by unfold Covered; infer_instance

/-- The number of masked positions. -/
def numMasked (dim : Nat) (bs : List Block) : Nat := (List.range dim).countP (fun t => decide (Covered dim bs t))

/-- The phase of the training: how many of the three steps are reached. -/
def phase (c : SpecCfg) (step : Nat) : Nat := if c.stepDependent then [c.steps.1, c.steps.2.1, c.steps.2.2].countP (fun s => decide (s ≤ step)) else 3

/-- The number of masks over time (in units of `max(T / factor, 2)` for the maximum) and over features: minimum, maximum, minimum, maximum. -/
def table : Nat → Nat × Nat × Nat × Nat
  | 0 => (0, 0, 0, 0)
  | 1 => (0, 1, 0, 2)
  | 2 => (1, 2, 1, 3)
  | _ => (2, 4, 2, 5)

/-- `y` is `x` with `mv` at the masked positions. -/
def MaskedAt {V : Type} (mv : V) (p : Nat → Nat → Prop) (x y : List (List V)) : Prop :=
  y.length = x.length ∧ ∀ (t : Nat) row, x[t]? = some row → ∃ row', y[t]? = some row' ∧ row'.length = row.length ∧
    ∀ (f : Nat) v, row[f]? = some v → ∃ w, row'[f]? = some w ∧ (p t f → w = mv) ∧ (¬ p t f → w = v)

end Verif.Augment
