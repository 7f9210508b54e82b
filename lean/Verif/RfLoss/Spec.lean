import Verif.RfLoss.Model
/-
What sums, counts and means over padded tensors mean: over the positions within all the lengths.
-/
namespace Verif.RfLoss

/-- All index tuples for sizes. -/
def grid : List Nat → List (List Nat)
  | [] => [[]]
  | n :: ns => (List.range n).flatMap (fun i => (grid ns).map (fun r => i :: r))

/-- The position with the indices for the dims. -/
def place : List Nat → List Nat → Pos → Pos
  | d :: ds, i :: is, σ => place ds is (fun c => if c = d then i else σ c)
  | _, _, σ => σ

/-- The position is within the lengths of the dims. -/
def Inside (ctx : Nat → DimInfo) (ds : List Nat) (σ : Pos) : Prop := ∀ d ∈ ds, σ d < (ctx d).len σ

instance (ctx : Nat → DimInfo) (ds : List Nat) (σ : Pos) : Decidable (Inside ctx ds σ) := inferInstanceAs (Decidable (∀ d ∈ ds, _))

/-- The positions within the lengths. -/
def insides (ctx : Nat → DimInfo) (ds : List Nat) (σ : Pos) : List Pos :=
  ((grid (ds.map (fun d => (ctx d).cap))).map (fun is => place ds is σ)).filter (fun τ => decide (Inside ctx ds τ))

/-- Dims as RETURNN makes them: the size depends on the dims of the size only, not on the dim itself, and is not above the padded size; a size without dims is the padded size; static dims have no size tensor. -/
structure Good (ctx : Nat → DimInfo) (d : Nat) : Prop where
  own : d ∉ (ctx d).deps
  dep : ∀ σ τ : Pos, (∀ e ∈ (ctx d).deps, σ e = τ e) → (ctx d).len σ = (ctx d).len τ
  le : ∀ σ, (ctx d).len σ ≤ (ctx d).cap
  scalar : (ctx d).deps = [] → ∀ σ, (ctx d).len σ = (ctx d).cap
  static : (ctx d).static = true → (ctx d).deps = []

/-- The value depends on the dims only. -/
def Ten.Local {R : Type} (x : Ten R) : Prop := ∀ σ τ : Pos, (∀ d ∈ x.dims, σ d = τ d) → x.val σ = x.val τ

/-- A dim of the shape on which the size of another dim depends, and the dims of its size, are dims of the size of some dim on which no size depends. (`num_elements_of_shape` needs this.) -/
def Direct (ctx : Nat → DimInfo) (ds : List Nat) : Prop :=
  ∀ d ∈ ds, (∃ e ∈ ds, d ∈ (ctx e).deps) → ∀ c, (c = d ∨ c ∈ (ctx d).deps) → ∃ r ∈ ds, c ∈ (ctx r).deps ∧ ∀ e ∈ ds, r ∉ (ctx e).deps

/-- A shape whose dims have all the dims of their sizes beside them. -/
structure Whole (ctx : Nat → DimInfo) (ds : List Nat) : Prop where
  nodup : ds.Nodup
  good : ∀ d ∈ ds, Good ctx d
  closed : ∀ d ∈ ds, ∀ e ∈ (ctx d).deps, e ∈ ds
  direct : Direct ctx ds

/-- All frames of all sequences. -/
def frames (seqs : List (List Rat)) : List Rat := seqs.flatten

/-- The mean of numbers. -/
def avg (l : List Rat) : Rat := l.sum / l.length

/-- The sum of a loss over all positions within the lengths. -/
def lossSum (ctx : Nat → DimInfo) (l : Loss) : Rat := ((insides ctx l.loss.dims zero).map l.loss.val).sum

/-- What a loss is normalized by: the number of positions within the lengths, or the sum of the custom factor. -/
def lossNorm (ctx : Nat → DimInfo) (l : Loss) : Rat :=
  match l.custom with
  | none => (insides ctx l.loss.dims zero).length
  | some c => ((insides ctx c.dims zero).map c.val).sum

/-- The shapes of a loss are whole. -/
def LossOk (ctx : Nat → DimInfo) (l : Loss) : Prop := Whole ctx l.loss.dims ∧ ∀ c, l.custom = some c → Whole ctx c.dims

/-- A loss in the total loss. -/
def lossTerm (ctx : Nat → DimInfo) (l : Loss) : Rat := l.scale * (if l.normalized then lossSum ctx l / lossNorm ctx l else lossSum ctx l)

end Verif.RfLoss
