import Verif.Norm.Model
import Verif.RfSeq.Props
/-
What normalization and label smoothing should give, independent of the model.
-/
namespace Verif.Norm

variable {K : Type} [Field K]

/-- Mean. -/
def avg (l : List K) : K := l.sum / (l.length : K)

/-- (Biased) variance. -/
def variance (l : List K) : K := (l.map (fun v => (v - avg l) ^ 2)).sum / (l.length : K)

/-- Variance with the given correction: 1 is the unbiased one. -/
def varianceC (corr : K) (l : List K) : K := (l.map (fun v => (v - avg l) ^ 2)).sum / ((l.length : K) - corr)

/-- All frames of all sequences, without padding. -/
def frames {α : Type} (x : Verif.RfSeq.Padded α) : List α := x.valid.flatten

/-- All cells, with padding. -/
def cells {α : Type} (x : Verif.RfSeq.Padded α) : List α := x.seqs.flatMap Prod.snd

/-- The documented normalization with mean and variance, `gamma` and `beta` if given. -/
def normalized (rsqrt : K → K) (eps mean var : K) (aff : Option (K × K)) (v : K) : K :=
  let y := (v - mean) * rsqrt (var + eps)
  match aff with
  | none => y
  | some (gamma, beta) => gamma * y + beta

/-- The documented update of the running mean and variance. -/
def ema (m : K) (s cur : K × K) : K × K := ((1 - m) * s.1 + m * cur.1, (1 - m) * s.2 + m * cur.2)

/-- Position of a cell in the flat (row-major) tensor. -/
def ravel : List Nat → List Nat → Nat
  | d :: ds, i :: is => i * ds.prod + ravel ds is
  | _, _ => 0

/-- An index into a tensor of this shape. -/
def IsIndex (shape idx : List Nat) : Prop := List.Forall₂ (fun i d => i < d) idx shape

/-- A probability distribution. -/
def IsDist [LinearOrder K] (p : List K) : Prop := (∀ a ∈ p, 0 ≤ a) ∧ p.sum = 1

end Verif.Norm
