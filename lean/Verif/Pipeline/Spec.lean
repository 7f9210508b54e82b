import Verif.Pipeline.Model
import Verif.NumbersDict.Spec
/-
Specifications for the data pipeline (C08-C11), independent of how the pipes work.
-/
namespace Verif.Pipeline
open Verif.Py Verif.NumbersDict

variable {K α : Type} [DecidableEq K]

/-- The padded batch `b` is within the limits: for every data key with a limit, (longest seq) * (number of seqs) is at
most the limit. -/
def Fits (lens : α → Dict K Nat) (lim : ND K Int) (b : List α) : Prop :=
  ∀ k L, HasNumber lim k L → ∀ x ∈ b, ∀ n, (lens x).get? k = some n → (n : Int) * b.length ≤ L

/-- `x` may be added to the (non-empty) batch `b`. -/
def MayAdd (o : BatchOpts K α) (b : List α) (x : α) : Prop :=
  (b.length : Int) < o.maxSeqs x ∧ Fits o.lens (o.maxBatch x) (b ++ [x])

/-- Limits which pass the assertions: positive. -/
structure ValidLimits (o : BatchOpts K α) (x : α) : Prop where
  seqs : 0 < o.maxSeqs x
  wf : (o.maxBatch x).dict.Wf
  nn : NoNone (o.maxBatch x)
  ex : (o.maxBatch x).dict ≠ [] ∨ (o.maxBatch x).value ≠ none
  pos : ∀ k v, (o.maxBatch x).dict.get? k = some (some v) → 0 < v
  posB : ∀ v, (o.maxBatch x).value = some v → 0 < v

/-- A correct result of batching: nothing lost or reordered, no empty batch, every seq which was added to a non-empty
batch was allowed there, and a batch is closed only if the next seq must not be added. -/
structure GoodBatching (o : BatchOpts K α) (stream : List α) (batches : List (List α)) : Prop where
  covers : batches.flatten = stream
  nonempty : ∀ b ∈ batches, b ≠ []
  limits : ∀ b ∈ batches, ∀ pre x post, b = pre ++ x :: post → pre ≠ [] → MayAdd o pre x
  maximal : ∀ l b x b' r, batches = l ++ b :: (x :: b') :: r → ¬ MayAdd o b x

/-- A correct result of bucket batching, where `bucket x r` is the bucket index of seq `x` with random outcome `r`:
each batch belongs to a bucket (`tags`); the batches of a bucket are, in order, exactly the seqs of that bucket; no
empty or too large batch; only the last batch of a bucket can be incomplete. -/
structure GoodBucketing (buckets : List (Int × Int)) (bucket : α → Option Nat → Option Nat)
    (stream : List (α × Option Nat)) (batches : List (Nat × List α)) : Prop where
  tags : ∀ e ∈ batches, e.1 < buckets.length
  covers : ∀ i, ((batches.filter (fun e => decide (e.1 = i))).map Prod.snd).flatten
    = (stream.filter (fun e => decide (bucket e.1 e.2 = some i))).map Prod.fst
  nonempty : ∀ e ∈ batches, e.2 ≠ []
  size : ∀ e ∈ batches, ∀ b, buckets[e.1]? = some b → (e.2.length : Int) ≤ b.2
  full : ∀ l e r, batches = l ++ e :: r → (∃ e' ∈ r, e'.1 = e.1) → ∀ b, buckets[e.1]? = some b →
    (e.2.length : Int) = b.2

/-- The lengths of a seq are within the limits `[min, max]` (where there is a limit for a key). -/
def InRange (lens : Dict K Nat) (minLen maxLen : ND K Int) : Prop :=
  ∀ k n, lens.get? k = some n →
    (∀ L, HasNumber minLen k L → L ≤ n) ∧ (∀ L, HasNumber maxLen k L → (n : Int) ≤ L)

/-- A batch without the values of the monotonic keys. -/
def strip {β μ : Type} (b : SBatch β μ) : List β := b.map Prod.fst

/-- A correct result of buffered shuffling with buffer size `size`: a permutation `p` of the batches (position `i` has
batch `p[i]`), where no batch leaves its window of `size` batches, and the monotonic values (over all data dicts) keep
their order. -/
structure GoodShuffle {β μ : Type} (size : Nat) (stream out : List (SBatch β μ)) : Prop where
  perm : ∃ p : List Nat, p.Perm (List.range stream.length) ∧
    out.map strip = p.map (fun i => strip (stream.getD i [])) ∧
    ∀ i j, p[i]? = some j → j / size = i / size
  mono : (out.flatten).map Prod.snd = (stream.flatten).map Prod.snd

end Verif.Pipeline
