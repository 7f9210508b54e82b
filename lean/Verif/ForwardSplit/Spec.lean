import Verif.ForwardSplit.Model
/-
What it means that a batch stands for a list of sequences, and what the callback should get.
-/
namespace Verif.ForwardSplit

open Verif.Py

variable {α : Type}

/-- The keys which are the same for the whole batch. -/
def Special (k : String) : Prop := k = "num_seqs" ∨ k = "epoch" ∨ k = "complete_frac"

instance (k : String) : Decidable (Special k) := inferInstanceAs (Decidable (_ ∨ _))

/-- The batch has the single value of each sample under `k`. -/
def RepNum (samples : List (Dict String (Sample α))) (b : Batch α) (k : String) : Prop :=
  ∃ xs, b.get? k = some (.vec xs) ∧ samples.map (fun s => s.get? k) = xs.map (fun x => some (.num x))

/-- The batch has the (padded) sequence of each sample under `k`, and its length. -/
def RepSeq (samples : List (Dict String (Sample α))) (b : Batch α) (k : String) : Prop :=
  ∃ rows ls, b.get? k = some (.mat rows) ∧ b.get? (lenKey k) = some (.lens ls) ∧ ls.length = rows.length ∧
    samples.map (fun s => s.get? k) = (List.zipWith List.take ls rows).map (fun x => some (.seq x)) ∧
    (List.zipWith List.take ls rows).map List.length = ls

/-- The batch stands for the samples. -/
def Rep (tmpl : List Entry) (samples : List (Dict String (Sample α))) (b : Batch α) : Prop :=
  ∀ e ∈ tmpl, (e.dim = none → RepNum samples b e.key) ∧ (e.dim ≠ none → RepSeq samples b e.key)

/-- What the callback should get for a sample. -/
def restrict (tmpl : List Entry) (s : Dict String (Sample α)) : Dict String (Sample α) :=
  tmpl.filterMap (fun e => (s.get? e.key).map (fun x => (e.key, x)))

/-- The lengths of the sequences under `k`. -/
def lensOf (samples : List (Dict String (Sample α))) (k : String) : List Nat :=
  samples.map (fun s => match s.get? k with
    | some (.seq xs) => xs.length
    | _ => 0)

/-- Samples which fit to each other and to `extern_data`. -/
structure Good (tmpl : List Entry) (ks : List String) (samples : List (Dict String (Sample α))) : Prop where
  /-- All have the same keys. -/
  keys : ∀ s ∈ samples, s.keys = ks
  nodup : ks.Nodup
  noLen : ∀ k ∈ ks, ∀ k' ∈ ks, k ≠ lenKey k'
  /-- As added by `ReturnnDatasetIterDataPipe`. -/
  hasFrac : "complete_frac" ∈ ks
  hasNum : "num_seqs" ∈ ks
  /-- Under each key all have a sequence or all have a single value. -/
  kinds : ∀ k ∈ ks, (∀ s ∈ samples, ∃ x, s.get? k = some (.num x)) ∨
    (¬ Special k ∧ ∀ s ∈ samples, ∃ xs, s.get? k = some (.seq xs))
  /-- The entries of `extern_data`. -/
  numEntries : ∀ e ∈ tmpl, e.key ∈ ks ∧ ¬ Special e.key ∧
    (e.dim = none → ∀ s ∈ samples, ∃ x, s.get? e.key = some (.num x)) ∧
    (e.dim ≠ none → ∀ s ∈ samples, ∃ xs, s.get? e.key = some (.seq xs))
  /-- Sequences with the same time dim have the same length. -/
  sameDim : ∀ e ∈ tmpl, ∀ e' ∈ tmpl, e.dim ≠ none → e.dim = e'.dim → lensOf samples e.key = lensOf samples e'.key

/-- Consecutive parts of a list. -/
def cut {β : Type} : List Nat → List β → List (List β)
  | [], _ => []
  | s :: r, l => l.take s :: cut r (l.drop s)

/-- All batches still to come. -/
def QIter.pending {β : Type} (q : QIter β) : List β := q.queue.reverse ++ q.iter

end Verif.ForwardSplit
