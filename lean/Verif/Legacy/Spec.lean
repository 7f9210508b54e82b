import Verif.Legacy.Model
import Verif.NumbersDict.Spec
/-
Specifications for the legacy batching (C12-C14).
-/
namespace Verif.Legacy
open Verif.Py Verif.NumbersDict Verif.Pipeline

variable {K : Type} [DecidableEq K]

/-! ### C14 -/

/-- The abstract machine: a cursor `p` over the fixed list `l` of all batches. -/
def cursor {α : Type} (canReset : Bool) (l : List α) (p : Nat) : Call → Ret α × Nat
  | .peek n => (.batches ((l.drop p).take n), p)
  | .advance n => if 0 < n ∧ p + n ≤ l.length then (.unit, p + n) else (.error, p)
  | .hasMore => (.bool (decide (p < l.length)), p)
  | .reset => if canReset then (.unit, 0) else (.error, p)
  | .index => (.nat p, p)

/-- The results of a sequence of calls on the abstract machine. -/
def cursorRun {α : Type} (canReset : Bool) (l : List α) : Nat → List Call → List (Ret α)
  | _, [] => []
  | p, c :: cs => (cursor canReset l p c).1 :: cursorRun canReset l (cursor canReset l p c).2 cs

/-- The results of a sequence of calls on the implementation. -/
def bsgRun {α : Type} (cacheWhole : Bool) : BSG α → List Call → List (Ret α)
  | _, [] => []
  | s, c :: cs => (s.call cacheWhole c).1 :: bsgRun cacheWhole (s.call cacheWhole c).2 cs

/-! ### C13 -/

/-- Sum of the lengths for a key over the seqs of a batch (a missing key counts as zero). -/
def sumLens {α : Type} (lens : α → Dict K Nat) (b : List α) (k : K) : Int :=
  (b.map (fun x => (((lens x).get? k).getD 0 : Int))).sum

/-- `(longest seq) * (number of seqs) - sub k` is at most the limit, for every key with a limit. -/
def FitsMinus {α : Type} (lens : α → Dict K Nat) (sub : K → Int) (lim : ND K Int) (b : List α) : Prop :=
  ∀ k L, HasNumber lim k L → ∀ x ∈ b, ∀ n, (lens x).get? k = some n → (n : Int) * b.length - sub k ≤ L

/-- The padded size of the batch is at most the limit. -/
def SizeOk {α : Type} (lens : α → Dict K Nat) (lim : ND K Int) (b : List α) : Prop := FitsMinus lens (fun _ => 0) lim b

/-- The number of padding frames of the batch is at most the limit. -/
def PadOk {α : Type} (lens : α → Dict K Nat) (lim : ND K Int) (b : List α) : Prop :=
  FitsMinus lens (sumLens lens b) lim b

/-- The batch is within all limits. -/
def BatchOk (o : GenOpts K) (lens : Chunk K → Dict K Nat) (b : List (Chunk K)) : Prop :=
  SizeOk lens o.batchSize b ∧ (∀ m, o.maxSeqs = some m → b.length ≤ m) ∧ PadOk lens o.maxPad b

/-- The chunk takes part: selected, within the length limits, not randomly dropped. -/
def Kept (o : GenOpts K) (lens : Chunk K → Dict K Nat) (c : Chunk K) : Prop :=
  c.sampled = true ∧ InLen (lens c) ∧ c.dropped = false
where
  /-- Within the length limits. -/
  InLen (d : Dict K Nat) : Prop := ∀ k n, d.get? k = some n →
    (∀ L, HasNumber o.minLen k L → L ≤ n) ∧ (∀ L, HasNumber o.maxLen k L → (n : Int) ≤ L)

/-- Some chunk has frames. -/
def HasFrames (lens : Chunk K → Dict K Nat) (g : List (Chunk K)) : Prop :=
  ∃ c ∈ g, ∃ k n, (lens c).get? k = some n ∧ 0 < n

open Classical in
/-- The chunks which take part, in order. -/
noncomputable def keptOf (o : GenOpts K) (lens : Chunk K → Dict K Nat) (cs : List (Chunk K)) : List (Chunk K) :=
  cs.filter (fun c => decide (Kept o lens c))

/-- The number of seqs of a list of chunks, where consecutive chunks of the same seq count once; `prev` is the seq
before. -/
def numSeqs (prev : Option Nat) : List (Chunk K) → Nat
  | [] => 0
  | c :: cs => (if prev = some c.seq then 0 else 1) + numSeqs (some c.seq) cs

/-- A correct batching of `chunks` into the yielded batches `gs` and a final `last`, where `ok` says which batches of
more than one chunk are allowed: nothing lost or reordered, no empty batch, limits respected, no batch closed too
early. -/
structure GoodGreedy {α : Type} (ok : List α → Prop) (chunks : List α) (gs : List (List α)) (last : List α) : Prop where
  covers : gs.flatten ++ last = chunks
  nonempty : ∀ g ∈ gs, g ≠ []
  lastNonempty : chunks ≠ [] → last ≠ []
  limits : ∀ g ∈ gs ++ [last], 2 ≤ g.length → ok g
  maximal : ∀ l g x g' r, gs ++ [last] = l ++ g :: (x :: g') :: r → ¬ ok (g ++ [x])

/-- The batch object `b` represents the chunks `g`: one slice per chunk, in order, with the frames of that chunk. -/
structure Represents (o : GenOpts K) (b : Batch K) (g : List (Chunk K)) : Prop where
  num : b.numSlices = g.length
  seqs : b.seqs = g.zipIdx.map (fun p => ⟨p.1.seq, p.1.startCtx o, add (p.1.startCtx o) (p.1.len o), p.2⟩)

/-! ### C12 -/

/-- The chunking options have a number for each data key of the seq. -/
structure HasCfg (c : ChunkCfg) (lens : Dict String Nat) (size step minSize : String → Int) : Prop where
  size : ∀ k ∈ lens.keys, HasNumber c.size k (size k)
  step : ∀ k ∈ lens.keys, HasNumber c.step k (step k)
  min : ∀ k ∈ lens.keys, HasNumber c.minSize k (minSize k)

/-- The data keys which are chunked get all their frames. -/
def Covers (lens : Dict String Nat) (chunks : List (ND String Int × ND String Int)) : Prop :=
  ∀ k n, lens.get? k = some n → ∀ f : Nat, f < n →
    ∃ ch ∈ chunks, ∃ a b, HasNumber ch.1 k a ∧ HasNumber ch.2 k b ∧ a ≤ f ∧ (f : Int) < b

end Verif.Legacy
