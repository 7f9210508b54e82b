import Verif.Util.Dict
/-
The sequences a user gives to an HDF writer, and expects back from `HDFDataset`.
-/
namespace Verif.Hdf
open Verif.Py

/-- A sequence: tag, frames of the input data, frames for each other data key (no frames for a key which was not given). -/
structure Seq (K F T : Type) where
  tag : T
  input : List F
  get : K → List F

/-- One entry of a batch: the frames are padded to the longest sequence; `len` is the length. The values for other keys are not cut. -/
structure BSeq (K F T : Type) where
  tag : T
  frames : List F
  len : Nat
  extra : Dict K (List F)

/-- The sequence meant by an entry of a batch. -/
def BSeq.toSeq {K F T : Type} [DecidableEq K] (b : BSeq K F T) : Seq K F T :=
  ⟨b.tag, b.frames.take b.len, fun k => (b.extra.get? k).getD []⟩

/-- One use of a writer: the keys of `extra_type`, and the batches, each with the size of the time axis. -/
structure Session (K F T : Type) where
  extraType : List K
  batches : List (Nat × List (BSeq K F T))

/-- All entries of the batches. -/
def Session.entries {K F T : Type} (s : Session K F T) : List (BSeq K F T) := s.batches.flatMap Prod.snd

/-- A file: how it was created and extended. -/
structure Hist (K F T : Type) where
  first : Session K F T
  exts : List (Session K F T)

def Hist.entries {K F T : Type} (h : Hist K F T) : List (BSeq K F T) := h.first.entries ++ h.exts.flatMap Session.entries

/-- The extra keys of a file: given in `extra_type`, or with the first sequence. -/
def Hist.keys {K F T : Type} (h : Hist K F T) : List K :=
  h.first.extraType ++ (match h.first.entries with | [] => [] | b :: _ => b.extra.map Prod.fst)

/-- A proper batch: not empty, an array of size `time` in the time axis with the lengths of the sequences, the longest being `time`;
extra keys are distinct. -/
def BatchOk {K F T : Type} (time : Nat) (bs : List (BSeq K F T)) : Prop :=
  (∃ b ∈ bs, b.len = time) ∧ ∀ b ∈ bs, b.frames.length = time ∧ b.len ≤ time ∧ (b.extra.map Prod.fst).Nodup

/-- Proper uses of the writers: proper batches; at least one to begin with; only the extra keys of the file are used, not the reserved
names; and whoever extends the file gives all its extra keys in `extra_type`. -/
structure HistOk {K F T : Type} (data inputs : K) (h : Hist K F T) : Prop where
  ne : h.first.batches ≠ []
  batch : ∀ s ∈ h.first :: h.exts, ∀ b ∈ s.batches, BatchOk b.1 b.2
  sub : ∀ b ∈ h.entries, ∀ k ∈ b.extra.map Prod.fst, k ∈ h.keys
  reserved : data ∉ h.keys ∧ inputs ∉ h.keys
  ext : ∀ s ∈ h.exts, s.extraType.Nodup ∧ ∀ k, k ∈ s.extraType ↔ k ∈ h.keys

end Verif.Hdf
