import Verif.OggZip.Model
/-
What `OggZipDataset` should give.
-/
namespace Verif.OggZip
open Verif Verif.Py

/-- The text document which belongs to a zip file: the separate one comes first. -/
def Doc (c : Cfg) (z : Zip) (l : List Raw) : Prop := c.txts.get? z.name = some l ∨ (c.txts.get? z.name = none ∧ z.txt = some l)

/-- `l` are all entries of all documents, in order, each with the number of its zip file; the first zip file has number `i`. -/
inductive Entries (c : Cfg) : Nat → List Zip → List Entry → Prop
  | nil (i : Nat) : Entries c i [] []
  | cons {i : Nat} {z : Zip} {t : List Zip} {d : List Raw} {r : List Entry} : Doc c z d → Entries c (i + 1) t r →
      Entries c i (z :: t) (d.map (fun x => ⟨x, i⟩) ++ r)

/-- The tag: the name of the sequence, or of the file without one. -/
def tagOf (r : Raw) : S :=
  match r.seqName, r.file with
  | some n, _ => n
  | none, some f => f
  | none, none => []

/-- `q` is sequence number `i`, made of entry `e`. -/
def SeqOf (c : Cfg) (i : Nat) (e : Entry) (q : Seq) : Prop :=
  q.seqIdx = i ∧ q.tag = tagOf e.raw ∧ q.raw = e.raw.text ∧ q.orth = c.enc e.raw.text ∧
  (q.classes = if c.hasTargets then some (c.getSeq e.raw.text) else none) ∧
  (c.hasAudio = false → q.data = none) ∧
  (c.hasAudio = true → ∃ z f b, c.zips[e.zip]? = some z ∧ e.raw.file = some f ∧ q.data = some (c.extract b) ∧
    z.audio.get? (if c.namePrefix then z.name ++ [47] ++ f else f) = some b)

/-- What a user does with the dataset. An error leaves the state as it is (it could only have loaded something). -/
inductive Reach (c : Cfg) : St → Prop
  | init : Reach c St.init
  | order {s s' : St} {e : Option Nat} {l : Option (List S)} {o : Option (List Nat)} : Reach c s → initSeqOrder c s e l o = .ok s' → Reach c s'
  | finish {s : St} (free : Bool) : Reach c s → Reach c (finishEpoch s free)
  | corpus {s s' : St} {i : Nat} {q : Seq} : Reach c s → corpusSeq c s i = .ok (s', q) → Reach c s'
  | collect {s s' : St} {i : Nat} {q : Seq} : Reach c s → collectSeq c s i = .ok (s', q) → Reach c s'
  | tags {s s' : St} {l : List S} : Reach c s → allTags c s = .ok (s', l) → Reach c s'

end Verif.OggZip
