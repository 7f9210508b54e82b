import Verif.ConcatSeqs.Model
/-
What the concatenated sequences have to be.
-/
namespace Verif.ConcatSeqs

open Verif.Py

variable {K α : Type} [DecidableEq K] [DecidableEq α]

/-- The pieces with the delimiter between them. -/
def joinTags (d : Tag) : List Tag → Tag
  | [] => []
  | [p] => p
  | p :: q :: ps => p ++ d ++ joinTags d (q :: ps)

/-- The first `n` frames of the sequence which goes on with its last frame forever. -/
def toLength (n : Nat) (l : List α) : List α :=
  match l.getLast? with
  | none => []
  | some x => (l ++ List.replicate n x).take n

/-- The smallest multiple of `m` which is not smaller. -/
def roundUp (m n : Nat) : Nat := (n + m - 1) / m * m

/-- `ceildiv` for integers. -/
def ceilDiv (a b : Int) : Int := -((-a) / b)

/-- The data of a sub sequence which is not the last one: without the postfix, then extended to a multiple, then brought to the
length which the target asks for. -/
def middle (D : DS K α) (corpus : Tag → K → Arr α) (key : K) (t : Tag) : List α :=
  let l0 := (corpus t key).frames
  let l1 := if D.post.contains key then l0.dropLast else l0
  let l2 := match D.rep.get? key with
    | none => l1
    | some m => toLength (roundUp m l1.length) l1
  match D.pad.get? key with
  | none => l2
  | some (target, m) => toLength ((corpus t target).frames.length * m) l2

/-- The data of a sequence: the sub sequences one after the other, the last one unchanged. -/
def joined (D : DS K α) (corpus : Tag → K → Arr α) (key : K) : List Tag → List α
  | [] => []
  | [t] => (corpus t key).frames
  | t :: u :: ts => middle D corpus key t ++ joined D corpus key (u :: ts)

/-- The sub dataset returns the sequences of the list of tags, from a corpus. -/
def Delivers (sub : List Tag → Sub K α) (corpus : Tag → K → Arr α) (tags : List Tag) : Prop :=
  ∀ i t, tags[i]? = some t → (sub tags).tag i = .ok t ∧ ∀ key, (sub tags).data i key = .ok (corpus t key)

/-- What the options ask of a sub sequence which is not the last one: the postfix is there, the multiple is positive, and there is
a frame to repeat if frames are needed. -/
def Usable (D : DS K α) (corpus : Tag → K → Arr α) (key : K) (t : Tag) : Prop :=
  (∀ label, D.post.get? key = some label → (corpus t key).ndim = 1 ∧ (corpus t key).frames.getLast? = some label) ∧
  (∀ m, D.rep.get? key = some m → 0 < m) ∧
  (∀ target m, D.pad.get? key = some (target, m) → 0 < (corpus t target).frames.length * m →
    (if D.post.contains key then 1 else 0) < (corpus t key).frames.length)

end Verif.ConcatSeqs
