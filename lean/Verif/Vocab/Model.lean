import Verif.Util.Dict
/-
Model of `Vocabulary`, `CharacterTargets`, `Utf8ByteTargets` in `returnn/datasets/util/vocabulary.py`.

Simplifications: strings are lists of characters (without surrogates); the special symbols come as arguments and not
from a file; control and user defined symbols are left out (they are looked up in the same way as the others); the
cache of vocabulary files is left out; UTF-8 is the one of Lean.
-/
namespace Verif.Vocab
open Verif.Py

abbrev Str := List Char

/-- A label argument: `Union[str, int, None]`. -/
inductive Label where
  | name (s : Str)
  | id (i : Int)
  | none
deriving DecidableEq

/-- The `default` argument of the lookups: the class `KeyError`, or a value. -/
inductive Default (α : Type) where
  | keyError
  | value (v : Option α)

/-- vocabulary.py:114-134: the attributes. -/
structure Vocab where
  vocab : Dict Str Int
  labels : List Str
  unknown : Label := .none
  unknownId : Option Int := Option.none
  bosId : Option Int := Option.none
  eosId : Option Int := Option.none
  padId : Option Int := Option.none
  seqPostfix : List Int := []

/-- vocabulary.py:163-165: from a list of labels. -/
def parseLabels (labels : List Str) : Dict Str Int × List Str :=
  (labels.zipIdx.foldl (fun d p => d.set p.1 (p.2 : Int)) [], labels)

/-- Python's order of strings: by code points. -/
def strLe : Str → Str → Bool
  | [], _ => true
  | _ :: _, [] => false
  | a :: s, b :: t => decide (a.toNat < b.toNat) || (decide (a.toNat = b.toNat) && strLe s t)

/-- vocabulary.py:188: id to label; for equal ids, the last label in alphabetical order. -/
def labelsOf (d : Dict Str Int) : Dict Int Str :=
  (stableSort (fun a b => strLe a.1 b.1) d).foldl (fun l p => l.set p.2 p.1) []

/-- Python `min(d)` of the keys. -/
def minKey : List Int → Res Int
  | [] => .error .valueError
  | a :: l => .ok (l.foldl min a)

/-- Python `max(d)` of the keys. -/
def maxKey : List Int → Res Int
  | [] => .error .valueError
  | a :: l => .ok (l.foldl max a)

/-- vocabulary.py:187-197: from the dict of a file. -/
def parseDict (d : Dict Str Int) : Res (Dict Str Int × List Str) := do
  let labels := labelsOf d
  let lo ← minKey labels.keys
  let hi ← maxKey labels.keys
  pyAssert (decide (0 = lo))
  pyAssert (decide ((labels.length : Int) - 1 = hi))
  .ok (d, (stableSort (fun a b => decide (a.1 ≤ b.1)) labels).map Prod.snd)

/-- vocabulary.py:184-186: the dict of the lines of a file. -/
def linesDict (lines : List Str) : Dict Str Int := lines.zipIdx.foldl (fun d p => d.set p.1 (p.2 : Int)) []

/-- vocabulary.py:200-210 `create_vocab_dict_from_labels`. -/
def dictFromLabels (labels : List Str) : Res (Dict Str Int) := do
  let d : Dict Str Int := labels.zipIdx.foldl (fun d p => d.set p.1 (p.2 : Int)) []
  pyAssert (decide (d.length = labels.length))
  .ok d

/-- vocabulary.py:298-302 `is_id_valid`. -/
def isIdValid (V : Vocab) (i : Int) : Bool := decide (0 ≤ i) && decide (i < V.labels.length)

/-- Python `l[i]` with negative indices. -/
def pyGet {α : Type} (l : List α) (i : Int) : Res α :=
  if 0 ≤ i then getItem l i.toNat
  else if 0 ≤ i + l.length then getItem l (i + l.length).toNat else .error .indexError

/-- vocabulary.py:278-285 `label_to_id`. -/
def labelToId (V : Vocab) (label : Str) (dflt : Default Int := .keyError) : Res (Option Int) :=
  match V.vocab.get? label with
  | some i => .ok (some i)
  | none =>
    match dflt with
    | .keyError => .error .keyError
    | .value v => .ok v

/-- vocabulary.py:287-296 `id_to_label`. -/
def idToLabel (V : Vocab) (i : Int) (dflt : Default Str := .keyError) : Res (Option Str) :=
  if isIdValid V i then (pyGet V.labels i).map some
  else
    match dflt with
    | .keyError => .error .keyError
    | .value v => .ok v

/-- vocabulary.py:253-276 `to_id`. -/
def toId (V : Vocab) (label : Label) (dflt : Default Int := .keyError) (allowNone : Bool := false) : Res (Option Int) :=
  match label with
  | .name s => labelToId V s dflt
  | .id i =>
    if i = -1 ∧ allowNone = true then .ok none
    else if isIdValid V i then .ok (some i)
    else
      match dflt with
      | .keyError => .error .keyError
      | .value _ => .ok none
  | .none => if allowNone then .ok none else .error .typeError

/-- vocabulary.py:123-125: the unknown label as a string, if there is an id. -/
def unkLabel (V : Vocab) (unknown : Label) : Option Int → Res Label
  | some i => (idToLabel V i).map (fun l => match l with | some s => Label.name s | none => Label.none)
  | none => .ok unknown

/-- vocabulary.py:118-119: the check of the number of labels. -/
def checkNum (V : Vocab) : Option Nat → Res Unit
  | some n => pyAssert (decide (V.labels.length = n))
  | none => .ok ()

/-- vocabulary.py:115-134 `__init__`, after `_parse_vocab`. -/
def initVocab (parsed : Dict Str Int × List Str) (numLabels : Option Nat) (unknown bos eos pad : Label)
    (seqPostfix : List Int) : Res Vocab := do
  let V : Vocab := { vocab := parsed.1, labels := parsed.2 }
  checkNum V numLabels
  let unkId ← toId V unknown .keyError true
  let unk ← unkLabel V unknown unkId
  let bosId ← toId V bos .keyError true
  let eosId ← toId V eos .keyError true
  let padId ← toId V pad .keyError true
  .ok { V with unknown := unk, unknownId := unkId, bosId := bosId, eosId := eosId, padId := padId, seqPostfix := seqPostfix }

/-- vocabulary.py:317-324 `get_seq_indices`; `none` is Python's `None`. -/
def getSeqIndices (V : Vocab) (seq : List Str) : Res (List (Option Int)) :=
  if V.unknown ≠ .none then .ok (seq.map (fun k => match V.vocab.get? k with | some i => some i | none => V.unknownId))
  else seq.mapM (fun k => match V.vocab.get? k with | some i => .ok (some i) | none => .error .keyError)

/-- Python `str.isspace` of one character. -/
def isSpace (c : Char) : Bool :=
  let n := c.toNat
  (9 ≤ n && n ≤ 13) || (28 ≤ n && n ≤ 32) || n == 0x85 || n == 0xa0 || n == 0x1680 || (0x2000 ≤ n && n ≤ 0x200a) ||
    n == 0x2028 || n == 0x2029 || n == 0x202f || n == 0x205f || n == 0x3000

/-- Python `str.split()`; `cur` is the current word. -/
def splitAux (cur : Str) : Str → List Str
  | [] => if cur = [] then [] else [cur]
  | c :: s => if isSpace c then (if cur = [] then splitAux [] s else cur :: splitAux [] s) else splitAux (cur ++ [c]) s

/-- Python `sentence.split()`. -/
def splitWs (s : Str) : List Str := splitAux [] s

/-- Python `" ".join(words)`. -/
def joinSp : List Str → Str
  | [] => []
  | [w] => w
  | w :: ws => w ++ ' ' :: joinSp ws

/-- vocabulary.py:309-315 `get_seq`. -/
def getSeq (V : Vocab) (sentence : Str) : Res (List (Option Int)) :=
  (getSeqIndices V (splitWs sentence)).map (fun s => s ++ V.seqPostfix.map some)

/-- vocabulary.py:326-334 `get_seq_labels`. -/
def getSeqLabels (V : Vocab) (seq : List Int) : Res Str := (seq.mapM (pyGet V.labels)).map joinSp

/-- vocabulary.py:584-593 `CharacterTargets.get_seq`. -/
def charGetSeq (V : Vocab) (sentence : Str) : Res (List (Option Int)) :=
  (getSeqIndices V (sentence.map (fun c => [c]))).map (fun s => s ++ V.seqPostfix.map some)

/-- vocabulary.py:595-600 `CharacterTargets.get_seq_labels`. -/
def charGetSeqLabels (V : Vocab) (seq : List Int) : Res Str := (seq.mapM (pyGet V.labels)).map List.flatten

/-- vocabulary.py:615-621 `Utf8ByteTargets._parse_vocab`: the labels. -/
def byteLabels : List Str := (List.range 256).map (fun i => [Char.ofNat i])

/-- vocabulary.py:623-632 `Utf8ByteTargets.get_seq`. -/
def byteGetSeq (seqPostfix : List Int) (sentence : Str) : List Int :=
  (sentence.flatMap String.utf8EncodeChar).map (fun b => (b.toNat : Int)) ++ seqPostfix

/-- vocabulary.py:634-645 `Utf8ByteTargets.get_seq_labels`. -/
def byteGetSeqLabels (seq : List Int) : Res Str := do
  pyAssert (seq.all (fun i => decide (0 ≤ i) && decide (i < 256)))
  match (seq.map (fun i => UInt8.ofNat i.toNat)).toByteArray.utf8Decode? with
  | some s => .ok s.toList
  | none => .error (.other "UnicodeDecodeError")

/-- The class of a vocabulary. -/
inductive VocabClass where
  | words
  | chars
  | bytes
deriving DecidableEq

/-- vocabulary.py:223-230 `create_vocab_from_labels`: the class, and its labels. -/
def createFromLabels (labels : List Str) : VocabClass × List Str :=
  if labels.length < 1000 ∧ labels.all (fun l => l.length == 1) = true then
    if labels.length = 256 ∧ labels.zipIdx.all (fun p => match p.1 with | [c] => c.toNat == p.2 | _ => false) = true then
      (.bytes, byteLabels)
    else (.chars, labels)
  else (.words, labels)

end Verif.Vocab
