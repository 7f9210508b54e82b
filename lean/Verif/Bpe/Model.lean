import Verif.Util.Dict
/-
Model of `StandardBytePairEncoder` in `returnn/util/bpe.py:15-228`.

Simplifications: strings are lists of characters; the lines of the codes file are given as pairs (lines with another
number of items are left out); the recursion of `_recursive_split` has a limit, like the one of Python.
-/
namespace Verif.Bpe
open Verif.Py

abbrev Str := List Char

/-- The end-of-word symbol. -/
def eow : Str := "</w>".toList

/-- bpe.py:12 `BpePostMergeSymbol`. -/
def sep : Str := "@@".toList

/-- bpe.py:91-96: the two known versions of the codes file, and any other. -/
inductive Version where
  | v01
  | v02
  | other
deriving DecidableEq

/-- The object: version, codes, reverse codes, vocabulary (`none` and `some []` are both "no labels"). -/
structure Encoder where
  version : Version
  codes : Dict (Str × Str) Nat
  rev : Dict Str (Str × Str)
  labels : Option (List Str)

/-- bpe.py:62-63: only the first instance of a pair counts. -/
def loadCodes (lines : List (Str × Str)) : Dict (Str × Str) Nat :=
  lines.zipIdx.reverse.foldl (fun d p => d.set p.1 p.2) []

/-- bpe.py:64: merged string to pair. -/
def loadRev (codes : Dict (Str × Str) Nat) : Dict Str (Str × Str) :=
  codes.foldl (fun d p => d.set (p.1.1 ++ p.1.2) p.1) []

/-- bpe.py:30-65 `__init__`, `_load`. -/
def load (version : Version) (lines : List (Str × Str)) (labels : Option (List Str)) : Encoder :=
  ⟨version, loadCodes lines, loadRev (loadCodes lines), labels⟩

/-- bpe.py:67-79 `_get_pairs`, as a list. -/
def pairs (word : List Str) : List (Str × Str) := word.zip word.tail

/-- bpe.py:103: the pair with the lowest index, if any pair of the word is in the codes. -/
def bestPair (codes : Dict (Str × Str) Nat) (word : List Str) : Option (Nat × (Str × Str)) :=
  (pairs word).foldl (fun b p =>
    match codes.get? p, b with
    | none, _ => b
    | some i, none => some (i, p)
    | some i, some (j, q) => if i < j then some (i, p) else some (j, q)) none

/-- bpe.py:107-124: merge all occurrences from left to right. -/
def mergePair (first second : Str) : List Str → List Str
  | a :: b :: l => if a = first ∧ b = second then (first ++ second) :: mergePair first second l
      else a :: mergePair first second (b :: l)
  | l => l

/-- bpe.py:102-129: the loop; every round makes the word shorter, so the length is enough fuel. -/
def mergeLoop (codes : Dict (Str × Str) Nat) : Nat → List Str → List Str
  | 0, word => word
  | fuel + 1, word =>
    match bestPair codes word with
    | none => word
    | some (_, (first, second)) =>
      let word := mergePair first second word
      if word.length = 1 then word else mergeLoop codes fuel word

/-- Python `s.replace(pat, "")` for a non-empty pattern (the fuel is the length). -/
def removeAll (pat : Str) : Nat → Str → Str
  | 0, s => s
  | _ + 1, [] => []
  | fuel + 1, c :: s =>
    if pat.isPrefixOf (c :: s) then removeAll pat fuel ((c :: s).drop pat.length) else c :: removeAll pat fuel s

/-- bpe.py:131-135: take the end-of-word symbol away. -/
def stripEow (word : List Str) : List Str :=
  match word.getLast? with
  | none => word
  | some last =>
    if last = eow then word.dropLast
    else if eow.isSuffixOf last then word.dropLast ++ [removeAll eow last.length last]
    else word

/-- The segment itself, if it is in the vocabulary, and else its parts. -/
def orSplit (found : Bool) (s : Str) (parts : Res (List Str)) : Res (List Str) := if found then .ok [s] else parts

/-- bpe.py:169-195 `_recursive_split`. -/
def recursiveSplit (rev : Dict Str (Str × Str)) (vocab : List Str) : Nat → Str → Bool → Res (List Str)
  | 0, _, _ => .error (.other "RecursionError")
  | fuel + 1, segment, final =>
    match rev.get? (if final then segment ++ eow else segment) with
    | none => .ok [segment]
    | some (left, right) => do
      let right := if final then right.take (right.length - 4) else right
      let a ← orSplit (vocab.contains (left ++ sep)) left (recursiveSplit rev vocab fuel left false)
      let b ← orSplit ((final && vocab.contains right) || (!final && vocab.contains (right ++ sep))) right
        (recursiveSplit rev vocab fuel right final)
      .ok (a ++ b)

/-- Enough for `_recursive_split`. -/
def splitFuel (segment : Str) : Nat := segment.length + 5

/-- bpe.py:151-157: all segments but the last one. -/
def splitInner (rev : Dict Str (Str × Str)) (vocab : List Str) : List Str → Res (List Str)
  | [] => .ok []
  | s :: l => do
    let a ← orSplit (vocab.contains (s ++ sep)) s (recursiveSplit rev vocab (splitFuel s) s false)
    let b ← splitInner rev vocab l
    .ok (a ++ b)

/-- bpe.py:143-167 `_check_vocab_and_split`. -/
def checkVocab (rev : Dict Str (Str × Str)) (vocab : List Str) (word : List Str) : Res (List Str) :=
  match word.getLast? with
  | none => .error .indexError
  | some last => do
    let a ← splitInner rev vocab word.dropLast
    let b ← orSplit (vocab.contains last) last (recursiveSplit rev vocab (splitFuel last) last true)
    .ok (a ++ b)

/-- bpe.py:91-96: the symbols at the beginning. -/
def initWord (version : Version) (orig : Str) : Res (List Str) :=
  match version with
  | .v01 => .ok (orig.map (fun c => [c]) ++ [eow])
  | .v02 =>
    match orig.getLast? with
    | none => .error .indexError
    | some c => .ok (orig.dropLast.map (fun c => [c]) ++ [c :: eow])
  | .other => .error .notImplemented

/-- bpe.py:81-141 `_encode_word` without the cache. In the early return, the string is used as the sequence of its
characters. -/
def encodeWord (E : Encoder) (orig : Str) : Res (List Str) := do
  let word ← initWord E.version orig
  if (pairs word).isEmpty then .ok (orig.map (fun c => [c]))
  else
    let word := stripEow (mergeLoop E.codes word.length word)
    match E.labels with
    | some (l :: ls) => checkVocab E.rev (l :: ls) word
    | _ => .ok word

/-- bpe.py:81-141 `_encode_word` with the cache: result and new cache. -/
def encodeCached (E : Encoder) (cache : Dict Str (List Str)) (orig : Str) : Res (List Str × Dict Str (List Str)) :=
  match cache.get? orig with
  | some w => .ok (w, cache)
  | none => do
    let word ← initWord E.version orig
    if (pairs word).isEmpty then .ok (orig.map (fun c => [c]), cache)
    else do
      let word := stripEow (mergeLoop E.codes word.length word)
      let word ← match E.labels with
        | some (l :: ls) => checkVocab E.rev (l :: ls) word
        | _ => .ok word
      .ok (word, cache.set orig word)

/-- bpe.py:224-226: the separator after all segments but the last one. -/
def withSep (segs : List Str) : List Str := segs.dropLast.map (fun s => s ++ sep) ++ segs.getLast?.toList

/-- bpe.py:205-228 `segment_sentence`, for the words of the sentence; `found`, `skip`: the two flags. -/
def segmentSentence (E : Encoder) : Dict Str (List Str) → Bool → Bool → List Str → Res (List Str)
  | _, _, _, [] => .ok []
  | cache, found, skip, w :: ws =>
    if w.head? = some '$' ∧ w.length > 1 then do
      .ok (w :: (← segmentSentence E cache true skip ws))
    else if found = true ∧ w.head? = some '{' then do
      .ok (w :: (← segmentSentence E cache found true ws))
    else if skip = true ∧ w.head? ≠ some '}' then do
      .ok (w :: (← segmentSentence E cache found skip ws))
    else do
      let r ← encodeCached E cache w
      if r.1.isEmpty then .error .indexError
      else .ok (withSep r.1 ++ (← segmentSentence E r.2 false false ws))

end Verif.Bpe
