import Verif.Util.Dict
/-
Model of `LmDataset` of `returnn/datasets/lm.py`: lines of the corpus files, symbols of a line, unknown symbols, collecting the sequences;
`parse_orthography` of `returnn/util/basic.py`.

Simplifications for the whole file:
* text is a list of character codes, the same as its bytes (ASCII); white space is ASCII white space;
* a compressed file is given by its uncompressed content, a Bliss XML file by the texts of its segments;
* logging and progress reports are left out;
* `orth_vocab` and `phone_info` are not modelled, only symbol maps.
-/
namespace Verif.LmData
open Verif Verif.Py

abbrev Text := List Nat

/-- `str.isspace` for one ASCII character. -/
def isSpace (c : Nat) : Bool := c == 32 || (9 ≤ c && c ≤ 13)

/-- `str.strip()`. -/
def strip (s : Text) : Text := ((s.dropWhile isSpace).reverse.dropWhile isSpace).reverse

/-! ## Lines of the corpus -/

/-- A corpus file. -/
inductive File where
  /-- Plain text, which is mapped into memory. -/
  | raw (content : Text)
  /-- `.gz`. -/
  | gz (content : Text)
  /-- Bliss XML. -/
  | bliss (orths : List Text)

/-- The offset and length of the lines of a mapped file, from `pos` on, with `fuel` for the recursion (more than there are characters).
/repo/returnn/datasets/lm.py:382-392. -/
def scanLines (skip : Bool) (file : Text) : Nat → Nat → List (Nat × Nat)
  | 0, _ => []
  | fuel + 1, pos =>
    match (file.drop pos).findIdx? (fun c => c == 10) with
    | none => []
    | some k => (if k ≠ 0 || !skip then [(pos, k)] else []) ++ scanLines skip file fuel (pos + k + 1)

/-- `for line in f` of a file object: all lines, also an unfinished last one, without the newline (it is stripped anyway).
/repo/returnn/datasets/lm.py:743. -/
def fileLines : Nat → Text → List Text
  | 0, _ => []
  | fuel + 1, f =>
    if f = [] then []
    else f.takeWhile (fun c => c != 10) :: fileLines fuel (f.drop ((f.takeWhile (fun c => c != 10)).length + 1))

/-- `_iter_txt`. /repo/returnn/datasets/lm.py:743-752. -/
def iterTxt (skip : Bool) (content : Text) : List Text :=
  ((fileLines (content.length + 1) content).map strip).filter (fun l => !(skip && l.isEmpty))

/-- What `_lazy_init` builds. `maps`: the files in memory, `none` for the temporary one; `tmp`: its index and content;
`orths`: file, offset and length of each line. -/
structure Corpus where
  maps : List (Option Text)
  tmp : Option (Nat × Text)
  orths : List (Nat × Nat × Nat)

/-- `_init_tmp_file`. /repo/returnn/datasets/lm.py:320-329. -/
def initTmp (c : Corpus) : Corpus :=
  match c.tmp with
  | some _ => c
  | none => { c with maps := c.maps ++ [none], tmp := some (c.maps.length, []) }

/-- `_tmp_file_add_line`. /repo/returnn/datasets/lm.py:331-340. -/
def addLine (c : Corpus) (line : Text) : Corpus :=
  match c.tmp with
  | some (i, t) => { c with tmp := some (i, t ++ line ++ [10]), orths := c.orths ++ [(i, t.length, line.length)] }
  | none => c

/-- One corpus file. An empty file can not be mapped. /repo/returnn/datasets/lm.py:358-393. -/
def addFile (skip : Bool) (c : Corpus) : File → Res Corpus
  | .bliss orths => .ok (orths.foldl addLine (initTmp c))
  | .gz content => .ok ((iterTxt skip content).foldl addLine (initTmp c))
  | .raw content =>
    if content = [] then .error .valueError
    else .ok { c with maps := c.maps ++ [some content],
                      orths := c.orths ++ (scanLines skip content (content.length + 1) 0).map (fun p => (c.maps.length, p.1, p.2)) }

/-- All corpus files. /repo/returnn/datasets/lm.py:358-396. -/
def addFiles (skip : Bool) : List File → Corpus → Res Corpus
  | [], c => .ok c
  | f :: t, c => do
    let c ← addFile skip c f
    addFiles skip t c

/-- The temporary file is mapped at the end. /repo/returnn/datasets/lm.py:398-400. -/
def mapTmp (c : Corpus) : Res Corpus :=
  match c.tmp with
  | none => .ok c
  | some (i, t) => if t = [] then .error .valueError else .ok { c with maps := c.maps.set i (some t) }

/-- `_lazy_init`. /repo/returnn/datasets/lm.py:295-427. -/
def lazyInit (skip : Bool) (files : List File) : Res Corpus := do
  let c ← addFiles skip files ⟨[], none, []⟩
  mapTmp c

/-- The text of a line. /repo/returnn/datasets/lm.py:573-574. -/
def Corpus.text (c : Corpus) (i : Nat) : Res Text :=
  match c.orths[i]? with
  | none => .error .indexError
  | some (f, off, len) =>
    match c.maps[f]? with
    | some (some m) => .ok (strip ((m.drop off).take len))
    | _ => .error .typeError

/-! ## Symbols of a line -/

abbrev Sym := Text

/-- State of `parse_orthography_into_symbols`: the symbols (the last one first), and the depth of brackets. -/
structure PSt where
  ret : List Sym
  depth : Nat

/-- `ret[-1] += c`; `ret` is not empty where this is used. -/
def appendLast (ret : List Sym) (c : Nat) : List Sym :=
  match ret with
  | [] => [[c]]
  | s :: t => (s ++ [c]) :: t

/-- One character; `up` is `c.upper()` or nothing; 91 and 93 are the brackets. /repo/returnn/util/basic.py:1733-1761. -/
def parseStep (up : Nat → Nat) (wordBased brackets : Bool) (st : PSt) (c : Nat) : PSt :=
  if st.depth ≠ 0 then
    if c = 91 then ⟨appendLast st.ret 91, st.depth + 1⟩
    else if c = 93 then ⟨appendLast st.ret 93, st.depth - 1⟩
    else ⟨appendLast st.ret (up c), st.depth⟩
  else if brackets && c == 91 then
    (if st.ret.head? = some [] then ⟨appendLast st.ret 91, 1⟩ else ⟨[91] :: st.ret, 1⟩)
  else if wordBased then
    (if isSpace c then ⟨[] :: st.ret, 0⟩ else ⟨appendLast st.ret c, 0⟩)
  else ⟨[c] :: st.ret, 0⟩

/-- `parse_orthography_into_symbols`. /repo/returnn/util/basic.py:1708-1762. -/
def parseSymbols (up : Nat → Nat) (wordBased brackets : Bool) (s : Text) : List Sym :=
  (s.foldl (parseStep up wordBased brackets) ⟨[], 0⟩).ret.reverse

/-- `str.split()`: the words. `fuel` for the recursion. -/
def splitLoop : Nat → Text → List Text
  | 0, _ => []
  | fuel + 1, s =>
    let s := s.dropWhile isSpace
    if s = [] then [] else s.takeWhile (fun c => !isSpace c) :: splitLoop fuel (s.dropWhile (fun c => !isSpace c))

/-- `str.split()`. -/
def split (s : Text) : List Text := splitLoop (s.length + 1) s

/-- `" ".join(words)`. -/
def joinSpace : List Text → Text
  | [] => []
  | [w] => w
  | w :: t => w ++ 32 :: joinSpace t

/-- Options of `parse_orthography`. -/
structure POpts where
  pre : List Sym
  post : List Sym
  remove : List Nat
  collapse : Bool
  finalStrip : Bool
  up : Nat → Nat
  wordBased : Bool
  brackets : Bool

/-- The preprocessing of `parse_orthography`. /repo/returnn/util/basic.py:1785-1790. -/
def preprocess (o : POpts) (s : Text) : Text :=
  let s := s.filter (fun c => !o.remove.contains c)
  let s := if o.collapse then joinSpace (split s) else s
  if o.finalStrip then strip s else s

/-- `parse_orthography`. /repo/returnn/util/basic.py:1765-1791. -/
def parseOrth (o : POpts) (s : Text) : List Sym := o.pre ++ parseSymbols o.up o.wordBased o.brackets (preprocess o s) ++ o.post

/-! ## Unknown symbols -/

/-- The symbols with their replacements. /repo/returnn/datasets/lm.py:587. -/
def replaceAll (m : Dict Sym (List Sym)) (l : List Sym) : List Sym := l.flatMap (fun s => (m.get? s).getD [s])

/-- Two space symbols are collapsed, again and again. The loop over an index is written as a recursion. /repo/returnn/datasets/lm.py:588-595. -/
def collapse (sp : Sym) : List Sym → List Sym
  | [] => []
  | [a] => [a]
  | a :: b :: t => if a = sp ∧ b = sp then collapse sp (b :: t) else a :: collapse sp (b :: t)

/-- The options of the dataset for symbols. `vocab`: `orth_symbols_map`. -/
structure SOpts where
  vocab : Dict Sym Nat
  space : Sym
  unknown : Option Sym
  autoReplace : Bool

/-- What an unknown symbol is replaced by. /repo/returnn/datasets/lm.py:613-615. -/
def SOpts.unk (o : SOpts) : List Sym := o.unknown.toList

/-- The inner `while True`: the final symbols and the new `orth_replace_map`. `none` when it takes more than `fuel` rounds.
/repo/returnn/datasets/lm.py:586-617. -/
def replaceLoop (o : SOpts) : Nat → Dict Sym (List Sym) → List Sym → Option (List Sym × Dict Sym (List Sym))
  | 0, _, _ => none
  | fuel + 1, m, l =>
    let l := collapse o.space (replaceAll m l)
    if o.autoReplace then
      match l.find? (fun s => !o.vocab.contains s) with
      | some x => replaceLoop o fuel (m.set x o.unk) l
      | none => some (l, m)
    else some (l, m)

/-- The ids of the symbols, a `KeyError` gives `none`. /repo/returnn/datasets/lm.py:624-625. -/
def toIds (o : SOpts) : List Sym → Option (List Nat)
  | [] => some []
  | s :: t =>
    match o.vocab.get? s, toIds o t with
    | some i, some r => some (i :: r)
    | _, _ => none

/-- The delayed data. /repo/returnn/datasets/lm.py:662-666. -/
def delayed (start : Nat) (data : List Nat) : Res (List Nat) := do
  let d := start :: data.dropLast
  pyAssert (d.length == data.length)
  .ok d

/-- The dtype for a number of labels: the largest id which can be stored. /repo/returnn/datasets/lm.py:250-266. -/
def dtypeMax (numLabels : Nat) : Res Nat :=
  if numLabels ≤ 2 ^ 7 then .ok (2 ^ 7 - 1)
  else if numLabels ≤ 2 ^ 8 then .ok (2 ^ 8 - 1)
  else if numLabels ≤ 2 ^ 31 then .ok (2 ^ 31 - 1)
  else if numLabels ≤ 2 ^ 32 then .ok (2 ^ 32 - 1)
  else if numLabels ≤ 2 ^ 63 then .ok (2 ^ 63 - 1)
  else if numLabels ≤ 2 ^ 64 then .ok (2 ^ 64 - 1)
  else .error (.other "Exception")

/-! ## Collecting sequences -/

/-- The state of an epoch: `seq_order`, `next_orth_idx`, `next_seq_idx`, `num_skipped`. -/
structure Epoch where
  order : List Nat
  nextOrth : Nat
  nextSeq : Nat
  skipped : Nat

/-- `init_seq_order`: the order is given. The result is also `_num_seqs`. /repo/returnn/datasets/lm.py:482-509. -/
def initEpoch (order : List Nat) : Epoch × Nat := (⟨order, 0, 0, 0⟩, order.length)

/-- `_collect_single_seq`: `proc` gives the data of a line, `none` for a line with an unknown symbol or word. `fuel` for the recursion.
The result has the line number for the tag. /repo/returnn/datasets/lm.py:557-668. -/
def collectLoop {D : Type} (proc : Nat → Option D) (errorOnInvalid : Bool) (seqIdx : Nat) : Nat → Epoch → Res (Option (Nat × D) × Epoch)
  | 0, _ => .error (.other "fuel")
  | fuel + 1, e =>
    if e.order.length ≤ e.nextOrth then
      (if e.nextSeq ≤ seqIdx then .ok (none, e) else .error .assertion)
    else if e.nextSeq ≠ seqIdx then .error .assertion
    else
      match proc (e.order.getD e.nextOrth 0) with
      | some d => .ok (some (e.order.getD e.nextOrth 0, d), { e with nextOrth := e.nextOrth + 1, nextSeq := seqIdx + 1 })
      | none =>
        if errorOnInvalid then .error (.other "LmDataset: invalid seq")
        else collectLoop proc errorOnInvalid seqIdx fuel { e with nextOrth := e.nextOrth + 1, skipped := e.skipped + 1 }

/-- `_collect_single_seq`. /repo/returnn/datasets/lm.py:557-668. -/
def collect {D : Type} (proc : Nat → Option D) (err : Bool) (seqIdx : Nat) (e : Epoch) : Res (Option (Nat × D) × Epoch) :=
  collectLoop proc err seqIdx (e.order.length + 1) e

/-- Sequences `i`, ..., `i + n - 1` one after the other. -/
def collectMany {D : Type} (proc : Nat → Option D) (err : Bool) : Nat → Nat → Epoch → Res (List (Option (Nat × D)) × Epoch)
  | 0, _, e => .ok ([], e)
  | n + 1, i, e => do
    let (x, e) ← collect proc err i e
    let (xs, e) ← collectMany proc err n (i + 1) e
    .ok (x :: xs, e)

end Verif.LmData
