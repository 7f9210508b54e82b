import Verif.Util.Dict
import Mathlib.Data.Nat.Digits.Defs
import Mathlib.Order.Defs.LinearOrder
/-
Model of `TranslationDataset` of `returnn/datasets/lm.py`: the reader thread, waiting for lines, sequence order, vocabularies.

Simplifications for the whole file:
* a file is the list of its lines; `readlines(hint)` gives an arbitrary number of further lines, at least one unless the file is at its end;
* a line is processed (decoded, stripped, postfix, split, looked up) by a function which may fail;
* an exception in the thread is the phase `failed` (the code then interrupts the main thread);
* gz files, the cache manager and pickled vocabularies are not modelled.
-/
namespace Verif.TransData
open Verif Verif.Py

/-- The two files, also used for their data keys "data" and "classes". -/
inductive Key where
  | source
  | target
deriving DecidableEq

/-- The corpus: lines of the files, and how a line is processed. -/
structure Corpus (Line D : Type) where
  file : Key → List Line
  proc : Key → Line → Option D
  /-- `_files_to_read`, which are also the data keys of a sequence. /repo/returnn/datasets/lm.py:1456-1460, 1777. -/
  keys : List Key

/-- Where the thread is. `round todo i`: at index `i` of the `for` over `files_to_read`. -/
inductive Phase where
  | count (c : Nat)
  | round (todo : List Key) (i : Nat)
  | done
  | failed
deriving DecidableEq

/-- The shared state: `_data_len`, `_data`, and where the files are. -/
structure St (D : Type) where
  phase : Phase
  dataLen : Option Nat
  data : Key → List D
  at_ : Key → Nat

/-- Before the thread starts. /repo/returnn/datasets/lm.py:1465-1467. -/
def start {D : Type} : St D := ⟨.count 0, none, fun _ => [], fun _ => 0⟩

/-- `f[k] = v`. -/
def upd {α : Type} (f : Key → α) (k : Key) (v : α) : Key → α := fun j => if j = k then v else f j

/-- The lines which `readlines` returns. `chunk` is the wanted number. -/
def readLines {Line : Type} (file : List Line) (pos chunk : Nat) : List Line := (file.drop pos).take (max 1 chunk)

/-- All lines processed, or an exception. /repo/returnn/datasets/lm.py:1508-1512. -/
def procAll {Line D : Type} (proc : Line → Option D) : List Line → Option (List D)
  | [] => some []
  | l :: t =>
    match proc l, procAll proc t with
    | some d, some r => some (d :: r)
    | _, _ => none

/-- Counting the lines. /repo/returnn/datasets/lm.py:1529-1537. -/
def countStep {Line D : Type} (c : Corpus Line D) (s : St D) (n chunk : Nat) : St D :=
  match readLines (c.file .source) n chunk with
  | [] => { s with dataLen := some n, phase := .round c.keys 0 }
  | ls => { s with phase := .count (n + ls.length) }

/-- One file in the loop. /repo/returnn/datasets/lm.py:1543-1549. -/
def fileStep {Line D : Type} (c : Corpus Line D) (s : St D) (todo : List Key) (i : Nat) (k : Key) (chunk : Nat) : St D :=
  match readLines (c.file k) (s.at_ k) chunk with
  | [] => if (s.data k).length = s.dataLen.getD 0 then { s with phase := .round (todo.erase k) (i + 1) } else { s with phase := .failed }
  | ls =>
    if (s.data k).length + ls.length ≤ s.dataLen.getD 0 then
      match procAll (c.proc k) ls with
      | some ds => { s with data := upd s.data k (s.data k ++ ds), at_ := upd s.at_ k (s.at_ k + ls.length), phase := .round todo (i + 1) }
      | none => { s with phase := .failed }
    else { s with phase := .failed }

/-- One step of the thread. The list of the `for` loop gets shorter while it is running. /repo/returnn/datasets/lm.py:1528-1556. -/
def step {Line D : Type} (c : Corpus Line D) (chunk : Nat) (s : St D) : St D :=
  match s.phase with
  | .count n => countStep c s n chunk
  | .round todo i =>
    match todo[i]? with
    | some k => fileStep c s todo i k chunk
    | none => if todo = [] then { s with phase := .done } else { s with phase := .round todo 0 }
  | .done => s
  | .failed => s

/-- The state after `n` steps, with the given sizes of chunks. -/
def run {Line D : Type} (c : Corpus Line D) (chunks : Nat → Nat) : Nat → St D
  | 0 => start
  | n + 1 => step c (chunks n) (run c chunks n)

/-- One look of `_get_data` at the data: `none` is to wait and look again. /repo/returnn/datasets/lm.py:1655-1669. -/
def getData {D : Type} (s : St D) (k : Key) (line : Nat) : Res (Option D) := do
  match s.dataLen with
  | some n => pyAssert (line ≤ n)
  | none => .ok ()
  .ok (s.data k)[line]?

/-- `get_all_tags`: the line numbers of them. /repo/returnn/datasets/lm.py:1695-1699. -/
def allTags {D : Type} (s : St D) : List Nat := List.range (s.data .source).length

/-! ## Sequence order -/

/-- `str(n)`. -/
def str (n : Nat) : List Nat := if n = 0 then [48] else (Nat.digits 10 n).reverse.map (fun d => d + 48)

/-- `int(s)`, only for digits. -/
def int (s : List Nat) : Res Nat :=
  if s = [] ∨ s.any (fun c => c < 48 || 57 < c) then .error .valueError else .ok (s.foldl (fun r c => r * 10 + (c - 48)) 0)

/-- `_tag_prefix`: "line-". /repo/returnn/datasets/lm.py:1488. -/
def tagPrefix : List Nat := [108, 105, 110, 101, 45]

/-- An entry of a list of sequences: a string, or a number when it comes from `seq_list_file`. -/
inductive Entry where
  | str (s : List Nat)
  | num (n : Nat)

/-- `int(s[len(prefix):])`. /repo/returnn/datasets/lm.py:1747. -/
def entryLine : Entry → Res Nat
  | .str s => int (s.drop tagPrefix.length)
  | .num _ => .error .typeError

/-- `mapM` for entries. -/
def entryLines : List Entry → Res (List Nat)
  | [] => .ok []
  | e :: t => do
    let n ← entryLine e
    let r ← entryLines t
    .ok (n :: r)

/-- `init_seq_order`: the order. `own`: `self.seq_list`; `auto`: the order for the epoch. /repo/returnn/datasets/lm.py:1740-1756. -/
def initOrder (own : Option (List Nat)) (seqList : Option (List Entry)) (seqOrder : Option (List Nat)) (auto : List Nat) : Res (List Nat) :=
  let seqList := match seqList, own with
    | none, some (n :: t) => some ((n :: t).map Entry.num)
    | s, _ => s
  match seqOrder, seqList with
  | some o, _ => .ok o
  | none, some l => entryLines l
  | none, none => .ok auto

/-- `mapM` of `_get_data`; `none` when something has to wait. -/
def getAll {D : Type} (s : St D) (line : Nat) : List Key → Res (Option (List (Key × D)))
  | [] => .ok (some [])
  | k :: t => do
    let d ← getData s k line
    let r ← getAll s line t
    match d, r with
    | some d, some r => .ok (some ((k, d) :: r))
    | _, _ => .ok none

/-- The result of `_collect_single_seq`. -/
inductive Seq (D : Type) where
  | over
  | wait
  | seq (tag : List Nat) (features : List (Key × D))

/-- `_collect_single_seq`. /repo/returnn/datasets/lm.py:1772-1782. -/
def collect {D : Type} (keys : List Key) (order : List Nat) (s : St D) (idx : Nat) : Res (Seq D) :=
  match order[idx]? with
  | none => .ok .over
  | some line => do
    match ← getAll s line keys with
    | some f => .ok (.seq (tagPrefix ++ str line) f)
    | none => .ok .wait

/-! ## Vocabularies -/

section
variable {W : Type} [LinearOrder W]

/-- `max(vocab.values()) + 1`. /repo/returnn/datasets/lm.py:1470. -/
def numOutputs (vocab : Dict W Nat) : Res Nat :=
  match vocab.values with
  | [] => .error .valueError
  | a :: t => .ok (t.foldl max a + 1)

/-- `_reverse_vocab`. /repo/returnn/datasets/lm.py:1611-1622. -/
def reverseVocab (vocab : Dict W Nat) : Dict Nat W :=
  (vocab.mergeSort (fun a b => decide (a.1 ≤ b.1))).foldl (fun d p => d.set p.2 p.1) []

/-- `map(reversed_vocab.__getitem__, ...)`. -/
def labelsOf (d : Dict Nat W) : List Nat → Res (List W)
  | [] => .ok []
  | i :: t =>
    match d.get? i with
    | none => .error .keyError
    | some w => do
      let r ← labelsOf d t
      .ok (w :: r)

/-- `_get_label_list`. /repo/returnn/datasets/lm.py:1624-1633. -/
def labelList (vocab : Dict W Nat) : Res (List W) := do
  let n ← numOutputs vocab
  labelsOf (reverseVocab vocab) (List.range n)

/-- `list(map(vocab.__getitem__, words))`. -/
def idsStrict (vocab : Dict W Nat) : List W → Res (List Nat)
  | [] => .ok []
  | w :: t =>
    match vocab.get? w with
    | none => .error (.other "Can not handle unknown token without unknown_label")
    | some i => do
      let r ← idsStrict vocab t
      .ok (i :: r)

/-- `_words_to_numpy`. /repo/returnn/datasets/lm.py:1635-1653. -/
def wordIds (vocab : Dict W Nat) (unknown : Option W) (words : List W) : Res (List Nat) :=
  match unknown with
  | none => idsStrict vocab words
  | some u =>
    match vocab.get? u with
    | none => .error .keyError
    | some i => .ok (words.map (fun w => (vocab.get? w).getD i))

/-- `get_data_dim`: the same for all keys. /repo/returnn/datasets/lm.py:1471, 1717-1721. -/
def dataDim (vocab : Key → Dict W Nat) (_key : Key) : Res Nat := numOutputs (vocab .source)

end

end Verif.TransData
