import Verif.Util.Py
import Mathlib.Algebra.Order.Ring.Rat
/-
Model of `TextDictDataset` of `returnn/datasets/text_dict.py`: search output as a dataset.

Simplifications for the whole file:
* texts and tags are lists of numbers; the file is given as the dict which is in it (`literal_eval`, see C81), with distinct tags; scores are rational numbers (no NaN);
* the vocabulary is a function from texts to labels, which can fail; random seeds are left out; the order of an epoch is a function (`get_seq_order_for_epoch`, see C01);
* data types of arrays are left out.
-/
namespace Verif.TextDict
open Verif.Py

/-- Texts. -/
abbrev S := List Nat

/-- A value of the dict: a text, or a list of scores and texts. -/
inductive Val where
  | text (s : S)
  | beam (l : List (ℚ × S))
deriving DecidableEq

/-- The options. -/
structure Cfg where
  /-- `item_format` is "single", otherwise "list_with_scores". -/
  single : Bool
  file : List (S × Val)
  vocab : S → Res (List Nat)
  /-- epoch, number of sequences, lengths -/
  order : Nat → Nat → (Nat → Nat) → List Nat

/-- The state: what is loaded, and the order. -/
structure St where
  values : Option (List Val)
  tags : Option (List S)
  order : Option (List Nat)
  numSeqs : Option Nat
deriving DecidableEq

/-- After the creation. /repo/returnn/datasets/text_dict.py:75-77. -/
def St.init : St := ⟨none, none, none, none⟩

/-- The check of the first entry. /repo/returnn/datasets/text_dict.py:107-123. -/
def checkFirst (single : Bool) : List (S × Val) → Res Unit
  | [] => .error .assertion
  | (_, .text _) :: _ => if single then .ok () else .error .assertion
  | (_, .beam l) :: _ => if single then .error .assertion else if l = [] then .error .assertion else .ok ()

/-- `_load`. /repo/returnn/datasets/text_dict.py:79-125. -/
def load (c : Cfg) (s : St) : Res St :=
  match s.values with
  | some _ => .ok s
  | none => do
    checkFirst c.single c.file
    .ok { s with values := some (c.file.map Prod.snd), tags := some (c.file.map Prod.fst) }

/-- `_get_seq_len`: characters. Entries of the other kind, whose length would be something else or an error, are 0 here. /repo/returnn/datasets/text_dict.py:137-146. -/
def valLen (single : Bool) : Val → Nat
  | .text t => if single then t.length else 0
  | .beam l => if single then l.length else (l.map (fun x => x.2.length)).sum

/-- The length of sequence `i`. -/
def seqLen (single : Bool) (values : List Val) (i : Nat) : Nat :=
  match values[i]? with
  | some v => valLen single v
  | none => 0

/-- `init_seq_order`; without epoch it is epoch 1. It does not load when an order is given. /repo/returnn/datasets/text_dict.py:127-159. -/
def initSeqOrder (c : Cfg) (s : St) (epoch : Option Nat) (seqList : Option (List S)) (seqOrder : Option (List Nat)) : Res St :=
  if epoch.isNone && seqList.isNone && seqOrder.isNone then .ok { s with numSeqs := some 0 }
  else
    match seqOrder, seqList with
    | some o, _ => .ok { s with order := some o, numSeqs := some o.length }
    | none, some _ => .error .notImplemented
    | none, none => do
      let s ← load c s
      let values := s.values.getD []
      let o := c.order (epoch.getD 1) values.length (seqLen c.single values)
      .ok { s with order := some o, numSeqs := some o.length }

/-- `max(data, key=...)`: the first one with the highest score. /repo/returnn/datasets/text_dict.py:171. -/
def best : List (ℚ × S) → Option (ℚ × S)
  | [] => none
  | x :: t =>
    match best t with
    | none => some x
    | some y => if x.1 < y.1 then some y else some x

/-- All labels, or the first error. /repo/returnn/datasets/text_dict.py:173. -/
def encodeAll (vocab : S → Res (List Nat)) : List (ℚ × S) → Res (List (List Nat))
  | [] => .ok []
  | x :: t => do
    let a ← vocab x.2
    let r ← encodeAll vocab t
    .ok (a :: r)

/-- The data of a sequence; the last three only for lists. -/
structure Feat where
  data : List Nat
  flat : List Nat
  lens : List Nat
  scores : List ℚ
deriving DecidableEq

/-- The features. A text where a list is expected or the other way round is a type error. /repo/returnn/datasets/text_dict.py:166-178. -/
def features (c : Cfg) : Val → Res Feat
  | .text t =>
    if c.single then do
      let d ← c.vocab t
      .ok ⟨d, [], [], []⟩
    else .error .typeError
  | .beam l =>
    if c.single then .error .typeError
    else
      match best l with
      | none => .error .valueError
      | some b => do
        let d ← c.vocab b.2
        let ls ← encodeAll c.vocab l
        .ok ⟨d, ls.flatten, ls.map List.length, l.map Prod.fst⟩

/-- `self._seq_order[seq_idx]` etc.: None is not subscriptable. -/
def sub {α : Type} (l : Option (List α)) (i : Nat) : Res α :=
  match l with
  | none => .error .typeError
  | some l =>
    match l[i]? with
    | some x => .ok x
    | none => .error .indexError

/-- `_collect_single_seq`. It does not load. /repo/returnn/datasets/text_dict.py:161-179. -/
def collect (c : Cfg) (s : St) (i : Nat) : Res (S × Feat) := do
  let j ← sub s.order i
  let tag ← sub s.tags j
  let v ← sub s.values j
  let f ← features c v
  .ok (tag, f)

/-- `get_tag`. /repo/returnn/datasets/text_dict.py:207-213. -/
def getTag (c : Cfg) (s : St) (i : Nat) : Res (St × S) := do
  let s ← load c s
  let j ← sub s.order i
  let t ← sub s.tags j
  .ok (s, t)

/-- `get_all_tags`. /repo/returnn/datasets/text_dict.py:215-218. -/
def allTags (c : Cfg) (s : St) : Res (St × List S) := do
  let s ← load c s
  .ok (s, s.tags.getD [])

end Verif.TextDict
