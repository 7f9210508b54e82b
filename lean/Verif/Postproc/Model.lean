import Verif.Util.Dict
/-
Model of `PostprocessingDataset` (`returnn/datasets/postprocessing.py` 24-385): `init_seq_order`, `_iterate_dataset`,
`_build_mapping_iter`, `_collect_single_seq`.

Generators are the list of what they yield, followed by their end or by an exception.  The wrapped dataset is the list of its sequences
in the epoch.  The check of the output against the template (dims and dtypes) is a parameter.  The rest of the dataset is
`CachedDataset2`, see `Verif.Cached2`.
-/
namespace Verif.Postproc

open Verif.Py

/-- A sequence of the wrapped dataset; `frac` is `get_complete_frac(seq_index, allow_only_lr_suitable=True)`. -/
structure Seq (V : Type) where
  tag : String
  data : Dict String V
  frac : Option Rat

/-- A `TensorDict`: the data, and the entries `complete_frac` (it can be there without a raw tensor) and `seq_tag`. -/
structure TD (V : Type) where
  data : Dict String V
  frac : Option (Option Rat)
  tag : Option String

/-- What is yielded, and the exception after it, if there is one. -/
structure Gen (α : Type) where
  items : List α
  err : Option Err

/-- The options.  `mapSeq` and `mapStream` get the random state; `R` is its type. -/
structure Opts (V R : Type) where
  mapSeq : Option (Nat → Nat → R → TD V → Res (TD V × R))
  mapStream : Option (Nat → R → Gen (TD V) → Gen (TD V))
  preserves : Bool
  seed : Nat → R
  check : Dict String V → Res Unit

/-- The tensor dict of a sequence of the wrapped dataset (postprocessing.py 320-333). -/
def inputOf {V : Type} (s : Seq V) : TD V := ⟨s.data, some s.frac, some s.tag⟩

/-- Entries which the function dropped (postprocessing.py 343-352). -/
def readd {V : Type} (s : Seq V) (t : TD V) : TD V :=
  let t := match t.frac, s.frac with
    | none, some f => { t with frac := some (some f) }
    | _, _ => t
  match t.tag with
  | none => { t with tag := some s.tag }
  | some _ => t

/-- The check with a given list of tags (postprocessing.py 354-359). -/
def tagOk {V : Type} (seqList : Option (List String)) (i : Nat) (t : TD V) : Res Unit :=
  match seqList with
  | none => .ok ()
  | some l =>
    match l[i]? with
    | none => .error .indexError
    | some tag => if t.tag = some tag then .ok () else .error .assertion

/-- `_iterate_dataset` (postprocessing.py 311-362), from sequence `i` on. -/
def iterate {V R : Type} (o : Opts V R) (epoch : Nat) (seqList : Option (List String)) :
    List (Seq V) → Nat → R → Gen (TD V)
  | [], _, _ => ⟨[], none⟩
  | s :: r, i, rng =>
    match o.mapSeq with
    | none =>
      let g := iterate o epoch seqList r (i + 1) rng
      ⟨inputOf s :: g.items, g.err⟩
    | some f =>
      match f epoch i rng (inputOf s) with
      | .error e => ⟨[], some e⟩
      | .ok (t, rng') =>
        let t := readd s t
        match tagOk seqList i t with
        | .error e => ⟨[], some e⟩
        | .ok _ =>
          let g := iterate o epoch seqList r (i + 1) rng'
          ⟨t :: g.items, g.err⟩

/-- The check of `complete_frac` (postprocessing.py 282-290); gives the new `last_complete_frac`. -/
def checkFrac {V : Type} (last : Rat) (t : TD V) : Res Rat :=
  match t.frac with
  | none => .ok last
  | some none => .error .typeError
  | some (some f) => if 0 ≤ f ∧ f ≤ 1 then (if last ≤ f then .ok f else .error .assertion) else .error .assertion

/-- `_validate_tensor_dict_iter` (postprocessing.py 275-298). -/
def validate {V : Type} (check : Dict String V → Res Unit) : List (TD V) → Option Err → Rat → Gen (TD V)
  | [], e, _ => ⟨[], e⟩
  | t :: r, e, last =>
    match checkFrac last t with
    | .error e' => ⟨[], some e'⟩
    | .ok last' =>
      match check t.data with
      | .error e' => ⟨[], some e'⟩
      | .ok _ =>
        let g := validate check r e last'
        ⟨t :: g.items, g.err⟩

/-- `_build_mapping_iter` (postprocessing.py 269-307). -/
def build {V R : Type} (o : Opts V R) (ds : List (Seq V)) (epoch : Nat) (seqList : Option (List String)) : Gen (TD V) :=
  let g := iterate o epoch seqList ds 0 (o.seed epoch)
  let g := match o.mapStream with
    | none => g
    | some f => f epoch (o.seed epoch) g
  validate o.check g.items g.err 0

/-- The state: what is left of `_data_iter` with its next index, `_data_iter_produced_num_seqs` and `_num_seqs`. -/
structure St (V : Type) where
  rest : List (TD V)
  err : Option Err
  idx : Nat
  produced : Nat
  numSeqs : Option Nat

/-- `init_seq_order` (postprocessing.py 183-219) for an epoch; `ds` are the sequences of the wrapped dataset for this epoch and
order, `known` whether it knows their number. -/
def init {V R : Type} (o : Opts V R) (ds : List (Seq V)) (known : Bool) (epoch : Nat) (seqList : Option (List String))
    (seqOrder : Bool) : Res (St V) :=
  if o.mapStream.isSome && (seqList.isSome || seqOrder) then .error .valueError
  else
    let g := build o ds epoch seqList
    .ok ⟨g.items, g.err, 0, 0, if (o.mapStream.isNone || o.preserves) && known then some ds.length else none⟩

/-- What `_collect_single_seq` returns. -/
structure DSeq (V : Type) where
  idx : Nat
  tag : String
  features : Dict String V
  frac : Option Rat

/-- The sequence of a tensor dict (postprocessing.py 260-267). -/
def toSeq {V : Type} (i : Nat) (t : TD V) : Res (DSeq V) :=
  match t.frac with
  | some none => .error .typeError
  | none => .ok ⟨i, t.tag.getD (s!"seq-{i}"), t.data, none⟩
  | some (some f) => .ok ⟨i, t.tag.getD (s!"seq-{i}"), t.data, some f⟩

/-- The loop of `_collect_single_seq` (postprocessing.py 236-267). -/
def collectLoop {V : Type} (i : Nat) (err : Option Err) (numSeqs : Option Nat) :
    List (TD V) → Nat → Nat → Res (Option (DSeq V)) × St V
  | [], idx, produced =>
    match err with
    | some e => (.error e, ⟨[], none, idx, produced, numSeqs⟩)
    | none =>
      if numSeqs.all (fun n => produced = n) then (.ok none, ⟨[], none, idx, produced, numSeqs⟩)
      else (.error .assertion, ⟨[], none, idx, produced, numSeqs⟩)
  | t :: r, idx, produced =>
    let st : St V := ⟨r, err, idx + 1, produced + 1, numSeqs⟩
    if numSeqs.all (fun n => produced + 1 ≤ n) then
      if idx ≤ i then
        if idx ≠ i then collectLoop i err numSeqs r (idx + 1) (produced + 1)
        else
          match toSeq i t with
          | .error e => (.error e, st)
          | .ok s => (.ok (some s), st)
      else (.error .assertion, st)
    else (.error .assertion, st)

/-- `_collect_single_seq`. -/
def collect {V : Type} (i : Nat) (st : St V) : Res (Option (DSeq V)) × St V :=
  collectLoop i st.err st.numSeqs st.rest st.idx st.produced

/-- Calls of `_collect_single_seq`, one after the other. -/
def collectAll {V : Type} : List Nat → St V → List (Res (Option (DSeq V)))
  | [], _ => []
  | i :: r, st => (collect i st).1 :: collectAll r (collect i st).2

end Verif.Postproc
