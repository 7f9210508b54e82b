import Verif.Util.Py
import Verif.ListUtil.Model
/-
Model of `EpochWiseFilter`, `returnn/datasets/meta.py` 38-130. Mean values are exact rationals instead of floats.
-/
namespace Verif.EpochFilter
open Verif.Py Verif.ListUtil

/-- The options of one entry: `max_mean_len`, and whether there is any other option (not supported). -/
structure Opts where
  maxMeanLen : Option Rat := none
  other : Bool := false

/-- meta.py 72: `sorted([(get_seq_len(idx), idx) for idx in seq_order])`. -/
def lensAndSeqs (seqOrder : List Nat) (getSeqLen : Nat → Nat) : List (Nat × Nat) :=
  stableSort (fun a b => decide (a.1 < b.1 ∨ (a.1 = b.1 ∧ a.2 ≤ b.2))) (seqOrder.map (fun idx => (getSeqLen idx, idx)))

/-- `numpy.mean(lens_and_seqs[:num, 0])` for `num >= 1`. -/
def meanLen (l : List (Nat × Nat)) (num : Nat) : Rat := ((((l.take num).map Prod.fst).sum : Nat) : Rat) / ((l.take num).length : Rat)

/-- Sign of a number. -/
def sign (q : Rat) : Int := if q < 0 then -1 else if 0 < q then 1 else 0

/-- meta.py 53-94 `filter_epoch`. A `max_mean_len` of 0 counts as not given. An empty order gives a one-dimensional numpy array,
so the access `[:best_num, 1]` fails. -/
def filterEpoch (o : Opts) (seqOrder : List Nat) (getSeqLen : Nat → Nat) : Res (List Nat) := do
  let seqOrder ←
    match o.maxMeanLen with
    | none => Except.ok seqOrder
    | some m =>
      if m = 0 then .ok seqOrder
      else
        let l := lensAndSeqs seqOrder getSeqLen
        let bestNum := (binarySearchAny (fun num => sign (meanLen l num.toNat - m)) 1 ((l.length : Int) + 1)).toNat
        if l = [] then .error .indexError
        else
          let selected := (l.take bestNum).map Prod.snd
          .ok (seqOrder.filter (fun i => decide (i ∈ selected)))
  pyAssert (!o.other)
  .ok seqOrder

/-- A key of `epochs_opts`: `(ep_start, ep_end)`, both can be `None`. -/
abbrev Range := Option Int × Option Int

/-- Whether Python can compare the two (different) keys: the first different component must be an int in both. -/
def comparable (a b : Range) : Bool :=
  if a.1 = b.1 then a.2.isSome && b.2.isSome else a.1.isSome && b.1.isSome

/-- The order of the keys. -/
def rangeLe (a b : Range) : Bool :=
  let v := fun x : Option Int => x.getD 0
  decide (v a.1 < v b.1 ∨ (v a.1 = v b.1 ∧ v a.2 ≤ v b.2))

/-- `sorted(self.epochs_opts.items())`; it raises if two keys cannot be compared, because keys next to each other in the
order are always compared. -/
def sortedOpts (e : List (Range × Opts)) : Res (List (Range × Opts)) :=
  if e.Pairwise (fun a b => comparable a.1 b.1 = true) then .ok (stableSort (fun a b => rangeLe a.1 b.1) e) else .error .typeError

def maxSize : Int := 9223372036854775807

/-- meta.py 108-111. -/
def normRange (r : Range) : Int × Int :=
  (r.1.getD 1, match r.2 with | none => maxSize | some e => if e = -1 then maxSize else e)

/-- meta.py 107-121: the loop of `filter`. -/
def filterLoop (epoch : Int) (getSeqLen : Nat → Nat) : List (Range × Opts) → List Nat → Res (List Nat)
  | [], seqOrder => .ok seqOrder
  | (r, o) :: rest, seqOrder => do
    let (s, e) := normRange r
    pyAssert (decide (1 ≤ s ∧ s ≤ e))
    if s ≤ epoch ∧ epoch ≤ e then do
      let seqOrder ← filterEpoch o seqOrder getSeqLen
      filterLoop epoch getSeqLen rest seqOrder
    else filterLoop epoch getSeqLen rest seqOrder

/-- meta.py 96-130 `filter`. -/
def filter (opts : List (Range × Opts)) (epoch : Option Int) (seqOrder : List Nat) (getSeqLen : Nat → Nat) : Res (List Nat) :=
  match epoch with
  | none => .ok seqOrder
  | some epoch => do
    let entries ← sortedOpts opts
    filterLoop epoch getSeqLen entries seqOrder

end Verif.EpochFilter
