import Verif.Util.Py
import Verif.Util.Dict
import Mathlib.Analysis.SpecialFunctions.Log.Basic
/-
Model of `compute_bleu` of `returnn/util/basic.py`.

Simplifications for the whole file:
* floats are real numbers, the last rounding to float32 is left out (the bound 1e-30 for the ratio stays);
* tokens are of any type with equality; a `Counter` is a dict, with 0 for missing keys.
-/
namespace Verif.Bleu
open Verif Verif.Py

variable {τ : Type} [DecidableEq τ]

/-- The n-grams in the order of the loops of `_get_ngrams`, /repo/returnn/util/basic.py:4137-4140. -/
def ngrams (seg : List τ) (maxOrder : Nat) : List (List τ) :=
  (List.range maxOrder).flatMap fun o => (List.range (seg.length + 1 - (o + 1))).map fun i => (seg.drop i).take (o + 1)

/-- `ngram_counts[ngram] += 1`. -/
def count1 (d : Dict (List τ) Nat) (g : List τ) : Dict (List τ) Nat := d.set g ((d.get? g).getD 0 + 1)

/-- `_get_ngrams`, /repo/returnn/util/basic.py:4122-4142. -/
def getNgrams (seg : List τ) (maxOrder : Nat) : Dict (List τ) Nat := (ngrams seg maxOrder).foldl count1 []

/-- `overlap`, /repo/returnn/util/basic.py:4177. -/
def overlap (ref tr : Dict (List τ) Nat) : Dict (List τ) Nat := ref.map fun p => (p.1, min p.2 ((tr.get? p.1).getD 0))

/-- `by_order[len(ngram) - 1] += count` for all n-grams, /repo/returnn/util/basic.py:4179-4182. -/
def addCounts (d : Dict (List τ) Nat) (m : List Nat) : List Nat :=
  d.foldl (fun m p => m.modify (p.1.length - 1) fun c => c + p.2) m

/-- What is summed up over the corpus. -/
structure Acc where
  refLen : Nat
  trLen : Nat
  matched : List Nat
  possible : List Nat
deriving DecidableEq

/-- One pair, /repo/returnn/util/basic.py:4171-4182. -/
def pairStep (maxOrder : Nat) (a : Acc) (p : List τ × List τ) : Acc :=
  { refLen := a.refLen + p.1.length
    trLen := a.trLen + p.2.length
    matched := addCounts (overlap (getNgrams p.1 maxOrder) (getNgrams p.2 maxOrder)) a.matched
    possible := addCounts (getNgrams p.2 maxOrder) a.possible }

/-- The loop over the corpus; `zip` stops with the shorter one. /repo/returnn/util/basic.py:4163-4182. -/
def collect (maxOrder : Nat) (refs trs : List (List τ)) : Acc :=
  (refs.zip trs).foldl (pairStep maxOrder) ⟨0, 0, List.replicate maxOrder 0, List.replicate maxOrder 0⟩

/-- The precisions with smoothing, /repo/returnn/util/basic.py:4184-4196. -/
noncomputable def precisions : List (Nat × Nat) → ℝ → List ℝ
  | [], _ => []
  | (m, p) :: rest, smooth =>
    if 0 < p then
      if 0 < m then ((m : ℝ) / p) :: precisions rest smooth
      else (1 / (smooth * 2 * p)) :: precisions rest (smooth * 2)
    else 0 :: precisions rest smooth

/-- `geo_mean` for precisions which are not empty, /repo/returnn/util/basic.py:4198-4200. -/
noncomputable def geoMean (ps : List ℝ) (maxOrder : Nat) : ℝ :=
  open Classical in
  if ∃ p ∈ ps, 0 < p then Real.exp (((ps.filter fun p => p ≠ 0).map Real.log).sum / maxOrder) else 0

/-- The brevity penalty for a ratio, /repo/returnn/util/basic.py:4202-4209. -/
noncomputable def penalty (ratio : ℝ) : ℝ :=
  open Classical in
  if ratio < (1 : ℝ) / 10 ^ 30 then 0 else if ratio < 1 then Real.exp (1 - 1 / ratio) else 1

/-- `compute_bleu`, /repo/returnn/util/basic.py:4145-4211. `max` of no precisions is a ValueError. -/
noncomputable def computeBleu (refs trs : List (List τ)) (maxOrder : Nat) (useBp : Bool) : Res ℝ :=
  let a := collect maxOrder refs trs
  let ps := precisions (a.matched.zip a.possible) 1
  if ps.isEmpty then .error .valueError
  else
    let geo := geoMean ps maxOrder
    if useBp then
      if a.refLen = 0 then .error .zeroDivision
      else .ok (geo * penalty ((a.trLen : ℝ) / a.refLen))
    else .ok (geo * 1)

end Verif.Bleu
