import Verif.Util.Py
/-
Model of list helpers of `returnn/util/basic.py`: `find_ranges` (1390-1407), `uniq` (1591-1603), `uniq_generic` (1606-1623),
`slice_pad_zeros` (1626-1646), `binary_search_any` (4298-4316).
-/
namespace Verif.ListUtil
open Verif.Py

/-- basic.py 1401-1406: the loop; `ranges = done ++ [cur]`. -/
def findRangesLoop : List (Int × Int) → Int × Int → List Int → Res (List (Int × Int))
  | done, cur, [] => .ok (done ++ [cur])
  | done, cur, k :: ks =>
    if ¬ k ≥ cur.2 then .error .assertion
    else if k = cur.2 then findRangesLoop done (cur.1, k + 1) ks
    else findRangesLoop (done ++ [cur]) (k, k + 1) ks

/-- basic.py 1390-1407 `find_ranges`. -/
def findRanges (ls : List Int) : Res (List (Int × Int)) :=
  match ls with
  | [] => .ok []
  | k :: _ => findRangesLoop [] (k, k) ls

/-- basic.py 1600-1601: `diffs`; integer arrays without overflow. -/
def diffs (seq : List Int) : List Int :=
  match seq with
  | [] => []
  | _ :: t => 1 :: List.zipWith (fun a b => a - b) t seq

/-- basic.py 1591-1603 `uniq`: the entries at the indices where `diffs` is not zero. -/
def uniq (seq : List Int) : List Int := ((seq.zip (diffs seq)).filter (fun p => p.2 ≠ 0)).map Prod.fst

/-- basic.py 1618-1622: the loop of `uniq_generic`. -/
def uniqGenericLoop {α : Type} [DecidableEq α] : List α → List α → List α → List α
  | out, _, [] => out
  | out, visited, x :: xs =>
    if x ∈ visited then uniqGenericLoop out visited xs
    else uniqGenericLoop (out ++ [x]) (x :: visited) xs

/-- basic.py 1606-1623 `uniq_generic`. -/
def uniqGeneric {α : Type} [DecidableEq α] (seq : List α) : List α := uniqGenericLoop [] [] seq

/-- basic.py 1626-1646 `slice_pad_zeros` with `axis=0`; `x` is the list of frames, `z` a frame of zeros. -/
def slicePadZeros {α : Type} (z : α) (x : List α) (begin' end' : Int) : Res (List α) :=
  let n : Int := x.length
  if begin' ≥ 0 ∧ begin' ≥ n then
    if end' - begin' < 0 then .error .valueError else .ok (List.replicate (end' - begin').toNat z)
  else
    let padLeft := if begin' < 0 then -begin' else 0
    let b := if begin' < 0 then 0 else begin'
    if ¬ end' ≥ b then .error .assertion
    else
      let padRight := if end' > n then end' - n else 0
      let e := if end' > n then n else end'
      .ok (List.replicate padLeft.toNat z ++ slice x b.toNat e.toNat ++ List.replicate padRight.toNat z)

/-- basic.py 4307-4316: the loop of `binary_search_any`; `cmp` gives the sign only. -/
def binarySearchLoop (cmp : Int → Int) : Nat → Int → Int → Int
  | 0, low, _ => low
  | fuel + 1, low, high =>
    if low < high then
      let mid := Int.fdiv (low + high) 2
      let r := cmp mid
      if r < 0 then binarySearchLoop cmp fuel (mid + 1) high
      else if r > 0 then binarySearchLoop cmp fuel low mid
      else mid
    else low

/-- basic.py 4298-4316 `binary_search_any`. -/
def binarySearchAny (cmp : Int → Int) (low high : Int) : Int := binarySearchLoop cmp (high - low).toNat low high

end Verif.ListUtil
