import Verif.Util.Py
/-
Model of `LaplaceOrdering.__call__`, `returnn/datasets/postprocessing.py` 407-442.
-/
namespace Verif.Laplace
open Verif.Py

/-- A `TensorDict`: what is not touched (`data`), the length under the length key, and `complete_frac`. Simplification: the
sequences do not share their tensors, and `complete_frac` is a value. -/
structure Item where
  data : Nat
  len : Nat
  frac : Nat
deriving DecidableEq, Repr

/-- postprocessing.py 418: `seq_buffer.sort(key=self._get_seq_len, reverse=is_down_phase)`; Python keeps equal entries in their
order for `reverse=True` too. -/
def sortBuf (down : Bool) (buf : List Item) : List Item :=
  if down then stableSort (fun a b => decide (b.len ≤ a.len)) buf else stableSort (fun a b => decide (a.len ≤ b.len)) buf

/-- postprocessing.py 417-420: sort, but give the `complete_frac` values in the original order. -/
def reorder (down : Bool) (buf : List Item) : List Item :=
  List.zipWith (fun it f => { it with frac := f }) (sortBuf down buf) (buf.map Item.frac)

/-- postprocessing.py 426-433: for each item of the buffer, after it was yielded, get one more. -/
def pull : Nat → List Item → List Item → Bool → List Item × List Item × Bool
  | 0, rest, next, ended => (next, rest, ended)
  | k + 1, rest, next, ended =>
    if ended then pull k rest next ended
    else
      match rest with
      | [] => pull k [] next true
      | x :: rest => pull k rest (next ++ [x]) ended

/-- postprocessing.py 414-440: the main loop. The yielded items, and the exception if there is one. -/
def loop (n : Nat) : Nat → Bool → List Item → List Item → Bool → List Item × Option Err
  | 0, _, _, _, _ => ([], some (.other "fuel"))
  | fuel + 1, down, buf, rest, ended =>
    let out := reorder down buf
    let (next, rest, ended) := pull buf.length rest [] ended
    if buf.length < n then
      if ended && next.isEmpty then (out, none) else (out, some .assertion)
    else
      let (o, e) := loop n fuel (!down) next rest ended
      (out ++ o, e)

/-- postprocessing.py 407-413. -/
def laplace (n : Nat) (items : List Item) : List Item × Option Err :=
  loop n (items.length + 1) false (items.take n) (items.drop n) false

end Verif.Laplace
