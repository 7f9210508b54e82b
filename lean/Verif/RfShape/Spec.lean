import Verif.RfShape.Model
import Verif.RfMatmul.Spec
/-
What merging, splitting and concatenating named dims means.
-/
namespace Verif.RfShape

open Verif.BinOp Verif.RfMatmul

/-- The number of positions of dims together. -/
def total (sz : Nat → Nat) (ds : List Dim) : Nat := (ds.map (fun d => sz d.cls)).prod

/-- The position in the merged dim: the last dim varies fastest. -/
def rank (sz σ : Nat → Nat) (ds : List Dim) : Nat := ds.foldl (fun n d => n * sz d.cls + σ d.cls) 0

/-- `σ` is a position within the dims. -/
def Within (sz σ : Nat → Nat) (ds : List Dim) : Prop := ∀ d ∈ ds, σ d.cls < sz d.cls

/-- The dims with `d` at the place of the dim `c`. -/
def swapDim (ds : List Dim) (c : Nat) (ds' : List Dim) : List Dim := ds.flatMap (fun x => if x.cls = c then ds' else [x])

/-- Which positions `0 ... cap - 1` are within the sequence `b`. -/
def Size.has (s : Size) (b i : Nat) : Prop := match s.lens with
  | none => i < s.cap
  | some l => ∃ n, l[b]? = some n ∧ i < n

end Verif.RfShape
