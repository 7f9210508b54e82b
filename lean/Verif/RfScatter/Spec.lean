import Verif.RfScatter.Model
/-
What scatter is about.
-/
namespace Verif.RfScatter

/-- The values of the first `v` frames whose index is `o`, in order. -/
def sel {α : Type} (v : Nat) (idx : List Nat) (src : List α) (o : Nat) : List α :=
  (List.range v).filterMap (fun i => if idx[i]? = some o then src[i]? else none)

/-- How many frames count. -/
def Dims.frames (d : Dims) (T : Nat) : Nat := if d.need ∧ d.useMask then d.n else T

/-- A call which PyTorch accepts. -/
structure Call {α : Type} (d : Dims) (idx : List Nat) (src : List α) : Prop where
  len : idx.length = src.length
  n : d.n ≤ src.length
  bounds : ∀ i ∈ idx, i < d.O
  out : d.outLen ≤ d.O

/-- `x` is the largest of `l`. -/
def IsMax {α : Type} [LE α] (l : List α) (x : α) : Prop := x ∈ l ∧ ∀ y ∈ l, y ≤ x

/-- Finite or minus infinity. -/
def Fl.isLog : Fl → Prop
  | .ninf => True
  | .fin _ => True
  | _ => False

/-- The exponential, as a real number. -/
noncomputable def Fl.rexp : Fl → ℝ
  | .fin x => Real.exp x
  | _ => 0

/-- Log-sum-exp: minus infinity when there is nothing but minus infinity. -/
noncomputable def lse (l : List Fl) : Fl :=
  if (l.map Fl.rexp).sum = 0 then .ninf else .fin (Real.log (l.map Fl.rexp).sum)

/-- Log-mean-exp: minus infinity when there is nothing but minus infinity. -/
noncomputable def lme (l : List Fl) : Fl :=
  if (l.map Fl.rexp).sum = 0 then .ninf else .fin (Real.log ((l.map Fl.rexp).sum / l.length))

end Verif.RfScatter
