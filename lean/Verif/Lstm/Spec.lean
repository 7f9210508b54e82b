import Verif.Lstm.Model
/-
What a recurrent layer should compute: each sequence alone, frame by frame.
-/
namespace Verif.Lstm

/-- The loop over the frames of one sequence: outputs and final state. -/
def runCell {X S Y : Type} (cell : X → S → Y × S) : List X → S → List Y × S
  | [], s => ([], s)
  | x :: xs, s => ((cell x s).1 :: (runCell cell xs (cell x s).2).1, (runCell cell xs (cell x s).2).2)

/-- What torch's sorting guarantees: a permutation with decreasing lengths. -/
structure IsSort {X S : Type} (perm : List Nat) (batch : List (Entry X S)) : Prop where
  isPerm : perm.Perm (List.range batch.length)
  desc : (perm.filterMap (fun i => batch[i]?)).Pairwise (fun a b => b.len ≤ a.len)

/-- The frames of an entry which count. -/
def Entry.valid {X S : Type} (e : Entry X S) : List X := e.xs.take e.len

/-- A batch as it can be: the frames fit to the lengths. -/
def BatchOk {X S : Type} (batch : List (Entry X S)) : Prop := ∀ e ∈ batch, 0 < e.len ∧ e.len ≤ e.xs.length

/-- The weights of one gate. -/
structure GateW (K : Type) where
  ffW : List (List K)
  recW : List (List K)
  bias : List K

/-- Weights with `H` rows for each gate. -/
def GateW.ok {K : Type} (H : Nat) (w : GateW K) : Prop := w.ffW.length = H ∧ w.recW.length = H ∧ w.bias.length = H

variable {K : Type} [Field K]

/-- Sum and product of vectors, and matrix times vector. -/
def plus (a b : List K) : List K := (a.zip b).map (fun p => p.1 + p.2)
def times (a b : List K) : List K := (a.zip b).map (fun p => p.1 * p.2)
def matTimes (w : List (List K)) (x : List K) : List K := w.map (fun row => (times row x).sum)

/-- What goes into the nonlinearity of a gate: W x + b + R h. -/
def gateVal (w : GateW K) (x h : List K) : List K := plus (plus (matTimes w.ffW x) w.bias) (matTimes w.recW h)

/-- The equations of the LSTM: `c' = σ(f + bias) c + σ(i) tanh(j)` and `h' = σ(o) tanh(c')`. -/
def lstmEq (sigmoid tanh : K → K) (forgetBias : K) (w : Gate → GateW K) (x : List K) (s : LSt K) : LSt K :=
  let c := plus (times ((gateVal (w .f) x s.1).map (fun a => sigmoid (a + forgetBias))) s.2) (times ((gateVal (w .i) x s.1).map sigmoid) ((gateVal (w .j) x s.1).map tanh))
  (times ((gateVal (w .o) x s.1).map sigmoid) (c.map tanh), c)

/-- The parameters of a layer, with the weights of the gates stacked in the given order. -/
def Stacked (p : Params K) (order : List Gate) (w : Gate → GateW K) : Prop :=
  (∀ g, (w g).ok p.H) ∧ p.ffW = order.flatMap (fun g => (w g).ffW) ∧ p.recW = order.flatMap (fun g => (w g).recW) ∧
    (p.bias = some (order.flatMap (fun g => (w g).bias)) ∨ (p.bias = none ∧ ∀ g, (w g).bias = List.replicate p.H 0))

/-- Zoneout of one element in training: the new value, or the old one. -/
def pick {α : Type} (keep : Bool) (cur prev : α) : α := if keep then cur else prev

end Verif.Lstm
