import Verif.RfGather.Props
/-
Concrete runs of `gather`, and what it does with indices which are no positions of the axis (C87).
-/
namespace Verif.RfGather

open Verif.Py Verif.BinOp Verif.RfMatmul

/-- Sizes: batch 2, time 3, feature 2, others 4. -/
def exSz : Nat → Nat
  | 0 => 2
  | 1 => 3
  | 2 => 2
  | _ => 4

def bt : Dim := ⟨0, 0, 0⟩
def tm : Dim := ⟨1, 1, 0⟩
def ft : Dim := ⟨2, 2, 0⟩
def t2 : Dim := ⟨3, 3, 0⟩
def k2 : Dim := ⟨4, 2, 0⟩

/-- `[B, T, F]`. -/
def exS : Tensor Int := ⟨[bt, tm, ft], none, none, ⟨[2, 3, 2], fun i => (ravel [2, 3, 2] i : Int)⟩⟩
/-- `[T2, B]`, indices into `T`. -/
def exI : Tensor Int := ⟨[t2, bt], none, none, ⟨[4, 2], fun i => ((i.sum % 3 : Nat) : Int)⟩⟩
/-- Any numbers. -/
def exJ : Tensor Int := ⟨[t2, bt], none, none, ⟨[4, 2], fun i => (i.sum : Int) * 5 - 7⟩⟩
/-- The lengths 3 and 2. -/
def exL : Tensor Int := ⟨[bt], none, none, ⟨[2], fun i => if i.getD 0 0 = 0 then 3 else 2⟩⟩

/-- The hypotheses of `gather_named` are met by the case of the documentation, `[B, D, F1]` and `[F2, B]`. -/
example : Valid exSz exS ∧ Valid exSz exI ∧ BinOp.Unique exS ∧ BinOp.Unique exI ∧ tm.cls ∈ classes exS.dims ∧
    ∀ σ : Nat → Nat, (∀ d ∈ exI.dims, σ d.cls < exSz d.cls) → 0 ≤ valueAt exI σ ∧ valueAt exI σ < exSz tm.cls := by
  refine ⟨rfl, rfl, by unfold BinOp.Unique; decide, by unfold BinOp.Unique; decide, by first | decide | (unfold BinOp.Unique; decide), ?_⟩
  intro σ _
  simp only [valueAt, exI, exSz, tm]
  omega

/-- The result. -/
example : (match gather exSz exS tm exI false none with
    | .ok r => (r.dims, r.raw.shape, r.raw.get [1, 2, 1], r.raw.get [0, 2, 0])
    | .error _ => ([], [], 0, 0)) = ([bt, t2, ft], [2, 4, 2], 6 + 0 * 2 + 1, 2 * 2) := by
  decide +kernel

/-- Those of `gather_clipped_dynamic_partial`. -/
example : Valid exSz exS ∧ Valid exSz exJ ∧ Valid exSz exL ∧ BinOp.Unique exS ∧ BinOp.Unique exJ ∧ BinOp.Unique exL ∧
    ∀ σ : Nat → Nat, (∀ d ∈ exL.dims, σ d.cls < exSz d.cls) → 0 < valueAt exL σ ∧ valueAt exL σ ≤ exSz tm.cls := by
  refine ⟨rfl, rfl, rfl, by unfold BinOp.Unique; decide, by unfold BinOp.Unique; decide, by first | decide | (unfold BinOp.Unique; decide), ?_⟩
  intro σ _
  simp only [valueAt, exL, exSz, tm]
  split <;> omega

/-- The index 8 is limited to 2 in the first sequence and 13 to 1 in the second. -/
example : (match gather exSz exS tm exJ true (some exL) with
    | .ok r => (r.dims, r.raw.shape, r.raw.get [0, 3, 0], r.raw.get [1, 3, 0])
    | .error _ => ([], [], 0, 0)) = ([bt, t2, ft], [2, 4, 2], 2 * 2, 6 + 1 * 2) := by
  decide +kernel

/-- `gather_int` with index -1. -/
example : (match gatherInt exSz exS tm (-1) false none with
    | .ok r => (r.dims, r.raw.shape, r.raw.get [1, 1])
    | .error _ => ([], [], 0)) = ([bt, ft], [2, 2], 6 + 2 * 2 + 1) := by
  decide +kernel

/-! ### Indices which are no positions of the axis -/

/-- Whether a negative index counts from the end depends on the dims of the operands: a vector of indices into an inner axis
does so, but with the axis in front of a matrix, or with a common dim, the same index is an error. -/
theorem negative_depends_on_dims :
    let neg : Tensor Int := ⟨[t2], none, none, ⟨[4], fun _ => -1⟩⟩
    let negB : Tensor Int := ⟨[bt], none, none, ⟨[2], fun _ => -1⟩⟩
    let mat : Tensor Int := ⟨[tm, ft], none, none, ⟨[3, 2], fun i => (ravel [3, 2] i : Int)⟩⟩
    let matT : Tensor Int := ⟨[ft, tm], none, none, ⟨[2, 3], fun i => (ravel [2, 3] i : Int)⟩⟩
    (gather exSz exS tm neg false none).isOk = true ∧ (gather exSz matT tm neg false none).isOk = true ∧
      gather exSz mat tm neg false none = .error .indexError ∧
      gather exSz exS tm negB false none = .error .indexError := by
  refine ⟨by decide +kernel, by decide +kernel, rfl, rfl⟩

/-- `clip_to_valid` does not help if a sequence is empty: the index becomes -1, and the whole batch fails. -/
theorem clip_empty_sequence_fails :
    let zero : Tensor Int := ⟨[t2, bt], none, none, ⟨[4, 2], fun _ => 0⟩⟩
    let lens : Tensor Int := ⟨[bt], none, none, ⟨[2], fun i => if i.getD 0 0 = 0 then 3 else 0⟩⟩
    (gather exSz exS tm zero false (some lens)).isOk = true ∧
      gather exSz exS tm zero true (some lens) = .error .indexError := by
  refine ⟨by decide +kernel, by rfl⟩

end Verif.RfGather
