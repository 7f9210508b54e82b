import Verif.BinOp.Props
/-
Concrete cases: the hypotheses of the theorems are met, and where the native code differs from the Python code.
-/
namespace Verif.BinOp

open Verif.Py

/-- Batch, time, feature. -/
def dB : Dim := ⟨0, 0, 0⟩
/-- Time. -/
def dT : Dim := ⟨1, 1, 0⟩
/-- Feature. -/
def dF : Dim := ⟨2, 2, 0⟩
/-- A dim, the same dim with another match priority, and an equal dim object. -/
def dD : Dim := ⟨3, 3, 0⟩
/-- `dD` with `match_priority=1`. -/
def dD1 : Dim := ⟨4, 3, 1⟩
/-- Another object which is equal to `dD`. -/
def dD' : Dim := ⟨5, 3, 0⟩

/-- Sizes. -/
def exSz : Nat → Nat
  | 0 => 2
  | 1 => 3
  | 2 => 4
  | _ => 2

/-- A tensor with the values 0, 1, 2, ... -/
def exT (dims : List Dim) : Tensor Nat :=
  ⟨dims, none, none, ⟨dims.map (fun d => exSz d.cls), fun idx => ravel (dims.map (fun d => exSz d.cls)) idx⟩⟩

/-- The result for comparison. -/
def summary (idx : List Nat) (r : Res (Tensor Nat)) : Except Err (List Dim × List Nat × Nat) :=
  r.map (fun t => (t.dims, t.raw.shape, t.raw.get idx))

example : Valid exSz (exT [dB, dT, dF]) ∧ Unique (exT [dB, dT, dF]) ∧ Valid exSz (exT [dF, dB]) ∧
    Unique (exT [dF, dB]) ∧ OneHasAll (exT [dB, dT, dF]) (exT [dF, dB]) ∧ ¬ OneHasAll (exT [dT]) (exT [dF]) := by
  refine ⟨rfl, by unfold Unique; decide +kernel, rfl, by unfold Unique; decide +kernel, ?_, ?_⟩
  · left; decide +kernel
  · rintro (h | h)
    · exact absurd (h dF (by decide +kernel)) (by decide +kernel)
    · exact absurd (h dT (by decide +kernel)) (by decide +kernel)

/-- `[B, T, F] + [F, B]` at `B=1, T=2, F=3`: 23 + 7. -/
example : summary [1, 2, 3] (opNative (· + ·) false false (.tensor (exT [dB, dT, dF])) (.tensor (exT [dF, dB])) none) =
    .ok ([dB, dT, dF], [2, 3, 4], 30) := by decide +kernel

example : summary [1, 2, 3] (opPy (· + ·) false false (.tensor (exT [dB, dT, dF])) (.tensor (exT [dF, dB])) none) =
    .ok ([dB, dT, dF], [2, 3, 4], 30) := by decide +kernel

/-- With `dim_order`. -/
example : summary [2, 3, 1] (opNative (· + ·) false false (.tensor (exT [dB, dT, dF])) (.tensor (exT [dF, dB]))
    (some [dT, dF])) = .ok ([dT, dF, dB], [3, 4, 2], 30) := by decide +kernel

/-- A square matrix and its transposed dims (equal dims): the same axes are added. -/
example : summary [0, 1] (opNative (· + ·) false false (.tensor (exT [dD, dD1])) (.tensor (exT [dD1, dD])) none) =
    .ok ([dD, dD1], [2, 2], 3) := by decide +kernel

/-- C84 (negation for the native code): `allow_broadcast_all_sources` has no effect: `[T] + [F]` is computed by the native
code, the Python code raises a `ValueError`. -/
theorem native_allow_not_enforced :
    ¬ OneHasAll (exT [dT]) (exT [dF]) ∧
    summary [2, 3] (opNative (· + ·) false false (.tensor (exT [dT])) (.tensor (exT [dF])) none) =
      .ok ([dT, dF], [3, 4], 5) ∧
    summary [2, 3] (opPy (· + ·) false false (.tensor (exT [dT])) (.tensor (exT [dF])) none) = .error .valueError := by
  refine ⟨?_, by decide +kernel, by decide +kernel⟩
  rintro (h | h)
  · exact absurd (h dF (by decide +kernel)) (by decide +kernel)
  · exact absurd (h dT (by decide +kernel)) (by decide +kernel)

/-- C84 (negation for the native code), for all tensors without equal dims: the flag makes no difference. -/
theorem native_allow_ignored {α β : Type} {sz : Nat → Nat} (op : α → α → β) (isBool : Bool) {a b : Tensor α}
    (order : Option (List Dim)) (hva : Valid sz a) (hvb : Valid sz b) (hua : Unique a) (hub : Unique b) :
    ∃ out, opNative op isBool false (.tensor a) (.tensor b) order = .ok out := by
  obtain ⟨out, h, _⟩ := native_broadcast_partial op isBool false order hva hvb hua hub
  exact ⟨out, h⟩

/-- C83 (negation): with equal dims the native code can fail with a `SystemError` where the Python code works: a tensor
`[T, D']` and a tensor `[T, D, D]` whose dim `D` occurs twice and is equal to `D'`. -/
theorem native_system_error :
    summary [0, 0, 0] (opNative (· + ·) false false (.tensor (exT [dT, dD'])) (.tensor (exT [dT, dD, dD1])) none) =
      .error (.other "SystemError") ∧
    summary [2, 1, 0] (opPy (· + ·) false false (.tensor (exT [dT, dD'])) (.tensor (exT [dT, dD, dD1])) none) =
      .ok ([dT, dD, dD1], [3, 2, 2], 15) := by decide +kernel

/-- The order of the dims depends on whether the native module is there: `[T] + [B, T]`. -/
theorem native_dims_differ :
    summary [1, 2] (opNative (· + ·) false false (.tensor (exT [dT])) (.tensor (exT [dB, dT])) none) =
      .ok ([dB, dT], [2, 3], 7) ∧
    summary [2, 1] (opPy (· + ·) false false (.tensor (exT [dT])) (.tensor (exT [dB, dT])) none) =
      .ok ([dT, dB], [3, 2], 7) := by decide +kernel

/-- With equal dims even the values depend on it: `[D] + [D1, D]` where `D1` is `D` with another match priority: the
native code broadcasts over the first axis, the Python code over the second. -/
theorem native_values_differ :
    summary [0, 1] (opNative (· + ·) false false (.tensor (exT [dD])) (.tensor (exT [dD1, dD])) none) =
      .ok ([dD1, dD], [2, 2], 2) ∧
    summary [0, 1] (opPy (· + ·) false false (.tensor (exT [dD])) (.tensor (exT [dD1, dD])) none) =
      .ok ([dD1, dD], [2, 2], 1) := by decide +kernel

/-- The feature dim of the native result is that of the first operand if both have the same dims, so it depends on the
order of the operands; the Python code takes it from either. -/
theorem native_feature_dim :
    (opNative (· + ·) false false (.tensor (exT [dB, dF])) (.tensor { exT [dB, dF] with feat := some 1 }) none).map
      Tensor.featureDim = .ok none ∧
    (opNative (· + ·) false false (.tensor { exT [dB, dF] with feat := some 1 }) (.tensor (exT [dB, dF])) none).map
      Tensor.featureDim = .ok (some dF) ∧
    (opPy (· + ·) false false (.tensor (exT [dB, dF])) (.tensor { exT [dB, dF] with feat := some 1 }) none).map
      Tensor.featureDim = .ok (some dF) := by decide +kernel

/-- A number with `dim_order`: the native code raises a `TypeError`. -/
theorem native_scalar_dim_order :
    summary [0] (opNative (· + ·) false false (.tensor (exT [dT])) (.scalar 1) (some [dT])) = .error .typeError ∧
    summary [2] (opPy (· + ·) false false (.tensor (exT [dT])) (.scalar 1) (some [dT])) = .ok ([dT], [3], 3) := by
  decide +kernel

/-- `copy_compatible_to_dims` of `[F, B]` to `[B, T, F]`: shape `[2, 1, 4]`, at `B=1, F=3`: 7. -/
example : (copyCompatNative [dF, dB] (exT [dF, dB]).raw [dB, dT, dF]).map (fun r => (r.shape, r.get [1, 0, 3])) =
    .ok ([2, 1, 4], 7) := by decide +kernel

example : (∀ d ∈ (exT [dF, dB]).dims, d.cls ∈ [dB, dT, dF].map Dim.cls) ∧ ([dB, dT, dF].map Dim.cls).Nodup ∧
    ([dB].map Dim.cls).count 2 < ((exT [dF, dB]).dims.map Dim.cls).count 2 := by decide +kernel

end Verif.BinOp
