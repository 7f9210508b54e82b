import Verif.FastBw.PropsCtc
import Mathlib.Analysis.SpecialFunctions.Log.Deriv
/-
Model of `ctc_loss` (tf/native_op.py 1524-1590) with its gradient, over the real numbers.
-/
namespace Verif.FastBw
open Verif.CtcFsa

noncomputable section

attribute [local instance] Classical.propDecidable

/-- 1560-1563: the scores, not in log space: `tf.nn.log_softmax` or the logits as they are. -/
def ctcProbs (normalize : Bool) (dim : Nat) (x : Nat → Nat → Nat → ℝ) : Nat → Nat → Nat → ℝ := fun t b a =>
  if normalize then Real.exp (x t b a) / lsum (List.range dim) (fun c => Real.exp (x t b c)) else Real.exp (x t b a)

/-- 1566 `sequence_mask_time_major`. -/
def seqMask (lens : List Nat) : Nat → Nat → Bool := fun t b => decide (t < lens.getD b 0)

/-- 1524-1590, for time-major logits: the loss by sequence, and the error signal for the logits. `n_time` is the largest length, as the mask's
shape is; the weights of the FSA are zero in -log space. -/
def ctcLoss (loop normalize gradSoftmaxIn : Bool) (targets : List (List Nat)) (nTime : Nat) (targetLens lens : List Nat) (dim blank nFrames : Nat)
    (sc : Sched) (x : Nat → Nat → Nat → ℝ) : Verif.Py.Res ((Nat → ℝ) × (Nat → Nat → Nat → ℝ)) := do
  let f ← nativeFsa loop targets nTime targetLens blank
  let r := fastBw f (fun _ => (1 : ℝ)) (ctcProbs normalize dim x) (seqMask lens) nFrames sc
  pure (fun b => -Real.log (r.2 0 b), fun t b a =>
    if seqMask lens t b then (if gradSoftmaxIn then ctcProbs normalize dim x t b a - r.1 t b a else -r.1 t b a) else 0)

end

end Verif.FastBw
