import Verif.Util.Py
/-
Model of the frames of raw wave files (`returnn/datasets/raw_wav.py`, `_get_input_features`).

Simplifications: samples are of an arbitrary type with a zero; the division and the ceiling of floats are exact.
-/
namespace Verif.WavFrames
open Verif Verif.Py

/-- `int(np.ceil((float(T - L) / S) + 1))`, /repo/returnn/datasets/raw_wav.py:111, for `S > 0`: the ceiling as minus the floor of the negative. -/
def numFrames (t l s : Nat) : Int := -(((l : Int) - t) / (s : Int)) + 1

/-- `padLength`, /repo/returnn/datasets/raw_wav.py:113. -/
def padLength (t l s : Nat) : Int := (numFrames t l s - 1) * s + l - t

/-- `timeSignalPad`, /repo/returnn/datasets/raw_wav.py:114-115. -/
def padded {α : Type} (zero : α) (x : List α) (l s : Nat) : List α := x ++ List.replicate (padLength x.length l s).toNat zero

/-- Frame `i`, /repo/returnn/datasets/raw_wav.py:124. -/
def frame {α : Type} (pad : List α) (l s i : Nat) : List α := (pad.drop (i * s)).take l

/-- `_get_input_features` with `_flag_pad` (which is always set), /repo/returnn/datasets/raw_wav.py:97-125. -/
def inputFeatures {α : Type} (zero : α) (x : List α) (l s : Nat) : Res (List (List α)) :=
  if s = 0 then .error .zeroDivision
  else if numFrames x.length l s < 0 then .error .valueError
  else .ok ((List.range (numFrames x.length l s).toNat).map (frame (padded zero x l s) l s))

end Verif.WavFrames
