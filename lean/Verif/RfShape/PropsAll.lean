import Verif.RfShape.PropsSize
/-
All modules of C108 and C109.
-/
