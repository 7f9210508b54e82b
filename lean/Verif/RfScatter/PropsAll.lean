import Verif.RfScatter.Props
import Verif.RfScatter.PropsB
/-
All theorems about scatter.
-/
