import Verif.Attention.PropsExamples
/-! All theorems of this area. -/
