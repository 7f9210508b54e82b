import Verif.LoadModel.Props
import Verif.LoadModel.PropsResume
/- All properties of loading a model. -/
