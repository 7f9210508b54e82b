import Verif.Norm.Props
import Verif.Norm.PropsSmooth
