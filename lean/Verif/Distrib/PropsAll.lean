import Verif.Distrib.Props
import Verif.Distrib.PropsWit
