import Verif.ConfigPy.Props
import Verif.ConfigPy.PropsRead
