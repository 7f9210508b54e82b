import Verif.BinOp.Props
import Verif.BinOp.PropsFindings
import Verif.BinOp.PropsShortcut
import Verif.BinOp.PropsPriority
