import Verif.LmData.Props
import Verif.LmData.PropsB
