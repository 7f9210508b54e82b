import Verif.Lstm.Props
import Verif.Lstm.PropsZoneout
