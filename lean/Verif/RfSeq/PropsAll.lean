import Verif.RfSeq.PropsPack
import Verif.RfSeq.PropsScatter
/- All RfSeq properties. -/
