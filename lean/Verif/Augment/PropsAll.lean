import Verif.Augment.Props
import Verif.Augment.PropsDropout
