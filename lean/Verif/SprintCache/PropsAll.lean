import Verif.SprintCache.Props
import Verif.SprintCache.PropsB
