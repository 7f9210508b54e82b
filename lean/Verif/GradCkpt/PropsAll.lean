import Verif.GradCkpt.Props
import Verif.GradCkpt.PropsHooks
