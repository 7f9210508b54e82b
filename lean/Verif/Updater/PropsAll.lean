import Verif.Updater.Props
import Verif.Updater.PropsGroups
import Verif.Updater.PropsLoop
/-! All properties of this area. -/
