import Verif.PyPickle.Props
import Verif.PyPickle.PropsExact
import Verif.PyPickle.PropsTotal
import Verif.PyPickle.PropsSound
import Verif.PyPickle.PropsWellFormed
import Verif.PyPickle.PropsExamples
