import Verif.ModTree.Props
import Verif.ModTree.PropsPT
