import Verif.RfMatmul.PropsSquare
/- All properties of `rf.matmul`. -/
