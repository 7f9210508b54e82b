import Verif.RfGather.PropsFindings
/- All properties of `rf.gather`. -/
