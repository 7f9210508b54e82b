import Verif.RfLoss.PropsEpoch
