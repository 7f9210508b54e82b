import Verif.SeqOrder.Props
import Verif.SeqWorker.Props
import Verif.DistribFiles.Props
import Verif.MultiProc.Props
import Verif.NumbersDict.Props
import Verif.Pipeline.Props
import Verif.Pipeline.PropsBucket
import Verif.Pipeline.PropsStream
import Verif.Legacy.PropsGen
import Verif.Legacy.PropsBatch
import Verif.Legacy.PropsChunk
import Verif.Lru.Props
import Verif.Framing.Props
import Verif.MathUtil.Props
import Verif.MathUtil.PropsMore
import Verif.ListUtil.Props
import Verif.Laplace.Props
import Verif.EpochFilter.Props
import Verif.Cached2.Props
import Verif.FileCache.Props
import Verif.FileCache.PropsPolicy
import Verif.FileCache.PropsThread
import Verif.LockFile.Props
import Verif.LearningRate.Props
import Verif.LearningRate.PropsTrain
import Verif.LearningRate.PropsMore
import Verif.LearningRate.PropsSave
import Verif.Engine.Props
import Verif.Engine.PropsCleanup
import Verif.Engine.PropsTrain
import Verif.Engine.PropsProgress
import Verif.Stats.Props
import Verif.Bpe.Props
import Verif.Bpe.PropsTree
import Verif.Vocab.Model
import Verif.Vocab.Spec
import Verif.Vocab.Props
import Verif.Combined.Model
import Verif.Combined.Spec
import Verif.Combined.Lemmas
import Verif.Combined.Props
import Verif.Combined.PropsLoad
import Verif.Combined.PropsOrder
import Verif.MultiEpoch.Model
import Verif.MultiEpoch.Spec
import Verif.MultiEpoch.Props
import Verif.MetaDs.Model
import Verif.MetaDs.Spec
import Verif.MetaDs.Props
import Verif.MetaDs.PropsInit
import Verif.Concat.Model
import Verif.Concat.Props
import Verif.DimMath.Model
import Verif.DimMath.Spec
import Verif.DimMath.Lemmas
import Verif.DimMath.LemmasAdd
import Verif.DimMath.LemmasDiv
import Verif.DimMath.Props
import Verif.DimMath.PropsErr
import Verif.EditDist.Spec
import Verif.EditDist.Model
import Verif.EditDist.Lemmas
import Verif.EditDist.Props
import Verif.EditDist.PropsNative
import Verif.Scan.Spec
import Verif.Scan.Model
import Verif.Scan.Props
import Verif.Scan.PropsXs
import Verif.Hdf.Spec
import Verif.Hdf.Model
import Verif.Hdf.Reader
import Verif.Hdf.Writer
import Verif.Hdf.Props
import Verif.Hdf.PropsDump
import Verif.CtcFsa.Spec
import Verif.CtcFsa.Model
import Verif.CtcFsa.Lemmas
import Verif.CtcFsa.Py
import Verif.CtcFsa.Native
import Verif.CtcFsa.Props
import Verif.FastBw.Spec
import Verif.FastBw.Model
import Verif.FastBw.Lemmas
import Verif.FastBw.Kernels
import Verif.FastBw.Props
import Verif.FastBw.PropsCtc
import Verif.FastBw.CtcLoss
import Verif.FastBw.PropsLoss
import Verif.Viterbi.Spec
import Verif.Viterbi.Model
import Verif.Viterbi.Cas
import Verif.Viterbi.Props
import Verif.Viterbi.PropsCtc
import Verif.DimEq.Model
import Verif.DimEq.Props
import Verif.DimEq.PropsDecl
import Verif.RfSeq.Model
import Verif.RfSeq.Props
import Verif.RfSeq.PropsPack
import Verif.RfSeq.Reduce
import Verif.RfSeq.PropsReduce
import Verif.RfSeq.PropsScatter
import Verif.RfSeq.PropsAll
import Verif.Updater.Model
import Verif.Updater.Props
import Verif.Updater.Groups
import Verif.Updater.PropsGroups
import Verif.Updater.Loop
import Verif.Updater.PropsLoop
import Verif.Updater.PropsAll
import Verif.Attention.Model
import Verif.Attention.Spec
import Verif.Attention.Props
import Verif.Attention.Decoder
import Verif.Attention.SpecDecoder
import Verif.Attention.PropsDecoder
import Verif.Attention.Freq
import Verif.Attention.PropsRun
import Verif.Attention.PropsExamples
import Verif.Attention.PropsAll
import Verif.PyPickle.Model
import Verif.PyPickle.Spec
import Verif.PyPickle.Lemmas
import Verif.PyPickle.Parse
import Verif.PyPickle.Compound
import Verif.PyPickle.Props
import Verif.PyPickle.PropsExact
import Verif.PyPickle.PropsTotal
import Verif.PyPickle.PropsSound
import Verif.PyPickle.PropsWellFormed
import Verif.PyPickle.PropsExamples
import Verif.PyPickle.PropsAll
import Verif.BinOp.Model
import Verif.BinOp.Spec
import Verif.BinOp.Lemmas
import Verif.BinOp.Axes
import Verif.BinOp.Combine
import Verif.BinOp.Props
import Verif.BinOp.PropsFindings
import Verif.BinOp.Shortcut
import Verif.BinOp.PropsShortcut
import Verif.BinOp.PropsPriority
import Verif.BinOp.PropsAll
import Verif.RfMatmul.Model
import Verif.RfMatmul.Spec
import Verif.RfMatmul.Lemmas
import Verif.RfMatmul.Props
import Verif.RfMatmul.PropsSquare
import Verif.RfMatmul.PropsAll
import Verif.RfGather.Model
import Verif.RfGather.Spec
import Verif.RfGather.Lemmas
import Verif.RfGather.Props
import Verif.RfGather.PropsFindings
import Verif.RfGather.PropsAll
import Verif.ForwardSplit.Model
import Verif.ForwardSplit.Spec
import Verif.ForwardSplit.Lemmas
import Verif.ForwardSplit.Props
import Verif.GradCkpt.Model
import Verif.GradCkpt.Spec
import Verif.GradCkpt.Lemmas
import Verif.GradCkpt.Props
import Verif.GradCkpt.Hooks
import Verif.GradCkpt.HooksSpec
import Verif.GradCkpt.HooksLemmas
import Verif.GradCkpt.PropsHooks
import Verif.GradCkpt.PropsAll
import Verif.TrainProc.Model
import Verif.TrainProc.Props
import Verif.Postproc.Model
import Verif.Postproc.Spec
import Verif.Postproc.Lemmas
import Verif.Postproc.Props
import Verif.Distrib.Model
import Verif.Distrib.Spec
import Verif.Distrib.Sched
import Verif.Distrib.Lemmas
import Verif.Distrib.Props
import Verif.Distrib.PropsWit
import Verif.Distrib.PropsAll
import Verif.ConcatSeqs.Model
import Verif.ConcatSeqs.Spec
import Verif.ConcatSeqs.Props
import Verif.RfConv.Model
import Verif.RfConv.Spec
import Verif.RfConv.Lemmas
import Verif.RfConv.Props
import Verif.LoadModel.Model
import Verif.LoadModel.Spec
import Verif.LoadModel.Lemmas
import Verif.LoadModel.Props
import Verif.LoadModel.PropsResume
import Verif.LoadModel.PropsAll
import Verif.StepDims.Model
import Verif.StepDims.Spec
import Verif.StepDims.Lemmas
import Verif.StepDims.Props
import Verif.ModTree.Model
import Verif.ModTree.Spec
import Verif.ModTree.Lemmas
import Verif.ModTree.Props
import Verif.ModTree.PropsPT
import Verif.ModTree.PropsAll
import Verif.Norm.PropsAll
import Verif.Lstm.Model
import Verif.Lstm.Spec
import Verif.Lstm.Props
import Verif.Lstm.PropsZoneout
import Verif.Lstm.PropsAll
import Verif.ConfigPy.Model
import Verif.ConfigPy.Spec
import Verif.ConfigPy.Props
import Verif.ConfigPy.PropsRead
import Verif.ConfigPy.PropsAll
import Verif.Augment.Props
import Verif.Augment.PropsAll
import Verif.Augment.PropsDropout
import Verif.RfShape.Model
import Verif.RfShape.Spec
import Verif.RfShape.Lemmas
import Verif.RfShape.Props
import Verif.RfShape.PropsParts
import Verif.RfShape.PropsNew
import Verif.RfShape.PropsSize
import Verif.RfShape.PropsAll
import Verif.RfLoss.Props
import Verif.RfLoss.PropsEpoch
import Verif.RfLoss.PropsAll
import Verif.SprintData.Props
import Verif.HdfCache.Model
import Verif.HdfCache.Spec
import Verif.HdfCache.Lemmas
import Verif.HdfCache.Remove
import Verif.HdfCache.Alloc
import Verif.HdfCache.Steps
import Verif.HdfCache.Inv
import Verif.HdfCache.Props
import Verif.RfScatter.Model
import Verif.RfScatter.Spec
import Verif.RfScatter.Lemmas
import Verif.RfScatter.Props
import Verif.RfScatter.PropsB
import Verif.RfScatter.PropsAll
import Verif.SprintCache.Model
import Verif.SprintCache.Spec
import Verif.SprintCache.Lemmas
import Verif.SprintCache.Props
import Verif.SprintCache.PropsB
import Verif.SprintCache.PropsAll
import Verif.LmData.Model
import Verif.LmData.Spec
import Verif.LmData.Props
import Verif.LmData.PropsB
import Verif.LmData.PropsAll
import Verif.Allo.Model
import Verif.Allo.Spec
import Verif.Allo.Lemmas
import Verif.Allo.Props
import Verif.TransData.Model
import Verif.TransData.Spec
import Verif.TransData.Lemmas
import Verif.TransData.Props
import Verif.Hooks.Model
import Verif.Hooks.Spec
import Verif.Hooks.Lemmas
import Verif.Hooks.Props
import Verif.OggZip.Model
import Verif.OggZip.Spec
import Verif.OggZip.Props
import Verif.RfPcw.Model
import Verif.RfPcw.Spec
import Verif.RfPcw.Props
import Verif.FrontCache.Model
import Verif.FrontCache.Spec
import Verif.FrontCache.Props
import Verif.TensorDict.Props
import Verif.EpochFrac.Props
import Verif.TextDict.Model
import Verif.TextDict.Props
import Verif.NestedSel.Model
import Verif.NestedSel.Spec
import Verif.NestedSel.Lemmas
import Verif.NestedSel.Props
import Verif.NestedSel.GatherModel
import Verif.NestedSel.PropsGather
import Verif.MapDs.Model
import Verif.MapDs.Props
import Verif.RunMean.Model
import Verif.RunMean.Spec
import Verif.RunMean.Props
import Verif.Lion.Model
import Verif.Lion.Spec
import Verif.Lion.Props
import Verif.Dropout.Model
import Verif.Dropout.Props
import Verif.TensorArr.Model
import Verif.TensorArr.Props
import Verif.Bleu.Model
import Verif.Bleu.Spec
import Verif.Bleu.Lemmas
import Verif.Bleu.Props
import Verif.PackDims.Model
import Verif.PackDims.Props
import Verif.CtxJournal.Model
import Verif.CtxJournal.Props
import Verif.OptRead.Model
import Verif.OptRead.Props
import Verif.StepSeed.Model
import Verif.StepSeed.Props
import Verif.StepSeed.PropsGumbel
import Verif.NpDump.Model
import Verif.NpDump.Props
import Verif.StereoPart.Model
import Verif.StereoPart.Props
import Verif.WavFrames.Model
import Verif.WavFrames.Props
import Verif.TaskGen.Model
import Verif.TaskGen.Spec
import Verif.TaskGen.Props
import Verif.TaskGen.Xml
import Verif.TaskGen.PropsXml
import Verif.Staircase.Model
import Verif.Staircase.Spec
import Verif.Staircase.Lemmas
import Verif.Staircase.Props
import Verif.Staircase.PropsNodup
import Verif.Staircase.PropsLoop
import Verif.PPrint.Spec
import Verif.PPrint.Model
import Verif.PPrint.Props
import Verif.NativeComp.Model
import Verif.NativeComp.Props
import Verif.EnvVars.Model
import Verif.EnvVars.Spec
import Verif.EnvVars.Props
import Verif.RecGuard.Model
import Verif.RecGuard.Spec
import Verif.RecGuard.Props
