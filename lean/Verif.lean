import Verif.Props.SplitLoop
import Verif.Props.MultiDef
import Verif.Props.SafeMpi
import Verif.Props.Workspace
import Verif.Props.Sampler
import Verif.Props.SamplerFsz
import Verif.Props.Projection
import Verif.Props.PfUpdate
import Verif.Props.RBM
import Verif.Props.LocGrn
import Verif.Props.CalHam
import Verif.Props.LocGrnN
import Verif.Props.Slater
import Verif.Props.SR
import Verif.Props.Parameter
import Verif.Props.ParamIO
import Verif.Props.Lanczos
import Verif.Props.KeyWord
import Verif.Props.ReadDef
import Verif.Props.ReadFlags
import Verif.Props.ReadOrb
import Verif.Props.GreenIdx
import Verif.Props.Memory
import Verif.Props.Balance
import Verif.Props.BalanceFsz
import Verif.Props.LsLocGrn
import Verif.Props.MainCal
import Verif.Props.RealMode
import Verif.Props.LtlInv
import Verif.Props.Uhf
import Verif.Props.UhfOut
import Verif.Props.QPWeight
import Verif.Props.PfBlock
import Verif.Props.Translation
import Verif.Props.ReadTrans
import Verif.Props.Ranks
import Verif.Model.MpiRun
import Verif.Model.MpiCG
import Verif.Proof.MpiRun
import Verif.Proof.MpiPhases
import Verif.Proof.MpiTerm
import Verif.Props.MpiRun
import Verif.Props.VarFile
import Verif.Props.SRDescent
import Verif.Props.Stationary
import Verif.Props.StationaryPsi
import Verif.Props.StationaryFsz
import Verif.Props.Variational
import Verif.Props.GreenMean
import Verif.Props.MainGreenF
import Verif.Props.WorkUse
import Verif.Spec.Ergodic
import Verif.Model.PathCheck
import Verif.Proof.Ergodic
import Verif.Proof.Reach
import Verif.Proof.Chain
import Verif.Props.Ergodic
import Verif.Proof.ReachF
import Verif.Proof.ChainF
import Verif.Props.ErgodicF
import Verif.Proof.SRStable
import Verif.Props.SRConverge
import Verif.Proof.ParDiff
import Verif.Proof.ParLine
import Verif.Props.SRLower
import Verif.Model.Sfmt
import Verif.Spec.Sfmt
import Verif.Proof.Sfmt
import Verif.Proof.SfmtSeed
import Verif.Proof.SfmtSeq
import Verif.Props.Sfmt
import Verif.Model.OutFiles
import Verif.Spec.OutFiles
import Verif.Proof.OutFiles
import Verif.Props.OutFiles
import Verif.Proof.ReachZ
import Verif.Props.ErgodicZ
import Verif.Model.ReadSizes
import Verif.Spec.ReadSizes
import Verif.Proof.ReadSizes
import Verif.Props.ReadSizes
import Verif.Proof.SRStep
import Verif.Proof.ParLineF
import Verif.Props.SRLowerF
import Verif.Model.CmdLine
import Verif.Spec.CmdLine
import Verif.Proof.CmdLine
import Verif.Props.CmdLine
import Verif.Model.UhfRead
import Verif.Spec.UhfRead
import Verif.Proof.UhfRead
import Verif.Proof.UhfRead2
import Verif.Props.UhfRead
import Verif.Model.UhfStart
import Verif.Spec.UhfStart
import Verif.Proof.UhfStart
import Verif.Props.UhfStart
import Verif.Model.UhfMod
import Verif.Spec.UhfMod
import Verif.Proof.UhfMod
import Verif.Props.UhfMod
import Verif.Model.GreenR2k
import Verif.Spec.GreenR2k
import Verif.Proof.GreenR2k
import Verif.Proof.GreenR2k2
import Verif.Proof.GreenR2k3
import Verif.Proof.GreenR2k4
import Verif.Props.GreenR2k
import Verif.Props.GreenR2kRun
import Verif.Props.GreenR2kConverge
import Verif.Proof.UhfOrb
import Verif.Props.UhfOrb
import Verif.Model.Release
import Verif.Spec.Release
import Verif.Proof.Release
import Verif.Proof.Release2
import Verif.Proof.Release3
import Verif.Props.Release
import Verif.Model.R2kOut
import Verif.Spec.R2kOut
import Verif.Proof.R2kOut
import Verif.Props.R2kOut
import Verif.Model.R2kName
import Verif.Proof.R2kName
import Verif.Props.R2kName
import Verif.Model.LsOut
import Verif.Proof.LsOut
import Verif.Props.LsOut
import Verif.Model.MAllPar
import Verif.Proof.MAllPar
import Verif.Props.MAllPar
import Verif.Model.OptUse
import Verif.Proof.OptUse
import Verif.Props.OptUse
import Verif.Model.InFiles
import Verif.Proof.InFiles
import Verif.Props.InFiles
import Verif.Model.ArrAlloc
import Verif.Proof.ArrAlloc
import Verif.Props.ArrAlloc
import Verif.Model.CommLife
import Verif.Proof.CommLife
import Verif.Props.CommLife
import Verif.Model.Respack
import Verif.Proof.Respack
import Verif.Props.Respack
import Verif.Model.CmdSmall
import Verif.Props.CmdSmall
