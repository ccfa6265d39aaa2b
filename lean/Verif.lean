import Verif.Props.Signs
import Verif.Props.SlaterCondon
import Verif.Props.ExcTables
import Verif.Props.Addr
import Verif.Props.Umat
import Verif.Props.Bigdim
import Verif.Props.Blocks
import Verif.Props.RdmC
import Verif.Props.UniqueRoots
import Verif.Props.Spaces
import Verif.Props.SpinTables
import Verif.Props.SpaceLists
import Verif.Props.Combine
import Verif.Props.SpinOp
import Verif.Props.OrthBasis
import Verif.Props.Fsucc
import Verif.Props.FsuccOp
import Verif.Props.Fockspace
import Verif.Props.SivecShuffle
import Verif.Props.Chkfile
import Verif.Props.ChkO1
import Verif.Props.Converge
import Verif.Props.SymBlocks
import Verif.Props.PsEnergy
import Verif.Props.RdmUtil
import Verif.Props.Dummy
import Verif.Props.ExcFrags
import Verif.Props.AsyncCombine
import Verif.Props.Coords
import Verif.Props.StateAverage
import Verif.Props.SingleExc
import Verif.Props.ProdRdm
import Verif.Props.ProdRdm3
import Verif.Props.Ugg
import Verif.Props.UggPack
import Verif.Props.SyncKernel
import Verif.Spec.AnyM
import Verif.Props.AnyM
import Verif.Spec.SelectTarget
import Verif.Props.SelectTarget
import Verif.Model.Outer
import Verif.Spec.Outer
import Verif.Lemmas.Outer
import Verif.Lemmas.OuterDp
import Verif.Lemmas.OuterDot
import Verif.Props.Outer
import Verif.Model.OuterGen
import Verif.Props.OuterGen
import Verif.Model.Spinless
import Verif.Props.Spinless
import Verif.Props.ContractHam
import Verif.Spec.Tdm
import Verif.Model.Lstdm
import Verif.Spec.Lstdm
import Verif.Lemmas.Tdm
import Verif.Lemmas.TdmSign
import Verif.Lemmas.TdmProd
import Verif.Lemmas.Lstdm
import Verif.Lemmas.LstdmBlk
import Verif.Lemmas.LstdmRows
import Verif.Lemmas.LstdmRows2
import Verif.Lemmas.LstdmRows3
import Verif.Lemmas.LstdmSum
import Verif.Lemmas.LstdmCover
import Verif.Props.Lstdm
import Verif.Model.LstdmKernel
import Verif.Spec.LstdmKernel
import Verif.Lemmas.KernAddr
import Verif.Lemmas.KernRow
import Verif.Lemmas.KernCrunch
import Verif.Lemmas.KernTab
import Verif.Lemmas.KernSum
import Verif.Lemmas.KernFin
import Verif.Lemmas.KernMain
import Verif.Props.LstdmKernel
import Verif.Props.HamS2
import Verif.Model.Rotate
import Verif.Spec.Rotate
import Verif.Lemmas.Rotate
import Verif.Model.Overlap
import Verif.Model.HamRot
import Verif.Spec.Overlap
import Verif.Lemmas.Overlap
import Verif.Props.Overlap
import Verif.Model.Lrrdm
import Verif.Spec.Lrrdm
import Verif.Lemmas.LrrdmRow
import Verif.Lemmas.LrrdmMix
import Verif.Lemmas.LrrdmFdm
import Verif.Lemmas.LrrdmSim
import Verif.Lemmas.LrrdmRot
import Verif.Props.Lrrdm
import Verif.Model.FciRdm
import Verif.Spec.FciRdm
import Verif.Lemmas.FciRdm
import Verif.Props.FciRdm
import Verif.Model.FragTables
import Verif.Spec.FragTables
import Verif.Lemmas.FragTables
import Verif.Props.FragTables
import Verif.Lemmas.Wigner
import Verif.Lemmas.WignerCases
import Verif.Lemmas.Ladder
import Verif.Lemmas.SpinAmp
import Verif.Lemmas.SpinVan
import Verif.Model.RdmSmult
import Verif.Spec.RdmSmult
import Verif.Lemmas.SpinFam
import Verif.Lemmas.RdmScale
import Verif.Lemmas.RdmSeq
import Verif.Lemmas.RdmSeq2
import Verif.Lemmas.RdmSeq3
import Verif.Lemmas.RdmSeq4
import Verif.Lemmas.RdmAmp
import Verif.Lemmas.RdmTop
import Verif.Props.RdmSmult
import Verif.Model.FragSpin
import Verif.Spec.FragSpin
import Verif.Lemmas.SpinBridge
import Verif.Lemmas.SpinOvl
import Verif.Lemmas.SpinMan
import Verif.Lemmas.SpinFill
import Verif.Lemmas.SpinLookup
import Verif.Props.FragSpin
import Verif.Lemmas.KernScr
import Verif.Lemmas.SpinSelect
import Verif.Spec.Screening
import Verif.Lemmas.ScreenSpin
import Verif.Props.Screening
import Verif.Model.HamSpin
import Verif.Spec.HamSpin
import Verif.Lemmas.SpinReduce
import Verif.Lemmas.HamSpinRow
import Verif.Lemmas.HamSpinFrag
import Verif.Lemmas.HamSpinDisp
import Verif.Lemmas.HamSpinKern
import Verif.Lemmas.HamSpinCase
import Verif.Lemmas.HamSpinMain
import Verif.Lemmas.HamSpinLink
import Verif.Props.HamSpin
import Verif.Model.Hsi
import Verif.Model.HsiRot
import Verif.Spec.Hsi
import Verif.Lemmas.HsiReach
import Verif.Lemmas.HsiVec
import Verif.Lemmas.HsiStage
import Verif.Lemmas.HsiTerm
import Verif.Lemmas.HsiDense
import Verif.Lemmas.HsiLink
import Verif.Lemmas.HsiCoef
import Verif.Lemmas.HsiRow
import Verif.Lemmas.HsiPut
import Verif.Lemmas.HsiMain
import Verif.Lemmas.HsiOvlp
import Verif.Lemmas.HsiRot
import Verif.Props.Hsi
import Verif.Model.Lassis
import Verif.Spec.Lassis
import Verif.Lemmas.LassisBase
import Verif.Lemmas.LassisHops
import Verif.Lemmas.LassisLevels
import Verif.Lemmas.LassisFlips
import Verif.Lemmas.LassisStage
import Verif.Lemmas.LassisFill
import Verif.Lemmas.LassisSpace
import Verif.Lemmas.LassisLow
import Verif.Props.Lassis
import Verif.Model.SiteDm
import Verif.Spec.SiteDm
import Verif.Lemmas.SiteDm
import Verif.Lemmas.SiteDmMain
import Verif.Props.SiteDm
import Verif.Model.Fbf
import Verif.Spec.Fbf
import Verif.Lemmas.Fbf
import Verif.Props.Fbf
import Verif.Model.HalfOp
import Verif.Spec.HalfOp
import Verif.Lemmas.HalfOp
import Verif.Lemmas.HalfOp2
import Verif.Lemmas.HalfOp3
import Verif.Props.HalfOp
import Verif.Model.CplxCi
import Verif.Spec.CplxCi
import Verif.Lemmas.CplxCi
import Verif.Lemmas.CplxCi2
import Verif.Lemmas.CplxCi3
import Verif.Lemmas.CplxCi4
import Verif.Props.CplxCi
import Verif.Model.CplxRdm
import Verif.Spec.CplxRdm
import Verif.Lemmas.CplxRdm
import Verif.Lemmas.CplxRdm2
import Verif.Lemmas.CplxRdm3
import Verif.Lemmas.CplxRdm4
import Verif.Props.CplxRdm
import Verif.Model.KptCas
import Verif.Spec.KptCas
import Verif.Lemmas.KptCas
import Verif.Props.KptCas
import Verif.Model.KptCanon
import Verif.Spec.KptCanon
import Verif.Lemmas.KptCanon
import Verif.Props.KptCanon
import Verif.Model.CplxSolve
import Verif.Spec.CplxSolve
import Verif.Props.CplxSolve
import Verif.Model.LasEnergy
import Verif.Spec.LasEnergy
import Verif.Lemmas.LasEnergy
import Verif.Props.LasEnergy
import Verif.Model.DfInts
import Verif.Spec.DfInts
import Verif.Lemmas.DfInts
import Verif.Props.DfInts
import Verif.Model.InitGuess
import Verif.Spec.InitGuess
import Verif.Props.InitGuess
import Verif.Model.LasCanon
import Verif.Spec.LasCanon
import Verif.Lemmas.LasCanon
import Verif.Props.LasCanon
import Verif.Model.LocalizeOcc
import Verif.Spec.LocalizeOcc
import Verif.Lemmas.LocalizeOcc
import Verif.Props.LocalizeOcc
import Verif.Model.GenCoup
import Verif.Spec.GenCoup
import Verif.Lemmas.GenCoup
import Verif.Props.GenCoup
import Verif.Model.CgProd
import Verif.Spec.CgProd
import Verif.Lemmas.CgProd
import Verif.Props.CgProd
import Verif.Model.ImpSpace
import Verif.Spec.ImpSpace
import Verif.Lemmas.ImpSpace
import Verif.Props.ImpSpace
import Verif.Model.SafeSvd
import Verif.Spec.SafeSvd
import Verif.Props.SafeSvd
import Verif.Model.SocInt
import Verif.Spec.SocInt
import Verif.Props.SocInt
import Verif.Model.HConst
import Verif.Spec.HConst
import Verif.Props.HConst
import Verif.Props.ImpGrad
