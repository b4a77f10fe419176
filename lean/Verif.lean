import Verif.Lemmas.MulMap
import Verif.Spec.OffCurve
import Verif.Props.OffCurve
import Verif.Lemmas.OffLadder
import Verif.Lemmas.OffCurve
import Verif.Props.Decode
import Verif.Lemmas.DecodeFields
import Verif.Props.TorsionFree
import Verif.Lemmas.BasisExtend
import Verif.Spec.AxisFree
import Verif.Props.ZeroScalar
import Verif.Props.AxisCount
import Verif.Lemmas.ToyZeroData
import Verif.Lemmas.AxisFree
import Verif.Lemmas.AxisCheck
import Verif.Spec.Malleable
import Verif.Props.MalleableCase
import Verif.Props.Malleable
import Verif.Lemmas.ToyScaleData
import Verif.Lemmas.ToyNegData
import Verif.Props.Precompute
import Verif.Model.Precompute
import Verif.Lemmas.Precompute
import Verif.Props.KaniFirst
import Verif.Props.EntangledZero
import Verif.Lemmas.ZeroPoint
import Verif.Lemmas.KaniFactor
import Verif.Lemmas.ChainPos
import Verif.Lemmas.ThetaKill
import Verif.Lemmas.PenNet
import Verif.Lemmas.KaniPen
import Verif.Props.KaniEnd
import Verif.Spec.JacChain
import Verif.Lemmas.ThetaSigns
import Verif.Lemmas.ThetaLine
import Verif.Lemmas.KaniJac
import Verif.Lemmas.KaniEnd
import Verif.Lemmas.JacChain
import Verif.Props.IsoExact
import Verif.Props.BidlpWrong
import Verif.Props.Refine
import Verif.Props.PairingDebug
import Verif.Props.FpChecked
import Verif.Model.FpChecked
import Verif.Props.Display
import Verif.Model.Display
import Verif.Props.StoredBasis
import Verif.Model.Hash
import Verif.Props.Setup
import Verif.Lemmas.TorsionRun
import Verif.Lemmas.SetupRun
import Verif.Lemmas.SetupPoints
import Verif.Lemmas.SetupData
import Verif.Lemmas.FastLadder
import Verif.Lemmas.FastField
import Verif.Spec.Projective
import Verif.Props.SerialCase
import Verif.Props.Serial
import Verif.Props.Hash
import Verif.Lemmas.ProjectiveChain
import Verif.Lemmas.Projective
import Verif.Spec.Run
import Verif.Props.RoundTripCase
import Verif.Props.RoundTrip
import Verif.Model.Bench
import Verif.Spec.Kani
import Verif.Props.KaniCase
import Verif.Props.Kani
import Verif.Lemmas.KaniCode
import Verif.Lemmas.ThetaMap
import Verif.Lemmas.KaniUp
import Verif.Lemmas.KaniOther
import Verif.Lemmas.KaniDescent
import Verif.Lemmas.RankOne
import Verif.Lemmas.PolyIso
import Verif.Lemmas.PolyHom
import Verif.Lemmas.MobiusAffine
import Verif.Lemmas.Mobius
import Verif.Lemmas.KaniSplit
import Verif.Lemmas.KaniNull
import Verif.Lemmas.KaniDiamond
import Verif.Lemmas.KaniComp
import Verif.Lemmas.KaniClosed
import Verif.Lemmas.GluePoly
import Verif.Lemmas.ClosedNet
import Verif.Lemmas.ChainDeg
import Verif.Props.GroupStructure
import Verif.Lemmas.FullTorsion
import Verif.Lemmas.Divisible
import Verif.Props.Dual
import Verif.Props.StartCurve
import Verif.Lemmas.Supersing
import Verif.Lemmas.FrobTwo
import Verif.Lemmas.FrobExt
import Verif.Lemmas.Frob
import Verif.Lemmas.FqCard
import Verif.Lemmas.Dual
import Verif.Lemmas.RiemannLoop
import Verif.Lemmas.RiemannExact
import Verif.Lemmas.GlueExact
import Verif.Spec.Chain
import Verif.Props.ProductHomCase
import Verif.Props.ProductHom
import Verif.Lemmas.ToyChainData
import Verif.Lemmas.ToyChain
import Verif.Lemmas.ProductNet
import Verif.Lemmas.ProductMap
import Verif.Lemmas.KummerNet
import Verif.Lemmas.RiemannStep
import Verif.Lemmas.RiemannSplit
import Verif.Lemmas.RiemannGlue
import Verif.Lemmas.RiemannChain
import Verif.Lemmas.Riemann
import Verif.Lemmas.KummerAdd
import Verif.Lemmas.JacPts
import Verif.Lemmas.JacAdd
import Verif.Spec.Glue
import Verif.Props.Gluing
import Verif.Lemmas.GlueMat
import Verif.Lemmas.GlueCurve
import Verif.Lemmas.GlueAlg
import Verif.Lemmas.Glue
import Verif.Props.Product
import Verif.Spec.ToyScheme
import Verif.Props.SchemeCase
import Verif.Lemmas.ToyEval
import Verif.Spec.ToyField
import Verif.Lemmas.Checks
import Verif.Spec.Keys
import Verif.Props.Scheme
import Verif.Lemmas.SchemeGroup
import Verif.Lemmas.TorsionSpan
import Verif.Lemmas.WeilNondeg
import Verif.Props.BasisEval
import Verif.Lemmas.WeilStep
import Verif.Lemmas.WeilOrder
import Verif.Lemmas.WeilVelu
import Verif.Lemmas.GvFormula
import Verif.Spec.Trapdoor
import Verif.Spec.TestField239
import Verif.Props.Trapdoor
import Verif.Props.Festa
import Verif.Model.Festa
import Verif.Lemmas.FqCodec
import Verif.Lemmas.FestaCodec
import Verif.Lemmas.DiagB
import Verif.Lemmas.WeilAxis
import Verif.Props.Word
import Verif.Props.Consts
import Verif.Props.Fp
import Verif.Props.FpBytes
import Verif.Props.FpPow
import Verif.Props.FpDiv
import Verif.Props.Fp2
import Verif.Props.EC
import Verif.Props.DLog
import Verif.Props.OrderTest
import Verif.Props.Pairing
import Verif.Props.Supersingular
import Verif.Model.Entangled
import Verif.Lemmas.Fr
import Verif.Lemmas.Entangled
import Verif.Lemmas.EntangledBasis
import Verif.Lemmas.EntangledStart
import Verif.Spec.TestField49
import Verif.Props.Entangled
import Verif.Model.Isogeny
import Verif.Spec.Isogeny
import Verif.Lemmas.VeluBase
import Verif.Lemmas.VeluProd
import Verif.Lemmas.VeluNorm
import Verif.Lemmas.VeluRel
import Verif.Lemmas.VeluTwo
import Verif.Lemmas.VeluHom
import Verif.Lemmas.VeluUp
import Verif.Lemmas.Velu
import Verif.Lemmas.Isogeny
import Verif.Lemmas.IsogenyChain
import Verif.Props.Isogeny
import Verif.Lemmas.BinGcd
import Verif.Lemmas.BinGcdJac
import Verif.Lemmas.DLog
import Verif.Lemmas.EC
import Verif.Lemmas.ECIso
import Verif.Lemmas.ECLadder
import Verif.Lemmas.FestaNqr
import Verif.Lemmas.FestaParams
import Verif.Lemmas.Fp2
import Verif.Lemmas.Fp2Pow
import Verif.Lemmas.Fp2Root
import Verif.Lemmas.FpAdd
import Verif.Lemmas.FpConv
import Verif.Lemmas.FpDiv
import Verif.Lemmas.FpDivApprox
import Verif.Lemmas.FpDivLimb
import Verif.Lemmas.FpDivWord
import Verif.Lemmas.FpLegendre
import Verif.Lemmas.FpMisc
import Verif.Lemmas.FpMul
import Verif.Lemmas.FpPow
import Verif.Lemmas.FpRep
import Verif.Lemmas.Fq
import Verif.Lemmas.FqRoot
import Verif.Lemmas.Kernel
import Verif.Lemmas.Limbs
import Verif.Lemmas.MillerEval
import Verif.Lemmas.MillerRing
import Verif.Lemmas.Morrison
import Verif.Lemmas.OrderTest
import Verif.Lemmas.PairingCode
import Verif.Lemmas.PairingDeg
import Verif.Lemmas.PairingTest
import Verif.Lemmas.Theta
import Verif.Lemmas.ThetaChain
import Verif.Lemmas.ThetaDouble
import Verif.Lemmas.ThetaIso
import Verif.Lemmas.ThetaLoop
import Verif.Lemmas.ThetaMore
import Verif.Lemmas.ThetaPoly
import Verif.Lemmas.ThetaSplit
import Verif.Lemmas.Torsion
import Verif.Lemmas.Weil
import Verif.Lemmas.WeilBasis
import Verif.Lemmas.Word
import Verif.Model.DLog
import Verif.Model.EC
import Verif.Model.FestaConsts
import Verif.Model.FestaParams
import Verif.Model.Fp
import Verif.Model.Fp2
import Verif.Model.FpDiv
import Verif.Model.Pairing
import Verif.Model.Supersingular
import Verif.Model.Theta
import Verif.Model.Word
import Verif.Props.Theta
import Verif.Spec.EC
import Verif.Spec.Fp
import Verif.Spec.Fp2
import Verif.Spec.FpDiv
import Verif.Spec.Pairing
import Verif.Spec.Scheme
import Verif.Spec.TestField
import Verif.Spec.TestField127
import Verif.Spec.TestField2
import Verif.Spec.TestField3
import Verif.Spec.Theta
