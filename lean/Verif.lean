import Verif.Props.Congruence
import Verif.Props.Arraylize
import Verif.Props.Coeff
import Verif.Props.StructUtils
import Verif.Props.Dispatch
import Verif.Props.Extract
import Verif.Props.StructDispatch
import Verif.Props.Sparse
import Verif.Props.Quaternary
import Verif.Props.QuaternaryQuartic
import Verif.Props.Univariate
import Verif.Props.UnivariateTotal
import Verif.Props.UnivariateInterval
import Verif.Props.HalfSpace
import Verif.Props.Bivariate
import Verif.Props.LinSolve
import Verif.Props.CsrSolve
import Verif.Props.Sdp
import Verif.Props.SdpMatrix
import Verif.Props.SdpUtils
import Verif.Props.SdpPrimal
import Verif.Props.LinBasis
import Verif.Props.LinMatrix
import Verif.Props.Shared
import Verif.Props.SharedSym
import Verif.Props.SharedOrbit
import Verif.Props.SharedWrap
import Verif.Props.Rationalize
import Verif.Props.LinCorrect
import Verif.Props.LinSOS
import Verif.Props.SdpSOS
import Verif.Props.Text
import Verif.Props.Backend
import Verif.Props.IntMul
import Verif.Props.TernaryQuartic
import Verif.Props.TernaryCubic
import Verif.Props.TernaryAcyclic
import Verif.Props.TernaryAmgm
import Verif.Props.TernaryPH
import Verif.Props.TernaryHeuristic
import Verif.Props.CycExpr
import Verif.Props.CycXrep
import Verif.Props.SolutionObj
import Verif.Props.CycRewrite
import Verif.Props.SymPivot
import Verif.Props.SymTrans
import Verif.Props.Acute
import Verif.Props.AcuteDense
import Verif.Model.Dense
import Verif.Proofs.TermsMv
import Verif.Proofs.SymDiv
import Verif.Props.DenseHom
import Verif.Props.DenseParts
import Verif.Props.Dense
import Verif.Model.Nvars
import Verif.Proofs.SymForms
import Verif.Props.Nvars
import Verif.Model.ClearFree
import Verif.Proofs.UnionFind
import Verif.Props.ClearFree
import Verif.Model.PolyTools
import Verif.Props.PolyTools
import Verif.Model.Pqr
import Verif.Props.Pqr
import Verif.Model.TernarySeptic
import Verif.Proofs.SepticIds
import Verif.Props.TernarySeptic
import Verif.Proofs.Closure
import Verif.Model.SepticSymmetric
import Verif.Proofs.SepticSymIds
import Verif.Proofs.SepticSymB1
import Verif.Proofs.SepticSymB2
import Verif.Props.SepticSymmetric
import Verif.Model.SexticSmall
import Verif.Props.SexticSmall
import Verif.Model.Nonic
import Verif.Proofs.NonicIds
import Verif.Props.Nonic
import Verif.Props.NonicPoly
import Verif.Model.Manifold
import Verif.Proofs.Manifold
import Verif.Proofs.ManifoldSets
import Verif.Props.Manifold
import Verif.Model.TernaryRoots
import Verif.Props.TernaryRoots
import Verif.Props.TernaryTangents
import Verif.Model.TernarySextic
import Verif.Proofs.TernarySextic
import Verif.Proofs.TernarySexticSdp
import Verif.Props.TernarySextic
import Verif.Props.TernarySexticFull
import Verif.Props.TernarySexticEx
import Verif.Model.QuinticSymmetric
import Verif.Proofs.QuinticSymmetric
import Verif.Proofs.PolyClosure
import Verif.Props.QuinticSymmetric
import Verif.Props.QuinticSymmetricMain
import Verif.Model.Form
import Verif.Props.FormUfs
import Verif.Props.FormFactor
import Verif.Model.Server
import Verif.Props.Server
import Verif.Model.Grid
import Verif.Props.Grid
import Verif.Model.OcticSymmetric
import Verif.Proofs.OcticFits
import Verif.Props.OcticSymmetric
import Verif.Model.SdpSolve
import Verif.Props.SdpSolve
import Verif.Props.SdpSolveDual
import Verif.Props.SdpSolveFaults
import Verif.Model.LinCollect
import Verif.Props.LinCollect
import Verif.Model.TernaryQuintic
import Verif.Proofs.TernaryQuintic
import Verif.Proofs.TernaryQuinticWind
import Verif.Props.TernaryQuintic
import Verif.Props.TernaryQuinticWind
import Verif.Props.TernaryQuinticMain
import Verif.Props.TernaryQuinticFaults
import Verif.Model.TernarySolver
import Verif.Proofs.TernaryTable
import Verif.Props.TernarySolver
import Verif.Props.TernarySolverEx
import Verif.Model.MonotonicOpt
import Verif.Props.MonotonicOpt
import Verif.Props.MonotonicOptReal
import Verif.Props.MonotonicOptEx
import Verif.Model.SexticHexagon
import Verif.Model.SexticIran
import Verif.Props.SexticHexagon
import Verif.Props.SexticHexagonMain
import Verif.Props.SexticIran
import Verif.Props.SexticIranEx
import Verif.Model.SexticFull
import Verif.Props.SexticFull
import Verif.Props.SexticFullMain
import Verif.Props.SexticFullEx
import Verif.Model.SexticQuad
import Verif.Proofs.SexticBorder
import Verif.Props.SexticQuad
import Verif.Props.SexticQuadMain
import Verif.Props.SexticQuadEx
import Verif.Model.SymFour
import Verif.Proofs.SymFourIdent
import Verif.Props.SymFour
import Verif.Model.FindRoot
import Verif.Props.FindRoot
import Verif.Model.SymDriver
import Verif.Props.SymDriver
import Verif.Model.IdentifySym
import Verif.Props.IdentifySym
import Verif.Model.BorderRoots
import Verif.Props.BorderRoots
import Verif.Model.KKT
import Verif.Props.KKT
import Verif.Model.IPM
import Verif.Props.IPM
import Verif.Model.IPMBlocks
import Verif.Props.IPMBlocks
