import Verif.Basic
import Verif.SetFam.PropsSSet
import Verif.SetFam.PropsSort
import Verif.SetFam.PropsKeyed
import Verif.Tree.PropsAvl
import Verif.Tree.PropsRb
import Verif.Table.PropsTable
import Verif.Table.PropsDep
import Verif.Links.PropsSingle
import Verif.Links.PropsOwned
import Verif.Links.Move
import Verif.Links.PropsListen
import Verif.Links.PropsProgress
import Verif.Par.PropsTask
import Verif.Mem.PropsSlab
import Verif.Num.PropsSmall
import Verif.Num.PropsRng
import Verif.Lin.PropsGauss
import Verif.Lin.PropsLU
import Verif.Lin.Orth
import Verif.Lin.PropsOrth
import Verif.Lin.PropsTri
import Verif.Lin.PropsQl
import Verif.Lin.PropsEig
import Verif.Lin.PropsEigEqu
import Verif.Lin.PropsQr
import Verif.Lin.PropsSvd
import Verif.Lin.PropsSvdRed
import Verif.Lin.SvdDiag
import Verif.Lin.SvdRot
import Verif.Lin.SvdSweep
import Verif.Lin.PropsSvdDiag
import Verif.Lin.PropsPack
import Verif.Lin.PropsChol
import Verif.Lin.PropsLDL
import Verif.Fem.PropsShape
import Verif.Fem.PropsElem
import Verif.Fem.PropsStiff
import Verif.Fem.PropsInf
import Verif.Fem.PropsGauss
import Verif.Fem.PropsSparse
import Verif.Fem.PropsSparseUse
import Verif.Fem.PropsChol
import Verif.Fem.PropsCholUse
import Verif.Fem.Solve
import Verif.Fem.PropsCg
import Verif.Fem.PropsSolve
import Verif.Fem.PropsSolveUse
import Verif.Fft.PropsReal
import Verif.Pave.PropsPoint
import Verif.Pave.PropsSys
import Verif.Pave.PropsPlace
import Verif.Pave.PropsAbcd
import Verif.Pave.PropsSlip
import Verif.Pave.PropsPrinc
import Verif.Pave.PropsAxial
import Verif.Pave.PropsQuad
import Verif.Pave.PropsGrad
import Verif.Pave.Kalman
import Verif.Pave.PropsKalman
import Verif.Pave.Simplex
import Verif.Pave.PropsSimplex
import Verif.Pave.DeflGrad
import Verif.Pave.GradLemmas
import Verif.Pave.PropsDeflGrad
import Verif.Pave.Bouss
import Verif.Pave.PropsBouss
import Verif.Pave.Odemark
import Verif.Pave.PropsOdemark
import Verif.Pave.Quad8
import Verif.Pave.PropsQuad8
import Verif.Pave.Gauss
import Verif.Pave.PropsGauss
import Verif.Pave.PropsGaussSearch
import Verif.Pave.PropsGaussFirst
import Verif.Pave.PropsGaussLocal
import Verif.Pave.PropsGaussAll
import Verif.Pave.PropsGaussLimit
import Verif.Pave.Driver
import Verif.Pave.PropsDriver
import Verif.Traffic.Traffic
import Verif.Traffic.PropsStr
import Verif.Traffic.PropsLine
import Verif.Traffic.PropsCount
import Verif.Traffic.PropsTotals
import Verif.Traffic.PropsSurvey
import Verif.Traffic.RSADate
import Verif.Traffic.PropsRSADate
import Verif.Thermal.Thermal
import Verif.Thermal.Asm
import Verif.Thermal.Elem
import Verif.Thermal.Step
import Verif.Thermal.Run
import Verif.Thermal.PropsThermal
import Verif.Thermal.PropsInterp
import Verif.Thermal.PropsGalerkin
import Verif.Libop.PropsHandles
import Verif.Libop.PropsLe
import Verif.Mat.Dense
import Verif.Mat.PropsDense
import Verif.Mat.Lazy
import Verif.Mat.PropsLazy
import Verif.Rv.Props
import Verif.Var.Props
import Verif.Var.Owner
import Verif.Num.FzeroProps
import Verif.Num.PropsLine
import Verif.Num.PropsFit
import Verif.Num.FminProps
import Verif.Stat.PropsNormal
import Verif.Stat.PropsRnd
import Verif.Stat.PropsDist
import Verif.Libop.CalME
import Verif.Libop.CopyRes
import Verif.Fem.PropsNodes
import Verif.Fem.PropsLoads
import Verif.Fem.PropsSystem
import Verif.Fem.PropsBlocks
import Verif.Fem.PropsGrid
import Verif.Fem.PropsBox
import Verif.Fem.Variable
import Verif.Fem.PropsMask
import Verif.Fem.PropsMesh
import Verif.Fem.PropsVariable
import Verif.Fem.PropsReach
import Verif.Fem.Area
import Verif.Fem.AreaLemmas
import Verif.Fem.PropsArea
import Verif.Fem.Region
import Verif.Fem.PropsRegion
import Verif.Fem.Field
import Verif.Fem.PropsField
import Verif.Fem.PropsBessel
import Verif.Fem.PropsBesselMid
import Verif.Fem.Runs
import Verif.Fem.PropsRuns
import Verif.Pave.PropsLoad
import Verif.Fem.Depth
import Verif.Fem.PropsDepth
import Verif.SetFam.Own
import Verif.SetFam.PropsOwn
import Verif.Fem.Stops
import Verif.Fem.PropsStops
import Verif.Pave.Stopping
import Verif.Pave.PropsStopping
import Verif.Pave.Panels
import Verif.Pave.PropsPanels
import Verif.Pave.Dirty
import Verif.Pave.PropsDirty
import Verif.Pave.PropsDirtyError
import Verif.Var.Simple
import Verif.Var.PropsSimple
import Verif.Var.Valid
import Verif.Var.PropsValid
import Verif.Fem.Outward
import Verif.Fem.PropsOutward
import Verif.Fem.PropsOutwardEnd
import Verif.Fem.PropsOutwardGrid
import Verif.Fem.PropsOutwardMesh
import Verif.Fem.PropsOutwardProg
import Verif.Num.PropsTypes
import Verif.Pave.PropsAbcdCut
import Verif.Pave.BesselJ
import Verif.Pave.PropsElastic
import Verif.Num.PropsRngState
import Verif.Pave.PropsSimplexMoves
import Verif.Pave.LineSearch
import Verif.Pave.PropsLineSearch
import Verif.Pave.Swarm
import Verif.Pave.PropsSwarm
import Verif.Lin.SvdAcc
import Verif.Lin.SvdAccSpec
import Verif.Lin.PropsSvdAcc
import Verif.Lin.SvdWide
import Verif.Lin.PropsSvdWide
import Verif.Lin.PropsSvdTwo
import Verif.Lin.SvdUse
import Verif.Lin.PropsSvdUse
