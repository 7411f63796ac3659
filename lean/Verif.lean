import Verif.Lemmas.Annotate
import Verif.Lemmas.Balance
import Verif.Lemmas.Beam
import Verif.Lemmas.BeamArgs
import Verif.Lemmas.BeamWaves
import Verif.Lemmas.Bias
import Verif.Lemmas.Construct
import Verif.Lemmas.Continuous
import Verif.Lemmas.Contraction
import Verif.Lemmas.EigenBias
import Verif.Lemmas.ExistenceMean
import Verif.Lemmas.ExistenceSeries
import Verif.Lemmas.Galerkin
import Verif.Lemmas.Grid
import Verif.Lemmas.Grid01
import Verif.Lemmas.GridOps
import Verif.Lemmas.MatCache
import Verif.Lemmas.MatConvert
import Verif.Lemmas.MatOp
import Verif.Lemmas.MatSvd
import Verif.Lemmas.Problem
import Verif.Lemmas.Refinement
import Verif.Lemmas.Roots
import Verif.Lemmas.RootsPoly
import Verif.Lemmas.Scattering
import Verif.Lemmas.ScatteringModes
import Verif.Lemmas.SolverAxes
import Verif.Lemmas.SolverConj
import Verif.Lemmas.SolverConverge
import Verif.Lemmas.SolverCover
import Verif.Lemmas.SolverFunctions
import Verif.Lemmas.SolverLarge
import Verif.Lemmas.SolverMedium
import Verif.Lemmas.SolverNorm
import Verif.Lemmas.SolverOps
import Verif.Lemmas.SolverRate
import Verif.Lemmas.SolverReal
import Verif.Lemmas.SolverRepresents
import Verif.Lemmas.SolverRounding
import Verif.Lemmas.SolverRun
import Verif.Lemmas.SolverStop
import Verif.Lemmas.SolverSymmetry
import Verif.Lemmas.SolverTolerance
import Verif.Lemmas.SolverTurn
import Verif.Lemmas.SolverTurnFields
import Verif.Lemmas.SolverWave
import Verif.Lemmas.Subpixel
import Verif.Lemmas.SubpixelAxes
import Verif.Lemmas.SubpixelPeak
import Verif.Lemmas.WorkArrays
import Verif.Model.Annotate
import Verif.Model.Assign
import Verif.Model.Backend
import Verif.Model.Beam
import Verif.Model.BeamArgs
import Verif.Model.BeamComplex
import Verif.Model.BeamExit
import Verif.Model.BeamHeap
import Verif.Model.Bias
import Verif.Model.Bound
import Verif.Model.BoundClass
import Verif.Model.Channels
import Verif.Model.Config
import Verif.Model.Construct
import Verif.Model.Detfield
import Verif.Model.Device
import Verif.Model.Dim
import Verif.Model.Display
import Verif.Model.Dtype
import Verif.Model.EigenBias
import Verif.Model.EigenProblem
import Verif.Model.Fourier
import Verif.Model.FtArray
import Verif.Model.Grid
import Verif.Model.GridArg
import Verif.Model.GridOps
import Verif.Model.GridSlice
import Verif.Model.Install
import Verif.Model.Kinds
import Verif.Model.MatCache
import Verif.Model.MatConvert
import Verif.Model.MatNumpy
import Verif.Model.MatOp
import Verif.Model.MatProduct
import Verif.Model.MatTransfer
import Verif.Model.MatrixField
import Verif.Model.Problem
import Verif.Model.Roots
import Verif.Model.Round125
import Verif.Model.Scattering
import Verif.Model.Solve
import Verif.Model.Solver
import Verif.Model.SolverEpsilon
import Verif.Model.SolverFunctions
import Verif.Model.SolverRounding
import Verif.Model.StopCriterion
import Verif.Model.Subpixel
import Verif.Model.SubpixelAxes
import Verif.Model.SubpixelModule
import Verif.Model.Torch
import Verif.Model.WorkArrays
import Verif.Num
import Verif.Props.Annotate
import Verif.Props.ArrayExamples
import Verif.Props.Assign
import Verif.Props.Backend
import Verif.Props.Balance
import Verif.Props.BalanceViolates
import Verif.Props.Beam
import Verif.Props.BeamArgs
import Verif.Props.BeamComplex
import Verif.Props.BeamEnergy
import Verif.Props.BeamExamples
import Verif.Props.BeamExit
import Verif.Props.BeamHeap
import Verif.Props.BeamMaterial
import Verif.Props.BeamMoreExamples
import Verif.Props.BeamPair
import Verif.Props.BeamPermittivity
import Verif.Props.BeamSlices
import Verif.Props.BeamWaves
import Verif.Props.Bound
import Verif.Props.BoundClass
import Verif.Props.BoundOrder
import Verif.Props.Channels
import Verif.Props.Complex2rgb
import Verif.Props.Config
import Verif.Props.Construct
import Verif.Props.ConstructExamples
import Verif.Props.Continuous
import Verif.Props.Device
import Verif.Props.Dim
import Verif.Props.Display
import Verif.Props.Dtype
import Verif.Props.EigenBias
import Verif.Props.EigenCoupled
import Verif.Props.EigenProblem
import Verif.Props.EigenTranspose
import Verif.Props.Eigenvalues
import Verif.Props.Existence
import Verif.Props.ExistenceScalar
import Verif.Props.Fourier
import Verif.Props.FtArray
import Verif.Props.FurtherExamples
import Verif.Props.Grid01
import Verif.Props.Grid02
import Verif.Props.Grid06
import Verif.Props.Grid08
import Verif.Props.Grid10
import Verif.Props.GridArg
import Verif.Props.GridArguments
import Verif.Props.GridSlice
import Verif.Props.GridSwap
import Verif.Props.Install
import Verif.Props.Kinds
import Verif.Props.MatCache
import Verif.Props.MatConvert
import Verif.Props.MatExamples
import Verif.Props.MatInv
import Verif.Props.MatNumpy
import Verif.Props.MatOp
import Verif.Props.MatProduct
import Verif.Props.MatTransfer
import Verif.Props.MatrixField
import Verif.Props.Problem
import Verif.Props.ProblemContinuous
import Verif.Props.ProblemContinuousCoupled
import Verif.Props.ProblemCoupled
import Verif.Props.ProblemCoupledRate
import Verif.Props.ProblemEnergy
import Verif.Props.ProblemExamples
import Verif.Props.ProblemFunctions
import Verif.Props.ProblemFunctionsCoupled
import Verif.Props.ProblemFunctionsScalar
import Verif.Props.ProblemIndex
import Verif.Props.ProblemMore
import Verif.Props.ProblemMoreExamples
import Verif.Props.ProblemNegative
import Verif.Props.ProblemRate
import Verif.Props.ProblemReciprocity
import Verif.Props.ProblemReciprocityCoupled
import Verif.Props.ProblemRefinement
import Verif.Props.ProblemRefinementCoupled
import Verif.Props.ProblemRounding
import Verif.Props.ProblemRuns
import Verif.Props.ProblemStability
import Verif.Props.ProblemStop
import Verif.Props.ProblemUniform
import Verif.Props.Refinement
import Verif.Props.RefinementBetween
import Verif.Props.RefinementCoupled
import Verif.Props.RefinementFlux
import Verif.Props.RefinementRate
import Verif.Props.RefinementRateSolve
import Verif.Props.RemainingExamples
import Verif.Props.Roots
import Verif.Props.Round125
import Verif.Props.ScalarExamples
import Verif.Props.Scattering
import Verif.Props.ScatteringAccuracy
import Verif.Props.ScatteringExamples
import Verif.Props.ScatteringGrid
import Verif.Props.ScatteringLinear
import Verif.Props.ScatteringModes
import Verif.Props.ScatteringSource
import Verif.Props.SolverAxes
import Verif.Props.SolverAxesForce
import Verif.Props.SolverAxesViolates
import Verif.Props.SolverBias
import Verif.Props.SolverConj
import Verif.Props.SolverConv
import Verif.Props.SolverCoupled
import Verif.Props.SolverCoupledRate
import Verif.Props.SolverCoupledViolates
import Verif.Props.SolverCover
import Verif.Props.SolverDetfield
import Verif.Props.SolverEnergy
import Verif.Props.SolverEpsilon
import Verif.Props.SolverExamples
import Verif.Props.SolverFields
import Verif.Props.SolverFieldsExamples
import Verif.Props.SolverFunctions
import Verif.Props.SolverFunctionsIndex
import Verif.Props.SolverGain
import Verif.Props.SolverHistory
import Verif.Props.SolverKernel
import Verif.Props.SolverLive
import Verif.Props.SolverMoreExamples
import Verif.Props.SolverMoved
import Verif.Props.SolverMovedExamples
import Verif.Props.SolverNegative
import Verif.Props.SolverOtherExamples
import Verif.Props.SolverPermeability
import Verif.Props.SolverPolarized
import Verif.Props.SolverRate
import Verif.Props.SolverReciprocity
import Verif.Props.SolverReciprocityCoupled
import Verif.Props.SolverResidue
import Verif.Props.SolverRounding
import Verif.Props.SolverScalarMedia
import Verif.Props.SolverScaled
import Verif.Props.SolverStability
import Verif.Props.SolverState
import Verif.Props.SolverStateExamples
import Verif.Props.SolverStop
import Verif.Props.SolverSymmetry
import Verif.Props.SolverTolerance
import Verif.Props.SolverToleranceViolates
import Verif.Props.SolverTotals
import Verif.Props.SolverUnits
import Verif.Props.SolverWave
import Verif.Props.StopCriterion
import Verif.Props.Subpixel
import Verif.Props.SubpixelAxes
import Verif.Props.SubpixelFraction
import Verif.Props.SubpixelLimits
import Verif.Props.SubpixelModule
import Verif.Props.SubpixelRecovers
import Verif.Props.SubpixelRegister
import Verif.Props.SubpixelRegistration
import Verif.Props.Torch
import Verif.Props.UtilityExamples
import Verif.Props.UtilityMoreExamples
import Verif.Props.WorkArrays
import Verif.Spec.Backend
import Verif.Spec.Balance
import Verif.Spec.BeamArgs
import Verif.Spec.Between
import Verif.Spec.Bound
import Verif.Spec.Continuous
import Verif.Spec.Converges
import Verif.Spec.Coupled
import Verif.Spec.Dim
import Verif.Spec.Display
import Verif.Spec.Dtype
import Verif.Spec.EigenBias
import Verif.Spec.Existence
import Verif.Spec.Grid
import Verif.Spec.GridArgs
import Verif.Spec.Kinds
import Verif.Spec.Mat
import Verif.Spec.MatArray
import Verif.Spec.MatWaves
import Verif.Spec.Maxwell
import Verif.Spec.Modes
import Verif.Spec.MutableGrid
import Verif.Spec.Physics
import Verif.Spec.Rate
import Verif.Spec.Reciprocity
import Verif.Spec.Refinement
import Verif.Spec.Roots
import Verif.Spec.Round125
import Verif.Spec.Rounding
import Verif.Spec.Solver
import Verif.Spec.Subpixel
