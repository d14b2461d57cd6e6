import Verif.Model.StepFloat
import Verif.Model.SkipJacobian
import Verif.Model.Steps
import Verif.Lemmas.Fold
import Verif.Props.StepFloat
import Verif.Props.SkipJacobian
import Verif.Props.Steps
import Verif.Model.Rational
import Verif.Props.Rational
import Verif.Model.Brent
import Verif.Props.Brent
import Verif.Model.Golden
import Verif.Props.Golden
import Verif.Model.Utils
import Verif.Props.Utils
import Verif.Model.IndexUtils
import Verif.Props.IndexUtils
import Verif.Model.Triangular
import Verif.Model.Echelon
import Verif.Lemmas.Triangular
import Verif.Lemmas.Echelon
import Verif.Lemmas.EchelonPriority
import Verif.Props.Echelon
import Verif.Model.EchelonExt
import Verif.Lemmas.EchelonExt
import Verif.Lemmas.LUExists
import Verif.Props.EchelonExt
import Verif.Model.EchelonW
import Verif.Props.EchelonW
import Verif.Model.Master
import Verif.Props.MasterMatrix
import Verif.Props.Canonicalizer
import Verif.Model.LU
import Verif.Props.LU
import Verif.Model.LinearSolvers
import Verif.Props.LinearSolvers
import Verif.Model.LinearSolver
import Verif.Props.LinearSolver
import Verif.Model.Residual
import Verif.Props.Residual
import Verif.Model.Status
import Verif.Model.MasterSolver
import Verif.Props.Backtrack
import Verif.Props.SolverLoop
import Verif.Props.MasterSolver
import Verif.Model.LineSearch
import Verif.Props.LineSearch
import Verif.Props.Status
import Verif.Model.NewtonStep
import Verif.Props.NewtonStep
import Verif.Props.QuadraticSolve
import Verif.Model.UserFunctions
import Verif.Model.Solver
import Verif.Props.UserFunctions
import Verif.Props.Solver
import Verif.Props.SlackForm
import Verif.Props.SolverState
import Verif.Props.SolverQuadratic
import Verif.Props.SolverWitness
import Verif.Model.Sensitivity
import Verif.Props.Sensitivity
import Verif.Props.SensitivityDerivative
import Verif.Props.SolverSensitivity
import Verif.Props.FixedPoint
import Verif.Props.SolverFixed
import Verif.Props.SensitivityWitness
import Verif.Model.Problem
import Verif.Props.Problem
import Verif.Model.Options
import Verif.Model.Outputter
import Verif.Props.Outputter
import Verif.Model.Checks
import Verif.Props.Checks
import Verif.Model.Objects
import Verif.Props.Objects
import Verif.Props.Infeasible
import Verif.Props.Convex
import Verif.Model.NotANumber
import Verif.Props.NotANumber
import Verif.Model.Infinity
import Verif.Props.Infinity
import Verif.Props.LocalConvergence
import Verif.Props.Divergence
import Verif.Props.GlobalConvergence
import Verif.Model.Float
import Verif.Lemmas.Float
import Verif.Props.Rounding
import Verif.Props.RoundOff
import Verif.Props.RoundedSteps
import Verif.Props.QuadraticProgram
import Verif.Model.MasterVector
import Verif.Props.MasterVector
import Verif.Model.FloatEchelon
import Verif.Props.FloatEchelon
import Verif.Props.Methods
import Verif.Props.History
import Verif.Props.GivenIndices
import Verif.Props.Equivalent
import Verif.Props.EquivalentBounds
import Verif.Props.EquivalentBounded
import Verif.Props.LineSearchState
import Verif.Model.FloatResidual
import Verif.Props.FloatResidual
import Verif.Props.Assertions
import Verif.Props.LinearConstraints
import Verif.Props.Options
import Verif.Props.Units
import Verif.Props.UnitsBounds
import Verif.Props.TransformSafeguard
import Verif.Props.Stopping
import Verif.Props.Resume
import Verif.Props.BrentFloat
import Verif.Props.GoldenFloat
import Verif.Props.RationalFloat
import Verif.Props.LUFloat
import Verif.Model.NullFloat
import Verif.Props.NullFloat
import Verif.Model.EchelonFloat
import Verif.Props.EchelonFloat
import Verif.Model.ExtendFloat
import Verif.Props.ExtendFloat
import Verif.Props.Multipliers
