import Verif.Model.Outcome
import Verif.Model.SparseVector
import Verif.Lemmas.SparseVector
import Verif.Props.SparseVector
import Verif.Model.SparseMatrix
import Verif.Lemmas.SparseMatrix
import Verif.Props.SparseMatrix
import Verif.Model.Dbl
import Verif.Model.MipTree
import Verif.Lemmas.MipTree
import Verif.Props.MipTree
import Verif.Model.RDbl
import Verif.Model.CutRegistry
import Verif.Props.CutRegistry
import Verif.Props.Efficacy
import Verif.Model.Problem
import Verif.Model.MipData
import Verif.Props.Problem
import Verif.Props.MipData
import Verif.Model.HybridSelector
import Verif.Props.HybridSelector
import Verif.Model.DefaultRunner
import Verif.Props.DefaultRunner
import Verif.Model.Generator
import Verif.Lemmas.Rounding
import Verif.Lemmas.Generator
import Verif.Props.Generator
import Verif.Props.GeneratorWitness
import Verif.Props.GeneratorProblem
import Verif.Model.Branching
import Verif.Props.Branching
import Verif.Props.MipTreeColumns
import Verif.Props.MipTreeQueries
import Verif.Model.Solver
import Verif.Lemmas.Solver
import Verif.Props.Solver
import Verif.Props.SolverSearch
import Verif.Props.SolverEnds
import Verif.Props.SolverWitness
import Verif.Model.GlopLpi
import Verif.Lemmas.GlopLpi
import Verif.Props.GlopStore
import Verif.Props.GlopSolve
import Verif.Model.LpParameters
import Verif.Props.LpParameters
import Verif.Model.SoplexLpi
import Verif.Model.SoplexThrows
import Verif.Props.SoplexStore
import Verif.Props.SoplexSolve
import Verif.Props.SoplexThrows
import Verif.Props.SoplexBasis
import Verif.Model.Populate
import Verif.Props.Populate
import Verif.Model.BasisInverse
import Verif.Props.BasisInverse
import Verif.Model.GlopSession
import Verif.Props.GlopSession
import Verif.Model.GlopScaled
import Verif.Props.GlopScaled
import Verif.Model.LpSolution
import Verif.Props.LpSolution
import Verif.Model.Reader
import Verif.Model.Setup
import Verif.Props.Reader
import Verif.Props.Setup
import Verif.Props.Factories
import Verif.Model.Program
import Verif.Lemmas.SolverGuard
import Verif.Lemmas.SolverOpen
import Verif.Lemmas.LinearProgram
import Verif.Lemmas.Program
import Verif.Lemmas.Fundamental
import Verif.Lemmas.Recession
import Verif.Lemmas.ProgramPerfect
import Verif.Props.Program
import Verif.Props.ProgramSoplex
import Verif.Props.ProgramTotal
import Verif.Props.GeneratorNonneg
import Verif.Props.GeneratorRange
import Verif.Lemmas.SolverNode
import Verif.Lemmas.ProgramCuts
import Verif.Props.ProgramCuts
import Verif.Lemmas.BasicSolution
import Verif.Lemmas.ProgramRound
import Verif.Props.ProgramRound
import Verif.Props.ProgramFractional
import Verif.Props.SetupWitness
import Verif.Props.ProgramWitness
import Verif.Props.ProgramCutoff
import Verif.Props.ProgramSecondRound
import Verif.Props.SolverAgain
import Verif.Props.ProgramAgain
import Verif.Lemmas.GeneratorExact
import Verif.Lemmas.GeneratorEmpty
import Verif.Lemmas.BasisMatrix
import Verif.Props.ProgramRoundIntegral
import Verif.Props.ProgramRunner
import Verif.Props.ProgramRoundSoplex
import Verif.Model.Ieee
import Verif.Model.IeeeBranching
import Verif.Model.ArithVector
import Verif.Lemmas.Ieee
import Verif.Lemmas.ArithVector
import Verif.Props.IeeeBranching
import Verif.Props.ArithVector
import Verif.Props.SolverApprox
import Verif.Props.ProgramApprox
import Verif.Props.ProgramApproxCuts
import Verif.Props.ProgramApproxEnds
import Verif.Model.IeeeGenerator
import Verif.Lemmas.IeeeGenerator
import Verif.Props.IeeeGenerator
import Verif.Model.IeeeSelector
import Verif.Lemmas.IeeeSelector
import Verif.Props.IeeeSelector
import Verif.Model.IeeeProgram
import Verif.Props.IeeeProgram
import Verif.Props.IeeeProgramFeasible
import Verif.Lemmas.IeeeAggregate
import Verif.Props.IeeeCuts
import Verif.Props.IeeeStrongCG
import Verif.Props.IeeeTolerance
import Verif.Props.IeeeCutOff
import Verif.Props.ProgramModel
import Verif.Lemmas.SolverFilter
import Verif.Props.ProgramRoot
import Verif.Props.ProgramRegistry
import Verif.Props.ProgramLimits
import Verif.Props.ProgramSense
import Verif.Props.ProgramUnread
import Verif.Props.ProgramUnbounded
import Verif.Props.ProgramUnboundedApprox
import Verif.Props.ProgramUnboundedCuts
import Verif.Props.ProgramCutoffEmpty
import Verif.Props.SolverTree
import Verif.Props.ProgramEquivalent
import Verif.Props.ProgramMonotone
import Verif.Props.ProgramMonotoneTolerance
import Verif.Props.ProgramKeep
import Verif.Props.ProgramSplit
import Verif.Props.ProgramObjective
import Verif.Props.ProgramRows
import Verif.Props.ProgramPlugins
import Verif.Model.IeeeProgramSelector
import Verif.Props.IeeeProgramSelector
import Verif.Props.IeeeProgramEmpty
import Verif.Props.IeeeInfinite
import Verif.Props.IeeeProblem
import Verif.Props.ProgramDirection
import Verif.Props.ProgramTolerance
import Verif.Props.ProgramRounding
import Verif.Props.SolverRange
import Verif.Props.ProgramRange
import Verif.Props.ProgramExponential
import Verif.Check.SparseVectorTest
import Verif.Check.SparseMatrixTest
import Verif.Check.MipTreeTest
import Verif.Check.MipDataTest
import Verif.Check.CutsDataTest
import Verif.Check.HybridSelectorTest
import Verif.Check.LpiTest
import Verif.Check.BranchingTest
import Verif.Props.SolverResult
import Verif.Props.SolverMemory
import Verif.Props.ProgramMemory
import Verif.Props.ProgramBounding
import Verif.Props.ProgramSolves
import Verif.Props.ProgramSafe
import Verif.Model.DebugBuild
import Verif.Props.DebugBuild
import Verif.Props.DebugCreate
import Verif.Props.DebugRun
import Verif.Props.DebugRound
import Verif.Props.DebugWitness
import Verif.Props.DebugGenerate
import Verif.Props.DebugSoplex
import Verif.Model.DebugGlop
import Verif.Props.DebugGlop
import Verif.Model.DebugMatrix
import Verif.Props.DebugMatrix
import Verif.Model.DebugPopulate
import Verif.Props.DebugPopulate
import Verif.Props.SolverSibling
import Verif.Model.DebugIeeeCut
import Verif.Props.DebugIeeeCut
import Verif.Model.DebugVector
import Verif.Props.DebugVector
import Verif.Model.DebugStore
import Verif.Props.DebugStore
import Verif.Model.DebugSoplexStore
import Verif.Props.DebugSoplexStore
import Verif.Props.ProgramModelWitness
import Verif.Model.DebugRegistry
import Verif.Props.DebugRegistry
import Verif.Model.DebugSoplexBranch
import Verif.Props.DebugSoplexBranch
import Verif.Model.DebugSoplexSolve
import Verif.Props.DebugSoplexSolve
import Verif.Model.DebugInverse
import Verif.Props.DebugInverse
import Verif.Model.DebugSolution
import Verif.Props.DebugSolution
