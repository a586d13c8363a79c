import Verif.Model.AutoModel
import Verif.Model.Basic
import Verif.Model.CompRes
import Verif.Model.Examples
import Verif.Model.FiniteElement
import Verif.Model.Formulation
import Verif.Model.Looper
import Verif.Model.Model
import Verif.Model.Ocp
import Verif.Model.Opts
import Verif.Model.Oscillator
import Verif.Model.Plot
import Verif.Model.Problem
import Verif.Model.Report
import Verif.Model.Results
import Verif.Model.Rk
import Verif.Model.RkTables
import Verif.Model.Root
import Verif.Model.Smooth
import Verif.Model.Solver
import Verif.Model.StageFuns
import Verif.Model.Utils
import Verif.Model.Validate
import Verif.Model.VectorField
import Verif.Model.World
import Verif.Spec.Accept
import Verif.Spec.Accuracy
import Verif.Spec.ActiveSet
import Verif.Spec.AutoModel
import Verif.Spec.Chain
import Verif.Spec.Clock
import Verif.Spec.CollocTableau
import Verif.Spec.CompRows
import Verif.Spec.Continue
import Verif.Spec.Converge
import Verif.Spec.Crossing
import Verif.Spec.CrossingChain
import Verif.Spec.Dcs
import Verif.Spec.Disc
import Verif.Spec.Doc
import Verif.Spec.Dynamics
import Verif.Spec.Examples
import Verif.Spec.Feasible
import Verif.Spec.Filippov
import Verif.Spec.History
import Verif.Spec.Honest
import Verif.Spec.Index
import Verif.Spec.Indicators
import Verif.Spec.Invariant
import Verif.Spec.Lam00
import Verif.Spec.Looper
import Verif.Spec.Mpcc
import Verif.Spec.Names
import Verif.Spec.Naming
import Verif.Spec.Objective
import Verif.Spec.OneSided
import Verif.Spec.OneSwitch
import Verif.Spec.Oscillator
import Verif.Spec.Pairs
import Verif.Spec.Params
import Verif.Spec.Path
import Verif.Spec.Polish
import Verif.Spec.Regions
import Verif.Spec.Relabel
import Verif.Spec.Relax
import Verif.Spec.Renumber
import Verif.Spec.Results
import Verif.Spec.Rk4Guess
import Verif.Spec.Root
import Verif.Spec.SamePath
import Verif.Spec.SameTraj
import Verif.Spec.SetGuess
import Verif.Spec.Setup
import Verif.Spec.Size
import Verif.Spec.SlidingEntry
import Verif.Spec.Solve
import Verif.Spec.StepEq
import Verif.Spec.StepTraj
import Verif.Spec.Switched
import Verif.Spec.Tableau
import Verif.Spec.Trajectory
import Verif.Spec.User
import Verif.Spec.UserDisc
import Verif.Spec.Validate
import Verif.Spec.Window
import Verif.Spec.World
import Verif.Proofs.Accept
import Verif.Proofs.ActiveSet
import Verif.Proofs.Assemble
import Verif.Proofs.AutoLinear
import Verif.Proofs.AutoNonlin
import Verif.Proofs.Bind
import Verif.Proofs.Build
import Verif.Proofs.Chain
import Verif.Proofs.Closed
import Verif.Proofs.Closed2
import Verif.Proofs.Closed3
import Verif.Proofs.Cmds
import Verif.Proofs.Colloc
import Verif.Proofs.CompBind
import Verif.Proofs.CompRows
import Verif.Proofs.Continue
import Verif.Proofs.Cost
import Verif.Proofs.Cross
import Verif.Proofs.Crossing
import Verif.Proofs.CrossingChain
import Verif.Proofs.CrossingError
import Verif.Proofs.DcsAlg
import Verif.Proofs.Dynamics
import Verif.Proofs.Equiv
import Verif.Proofs.Examples
import Verif.Proofs.ExceptLemmas
import Verif.Proofs.FEInit
import Verif.Proofs.Feas
import Verif.Proofs.History
import Verif.Proofs.Index
import Verif.Proofs.Indicators
import Verif.Proofs.InitGuess
import Verif.Proofs.Lam00
import Verif.Proofs.Layout
import Verif.Proofs.Looper
import Verif.Proofs.Lower
import Verif.Proofs.Master
import Verif.Proofs.ModelFacts
import Verif.Proofs.ModelPre
import Verif.Proofs.Naming
import Verif.Proofs.NearCrossing
import Verif.Proofs.NearCrossingChain
import Verif.Proofs.NearCrossingError
import Verif.Proofs.NearFlow
import Verif.Proofs.Ocp
import Verif.Proofs.OptsEq
import Verif.Proofs.Pairs
import Verif.Proofs.ParamNames
import Verif.Proofs.Polish
import Verif.Proofs.Pre
import Verif.Proofs.Primal
import Verif.Proofs.Process
import Verif.Proofs.PssAlg
import Verif.Proofs.PssTransfer
import Verif.Proofs.Reads
import Verif.Proofs.Recross
import Verif.Proofs.Rehandle
import Verif.Proofs.Relabel
import Verif.Proofs.Renumber
import Verif.Proofs.Repeat
import Verif.Proofs.Results
import Verif.Proofs.Rk4Guess
import Verif.Proofs.RkConv
import Verif.Proofs.RkStable
import Verif.Proofs.Rows
import Verif.Proofs.Sat
import Verif.Proofs.SetGuess
import Verif.Proofs.SetSigma
import Verif.Proofs.SigmaShift
import Verif.Proofs.Sim
import Verif.Proofs.Size
import Verif.Proofs.SlidingChain
import Verif.Proofs.SlidingEntry
import Verif.Proofs.Smooth
import Verif.Proofs.Solve
import Verif.Proofs.SolveRun
import Verif.Proofs.SolverObj
import Verif.Proofs.TableInverse
import Verif.Proofs.Transfer
import Verif.Proofs.TwoPhase
import Verif.Proofs.Validate
import Verif.Proofs.Vars
import Verif.Proofs.Vecs
import Verif.Proofs.WMem
import Verif.Proofs.WellPosed
import Verif.Proofs.Window
import Verif.Proofs.World
import Verif.Proofs.WorldSteps
import Verif.Proofs.Writes
import Verif.Proofs.ZOk
import Verif.Witness.Alg
import Verif.Witness.ClockModel
import Verif.Witness.Const
import Verif.Witness.Corner
import Verif.Witness.Demo
import Verif.Witness.Euler
import Verif.Witness.Exact
import Verif.Witness.Fall
import Verif.Witness.Flex
import Verif.Witness.Free
import Verif.Witness.Jump
import Verif.Witness.Pair
import Verif.Witness.ParamJump
import Verif.Witness.Setups
import Verif.Witness.Sim
import Verif.Witness.Slide
import Verif.Witness.TwoStewart
import Verif.Witness.TwoSys
import Verif.Witness.Wish
import Verif.Witness.World
import Verif.Props.Accept
import Verif.Props.Accuracy
import Verif.Props.ActiveSet
import Verif.Props.AutoField
import Verif.Props.AutoModel
import Verif.Props.AutoNonlin
import Verif.Props.Chain
import Verif.Props.ChainEx
import Verif.Props.ChainSim
import Verif.Props.Clock
import Verif.Props.Colloc
import Verif.Props.Complete
import Verif.Props.Continue
import Verif.Props.Converge
import Verif.Props.Cross
import Verif.Props.CrossViol
import Verif.Props.Crossing
import Verif.Props.CrossingChain
import Verif.Props.CrossingChainEx
import Verif.Props.CrossingEx
import Verif.Props.Dcs
import Verif.Props.DcsViol
import Verif.Props.Descend
import Verif.Props.Discretised
import Verif.Props.Dynamics
import Verif.Props.Equiv
import Verif.Props.ExactSim
import Verif.Props.ExactSimEx
import Verif.Props.Exactness
import Verif.Props.Examples
import Verif.Props.ExamplesEx
import Verif.Props.Grid
import Verif.Props.History
import Verif.Props.Honest
import Verif.Props.HonestEx
import Verif.Props.Indicators
import Verif.Props.Instances
import Verif.Props.Invariant
import Verif.Props.InvariantEx
import Verif.Props.InvariantTable
import Verif.Props.Ipopt
import Verif.Props.Layout
import Verif.Props.Leaving
import Verif.Props.Looper
import Verif.Props.Lyapunov
import Verif.Props.Modes
import Verif.Props.Mpcc
import Verif.Props.NearCrossing
import Verif.Props.NearCrossingChain
import Verif.Props.NearCrossingEx
import Verif.Props.NearOscillator
import Verif.Props.NearOscillatorEx
import Verif.Props.Nested
import Verif.Props.Objective
import Verif.Props.Ocp
import Verif.Props.OcpReuse
import Verif.Props.Opts
import Verif.Props.Oscillator
import Verif.Props.OscillatorEx
import Verif.Props.Outcome
import Verif.Props.OutcomeHonest
import Verif.Props.ParamJump
import Verif.Props.Params
import Verif.Props.Path
import Verif.Props.Plot
import Verif.Props.Polish
import Verif.Props.PolishFail
import Verif.Props.Progress
import Verif.Props.Regions
import Verif.Props.Relabel
import Verif.Props.Renumber
import Verif.Props.Report
import Verif.Props.Reps
import Verif.Props.Results
import Verif.Props.Reuse
import Verif.Props.Rk4
import Verif.Props.Rk4Guess
import Verif.Props.Root
import Verif.Props.RootHonest
import Verif.Props.RunAgain
import Verif.Props.Schedule
import Verif.Props.Selection
import Verif.Props.SetGuess
import Verif.Props.Shared
import Verif.Props.ShipAccuracy
import Verif.Props.ShipAccuracyEx
import Verif.Props.SimConverge
import Verif.Props.SlidingChain
import Verif.Props.SlidingChainEx
import Verif.Props.SlidingEntry
import Verif.Props.SlidingEntryEx
import Verif.Props.Smooth
import Verif.Props.Solve
import Verif.Props.Stable
import Verif.Props.StableEx
import Verif.Props.Stage
import Verif.Props.StageFuns
import Verif.Props.StepEq
import Verif.Props.StepStewart
import Verif.Props.StepStewartViol
import Verif.Props.StepTraj
import Verif.Props.StepTrajEx
import Verif.Props.StepTrajSim
import Verif.Props.Switched
import Verif.Props.Tables
import Verif.Props.TablesRegular
import Verif.Props.Time
import Verif.Props.TrajSim
import Verif.Props.Trajectory
import Verif.Props.Unique
import Verif.Props.UniqueEx
import Verif.Props.Utils
import Verif.Props.Validate
import Verif.Props.VectorField
import Verif.Props.Weights
import Verif.Props.WellPosed
import Verif.Props.Window
import Verif.Props.WindowEx
