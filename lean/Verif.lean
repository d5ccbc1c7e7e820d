import Verif.Model.Basic
import Verif.Model.Tape
import Verif.Model.Vari
import Verif.Model.Digamma
import Verif.Model.Chain
import Verif.Model.Ops
import Verif.Model.Prob
import Verif.Model.Grad
import Verif.Proof.TapeLemmas
import Verif.Proof.Inv
import Verif.Proof.ChainStep
import Verif.Proof.Create
import Verif.Proof.OpSpec
import Verif.Proof.Nested
import Verif.Model.RealArith
import Verif.Proof.Sweep
import Verif.Spec.Prog
import Verif.Spec.Run
import Verif.Proof.Sim
import Verif.Proof.Derivs
import Verif.Proof.Derivs2
import Verif.Proof.Steps
import Verif.Proof.MatStep
import Verif.Proof.Lpdf
import Verif.Proof.InstrStep
import Verif.Proof.ProgStep
import Verif.Spec.Deriv
import Verif.Proof.GradThm
import Verif.Proof.Applic
import Verif.Proof.Safe
import Verif.Proof.SafeOps
import Verif.Spec.History
import Verif.Proof.History
import Verif.Spec.Drive
import Verif.Spec.Reps
import Verif.Proof.GradTop
import Verif.Proof.Total
import Verif.Proof.Demo
import Verif.Props.Gradient
import Verif.Proof.Linear
import Verif.Proof.Outer
import Verif.Spec.Seeds
import Verif.Proof.Seeds
import Verif.Proof.Region
import Verif.Spec.Region
import Verif.Spec.View
import Verif.Proof.RegionGrad
import Verif.Proof.Ground
import Verif.Proof.Views
import Verif.Props.Sweeps
import Verif.Props.Storage
import Verif.Spec.Nest
import Verif.Proof.Nest
import Verif.Props.Nesting
import Verif.Spec.Queries
import Verif.Props.Queries
import Verif.Spec.Partial
import Verif.Proof.Local
import Verif.Proof.Rules
import Verif.Props.Rules
import Verif.Props.Repeat
import Verif.Props.Vector
import Verif.Spec.Density
import Verif.Props.Density
import Verif.Props.Compare
import Verif.Props.Functions
import Verif.Props.Digamma
import Verif.Proof.Each
import Verif.Props.Arrays
import Verif.Props.Neutral
import Verif.Model.Cvodes
import Verif.Spec.Ode
import Verif.Proof.Ode
import Verif.Proof.OdeRun
import Verif.Proof.OdeTotal
import Verif.Proof.OdeJac
import Verif.Proof.OdeSol
import Verif.Proof.OdeSolTotal
import Verif.Proof.OdeStale
import Verif.Props.Ode
import Verif.Props.OdeSol
import Verif.Props.OdeTimes
import Verif.Spec.Solution
import Verif.Proof.OdeReplay
import Verif.Proof.OdeReach
import Verif.Props.OdeReach
import Verif.Spec.OdeBook
import Verif.Proof.OdeBook
import Verif.Proof.OdeBookRun
import Verif.Proof.OdeLive
import Verif.Spec.Onward
import Verif.Spec.PlanOnce
import Verif.Props.OdeBook
import Verif.Spec.Plan
import Verif.Spec.Orderly
import Verif.Proof.PlanRun
import Verif.Props.Plan
import Verif.Props.OdeArgs
import Verif.Props.OdeData
import Verif.Props.Service
import Verif.Spec.Code
import Verif.Proof.Twin
import Verif.Proof.TwinOps
import Verif.Proof.TwinMat
import Verif.Proof.TwinGrad
import Verif.Proof.Replay
import Verif.Proof.TwinRows
import Verif.Proof.ProgCode
import Verif.Props.Reproduce
import Verif.Props.Consistent
import Verif.Props.Values
import Verif.Props.TapeArrays
import Verif.Proof.UserStep
import Verif.Spec.UserRule
import Verif.Model.User
import Verif.Props.User
import Verif.Spec.Plain
import Verif.Spec.Proper
import Verif.Proof.Plain
import Verif.Proof.Live
import Verif.Proof.LiveRun
import Verif.Props.Plain
import Verif.Props.Proper
import Verif.Spec.Textbook
import Verif.Proof.Textbook
import Verif.Props.Textbook
import Verif.Spec.Sums
import Verif.Proof.Sums
import Verif.Spec.Over
import Verif.Proof.BookOne
import Verif.Proof.Over
import Verif.Props.Overflow
import Verif.Props.OverflowWide
import Verif.Spec.Round
import Verif.Proof.Round
import Verif.Proof.RoundRun
import Verif.Props.Rounding
import Verif.Props.RoundingLpdf
import Verif.Model.Rest
import Verif.Spec.Cells
import Verif.Proof.Cells
import Verif.Proof.Entries
import Verif.Props.Cells
import Verif.Model.Check
import Verif.Props.Check
import Verif.Spec.Unused
import Verif.Proof.Unused
import Verif.Props.Unused
import Verif.Proof.OdeOne
import Verif.Props.Examples
import Verif.Model.Lenient
import Verif.Spec.Lenient
import Verif.Proof.Lenient
import Verif.Proof.Mirror
import Verif.Proof.MirrorSweep
import Verif.Proof.MirrorRun
import Verif.Props.Lenient
import Verif.Props.LenientOde
import Verif.Props.LenientRules
import Verif.Props.LenientMatmul
import Verif.Props.LenientExamples
import Verif.Props.Deep
import Verif.Spec.Flow
import Verif.Proof.Flow
import Verif.Proof.FlowGrad
import Verif.Proof.FlowRun
import Verif.Props.Flow
import Verif.Props.Footprint
import Verif.Proof.PolyList
import Verif.Proof.Psi
import Verif.Proof.DigammaFar
import Verif.Proof.DigammaNear
import Verif.Props.DigammaAccuracy
import Verif.Spec.DeepLenient
import Verif.Proof.DeepLenient
import Verif.Props.DeepLenient
import Verif.Proof.FlowDeriv
import Verif.Proof.FlowExist
import Verif.Spec.Variation
import Verif.Proof.Variation
import Verif.Props.Variation
import Verif.Spec.Smooth
import Verif.Proof.Smooth
import Verif.Props.Smooth
import Verif.Conform.UnitTests
import Verif.Conform.Large
import Verif.Conform.Ode
import Verif.Props.Algo
import Verif.Props.AlgoLenient
import Verif.Spec.Calculus
import Verif.Props.Calculus
import Verif.Proof.Assign
import Verif.Props.Assign
import Verif.Spec.Nan
import Verif.Proof.Nan
import Verif.Props.Nan
import Verif.Spec.Chosen
import Verif.Proof.Chosen
import Verif.Props.Chosen
import Verif.Spec.Literal
import Verif.Proof.Literal
import Verif.Props.Literal
import Verif.Spec.Imperative
import Verif.Spec.Rhs
import Verif.Proof.Imperative
import Verif.Proof.Rhs
import Verif.Proof.RhsZero
import Verif.Props.Imperative
import Verif.Props.Rhs
import Verif.Props.Cases
import Verif.Props.OdeLater
import Verif.Props.OdeBookLater
import Verif.Props.PlanLater
import Verif.Props.CasesMore
