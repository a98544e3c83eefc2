import Verif.Model.Api
import Verif.Model.Util
import Verif.Proof.Basic
import Verif.Proof.Fill
import Verif.Proof.Sort
import Verif.Proof.Amount
import Verif.Proof.BuyAmounts
import Verif.Proof.Side
import Verif.Props.Amount
import Verif.Proof.ClosedForm
import Verif.Props.Optimal
import Verif.Props.Volume
import Verif.Spec.Accounts
import Verif.Proof.Load
import Verif.Props.Load
import Verif.Props.Prune
import Verif.Proof.Interval
import Verif.Proof.Objective
import Verif.Props.Interval
import Verif.Props.Xrate
import Verif.Props.Search
import Verif.Props.Price
import Verif.Spec.Solution
import Verif.Proof.Round
import Verif.Props.Round
import Verif.Proof.Validation
import Verif.Props.Validation
import Verif.Proof.Solver
import Verif.Props.Buffer
import Verif.Proof.Match
import Verif.Proof.MatchRound
import Verif.Proof.Economic
import Verif.Props.Solver
import Verif.Props.ExInstance
import Verif.Props.Final
import Verif.Proof.Terminates
import Verif.Props.Termination
import Verif.Props.FeeOrders
import Verif.Props.Utility
import Verif.Props.Accounts
import Verif.Props.Dump
import Verif.Props.Best
import Verif.Props.Util
import Verif.Props.Graph
import Verif.Props.Viability
import Verif.Props.Shuffle
import Verif.Proof.Roots
import Verif.Props.Roots
import Verif.Proof.Local
import Verif.Proof.Core
import Verif.Props.Local
import Verif.Props.Global
import Verif.Proof.Errors
import Verif.Props.Errors
import Verif.Proof.FeeLoop
import Verif.Props.Room
import Verif.Props.Outcome
import Verif.Props.EconomicRun
import Verif.Props.EconomicComplete
import Verif.Props.EconomicExample
import Verif.Model.Json
import Verif.Proof.Json
import Verif.Props.Json
import Verif.Props.Objective
import Verif.Model.Cli
import Verif.Props.Cli
import Verif.Props.Frame
import Verif.Props.ExtraOrder
import Verif.Proof.RoundChain
import Verif.Props.Chain
import Verif.Props.Document
import Verif.Props.Steps
import Verif.Model.Heap
import Verif.Proof.Heap
import Verif.Props.Heap
import Verif.Model.Mem
import Verif.Proof.Sim
import Verif.Proof.MemXrate
import Verif.Proof.MemSolver
import Verif.Proof.MemMain
import Verif.Props.Mem
import Verif.Proof.RoundMove
import Verif.Props.RoundMove
import Verif.Model.Traits
import Verif.Props.Disregarded
import Verif.Props.GivenRate
import Verif.Props.Queue
import Verif.Props.DefaultArg
import Verif.Props.IntegerBook
import Verif.Props.Rename
import Verif.Props.Branch
import Verif.Proof.IdCore
import Verif.Proof.IdMatch
import Verif.Proof.IdMain
import Verif.Proof.IdApi
import Verif.Props.Reorder
import Verif.Model.Tests
import Verif.Props.UnitTests
import Verif.Props.TwoOrders
import Verif.Props.NoCross
import Verif.Props.Recorded
import Verif.Model.Number
import Verif.Props.Number
import Verif.Props.Reread
import Verif.Props.Symmetry
import Verif.Props.Units
import Verif.Props.UnitsRate
import Verif.Model.ArgParse
import Verif.Props.ArgParse
import Verif.Props.ArgReject
import Verif.Props.Incentive
import Verif.Props.JsonText
import Verif.Props.JsonDump
import Verif.Props.JsonRun
import Verif.Props.Program
import Verif.Props.AllRates
import Verif.Props.FeeShare
import Verif.Props.RunChain
import Verif.Model.Double
import Verif.Props.Double
import Verif.Props.FloatFee
import Verif.Model.FloatText
import Verif.Props.FloatText
import Verif.Model.Log
import Verif.Props.Log
import Verif.Props.Closed
import Verif.Proof.Bounded
import Verif.Props.Overflow
import Verif.Props.ErrorList
import Verif.Props.ZeroDiv
import Verif.Props.Moderate
import Verif.Model.Messages
import Verif.Proof.Messages
import Verif.Props.Messages
import Verif.Model.OrderText
import Verif.Props.OrderText
import Verif.Props.MoreTime
import Verif.Props.MetThresholds
