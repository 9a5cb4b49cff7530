import Verif.Model.Algorithm
import Verif.Props.Dataset
import Verif.Props.Components
import Verif.Props.Runs
import Verif.Props.RunsApi
import Verif.Props.Algorithms
import Verif.Props.Breakdown
import Verif.Props.Ranking
import Verif.Props.Distances
import Verif.Props.Results
import Verif.Props.Sharing
import Verif.Props.History
import Verif.Props.Unbounded
import Verif.Props.UsumsDouble
import Verif.Props.Http
import Verif.Props.Exchange
import Verif.Props.CrhPrecision
import Verif.Props.Convergence
import Verif.Props.Rename
import Verif.Props.Matrix
import Verif.Props.Supervised
import Verif.Props.Synthetic
import Verif.Props.Client
import Verif.Props.Accuracy
import Verif.Props.Timing
import Verif.Props.Graph
import Verif.Props.Backends
import Verif.Props.Sound
import Verif.Props.MatrixGraph
import Verif.Props.Web
import Verif.Props.Rounded
import Verif.Props.Order
import Verif.Props.Dominance
import Verif.Props.Cli
import Verif.Props.Symmetry
import Verif.Props.Stopping
import Verif.Props.Part
import Verif.Props.ConvergenceAvlog
import Verif.Props.Files
import Verif.Props.Frontend
import Verif.Props.Form
import Verif.Props.Range
import Verif.Props.Escape
import Verif.Props.EscapeRun
import Verif.Props.Double
import Verif.Lemmas.Binary64
import Verif.Lemmas.Ieee
import Verif.Props.SyntheticDouble
import Verif.Props.TruthFinderDouble
import Verif.Props.Coherence
import Verif.Props.Canvas
import Verif.Props.Page
import Verif.Props.PageTables
import Verif.Props.Finite
import Verif.Props.Experiment
import Verif.Props.DistanceDouble
import Verif.Props.CrhDouble
import Verif.Props.Main
import Verif.Props.Support
import Verif.Props.SupportInvest
import Verif.Props.Settle
import Verif.Props.CrhSettle
import Verif.Props.InvestSettle
import Verif.Props.Oscillate
import Verif.Props.AccuracyRuns
import Verif.Props.Trials
import Verif.Props.Replicate
import Verif.Props.Limit
import Verif.Props.InvestDouble
import Verif.Props.InvestPrecision
import Verif.Props.PooledDouble
import Verif.Props.Endless
import Verif.Props.Ties
import Verif.Props.Precision
import Verif.Props.SameIterations
import Verif.Props.Rate
import Verif.Props.JsonText
import Verif.Props.Home
import Verif.Props.Iterators
import Verif.Props.Parts
import Verif.Props.AnswerText
import Verif.Props.JsonGrammar
import Verif.Props.TruthFinderPrecision
import Verif.Props.TruthFinderFollows
import Verif.Props.Contracts
import Verif.Props.TruthFinderSame
import Verif.Props.CrhSettleDouble
import Verif.Props.Equilibrium
import Verif.Props.Settings
import Verif.Props.Locality
import Verif.Props.CosineStopping
import Verif.Props.AnswerSorted
import Verif.Props.MainEnds
