import Verif.Alg
import Verif.AlgLemmas
import Verif.AlgProps
import Verif.AlgTools
import Verif.Algo.ABC
import Verif.Algo.ASO
import Verif.Algo.BA
import Verif.Algo.BAT
import Verif.Algo.BEA
import Verif.Algo.BFO
import Verif.Algo.CA
import Verif.Algo.CLONALG
import Verif.Algo.CRO
import Verif.Algo.CS
import Verif.Algo.CSO
import Verif.Algo.DE
import Verif.Algo.DynFWA
import Verif.Algo.ES
import Verif.Algo.FA
import Verif.Algo.FOA
import Verif.Algo.FPA
import Verif.Algo.FSS
import Verif.Algo.FWA
import Verif.Algo.GA
import Verif.Algo.GSA
import Verif.Algo.GSO
import Verif.Algo.GWO
import Verif.Algo.HC
import Verif.Algo.HDE
import Verif.Algo.HHO
import Verif.Algo.HS
import Verif.Algo.JDE
import Verif.Algo.KH
import Verif.Algo.LOA
import Verif.Algo.LOAShape
import Verif.Algo.MBO
import Verif.Algo.MFO
import Verif.Algo.MKE
import Verif.Algo.MSHOA
import Verif.Algo.MTS
import Verif.Algo.NM
import Verif.Algo.PSO
import Verif.Algo.PSOVariants
import Verif.Algo.RS
import Verif.Algo.SA
import Verif.Algo.SCA
import Verif.Algo.SHADE
import Verif.Algo.SHADEProps
import Verif.ArgParser
import Verif.Arith
import Verif.Attract
import Verif.BlackBox
import Verif.Blind
import Verif.Callbacks
import Verif.Charts
import Verif.ChartsAlgs
import Verif.ChartsMain
import Verif.ChartsMore
import Verif.Climb
import Verif.Collapse
import Verif.CollapseMore
import Verif.CollapseShade
import Verif.Congr
import Verif.Conv
import Verif.CountProps
import Verif.Counters
import Verif.CustomInit
import Verif.CustomOps
import Verif.CustomSearch
import Verif.Double
import Verif.Duality
import Verif.ESRule
import Verif.Elite
import Verif.Example
import Verif.Factory
import Verif.Fl
import Verif.Float64
import Verif.GreedyProps
import Verif.Init
import Verif.Integers
import Verif.Kinds
import Verif.Limits
import Verif.Longer
import Verif.LongerAlgs
import Verif.Loops
import Verif.Loose
import Verif.Matrix
import Verif.Nearby
import Verif.NoRaise
import Verif.Objects
import Verif.Params
import Verif.ParamsClasses
import Verif.ParamsProps
import Verif.ParamsTable
import Verif.PopTools
import Verif.Post
import Verif.Problems.Bounds
import Verif.Problems.Code
import Verif.Problems.Latex
import Verif.Problems.NumPy
import Verif.Problems.Optima
import Verif.Problems.Schwefel
import Verif.Problems.Squares
import Verif.Problems.Trig
import Verif.Prog
import Verif.Ranges
import Verif.Ranks
import Verif.RanksAlgs
import Verif.RanksMore
import Verif.Rates
import Verif.Recombine
import Verif.Repair
import Verif.RepairProps
import Verif.Runner
import Verif.Runs
import Verif.Safe
import Verif.SafeB
import Verif.SafeC
import Verif.SafeD
import Verif.SafeE
import Verif.SafeF
import Verif.Single
import Verif.Sizes
import Verif.Spec
import Verif.Steps
import Verif.Summary
import Verif.Swarms
import Verif.Task
import Verif.TaskInit
import Verif.TaskLemmas
import Verif.TaskProps
import Verif.Total
import Verif.Trace
import Verif.Truncate
import Verif.Uncoupled
import Verif.Unguided
import Verif.Wp
