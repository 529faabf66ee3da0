import Verif.Props.Piecewise
import Verif.Props.CacheCrash
import Verif.Props.TimeScale
import Verif.Props.Adaptive
import Verif.Props.Costs
import Verif.Props.PhLayout
import Verif.Props.Points
import Verif.Props.Bary
import Verif.Props.Freedom
import Verif.Props.Gauss
import Verif.Props.PsCost
import Verif.Props.BuTd
import Verif.Props.NodePs
import Verif.Props.Integrate
import Verif.Props.Expand
import Verif.Props.Interp
import Verif.Props.InterpU
import Verif.Props.InterpCall
import Verif.Props.InterpMiddle
import Verif.Props.NumTools
import Verif.Props.Plots
import Verif.Props.GenFun
import Verif.Model.Problem
import Verif.Props.Problem
import Verif.Model.Guess
import Verif.Props.Guess
import Verif.Model.Equi
import Verif.Props.Equi
import Verif.Model.Lag
import Verif.Props.Lag
import Verif.Model.Coriolis
import Verif.Props.Coriolis
import Verif.Model.Names
import Verif.Props.Names
import Verif.Props.Args
import Verif.Model.LagrRhs
import Verif.Props.LagrRhs
import Verif.Model.Robots
import Verif.Props.Robots
import Verif.Model.PhScheme
import Verif.Props.PhScheme
import Verif.Props.PhNode
import Verif.Model.PsInterp
import Verif.Props.PsInterp
import Verif.Props.PsLin
import Verif.Props.PsFuns
import Verif.Model.BuTdInterp
import Verif.Props.BuTdInterp
import Verif.Props.BuTdErr
import Verif.Model.DynErr
import Verif.Lemmas.DynErr
import Verif.Props.DynErr
import Verif.Model.Interpolation
import Verif.Lemmas.Interpolation
import Verif.Props.Interpolation
import Verif.Props.EquiInterp
import Verif.Props.InterpErrors
import Verif.Lemmas.PhInterp
import Verif.Props.PhInterp
import Verif.Props.PhErrors
import Verif.Model.Analysis
import Verif.Props.Analysis
import Verif.Model.CasFuncs
import Verif.Props.CasFuncs
import Verif.Model.NumFuncs
import Verif.Props.NumFuncs
import Verif.Props.PrintFuncs
import Verif.Model.DoubPend
import Verif.Props.DoubPend
import Verif.Props.MeshErr
import Verif.Model.EndToEnd
import Verif.Props.EndToEnd
import Verif.Model.ArrayProgs
import Verif.Props.ArrayProgs
import Verif.Model.ArrayRestr
import Verif.Props.ArrayRestr
import Verif.Model.PinvDyn
import Verif.Props.PinvDyn
import Verif.Model.Labels
import Verif.Props.Labels
import Verif.Model.ArrayDyn
import Verif.Props.ArrayDyn
import Verif.Model.TryArray
import Verif.Props.TryArray
import Verif.Model.HermiteSpline
import Verif.Props.HermiteSpline
import Verif.Props.HermitePs
import Verif.Lemmas.Conv
import Verif.Props.Conv
import Verif.Props.ConvSecond
import Verif.Props.ConvInt
import Verif.Lemmas.ConvStep
import Verif.Props.ConvOpt
import Verif.Props.ConvInterp
import Verif.Props.Solvable
import Verif.Props.ExprConv
import Verif.Model.BaryCas
import Verif.Props.BaryCas
import Verif.Model.RobotDicts
import Verif.Props.RobotDicts
import Verif.Model.Attrs
import Verif.Props.Attrs
import Verif.Props.Digits
import Verif.Props.InterpDyn
import Verif.Props.InterpScipy
import Verif.Props.CachePickle
import Verif.Lemmas.Jacobi
import Verif.Props.Degrees
import Verif.Props.CostExact
import Verif.Props.EndExact
import Verif.Lemmas.Colloc
import Verif.Props.PhConv
import Verif.Props.PhSolvable
import Verif.Props.PhNodeConv
import Verif.Props.PhNodeSolve
import Verif.Props.PhExprConv
import Verif.Props.Conditions
import Verif.Model.ArrayInterp
import Verif.Props.ArrayInterp
import Verif.Model.SharedLists
import Verif.Props.SharedLists
import Verif.Model.GaussRep
import Verif.Props.GaussRep
import Verif.Props.PhNodeNone
import Verif.Model.RefineSys
import Verif.Props.RefineSys
import Verif.Props.ChebPos
import Verif.Props.WeightPos
import Verif.Props.CostPos
import Verif.Props.CostConv
import Verif.Model.Floats
import Verif.Props.Floats
import Verif.Props.Blend
import Verif.Props.OneOptimum
import Verif.Props.BestPoint
import Verif.Props.OneMotion
import Verif.Props.LinearExprs
import Verif.Props.TimeUnit
import Verif.Props.Coordinates
import Verif.Props.Reversal
import Verif.Props.Momentum
import Verif.Props.Energy
import Verif.Props.Frames
import Verif.Props.Work
import Verif.Props.Handles
import Verif.Props.Together
import Verif.Props.Parts
import Verif.Props.Rest
