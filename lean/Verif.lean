import Verif.Lemmas.Area
import Verif.Lemmas.BasisFuncCC
import Verif.Lemmas.BasisPy
import Verif.Lemmas.Bvp
import Verif.Lemmas.Calculus
import Verif.Lemmas.CeSolver
import Verif.Lemmas.ChebGrid
import Verif.Lemmas.Columns
import Verif.Lemmas.Dict
import Verif.Lemmas.ElmCC
import Verif.Lemmas.ElmDeriv
import Verif.Lemmas.Energy
import Verif.Lemmas.Expr
import Verif.Lemmas.Files
import Verif.Lemmas.Flow
import Verif.Lemmas.FourierGrid
import Verif.Lemmas.GaussNewton
import Verif.Lemmas.Graph
import Verif.Lemmas.Gravity
import Verif.Lemmas.Grid
import Verif.Lemmas.Hermite
import Verif.Lemmas.LeastSquares
import Verif.Lemmas.Life
import Verif.Lemmas.LinAlg
import Verif.Lemmas.LsArgs
import Verif.Lemmas.LsUnknowns
import Verif.Lemmas.ManyOps
import Verif.Lemmas.MaxPrinciple
import Verif.Lemmas.Mtfc
import Verif.Lemmas.Multi
import Verif.Lemmas.MultiAffine
import Verif.Lemmas.NBasisCC
import Verif.Lemmas.NBasisPy
import Verif.Lemmas.NElmCC
import Verif.Lemmas.NearMinimum
import Verif.Lemmas.Nlls
import Verif.Lemmas.PdeProgram
import Verif.Lemmas.Pe
import Verif.Lemmas.PeriodicOrbit
import Verif.Lemmas.Perturb
import Verif.Lemmas.Pinv
import Verif.Lemmas.Planar
import Verif.Lemmas.Poly
import Verif.Lemmas.PolyCC
import Verif.Lemmas.PolyDegree
import Verif.Lemmas.PolyFamilies
import Verif.Lemmas.PolyPy
import Verif.Lemmas.PolySpan
import Verif.Lemmas.Programs
import Verif.Lemmas.ScaledQr
import Verif.Lemmas.TensorFrame
import Verif.Lemmas.TensorSpan
import Verif.Lemmas.TrigSpan
import Verif.Lemmas.Two
import Verif.Lemmas.TwoOps
import Verif.Lemmas.UniCC
import Verif.Lemmas.UtfcJax
import Verif.Libm
import Verif.Mem
import Verif.Model.BasisFuncCC
import Verif.Model.BasisPy
import Verif.Model.Batch
import Verif.Model.Bind
import Verif.Model.Bvp
import Verif.Model.CeSolver
import Verif.Model.CeSolverExamples
import Verif.Model.Checkpoint
import Verif.Model.Color
import Verif.Model.Colormap
import Verif.Model.Complex
import Verif.Model.Crop
import Verif.Model.DeepTfc
import Verif.Model.Dict
import Verif.Model.DiffCor
import Verif.Model.Egrad
import Verif.Model.ElmCC
import Verif.Model.ElmSet
import Verif.Model.Files
import Verif.Model.FreeSplit
import Verif.Model.Graph
import Verif.Model.Integrators
import Verif.Model.Landing
import Verif.Model.Latex
import Verif.Model.LeastSquares
import Verif.Model.Libration
import Verif.Model.Life
import Verif.Model.Lowering
import Verif.Model.MakePlot
import Verif.Model.Mtfc
import Verif.Model.NBasisCC
import Verif.Model.NBasisPy
import Verif.Model.NElmCC
import Verif.Model.NegOrder
import Verif.Model.Ode
import Verif.Model.OdeExample
import Verif.Model.OdeSystem
import Verif.Model.Optimise
import Verif.Model.Orbits
import Verif.Model.OuterLoop
import Verif.Model.Pde
import Verif.Model.PdeExample
import Verif.Model.PdeMany
import Verif.Model.PdeProgram
import Verif.Model.Pdes
import Verif.Model.Pe
import Verif.Model.Plotly
import Verif.Model.PlotlyTrace
import Verif.Model.PolyCC
import Verif.Model.PolyPy
import Verif.Model.Print
import Verif.Model.PrintType
import Verif.Model.Printer
import Verif.Model.Programs
import Verif.Model.Propagate
import Verif.Model.Quaternion
import Verif.Model.RefPop
import Verif.Model.Reference
import Verif.Model.Registry
import Verif.Model.Richardson
import Verif.Model.Rounded
import Verif.Model.ScaledQr
import Verif.Model.Screen
import Verif.Model.Segments
import Verif.Model.Sets
import Verif.Model.Spectral
import Verif.Model.SpectralPde
import Verif.Model.StartSet
import Verif.Model.Step
import Verif.Model.StepExpr
import Verif.Model.UniCC
import Verif.Model.Utfc
import Verif.Model.UtfcInit
import Verif.Model.UtfcJax
import Verif.Np
import Verif.Props.AffineSys
import Verif.Props.Backends
import Verif.Props.BackendsN
import Verif.Props.Batch
import Verif.Props.Bind
import Verif.Props.Bvp
import Verif.Props.Calls
import Verif.Props.Cases
import Verif.Props.CeSolver
import Verif.Props.CeSolverMany
import Verif.Props.Checkpoint
import Verif.Props.ClassArgs
import Verif.Props.Color
import Verif.Props.Colormap
import Verif.Props.Complex
import Verif.Props.Crop
import Verif.Props.DeepTfc
import Verif.Props.Dict
import Verif.Props.DiffCor
import Verif.Props.DiffCorCase
import Verif.Props.DiffCorRun
import Verif.Props.Domain
import Verif.Props.DomainMore
import Verif.Props.ElmSet
import Verif.Props.Expr
import Verif.Props.Files
import Verif.Props.FreeSplit
import Verif.Props.FreeSplitRun
import Verif.Props.GaussNewton
import Verif.Props.Graph
import Verif.Props.GridFit
import Verif.Props.GridRounded
import Verif.Props.Integrators
import Verif.Props.Landing
import Verif.Props.LandingInner
import Verif.Props.LandingRun
import Verif.Props.LandingSingle
import Verif.Props.LandingUnits
import Verif.Props.Latex
import Verif.Props.Libration
import Verif.Props.Life
import Verif.Props.LocalNewton
import Verif.Props.Lowering
import Verif.Props.Ls
import Verif.Props.LsMore
import Verif.Props.LunarStart
import Verif.Props.MSpan
import Verif.Props.MakePlot
import Verif.Props.Mtfc
import Verif.Props.MtfcGrid
import Verif.Props.Multi
import Verif.Props.MultiPy
import Verif.Props.NElm
import Verif.Props.NElmPy
import Verif.Props.Named
import Verif.Props.Names
import Verif.Props.NegOrder
import Verif.Props.NewtonRun
import Verif.Props.Nlls
import Verif.Props.NllsConv
import Verif.Props.NllsMinimum
import Verif.Props.NumberStays
import Verif.Props.OdeError
import Verif.Props.OdeExample
import Verif.Props.OdeGronwall
import Verif.Props.OdeProgram
import Verif.Props.OdePrograms
import Verif.Props.OdeShoot
import Verif.Props.OdeSolve
import Verif.Props.OdeSystem
import Verif.Props.OdeSystemFrom
import Verif.Props.OdeSystemPrograms
import Verif.Props.Optimise
import Verif.Props.Orbits
import Verif.Props.OrbitsExample
import Verif.Props.OrbitsRun
import Verif.Props.OrbitsSpace
import Verif.Props.OuterSplit
import Verif.Props.OuterTime
import Verif.Props.Patch
import Verif.Props.Pde
import Verif.Props.PdeError
import Verif.Props.PdeErrors
import Verif.Props.PdeExample
import Verif.Props.PdeMany
import Verif.Props.PdeManySolve
import Verif.Props.PdeProgram
import Verif.Props.PdePrograms
import Verif.Props.PdeReach
import Verif.Props.PdeSolve
import Verif.Props.PdeThree
import Verif.Props.PdeThreePrograms
import Verif.Props.Pdes
import Verif.Props.Plotly
import Verif.Props.PlotlyTrace
import Verif.Props.Polar
import Verif.Props.Print
import Verif.Props.PrintType
import Verif.Props.Printer
import Verif.Props.Programs
import Verif.Props.Propagate
import Verif.Props.QuadNewton
import Verif.Props.Quaternion
import Verif.Props.RefPop
import Verif.Props.Reference
import Verif.Props.ReferencePde
import Verif.Props.Registry
import Verif.Props.Residual
import Verif.Props.ResidualCases
import Verif.Props.ResidualOde
import Verif.Props.ResidualPolar
import Verif.Props.ResidualSegments
import Verif.Props.ResidualWave
import Verif.Props.ResidualWave2
import Verif.Props.Richardson
import Verif.Props.RichardsonCoef
import Verif.Props.RichardsonOrder
import Verif.Props.RichardsonRun
import Verif.Props.RoundedCE
import Verif.Props.RoundedCheb
import Verif.Props.RoundedChebD
import Verif.Props.RoundedElm
import Verif.Props.RoundedElmPoly
import Verif.Props.RoundedFS
import Verif.Props.RoundedFit
import Verif.Props.RoundedLeg
import Verif.Props.RoundedN
import Verif.Props.RoundedNElm
import Verif.Props.RoundedPoly
import Verif.Props.Rounding
import Verif.Props.Rows
import Verif.Props.ScaledQr
import Verif.Props.Screen
import Verif.Props.Segments
import Verif.Props.Sets
import Verif.Props.Span
import Verif.Props.SpectralCurve
import Verif.Props.SpectralInner
import Verif.Props.SpectralLanding
import Verif.Props.SpectralPde
import Verif.Props.SpectralPdeError
import Verif.Props.SpectralSingle
import Verif.Props.StartSet
import Verif.Props.Step
import Verif.Props.StepExpr
import Verif.Props.ThreeBody
import Verif.Props.UniCC
import Verif.Props.UniPy
import Verif.Props.Utfc
import Verif.Py
import Verif.Spec.Arrays
import Verif.Spec.Basis
import Verif.Spec.Batch
import Verif.Spec.Bvp
import Verif.Spec.CeSolver
import Verif.Spec.Color
import Verif.Spec.Columns
import Verif.Spec.Crop
import Verif.Spec.Dict
import Verif.Spec.Domain
import Verif.Spec.ElmSet
import Verif.Spec.Expr
import Verif.Spec.Files
import Verif.Spec.Graph
import Verif.Spec.Ieee
import Verif.Spec.Integrators
import Verif.Spec.Landing
import Verif.Spec.Latex
import Verif.Spec.LeastSquares
import Verif.Spec.Libration
import Verif.Spec.Magnitude
import Verif.Spec.MakePlot
import Verif.Spec.Mtfc
import Verif.Spec.Multi
import Verif.Spec.Names
import Verif.Spec.Ode
import Verif.Spec.OdeExample
import Verif.Spec.OdeSystem
import Verif.Spec.PdeExample
import Verif.Spec.PdeMany
import Verif.Spec.PdeProgram
import Verif.Spec.Pe
import Verif.Spec.Planar
import Verif.Spec.Plotly
import Verif.Spec.Poly
import Verif.Spec.Printer
import Verif.Spec.Propagate
import Verif.Spec.Registry
import Verif.Spec.Result
import Verif.Spec.Richardson
import Verif.Spec.Rounding
import Verif.Spec.Rows
import Verif.Spec.ScaledQr
import Verif.Spec.Shell
import Verif.Spec.Span
import Verif.Spec.Spectral
import Verif.Spec.Terminal
import Verif.Spec.ThreeBody
import Verif.Spec.Trig
import Verif.Spec.Utfc
