import Verif.Random.Model
import Verif.Random.Linear
import Verif.Random.Period
import Verif.Random.Bits
import Verif.Random.Sampling
import Verif.Random.Props
import Verif.Strings.Model
import Verif.Strings.Props
import Verif.Strings.PP
import Verif.Config.Model
import Verif.Config.MapProps
import Verif.Config.ParseProps
import Verif.Config.FileProps
import Verif.Config.SaveProps
import Verif.Core.BinSearch
import Verif.Core.Arith
import Verif.Core.Cubic
import Verif.Core.Hermite
import Verif.Core.FindRoot
import Verif.Core.Scaling
import Verif.Core.Adapters
import Verif.Core.FindMin
import Verif.SphHarm.Model
import Verif.SphHarm.Index
import Verif.SphHarm.Legendre
import Verif.SphHarm.LegendreProps
import Verif.SphHarm.Symmetry
import Verif.SphHarm.Fourier
import Verif.Runtime.SharedPtr
import Verif.Runtime.CtrlBreak
import Verif.Runtime.Units
import Verif.Linalg.Band
import Verif.Linalg.SolveBand
import Verif.Spline.BSpline
import Verif.Spline.Natural
import Verif.Spline.NaturalEnds
import Verif.Spline.Grid
import Verif.Core.GLTable
import Verif.Core.GaussLegendre
import Verif.Core.Legendre
import Verif.Core.GLNodes
import Verif.Coord.Model
import Verif.Coord.DerivModel
import Verif.Coord.Lemmas
import Verif.Coord.ConvProps
import Verif.Coord.DerivSpec
import Verif.Coord.DerivProps
import Verif.Coord.SphFunc
import Verif.Coord.Orientation
import Verif.Coord.ProlSph
import Verif.Coord.Axi
import Verif.Coord.AxiProps
import Verif.Coord.AxiDeriv
import Verif.Pot.Radial
import Verif.Pot.Analytic
import Verif.Pot.Kepler
import Verif.Pot.Base
import Verif.Pot.Composite
import Verif.Pot.Modifiers
import Verif.Pot.Symmetry
import Verif.Pot.Spheroid
import Verif.Pot.SpheroidInt
import Verif.Pot.SpheroidProps
import Verif.Pot.NukerProps
import Verif.Pot.Average
import Verif.Spline.Eval
import Verif.Spline.EvalProps
import Verif.Spline.Construct
import Verif.Spline.ConstructProps
import Verif.Spline.Regularize
import Verif.Spline.Quintic
import Verif.Spline.Integrate
import Verif.Spline.Vandermonde
import Verif.Spline.IntegrateF
import Verif.Spline.Roots
import Verif.Spline.BInterp
import Verif.Spline.BRoots
import Verif.Core.Quartic
import Verif.Spline.Extrema
import Verif.Spline.ExtremaLinear
import Verif.Spline.Interp2d
import Verif.Spline.Tensor
import Verif.Spline.Interp2dProps
import Verif.Spline.Interp3dProps
import Verif.Spline.Create2d
import Verif.Spline.Create2dQuintic
import Verif.Geom.Polygon
import Verif.Geom.Area
import Verif.Geom.BsplineInt
import Verif.Geom.Winding
import Verif.Orbit.Run
import Verif.Orbit.Motion
import Verif.Ode.Series
import Verif.Ode.Tableau
import Verif.Ode.Dop853
import Verif.Ode.DopOrder
import Verif.Ode.Hermite
import Verif.Ode.GLMem
import Verif.Ode.GL3
import Verif.Ode.GL4
import Verif.Cubature.Heap
import Verif.Cubature.Rule
import Verif.Cubature.Exact
import Verif.Cubature.Kronrod
import Verif.Cubature.Adapt
import Verif.Cubature.AdaptProps
import Verif.Cubature.AdaptMain
import Verif.Cubature.Scale
import Verif.Sample.Model
import Verif.Sample.Lists
import Verif.Sample.Tree
import Verif.Sample.Steps
import Verif.Sample.Batch
import Verif.Sample.Loop
import Verif.Sample.Main
import Verif.Sample.Draw
import Verif.Sample.Props
import Verif.Sample.Extra
import Verif.Sample.Sched
import Verif.Actions.Model
import Verif.Actions.Iso
import Verif.Actions.Map
import Verif.Actions.Motion
import Verif.Actions.Motion2
import Verif.Actions.Eval
import Verif.Actions.RoundTrip
import Verif.Actions.RoundTrip2
import Verif.Actions.Final
import Verif.DensGrid.ClassicProps
import Verif.DensGrid.CylProps
import Verif.DensGrid.SHProps
import Verif.DensGrid.ProjClassic
import Verif.DensGrid.ProjCyl
import Verif.DensGrid.ProjSH
import Verif.SphHarm.Ortho
import Verif.SphHarm.AzimuthOrtho
import Verif.SphHarm.Transform
import Verif.SphHarm.TransformProps
import Verif.Core.GLRule
import Verif.Pot.Disk
import Verif.Pot.DiskProps
import Verif.Pot.DiskProps2
import Verif.Pot.DiskProps3
import Verif.Pot.DiskMass
import Verif.DF.Model
import Verif.DF.Props
import Verif.DF.Props2
import Verif.DF.Props3
import Verif.DF.Props4
import Verif.Spline.Create2dReg
import Verif.Core.ScaleCub
import Verif.DF.Scaling
import Verif.DF.ScalingProps
import Verif.DF.ScalingInt
import Verif.DF.Composite
import Verif.Pot.Ferrers
import Verif.Pot.FerrersProps
import Verif.Pot.FerrersEval
import Verif.Pot.FerrersFar
import Verif.Pot.Dehnen
import Verif.Pot.PerfectEllipsoid
import Verif.Pot.PerfectEllipsoidProps
import Verif.Pot.PerfectEllipsoidPoisson
import Verif.IO.Text
import Verif.IO.TextEx
import Verif.IO.Nemo
import Verif.GH.Model
import Verif.GH.Poly
import Verif.GH.Props
import Verif.GH.Props2
import Verif.GH.Props3
import Verif.GH.Props4
import Verif.FP.Model
import Verif.FP.Facts
import Verif.FP.Step
import Verif.FP.Props
import Verif.FP.Props2
import Verif.FP.Props3
import Verif.Raga.Losscone
import Verif.Raga.LossconeProps
import Verif.Raga.Binary
import Verif.Raga.BinaryProps
import Verif.Raga.Evolve
import Verif.Raga.Relax
import Verif.Raga.RelaxProps
import Verif.Spline.LogLogMore
import Verif.Gal.VelocityMoments
import Verif.Pot.KingTable
import Verif.Gal.JeansProps
import Verif.Gal.SelfConsProps
import Verif.Pot.PotUtilsProps
import Verif.Pot.ProjectedProps
import Verif.Pot.OblPerfProps
import Verif.Orbit.VariationalProps
