import Verif.Props.Mesh
import Verif.Props.Orient
import Verif.Props.OrientTri
import Verif.Props.HigherOrder
import Verif.Props.Paths
import Verif.Props.Paths2
import Verif.Props.Arcs
import Verif.Props.Transform
import Verif.Props.Surfaces
import Verif.Props.Shapes
import Verif.Props.Shapes2
import Verif.Props.Caps
import Verif.Props.SurfaceMesh6
import Verif.Props.SurfaceMesh5
import Verif.Props.Collections
import Verif.Props.Excitation
import Verif.Props.Excitation2
import Verif.Props.Superposition
import Verif.Props.Threads
import Verif.Props.Charges
import Verif.Props.FieldOps
import Verif.Props.ChargeOps
import Verif.Props.Coil
import Verif.Props.Interface
import Verif.Props.RadialSymmetry
import Verif.Props.Ring
import Verif.Props.RungeKutta
import Verif.Props.Tracer3
import Verif.Props.Axial3
import Verif.Props.Spline
import Verif.Props.Logging
import Verif.Props.Focus2
import Verif.Props.Kronrod2
import Verif.Props.Kronrod3
import Verif.Props.TriangleAccuracy
import Verif.Props.TriangleAccuracy2
import Verif.Props.Matrix3D4
import Verif.Props.Matrix3D5
import Verif.Props.Reciprocity
import Verif.Props.Reciprocity2
import Verif.Props.Triangle4
import Verif.Props.Matrix3D3
import Verif.Props.MatrixRadial2
import Verif.Props.ElementCharge
import Verif.Props.Irregular2
import Verif.Props.EllipticAccuracy
import Verif.Props.Shapes3
import Verif.Props.SurfaceMesh7
import Verif.Props.Quadrature
import Verif.Props.Axial3D2
import Verif.Props.Convergence
import Verif.Props.Progress3
import Verif.Props.Doubles
import Verif.Props.SolveField3
import Verif.Props.Rigid5
import Verif.Props.Extend
import Verif.Props.Remove
import Verif.Props.Linear4
import Verif.Props.SuperpositionField8
import Verif.Props.Energy2
import Verif.Props.Similar7
import Verif.Props.Similar8
import Verif.Props.CurvedArea
import Verif.Props.GroupCharge3
import Verif.Props.Invisible4
import Verif.Props.TracerSymmetry4
import Verif.Props.Pipeline7
import Verif.Props.MeshFile
import Verif.Props.PathGap
import Verif.Props.FullTurn
import Verif.Props.Vacuum2
import Verif.Props.Plot5
import Verif.Props.Plot6
import Verif.Props.Plot7
import Verif.Props.Plot10
import Verif.Props.Plot11
import Verif.Props.Plot12
import Verif.Props.Saving
import Verif.Lemmas.Uniform
import Verif.Props.Crack
import Verif.Props.Crack2
import Verif.Props.EllipticNegative
import Verif.Spec.Ruled
import Verif.Props.Ruled
import Verif.Props.Ruled2
import Verif.Props.Ruled3
import Verif.Props.Ruled4
import Verif.Props.Ruled5
import Verif.Props.Ruled6
import Verif.Props.Bulge
import Verif.Props.Bulge2
import Verif.Props.DiskCrack
import Verif.Props.Witnesses
import Verif.Props.TracerSymmetry5
import Verif.Props.TracerInts
import Verif.Model.TracerNaN
import Verif.Props.TracerNaN
import Verif.Props.TracerNaN2
import Verif.Props.Degenerate
import Verif.Spec.NotAKnot
import Verif.Lemmas.CubicSpline
import Verif.Lemmas.CubicSpline2
import Verif.Lemmas.CubicSpline3
import Verif.Lemmas.NotAKnot
import Verif.Lemmas.NotAKnot2
import Verif.Lemmas.Hermite
import Verif.Spec.SplineDoc
import Verif.Props.SplineDoc
import Verif.Props.SplineConv
import Verif.Props.SplineConv2
import Verif.Spec.ArcLength
import Verif.Lemmas.CubicSpline4
import Verif.Lemmas.ArcLength
import Verif.Lemmas.ArcLength2
import Verif.Props.ArcLength
import Verif.Spec.Memory
import Verif.Model.Memory
import Verif.Props.Memory
import Verif.Spec.Rounding
import Verif.Model.Rounding
import Verif.Props.Rounding
import Verif.Props.RoundingRadial
import Verif.Spec.Gauss
import Verif.Lemmas.BoxFlux
import Verif.Props.Gauss
import Verif.Props.GaussSolved
import Verif.Props.Witness
import Verif.Spec.MeshSize
import Verif.Props.MeshSize
import Verif.Props.MeshSize2
import Verif.Props.MeshSize3
import Verif.Props.VacuumRadial
import Verif.Props.VacuumRadial2
import Verif.Props.VacuumRadial3
import Verif.Props.Ampere
import Verif.Props.TracerConstants
import Verif.Props.RingSurface
import Verif.Props.GaussRadial
import Verif.Spec.Region
import Verif.Lemmas.MaxPrinciple
import Verif.Lemmas.MaxPrinciple2
import Verif.Props.Extremes
import Verif.Props.Memory2
import Verif.Lemmas.RingVacuum
import Verif.Props.VacuumAxis
import Verif.Props.Extremes2
import Verif.Props.Plot13
import Verif.Props.EnergyRadial
import Verif.Props.VacuumAxis2
import Verif.Props.Threads2
import Verif.Spec.FewLines
import Verif.Props.FewLines
import Verif.Props.FewLines2
import Verif.Props.Pipeline8
import Verif.Model.Printing
import Verif.Props.Printing
import Verif.Spec.Reciprocity
import Verif.Lemmas.LoopFlux
import Verif.Props.LoopFlux
import Verif.Spec.Circulation
import Verif.Lemmas.Circulation
import Verif.Props.Circulation
import Verif.Spec.Busch
import Verif.Lemmas.Busch
import Verif.Props.Busch
import Verif.Lemmas.Busch2
import Verif.Props.Busch2
