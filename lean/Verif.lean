import Verif.Props.MultiIndex
import Verif.Props.MultiIndexAlgebra
import Verif.Props.MultiIndexOperators
import Verif.Props.Permutations
import Verif.Props.PolynomialMonomial
import Verif.Props.PolynomialBernstein
import Verif.Props.PolynomialLagrange
import Verif.Props.PolynomialBases
import Verif.Props.DualBases
import Verif.Props.Integration
import Verif.Props.Simplex
import Verif.Props.SimplicialComplex
import Verif.Props.TriangleMesh
import Verif.Props.Aabb
import Verif.Model.AabbReal
import Verif.Props.AabbReal
import Verif.Props.KdTree
import Verif.Props.KdTreeRecurse
import Verif.Props.MeshKdTree
import Verif.Props.Angle
import Verif.Props.FiniteDifference
import Verif.Props.FiniteDifferenceArray
import Verif.Props.Rotation
import Verif.Props.AxisAngle
import Verif.Props.Projection
import Verif.Props.Sampling
import Verif.Props.Quadrature
import Verif.Props.QuadratureError
import Verif.Props.StrUtils
import Verif.Props.CodeGeneration
import Verif.Props.SubSimplex
import Verif.Lemmas.Annulus
import Verif.Props.BasicMeshes
import Verif.Props.BasicMeshes3
import Verif.Props.LocalToGlobal
import Verif.Props.VectorLocalToGlobal
import Verif.Props.SimplexPolynomial
import Verif.Props.PiecewiseExamples
import Verif.Model.PiecewisePow
import Verif.Lemmas.PiecewisePow
import Verif.Props.PiecewisePow
import Verif.Props.PiecewiseUnit
import Verif.Model.PiecewiseHeap
import Verif.Spec.PiecewiseHeap
import Verif.Lemmas.PiecewiseHeap
import Verif.Props.PiecewiseHeap
import Verif.Props.Calculus
import Verif.Props.SimplexDual
import Verif.Props.SimplexInteger
import Verif.Props.SimplexDegenerate
import Verif.Props.NonFinite
import Verif.Props.FloatIntegration
import Verif.Props.FloatPolynomial
import Verif.Props.FloatMonomial
import Verif.Props.FloatPower
import Verif.Props.FiniteDifferenceOrder
import Verif.Props.FloatDifference
import Verif.Props.Interpolation
import Verif.Props.InterpolationSimplex
import Verif.Props.QuadratureOrder
import Verif.Props.SmoothApproximation
import Verif.Lemmas.BernsteinMoments
import Verif.Props.BernsteinApproximation
import Verif.Props.FloatSecondDifference
import Verif.Model.FloatQuadrature
import Verif.Props.FloatQuadrature
import Verif.Props.SimplexCounts
import Verif.Props.KdTreeAccessors
import Verif.Props.PiecewiseBases
import Verif.Props.WeakDerivative
import Verif.Model.SimplexGeometry
import Verif.Spec.SimplexGeometry
import Verif.Lemmas.SimplexGeometry
import Verif.Lemmas.SimplexGeometry2
import Verif.Lemmas.SimplexGeometry3
import Verif.Lemmas.SimplexGeometry4
import Verif.Props.SimplexGeometry
import Verif.Model.Triangle
import Verif.Lemmas.Triangle
import Verif.Lemmas.Triangle2
import Verif.Lemmas.Triangle3
import Verif.Props.Triangle
import Verif.Spec.Rotation
import Verif.Model.VertexNormals
import Verif.Spec.SurfaceMesh
import Verif.Lemmas.VertexNormals
import Verif.Props.VertexNormals
import Verif.Model.Equality
import Verif.Spec.Equality
import Verif.Lemmas.Equality
import Verif.Lemmas.Unisolvent
import Verif.Props.Equality
import Verif.Model.Midpoint
import Verif.Lemmas.Midpoint
import Verif.Props.Midpoint
import Verif.Spec.MeshFunctions
import Verif.Lemmas.MeshFunctions
import Verif.Props.MeshFunctions
import Verif.Props.AdaptiveQuadrature
import Verif.Props.Composition
import Verif.Spec.Latex
import Verif.Model.Latex
import Verif.Lemmas.Latex
import Verif.Lemmas.Latex2
import Verif.Lemmas.Latex3
import Verif.Lemmas.Latex4
import Verif.Lemmas.Latex5
import Verif.Lemmas.Latex6
import Verif.Lemmas.Latex7
import Verif.Lemmas.LagrangeDenominators
import Verif.Props.Latex
import Verif.Model.DocString
import Verif.Lemmas.LatexQuote
import Verif.Props.DocString
import Verif.Model.PointClouds
import Verif.Spec.PointClouds
import Verif.Lemmas.PointClouds
import Verif.Lemmas.PointClouds2
import Verif.Props.PointClouds
import Verif.Model.CodeStr
import Verif.Spec.CodeStr
import Verif.Lemmas.CodeStr
import Verif.Lemmas.CodeStr2
import Verif.Lemmas.CodeStr3
import Verif.Props.CodeStr
import Verif.Model.Representation
import Verif.Spec.PyLiteral
import Verif.Lemmas.Representation
import Verif.Props.Representation
import Verif.Model.BasisIdentifier
import Verif.Props.BasisIdentifier
import Verif.Props.PiecewiseMixed
import Verif.Model.PiecewiseCall
import Verif.Spec.PiecewiseCall
import Verif.Props.PiecewiseCall
import Verif.Model.PackageUtils
import Verif.Spec.PackageUtils
import Verif.Props.PackageUtils
import Verif.Spec.Random
import Verif.Lemmas.Rejection
import Verif.Lemmas.RandomRows
import Verif.Lemmas.GaussianSector
import Verif.Props.SamplingUniform
import Verif.Props.SamplingSphere
import Verif.Spec.RandomRotation
import Verif.Model.RandomRotation
import Verif.Props.RandomRotation
import Verif.Spec.RandomDiscrete
import Verif.Model.RandomDiscrete
import Verif.Props.RandomDiscrete
import Verif.Spec.PiecewiseSpace
import Verif.Lemmas.PiecewiseSpace
import Verif.Props.PiecewiseSpace
import Verif.Spec.FloatExpr
import Verif.Spec.FloatPoly
import Verif.Lemmas.FloatExprUnique
import Verif.Lemmas.FloatExpr
import Verif.Lemmas.FloatCode
import Verif.Props.FloatCode
import Verif.Model.PolyHeap
import Verif.Spec.PolyHeap
import Verif.Lemmas.PolyHeap
import Verif.Props.PolyHeap
import Verif.Model.SimplexPolyHeap
import Verif.Spec.SimplexPolyHeap
import Verif.Lemmas.SimplexPolyHeap
import Verif.Props.SimplexPolyHeap
import Verif.Props.AffineMap
import Verif.Lemmas.PolyElevated
import Verif.Props.PolyElevated
import Verif.Props.CodeNames
import Verif.Props.WeakMethod
import Verif.Props.PolyStale
import Verif.Props.Further
import Verif.Model.PolyPowScalar
import Verif.Props.PolyPowScalar
import Verif.Model.GramSchmidtArray
import Verif.Props.GramSchmidtArray
import Verif.Model.MultiIndexDict
import Verif.Props.MultiIndexDict
import Verif.Model.Plot
import Verif.Props.Plot
import Verif.Model.PlotFunction
import Verif.Props.PlotFunction
import Verif.Model.CodeTrace
import Verif.Props.CodeTrace
import Verif.Model.DocsNames
import Verif.Props.DocsNames
import Verif.Model.ModularDict
import Verif.Props.ModularDict
import Verif.Model.DocsVersion
import Verif.Props.DocsVersion
