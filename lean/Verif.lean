import Verif.Props.Common
import Verif.Props.Lru
import Verif.Props.BinaryCache
import Verif.Props.DisjointSets
import Verif.Props.Graph
import Verif.Props.SpatialGrid
import Verif.Props.MeshDefects
import Verif.Props.RbfModel
import Verif.Props.Io
import Verif.Props.Bits
import Verif.Props.Lattice
import Verif.Props.LatticeOrientation
import Verif.Props.LatticeMesh
import Verif.Props.Interpolant
import Verif.Props.DistanceFilter
import Verif.Props.IncrementalFitter
import Verif.Props.InequalityFitter
import Verif.Props.InequalityOrder
import Verif.Props.InequalityOrderDefect
import Verif.Props.Solver
import Verif.Props.Gmres
import Verif.Props.DomainDivider
import Verif.Props.CoarsePoints
import Verif.Props.FineGrid
import Verif.Props.DirectOperator
import Verif.Props.Variogram
import Verif.Props.Polynomial
import Verif.Props.CrossValidate
import Verif.Props.NormalScore
import Verif.Props.Orthonormalize
import Verif.Props.Unisolvent
import Verif.Props.FmmConfig
import Verif.Props.FmmEvaluator
import Verif.Props.RandomPoints
import Verif.Props.NormalEstimator
import Verif.Props.SdfData
import Verif.Props.Bbox
import Verif.Props.Table
import Verif.Props.Kernel
import Verif.Props.AbstractMesh
import Verif.Props.Predicates
import Verif.Props.Clip
import Verif.Props.PrimitiveLattice
import Verif.Props.Tetrahedron
import Verif.Props.Isosurface
import Verif.Props.Ras
import Verif.Props.RasBuild
import Verif.Props.ClosestPoint
import Verif.Props.Thinner
import Verif.Props.Smoother
import Verif.Props.Triangulation
import Verif.Props.Snapper
import Verif.Props.SnapperSides
import Verif.Props.Refiner
import Verif.Props.Clusterer
import Verif.Props.ClustererExamples
import Verif.Props.Pipeline
import Verif.Props.PipelineExamples
import Verif.Props.PipelineOpen
import Verif.Props.PipelineOpenExamples
import Verif.Props.PlaneEstimator
import Verif.Props.Minres
import Verif.Props.FmmKernel
import Verif.Props.Evaluator
import Verif.Props.Operator
import Verif.Props.VariogramFitting
import Verif.Props.FieldLocal
import Verif.Props.FieldLocalExamples
import Verif.Props.FmmBox
import Verif.Props.FmmBoxMesh
import Verif.Props.FmmBoxExamples
import Verif.Props.Description
import Verif.Props.DescriptionExamples
import Verif.Props.MakeModel
import Verif.Props.Obj
import Verif.Props.Cli
import Verif.Props.ShowVariogram
import Verif.Props.NormalsToSdf
import Verif.Props.FitCommand
import Verif.Props.EstimateNormals
import Verif.Props.SeedTracking
import Verif.Props.IsosurfaceCommand
import Verif.Props.Surface25dCommand
import Verif.Props.OffsetSurface
import Verif.Props.Directions
import Verif.Props.VariogramCommand
import Verif.Props.KdTree
import Verif.Props.Main
import Verif.Props.PythonObjects
import Verif.Props.Neighbours
