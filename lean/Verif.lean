import Verif.Rust
import Verif.Spec
import Verif.Model.CellID
import Verif.Proofs.Bits
import Verif.Proofs.CellIDBasic
import Verif.Proofs.CellIDTree
import Verif.Proofs.CellIDIter
import Verif.Proofs.CellIDMore
import Verif.Properties.CellID
import Verif.Model.CellIDText
import Verif.Properties.CellIDText
import Verif.SpecUnion
import Verif.Model.CellUnion
import Verif.Proofs.Ranges
import Verif.Proofs.Normalize
import Verif.Proofs.UnionSearch
import Verif.Proofs.UnionOps
import Verif.Proofs.UnionMisc
import Verif.Properties.CellUnion
import Verif.SpecCube
import Verif.Model.Hilbert
import Verif.Proofs.HilbertTables
import Verif.Proofs.Hilbert
import Verif.Proofs.Square
import Verif.Proofs.Curve
import Verif.Properties.Hilbert
import Verif.Model.Float
import Verif.Model.Stuv
import Verif.Model.Neighbors
import Verif.Proofs.Float
import Verif.Proofs.Wrap
import Verif.Proofs.Adjacent
import Verif.Properties.Neighbors
import Verif.Properties.VertexNeighbors
import Verif.Model.Expand
import Verif.Properties.Expand
import Verif.Model.Consts
import Verif.Model.Coverer
import Verif.Proofs.CovererNorm
import Verif.Proofs.Coverer
import Verif.Proofs.CovererLoop
import Verif.Properties.Coverer
import Verif.Properties.Consts
import Verif.Model.R1
import Verif.Properties.R1
import Verif.Model.R2
import Verif.Properties.R2
import Verif.Model.S1
import Verif.Proofs.S1
import Verif.Properties.S1
import Verif.Proofs.S1Union
import Verif.Properties.S1Ops
import Verif.Properties.S1Expand
import Verif.Properties.S1Hausdorff
import Verif.Model.S2Rect
import Verif.Properties.S2Rect
import Verif.Model.Metric
import Verif.Properties.Metric
import Verif.Model.Cell
import Verif.Properties.Stuv
import Verif.Properties.Cell
import Verif.Properties.CellGeom
import Verif.Properties.PointCell
import Verif.Properties.Vector
import Verif.Properties.PointRound
import Verif.Model.Predicates
import Verif.Proofs.DetError
import Verif.Properties.Predicates
import Verif.Properties.Orient
import Verif.Model.Angle
import Verif.Proofs.RNE
import Verif.Properties.Angle
import Verif.Model.ChordAngle
import Verif.Properties.ChordAngle
import Verif.Properties.ChordRound
import Verif.Model.Cap
import Verif.Proofs.Sphere
import Verif.Properties.Cap
import Verif.Properties.CapExact
import Verif.Properties.CapDefects
import Verif.Model.EdgeClip
import Verif.Properties.EdgeExact
import Verif.Properties.EdgeClip
import Verif.Properties.EdgeInterp
import Verif.Properties.EdgeDefects
import Verif.Model.EdgeUtil
import Verif.Properties.Crossing
import Verif.Properties.EdgeDist
import Verif.Properties.EdgeInterpolate
import Verif.Model.Shape
import Verif.Properties.Shape
import Verif.Model.Random
import Verif.Properties.Random
import Verif.Model.LatLng
import Verif.Properties.LatLng
import Verif.Model.CellBound
import Verif.Model.RectRegion
import Verif.Proofs.LatLngOrder
import Verif.Properties.CellBound
import Verif.Properties.RectExact
import Verif.Proofs.LatEdge
import Verif.Properties.RectCell
import Verif.Model.RectBounder
import Verif.Proofs.LatBudget
import Verif.Proofs.RectBounder
import Verif.Properties.RectBounder
import Verif.Proofs.LeafUlp
import Verif.Properties.LeafUlp
import Verif.Proofs.CapCell
import Verif.Properties.CapCell
import Verif.Proofs.CapUnion
import Verif.Proofs.CapUnion2
import Verif.Model.CapUnion
import Verif.Properties.CapUnion
import Verif.Model.Area
import Verif.Proofs.SolidAngle
import Verif.Proofs.Excess
import Verif.Properties.Area
import Verif.Properties.CellArea
import Verif.Proofs.ConeVolume
import Verif.Proofs.CellIntegral
import Verif.Properties.CellAreaBound
import Verif.Properties.CellAreaMax
import Verif.Properties.Centroid
import Verif.Properties.ExpandRadius
import Verif.Properties.UnionRegion
import Verif.Properties.UnionArea
import Verif.Properties.RectCover
import Verif.Properties.CellSharp
import Verif.Properties.RectHausdorff
import Verif.Model.Precise
import Verif.Properties.Precise
import Verif.Model.Approx
import Verif.Properties.Approx
import Verif.Proofs.FaceWalk
import Verif.Properties.FaceSegments
import Verif.Proofs.FaceWalk2
import Verif.Proofs.FaceRound
import Verif.Properties.FaceRound
import Verif.Model.CellLatLng
import Verif.Proofs.LatLngRound
import Verif.Properties.LatLngRound
import Verif.Proofs.DistRound
import Verif.Properties.DistRound
import Verif.Proofs.VecRound
import Verif.Properties.VecRound
import Verif.Properties.InterpolateRound
import Verif.Properties.OriginRound
import Verif.Proofs.EdgeDistRound
import Verif.Properties.EdgeDistRound
import Verif.Properties.ProjectRound
import Verif.Properties.MaxDistRound
import Verif.Properties.CapBoundRound
import Verif.Model.F64
import Verif.Properties.F64
import Verif.Properties.RNEBits
import Verif.Model.R2Norm
import Verif.Properties.R2Norm
import Verif.Audit
