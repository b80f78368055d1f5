import Verif.Lemmas.BBox
import Verif.Lemmas.Binary
import Verif.Lemmas.ConvexHull
import Verif.Lemmas.Flt
import Verif.Lemmas.FltAffine
import Verif.Lemmas.FltAng
import Verif.Lemmas.FltAngle
import Verif.Lemmas.FltAp
import Verif.Lemmas.FltBezier
import Verif.Lemmas.FltBoxMat
import Verif.Lemmas.FltCast
import Verif.Lemmas.FltCmp
import Verif.Lemmas.FltCond
import Verif.Lemmas.FltConst
import Verif.Lemmas.FltCubic
import Verif.Lemmas.FltDet
import Verif.Lemmas.FltDistance
import Verif.Lemmas.FltEr
import Verif.Lemmas.FltError
import Verif.Lemmas.FltFromTo
import Verif.Lemmas.FltGeom
import Verif.Lemmas.FltGrid
import Verif.Lemmas.FltLength
import Verif.Lemmas.FltLup
import Verif.Lemmas.FltPersp
import Verif.Lemmas.FltPlanePlane
import Verif.Lemmas.FltPlaneProj
import Verif.Lemmas.FltPlanePts
import Verif.Lemmas.FltPoints
import Verif.Lemmas.FltPolygon
import Verif.Lemmas.FltProj
import Verif.Lemmas.FltQuadratic
import Verif.Lemmas.FltQuat
import Verif.Lemmas.FltRel
import Verif.Lemmas.FltRot
import Verif.Lemmas.FltScale
import Verif.Lemmas.FltSegDist
import Verif.Lemmas.FltSphere
import Verif.Lemmas.FltSymmetry
import Verif.Lemmas.FltTransform
import Verif.Lemmas.FltTriangle
import Verif.Lemmas.FltWiden
import Verif.Lemmas.Geom
import Verif.Lemmas.IntC
import Verif.Lemmas.Io
import Verif.Lemmas.Mat
import Verif.Lemmas.MatExt
import Verif.Lemmas.Order
import Verif.Lemmas.PointInPolygon
import Verif.Lemmas.Polygon
import Verif.Lemmas.Rounding
import Verif.Lemmas.RoundingFlt
import Verif.Lemmas.SFlt
import Verif.Lemmas.SFltHull
import Verif.Lemmas.Scalar
import Verif.Lemmas.Solve
import Verif.Lemmas.SqrtC
import Verif.Lemmas.Text
import Verif.Lemmas.TextNum
import Verif.Lemmas.Vec
import Verif.Model.AngleG
import Verif.Model.Approx
import Verif.Model.BBox
import Verif.Model.Binary
import Verif.Model.Cast
import Verif.Model.Cmp
import Verif.Model.Constants
import Verif.Model.ConvexHull
import Verif.Model.CubicG
import Verif.Model.Distance
import Verif.Model.DistanceG
import Verif.Model.EulerG
import Verif.Model.Flt
import Verif.Model.FltMat
import Verif.Model.FromToG
import Verif.Model.Geom
import Verif.Model.IntC
import Verif.Model.Intersect
import Verif.Model.Io
import Verif.Model.Length
import Verif.Model.Mat
import Verif.Model.MatExt
import Verif.Model.Named
import Verif.Model.Perspective
import Verif.Model.PlaneG
import Verif.Model.PlanePlaneG
import Verif.Model.PlaneProjG
import Verif.Model.PointsG
import Verif.Model.Polygon
import Verif.Model.QuarticG
import Verif.Model.Quat
import Verif.Model.RaySegmentG
import Verif.Model.RotG
import Verif.Model.SFlt
import Verif.Model.Scalar
import Verif.Model.ScalarFlt
import Verif.Model.SegmentG
import Verif.Model.Solve
import Verif.Model.SolveG
import Verif.Model.Sort
import Verif.Model.SphereG
import Verif.Model.Text
import Verif.Model.TorusG
import Verif.Model.Vec
import Verif.Props.Affine
import Verif.Props.Approx
import Verif.Props.BBox
import Verif.Props.BBoxExtra
import Verif.Props.Bezier
import Verif.Props.Convert
import Verif.Props.ConvexHull
import Verif.Props.Distance
import Verif.Props.Equality
import Verif.Props.FltAffine
import Verif.Props.FltAngle
import Verif.Props.FltApprox
import Verif.Props.FltAverage
import Verif.Props.FltBetween
import Verif.Props.FltBezier
import Verif.Props.FltBox
import Verif.Props.FltBoxMat
import Verif.Props.FltCast
import Verif.Props.FltColinear
import Verif.Props.FltCompare
import Verif.Props.FltCompileTime
import Verif.Props.FltCond
import Verif.Props.FltCubic
import Verif.Props.FltDet
import Verif.Props.FltDistance
import Verif.Props.FltEuler
import Verif.Props.FltFromTo
import Verif.Props.FltGrid
import Verif.Props.FltHull
import Verif.Props.FltInterp
import Verif.Props.FltLength
import Verif.Props.FltLine
import Verif.Props.FltLineDist
import Verif.Props.FltLup
import Verif.Props.FltLupExact
import Verif.Props.FltMat
import Verif.Props.FltMeasure
import Verif.Props.FltMove
import Verif.Props.FltNan
import Verif.Props.FltOrtho
import Verif.Props.FltPersp
import Verif.Props.FltPlane
import Verif.Props.FltPlaneAt
import Verif.Props.FltPlanePlane
import Verif.Props.FltPlaneProj
import Verif.Props.FltPlanePts
import Verif.Props.FltPoints
import Verif.Props.FltPolygon
import Verif.Props.FltProducts
import Verif.Props.FltProject
import Verif.Props.FltQuadratic
import Verif.Props.FltQuartic
import Verif.Props.FltQuat
import Verif.Props.FltRayBBox
import Verif.Props.FltRayPlane
import Verif.Props.FltRayPolygon
import Verif.Props.FltRot
import Verif.Props.FltScale
import Verif.Props.FltSegContains
import Verif.Props.FltShear
import Verif.Props.FltSphere
import Verif.Props.FltSymmetry
import Verif.Props.FltTorus
import Verif.Props.FltTransform
import Verif.Props.FltTriangle
import Verif.Props.FltView
import Verif.Props.FltVolume
import Verif.Props.FltWiden
import Verif.Props.IntC
import Verif.Props.Intersect
import Verif.Props.Io
import Verif.Props.IoExtra
import Verif.Props.Line
import Verif.Props.Mat
import Verif.Props.MinMax
import Verif.Props.ModFlt
import Verif.Props.Named
import Verif.Props.Order
import Verif.Props.Plane
import Verif.Props.PointInPolygon
import Verif.Props.PointMaps
import Verif.Props.Polygon
import Verif.Props.PolygonAuto
import Verif.Props.Projection
import Verif.Props.Quat
import Verif.Props.QuatExtra
import Verif.Props.RayBBox
import Verif.Props.Rotation
import Verif.Props.Rounding
import Verif.Props.RoundingFlt
import Verif.Props.SFlt
import Verif.Props.SFltHull
import Verif.Props.SFltMore
import Verif.Props.SFltScale
import Verif.Props.SFltSegment
import Verif.Props.SFltShear
import Verif.Props.SFltSign
import Verif.Props.SFltSolve
import Verif.Props.SFltSolveZero
import Verif.Props.ScalarExtra
import Verif.Props.ScalarMisc
import Verif.Props.Segment
import Verif.Props.SnapFlt
import Verif.Props.Solve
import Verif.Props.Sort
import Verif.Props.SqrtC
import Verif.Props.Text
import Verif.Props.Torus
import Verif.Props.Vec
import Verif.Props.VecExtra
