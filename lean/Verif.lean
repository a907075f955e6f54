import Verif.Lemmas.Brightness
import Verif.Lemmas.BrightnessDetect
import Verif.Lemmas.Contrast
import Verif.Lemmas.CubeRoot
import Verif.Lemmas.Descriptor
import Verif.Lemmas.Detect
import Verif.Lemmas.Diffusion
import Verif.Lemmas.Eigen4
import Verif.Lemmas.EpipolarPlane
import Verif.Lemmas.Essential
import Verif.Lemmas.Evolution
import Verif.Lemmas.FMap
import Verif.Lemmas.Fed
import Verif.Lemmas.FedStable
import Verif.Lemmas.FedSum
import Verif.Lemmas.FiveSolver
import Verif.Lemmas.FloatArith
import Verif.Lemmas.FloatDefault
import Verif.Lemmas.FloatDescriptor
import Verif.Lemmas.FloatDescriptorExact
import Verif.Lemmas.FloatDetect
import Verif.Lemmas.FloatDetectExact
import Verif.Lemmas.FloatDistort
import Verif.Lemmas.FloatDrift
import Verif.Lemmas.FloatDriftExp
import Verif.Lemmas.FloatDriftPose
import Verif.Lemmas.FloatError
import Verif.Lemmas.FloatGeom
import Verif.Lemmas.FloatLevelsExact
import Verif.Lemmas.FloatOptimize
import Verif.Lemmas.FloatOrient
import Verif.Lemmas.FloatOrientExact
import Verif.Lemmas.FloatPinhole
import Verif.Lemmas.FloatRounding
import Verif.Lemmas.FloatRoundingEssential
import Verif.Lemmas.FloatRoundingLoss
import Verif.Lemmas.FloatScale
import Verif.Lemmas.FloatScaleExact
import Verif.Lemmas.FloatSizes
import Verif.Lemmas.FloatTwist
import Verif.Lemmas.GraphDescent
import Verif.Lemmas.GraphGap
import Verif.Lemmas.Image
import Verif.Lemmas.LambdaTwist
import Verif.Lemmas.Linear
import Verif.Lemmas.LinearTriangulate
import Verif.Lemmas.LogMap
import Verif.Lemmas.Matching
import Verif.Lemmas.Mirror
import Verif.Lemmas.Optimize
import Verif.Lemmas.Orient
import Verif.Lemmas.Parallel
import Verif.Lemmas.Pose
import Verif.Lemmas.PoseGraph
import Verif.Lemmas.PoseGraphCentres
import Verif.Lemmas.PoseGraphJoint
import Verif.Lemmas.PoseGraphMoves
import Verif.Lemmas.PoseGraphPlaces
import Verif.Lemmas.PoseGraphQuat
import Verif.Lemmas.PoseGraphTurns
import Verif.Lemmas.Quat
import Verif.Lemmas.QuatDescent
import Verif.Lemmas.Recondition
import Verif.Lemmas.SfmAddView
import Verif.Lemmas.SfmConstraints
import Verif.Lemmas.SfmDataOps
import Verif.Lemmas.SfmDedup
import Verif.Lemmas.SfmExact
import Verif.Lemmas.SfmExactOps
import Verif.Lemmas.SfmExactSteps
import Verif.Lemmas.SfmFilter
import Verif.Lemmas.SfmFilterLoop
import Verif.Lemmas.SfmGrows
import Verif.Lemmas.SfmHistory
import Verif.Lemmas.SfmIncorporate
import Verif.Lemmas.SfmInit
import Verif.Lemmas.SfmLoss
import Verif.Lemmas.SfmMerge
import Verif.Lemmas.SfmMergeFail
import Verif.Lemmas.SfmOptimize
import Verif.Lemmas.SfmPipeline
import Verif.Lemmas.SfmPose
import Verif.Lemmas.SfmPoses
import Verif.Lemmas.SfmRecon
import Verif.Lemmas.SfmRegister
import Verif.Lemmas.SfmSearch
import Verif.Lemmas.SfmSplit
import Verif.Lemmas.SfmStart
import Verif.Lemmas.SfmStartGeo
import Verif.Lemmas.SfmThree
import Verif.Lemmas.SfmTop
import Verif.Lemmas.SfmTryMerge
import Verif.Lemmas.Spectral
import Verif.Lemmas.Transfer
import Verif.Lemmas.Transpose
import Verif.Lemmas.Triangulate
import Verif.Model.Bicubic
import Verif.Model.BicubicFloat
import Verif.Model.Blur
import Verif.Model.Contrast
import Verif.Model.Descriptor
import Verif.Model.Detect
import Verif.Model.Diffusion
import Verif.Model.EightPoint
import Verif.Model.Essential
import Verif.Model.Evolution
import Verif.Model.FMap
import Verif.Model.Fed
import Verif.Model.FivePoint
import Verif.Model.FloatAkaze
import Verif.Model.FloatArith
import Verif.Model.FloatGeom
import Verif.Model.FloatGraph
import Verif.Model.FloatOptimize
import Verif.Model.FloatPinhole
import Verif.Model.FloatResidual
import Verif.Model.FloatTwist
import Verif.Model.Image
import Verif.Model.LambdaTwist
import Verif.Model.LinAttr
import Verif.Model.Linear
import Verif.Model.Load
import Verif.Model.Matching
import Verif.Model.MeanMean
import Verif.Model.Optimize
import Verif.Model.Orient
import Verif.Model.Parallel
import Verif.Model.Pinhole
import Verif.Model.Pose
import Verif.Model.PoseGraph
import Verif.Model.Residual
import Verif.Model.Sandbox
import Verif.Model.SfmData
import Verif.Model.SfmFilter
import Verif.Model.SfmFrame
import Verif.Model.SfmGeometry
import Verif.Model.SfmHistory
import Verif.Model.SfmLoss
import Verif.Model.SfmOps
import Verif.Model.SfmPose
import Verif.Model.SfmRegister
import Verif.Model.SfmSanity
import Verif.Model.SfmSearch
import Verif.Model.SfmStart
import Verif.Model.SfmStartGeo
import Verif.Model.SfmThree
import Verif.Model.SfmTop
import Verif.Model.SfmWithout
import Verif.Model.Triangulate
import Verif.Props.Bicubic
import Verif.Props.BicubicFloat
import Verif.Props.Brightness
import Verif.Props.Cheirality
import Verif.Props.Contrast
import Verif.Props.CubeRoot
import Verif.Props.Descriptor
import Verif.Props.DescriptorExample
import Verif.Props.Detect
import Verif.Props.DetectExample
import Verif.Props.Diffusion
import Verif.Props.EightPoint
import Verif.Props.EpipolarLoss
import Verif.Props.Essential
import Verif.Props.EssentialFront
import Verif.Props.Evolution
import Verif.Props.Export
import Verif.Props.Extract
import Verif.Props.Fed
import Verif.Props.FedStable
import Verif.Props.Filter
import Verif.Props.FivePoint
import Verif.Props.FivePointExample
import Verif.Props.FloatDistort
import Verif.Props.FloatDistortExample
import Verif.Props.FloatDrift
import Verif.Props.FloatDriftExample
import Verif.Props.FloatDriftGraph
import Verif.Props.FloatExample
import Verif.Props.FloatExtract
import Verif.Props.FloatExtractExact
import Verif.Props.FloatGeom
import Verif.Props.FloatGeomExact
import Verif.Props.FloatGeomExample
import Verif.Props.FloatGraph
import Verif.Props.FloatGraphExact
import Verif.Props.FloatOptimize
import Verif.Props.FloatOptimizeExact
import Verif.Props.FloatPinhole
import Verif.Props.FloatPinholeExample
import Verif.Props.FloatResidual
import Verif.Props.FloatResidualExact
import Verif.Props.FloatRounding
import Verif.Props.FloatRoundingExample
import Verif.Props.FloatRoundingViews
import Verif.Props.FloatTwist
import Verif.Props.FloatTwistExact
import Verif.Props.HalfSize
import Verif.Props.LambdaTwist
import Verif.Props.LambdaTwistApprox
import Verif.Props.LambdaTwistBasic
import Verif.Props.Level
import Verif.Props.LinearTriangulate
import Verif.Props.Load
import Verif.Props.LogMap
import Verif.Props.Matching
import Verif.Props.MeanMean
import Verif.Props.Normalize
import Verif.Props.NormalizeExample
import Verif.Props.Optimize
import Verif.Props.Orient
import Verif.Props.OrientExample
import Verif.Props.OrientWeights
import Verif.Props.Parallel
import Verif.Props.Pinhole
import Verif.Props.PointGradient
import Verif.Props.Pose
import Verif.Props.PoseGradient
import Verif.Props.PoseGraph
import Verif.Props.PoseGraphExample
import Verif.Props.PoseGraphOrient
import Verif.Props.PoseGraphOrientExample
import Verif.Props.PoseGraphPoses
import Verif.Props.PoseGraphPosesExample
import Verif.Props.PoseGraphTurns
import Verif.Props.PoseGraphTurnsExample
import Verif.Props.Ramp
import Verif.Props.Residual
import Verif.Props.Response
import Verif.Props.Robust
import Verif.Props.Sandbox
import Verif.Props.SfmEdits
import Verif.Props.SfmExact
import Verif.Props.SfmExactExample
import Verif.Props.SfmExample
import Verif.Props.SfmFilter
import Verif.Props.SfmFilterExample
import Verif.Props.SfmFrame
import Verif.Props.SfmGraph
import Verif.Props.SfmGraphNext
import Verif.Props.SfmLoss
import Verif.Props.SfmLossExample
import Verif.Props.SfmMerging
import Verif.Props.SfmPipeline
import Verif.Props.SfmPipelineExample
import Verif.Props.SfmPipelineFound
import Verif.Props.SfmPlacedExample
import Verif.Props.SfmPose
import Verif.Props.SfmPoseExample
import Verif.Props.SfmRecord
import Verif.Props.SfmRegister
import Verif.Props.SfmRigid
import Verif.Props.SfmRigidExample
import Verif.Props.SfmSearch
import Verif.Props.SfmStart
import Verif.Props.SfmStartGeo
import Verif.Props.SfmStartGeoExample
import Verif.Props.SfmTables
import Verif.Props.SfmThree
import Verif.Props.SfmThreeExample
import Verif.Props.SfmTop
import Verif.Props.SfmWithout
import Verif.Props.Symmetry
import Verif.Props.SymmetryRefine
import Verif.Props.SymmetrySurvivors
import Verif.Props.ThreeView
import Verif.Props.Triangulate
import Verif.Props.TriangulateOptimal
import Verif.Spec.Bicubic
import Verif.Spec.Brightness
import Verif.Spec.Contrast
import Verif.Spec.Descriptor
import Verif.Spec.Detect
import Verif.Spec.EightPoint
import Verif.Spec.Essential
import Verif.Spec.Evolution
import Verif.Spec.Export
import Verif.Spec.Extract
import Verif.Spec.FivePoint
import Verif.Spec.FloatDistort
import Verif.Spec.FloatDrift
import Verif.Spec.FloatExtract
import Verif.Spec.FloatOptimize
import Verif.Spec.FloatPinhole
import Verif.Spec.FloatRounding
import Verif.Spec.Image
import Verif.Spec.LambdaTwist
import Verif.Spec.Load
import Verif.Spec.Optimize
import Verif.Spec.Orient
import Verif.Spec.PoseGraph
import Verif.Spec.PoseGraphTurns
import Verif.Spec.Residual
import Verif.Spec.Sfm
import Verif.Spec.SfmExact
import Verif.Spec.SfmFilter
import Verif.Spec.SfmFrame
import Verif.Spec.SfmGeometry
import Verif.Spec.SfmHistory
import Verif.Spec.SfmLoss
import Verif.Spec.SfmPipeline
import Verif.Spec.SfmPose
import Verif.Spec.SfmRegister
import Verif.Spec.SfmRigid
import Verif.Spec.SfmSearch
import Verif.Spec.SfmStart
import Verif.Spec.SfmStartGeo
import Verif.Spec.SfmThree
import Verif.Spec.SfmTop
import Verif.Spec.Symmetry
import Verif.Spec.Triangulate
