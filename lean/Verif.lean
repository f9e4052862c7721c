import Verif.Axioms
import Verif.Lemmas.Arun
import Verif.Lemmas.ArunSym
import Verif.Lemmas.Assembly
import Verif.Lemmas.BodyFrame
import Verif.Lemmas.Calm
import Verif.Lemmas.Convergence
import Verif.Lemmas.ConvergenceLM
import Verif.Lemmas.CreatePoints
import Verif.Lemmas.DampedFilter
import Verif.Lemmas.DampedRate
import Verif.Lemmas.Damping
import Verif.Lemmas.Demo
import Verif.Lemmas.DemoBack
import Verif.Lemmas.DemoDamped
import Verif.Lemmas.DemoLM
import Verif.Lemmas.DemoLandmarks
import Verif.Lemmas.DemoPair
import Verif.Lemmas.DemoPairLM
import Verif.Lemmas.DemoParts
import Verif.Lemmas.DemoPrior3d
import Verif.Lemmas.DemoRobust
import Verif.Lemmas.Dense
import Verif.Lemmas.DenseDamping
import Verif.Lemmas.DenseLoop
import Verif.Lemmas.DenseStep
import Verif.Lemmas.Deriv
import Verif.Lemmas.Determined
import Verif.Lemmas.Distance
import Verif.Lemmas.Exp
import Verif.Lemmas.ExpCurve
import Verif.Lemmas.FGraphPy
import Verif.Lemmas.FGraphPyCost
import Verif.Lemmas.FactorDeriv
import Verif.Lemmas.FirstOrder
import Verif.Lemmas.FirstOrderRes
import Verif.Lemmas.FirstOrderStep
import Verif.Lemmas.FixedPoint
import Verif.Lemmas.Float32
import Verif.Lemmas.FourthOrder
import Verif.Lemmas.Gauge
import Verif.Lemmas.GaugePlanar
import Verif.Lemmas.GaugeSpatial
import Verif.Lemmas.GaugeVisited
import Verif.Lemmas.GaussNewton
import Verif.Lemmas.Getters
import Verif.Lemmas.Gradient
import Verif.Lemmas.Graph
import Verif.Lemmas.Growth
import Verif.Lemmas.Held
import Verif.Lemmas.Influence
import Verif.Lemmas.IterReg
import Verif.Lemmas.Landmarks
import Verif.Lemmas.LnDeriv
import Verif.Lemmas.Local
import Verif.Lemmas.LocalGraph
import Verif.Lemmas.LocalStep
import Verif.Lemmas.Mirror
import Verif.Lemmas.Nesterov
import Verif.Lemmas.Node
import Verif.Lemmas.Normal
import Verif.Lemmas.Optimizer
import Verif.Lemmas.OutSafe
import Verif.Lemmas.Pair
import Verif.Lemmas.Parts
import Verif.Lemmas.Plane
import Verif.Lemmas.PlaneDescent
import Verif.Lemmas.PlaneEmpty
import Verif.Lemmas.PlaneEmptyHist
import Verif.Lemmas.PlaneGrad
import Verif.Lemmas.PlaneHeap
import Verif.Lemmas.PlaneHeapSolve
import Verif.Lemmas.PlaneInit
import Verif.Lemmas.PlaneLast
import Verif.Lemmas.PlaneObj
import Verif.Lemmas.PlaneOrder
import Verif.Lemmas.PlanePy
import Verif.Lemmas.PlanePyCalls
import Verif.Lemmas.PlaneReg
import Verif.Lemmas.PlaneRegCost
import Verif.Lemmas.PlaneRegHist
import Verif.Lemmas.PlaneRegStill
import Verif.Lemmas.PlaneRegTotal
import Verif.Lemmas.PlaneSecond
import Verif.Lemmas.PlaneVia
import Verif.Lemmas.PointOrder
import Verif.Lemmas.Proper
import Verif.Lemmas.Quat
import Verif.Lemmas.QuatInv
import Verif.Lemmas.Quiet
import Verif.Lemmas.Regen
import Verif.Lemmas.RegenFirst
import Verif.Lemmas.Registration
import Verif.Lemmas.Rel3d
import Verif.Lemmas.Restated
import Verif.Lemmas.Resume
import Verif.Lemmas.Rotation
import Verif.Lemmas.SE3
import Verif.Lemmas.SE3Cov
import Verif.Lemmas.SE3Ln
import Verif.Lemmas.SE3More
import Verif.Lemmas.SO3
import Verif.Lemmas.SO3Bounds
import Verif.Lemmas.SO3Hist
import Verif.Lemmas.SO3Ln
import Verif.Lemmas.SO3LnBand
import Verif.Lemmas.SO3LnInv
import Verif.Lemmas.SO3NearPi
import Verif.Lemmas.SVD
import Verif.Lemmas.SensorFrame
import Verif.Lemmas.Smooth
import Verif.Lemmas.Solve
import Verif.Lemmas.SolveLoop
import Verif.Lemmas.SolveSafe
import Verif.Lemmas.SolveStep
import Verif.Lemmas.SpatialChart
import Verif.Lemmas.SpatialDamped
import Verif.Lemmas.SpatialFactors
import Verif.Lemmas.SpatialLM
import Verif.Lemmas.SpatialOrth
import Verif.Lemmas.SpatialStart
import Verif.Lemmas.SpatialStep
import Verif.Lemmas.Stack
import Verif.Lemmas.Statistics
import Verif.Lemmas.StatisticsGraph
import Verif.Lemmas.StoredFirst
import Verif.Lemmas.Taylor
import Verif.Lemmas.Turns
import Verif.Lemmas.Uncertain
import Verif.Lemmas.Units
import Verif.Lemmas.Update
import Verif.Lemmas.UpdateFirst
import Verif.Lemmas.Weights
import Verif.Lemmas.Wiring
import Verif.Model.CreatePoints
import Verif.Model.Dense
import Verif.Model.Eigen
import Verif.Model.EigenFactor
import Verif.Model.FGraphPy
import Verif.Model.Factor
import Verif.Model.FactorClass
import Verif.Model.Graph
import Verif.Model.Node
import Verif.Model.Optimizer
import Verif.Model.Plane
import Verif.Model.PlaneHeap
import Verif.Model.PlanePy
import Verif.Model.PlaneReg
import Verif.Model.Quat
import Verif.Model.Registration
import Verif.Model.RegistrationPy
import Verif.Model.SE3
import Verif.Model.SE3Cov
import Verif.Model.SO3
import Verif.Model.Solve
import Verif.Props.Arun
import Verif.Props.ArunSym
import Verif.Props.Assembly
import Verif.Props.AssemblyStray
import Verif.Props.BodyFrame
import Verif.Props.Convergence
import Verif.Props.ConvergenceLM
import Verif.Props.ConvergenceSpatial
import Verif.Props.ConvergenceSpatialLM
import Verif.Props.Convert
import Verif.Props.CovLayout
import Verif.Props.CreatePoints
import Verif.Props.Damping
import Verif.Props.Dense
import Verif.Props.DenseDamping
import Verif.Props.DenseStep
import Verif.Props.Determined
import Verif.Props.Distance
import Verif.Props.EigenFactor
import Verif.Props.FGraphPy
import Verif.Props.Factor
import Verif.Props.FixedPoint
import Verif.Props.FourthOrder
import Verif.Props.GaussNewton
import Verif.Props.Getters
import Verif.Props.Gradient
import Verif.Props.Graph
import Verif.Props.Growth
import Verif.Props.Held
import Verif.Props.Influence
import Verif.Props.IterReg
import Verif.Props.Jacobian
import Verif.Props.Jacobian3d
import Verif.Props.JacobianStored
import Verif.Props.Mirror
import Verif.Props.Nesterov
import Verif.Props.Node
import Verif.Props.Optimizer
import Verif.Props.Ownership
import Verif.Props.Parts
import Verif.Props.Plane
import Verif.Props.PlaneClear
import Verif.Props.PlaneDescent
import Verif.Props.PlaneDescentDemo
import Verif.Props.PlaneEmpty
import Verif.Props.PlaneEstimate
import Verif.Props.PlaneGrad
import Verif.Props.PlaneGraph
import Verif.Props.PlaneHeap
import Verif.Props.PlaneInit
import Verif.Props.PlaneLabel
import Verif.Props.PlaneLast
import Verif.Props.PlaneLeft
import Verif.Props.PlaneNewton
import Verif.Props.PlaneOrder
import Verif.Props.PlanePy
import Verif.Props.PlaneReg
import Verif.Props.PlaneRmse
import Verif.Props.PlaneSecond
import Verif.Props.PlaneSingle
import Verif.Props.PointOrder
import Verif.Props.Quat
import Verif.Props.Quiet
import Verif.Props.RegistrationPy
import Verif.Props.Resume
import Verif.Props.Robust
import Verif.Props.SE3
import Verif.Props.SE3Cov
import Verif.Props.SE3Ln
import Verif.Props.SO3
import Verif.Props.SO3Ln
import Verif.Props.SO3LnNorm
import Verif.Props.SO3Ops
import Verif.Props.SensorFrame
import Verif.Props.Solve
import Verif.Props.Statistics
import Verif.Props.Turns
import Verif.Props.Uncertain
import Verif.Props.Units
import Verif.Props.Update
import Verif.Props.VisitedLM
import Verif.Props.VisitedLM3d
import Verif.Props.Weights
import Verif.Props.WorldFrame
import Verif.Props.WorldFrame3d
import Verif.Props.WorldFrameNear
import Verif.Props.WorldFramePlane
import Verif.Props.WorldFrameSpatial
import Verif.Spec.BodyFrame
import Verif.Spec.Convergence
import Verif.Spec.ConvergenceSpatial
import Verif.Spec.CovLayout
import Verif.Spec.Damped
import Verif.Spec.DampedModel
import Verif.Spec.Determined
import Verif.Spec.Geometry
import Verif.Spec.Graph
import Verif.Spec.LeastSquares
import Verif.Spec.Measurement
import Verif.Spec.Mirror
import Verif.Spec.Nesterov
import Verif.Spec.Ownership
import Verif.Spec.Planar
import Verif.Spec.Plane
import Verif.Spec.PlanePy
import Verif.Spec.PlaneSecond
import Verif.Spec.Python
import Verif.Spec.Registration
import Verif.Spec.SensorFrame
import Verif.Spec.Statistics
import Verif.Spec.Turns
import Verif.Spec.Uncertain
import Verif.Spec.Units
import Verif.Spec.Visited
import Verif.Spec.WorldFrame
import Verif.Spec.WorldFrame3d
