import Lean.Elab.Command
import Lean.Util.CollectAxioms
import Verif.Props.Arun
import Verif.Props.ArunSym
import Verif.Props.Assembly
import Verif.Props.AssemblyStray
import Verif.Props.BodyFrame
import Verif.Props.Convergence
import Verif.Props.ConvergenceLM
import Verif.Props.ConvergenceSpatial
import Verif.Props.ConvergenceSpatialLM
import Verif.Props.Convert
import Verif.Props.CovLayout
import Verif.Props.CreatePoints
import Verif.Props.Damping
import Verif.Props.Dense
import Verif.Props.DenseDamping
import Verif.Props.DenseStep
import Verif.Props.Determined
import Verif.Props.Distance
import Verif.Props.EigenFactor
import Verif.Props.FGraphPy
import Verif.Props.Factor
import Verif.Props.FixedPoint
import Verif.Props.FourthOrder
import Verif.Props.GaussNewton
import Verif.Props.Getters
import Verif.Props.Gradient
import Verif.Props.Graph
import Verif.Props.Growth
import Verif.Props.Held
import Verif.Props.Influence
import Verif.Props.IterReg
import Verif.Props.Jacobian
import Verif.Props.Jacobian3d
import Verif.Props.JacobianStored
import Verif.Props.Mirror
import Verif.Props.Nesterov
import Verif.Props.Node
import Verif.Props.Optimizer
import Verif.Props.Ownership
import Verif.Props.Parts
import Verif.Props.Plane
import Verif.Props.PlaneClear
import Verif.Props.PlaneDescent
import Verif.Props.PlaneDescentDemo
import Verif.Props.PlaneEmpty
import Verif.Props.PlaneEstimate
import Verif.Props.PlaneGrad
import Verif.Props.PlaneGraph
import Verif.Props.PlaneHeap
import Verif.Props.PlaneInit
import Verif.Props.PlaneLabel
import Verif.Props.PlaneLast
import Verif.Props.PlaneLeft
import Verif.Props.PlaneNewton
import Verif.Props.PlaneOrder
import Verif.Props.PlanePy
import Verif.Props.PlaneReg
import Verif.Props.PlaneRmse
import Verif.Props.PlaneSecond
import Verif.Props.PlaneSingle
import Verif.Props.PointOrder
import Verif.Props.Quat
import Verif.Props.Quiet
import Verif.Props.RegistrationPy
import Verif.Props.Resume
import Verif.Props.Robust
import Verif.Props.SE3
import Verif.Props.SE3Cov
import Verif.Props.SE3Ln
import Verif.Props.SO3
import Verif.Props.SO3Ln
import Verif.Props.SO3LnNorm
import Verif.Props.SO3Ops
import Verif.Props.SensorFrame
import Verif.Props.Solve
import Verif.Props.Statistics
import Verif.Props.Turns
import Verif.Props.Uncertain
import Verif.Props.Units
import Verif.Props.Update
import Verif.Props.VisitedLM
import Verif.Props.VisitedLM3d
import Verif.Props.Weights
import Verif.Props.WorldFrame
import Verif.Props.WorldFrame3d
import Verif.Props.WorldFrameNear
import Verif.Props.WorldFramePlane
import Verif.Props.WorldFrameSpatial

/-!
# Axioms

The build fails here when a theorem of this project depends on an axiom other than the three standard ones.
-/

open Lean Elab Command

run_cmd do
  let env ← getEnv
  let allowed := [``propext, ``Classical.choice, ``Quot.sound]
  let names := env.constants.fold (init := #[]) fun l n c =>
    match c with
    | .thmInfo _ => if (`Mrob).isPrefixOf n then l.push n else l
    | _ => l
  let mut used : NameSet := {}
  for n in names do
    for a in ← collectAxioms n do
      unless allowed.contains a do
        throwError "{n} uses the axiom {a}"
      used := used.insert a
  logInfo m!"{names.size} theorems, axioms {used.toList}"
