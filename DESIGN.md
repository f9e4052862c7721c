# Formal model of mrob — design

Subject: `/repo` (MobileRoboticsSkoltech/mrob), C++14, read as text. Nothing is compiled or run.
Prover: Lean 4 with Mathlib, project in `lean/`, built with `lake build`.

## 1. Layout

* `lean/Verif/Spec/…`   small specifications, written without reference to the model's helper functions
  (e.g. "rotation" = orthogonal + determinant one, "exponential" = Mathlib's power series).
* `lean/Verif/Model/…`  the model, function by function; each definition carries a comment with the file and
  lines it transcribes and the simplifications made.
* `lean/Verif/Lemmas/…` auxiliary lemmas.
* `lean/Verif/Props/…`  the property theorems (named `Cnn_…`), each followed by an `example` showing that
  its hypotheses are met by a concrete non-trivial case. A theorem proving less than the listed
  property carries the suffix `_partial`; a refuted statement is proved as `…_fails` / `not_…` with a concrete witness.

## 2. Modelling decisions

* **Numbers.** `double` is modelled by the real numbers (`ℝ`), transcendental functions by Mathlib's. Rounding, overflow,
  infinities and signed zeros are not modelled. Where the code tests for NaN (`std::isnan(acos(x))`) the model makes
  the NaN an explicit `none`, produced exactly when the argument of `acos` is outside `[-1,1]`.
  Control-flow models (LM loops) are parametric in the comparison outcome where it matters, so that their
  theorems also cover executions in which a comparison is false because of NaN.
* **Eigen.** Fixed-size matrices are functions on finite index types. `Mat4`/`Mat6` are indexed by `Fin 3 ⊕ Unit` and
  `Fin 3 ⊕ Fin 3` so that `topLeftCorner` etc. are the Mathlib block projections. Decompositions (LDLT, SVD, symmetric eigen solver)
  are *oracles constrained by their mathematical contract*: the theorem quantifies over every result meeting the contract.
  Eigen itself is not modelled, except for the conversions between quaternions and matrices, transcribed from its documentation.
* **Undefined behaviour and asserts.** CMake's default build type is Release, which defines `NDEBUG`, so a failing
  `assert` is not a guaranteed abort. Model functions that can hit an out-of-range access, a duplicate sparse `insert`, an `erase(end())` or a
  failing assert return a distinct outcome (`Outcome.ub` / `none`), never a default value.
* **Objects.** Nodes and factors are heap objects referenced by index (shared pointers); a graph holds lists of references.
  `unordered_map`/`deque` containers are modelled by lists / finite maps. The planes of `PlaneRegistration` are listed in the order of
  their insertion; C115 shows that, the initialisation with unseen planes aside, no other order of iteration gives another result.
* **Threads.** The library is single threaded; nothing to model.

## 3. Properties: what is modelled and how it is proved

| id | model | proof |
|----|-------|-----------|
| C01 | `hat3`, `vee3`, `hat6`, `vee6` | entrywise, `ring`; cross product from Mathlib |
| C02 | `SO3.exp` | Rodrigues: `W³ = -o²W`, split the power series in even/odd parts; Taylor branch: bounds on `sin`, `cos` |
| C03 | `SO3.exp` | algebraic: `c1² + o²c2² = 2 c2`; bounded defect in Taylor branch |
| C04 | `SO3` ops | invariant by induction on operation lists |
| C05 | `SO3.ln` | Euler-axis algebra on entries of a rotation; refuted in full (diagonal tie), partial outside the tie and the approximated bands |
| C06 | `SO3.ln`, `SO3.exp` | computation of trace and skew part of the Rodrigues formula |
| C07 | `SO3.ln` | as C05; refuted by the same tie; upper bound `π` in general |
| C08 | `SE3.exp` | `M⁴ = -o²M²` for `M = hat6 ξ`, power series |
| C09 | `SE3` ops | invariant by induction on operation lists |
| C10 | `SE3.inv` | block algebra |
| C11 | `SE3.transform`, `transform_array` | block algebra, list induction |
| C12 | `SE3.adj`, updates | `R hat(w) Rᵀ = hat(Rw)`; exact when the angular part is zero or longer than 1e-3, explicit defect bound in between |
| C13 | `SE3.ln`, `SE3.exp`, `regenerate` | `V · Vinv = I` by coefficient identities + C05/C06 |
| C14 | distances | algebra; `ln(Rᵀ)` has the norm of `ln R` |
| C15 | `isSO3`, `isSE3` | counterexamples; completeness as partial |
| C16 | `quat_to_so3` (Eigen's `normalized`, `toRotationMatrix` transcribed) | polynomial identities |
| C17 | `rpy_to_so3` (Eigen's AngleAxis product semantics) | rotation closure, periodicity |
| C18 | `SE3Cov.compound_2nd_order` | block algebra, induction on chains |
| C19 | `SE3Cov.compound_4th_order` | matrix transpose algebra |
| C20 | `update_lhs/rhs` | exp of `-w` is the transpose; one-parameter subgroup via C02/C08 |
| C21 | `wrap_angle` loops as well-founded recursion | termination measure by floor; uniqueness |
| C22 | `NodePose2d` op machine | induction; constructor refuted |
| C23 | all node types, save/restore | induction; refuted for unwrapped 2D poses |
| C24 | `evaluate_robust_weight` | inequalities; derivative of the cost; RANSAC refuted |
| C25 | `NodePlane4d` op machine | induction; exact condition for the constructor to keep the plane; `set_state` excluded (shown not to normalise) |
| C26 | every factor's residual and Jacobian | `HasDerivAt` along every direction; odometry factor refuted. 3D poses: the factor theorems use the group update of `update_from_auxiliary`; `C26_stored_partial` and `C26_stored_iff_partial` (Lemmas/StoredFirst) show that the regenerated pose stored by `update` has the same first derivatives, for every differentiable function of the pose, at poses kept by logarithm and exponential other than half turns; instances for 3D landmarks and point-to-plane |
| C27 | relative pose constructors | refuted in both 2D and 3D; partial for the unreversed order |
| C28 | initialisation in constructors | 3D, odometry and 2D landmark proved; 2D pose and 3D landmark refuted |
| C29 | `chi2` | sum of PSD quadratic forms |
| C30 | residuals | algebra; 3D relative pose: residual is transformed by the adjoint |
| C31–C33, C59 | graph state machine over heap | induction over operation lists |
| C34, C43, C44 | `build_adjacency`, `build_info_adjacency` with explicit `insert` | refinement to block sums; UB outcome for double insertion; `C44_memory` (Props/AssemblyStray): unwritten rows do not reach the system; `C43_solution` (Props/Weights): same estimates for any order of nodes and factors |
| C35 | histories of additions, `chi2` and `solve` on one object | the frame of a solver call: only stored evaluations and states of active nodes change |
| C36 | `optimize_gauss_newton`, `update_nodes` | completing the square in the linearised cost; exact for affine residuals (Lemmas/GaussNewton, Landmarks) |
| C37–C40 | LM loop as the code has it (`trial`, `reject`, `adapt`) | inductive predicate of the executions of the loop; χ² invariant under reduction of headings |
| C41, C42 | `get_estimated_state`, `get_chi2_array`, `chi2` | induction over histories; witnesses in Lemmas/DemoLM, DemoLandmarks |
| C45, C48 | dense solver | sum manipulation; refuted, partial for unary factors |
| C46, C47 | `Optimizer` loops | loop invariant |
| C49 | `Plane` push/S/Q/mean | induction over call histories; sums over lists |
| C50 | `Plane` as a state machine | cache of `S` refuted by witness; fresh case by history lemma |
| C51 | `estimate_plane` with eigen contract | Rayleigh quotient bound from the contract |
| C52 | `calculate_gradient` | derivative of `exp` at zero (library update), product rule; envelope argument for the re-estimated error |
| C53 | `estimate_plane_incrementally`, `get_error_incremental` | one step exact; second step and reported value refuted |
| C63 | `calculate_hessian` | refuted by six points on the axes; the exact error for every twist (`C63_exact`: the exponential of the library is a polynomial near zero, so the cost is one too and its second coefficient is compared with the quadratic form of the returned triangle); no error when the points of the pose lie on the plane, nor in the translation block |
| C54 | `PlaneRegistration` as a state machine over all its public calls | invariant of the poses by induction over histories; trace of the gradient loop; C47 for the LM modes |
| C55 | `PlaneRegistration::solve` | return value refuted; the stored number is the length of the trace of the loop |
| C65 | `calculate_gradient_hessian`, interpolated `set_last_pose` | derivative of `exp(k ln(exp(s ξ) T))` at `s = 0` computed for translations `T`; sum over planes, times and points; second order for two poses by the polynomial expansion of C63; two three-pose counterexamples |
| C66 | `solve_initialize` | C56 for every pose; refuted (out of range read) when a plane has no point in the first pose |
| C67 | `calculate_poses_rmse` | C13 for the logarithm of the difference; zero iff equal off the diagonals; refuted at a half turn about a diagonal and (exception) for a longer ground truth |
| C68 | `CreatePoints` with the random draws as arguments | loop invariant for the constructor; rigidity of exponentials; optimality C51 for the zero error |
| C70 | the single precision plane index (`fl32`: 24 bits, to nearest, ties to even) | relative error bound 2^-24 for each operation; exact when points × planes ≤ 2^24; out-of-range read for 2^25 points |
| C69 | `solve_interpolate_gradient` | totality of every step; division `0/0` as NaN outcome; both directions of the condition |
| C72 | `b_` as assembled, `chi2`, the robust weights, increments through `update` (3D poses without `regenerate`) | `Smooth`: the residual along an increment has the derivative `J δ`; proved for planar factors, 3D landmarks (either order) and point-to-plane; then `b·δ` is the derivative of `chi2` (quadratic) or twice that of the robust objective, and the GN step is a descent direction; false for a 3D prior turned by 2 rad (the Jacobian ignores the residual); `C72_planes_partial` adds observations of planes in either node order, along increments which do not stretch a normal |
| C73 | GN and LM with robust weights | GN: the step is zero iff the robust objective is stationary; LM: accepts on plain `chi2`, so from the mean of three Huber observations (one outlier) it returns unmoved for all parameters although the robust objective can be reduced |
| C71 | `FGraphPy` as a state machine: constructors of all factor classes with the re-ordering of the neighbour list, the initialisation of nodes in constructors, `add_*`, `solve`, `chi2`, `get_estimated_state` … (`Model/FGraphPy`) | invariant `PyInv` (ids are positions, all references registered, classes fit) by induction over call lists; `Env.Complete` of the linear solver for "always returns"; four refutations by concrete histories |
| C74 | the same histories, errors written down by node id (`Spec/Measurement`) | invariant keeps, per factor id, the constructor result and the value of the call; `chi2` of the class = the specified error; three refutations |
| C75 | the same histories | frame part of the invariant; initialised node = `Spec.predicted`; two refutations |
| C76 | `so3_to_quat` with Eigen's conversion transcribed branch by branch (`Model/Quat`) | every branch reads off a row of the rank one matrix `4 q qᵀ`; its 2×2 minors vanish by orthogonality (Gröbner reasoning of `grind`); uniqueness up to sign |
| C77 | the Python class `PlaneRegistration` (`Model/PlanePy`, over the models of plane registration, planes and the dense optimizer); the notes of a careful user are the specification (`Spec/PlanePy`) | an invariant linking object and notes is kept by every call (`Lemmas/PlanePy`, `PlanePyCalls`), with a logic for partial outcomes (`Lemmas/OutSafe`) used through the solver loops; careless histories are counterexamples |
| C78 | same | the invariant of C77 says that the object holds the noted points; stale errors, clamped times and dropped points are counterexamples |
| C79 | Model/Solve `trial`, `adapt`, `nextLambda`, `lmLoop` | completing the square in the damped cost (Spec/Damped) shows that the code's denominator is the promised decrease; on landmark graphs the cost is quadratic, so the promise is always kept; induction over the loop gives the damping, the number of iterations and, with the information matrix bounded below, the distance from the optimum |
| C80 | Model/Dense, Model/Optimizer `oneIteration` | the columns of the dense Hessian are reindexed to those of the sparse problem (C45), the update is solved for the step; the counterexample solves the equations of two poses explicitly |
| C81 | Model/Graph `destroy`, Spec/Ownership (ownership by shared pointers, deletion as a least fixed point) | after the destructor no node of the graph owns a factor, so chains of owners have length at most one; nodes outside the graph stay in a cycle of two |
| C82 | Model/PlaneHeap (registrations and planes in one heap, `trajectory_` a pointer; all functions that go through the planes, `solve` in all modes included) | as long as no call hands over a plane that is in use, each call acts on its registration as on an object with planes of its own (the model of C49-C55), fails exactly if that fails, and leaves the others alone (`C82_step_partial`); after a history each registration is what the calls made for it alone would have made of it (`C82_history_partial`), `C82_error_partial`. The generic optimizer is followed for two related problems (Lemmas/PlaneHeapSolve). For two registrations from one scene false: `C82_shared_trajectory`, `C82_shared_fails` |
| C83 | Model/Registration | singular values do not depend on the decomposition, so the threshold test gives the same answer for the transposed, rotated or reordered cross moment; the result is the unique minimiser of the cost (C56), which transforms as stated. Iterative methods: the loops run in lockstep with `S P = T` |
| C84 | Model/RegistrationPy `arunPy`, `gicpPy`, `weightedPy` | C56, C64 and C57 at the start value identity (`C84_arun_partial`, `C84_iterative`); for the octahedron and every rigid motion the result is the identity (`C84_arun_fails`) |
| C85 | Model/RegistrationPy `MatX` (column-major storage, unchecked access), `gicpX` | offsets computed for both layouts: below each other agrees with C57 (`C85_stacked_partial`), the documented one reads columns `i..i+2` (`C85_documented`) and yields not-a-number for explicit positive definite covariances (`C85_fails`) |
| C86 | Model/Solve, Model/Node, Lemmas/FixedPoint `Consistent`, `Settled` | zero residuals give a zero right-hand side, so the (damped) normal equations have the zero solution only; induction over the executions of the Levenberg-Marquardt loop (`C86_gn_partial`, `C86_lm_partial`, `C86_lm_stops_partial`); one-node graph for the negation, for all sound and complete solvers and both methods (`C86_fails`) |
| C87 | Model/SE3Cov `updateLhs`, `updateRhs`, `default`, `compound2`, Spec/Uncertain `Describes` | the random pose is a finite ensemble `exp(δᵢ) T`; `exp(Ad ξ) T = T exp(ξ)` for rigid `T` moves the perturbation to the left, sums over the product ensemble give the second moments of `δ₁ + Ad δ₂` (`C87_update_rhs`, `C87_exact`, `C87_compound`). Partial: `update` leaves the covariance as it is, which is right only when the adjoint of the increment leaves it alone (`C87_update_lhs_partial`, `C87_update_lhs_fails`); the default object has covariance identity (`C87_default_fails`). The product of two uncertain poses is `exp(δ₁) exp(Ad δ₂) T`; that this is described by the sum `δ₁ + Ad δ₂` up to higher order is not proved |
| C88 | Model/Solve `solve`, `lmLoop`, `trial`, `adapt`; Lemmas/Weights `Alike` | two graphs are alike when they have the same unknowns at the same values, and all weighted bilinear sums over the factors and the cost are in the ratio `c`; the normal equations then have the same solution (unique, in any order of the columns), the gain ratio is the same, and the loops run in lockstep when damping and tolerance are scaled too (`lmLoop_alike`). `C88_scale_gn`, `C88_merge` and `C88_silent` follow, also `C43_solution`. Scaling is for quadratic factors (a robust kernel has its own scale). Partial: Levenberg-Marquardt starts with the damping `1e-5` whatever the information is and compares the decrease of the cost with an absolute tolerance (`C88_scale_lm_partial`, `C88_scale_fails`) |
| C89 | Model/Optimizer `lmStep`, `damp`, `adapt`, `lmLoop`; Spec/DampedModel `expected`, `penalty` | completing the square around the increment (the damped Hessian is positive definite because it is positive semidefinite and inverted); the denominator of `calculate_model_fidelity` equals minus the expected change; one unrolling of the loop. For `FGraphSolveDense` the Hessian is positive semidefinite when the information matrices are (Lemmas/DenseLoop), but its gradient is not the one of the error (C45), so the model it judges is not the one of `chi2` |
| C90 | Model/PlaneReg `allPosesStep`, `gradStep`, `error` | the error is at most the cost of the planes estimated before the step, with equality before it; that cost is differentiable in the step size, with derivative minus a positive multiple of the squared gradient (moved_deriv, C65). `C90_all_poses` is complete. For the interpolated mode this needs equal numbers of points at all poses after the first, and two poses or the initial trajectory; `C90_interpolated_fails`: three poses, eight points at the middle one and four at the last: every step size increases the error of the first step, because each pose is divided by its own number of points |
| C91 | Model/PlaneReg `increment`, `gradStep`, `interpolateGradient`, `solve`; Spec/Nesterov | induction along the iterations (gradLoop_trace): the increment `β²v - (1+β)αg` is the difference of consecutive look-ahead points; the gradients are characterised as derivatives of the cost of the estimated planes. `C91_restart_fails`: the momentum is cleared by `reset_solution` and `set_number_planes_and_poses` only, so a second `solve` started at an exact solution leaves it |
| C92 | Model/Solve `gaussNewton`, `solve`, fields `sys` (`L_`, `b_`, `dx_`) and `mats` (`A_`, `W_`, `r_`); Lemmas/Getters `InfoAt`, `RhsAt` (columns of the matrix against nodes and components) | the assembled system is the linearisation at the states at hand (C34), and nothing is evaluated again after the step. `C92_gn_fails`: one landmark seen at distance and bearing. `C92_lm_fails`: for every graph of landmarks seen from known poses the returned matrix carries the damping of the last trial |
| C93 | Spec/WorldFrame (`Restated`, `PlanarMoved`, `FactorMoved`, `SpatialMoved`); Lemmas/Gauge (change of coordinates of a graph: residuals, Jacobians, information matrix, solution, LM loop), Lemmas/GaugePlanar, Lemmas/Restated, Lemmas/DemoPair (one node measured twice) | `C93_gn_partial`: planar graphs of every factor class, any planar motion; `C93_lm_partial`: planar pose graphs, same iterations, cost and moved estimates. Relative poses and landmarks keep their information; priors and odometry must have it restated, because their error is expressed in the world frame. `C93_odom_fails`, `C93_rel3d_fails`: with the information kept (as a user has it) the estimate of the turned problem is not the turned estimate. `C93_near_fails`: the distance condition of the landmarks is needed. `C93_spatial_partial` (Spec/WorldFrame3d, Lemmas/GaugeSpatial): spatial graphs of every factor class, any rigid motion, Gauss-Newton; priors and relative poses have their information restated by the adjoint of the motion. Its conditions: estimated nodes are poses and landmarks, and planes if the motion is a rotation (`NodePlane4d::update` normalises the normal but not the offset, so it is false for displaced frames: `C93_plane_fails`, two observations with orthogonal normals), the errors of measured poses are rotations by 0 or by an angle in (5e-3, π/2), the angular increments are 0 or longer than 1e-3, and the displaced poses are where `exp(ln T) = T` in both frames (the update passes every pose through `exp(ln T)`, whose branches depend on the absolute pose). Levenberg-Marquardt (Spec/Visited: `LMVisited`, `LMStart`, the estimates that the loop tries, restores and starts from; Lemmas/GaugeVisited: the two loops in lockstep, with conditions only at those estimates): `C93_lm_landmarks_partial` for planar graphs with landmarks, `C93_spatial_lm_partial` for spatial graphs turned by a rotation, or moved if only landmarks are estimated. The damping is isotropic but the adjoint of a translation is not orthogonal, so displaced frames with estimated poses or planes are not covered for LM |
| C94 | Spec/Convergence (`Agrees`: the measurements are those of the states; `Near`, `Displaced`: starts in a neighbourhood; `repeatGN`, `repeatLM`: consecutive calls); Lemmas/Local (little-o estimate of a Newton step), Lemmas/LocalGraph and Lemmas/LocalStep (graphs displaced by a vector, continuity of residuals, Jacobians and robust weights), Lemmas/Convergence (step and induction), Lemmas/DemoBack | `C94_gn_partial`: planar graphs (priors, relative poses, landmarks by range and bearing, odometry without first turn or without drive), every robust function but RANSAC, every c > 0: there is a neighbourhood in which every call contracts the error by c. The proof uses the exactness of the Jacobians (C26), continuity of the weights, invertibility of the information matrix near the solution, and the change of coordinates of C93 (with the trivial motion) for wrapped headings. `C94_odom_fails`: with odometry that turns round and drives, identity information everywhere, the error of the heading grows by the factor 1.3 in one call, however small it is. `C94_lm_partial`: the same graphs with repeated calls of Levenberg-Marquardt (at most M iterations each, any tolerance): near the solution every trial is accepted (the cost is a quadratic form up to o(e²), Lemmas/ConvergenceLM) and each call contracts the Euclidean error by any q > 1e-5/(1e-5+μ), μ a lower bound of the eigenvalues of the information matrix (Lemmas/DampedRate); the damping restarts at 1e-5 in each call, so convergence is linear, not faster. `C94_spatial_partial` (Spec/ConvergenceSpatial: `NearSpatial`, `SafeTurn`, `AgreesSpatial`; Lemmas/FirstOrder*, Calm, Regen, Spatial*): Gauss-Newton on spatial graphs (3D poses and landmarks; priors, relative poses, points seen, points on planes) with the same conclusion for the entries of the poses. The residuals through `SE3::ln` are expanded to first order around the true states; `SE3::regenerate` (one `exp ∘ ln` per update) is shown to be close to the identity to first order near turns that the code's logarithm keeps (`SafeTurn`), also for matrices that are not exactly rigid. `C94_spatial_fails`: with a pose turned by half a turn about the bisector of x and y, one call started exactly at the true states moves the pose by more than 1/2. `C94_spatial_lm_partial` (Lemmas/Pair, RegenFirst, UpdateFirst, DampedFilter, SpatialDamped, SpatialLM): Levenberg-Marquardt on the same spatial graphs, up to a constant factor, linear with any ratio q > 1e-5/(1e-5+μ). A damped step does not end at the solution, so here `regenerate` has to be the identity to first order at a distance from the solution; the updated pose is compared with the exact rotation `cayley(u)·R` next to it, for which `exp ∘ ln` is exact. Half turns are left out (`NoHalfTurn`): there the code clamps the angle and `regenerate` is only close to first order in the distance to the half turn. Missing: plane nodes, measurements with noise, half turns for Levenberg-Marquardt. |
| C95 | Model/EigenFactor (the member functions of `PlaneFactor` that have a definition; the directory is not part of the build), clouds and costs of Spec/Plane | the sum of the matrices `S` is the quadratic form of the cost with all poses at the identity, eigenvalue contract as in C51; `C95_blind`: poses never read; `C95_fails`, `C95_same_id_fails`: floor seen from two heights; `C95_jacobian_fails`: the Jacobian reads an unwritten matrix |
| C96 | Model/Solve `solve`, `lmLoop`, `trial`; Lemmas/Parts `Part` | the rows of the normal equations at the nodes `S` are sums over the factors at `S` only (`Part.row`, `Part.rhs`), so the solution of one graph, patched into that of the other, solves the same rows; it is the same by positive definiteness (Gauss-Newton, `C96_gn`) or damping (one iteration of Levenberg-Marquardt, `C96_lm_partial`). `C96_part`: the part alone is determined when the whole is, and `solve(GN)` returns on it. False for Levenberg-Marquardt as a whole (`C96_lm_fails`): damping, acceptance and the stop test are shared by all parts |
| C97 | Model/Solve `solve`, Model/FactorClass Jacobians; Spec/Determined `Fixes`, `Tied` | the quadratic form of the information matrix is the sum of weighted squares of the linearised measurements; where it vanishes every increment vanishes along the ties, because the Jacobian block of the node that a measurement fixes is invertible (determinants of all classes, `fixes_zero`). `C97_determined`. `C97_session`: the conditions survive every call of `solve`: ties depend on the graph only, weights stay nonnegative, and every pose made by `regenerate` has an invertible rotation block (`solid_regenerate`; being exactly rigid is not preserved in the small-angle branch). Poses are not fixed by landmarks or planes in `Tied` (several would be needed, and which ones is not modelled). Converses: `C97_free` (planar, relative measurements only; 3D graphs are not covered: a common displacement is seen by the code's Jacobian `(1, -adj Tr)` wherever the residual is not zero), `C97_few`, `C97_isolated` |
| C98 | Model/Solve `solve`, Model/FactorClass residuals and Jacobians; Spec/Statistics `Observed` (a measurement and the same measurement with an error), `Remeasured`, `White` (mean zero, covariance `W⁻¹`, uncorrelated), `MovedBy` | at the true states the residual of a measurement with error `e` is `-e` and its Jacobian that of the exact one (`observed_res`; for spatial priors by C13), so all outcomes share one information matrix `H = JᵀWJ` and the step is `H⁻¹JᵀW e` (`gn_noised`); its second moments are `H⁻¹` (`moment_solution`), and the returned matrix is `H` (C92). `C98_gn_partial`, `C98_best_partial` (Gauss-Markov). Not covered: odometry and relative spatial poses (Jacobian depends on the measured value), robust weights, Levenberg-Marquardt, starts away from the truth. |
| C99 | as C98, and `chi2Eval` | expectation of a quadratic form is the trace of `W · W⁻¹` (`mean_error`), of the residual after the step the trace of a projection (`mean_rest`). `C99_truth_partial`; `C99_solved_partial` for landmark graphs, where the residuals are affine and the cost after the step is that of the linearised problem. |
| C100 | Model/Graph `addNode`, `addFactor`, Model/Solve `solve`; Spec/Determined `Fixes` | the rows of the new node say that its measurement pulls at no node (its Jacobian with respect to the node is invertible), so a solution of the larger linear problem restricted to the old nodes solves the smaller one (Lemmas/Growth `Leaf`). `C100_gn`, `C100_covariance`. Levenberg-Marquardt is not covered: its damping holds the new node back, which then pulls at the others. |
| C101 | as C100, `covOf` reads the covariance from the returned matrix | quadratic forms of the two information matrices differ by the terms of the further factors (Lemmas/Growth `Grown.form`), and the inverse is the supremum `2 cᵀx - xᵀLx`. `C101_covariance`. |
| C102 | Model/Node `robustWeight`, Model/Solve `solve`; `World.remeasure` replaces the residual of one factor | with and without the factor the solutions differ by `d` with `dᵀLd + a dᵀJᵀWJd = a dᵀJᵀW(r - Jx)`; Cauchy-Schwarz and `a·u ≤ 1` bound it (Lemmas/Influence `influence_bound`). `C102_gn`, `C102_measured` (the classes for which another measured value is another residual with the same Jacobian), `C102_quadratic_fails` (unbounded without kernel). Not covered: `Factor2Poses2dOdom`, `Factor2Poses3d`, whose Jacobians depend on the measured value; one step of Gauss-Newton, not the iteration. |
| C103 | Model/Graph `addNode` (anchors are not active), Model/Solve `solve`; `World.hold` makes a node an anchor, `World.reweigh` scales the prior | the anchored system is the restriction of the full one (Lemmas/Held `Held.row`, `Held.rhs`); the deviation `d` solves `(M + t JᵀWJ) d = g` with `g` independent of `t`, and `(Jd, (Md) at the other nodes)` determines `d`, which gives `C/t` (`penalty_bound`). `C103_gn`. One step of Gauss-Newton, exact arithmetic. |
| C104 | Model/FactorClass (all nine classes), Model/Node updates, Model/SE3, Model/Solve `solve`; Spec/Units: what a value, an observation and an information matrix are in another unit | `exp`, `ln`, composition, inverse and adjoint commute with a change of unit (Lemmas/Units `Same.*`; the branches depend on the rotation only, so no bands are excluded), residuals and Jacobians are conjugated by diagonal matrices (`factor_rescaled`), the normal equations follow (Lemmas/Gauge). `C104_gn_partial`; false for Levenberg-Marquardt, whose damping is one number for lengths and angles (`C104_lm_fails`), and for planar landmarks closer than `1e-3` units (`C104_near_fails`). |
| C105 | Model/PlaneReg `solve`, `gradLoop` with the argument `singleIteration` | `GRADIENT_BENGIOS_NAG` unfolds to one `gradStep` from the current trajectory, momentum and step sizes (`C105_nag_partial`); the other modes do not look at the argument (`C105_ignored`); `GRADIENT_ALL_POSES` is followed step by step (`C105_all_poses`) and does at least two iterations on a plane seen from two poses because its first error is compared with `1e20` (`C105_all_poses_fails`) |
| C106 | Model/SE3Cov `compound4` | covariances scaled by `t` give `t (s1 + s2) + t² R` (`cov4_smul`), so a positive definite second-order result wins for small `t` (`C106_small_partial`); for every `t > 0` a rotation about `x` of variance `t` compounded with a translation along `(1, 1, 0)` of variance `t` has variance `-t³/144` in a direction (`C106_fails`) |
| C107 | `levenbergMarquardt`, `lmLoop` and `solve` of C37, run with different limits | two inductions over the loop: a shift of the counter, and a longer limit agrees with a shorter one until that is used up; hence `C107_converged`, `C107_more` (larger limit, no larger cost) and `C107_continue_partial` with the damping kept; `C107_fails`: one pose and one prior, where the call resets the damping 2.5e-6 to 1e-5 |
| C108 | `chi2Eval`, `solve`, `FGraphSolve.Op` of the sparse solver; `denseGraph` (dense solver); `PlaneReg.error` and `PlaneReg.solve` (plane registration) | worlds that differ only in the stored residual and `chi2_` of factors of the graph (`World.Quiet`) are indistinguishable to every graph call, to `build_adjacency` and to `chi2(true)`; induction over the program gives `C108_history`, with equality of outcomes (including failures) of any later solve; `C108_dense` and `C108_plane_partial` because those searches begin with an evaluation and evaluating is idempotent; `C108_fails` follows from the stale matrices of C78. `chi2(false)`, which reads the stored values, is not a query in this sense |
| C109 | planar nodes and factors, their constructors, `solve` of the sparse solver | headings modulo full turns are a change of coordinates (`turnSym`) with identity matrices for the increments; every residual and Jacobian is the same vector and matrix, so the general theorem on changes of coordinates (C93) gives the whole runs; for Gauss-Newton the estimates are equal numbers because every update wraps (`C109_gn`), for Levenberg-Marquardt equal up to full turns, since a rejected run leaves a heading as it was given (`C109_lm`); `C109_init` for the initial guesses |
| C110 | `Plane::estimate_plane`, `get_current_error`, `solve_gradient_all_poses` of the plane registration | false for displaced frames: the eigenvector has unit length as a 4-vector, so the error of a plane is its squared distances divided by `1 + d²` with `d` its distance to the origin of the sensor's frame; concrete witness with half of the error (`C110_displaced_fails`).  The accumulated matrix of the moved problem is `G Q Gᵀ`; comparing least eigenvalues gives the factor `(1+|t|)²` between the errors (`C110_bounds_partial`), hence equality for rotations (`C110_turned_partial`).  For rotations the planes agree up to sign when the best plane is unique, the gradients are turned twists, and the code's exponential commutes with rotations also in the Taylor bands: one step (`C110_step_partial`), the whole loop by induction with an invariant for the uniqueness (`C110_solve_partial`).  Missing: the interpolating modes and the Hessian based ones |
| C111 | `NodePose3d::update`, the residuals and Jacobians of the spatial factors | left updates: the residuals of measured poses are literally the same (`X G · G⁻¹ obs G · (Y G)⁻¹ = X obs Y⁻¹`), those of landmarks and planes are multiplied by a matrix that the information compensates, and increments are the same; so the change of frame is a change of coordinates with identity matrices (`bodySym`) and the machinery of C93 applies: equal errors (`C111_cost_partial`), corresponding Gauss-Newton estimates (`C111_gn_partial`).  `regenerate` is the identity only on plain rotations, hence `BodyStep`.  False for planes when only the predicted or only the observed plane separates the origins of the two frames (the factor chooses the sign of the plane by its last coordinate, `C111_plane_fails`), and for planar poses (`C111_planar_fails`).  `C111_lm_partial`: the same for Levenberg-Marquardt, with equal iterations and cost, the conditions being made at the estimates that the loop comes to (`LMVisited`).  Missing: poses that `regenerate` changes |
| C112 | residuals and Jacobians of the planar factors, `NodePose2d::update` | mirror images as a change of coordinates with the signs (1, −1, −1) (`mirrorSym`); all residuals are multiplied by the signs, because `wrap_angle` is odd except at a half turn (`wrap_mirrored`) and `atan2` is odd up to a full turn; so the machinery of C93 gives equal errors (`C112_cost_partial`) and mirrored Gauss-Newton estimates (`C112_gn_partial`), near landmarks included.  `C112_half_fails`: a graph that is its own mirror image with an estimate that turns right.  `C112_lm_partial`: Levenberg-Marquardt, if no angular error is a half turn at the estimates that the loop comes to (`LMVisited`). |
| C113 | `OptimizerDense::optimize_newton_raphson_one_iteration`, `PlaneRegistration::calculate_gradient_hessian`, `update_state`; the copies between `Mat61` and vectors of dynamic size (`dyn6`, `stat6`) | `C113_step`: the new trajectory is the interpolation to `Exp(x) T` with `H x = -g` (or the damped equations of the two Levenberg-Marquardt methods), `g` and `H` being those of `calculate_gradient_hessian`.  `C113_descent_partial`: `gᵀx = -xᵀDx < 0`, `g` is the derivative of the cost of the estimated planes (C65), and the error is at most this cost, with equality at the present trajectory.  Missing: more than two poses away from the identity, where the gradient of the code is not the derivative (`C65_gradient_fails`).  Written after mutant m385 (halves of the increment exchanged) survived |
| C114 | `Plane.clearPoints` beside all other member functions of `Plane` (`Props/PlaneClear.lean`) | `C114_refill_fails`: the outer vector is emptied, so every push, every query of the points and every estimation after `reset` is undefined behaviour, for every history; the total number is not reset. `C114_release_partial`: after an estimation, histories without new points commute with `clear_points` |
| C115 | the whole model of `PlaneRegistration` with a permuted list of planes (`Lemmas/PlaneOrder.lean`, `Props/PlaneOrder.lean`) | `C115_solve`, `C115_reported`: another order gives the same return value, error, evaluation and object up to the order, in every mode but the initialisation; `C115_history_partial`: whole histories with a new order before each call; `C115_initialize_partial`: the initialisation, if every plane has points in the first pose; `C115_initialize_fails`: without that condition one order returns and the other reads out of range |
| C116 | the whole model of `PlaneRegistration` with the points of each plane and pose permuted (`Lemmas/PointOrder.lean`, `Props/PointOrder.lean`) | `C116_history`: permuting a block of `plane_push_back_point` calls inside any history gives the same object up to the order of the points; `C116_solve`, `C116_reported`: return values, errors, evaluation and point clouds of such objects agree, in every mode including the initialisation (sums over ℝ, so rounding is not covered) |
| C117 | the whole model of `PlaneRegistration` with corresponding identifiers (`Lemmas/PlaneVia.lean`, `Props/PlaneLabel.lean`) | `C117_history`: histories with corresponding identifiers leave the same object up to the identifiers; `C117_values`: the return values, errors, evaluations and point clouds are the same. The order of iteration, which may change with the identifiers, is kept here; C115 is about the order |
| C118 | the whole model of `PlaneRegistration` with an inserted plane that has no points (`Lemmas/PlaneVia.lean`, `Lemmas/PlaneEmpty.lean`, `Lemmas/PlaneEmptyHist.lean`, `Props/PlaneEmpty.lean`) | `C118_solve_partial`: in every mode but the initialisation the same return value, trajectory and members, again with a plane without points; `C118_error`: the same error; `C118_history_partial`: histories of further calls about the other planes; missing there are the initialisation, `set_number_planes_and_poses`, `add_new_plane` (covered as `add_plane` of a new plane) and `print_evaluate`, which counts the planes; `C118_addNewPlane`: `add_new_plane` makes such an object at any time; `C118_initialize_partial`: the initialisation, if the empty plane is visited last; `C118_initialize_fails`: otherwise it reads out of range because of the empty plane. The additional plane has as many poses as one of the other planes, so an object without any other plane is not covered |
| C119 | the whole model of `PlaneRegistration` with other values in the cached members of the planes (`Lemmas/PlaneVia.lean`, `Props/PlaneLeft.lean`) | `C119_solve`, `C119_error`: the same return value, trajectory and error in every mode, the initialisation included; `C119_planes`: afterwards the planes agree but for the matrices of `calculate_gradient`, which are written before they are read; `C119_elsewhere`: a plane estimated for any other trajectory has the same input. The accumulated matrices must be the same or those of the points; points added after they were computed are not seen (C50) |
| C56 | `arun` with SVD contract (existence proved) | cost around the centroids, trace inequality for orthogonal matrices of either determinant, equality case for uniqueness |
| C64 | `arun` | refuted by the octahedron and by scaling; positive case by uniqueness of singular values (characteristic polynomial) |
| C57 | `gicp`, `weighted_point` | trace of the do-while loop, normal equations as minimiser of the linearised cost, derivative of the cost with fixed weights, drift bound of C09; exact rigidity refuted |
| C58 | `estimate_plane` etc. | residual around the mean, Rayleigh quotient from the eigenvalue contract |
| C60 | `Factor1PosePoint2Point` | self-initialised member = indeterminate value; refuted |
| C61 | `SE3Cov.compound_4th_order`, `brackets`, `curly_wedge` | second moments expanded over the basis of twists; refuted for a non-symmetric cross block, partial otherwise |
| C62 | `NodePose3d::update`, `update_from_auxiliary` | logarithm is always skew, so the regenerated pose is an exponential (no drift); C13 for exactness; refuted at a half turn about a diagonal |

## 4. Trusted base

* The Lean kernel (Lean 4.33) and the three standard axioms `propext`, `Classical.choice`, `Quot.sound`. No other axiom is used:
  `lean/Verif/Axioms.lean` is part of the build, collects the axioms of *every* theorem of the namespaces `Mrob` and `Spec`
  and makes the build fail if another one (in particular `sorryAx` or a compiler axiom) occurs; it prints the number of theorems
  checked and the union of their axioms. Practically every property theorem depends on all three, since real numbers do.
* Mathlib's definitions of real numbers, `sin`, `cos`, `arccos`, `sqrt`, matrices, determinants, the exponential series, derivatives.
* The transcription from C++ to Lean, done by hand (section 5).
* Real arithmetic in place of IEEE doubles (section 2). The only place where rounding is modelled is the single precision plane index of
  `CreatePoints` (`fl32`: 24 significant bits, round to nearest, ties to even; no overflow or denormals).
* The contracts assumed of Eigen: `EigSolver.Sound` (symmetric eigen decomposition, ascending), `SVD3.Decomposes` (orthogonal factors, descending
  non-negative singular values), `Env.Sound` (a linear solver that answers gives a solution of the normal equations), `Env.Complete` (it
  answers on positive definite matrices). That oracles with these contracts exist is proved (`Env.exact`, `exists_svd`, …), so no theorem is vacuous.
* The outcome monad `Out`: `ok`, `nan` (a result which is not a number in IEEE arithmetic), `ub` (undefined behaviour) and `throw` (an exception).
  A theorem "returns" means `ok`; nothing is claimed about what follows `ub`.

## 5. Modelled / not modelled, file by file

| file in `/repo` | model | not modelled |
|---|---|---|
| `src/geometry/SO3.cpp` | `Model/SO3`, `Model/Quat`: everything but printing | printing |
| `src/geometry/SE3.cpp` | `Model/SE3`: everything but printing | printing |
| `src/geometry/SE3cov.cpp` | `Model/SE3Cov`: everything but printing | printing |
| `src/common/optimizer.cpp` | `Model/Optimizer`: all modes, over an abstract derived class | printing |
| `src/common/time_profiling.cpp` | – | whole file (no effect on results) |
| `src/common/mrob/matrix_base.hpp` | `Model/Eigen`: the type names | – |
| `src/FGraph/node.cpp`, `factor.cpp`, `mrob/node.hpp`, `mrob/factor.hpp` | `Model/Node`, `Model/Factor`, `Model/Graph` | printing |
| `src/FGraph/factor_graph.cpp` | `Model/Graph`: additions, neighbours, queries, destructor | printing |
| `src/FGraph/factor_graph_solve.cpp` | `Model/Solve`: `solve`, GN, LM, `build_adjacency`, `build_info_adjacency`, `chi2`, `get_*` | time profiling; storage format of sparse matrices (a matrix is a function, `insert` of an existing entry is `ub`) |
| `src/FGraph/factor_graph_solve_dense.cpp` | `Model/Dense` | – |
| `src/FGraph/factors/*.cpp` | `Model/Node`, `Model/Factor`, `Model/FactorClass`: every node class and every factor class | printing |
| `src/PCRegistration/arun.cpp`, `gicp.cpp`, `weight_point.cpp`, `estimate_plane.cpp` | `Model/Registration` | printing |
| `src/PCRegistration/factors/factor1PosePoint2Plane.cpp`, `factor1PosePoint2Point.cpp` | `Model/Factor` | the second is not in the library's CMake list |
| `src/PCRegistration/plane.cpp` | `Model/Plane` | printing |
| `src/PCRegistration/plane_registration.cpp` | `Model/PlaneReg` | printing (`print`, `print_evaluate`) |
| `src/PCRegistration/create_points.cpp` | `Model/CreatePoints`, `Model/PlaneHeap` (planes shared between registrations), random draws are arguments | the random generator |
| `mrobpy/FGraphPy.cpp` | `Model/FGraphPy`: the class `FGraphPy` (lines 58-203) | conversion of numpy arrays by pybind11 |
| `mrobpy/PCPlanesPy.cpp` | `Model/PlanePy`: the class `PlaneRegistration` (lines 77-109) | `print`; planes shared between a `CreatePoints` object and a registration |
| `mrobpy/PCRegistrationPy.cpp` | `arun_solve`, `gicp_solve`, `weighted_solve` (Model/RegistrationPy); the other entries expose functions above | conversion of numpy arrays |
| `mrobpy/SE3py.cpp`, `mrobPy.cpp` | which methods `SE3Cov` inherits from `SE3` (145; `SE3Cov.updateLhs`, `updateRhs`); otherwise they expose the functions above | pybind11 glue |
| `src/EigenFactors/plane_factor.cpp` | `Model/EigenFactor`: constructor, `add_observation`, `estimate_plane`, `calculate_all_matrices_Q`, `calculate_jacobian` | commented out in `/repo/CMakeLists.txt` lines 60-61, not built; five member functions have no definition; `factor_graph_ef.hpp` only declares functions |
| `src/VIO` | – | contains no code |
| examples, benchmarks, tests | – | – |

## 6. Where the code and the property disagree

Each item is a theorem with a concrete witness; the corresponding `_partial` theorem says what does hold.

* `SO3::ln` returns zero for half turns and all turns by at least 90° about the axes (1,±1,0) (C05–C07, C13, C14, C27, C62, C67).
* `isSO3`/`isSE3` accept matrices that are not rotations (C15).
* `NodePose2d`'s constructor stores the heading unreduced (C22), hence restoring changes it (C23, C39, C46).
* The RANSAC weight is zero for ever (C24).
* Jacobians are not the derivatives for odometry, planes, the 3D prior and 3D relative poses away from zero residual, for 2D landmarks closer than 1 mm,
  and at the cut of the heading (C26); so `b` is not the gradient of the cost there (C72).
* Relative factors created with the target first read the measurement backwards or without rotation (C27, C74); node initialisation does not
  rotate the measurement in 2D (C28, C75) and is wrong for 3D landmarks (C28); odometry overwrites an anchored target (C75).
* Adding the same object twice changes its id (C31, C41); `set_node_mode` after addition leaves the state dimension stale and eigen factors are counted in the observation
  dimension (C32); deleting an absent factor is `erase(end())` (C59).
* A factor between a node and itself makes the assembly insert an entry twice, a factor on an unregistered node writes to another node's columns (C44) and makes the dense solver read out of bounds (C45), the rows counted for eigen factors are never written in `r_` (C44); Python
  accepts both, nonexistent ids, nodes of the wrong class and `SCHUR` nodes (C71).
* `lambda` of `solve` is ignored, Gauss–Newton ignores all parameters (C40); `get_chi2_array` is stale after GN and after a rejected LM step (C42).
* LM accepts steps on the plain `chi2`, not on the robust cost (C73).
* Dense solver: gradients are counted once per node of the factor (C45), anchors are written out of bounds (C48), `LM_ELLIP` may be singular (C46).
* Planes: matrices `S` are cached so that later points are ignored (C50), the incremental estimate is wrong from the second call (C53), the Hessian counts the second
  order part twice (C63), gradient and Hessian with respect to the last pose are wrong for three poses (C65).
* Plane registration: `solve` returns 0 (C55), `solve_initialize` reads out of range when the first pose does not see a plane (C66),
  the gradient mode divides 0 by 0 for a pose without points (C69), `calculate_poses_rmse` throws or reports zero (C67).
* Python plane registration: solving before declaring the poses, asking for the last of zero poses, evaluating more planes than declared and initialising with a
  plane unseen from the first pose are undefined behaviour; `print_evaluate` after `INITIALIZE` prints the eigenvalues of an uninitialised matrix (C77);
  points for a time out of range are dropped, `get_point_cloud` of a time out of range returns the last cloud, the error ignores points added after an
  earlier `get_error` (C78).
* The dense solver leaves the minimum: because every factor is added to the gradient once for each of its nodes, a
  Newton-Raphson iteration started at the minimum of a graph with a two-node factor raises `chi2` from 3/2 to 11/6 (C80).
* `~FGraph` only clears the nodes of the graph: a node that was never added to it and its factors own each other and are
  never deleted (C81).
* Two registrations made from the same `CreatePoints` scene share their planes, and the planes point to the trajectory of the later one: the error of the first does not depend on its own poses any more (C82).
* The Python function `arun` (`mrobpy/PCRegistrationPy.cpp` 44-49) drops the success flag and returns the identity for every
  pair of clouds that `arun` refuses, also when a unique best motion exists (`C84_arun_fails`).
* `pc_registration.hpp` 72 documents the covariances of `gicp` as a matrix with 3 rows and `3 N` columns; `gicp.cpp` 58 reads
  `block<3,3>(3*i,0)`, blocks below each other. With the documented layout the block for `i ≥ 1` mixes columns of several
  covariances (`C85_documented`), even for identity covariances, and can be singular (`C85_fails`).
* `solve` on a graph whose only 3D pose is a half turn about `(1,1,0)`, with a prior at that pose: nothing is to be done, but the node comes back with the identity rotation and `chi2` is zero before and after, for `GN` and `LM` (`C86_fails`).
* `update` of an `SE3Cov` object (inherited from `SE3`, the left-hand update) moves the pose but not the covariance, which
  refers to a perturbation on the left and would have to be multiplied by the adjoint of the increment
  (`C87_update_lhs_fails`: a random half turn about the origin, displaced by one metre, is reported without any uncertainty
  of the position). `SE3Cov()` has covariance identity instead of zero, so accumulating increments from a
  default-constructed object adds one unit of variance to every coordinate (`C87_default_fails`).
* Levenberg-Marquardt depends on the unit of the information (C88): the damping starts at `1e-5` and the tolerance is absolute, so with information `1e-6` a single pose with a prior is declared converged after one iteration at less than a tenth of the way, where Gauss-Newton and the same graph with information `1` reach the prior (`C88_scale_fails`).
* The interpolated gradient mode is not a descent method when the poses see different numbers of points (`C90_interpolated_fails`), and it keeps the momentum of
  the previous call of `solve` (`C91_restart_fails`). `solve(GRADIENT)` does nothing at all (the mode is missing in the `switch`), and
  `solve_interpolate_gradient` called in any mode but the two gradient ones uses an uninitialised increment (modelled as undefined behaviour).
* `get_information_matrix` and the other getters return the matrices of the states before the last step, after LM with the damping added to the diagonal; the matrix of `get_W_matrix` holds upper triangles only (C92).
* The error of `Factor2Poses2dOdom` and `Factor2Poses3d` is expressed in the world frame, so with an anisotropic information matrix the estimate depends on the choice of the world frame (C93). `Factor2Poses2d` is expressed in the frame of the first pose.
* The Jacobian used for a landmark closer than 1e-3 to the pose is a constant along the axes of the world frame (C93).
* A 3D pose turned by half a turn about an axis that is none of the coordinate axes does not survive `SE3::regenerate`: Gauss-Newton started exactly at the true states moves away from them (`C94_spatial_fails`, same cause as C05/C06).
* With `Factor2Poses2dOdom` Gauss-Newton may diverge from every start other than the solution itself, because the Jacobian uses the heading before the first turn of the motion (C26, C94): for a turn by more than a right angle the derivative has the wrong sign.
* `PlaneFactor` (not built) never reads the poses of its nodes, drops the observations of nodes that share an id (all nodes that are not in a graph have id 0) and computes its Jacobian from an unwritten matrix (C95).
* Levenberg-Marquardt couples parts of a graph that have nothing in common (C96): a pose with a weak prior, alone in the graph, is declared converged after one iteration at 1/11 of the way; when an unrelated pose that still moves is added to the graph, the iteration goes on and the first pose ends elsewhere (`C96_lm_fails`).
* At a pose turned by exactly half a turn the update of `NodePose3d` has no first order: the logarithm returns the half turn for all turns nearer than 6e-8, so small increments about the axis leave the stored pose as it is (`C26_stored_half_fails`).
* Levenberg-Marquardt depends on the unit of length (C104): the damping `1e-5` is added to the information of lengths and angles alike; a landmark measured at one metre is moved by 0.99 m by one iteration in metres and by 0.17 m in millimetres.  Planar landmarks nearer than `1e-3` units are treated as errorless, so in units of ten kilometres no observation counts.
* `PlaneRegistration::solve(mode, singleIteration)` passes the argument on in one mode only; `GRADIENT_ALL_POSES` iterates up to 10^4 times when asked for one iteration (C105).
* `compound_4th_order` returns matrices with negative eigenvalues for arbitrarily small positive semidefinite covariances (C106).
* Two calls of `solve(LM)` with limits k₁ and k₂ are not one call with k₁+k₂: `optimize_levenberg_marquardt` resets `lambda_` to 1e-5 (C107).
* A call of `get_error()` while points are still being added freezes the moment matrices of the planes, so a program that prints the error gets another registration problem than one that does not (C108, C78).
* The plane registration measures planes by unit 4-vectors, so its error depends on where the origin of the sensor's frame is: a plane far from the origin counts less (C110).
* The plane factor fixes the sign of the predicted plane by its last coordinate, so the error depends on where the origin of the vehicle's frame is: it is not the error of the same measurement in another frame (C111).
* The error of a measured planar pose compares positions in the world frame and therefore depends on the frame chosen on the vehicle; for spatial poses it does not (C111).
* `NodePlane4d::update` divides the normal by its length and keeps the last coordinate, so an increment that changes the length of the normal also changes the distance of the plane, by an amount that depends on the origin of the world frame (C93).
* An angular error of exactly a half turn always counts as −π, so the mirror image of a graph need not have the mirrored estimates: two odometry measurements that are their own mirror images (stay, and turn by π) give a heading of −π/2 (C112).
* `clear_points` empties the vector over the times instead of the lists in it, so that a cleared plane cannot be filled again (undefined behaviour), and keeps the number of points (`C114_refill_fails`).
* Whether `solve_initialize` reads out of range can depend on the unspecified order of `planes_`: with a plane that has no points in the first pose, one order returns and another is undefined behaviour (`C115_initialize_fails`).
* A plane which never receives a point makes `solve_initialize` read beyond the end of `Y_points_all` if it is visited before a plane with points (`C118_initialize_fails`); all other modes ignore it (`C118_solve_partial`).
* `gicp` leaves the group by rounding of the truncated exponential (C57), `arun` refuses symmetric and small clouds (C64).
* `Factor1PosePoint2Point` never stores its second point (C60); `compound_4th_order` uses a block where its transpose is needed (C61).
* `CreatePoints` indexes planes in single precision (C70).
* Plane observations are not normalised, a landmark at the pose has zero cost (C74).

## 7. Tests of the theorems against wrong programs

`seeded/LOG.jsonl` records the mutation campaign: one line per wrong program (definition, edit, claim broken, theorems that failed, theorems tightened).
