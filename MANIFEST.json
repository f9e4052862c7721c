{
 "claims": [
  {
   "property": "C01",
   "status": "proved",
   "theorems": [
    "Mrob.C01_hat6_vee6",
    "Mrob.C01_hat3_cross",
    "Mrob.C01_hat3_mulVec",
    "Mrob.C01_vee3_hat3"
   ],
   "note": "hat/vee are inverse to each other and hat is the cross product / screw generator; all vectors and all Lie-algebra matrices."
  },
  {
   "property": "C02",
   "status": "proved",
   "theorems": [
    "Mrob.C02_exp_exact",
    "Mrob.C02_exp_small"
   ],
   "note": "Equality with NormedSpace.exp outside the code's Taylor band; inside the band (norm < 1e-5) an entrywise bound, because the code truncates there."
  },
  {
   "property": "C03",
   "status": "proved",
   "theorems": [
    "Mrob.C03_rotation_exact",
    "Mrob.C03_rotation_small",
    "Mrob.C03_rotation_small_not_exact"
   ],
   "note": "Exactly a rotation outside the Taylor band, orthogonal up to 1e-31 inside; the exact claim is shown false inside the band (C03_rotation_small_not_exact)."
  },
  {
   "property": "C04",
   "status": "proved",
   "theorems": [
    "Mrob.C04_group_exact",
    "Mrob.C04_group_drift",
    "Mrob.C04_group_laws"
   ],
   "note": "By induction over operation histories: exact when no band exponential is used, and a linear drift bound otherwise."
  },
  {
   "property": "C05",
   "status": "partial",
   "theorems": [
    "Mrob.C05_exp_ln_partial",
    "Mrob.C05_small_partial",
    "Mrob.C05_near_pi_partial",
    "Mrob.C05_diagonal_fails",
    "Mrob.C05_full_fails"
   ],
   "note": "False as stated: SO3::ln returns 0 for rotations by >= 90 degrees about the axes (1,±1,0) (C05_diagonal_fails, C05_full_fails). Proved exact off that set and off two numerical bands, with explicit error bounds inside the bands."
  },
  {
   "property": "C06",
   "status": "partial",
   "theorems": [
    "Mrob.C06_ln_exp_partial",
    "Mrob.C06_small_partial",
    "Mrob.C06_near_pi_partial",
    "Mrob.C06_diagonal_fails",
    "Mrob.C06_full_fails"
   ],
   "note": "Same defect as C05 (C06_diagonal_fails, C06_full_fails); exact elsewhere, bounded in the bands."
  },
  {
   "property": "C07",
   "status": "partial",
   "theorems": [
    "Mrob.C07_norm_close_partial",
    "Mrob.C07_norm_partial",
    "Mrob.C07_norm_le_pi",
    "Mrob.C07_zero_iff_partial",
    "Mrob.C07_full_fails"
   ],
   "note": "Same defect (C07_full_fails); norm equals angle off the diagonals and bands, within 6e-8 in the bands; norm <= pi always."
  },
  {
   "property": "C08",
   "status": "proved",
   "theorems": [
    "Mrob.C08_exp_exact",
    "Mrob.C08_exp_small"
   ],
   "note": "Equality with the 4x4 matrix exponential outside the Taylor band, entrywise bound inside."
  },
  {
   "property": "C09",
   "status": "proved",
   "theorems": [
    "Mrob.C09_group_exact",
    "Mrob.C09_group_drift",
    "Mrob.C09_group_laws"
   ],
   "note": "Induction over operation histories, exact and drift-bounded versions, group laws."
  },
  {
   "property": "C10",
   "status": "proved",
   "theorems": [
    "Mrob.C10_inverse"
   ],
   "note": "Both-sided inverse for every rigid transformation, inversion reverses composition."
  },
  {
   "property": "C11",
   "status": "proved",
   "theorems": [
    "Mrob.C11_action",
    "Mrob.C11_array"
   ],
   "note": "Isometry, action law and row-wise array version."
  },
  {
   "property": "C12",
   "status": "proved",
   "theorems": [
    "Mrob.C12_adjoint_exact",
    "Mrob.C12_adjoint_small",
    "Mrob.C12_adj_hom"
   ],
   "note": "Exact outside the Taylor band of the exponential, defect bound inside; adjoint is a homomorphism."
  },
  {
   "property": "C13",
   "status": "partial",
   "theorems": [
    "Mrob.C13_exp_ln_partial",
    "Mrob.C13_small_partial",
    "Mrob.C13_near_pi_partial",
    "Mrob.C13_regenerate",
    "Mrob.C13_ln_exp_partial",
    "Mrob.C13_ln_exp_small_partial",
    "Mrob.C13_full_fails"
   ],
   "note": "False in full: the tie of SO3::ln loses rotations by >= 90 degrees about (1,±1,0) (C13_full_fails). Round trips exact off that set and the numerical bands, with explicit error bounds inside the bands; regenerate is identity on images of exp."
  },
  {
   "property": "C14",
   "status": "partial",
   "theorems": [
    "Mrob.C14_rotation",
    "Mrob.C14_rotation_zero_iff_partial",
    "Mrob.C14_rotation_zero_fails",
    "Mrob.C14_trans",
    "Mrob.C14_distance",
    "Mrob.C14_distance_symm_partial",
    "Mrob.C14_distance_zero_iff_partial"
   ],
   "note": "Translation distance fully proved. Rotation/pose distance: symmetry and zero-iff-equal off the diagonal set; zero distance between different rotations is exhibited (C14_rotation_zero_fails)."
  },
  {
   "property": "C15",
   "status": "partial",
   "theorems": [
    "Mrob.C15_complete_partial",
    "Mrob.C15_isSO3_unsound",
    "Mrob.C15_isSE3_unsound"
   ],
   "note": "isSO3/isSE3 accept every rotation / rigid matrix, but are unsound: concrete non-rotations are accepted (C15_isSO3_unsound, C15_isSE3_unsound)."
  },
  {
   "property": "C16",
   "status": "proved",
   "theorems": [
    "Mrob.C16_rotation",
    "Mrob.C16_product",
    "Mrob.C16_conjugation"
   ],
   "note": "Every non-zero quaternion gives a rotation, invariant under positive and negative scaling, product of quaternions maps to product of rotations, action equals conjugation of Mathlib's Quaternion."
  },
  {
   "property": "C17",
   "status": "proved",
   "theorems": [
    "Mrob.C17_rpy"
   ],
   "note": "Rotation for all angles and explicit product form."
  },
  {
   "property": "C18",
   "status": "proved",
   "theorems": [
    "Mrob.C18_chain_value",
    "Mrob.C18_chain_psd",
    "Mrob.C18_assoc"
   ],
   "note": "Closed form of chained second-order compounding, preservation of symmetric positive semidefiniteness, associativity."
  },
  {
   "property": "C19",
   "status": "proved",
   "theorems": [
    "Mrob.C19_fourth_order"
   ],
   "note": "Symmetry and reduction to second order when one covariance vanishes, for all covariances."
  },
  {
   "property": "C20",
   "status": "proved",
   "theorems": [
    "Mrob.C20_so3_additive",
    "Mrob.C20_so3_cancel",
    "Mrob.C20_so3_cancel_small",
    "Mrob.C20_se3_additive",
    "Mrob.C20_se3_cancel",
    "Mrob.C20_se3_cancel_small"
   ],
   "note": "Parallel twists compose additively and opposite twists cancel, exactly outside the Taylor bands and within 1e-24-type bounds inside, for SO3 and SE3, left and right."
  },
  {
   "property": "C21",
   "status": "proved",
   "theorems": [
    "Mrob.C21_wrap",
    "Mrob.C21_wrap_laws"
   ],
   "note": "Termination, range, congruence, idempotence, uniqueness; equality with Mathlib's toIcoMod."
  },
  {
   "property": "C22",
   "status": "partial",
   "theorems": [
    "Mrob.C22_written",
    "Mrob.C22_heading_partial",
    "Mrob.C22_constructor_fails"
   ],
   "note": "Every state-writing call reduces the heading, and a node constructed with a reduced heading keeps one; the full claim is refuted (C22_constructor_fails): the constructor stores the heading as given."
  },
  {
   "property": "C23",
   "status": "partial",
   "theorems": [
    "Mrob.C23_restore_partial",
    "Mrob.C23_restore_direction",
    "Mrob.C23_zero_update",
    "Mrob.C23_restore_fails"
   ],
   "note": "Exact restore for every node class unless a 2D heading was never reduced (refuted in C23_restore_fails); then the position is exact and the heading is the same direction."
  },
  {
   "property": "C24",
   "status": "partial",
   "theorems": [
    "Mrob.C24_weight_partial",
    "Mrob.C24_influence",
    "Mrob.C24_ransac_fails"
   ],
   "note": "All claims for QUADRATIC, HUBER, CAUCHY and MCCLURE; refuted for RANSAC (C24_ransac_fails): its weight is 0 for ever."
  },
  {
   "property": "C25",
   "status": "proved",
   "theorems": [
    "Mrob.C25_unit",
    "Mrob.C25_unit_step",
    "Mrob.C25_same_plane_iff",
    "Mrob.C25_set_state_raw"
   ],
   "note": "Unit normal through construction and any history of updates; the plane is unchanged exactly when the normal was already unit or d = 0; set_state does not normalise (C25_set_state_raw)."
  },
  {
   "property": "C26",
   "status": "partial",
   "theorems": [
    "Mrob.C26_prior2d",
    "Mrob.C26_rel2d",
    "Mrob.C26_cut_fails",
    "Mrob.C26_odom_iff",
    "Mrob.C26_odom_fails",
    "Mrob.C26_land2d",
    "Mrob.C26_land2d_near_fails",
    "Mrob.C26_land3d",
    "Mrob.C26_point2plane",
    "Mrob.C26_point2point",
    "Mrob.C26_plane4d_iff",
    "Mrob.C26_prior3d_group",
    "Mrob.C26_prior3d_iff",
    "Mrob.C26_rel3d_group",
    "Mrob.C26_rel3d_iff",
    "Mrob.C26_plane4d_fails",
    "Mrob.C26_prior3d_fails",
    "Mrob.C26_rel3d_fails",
    "Mrob.C26_stored_partial",
    "Mrob.C26_stored_iff_partial",
    "Mrob.C26_land3d_stored_partial",
    "Mrob.C26_point2plane_stored_partial",
    "Mrob.C26_stored_half_fails"
   ],
   "note": "Exact derivative for the 2D prior and relative pose (outside the heading cut), 2D landmark (farther than 1 mm), 3D landmark, point-to-plane and point-to-point factors; iff-characterisations elsewhere: odometry right only without first turn or translation, plane only for increments that do not stretch the normal, 3D prior and relative pose only at zero residual (the group-valued derivative is right everywhere). Refuted in the complementary cases. The 3D pose update of these theorems is update_from_auxiliary; the stored (regenerated) pose of update has the same first derivatives at every pose that ln and exp keep and that is not a half turn, so landmark and point-to-plane Jacobians are exact along the real update too; refuted at half turns."
  },
  {
   "property": "C27",
   "status": "partial",
   "theorems": [
    "Mrob.C27_rel2d_forward",
    "Mrob.C27_rel2d_reversed_iff",
    "Mrob.C27_rel2d_reversed_fails",
    "Mrob.C27_rel3d_forward_partial",
    "Mrob.C27_rel3d_reversed_partial",
    "Mrob.C27_rel3d_reversed_fails",
    "Mrob.C27_rel3d_diagonal_fails"
   ],
   "note": "Creation order origin-first: residual zero iff pose composition (2D everywhere, 3D outside the diagonal tie of the logarithm, which is refuted). Target-first: 2D right iff the observation has no translation or no turn; 3D reads the observation backwards. Both refuted with witnesses."
  },
  {
   "property": "C28",
   "status": "partial",
   "theorems": [
    "Mrob.C28_rel2d_iff",
    "Mrob.C28_rel2d_fails",
    "Mrob.C28_odom_partial",
    "Mrob.C28_odom_reversed_fails",
    "Mrob.C28_rel3d_partial",
    "Mrob.C28_rel3d_reversed_fails",
    "Mrob.C28_land2d_partial",
    "Mrob.C28_land2d_negative_fails",
    "Mrob.C28_land3d_iff",
    "Mrob.C28_land3d_fails"
   ],
   "note": "Odometry and 3D relative pose origin-first, 2D landmark with non-negative range. 2D relative pose: iff heading zero or no translation; refuted otherwise. Target-first, negative range and 3D landmark refuted."
  },
  {
   "property": "C29",
   "status": "proved",
   "theorems": [
    "Mrob.C29_graph",
    "Mrob.C29_factor"
   ],
   "note": "Single factor and whole graph (chi2(true) on any well-typed graph)."
  },
  {
   "property": "C30",
   "status": "proved",
   "theorems": [
    "Mrob.C30_rel2d",
    "Mrob.C30_land2d",
    "Mrob.C30_land3d",
    "Mrob.C30_plane4d",
    "Mrob.C30_plane_points",
    "Mrob.C30_rel3d"
   ],
   "note": "2D relative pose, 2D and 3D landmark, plane; for the 3D relative pose the residual transformation is conjugated and the rotational residual is rotated."
  },
  {
   "property": "C31",
   "status": "partial",
   "theorems": [
    "Mrob.C31_node_ids_partial",
    "Mrob.C31_factor_ids_partial",
    "Mrob.C31_duplicate_fails",
    "Mrob.C31_duplicate_factor_fails"
   ],
   "note": "Every history in which each object is added at most once. The API accepts a second addition of the same object, which changes its id (C31_duplicate_fails, C31_duplicate_factor_fails)."
  },
  {
   "property": "C32",
   "status": "proved",
   "theorems": [
    "Mrob.C32_state_dim",
    "Mrob.C32_obs_dim",
    "Mrob.C32_set_mode_fails",
    "Mrob.C32_eigen_fails"
   ],
   "note": "Every history of additions; the state dimension counts the nodes by their mode at the time of addition, the observation dimension all factors including eigen factors. Recorded disagreements: a later set_node_mode (C32_set_mode_fails), eigen factors counted although they have no rows (C32_eigen_fails)."
  },
  {
   "property": "C33",
   "status": "proved",
   "theorems": [
    "Mrob.C33_neighbours",
    "Mrob.C33_count",
    "Mrob.C33_only_added"
   ],
   "note": "Exact content and order of the neighbour list after every history of calls."
  },
  {
   "property": "C34",
   "status": "proved",
   "theorems": [
    "Mrob.C34_information",
    "Mrob.C34_blocks"
   ],
   "note": "Every consistent graph (Wired; C44_wired_partial shows which histories lead to one): any number of nodes, factors, classes, modes and connections; symmetric information matrices. For a factor whose node was never added the claim is false (C44_unregistered_fails)."
  },
  {
   "property": "C35",
   "status": "proved",
   "theorems": [
    "Mrob.C35_anchor"
   ],
   "note": "Any history of additions, chi2 and solve calls, any linear solver: the state of an anchored node never changes (as long as the user does not change its mode)."
  },
  {
   "property": "C36",
   "status": "proved",
   "theorems": [
    "Mrob.C36_step",
    "Mrob.C36_returns",
    "Mrob.C36_exact",
    "Mrob.C36_landmarks"
   ],
   "note": "The step minimises the linearised cost over all increments (uniquely when the information matrix is positive definite), on every well-posed graph with any factor classes and robust weights; exact for every graph whose residuals are affine in the increments, in particular for any number of 3D landmarks seen from known poses. Depends on the linear solver solving the system (Env.Sound)."
  },
  {
   "property": "C37",
   "status": "proved",
   "theorems": [
    "Mrob.C37_affine_accepted",
    "Mrob.C37_never_worse",
    "Mrob.C37_returns"
   ],
   "note": "Any linear solver, iteration limit and tolerance, graphs of all factor classes of the library; also solve(LM) returns on every well-posed graph."
  },
  {
   "property": "C38",
   "status": "proved",
   "theorems": [
    "Mrob.C38_iterations"
   ],
   "note": "Bounds on the iterations, meaning of the return value, damping positive. Note that FGraphSolve::solve is void and discards the value."
  },
  {
   "property": "C39",
   "status": "partial",
   "theorems": [
    "Mrob.C39_rejected_partial",
    "Mrob.C39_rejected_fails"
   ],
   "note": "Exact when the headings of the planar poses were reduced; otherwise the pose is the same but the heading is reduced, which is refuted as equality of states (C39_rejected_fails)."
  },
  {
   "property": "C40",
   "status": "partial",
   "theorems": [
    "Mrob.C40_lambda_lm_fails",
    "Mrob.C40_gn_fails",
    "Mrob.C40_tolerance_partial"
   ],
   "note": "Refuted for lambda (C40_lambda_lm_fails: LM result independent of it; C40_gn_fails: GN uses no parameter at all); the tolerance and the limit are used by LM (C40_tolerance_partial)."
  },
  {
   "property": "C41",
   "status": "partial",
   "theorems": [
    "Mrob.C41_states_partial",
    "Mrob.C41_duplicate_fails"
   ],
   "note": "All histories of additions, solves and chi2 calls in which no node object is added twice; refuted otherwise (C41_duplicate_fails)."
  },
  {
   "property": "C42",
   "status": "partial",
   "theorems": [
    "Mrob.C42_gn_fails",
    "Mrob.C42_array",
    "Mrob.C42_lm_partial",
    "Mrob.C42_gn_stale",
    "Mrob.C42_rejected_fails"
   ],
   "note": "Length, order and sum always; current values after chi2(true) and after solve(LM) that met its tolerance. Refuted after solve(GN) (C42_gn_fails, C42_gn_stale: always the values before the step) and after a last step that was rejected (C42_rejected_fails)."
  },
  {
   "property": "C43",
   "status": "proved",
   "theorems": [
    "Mrob.C43_order",
    "Mrob.C43_solution"
   ],
   "note": "Two histories with the same node order and any order and interleaving of the factor additions: same L, b and chi2. C43_solution: with nodes and factors in any order both methods return the same estimates (no RANSAC kernel, exact linear solvers)."
  },
  {
   "property": "C44",
   "status": "partial",
   "theorems": [
    "Mrob.C44_state_dim",
    "Mrob.C44_wired_partial",
    "Mrob.C44_assembly_partial",
    "Mrob.C44_self_loop_fails",
    "Mrob.C44_unregistered_fails",
    "Mrob.C44_lost_fails",
    "Mrob.C44_memory",
    "Mrob.C44_memory_fails"
   ],
   "note": "False in general: a factor connecting a node with itself inserts an entry twice (C44_self_loop_fails, undefined behaviour), a factor on a node that was never added writes to the columns of another node (C44_unregistered_fails, also when no unknown node has its id: C44_lost_fails), and with eigen factors the residual vector keeps rows that are never written (C44_memory_fails), which do not reach the linear system (C44_memory). Proved for all proper histories: bounds, no double insertion, no undefined behaviour."
  },
  {
   "property": "C45",
   "status": "partial",
   "theorems": [
    "Mrob.C45_unregistered_fails",
    "Mrob.C45_normal_equations_partial",
    "Mrob.C45_gradient",
    "Mrob.C45_gradient_fails"
   ],
   "note": "The Hessian of the dense solver equals the information matrix of the sparse one on all consistent graphs without anchors and robust weights (C45_normal_equations_partial). The claim is false for the gradient: calculate_gradient_hessian adds the gradient of a factor inside the loop over its nodes, so it counts once per node (C45_gradient); C45_gradient_fails gives a graph at its optimum (b = 0) where the dense gradient is not zero. A factor on a node outside the graph makes the search for its column run past the end (C45_unregistered_fails)."
  },
  {
   "property": "C46",
   "status": "partial",
   "theorems": [
    "Mrob.C46_graph",
    "Mrob.C46_returns_partial",
    "Mrob.C46_ellip_fails",
    "Mrob.C46_restore_partial",
    "Mrob.C46_restore_fails",
    "Mrob.C46_iterations",
    "Mrob.C46_never_worse"
   ],
   "note": "Iteration limits and monotone error are proved for every derived class that meets the contract (C46_iterations, C46_never_worse) and for the dense graph solver (C46_graph). Restoring reduces headings (C46_restore_fails with a witness, C46_restore_partial for reduced headings). LM_SPHER always returns on consistent graphs with PSD information (C46_returns_partial); LM_ELLIP can meet a singular matrix (C46_ellip_fails)."
  },
  {
   "property": "C47",
   "status": "proved",
   "theorems": [
    "Mrob.C47_newton_raphson"
   ],
   "note": "Any derived class of Optimizer: the whole sequence of steps and errors of a call that returns."
  },
  {
   "property": "C48",
   "status": "partial",
   "theorems": [
    "Mrob.C48_history_partial",
    "Mrob.C48_in_bounds_partial",
    "Mrob.C48_anchor_fails",
    "Mrob.C48_out_of_bounds_fails"
   ],
   "note": "False with anchors: no call of solve returns on a graph with an anchor (C48_anchor_fails), with a concrete out-of-bounds write (C48_out_of_bounds_fails). Proved: without anchors nothing is out of bounds (C48_history_partial, C48_in_bounds_partial)."
  },
  {
   "property": "C49",
   "status": "proved",
   "theorems": [
    "Mrob.C49_points",
    "Mrob.C49_moments",
    "Mrob.C49_S",
    "Mrob.C49_squared_distances",
    "Mrob.C49_mean"
   ],
   "note": "Points, moments, S and the quadratic form for every history of calls on a plane (C49_points, C49_moments, C49_S, C49_squared_distances, C49_mean)."
  },
  {
   "property": "C50",
   "status": "partial",
   "theorems": [
    "Mrob.C50_fresh_partial",
    "Mrob.C50_frozen",
    "Mrob.C50_fails"
   ],
   "note": "False: the matrices S are cached at the first estimation and pushes afterwards are ignored until reset (C50_frozen for every history, C50_fails with a concrete witness). Proved for the first estimation after construction or reset (C50_fresh_partial)."
  },
  {
   "property": "C51",
   "status": "proved",
   "theorems": [
    "Mrob.C51_optimal"
   ],
   "note": "Optimality over all unit 4-vectors for every eigen decomposition meeting Eigen's contract, every point set, every rigid trajectory (C51_optimal)."
  },
  {
   "property": "C52",
   "status": "proved",
   "theorems": [
    "Mrob.C52_gradient",
    "Mrob.C52_error_derivative"
   ],
   "note": "C52_gradient: derivative of the fixed plane cost in every direction, for the update used by the library. C52_error_derivative: the same value is the derivative of the re-estimated error whenever the latter is differentiable."
  },
  {
   "property": "C53",
   "status": "partial",
   "theorems": [
    "Mrob.C53_incremental_partial",
    "Mrob.C53_twice_fails",
    "Mrob.C53_reported_fails"
   ],
   "note": "One incremental evaluation after a full one is exact (C53_incremental_partial). False for two evaluations in a row, the old Q is not replaced (C53_twice_fails), and get_error does not report the incremental value (C53_reported_fails)."
  },
  {
   "property": "C54",
   "status": "proved",
   "theorems": [
    "Mrob.C54_first_pose",
    "Mrob.C54_interpolated",
    "Mrob.C54_restore",
    "Mrob.C54_restore_needs_interpolated",
    "Mrob.C54_never_worse"
   ],
   "note": "Over every sequence of calls (set_number_planes_and_poses, add_plane, add_new_plane, push_point, set_alpha_parameter, set_last_pose, update, all solve modes, solve_initialize ...) the first pose is the identity and the trajectory has the declared length (C54_first_pose); after the interpolating modes the poses lie on the geodesic to the last one (C54_interpolated); restoring gives back the saved last pose and, if the trajectory was interpolated, all of it (C54_restore); C54_restore_needs_interpolated shows that the condition is needed, it is not met after solve(INITIALIZE). C54_never_worse: LM modes do not increase the error. Direct calls of the virtual book-keeping functions from outside are not among the histories."
  },
  {
   "property": "C55",
   "status": "partial",
   "theorems": [
    "Mrob.C55_returns_zero",
    "Mrob.C55_gradient_partial",
    "Mrob.C55_optimizer_partial",
    "Mrob.C55_fails"
   ],
   "note": "False: solve returns 0 in every mode but INITIALIZE (C55_returns_zero, C55_fails). The number is kept in the object instead: C55_gradient_partial, C55_optimizer_partial."
  },
  {
   "property": "C56",
   "status": "proved",
   "theorems": [
    "Mrob.C56_total",
    "Mrob.C56_rigid",
    "Mrob.C56_optimal",
    "Mrob.C56_recovers",
    "Mrob.C56_collinear"
   ],
   "note": "The SVD is an oracle with Eigen's contract (orthogonal factors, ordered nonnegative singular values); existence proved (exists_svd). Total on equally long nonempty clouds, rigid result, strictly better than every other rigid motion, exact recovery, unchanged argument on failure, collinear clouds always refused."
  },
  {
   "property": "C57",
   "status": "partial",
   "theorems": [
    "Mrob.C57_gicp",
    "Mrob.C57_weighted_point",
    "Mrob.C57_aligned",
    "Mrob.C57_rigid_partial",
    "Mrob.C57_rigid_exact_partial",
    "Mrob.C57_rigid_fails"
   ],
   "note": "Iterations, stopping rule, Gauss-Newton increments (optimal for the linearised cost, strict descent), aligned clouds and rigidity up to 2.1e-30 proved. Exact rigidity is false for increments with angular part between 0 and 1e-5 (C57_rigid_fails)."
  },
  {
   "property": "C58",
   "status": "proved",
   "theorems": [
    "Mrob.C58_centroid",
    "Mrob.C58_plane",
    "Mrob.C58_equivariant"
   ],
   "note": "Eigen-decomposition as an oracle with contract. Equivariance of the plane up to sign under uniqueness of the best plane, equality of residuals in general."
  },
  {
   "property": "C59",
   "status": "partial",
   "theorems": [
    "Mrob.C59_present_partial",
    "Mrob.C59_absent_fails",
    "Mrob.C59_undo_add_partial"
   ],
   "note": "Exact effect when the factor is present; erase(end()) - undefined behaviour - when it is absent (C59_absent_fails)."
  },
  {
   "property": "C60",
   "status": "partial",
   "theorems": [
    "Mrob.C60_ignores_second",
    "Mrob.C60_fails",
    "Mrob.C60_first_partial"
   ],
   "note": "Refuted: the second point is never stored; only the first point is used as documented."
  },
  {
   "property": "C61",
   "status": "partial",
   "theorems": [
    "Mrob.C61_curly_wedge",
    "Mrob.C61_bch_partial",
    "Mrob.C61_fails"
   ],
   "note": "curly_wedge is proved to be the Lie bracket; the fourth-order formula is the BCH second moment when the rotation-translation cross block of the first covariance is symmetric; the general claim is refuted (C61_fails): one block uses sigma_1_rt where its transpose is needed."
  },
  {
   "property": "C62",
   "status": "partial",
   "theorems": [
    "Mrob.C62_no_drift",
    "Mrob.C62_update_partial",
    "Mrob.C62_update_fails",
    "Mrob.C62_update_from_auxiliary"
   ],
   "note": "No drift for any update; exact left multiplication outside the Taylor/acos bands and away from the tie of SO3::ln; refuted in general (C62_update_fails)."
  },
  {
   "property": "C63",
   "status": "partial",
   "theorems": [
    "Mrob.C63_fails",
    "Mrob.C63_translation_partial",
    "Mrob.C63_exact",
    "Mrob.C63_coplanar_partial"
   ],
   "note": "False: the second-order part of the rotations is counted with an extra ordered product; six points on the axes give 8 instead of 12 (C63_fails). C63_exact gives, for every twist and every state reachable through the API, the exact difference between the quadratic form of the returned matrix and the second derivative along the pose update; consequences: the Hessian is exact when the points of pose t lie on the estimated plane (C63_coplanar_partial), and its translation block is exact always (C63_translation_partial)."
  },
  {
   "property": "C64",
   "status": "partial",
   "theorems": [
    "Mrob.C64_separated_partial",
    "Mrob.C64_fails",
    "Mrob.C64_scale_fails"
   ],
   "note": "False for symmetric clouds such as an octahedron (C64_fails) and for all clouds at a small scale (C64_scale_fails). Holds for exact correspondences with eigenvalues of the scatter matrix separated by 1e-6 (C64_separated_partial)."
  },
  {
   "property": "C66",
   "status": "partial",
   "theorems": [
    "Mrob.C66_optimal_partial",
    "Mrob.C66_recovers_partial",
    "Mrob.C66_unseen_fails"
   ],
   "note": "Holds when every plane has points in the first pose (C66_optimal_partial: the pose is the unique least squares transformation, or the alignment was refused; C66_recovers_partial: noise-free data). Otherwise the centroid list is shorter than the plane index and the code reads past its end (C66_unseen_fails)."
  },
  {
   "property": "C69",
   "status": "partial",
   "theorems": [
    "Mrob.C69_iff_partial",
    "Mrob.C69_fails"
   ],
   "note": "False: a pose without points makes the step 0/0 (C69_fails). Exactly the problems in which every later pose sees a point are solved without NaN (C69_iff_partial)."
  },
  {
   "property": "C65",
   "status": "partial",
   "theorems": [
    "Mrob.C65_gradient_two_poses_partial",
    "Mrob.C65_gradient_translation_partial",
    "Mrob.C65_gradient_fails",
    "Mrob.C65_hessian_two_poses_partial",
    "Mrob.C65_hessian_fails",
    "Mrob.C65_hessian_exact_partial",
    "Mrob.C65_hessian_coplanar_partial"
   ],
   "note": "Proved for two poses: the gradient is the derivative; the quadratic form of the Hessian is the second derivative plus the excess of C63 summed over the planes, for every twist (C65_hessian_exact_partial), hence exact when the points of the last pose lie on the estimated planes (C65_hessian_coplanar_partial) and along translations. Gradient also for translated last poses. Refuted for three poses: the gradient for rotations of a translated last pose, and the Hessian, whose weight is t/(n-1) instead of its square."
  },
  {
   "property": "C67",
   "status": "partial",
   "theorems": [
    "Mrob.C67_rms_partial",
    "Mrob.C67_zero_partial",
    "Mrob.C67_zero_fails",
    "Mrob.C67_longer_fails"
   ],
   "note": "Root mean square formula for differences that are exponentials (angle 0 or between 5e-3 and pi - 6e-8, no horizontal diagonal); zero iff equal for rigid poses off the diagonals. False at a half turn about a horizontal diagonal (reported as 0), and a ground truth longer than the trajectory, admitted by the assertion, throws."
  },
  {
   "property": "C68",
   "status": "partial",
   "theorems": [
    "Mrob.C68_trajectory_partial",
    "Mrob.C68_noise_partial",
    "Mrob.C68_registration",
    "Mrob.C68_zero_error_partial"
   ],
   "note": "Random draws are arguments. Trajectory, noise, hand-over to PlaneRegistration and zero error without noise are proved for final poses whose logarithm is exact; the band of tiny rotations and horizontal diagonals are excluded."
  },
  {
   "property": "C70",
   "status": "partial",
   "theorems": [
    "Mrob.C70_in_range_partial",
    "Mrob.C70_balanced_partial",
    "Mrob.C70_fails"
   ],
   "note": "Single precision arithmetic is modelled. Proved in range for at most 2^22 points and balanced when points*planes <= 2^24; false in general: 2^25 points and one plane read a plane that does not exist (UB)."
  },
  {
   "property": "C72",
   "status": "partial",
   "theorems": [
    "Mrob.C72_regular_partial",
    "Mrob.C72_gradient_partial",
    "Mrob.C72_robust_partial",
    "Mrob.C72_descent_partial",
    "Mrob.C72_fails",
    "Mrob.C72_planes_partial"
   ],
   "note": "Proved at states where the Jacobians of the factor classes are the derivatives of the residuals (planar factors, 3D landmarks, point to plane), for every robust type but RANSAC, and for quadratic graphs with planes along increments which do not stretch the normals; false for 3D priors far from the observation, whose Jacobian is that at zero residual."
  },
  {
   "property": "C73",
   "status": "partial",
   "theorems": [
    "Mrob.C73_stationary_partial",
    "Mrob.C73_lm_fails"
   ],
   "note": "GN: step zero iff the robust objective is stationary. False for LM: acceptance uses the plain chi2, a Huber problem with an outlier is left unmoved."
  },
  {
   "property": "C71",
   "status": "partial",
   "theorems": [
    "Mrob.C71_legal_partial",
    "Mrob.C71_returns_partial",
    "Mrob.C71_missing_node_fails",
    "Mrob.C71_self_loop_fails",
    "Mrob.C71_schur_fails",
    "Mrob.C71_class_fails"
   ],
   "note": "Legal histories (ids of existing nodes of the right class, distinct nodes) never reach undefined behaviour and ids are creation numbers; with positive semidefinite information and LM every solve returns. False of the interface as exposed: a nonexistent id, a factor from a node to itself, a SCHUR node and a node of the wrong class are accepted and lead to undefined behaviour."
  },
  {
   "property": "C74",
   "status": "partial",
   "theorems": [
    "Mrob.C74_chi2_partial",
    "Mrob.C74_reversed_fails",
    "Mrob.C74_close_fails",
    "Mrob.C74_plane_fails"
   ],
   "note": "Proved for relative factors from the lower to the higher id, unit normal plane observations and landmarks at least 1 mm from the pose. False for a relative factor given with decreasing ids, for a landmark at the pose, and for plane observations whose normal is not of unit length."
  },
  {
   "property": "C75",
   "status": "partial",
   "theorems": [
    "Mrob.C75_kept_partial",
    "Mrob.C75_add_factor_partial",
    "Mrob.C75_odom_fails",
    "Mrob.C75_rel2d_fails"
   ],
   "note": "Nodes not initialised by a factor keep the value of add_node (anchors always, others until solve), and add_factor changes only the node it initialises. False: odometry overwrites an anchor target, and the 2D relative factor initialises the target without rotating the measurement."
  },
  {
   "property": "C76",
   "status": "proved",
   "theorems": [
    "Mrob.C76_round_trip",
    "Mrob.C76_normalised",
    "Mrob.C76_product",
    "Mrob.C76_exp",
    "Mrob.C76_sign"
   ],
   "note": "All rotations and all branches of the conversion; the sign of the scalar part is positive below 120 degrees and may be negative above (C76_sign)."
  },
  {
   "property": "C77",
   "status": "partial",
   "theorems": [
    "Mrob.C77_safe_partial",
    "Mrob.C77_value_partial",
    "Mrob.C77_undeclared_fails",
    "Mrob.C77_no_pose_fails",
    "Mrob.C77_evaluate_fails",
    "Mrob.C77_unseen_fails",
    "Mrob.C77_unknown_throws",
    "Mrob.C77_evaluate_meaningless"
   ],
   "note": "Proved: a careful history (poses declared, known planes, no more planes than declared, INITIALIZE only with planes seen from the first pose, no mode GRADIENT) never gives undefined behaviour or an exception, and without solving always proper values. False of the code for careless histories (C77_undeclared_fails, C77_no_pose_fails, C77_evaluate_fails, C77_unseen_fails); unknown planes throw; evaluating after INITIALIZE reads an uninitialised matrix. The solvers may produce NaN. Planes shared with a CreatePoints object are not covered."
  },
  {
   "property": "C78",
   "status": "partial",
   "theorems": [
    "Mrob.C78_point_cloud",
    "Mrob.C78_evaluate",
    "Mrob.C78_no_hessian",
    "Mrob.C78_range_fails",
    "Mrob.C78_dropped_fails",
    "Mrob.C78_stale_fails"
   ],
   "note": "get_point_cloud and the counts of print_evaluate are proved for all legal histories; the error is that of the points only when no earlier call has cached the matrices (C78_stale_fails); times out of range are clamped on reading and dropped on writing (C78_range_fails, C78_dropped_fails)."
  },
  {
   "property": "C79",
   "status": "proved",
   "theorems": [
    "Mrob.C79_iteration",
    "Mrob.C79_landmarks",
    "Mrob.C79_stops",
    "Mrob.C79_accuracy"
   ],
   "note": "the damped model is Spec.dampedCost; C79_iteration holds for every well-posed graph, C79_landmarks, C79_stops and C79_accuracy for graphs of landmarks seen from known poses."
  },
  {
   "property": "C80",
   "status": "partial",
   "theorems": [
    "Mrob.C80_step",
    "Mrob.C80_one_node_partial",
    "Mrob.C80_newton_fails"
   ],
   "note": "the equations solved by an iteration are proved for all three methods (C80_step); agreement with solve(GN) holds on graphs of one-node factors (C80_one_node_partial) and is false otherwise: C80_newton_fails leaves the minimum."
  },
  {
   "property": "C81",
   "status": "partial",
   "theorems": [
    "Mrob.C81_released_partial",
    "Mrob.C81_history_partial",
    "Mrob.C81_reuse_partial",
    "Mrob.C81_python_partial",
    "Mrob.C81_leak_fails",
    "Mrob.C81_cycle"
   ],
   "note": "Proved for graphs whose factors only use nodes of the graph, and for all legal histories from Python. False otherwise: a node that was never added and its factor own each other for ever."
  },
  {
   "property": "C82",
   "status": "partial",
   "theorems": [
    "Mrob.C82_step_partial",
    "Mrob.C82_history_partial",
    "Mrob.C82_error_partial",
    "Mrob.C82_shared_trajectory",
    "Mrob.C82_shared_fails"
   ],
   "note": "true as long as no plane is handed to two registrations, for all calls including solve (C82_step_partial, C82_history_partial, C82_error_partial); false for two registrations made from one scene (C82_shared_trajectory, C82_shared_fails)"
  },
  {
   "property": "C83",
   "status": "proved",
   "theorems": [
    "Mrob.C83_exchange",
    "Mrob.C83_moved",
    "Mrob.C83_reordered",
    "Mrob.C83_refused",
    "Mrob.C83_iterative_moved",
    "Mrob.C83_iterative_reordered"
   ],
   "note": "Exchange, rigid motion and order for arun, with possibly different decompositions in the two calls, and for refusals; order and motion of the first cloud for gicp and weighted_point."
  },
  {
   "property": "C84",
   "status": "partial",
   "theorems": [
    "Mrob.C84_arun_partial",
    "Mrob.C84_arun_fails",
    "Mrob.C84_iterative"
   ],
   "note": "Proved: the Python arun returns the unique best motion or the identity, and the true motion for clouds with separated scatter eigenvalues; iterative functions start from the identity. False for refused clouds: C84_arun_fails."
  },
  {
   "property": "C85",
   "status": "partial",
   "theorems": [
    "Mrob.C85_stacked_partial",
    "Mrob.C85_documented",
    "Mrob.C85_fails"
   ],
   "note": "False for the documented 3 x 3N layout: C85_documented says what is read, C85_fails gives NaN. For covariances below each other (3N x 3) the code uses the right ones: C85_stacked_partial."
  },
  {
   "property": "C86",
   "status": "partial",
   "theorems": [
    "Mrob.C86_gn_partial",
    "Mrob.C86_lm_partial",
    "Mrob.C86_lm_stops_partial",
    "Mrob.C86_fails"
   ],
   "note": "False in full: a 3D pose that is a half turn about (1,1,0) with a prior at exactly that pose is replaced by the identity rotation by both methods, with cost zero before and after (C86_fails), because update regenerates the pose through ln and exp. Proved for states that update(0) keeps: reduced headings, unit normals, rotations outside the approximated bands and away from horizontal diagonals. Gauss-Newton needs a positive definite information matrix."
  },
  {
   "property": "C87",
   "status": "partial",
   "theorems": [
    "Mrob.C87_update_rhs",
    "Mrob.C87_update_lhs_partial",
    "Mrob.C87_exact",
    "Mrob.C87_compound",
    "Mrob.C87_update_lhs_fails",
    "Mrob.C87_default_fails"
   ],
   "note": "update_rhs, compounding with an exact pose and the second moments of compounding are proved for every finite random twist; update (left) keeps the covariance, right only when the adjoint of the increment leaves it alone, with a counterexample; the default object is not neutral (identity covariance)."
  },
  {
   "property": "C88",
   "status": "partial",
   "theorems": [
    "Mrob.C88_scale_gn",
    "Mrob.C88_merge",
    "Mrob.C88_silent",
    "Mrob.C88_scale_lm_partial",
    "Mrob.C88_scale_fails"
   ],
   "note": "Gauss-Newton: proved (scaling, merging, zero information); Levenberg-Marquardt: merging and zero information proved, scaling only when damping and tolerance are scaled too, with a counterexample for solve itself."
  },
  {
   "property": "C89",
   "status": "proved",
   "theorems": [
    "Mrob.C89_iteration"
   ],
   "note": "for any derived class; the quadratic model and its penalty are stated without the matrices of the solver; exact inverse of the Hessian as in C46; non-positive Hessians excluded"
  },
  {
   "property": "C90",
   "status": "partial",
   "theorems": [
    "Mrob.C90_all_poses",
    "Mrob.C90_interpolated_partial",
    "Mrob.C90_interpolated_fails"
   ],
   "note": "complete for solve_gradient_all_poses; interpolated mode: descent proved for equal numbers of points with two poses or the initial trajectory and no momentum, false for different numbers of points (every step size)"
  },
  {
   "property": "C91",
   "status": "partial",
   "theorems": [
    "Mrob.C91_nesterov_partial",
    "Mrob.C91_restart_fails"
   ],
   "note": "started without momentum the loop follows Nesterov's method, with the gradients characterised as derivatives; false for a second call on the same object, which keeps the old momentum"
  },
  {
   "property": "C92",
   "status": "partial",
   "theorems": [
    "Mrob.C92_gn",
    "Mrob.C92_landmarks_partial",
    "Mrob.C92_lm",
    "Mrob.C92_lm_fails",
    "Mrob.C92_gn_fails"
   ],
   "note": "False as stated. C92_gn: after GN the matrices are those at the states before the step; C92_gn_fails: a landmark seen at distance and bearing is moved from (2,0) to (1,0), and the returned matrix is that of (2,0). C92_lm: after LM the matrix is that at the states before the last trial step plus the damping on the diagonal; C92_lm_fails: on every graph of landmarks seen from known poses it is not the information matrix. C92_landmarks_partial: after GN on graphs of landmarks seen from known poses the matrix is right. W holds only the upper triangle of the information of each observation (last part of C92_gn)."
  },
  {
   "property": "C93",
   "status": "partial",
   "theorems": [
    "Mrob.C93_lm_landmarks_partial",
    "Mrob.C93_spatial_lm_partial",
    "Mrob.C93_gn_partial",
    "Mrob.C93_lm_partial",
    "Mrob.C93_odom_fails",
    "Mrob.C93_rel3d_fails",
    "Mrob.C93_near_fails",
    "Mrob.C93_plane_fails",
    "Mrob.C93_spatial_partial"
   ],
   "note": "False as stated: C93_odom_fails and C93_rel3d_fails show two contradicting measurements of one pose with an anisotropic information matrix whose estimate does not turn with the frame, because the errors of odometry and of relative spatial poses are expressed in the world frame; C93_near_fails the same for a landmark closer than 1e-3 to a pose, C93_plane_fails the same for an estimated plane and a displaced frame (the update normalises the normal but not the offset). C93_gn_partial: planar graphs (relative poses, priors, odometry, landmarks at a distance), Gauss-Newton, any planar motion, with priors and the information of priors and odometry restated. C93_lm_partial: planar pose graphs, Levenberg-Marquardt. C93_spatial_partial: spatial graphs, Gauss-Newton, any rigid motion, information of priors and relative poses restated, planes anchored unless the motion is a rotation, rotations outside the intervals where logarithm and exponential are approximated. C93_lm_landmarks_partial: Levenberg-Marquardt on planar graphs with landmarks, the distance condition being made at the estimates the loop comes to; C93_spatial_lm_partial: Levenberg-Marquardt on spatial graphs, rotated, or moved if only landmarks are estimated. Missing: those intervals, LM in displaced frames with estimated poses."
  },
  {
   "property": "C94",
   "status": "partial",
   "theorems": [
    "Mrob.C94_gn_partial",
    "Mrob.C94_odom_fails",
    "Mrob.C94_lm_partial",
    "Mrob.C94_spatial_partial",
    "Mrob.C94_spatial_fails",
    "Mrob.C94_spatial_lm_partial"
   ],
   "note": "Planar graphs with exact measurements: repeated calls of Gauss-Newton started in a neighbourhood of the true states return and converge faster than any geometric sequence; repeated calls of Levenberg-Marquardt return and converge geometrically with any ratio above 1e-5/(1e-5+mu). Both also for spatial graphs (poses, landmarks, points on planes; for Levenberg-Marquardt no pose turned by exactly half a turn). False with odometry that turns and drives (C94_odom_fails: the error grows by 1.3 per call) and for poses that logarithm and exponential do not keep (C94_spatial_fails). Missing: plane nodes, half turns for Levenberg-Marquardt, noise."
  },
  {
   "property": "C95",
   "status": "partial",
   "theorems": [
    "Mrob.C95_identity_partial",
    "Mrob.C95_blind",
    "Mrob.C95_fails",
    "Mrob.C95_same_id_fails",
    "Mrob.C95_jacobian_fails"
   ],
   "note": "False as stated: the poses of the nodes are never read (C95_blind, C95_fails), observations of nodes with equal ids are dropped (C95_same_id_fails), the Jacobian of every observing node is computed from an unwritten matrix (C95_jacobian_fails). Proved: optimal plane and error for nodes with different ids at the identity (C95_identity_partial). The class is not part of the build."
  },
  {
   "property": "C96",
   "status": "partial",
   "theorems": [
    "Mrob.C96_gn",
    "Mrob.C96_part",
    "Mrob.C96_lm_partial",
    "Mrob.C96_lm_fails"
   ],
   "note": "proved for Gauss-Newton (`C96_gn`, `C96_part`) and for one iteration of Levenberg-Marquardt with the same damping (`C96_lm_partial`); false for the loop of Levenberg-Marquardt, whose damping and stop test are shared by all parts (`C96_lm_fails`)"
  },
  {
   "property": "C97",
   "status": "proved",
   "theorems": [
    "Mrob.C97_determined",
    "Mrob.C97_session",
    "Mrob.C97_free",
    "Mrob.C97_few",
    "Mrob.C97_isolated"
   ],
   "note": "tied graphs: the quadratic form of the information matrix vanishes only at zero (induction over the ties, invertible Jacobian blocks), preserved by every solve call; converses for floating planar graphs, too few measurements and nodes without measurements"
  },
  {
   "property": "C98",
   "status": "partial",
   "theorems": [
    "Mrob.C98_gn_partial",
    "Mrob.C98_best_partial"
   ],
   "note": "Gauss-Newton step from the true states: unbiased, covariance of the error is the inverse of the returned information matrix, least variance among linear unbiased estimates; missing: odometry and relative spatial poses (their Jacobians depend on the measured value), robust weights, Levenberg-Marquardt, other starts"
  },
  {
   "property": "C99",
   "status": "partial",
   "theorems": [
    "Mrob.C99_truth_partial",
    "Mrob.C99_solved_partial"
   ],
   "note": "chi2 at the true states for all classes of C98; after solving for landmarks seen from known poses; missing: graphs with nonlinear residuals, for which it holds to first order only"
  },
  {
   "property": "C100",
   "status": "proved",
   "theorems": [
    "Mrob.C100_gn",
    "Mrob.C100_covariance"
   ],
   "note": "For Gauss-Newton, on all determined graphs without RANSAC factors: same estimates and same covariances of the old nodes, larger graph determined."
  },
  {
   "property": "C101",
   "status": "proved",
   "theorems": [
    "Mrob.C101_covariance"
   ],
   "note": "Marginal covariance of the old nodes in the larger graph is at most the covariance in the smaller one, both linearised at the same states (as solve(GN) does)."
  },
  {
   "property": "C102",
   "status": "proved",
   "theorems": [
    "Mrob.C102_gn",
    "Mrob.C102_measured",
    "Mrob.C102_quadratic_fails"
   ],
   "note": "For one Gauss-Newton step; factor classes whose Jacobian does not depend on the measured value (C102_measured). The contrast without kernel is C102_quadratic_fails."
  },
  {
   "property": "C103",
   "status": "proved",
   "theorems": [
    "Mrob.C103_gn"
   ],
   "note": "For one Gauss-Newton step, any graph determined by the anchor, any prior with positive definite information at the present value."
  },
  {
   "property": "C104",
   "status": "partial",
   "theorems": [
    "Mrob.C104_gn_partial",
    "Mrob.C104_lm_fails",
    "Mrob.C104_near_fails"
   ],
   "note": "true for solve(GN) on all classes of nodes and factors, with the planar landmarks farther than 1e-3 in both units (C104_gn_partial); false for solve(LM) (C104_lm_fails) and for planar landmarks that come closer than 1e-3 of the new unit (C104_near_fails)"
  },
  {
   "property": "C105",
   "status": "partial",
   "theorems": [
    "Mrob.C105_nag_partial",
    "Mrob.C105_ignored",
    "Mrob.C105_all_poses",
    "Mrob.C105_all_poses_fails"
   ],
   "note": "false for GRADIENT_ALL_POSES (C105_all_poses_fails): the argument is used by GRADIENT_BENGIOS_NAG only (C105_ignored); there it gives exactly one step (C105_nag_partial)"
  },
  {
   "property": "C106",
   "status": "partial",
   "theorems": [
    "Mrob.C106_small_partial",
    "Mrob.C106_fails"
   ],
   "note": "false at every scale for singular covariances (C106_fails); proved for covariances that are small compared to their definiteness (C106_small_partial)"
  },
  {
   "property": "C107",
   "status": "partial",
   "theorems": [
    "Mrob.C107_converged",
    "Mrob.C107_continue_partial",
    "Mrob.C107_damping_partial",
    "Mrob.C107_more",
    "Mrob.C107_fails"
   ],
   "note": "False of the code for two calls because every call resets the damping (C107_fails); proved: converged runs are stable under larger limits, larger limits never give larger cost, and the continuation with the damping kept."
  },
  {
   "property": "C108",
   "status": "partial",
   "theorems": [
    "Mrob.C108_again",
    "Mrob.C108_solve",
    "Mrob.C108_history",
    "Mrob.C108_dense",
    "Mrob.C108_plane_partial",
    "Mrob.C108_fails"
   ],
   "note": "Proved for graphs (sparse and dense solver) for all programs; for planes proved directly before solve, false when points are added after the query (C108_fails)."
  },
  {
   "property": "C109",
   "status": "proved",
   "theorems": [
    "Mrob.C109_gn",
    "Mrob.C109_lm",
    "Mrob.C109_init"
   ],
   "note": "All graphs without RANSAC factors, both methods, any exact linear solvers; equal numbers for Gauss-Newton, equal up to full turns for Levenberg-Marquardt."
  },
  {
   "property": "C110",
   "status": "partial",
   "theorems": [
    "Mrob.C110_bounds_partial",
    "Mrob.C110_turned_partial",
    "Mrob.C110_step_partial",
    "Mrob.C110_solve_partial",
    "Mrob.C110_displaced_fails"
   ],
   "note": "False for displaced frames of the sensor (C110_displaced_fails): planes are unit 4-vectors, so the error depends on their distance to the origin. Proved: the errors of the two problems differ by a factor of at most (1+|t|)^2 (C110_bounds_partial); for turned frames the errors are equal (C110_turned_partial), and a step and a whole run of solve_gradient_all_poses commute with the turn where the best planes are unique (C110_step_partial, C110_solve_partial). Missing: the other modes."
  },
  {
   "property": "C111",
   "status": "partial",
   "theorems": [
    "Mrob.C111_cost_partial",
    "Mrob.C111_gn_partial",
    "Mrob.C111_plane_fails",
    "Mrob.C111_planar_fails",
    "Mrob.C111_lm_partial"
   ],
   "note": "Another frame of the vehicle: equal errors and corresponding estimates (Gauss-Newton and Levenberg-Marquardt) for spatial graphs; false for planes that only the prediction or only the observation puts between the two origins, and for planar poses. Missing: poses changed by regenerate."
  },
  {
   "property": "C112",
   "status": "partial",
   "theorems": [
    "Mrob.C112_cost_partial",
    "Mrob.C112_gn_partial",
    "Mrob.C112_half_fails",
    "Mrob.C112_lm_partial"
   ],
   "note": "Mirror images of planar graphs: equal errors and mirrored estimates (Gauss-Newton and Levenberg-Marquardt); false when an angular error is exactly a half turn."
  },
  {
   "property": "C113",
   "status": "partial",
   "theorems": [
    "Mrob.C113_step",
    "Mrob.C113_descent_partial"
   ],
   "note": "C113_step: an iteration solves the equations of the method and moves the last pose by the exponential of the solution. C113_descent_partial: for two poses, or a trajectory of identities, the step goes downhill if the damped Hessian is positive definite. Missing: more poses away from the identity, where the gradient of the code is not that of the error (C65_gradient_fails)."
  },
  {
   "property": "C114",
   "status": "partial",
   "theorems": [
    "Mrob.C114_refill_fails",
    "Mrob.C114_release_partial"
   ],
   "note": "False of the code: clear_points empties the outer vector, so that for every plane and every history the next push_back_point, get_points, get_number_points, and the next estimation after reset, index an empty vector (undefined behaviour), and the total number of points still counts the old ones (C114_refill_fails). What holds: after an estimation the points are not needed any more; every later sequence of estimations, gradients and Hessians gives the same with and without clear_points (C114_release_partial)."
  },
  {
   "property": "C115",
   "status": "partial",
   "theorems": [
    "Mrob.C115_solve",
    "Mrob.C115_reported",
    "Mrob.C115_history_partial",
    "Mrob.C115_initialize_partial",
    "Mrob.C115_initialize_fails"
   ],
   "note": "Proved for every order of the planes, changed before every call, for all functions and modes but the initialisation (C115_solve, C115_reported, C115_history_partial), and for the initialisation if every plane has points in the first pose (C115_initialize_partial). False for the initialisation otherwise: with a plane without points one order returns and the other reads beyond the end of a vector (C115_initialize_fails)."
  },
  {
   "property": "C116",
   "status": "proved",
   "theorems": [
    "Mrob.C116_solve",
    "Mrob.C116_reported",
    "Mrob.C116_history"
   ],
   "note": "Every permutation of a block of pushes inside every history of public calls; all modes including the initialisation. Over the real numbers: rounding of sums is not modelled."
  },
  {
   "property": "C117",
   "status": "proved",
   "theorems": [
    "Mrob.C117_history",
    "Mrob.C117_values"
   ],
   "note": "Every one-to-one correspondence of identifiers and every history of public calls, all modes. The planes are visited in the order of insertion; C115 covers other orders."
  },
  {
   "property": "C118",
   "status": "partial",
   "theorems": [
    "Mrob.C118_solve_partial",
    "Mrob.C118_error",
    "Mrob.C118_addNewPlane",
    "Mrob.C118_history_partial",
    "Mrob.C118_initialize_partial",
    "Mrob.C118_initialize_fails"
   ],
   "note": "Proved in every mode but the initialisation, for an additional plane with as many poses as another one, added at any time, and for the initialisation if this plane is visited last; false of solve_initialize otherwise, where the empty plane causes a read out of range."
  },
  {
   "property": "C119",
   "status": "proved",
   "theorems": [
    "Mrob.C119_solve",
    "Mrob.C119_planes",
    "Mrob.C119_error",
    "Mrob.C119_elsewhere"
   ],
   "note": "All cached members arbitrary except the accumulated matrices, which are the same or those of the points; all modes. Points added after the matrices were computed are the subject of C50."
  }
 ]
}
