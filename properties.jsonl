{"id": "C01", "title": "hat and vee are mutually inverse and hat3 is the cross product", "statement": "hat3(w)\u00b7v equals the cross product w\u00d7v, hat3(w) is skew-symmetric, vee3(hat3(w)) = w, vee6(hat6(xi)) = xi, and hat3(vee3(M)) = M, hat6(vee6(M)) = M for every matrix M in the respective Lie algebra.", "quantifier": "every w, v in R^3, every xi in R^6, every skew 3x3 matrix / se(3) 4x4 matrix", "why_tests_cant": "A test fixes a handful of vectors; a swapped sign on one component can be invisible on sparse test vectors.", "anchors": ["src/geometry/SO3.cpp: hat3, vee3", "src/geometry/SE3.cpp: hat6, vee6"]}
{"id": "C02", "title": "SO3(w) is the matrix exponential of hat3(w)", "statement": "For every rotation vector w the matrix SO3(w).R() equals the power-series exponential of hat3(w); for norms below the small-angle threshold it differs from it by no more than an explicit bound.", "quantifier": "every w in R^3, split by the code's norm threshold 1e-5", "why_tests_cant": "The exponential is an infinite series and the threshold splits R^3 into regions; tests sample a few points of each.", "anchors": ["src/geometry/SO3.cpp: SO3::SO3(const Mat31&), SO3::exp"]}
{"id": "C03", "title": "SO3(w) is always a rotation", "statement": "SO3(w).R() is orthogonal with determinant +1 for every w (up to an explicitly bounded defect under the small-angle threshold).", "quantifier": "every w in R^3", "why_tests_cant": "Orthogonality must hold for a continuum of inputs, including huge norms.", "anchors": ["src/geometry/SO3.cpp: SO3::SO3(const Mat31&), SO3::exp"]}
{"id": "C04", "title": "SO3 operations never leave the rotation group", "statement": "Starting from rotations, any finite sequence of mul, *, inv, update_lhs, update_rhs yields rotations; mul is associative, SO3() is its unit and R.inv() is the two-sided inverse of R.", "quantifier": "every starting rotation and every finite sequence of operations with arbitrary arguments", "why_tests_cant": "Drift can need long histories to appear; tests compose a few elements.", "anchors": ["src/geometry/SO3.cpp: operator*, mul, inv, update_lhs, update_rhs"]}
{"id": "C05", "title": "Taking the logarithm of a rotation and exponentiating returns the rotation", "statement": "For every rotation R, SO3(R.ln_vee()).R() = R.", "quantifier": "every rotation matrix R, including half-turns and ties between diagonal entries", "why_tests_cant": "The branch structure (trace sign, largest diagonal entry, NaN guards) creates measure-zero cases random tests never hit.", "anchors": ["src/geometry/SO3.cpp: SO3::ln, SO3::ln_vee, SO3::exp"]}
{"id": "C06", "title": "Exponentiating and taking the logarithm returns the rotation vector", "statement": "For every w with norm below pi, SO3(w).ln_vee() = w.", "quantifier": "every w with |w| < pi", "why_tests_cant": "Continuum of inputs, several branches and thresholds.", "anchors": ["src/geometry/SO3.cpp: SO3::ln, SO3::exp"]}
{"id": "C07", "title": "The rotation logarithm has the length of the rotation angle", "statement": "R.ln_vee() has norm arccos((trace R - 1)/2), so it lies in [0, pi] and is zero only for the identity.", "quantifier": "every rotation matrix R", "why_tests_cant": "Same branch structure as above; the failing set has measure zero.", "anchors": ["src/geometry/SO3.cpp: SO3::ln, SO3::ln_vee"]}
{"id": "C08", "title": "SE3(xi) is the matrix exponential of hat6(xi)", "statement": "For every twist xi, SE3(xi).T() equals the power-series exponential of hat6(xi), outside the small-angle regions where it is a bounded approximation.", "quantifier": "every xi in R^6", "why_tests_cant": "Infinite series and two independent thresholds (1e-5 for the rotation part, 1e-3 for the translation part).", "anchors": ["src/geometry/SE3.cpp: SE3::SE3(const Mat61&), SE3::exp"]}
{"id": "C09", "title": "SE3 operations never leave the rigid-transformation group", "statement": "Starting from valid rigid transformations, any finite sequence of mul, *, inv, update_lhs, update_rhs yields matrices whose 3x3 block is a rotation and whose last row is exactly (0,0,0,1); mul is associative with unit SE3().", "quantifier": "every starting element and every finite sequence of operations", "why_tests_cant": "Histories are unbounded.", "anchors": ["src/geometry/SE3.cpp: operator*, mul, inv, update_lhs, update_rhs"]}
{"id": "C10", "title": "SE3 inverse is a two-sided inverse", "statement": "T.inv()*T = T*T.inv() = SE3() and (A*B).inv() = B.inv()*A.inv() for all valid T, A, B; T.inv().inv() = T.", "quantifier": "every valid rigid transformation", "why_tests_cant": "Continuum of inputs.", "anchors": ["src/geometry/SE3.cpp: SE3::inv"]}
{"id": "C11", "title": "SE3 acts on points as a group of isometries", "statement": "(A*B).transform(p) = A.transform(B.transform(p)), SE3().transform(p)=p, T.inv().transform(T.transform(p)) = p, and distances between points are preserved. transform_array applies transform to every row independently and keeps the number and order of rows.", "quantifier": "every valid A, B, T, all points and point arrays of any length", "why_tests_cant": "Arrays of every length and all transforms.", "anchors": ["src/geometry/SE3.cpp: SE3::transform, SE3::transform_array"]}
{"id": "C12", "title": "Adjoint law: T * Exp(xi) = Exp(Adj_T xi) * T", "statement": "For every valid T and twist xi, updating T on the right by xi equals updating it on the left by T.adj()*xi; the adjoint is multiplicative and T.inv().adj() is its inverse.", "quantifier": "every valid T and every xi, in every threshold branch", "why_tests_cant": "Tests check a single (T, xi).", "anchors": ["src/geometry/SE3.cpp: SE3::adj, update_lhs, update_rhs", "src/geometry/SO3.cpp: SO3::adj"]}
{"id": "C13", "title": "SE3 logarithm and exponential are inverse", "statement": "SE3(T.ln_vee()).T() = T.T() for every valid T (and hence regenerate() leaves a valid T unchanged), and SE3(xi).ln_vee() = xi for every xi with rotation norm below pi.", "quantifier": "every valid T, every xi with rotational norm < pi", "why_tests_cant": "Branches and thresholds; measure-zero failures.", "anchors": ["src/geometry/SE3.cpp: SE3::ln, SE3::ln_vee, SE3::regenerate"]}
{"id": "C14", "title": "Distances between poses behave like distances", "statement": "distance, distance_rotation and distance_trans are non-negative, symmetric, zero between equal elements; distance_trans obeys the triangle inequality; distance_rotation is zero only between elements with the same rotation and bounded by pi.", "quantifier": "all pairs / triples of valid poses", "why_tests_cant": "Universally quantified inequalities over a continuum.", "anchors": ["src/geometry/SE3.cpp: distance, distance_rotation, distance_trans", "src/geometry/SO3.cpp: distance"]}
{"id": "C15", "title": "isSO3 / isSE3 accept exactly the valid matrices", "statement": "isSO3(M) returns true iff M is orthogonal with determinant 1 (to tolerance), and isSE3(T) iff its 3x3 block is a rotation and the last row is (0,0,0,1) (to tolerance).", "quantifier": "every 3x3 / 4x4 matrix", "why_tests_cant": "Random rejection tests only show that most matrices are rejected; the acceptance set is a continuum.", "anchors": ["src/geometry/SO3.cpp: isSO3", "src/geometry/SE3.cpp: isSE3"]}
{"id": "C16", "title": "Quaternions convert to rotations consistently", "statement": "quat_to_so3(q) is a rotation for every non-zero q = (x,y,z,w), does not change when q is multiplied by a non-zero number (in particular -q), maps unit (0,0,0,1) to the identity and the Hamilton product to the matrix product.", "quantifier": "every non-zero quaternion and pairs of them", "why_tests_cant": "Continuum of inputs and two-variable homomorphism law.", "anchors": ["src/geometry/SO3.cpp: quat_to_so3"]}
{"id": "C17", "title": "Roll-pitch-yaw conversion yields a rotation", "statement": "rpy_to_so3((r,p,y)) is a rotation equal to the product of the elementary rotations about x by r, y by p, z by y in that order; it is 2*pi-periodic in each argument.", "quantifier": "all r, p, y", "why_tests_cant": "Continuum of inputs.", "anchors": ["src/geometry/SO3.cpp: rpy_to_so3"]}
{"id": "C18", "title": "Second-order covariance compounding keeps covariances valid", "statement": "The pose of a compounded SE3Cov is the product of the poses; its covariance is Sigma1 + Adj Sigma2 Adj^T, stays symmetric positive semidefinite along any chain of compoundings of symmetric PSD covariances, and compounding is associative.", "quantifier": "every chain of compoundings of any length", "why_tests_cant": "Histories are unbounded; PSD is a statement over all directions.", "anchors": ["src/geometry/SE3cov.cpp: compound_2nd_order, mul, operator*"]}
{"id": "C19", "title": "Fourth-order covariance compounding is symmetric and extends second order", "statement": "compound_4th_order yields a symmetric covariance for symmetric inputs, the same pose as the second-order rule, and agrees with it when either covariance is zero.", "quantifier": "every pose pair and all symmetric 6x6 covariances", "why_tests_cant": "36 polynomial entries over a continuum of inputs.", "anchors": ["src/geometry/SE3cov.cpp: compound_4th_order, brackets"]}
{"id": "C20", "title": "Updating by a twist and by its opposite cancels", "statement": "update_lhs(xi) followed by update_lhs(-xi) restores the pose, likewise update_rhs; the exponentials of parallel twists compose additively.", "quantifier": "every pose and twist", "why_tests_cant": "Continuum of inputs; the approximate branch breaks exactness only by a bounded amount.", "anchors": ["src/geometry/SE3.cpp: update_lhs, update_rhs", "src/geometry/SO3.cpp: update_lhs, update_rhs"]}
{"id": "C21", "title": "wrap_angle returns the unique representative in [-pi, pi)", "statement": "wrap_angle(a) terminates, lies in [-pi, pi), differs from a by an integer multiple of 2*pi, is idempotent, and two angles wrap to the same value iff they differ by a multiple of 2*pi.", "quantifier": "every real angle", "why_tests_cant": "Unbounded loop over arbitrary inputs.", "anchors": ["src/FGraph/node.cpp: wrap_angle", "src/FGraph/mrob/node.hpp"]}
{"id": "C22", "title": "The heading of a 2D pose node stays in [-pi, pi)", "statement": "After construction and after any sequence of update, set_state, bookkeeping and restore operations the orientation reported by get_state() lies in [-pi, pi).", "quantifier": "every initial value and operation history", "why_tests_cant": "Histories are unbounded.", "anchors": ["src/FGraph/factors/nodePose2d.cpp"]}
{"id": "C23", "title": "Book-keeping a node and restoring it gives back the state", "statement": "For every node type, set_auxiliary_state(get_state()), any number of updates, then update_from_auxiliary(0)-style restore (set_state from the auxiliary) returns the exact state held before.", "quantifier": "every node type, state and sequence of updates in between", "why_tests_cant": "All histories between save and restore.", "anchors": ["src/FGraph/factors/nodePose2d.cpp", "src/FGraph/factors/nodePose3d.cpp", "src/FGraph/factors/nodeLandmark2d.cpp", "src/FGraph/factors/nodeLandmark3d.cpp", "src/FGraph/factors/nodePlane4d.cpp", "src/FGraph/factor_graph_solve.cpp: synchronize_nodes_state, synchronize_nodes_auxiliary_state"]}
{"id": "C24", "title": "Robust weights are the documented influence weights", "statement": "The weight returned for a normalised residual u>=0 lies in (0,1], is 1 at u=0, never increases with u, and equals rho'(u)/u for the selected Cauchy/Huber/Geman-McClure cost; weight*u stays bounded for robust choices.", "quantifier": "every u >= 0 and every robust type", "why_tests_cant": "Monotonicity and the derivative relation quantify over a continuum.", "anchors": ["src/FGraph/factor.cpp: Factor::evaluate_robust_weight"]}
{"id": "C25", "title": "Plane nodes keep a unit normal", "statement": "After construction and any sequence of updates the normal of a plane node has unit length (when the intermediate normal is non-zero), and normalisation does not change which plane is represented for inputs that are already unit.", "quantifier": "every initial plane and update history", "why_tests_cant": "Unbounded histories.", "anchors": ["src/FGraph/factors/nodePlane4d.cpp"]}
{"id": "C26", "title": "Factor Jacobians are the derivatives of the residuals", "statement": "For every factor type the Jacobian stored by evaluate_jacobians is the derivative of the residual with respect to the node update used by the solver, at every state.", "quantifier": "every state and every direction for each factor type", "why_tests_cant": "A finite-difference test checks one linearisation point.", "anchors": ["src/FGraph/factors/factor1Pose2d.cpp", "src/FGraph/factors/factor2Poses2d.cpp", "src/FGraph/factors/factor1Pose1Landmark2d.cpp", "src/FGraph/factors/factor1Pose1Landmark3d.cpp", "src/FGraph/factors/factor1Pose1Plane4d.cpp", "src/PCRegistration/factors/factor1PosePoint2Plane.cpp", "src/FGraph/factors/factor1Pose3d.cpp", "src/FGraph/factors/factor2Poses3d.cpp"]}
{"id": "C27", "title": "A relative-pose measurement means the same whichever node has the smaller id", "statement": "Adding a relative pose factor from node a to node b constrains the poses identically whether a was created before or after b: the residual is zero exactly when pose_b = pose_a * observation.", "quantifier": "all observations, poses and both creation orders", "why_tests_cant": "Both orders and all observations must agree.", "anchors": ["src/FGraph/factors/factor2Poses2d.cpp: Factor2Poses2d ctor", "src/FGraph/factors/factor2Poses3d.cpp: Factor2Poses3d ctor"]}
{"id": "C28", "title": "Initialising the target node from the measurement makes the residual zero", "statement": "After adding a relative-pose (2D, odometry, 3D) factor with updateNodeTarget=true, or a landmark factor with initializeLandmark=true, evaluating that factor gives a zero residual.", "quantifier": "all origin states and observations", "why_tests_cant": "Continuum of states and observations.", "anchors": ["src/FGraph/factors/factor2Poses2d.cpp", "src/FGraph/factors/factor2Poses3d.cpp", "src/FGraph/factors/factor1Pose1Landmark2d.cpp", "src/FGraph/factors/factor1Pose1Landmark3d.cpp"]}
{"id": "C29", "title": "chi2 is non-negative and vanishes only on consistent states", "statement": "With positive semidefinite information matrices, chi2() of every factor and of the graph is >= 0; with positive definite ones it is zero iff every residual is zero.", "quantifier": "every graph, state, and PSD information matrices", "why_tests_cant": "Universally quantified inequality.", "anchors": ["src/FGraph/factor_graph_solve.cpp: chi2", "src/FGraph/factors/factor1Pose2d.cpp: evaluate_chi2"]}
{"id": "C30", "title": "Gauge invariance of relative factors", "statement": "Moving all poses and landmarks of a graph by one common rigid motion leaves the residuals of relative factors (2D relative pose, 2D/3D pose-landmark, pose-plane) unchanged.", "quantifier": "every common motion, state and observation", "why_tests_cant": "Universally quantified symmetry.", "anchors": ["src/FGraph/factors/factor2Poses2d.cpp", "src/FGraph/factors/factor1Pose1Landmark2d.cpp", "src/FGraph/factors/factor1Pose1Landmark3d.cpp", "src/FGraph/factors/factor1Pose1Plane4d.cpp", "src/FGraph/factors/factor2Poses3d.cpp"]}
{"id": "C31", "title": "Node and factor ids are dense, unique and stable", "statement": "The k-th added node (factor) gets id k, get_node(id)/get_factor(id) returns that very object at any later time, number_nodes/number_factors count the additions; no later addition changes an existing id.", "quantifier": "every sequence of additions", "why_tests_cant": "All histories.", "anchors": ["src/FGraph/factor_graph.cpp: add_node, add_factor, get_node, get_factor"]}
{"id": "C32", "title": "State and observation dimensions match the graph contents", "statement": "At any time the state dimension equals the sum of dimensions of the STANDARD nodes and the observation dimension equals the sum of dimensions of the factors; anchors add nothing.", "quantifier": "every sequence of additions with any node modes and dimensions", "why_tests_cant": "All histories.", "anchors": ["src/FGraph/factor_graph.cpp: add_node, add_factor, add_eigen_factor"]}
{"id": "C33", "title": "Neighbour lists agree with the factors", "statement": "A factor appears in the neighbour list of a node exactly as many times as the node appears among the factor's nodes, and in no other node's list, in order of insertion.", "quantifier": "every sequence of additions", "why_tests_cant": "All histories.", "anchors": ["src/FGraph/factor_graph.cpp: add_factor", "src/FGraph/node.cpp: add_factor, rm_factor"]}
{"id": "C34", "title": "The information system is the sum of factor contributions", "statement": "After building the problem the information matrix equals the sum over factors of J^T (w W) J placed at the columns of the factor's non-anchor nodes and b equals the sum of J^T (w W) r; it is symmetric, and positive semidefinite when the weights are.", "quantifier": "every graph: any number of nodes, factors, dimensions, modes and connections", "why_tests_cant": "Index bookkeeping over graphs of arbitrary shape.", "anchors": ["src/FGraph/factor_graph_solve.cpp: build_adjacency, build_info_adjacency"]}
{"id": "C35", "title": "Anchor nodes never move", "statement": "No sequence of solve calls (GN or LM) changes the state of a node added in ANCHOR mode.", "quantifier": "every graph and sequence of solves", "why_tests_cant": "All graphs and histories.", "anchors": ["src/FGraph/factor_graph_solve.cpp: update_nodes, build_adjacency"]}
{"id": "C36", "title": "A Gauss-Newton step solves the linearised problem and is exact on linear problems", "statement": "The increment applied by solve(GN) minimises the linearised weighted cost; when residuals are affine in the state and the information matrix is invertible, one step reaches the global minimum from any start.", "quantifier": "every graph with affine residuals and every start", "why_tests_cant": "All problems and starts.", "anchors": ["src/FGraph/factor_graph_solve.cpp: optimize_gauss_newton, update_nodes, solve"]}
{"id": "C37", "title": "Levenberg-Marquardt never makes the cost worse", "statement": "After solve(LM) the chi2 of the graph is not larger than before.", "quantifier": "every problem, start, iteration limit and tolerance", "why_tests_cant": "Arbitrary sequences of accepted and rejected steps.", "anchors": ["src/FGraph/factor_graph_solve.cpp: optimize_levenberg_marquardt"]}
{"id": "C38", "title": "Levenberg-Marquardt respects the iteration limit and reports it", "statement": "solve(LM, maxIters) performs between 1 and max(1, maxIters) iterations; it returns the iteration number at which the tolerance was met or 0; the damping stays positive.", "quantifier": "every problem and maxIters", "why_tests_cant": "All executions.", "anchors": ["src/FGraph/factor_graph_solve.cpp: optimize_levenberg_marquardt, solve"]}
{"id": "C39", "title": "A rejected step leaves no trace", "statement": "When an LM step is rejected, the states of all nodes are the ones before the step.", "quantifier": "every problem and every rejected step", "why_tests_cant": "All histories.", "anchors": ["src/FGraph/factor_graph_solve.cpp: optimize_levenberg_marquardt, synchronize_nodes_state"]}
{"id": "C40", "title": "User-supplied solver parameters take effect", "statement": "solve(method, maxIters, lambda, tol) uses the lambda and tolerance given by the caller.", "quantifier": "all lambda and tolerance", "why_tests_cant": "Needs a statement about all values: two different lambdas must be able to give different runs.", "anchors": ["src/FGraph/factor_graph_solve.cpp: solve, optimize_levenberg_marquardt"]}
{"id": "C41", "title": "Estimated states are reported in id order", "statement": "get_estimated_state() returns exactly one state per node, the i-th being the current state of the node with id i, anchors included.", "quantifier": "every graph", "why_tests_cant": "All graphs.", "anchors": ["src/FGraph/factor_graph_solve.cpp: get_estimated_state"]}
{"id": "C42", "title": "Per-factor chi2 values describe the current state", "statement": "After solve, get_chi2_array() lists one entry per factor in id order, sums to chi2(), and corresponds to the current state.", "quantifier": "every graph and solve outcome", "why_tests_cant": "A stale array appears only after particular step histories.", "anchors": ["src/FGraph/factor_graph_solve.cpp: get_chi2_array, chi2"]}
{"id": "C43", "title": "The solution does not depend on the order of adding factors", "statement": "Permuting the order in which factors are added leaves the information matrix, b and chi2 unchanged.", "quantifier": "every permutation of every factor list", "why_tests_cant": "Factorially many orders.", "anchors": ["src/FGraph/factor_graph_solve.cpp: build_adjacency, build_info_adjacency, chi2"]}
{"id": "C44", "title": "Problem assembly is well defined for every graph the API accepts", "statement": "Building the problem writes every matrix entry at most once and inside the matrix bounds, for every graph that can be built through add_node/add_factor.", "quantifier": "every sequence of API calls", "why_tests_cant": "Undefined behaviour needs particular graphs (self loops, anchors changed later).", "anchors": ["src/FGraph/factor_graph_solve.cpp: build_adjacency", "src/FGraph/factor_graph.cpp: add_factor"]}
{"id": "C45", "title": "The dense solver builds the same normal equations as the sparse one", "statement": "For graphs without anchors and robust weights, the gradient and Hessian computed by the dense solver equal the b and information matrix of the sparse solver.", "quantifier": "every graph", "why_tests_cant": "All graph shapes.", "anchors": ["src/FGraph/factor_graph_solve_dense.cpp: calculate_gradient_hessian"]}
{"id": "C46", "title": "The dense Levenberg-Marquardt never makes the error worse and stops", "statement": "Optimizer::solve with LM never increases the error, restores the state after rejection, and does at most max_iters iterations.", "quantifier": "every problem and parameters", "why_tests_cant": "All executions.", "anchors": ["src/common/optimizer.cpp: optimize_levenberg_marquardt, solve"]}
{"id": "C47", "title": "Newton-Raphson loop stops within the limit and its last change is below tolerance when it stops early", "statement": "Optimizer::solve with NEWTON_RAPHSON performs at least one and at most max(1,max_iters) iterations, and if fewer than the limit the last error change is at most the tolerance.", "quantifier": "every problem and parameters", "why_tests_cant": "All executions.", "anchors": ["src/common/optimizer.cpp: optimize_newton_raphson"]}
{"id": "C48", "title": "The dense solver handles every node", "statement": "The dense solver may be used on any graph, including graphs with anchors: indices stay within bounds and anchors do not move.", "quantifier": "every graph", "why_tests_cant": "Particular modes are needed.", "anchors": ["src/FGraph/factor_graph_solve_dense.cpp: calculate_gradient_hessian, update_state"]}
{"id": "C49", "title": "The plane matrix accumulates all points and measures squared distances", "statement": "For each plane and time the matrix S equals the sum of homogeneous outer products of the points pushed at that time, is PSD, is independent of their order, and pi^T Q pi equals the sum of squared signed distances of the transformed points to the plane pi.", "quantifier": "every list of points, pose and plane", "why_tests_cant": "Lists of arbitrary length.", "anchors": ["src/PCRegistration/plane.cpp: calculate_matrix_S, calculate_matrix_Q, get_error"]}
{"id": "C50", "title": "Points pushed after an estimation are taken into account", "statement": "After plane_push_back_point the next plane estimation uses all points pushed so far.", "quantifier": "every interleaving of pushes and estimations", "why_tests_cant": "Depends on the call history.", "anchors": ["src/PCRegistration/plane.cpp: push_back_point, calculate_matrix_S, reset"]}
{"id": "C51", "title": "The estimated plane is optimal", "statement": "The plane returned by the plane estimation attains the smallest value of pi^T Q pi among all unit 4-vectors, and the reported error is that value.", "quantifier": "every point set and trajectory", "why_tests_cant": "Quantifies over all candidate planes.", "anchors": ["src/PCRegistration/plane.cpp: estimate_plane, get_error, get_error_incremental"]}
{"id": "C52", "title": "The plane gradient is the derivative of the plane error", "statement": "calculate_gradient(t) equals the derivative of the error of the (fixed) plane under left perturbation of the pose at time t.", "quantifier": "every pose, plane and direction", "why_tests_cant": "Continuum of linearisation points.", "anchors": ["src/PCRegistration/plane.cpp: calculate_gradient"]}
{"id": "C53", "title": "Incremental error evaluation agrees with a full re-evaluation", "statement": "Updating the accumulated plane matrix for a changed last pose gives the same matrix and error as recomputing it for the new trajectory.", "quantifier": "every trajectory and changed pose", "why_tests_cant": "All histories of changes.", "anchors": ["src/PCRegistration/plane.cpp: estimate_plane_incrementally, get_error_incremental"]}
{"id": "C54", "title": "Plane registration keeps the first pose fixed and restores book-kept states", "statement": "No solve mode changes the first pose of the trajectory; restoring from the book-kept state gives back the last pose (and so the whole trajectory when interpolation is exact).", "quantifier": "every problem", "why_tests_cant": "All histories.", "anchors": ["src/PCRegistration/plane_registration.cpp: update_state, bookkeep_state, update_state_from_bookkeep, set_last_pose"]}
{"id": "C55", "title": "Plane registration reports its iterations", "statement": "PlaneRegistration::solve returns the number of iterations performed.", "quantifier": "every problem and mode", "why_tests_cant": "All modes and problems.", "anchors": ["src/PCRegistration/plane_registration.cpp: solve"]}
{"id": "C56", "title": "Arun registration is optimal", "statement": "When arun succeeds, the returned pose is a rigid transformation minimising the sum of squared distances between Y and the transformed X among all rigid transformations; when it fails the input pose is unchanged.", "quantifier": "all point sets of any size >= 3 and all competing transformations", "why_tests_cant": "Optimality quantifies over all transformations.", "anchors": ["src/PCRegistration/arun.cpp: PCRegistration::arun"]}
{"id": "C57", "title": "Iterative registration is bounded and consistent", "statement": "gicp and weighted_point perform between 1 and 20 iterations; if the clouds are already aligned (all residuals zero) the pose is not changed; the result is always a valid rigid transformation.", "quantifier": "all point sets, covariances, weights and initial poses", "why_tests_cant": "All inputs.", "anchors": ["src/PCRegistration/gicp.cpp: PCRegistration::gicp", "src/PCRegistration/weight_point.cpp: PCRegistration::weighted_point"]}
{"id": "C58", "title": "Centroid and normal estimation commute with rigid motion", "statement": "estimate_centroid is the mean; the estimated plane passes through the centroid, is optimal in the least-squares sense and transforms with the points under rigid motion.", "quantifier": "every point set and motion", "why_tests_cant": "All point sets.", "anchors": ["src/PCRegistration/estimate_plane.cpp: estimate_plane, estimate_normal, estimate_centroid"]}
{"id": "C59", "title": "Removing a factor from a node removes exactly that factor", "statement": "rm_factor(f) removes one occurrence of f from the node's neighbour list, keeps the order of the others, and reports whether it was present.", "quantifier": "every neighbour list and factor", "why_tests_cant": "All histories.", "anchors": ["src/FGraph/node.cpp: Node::rm_factor"]}
{"id": "C60", "title": "Point-to-point factor uses both measured points", "statement": "A point-to-point factor compares the transformed first point with the second point given by the caller.", "quantifier": "all pairs of points", "why_tests_cant": "All inputs.", "anchors": ["src/PCRegistration/factors/factor1PosePoint2Point.cpp"]}
{"id": "C61", "title": "Fourth-order covariance compounding is the BCH second-moment expansion", "statement": "compound_4th_order(pose2) returns the second-order covariance plus 1/12(A1 S2 + S2 A1^T + A2 S1 + S1 A2^T) + 1/4 B, where A_k is the second moment of ad(xi)^2 and B is the second moment E[ad(xi1) xi2 xi2^T ad(xi1)^T] for independent zero-mean twists with the two covariances; curly_wedge(xi) is the Lie bracket with xi.", "quantifier": "all poses and all pairs of symmetric 6x6 covariances, including rotation-translation cross terms", "why_tests_cant": "The formula has 42 free covariance entries; tests use diagonal or one fixed covariance, for which the cross blocks vanish.", "anchors": ["src/geometry/SE3cov.cpp: SE3Cov::compound_4th_order, brackets", "src/geometry/SE3cov.cpp: curly_wedge"]}
{"id": "C62", "title": "Updating a 3D pose node multiplies the pose by the exponential of the increment", "statement": "NodePose3d.update(dx) replaces the pose T by exp(dx)*T, update_from_auxiliary(dx) by exp(dx) times the auxiliary pose, and no number of updates makes the stored rotation drift away from the rotation group.", "quantifier": "every stored pose, increment and number of updates", "why_tests_cant": "update() regenerates the pose through the logarithm, whose special cases (half turns, ties) are isolated poses that sampled tests do not hit, and drift only shows after arbitrarily many updates.", "anchors": ["src/FGraph/factors/nodePose3d.cpp: NodePose3d::update, update_from_auxiliary", "src/geometry/SE3.cpp: regenerate, update_lhs"]}
{"id": "C63", "title": "The plane Hessian is the second derivative of the plane error", "statement": "calculate_hessian(t), read as the upper triangle of a symmetric matrix, equals the second derivative of the error of the (fixed) plane under left perturbation of the pose at time t.", "quantifier": "every pose, plane, point set and pair of directions", "why_tests_cant": "Continuum of linearisation points and directions; the optimisers converge with a wrong Hessian as well, only more slowly, so end-to-end tests do not notice.", "anchors": ["src/PCRegistration/plane.cpp: calculate_hessian"]}
{"id": "C64", "title": "Arun registration succeeds when the solution is unique", "statement": "arun reports success for all point sets whose correspondences determine the rigid transformation uniquely (at least three points not on a line, as its documentation requires).", "quantifier": "all point sets which are not collinear, of any size and scale", "why_tests_cant": "Tests use random clouds; the degenerate test compares singular values with an absolute threshold, which random clouds of ordinary size never meet.", "anchors": ["src/PCRegistration/arun.cpp: PCRegistration::arun, lines 66-87"]}
{"id": "C66", "title": "Initialisation of plane registration from plane centroids", "statement": "solve(INITIALIZE) sets every pose after the first to the least-squares rigid transformation between the centroids of the planes seen from that pose and the centroids of the same planes seen from the first pose; on noise-free data with enough planes it finds the true poses.", "quantifier": "every number of planes and poses, every assignment of points, every set of planes seen from a pose", "why_tests_cant": "Tests use problems where every plane is seen from every pose; the pairing of centroids depends on which planes are seen from which pose, a combinatorial family.", "anchors": ["src/PCRegistration/plane_registration.cpp: solve_initialize", "src/PCRegistration/arun.cpp: PCRegistration::arun"]}
{"id": "C69", "title": "Gradient descent over poses always returns a trajectory", "statement": "solve(GRADIENT_BENGIOS_NAG) returns a trajectory of numbers (no NaN) for every registration problem.", "quantifier": "every problem: planes, poses, points, and every set of (plane, pose) pairs with points", "why_tests_cant": "The gradient of each pose is divided by the number of points it sees; tests use problems in which every pose sees points.", "anchors": ["src/PCRegistration/plane_registration.cpp: solve_interpolate_gradient, lines 152-178"]}
{"id": "C65", "title": "Gradient and Hessian of plane registration with respect to the last pose", "statement": "calculate_gradient_hessian returns the first and second derivatives of the sum of the point-to-plane costs (planes held at their estimates) when the last pose of the interpolated trajectory is perturbed from the left and all poses are re-interpolated.", "quantifier": "every registration problem: number of planes, poses and points, every last pose, every direction of perturbation", "why_tests_cant": "The weights t/(n-1) are exact for two poses and for identity trajectories, so tests of a few configurations and a tolerance do not distinguish them from the derivative; a derivative is a limit statement over all directions and configurations.", "anchors": ["src/PCRegistration/plane_registration.cpp: PlaneRegistration::calculate_gradient_hessian, lines 481-505", "src/PCRegistration/plane.cpp: calculate_gradient, calculate_hessian"]}
{"id": "C67", "title": "Trajectory error against ground truth is a distance", "statement": "calculate_poses_rmse returns the root mean square, over the poses, of the lengths of the screw motions between estimated and true poses; it is zero exactly when every pose equals the true one, and it is defined for every ground truth trajectory its assertion admits.", "quantifier": "every trajectory, every ground truth trajectory, every number of poses", "why_tests_cant": "Zero iff equal is a statement about all pairs of poses; the pairs where the logarithm degenerates form a set of measure zero that sampled tests never hit, and a longer ground truth is admitted by the assertion but never tried.", "anchors": ["src/PCRegistration/plane_registration.cpp: PlaneRegistration::calculate_poses_rmse", "src/geometry/SE3.cpp: ln_vee"]}
{"id": "C68", "title": "Synthetic scenes are consistent with their own ground truth", "statement": "A scene generated by CreatePoints has a true trajectory on the geodesic from the identity to the sampled final pose; every point moved by its true pose is at distance 'noise drawn' from its true plane; create_plane_registration hands over exactly these points; and without noise the registration error and the trajectory error vanish at the last true pose.", "quantifier": "every outcome of the random draws, every number of points, planes and poses", "why_tests_cant": "Tests see a handful of random scenes and compare with tolerances; the claim is an identity for all draws and all sizes.", "anchors": ["src/PCRegistration/create_points.cpp: CreatePoints::CreatePoints, lines 105-191; create_plane_registration, lines 198-206"]}
{"id": "C70", "title": "Points of a synthetic scene are distributed over the planes", "statement": "For every number of points and planes the constructor of CreatePoints assigns every point to an existing plane (no out-of-range access), in order, with shares that differ by at most one point.", "quantifier": "every number of points and planes representable in uint_t", "why_tests_cant": "The plane index is computed in single precision; it is exact for all sizes a test can use, and rounds up to an index out of range for large ones.", "anchors": ["src/PCRegistration/create_points.cpp: line 182"]}
{"id": "C72", "title": "The vector b is the gradient of the reported cost", "statement": "The vector b assembled by build_adjacency (get_vector_b) is the gradient of chi2 with respect to the increments of the unknown nodes, twice the gradient of the sum of the documented robust costs when robust factors are used, and the Gauss-Newton step is a descent direction of that cost.", "quantifier": "every well posed graph, every state, every robust type except RANSAC, every direction", "why_tests_cant": "Differentiability along every direction at every state of every graph; a finite-difference test samples a few directions and needs a tolerance that hides exactly the terms that are missing far from the solution.", "anchors": ["src/FGraph/factor_graph_solve.cpp: build_adjacency, build_info_adjacency", "src/FGraph/factor.cpp: evaluate_robust_weight", "src/FGraph/factors/*.cpp: evaluate_jacobians"]}
{"id": "C73", "title": "Solving with robust factors minimises the robust cost", "statement": "With robust factors the solver looks for the minimum of the sum of the robust costs: the step of GN vanishes exactly at stationary points of it, and LM does not stop where it can still be reduced.", "quantifier": "every well posed graph with robust factors, every parameter of the solver", "why_tests_cant": "Concerns the fixed points of the iteration in all graphs; LM's acceptance test with plain chi2 looks fine on any data without outliers.", "anchors": ["src/FGraph/factor_graph_solve.cpp: optimize_gauss_newton, optimize_levenberg_marquardt, chi2", "src/FGraph/factor.cpp: evaluate_robust_weight"]}
{"id": "C71", "title": "Python graph histories never run into undefined behaviour", "statement": "Any sequence of the calls exposed to Python (add_node, add_factor, solve, chi2, get_estimated_state, matrices) whose arguments name nodes of the right class returns normally, node and factor ids are the creation numbers, and with positive semidefinite information matrices and LM the solve always returns.", "quantifier": "every finite sequence of calls on FGraphPy, every argument value", "why_tests_cant": "The histories are unbounded and the failure is undefined behaviour in Release builds (asserts removed, static casts of node pointers), which a test may survive by luck.", "anchors": ["mrobpy/FGraphPy.cpp:58-203", "src/FGraph/factor_graph.cpp: add_node, add_factor, get_node", "src/FGraph/factor_graph_solve.cpp: solve, chi2"]}
{"id": "C74", "title": "chi2 seen from Python is the sum of the weighted measurement errors", "statement": "After any history of Python calls chi2(True) is the sum over the added factors of half the squared error of the measurement, weighted with the information matrix given in the call, between the nodes named in the call; it does not depend on the creation order of nodes, on the robust cost or on the optimisations in between.", "quantifier": "every finite sequence of legal calls on FGraphPy, every state reached", "why_tests_cant": "Neighbour lists are reordered by id inside the constructors; the meaning of the stored value must be checked for every order of ids, every class and every state.", "anchors": ["mrobpy/FGraphPy.cpp:58-203", "src/FGraph/factors/*.cpp: constructors and evaluate_residuals", "src/FGraph/factor_graph_solve.cpp: chi2"]}
{"id": "C75", "title": "Building a graph from Python leaves the given states alone", "statement": "get_estimated_state returns the value given to add_node until the node is optimised or initialised by a factor; add_factor changes no node except the one it initialises, which becomes the state predicted by the measurement, and anchors are never changed.", "quantifier": "every finite sequence of legal calls on FGraphPy, every node", "why_tests_cant": "A statement about all nodes after all histories, with frame conditions on nodes that a test does not look at.", "anchors": ["mrobpy/FGraphPy.cpp:58-203", "src/FGraph/factors/factor2Poses2d.cpp: constructors", "src/FGraph/factors/factor2Poses3d.cpp: constructor", "src/FGraph/factors/factor1Pose1Landmark2d.cpp, factor1Pose1Landmark3d.cpp, factor1Pose1Plane4d.cpp"]}
{"id": "C76", "title": "Rotation to quaternion and back", "statement": "so3_to_quat(R) is a unit quaternion with quat_to_so3(so3_to_quat(R)) = R; so3_to_quat(quat_to_so3(q)) = \u00b1 q/|q|; products of rotations go to Hamilton products up to the sign, and SO3(w) goes to \u00b1(sin(|w|/2) w/|w|, cos(|w|/2)).", "quantifier": "every rotation matrix, every non-zero quaternion, every rotation vector, in all branches of the conversion", "why_tests_cant": "The conversion has four branches chosen by the trace and the largest diagonal entry; a sign or index error in a branch shows only for large turns about the matching axis.", "anchors": ["src/geometry/SO3.cpp:291-307", "mrobpy/SE3py.cpp:141-142"]}
{"id": "C77", "title": "A Python PlaneRegistration object never runs into undefined behaviour", "statement": "Any sequence of calls on a Python PlaneRegistration object, in any order, runs without undefined behaviour and without an exception; apart from the solvers all calls return proper values.", "quantifier": "all finite sequences of calls of the eleven methods with all arguments, whatever the eigenvalue and singular value solvers return", "why_tests_cant": "The failures need particular orders of calls (solving before declaring, more planes than declared, a plane unseen from the first pose) and show as silent memory errors; there are infinitely many histories.", "anchors": ["mrobpy/PCPlanesPy.cpp:77-109", "src/PCRegistration/plane_registration.cpp:36-130", "src/PCRegistration/plane_registration.cpp:307-479"]}
{"id": "C78", "title": "PlaneRegistration returns and evaluates exactly the data handed over", "statement": "get_point_cloud(t) returns the points handed over for time t, plane by plane and in order, whatever has been called in between; print_evaluate reports the declared numbers, the number of these points, and the current error of these points.", "quantifier": "all legal histories of calls and all times", "why_tests_cant": "Caches and clamped indices make the answers depend on the history of calls; a test fixes one history.", "anchors": ["mrobpy/PCPlanesPy.cpp:77-109", "src/PCRegistration/plane_registration.cpp:327-351", "src/PCRegistration/plane_registration.cpp:370-380", "src/PCRegistration/plane_registration.cpp:405-472", "src/PCRegistration/plane.cpp:98-115"]}
{"id": "C79", "title": "The damping of solve(LM) follows the quality of its own model and does not spoil the result", "statement": "Every iteration of solve(LM) moves the unknown nodes by the minimiser of the damped linear model; the damping is doubled when the cost fell by less than a quarter of what this model promised, quartered when it fell by more than 80 percent of it, and kept otherwise. On graphs of landmarks seen from known poses this means that every step is accepted, that the loop meets its tolerance within cost/tolerance iterations, and that the result is then within 1e-5*tolerance/(2 mu) of the optimum, mu being the smallest information with which a landmark is seen.", "quantifier": "all well-posed graphs, dampings, tolerances and limits; for the second part all landmark graphs", "why_tests_cant": "A wrong ratio or a wrong sign in the adaptation changes only the speed on most inputs; tests see a converged result either way.", "anchors": ["src/FGraph/factor_graph_solve.cpp:140-211", "src/FGraph/factor_graph_solve.cpp:117-138"]}
{"id": "C80", "title": "A Newton-Raphson iteration of the dense solver is a Gauss-Newton step", "statement": "For graphs without robust weights, an iteration of FGraphSolveDense with NEWTON_RAPHSON moves the nodes by the minimiser of the linearised cost, so it leaves them where solve(GN) of FGraphSolve leaves them, and it does not move at a minimum; the damped methods solve the same equations with the damping added.", "quantifier": "all consistent graphs without anchors", "why_tests_cant": "A gradient that is too large by a factor still converges in many tests, to a point that is not the minimum.", "anchors": ["src/FGraph/factor_graph_solve_dense.cpp:58-158", "src/common/optimizer.cpp:59-102"]}
{"id": "C81", "title": "Deleting a graph releases its nodes and factors", "statement": "Nodes and factors own each other through shared pointers. When a graph is deleted, every node and factor the program does not reach through a pointer of its own is deleted with it, and the objects it keeps can be added to a new graph, which then behaves as if they were new: neighbour lists contain only factors of the new graph, ids start from zero.", "quantifier": "all histories of additions, all sets of objects held by the program", "why_tests_cant": "A leak or a stale neighbour list does not change any result of the graph under test; the objects concerned are those nobody looks at any more.", "anchors": ["src/FGraph/factor_graph.cpp:34-42", "src/FGraph/mrob/node.hpp:121-132", "src/FGraph/mrob/factor.hpp:164"]}
{"id": "C82", "title": "Plane registrations do not influence each other", "statement": "A program may hold several PlaneRegistration objects. A call on one of them changes neither the trajectory, nor the planes, nor the error of another, and get_current_error of a registration is the error of its planes at its own trajectory.", "quantifier": "all sets of registrations, all histories of calls on them, all planes handed over", "why_tests_cant": "Planes are shared through pointers and carry a pointer to one trajectory; whether two registrations interfere depends on the whole history of both, and the numbers stay plausible when they do.", "anchors": ["src/PCRegistration/plane_registration.cpp:307-343", "src/PCRegistration/create_points.cpp:198-206", "src/PCRegistration/mrob/plane.hpp:145"]}
{"id": "C83", "title": "Registration is consistent under exchange, motion and order of the clouds", "statement": "arun(Y,X) is the inverse of arun(X,Y); moving the clouds by rigid motions P and Q changes the result A to Q A P^-1; permuting the correspondences changes nothing; refusals are preserved by all three. For gicp and weighted_point the order of the correspondences does not matter, and moving the first cloud together with the start value (and the covariances) gives the moved result after the same number of iterations.", "quantifier": "all clouds, all rigid motions, all permutations, all singular value decompositions (different ones in the two calls)", "why_tests_cant": "Singular vectors are not unique and a different frame leads to a different decomposition; a test compares a few frames with a tolerance.", "anchors": ["src/PCRegistration/arun.cpp:34-115", "src/PCRegistration/gicp.cpp:32-79", "src/PCRegistration/weight_point.cpp:33-78"]}
{"id": "C84", "title": "The Python registration functions return the transformation that aligns the clouds", "statement": "mrob.registration.arun(X,Y) returns the rigid motion with the least sum of squared distances whenever there is exactly one; gicp and weighted return a pose reached from the identity, and the identity for identical clouds.", "quantifier": "all clouds, all rigid motions relating them", "why_tests_cant": "The Python function drops the success flag; for clouds that arun refuses the result is a valid pose and looks like a success.", "anchors": ["mrobpy/PCRegistrationPy.cpp:44-66", "src/PCRegistration/arun.cpp:75-90"]}
{"id": "C85", "title": "gicp reads the covariances from the documented layout", "statement": "With the covariances given as the block matrix [Cov_1, Cov_2, ..., Cov_N] with 3 rows and 3N columns, the weight of the i-th correspondence is computed from Cov_i of both clouds.", "quantifier": "all clouds, all lists of covariances, all points", "why_tests_cant": "The accesses of a misread layout stay inside the matrix, so nothing crashes, and the first covariance is always right.", "anchors": ["src/PCRegistration/mrob/pc_registration.hpp:70-77", "src/PCRegistration/gicp.cpp:58"]}
{"id": "C86", "title": "Solving a graph that is already at its solution leaves it alone", "statement": "When every measurement is met exactly at the current estimate (or the estimate is a stationary point of the weighted cost), solve returns with every node unchanged, and Levenberg-Marquardt reports convergence after one iteration.", "quantifier": "all graphs of all node and factor classes, all states that meet the measurements, both methods, all tolerances and iteration limits, all exact linear solvers", "why_tests_cant": "The poses for which the zero increment changes the state are isolated in the set of all poses, and the cost reported afterwards is zero, so that no test on chi2 notices.", "anchors": ["src/FGraph/factor_graph_solve.cpp:50-86", "src/FGraph/factor_graph_solve.cpp:140-211", "src/FGraph/factors/nodePose3d.cpp:47-56"]}
{"id": "C87", "title": "Operations on an uncertain pose keep the covariance meaningful", "statement": "An SE3Cov object describes a random pose exp(delta) T, delta of mean zero with covariance cov(). After update/update_lhs/update_rhs (inherited from SE3) and after compounding, the object describes the correspondingly moved or multiplied random pose, and a default-constructed object is the neutral element of compounding.", "quantifier": "all poses, all covariances, all finite random twists (any number of outcomes and weights), all increments", "why_tests_cant": "Whether the covariance still describes the random pose is a statement about all outcomes of the random twist, which a test of the stored matrices does not look at; the stored matrix after update is unchanged, which looks plausible.", "anchors": ["mrobpy/SE3py.cpp:69-74", "mrobpy/SE3py.cpp:145-176", "src/geometry/SE3cov.cpp:4-45", "src/geometry/SE3.cpp:85-94"]}
{"id": "C88", "title": "Only the total information matters to the solution", "statement": "Multiplying the information matrices of all factors by the same positive number does not change the estimates solve() returns and multiplies chi2 by it; two factors with the same nodes and measurement act as one with the sum of their information (so a factor added twice counts twice); a factor with zero information does not change the result.", "quantifier": "all graphs built by the API (any node types and factor classes, any size), all positive semidefinite information matrices, all scale factors, both methods, all iteration limits, any two exact linear solvers", "why_tests_cant": "A test compares two particular runs; that nothing else in the loop (damping, gain ratio, stopping rule, order of assembly) depends on the split or the scale of the information has to hold for every graph and every number of iterations. Levenberg-Marquardt starts from a fixed damping, which is invisible unless the information is very small or very large.", "anchors": ["src/FGraph/factor_graph_solve.cpp:88-138", "src/FGraph/factor_graph_solve.cpp:140-211", "src/FGraph/factor_graph_solve.cpp:213-343", "src/FGraph/factor.cpp"]}
{"id": "C89", "title": "The dense optimizer adapts its damping to the quality of its model", "statement": "In every iteration of the Levenberg-Marquardt methods of Optimizer (spherical and elliptical), when the Hessian is positive semidefinite, the state is moved by the unique minimiser of the quadratic model of the error plus the damping penalty; if the error grew, the next iteration starts from the saved state with twice the damping; otherwise from the new state, with twice the damping if the error fell by less than a quarter of what the damped model expected, a quarter of it if it fell by more than 80 percent of that, and the same damping in between.", "quantifier": "all derived classes (any error, gradient, Hessian and update functions), all dimensions, all states, all damping values >= 0, all iteration numbers", "why_tests_cant": "Tests see only the final state; a wrong sign or factor in the gain ratio still converges on easy problems, only more slowly or with a different sequence of damping values, and the rule has to hold for every problem the base class is used with.", "anchors": ["src/common/optimizer.cpp:59-83", "src/common/optimizer.cpp:104-168", "src/common/optimizer.cpp:180-184"]}
{"id": "C90", "title": "The gradient modes of the plane registration reduce the error", "statement": "For a small enough step size, a step of solve_gradient_all_poses or of solve_interpolate_gradient does not increase the registration error (sum of the smallest eigenvalues of the plane matrices), and reduces it strictly when it changes the trajectory.", "quantifier": "all sets of planes and points whose matrices are up to date, all numbers of poses >= 2, all trajectories of rigid poses, all sound eigensolvers, all step sizes below a bound depending on the object", "why_tests_cant": "Whether a step descends depends on sign, weights and on the interpolation of the poses together; tests run one synthetic data set in which every pose sees the same number of points, where the defect of the weights is invisible.", "anchors": ["src/PCRegistration/plane_registration.cpp:131-197", "src/PCRegistration/plane_registration.cpp:199-239"]}
{"id": "C91", "title": "The momentum mode of the plane registration is Nesterov's method", "statement": "GRADIENT_BENGIOS_NAG moves the last pose through the points at which Nesterov's accelerated gradient method with step size alpha and momentum beta evaluates the gradient, keeps the velocity of that method in the object, and every call of solve starts from rest.", "quantifier": "all sets of planes and points whose matrices are up to date, all numbers of poses >= 2, all step sizes and momenta, all numbers of iterations, single and repeated calls", "why_tests_cant": "The update combines the current momentum and gradient with coefficients beta^2 and 1+beta; wrong coefficients or a wrong sign still converge on easy data, and momentum left from an earlier call shows only when an object is used again near a solution.", "anchors": ["src/PCRegistration/plane_registration.cpp:173-185", "src/PCRegistration/plane_registration.cpp:80-127", "src/PCRegistration/plane_registration.cpp:70-77"]}
{"id": "C92", "title": "The matrices returned after solve describe the problem at the returned estimate", "statement": "The information matrix, the vector b, the adjacency matrix and the W matrix that FGraphSolve returns after solve() are those of the linearised problem at the estimate that solve() leaves in the nodes, so that the inverse of the information matrix is the covariance of the estimate.", "quantifier": "All well-posed graphs, all states, both methods (GN, LM), all iteration limits and tolerances.", "why_tests_cant": "The returned matrix is a plausible, symmetric, positive definite matrix in any case; whether it belongs to the states before or after the last step, and whether it carries the damping, does not show in any single number that a test could compare without recomputing the whole linearisation, and the difference vanishes at the tolerance of usual tests.", "anchors": ["src/FGraph/mrob/factor_graph_solve.hpp:119-138", "src/FGraph/factor_graph_solve.cpp:117-138", "src/FGraph/factor_graph_solve.cpp:213-343", "mrobpy/FGraphPy.cpp:250-260"]}
{"id": "C93", "title": "The estimate does not depend on the choice of the world frame", "statement": "If all initial states (and what is measured in the world frame: priors) are moved by one rigid motion while the measurements between nodes stay the same, then the estimates are those of the original problem moved by that motion; Levenberg-Marquardt takes the same number of iterations and reaches the same cost.", "quantifier": "All graphs, all states, all rigid motions, GN and LM, all robust functions that are modelled as weights.", "why_tests_cant": "Tests run one data set in one frame; the error terms, the Jacobians, the wrapping of angles, the update of the states and the damping all take part, and an error term expressed in the wrong frame changes the estimate only when the information is not isotropic.", "anchors": ["src/FGraph/factors/factor2Poses2d.cpp:58-90", "src/FGraph/factors/factor2Poses2d.cpp:121-153", "src/FGraph/factors/factor1Pose2d.cpp:37-47", "src/FGraph/factors/factor1Pose1Landmark2d.cpp:65-119", "src/FGraph/factors/factor2Poses3d.cpp:87-105", "src/FGraph/factor_graph_solve.cpp:117-211"]}
{"id": "C94", "title": "Repeated optimisation converges near the true states", "statement": "If the measurements are exact (there are states that agree with all of them) and determine the states, then repeated calls of solve(GN), started close enough to these states, all return and converge to them, faster than any geometric sequence; headings are meant modulo full turns. Repeated calls of solve(LM) converge as well, at least like a geometric sequence whose ratio depends on the restart value 1e-5 of the damping and the lowest eigenvalue of the information matrix.", "quantifier": "All graphs and measurements, all starts in a neighbourhood, all numbers of calls, all robust functions that are modelled as weights, all linear solvers that solve.", "why_tests_cant": "A test runs a few starts and a fixed number of iterations; a Jacobian that is wrong by a factor, a sign or a term of first order still converges, only slower, in most configurations and diverges in others, and whether an iteration converges from every start in a neighbourhood is not visible in finitely many runs.", "anchors": ["src/FGraph/factor_graph_solve.cpp:117-211", "src/FGraph/factors/factor2Poses2d.cpp:58-153", "src/FGraph/factors/factor1Pose2d.cpp:37-47", "src/FGraph/factors/factor1Pose1Landmark2d.cpp:65-119", "src/FGraph/factors/nodePose2d.cpp:35-41", "src/FGraph/factors/factor2Poses3d.cpp", "src/FGraph/factors/factor1Pose3d.cpp", "src/FGraph/factors/factor1Pose1Landmark3d.cpp", "src/PCRegistration/factors/factor1PosePoint2Plane.cpp", "src/FGraph/factors/nodePose3d.cpp", "src/geometry/SE3.cpp"]}
{"id": "C95", "title": "The eigen factor fits a plane to what its poses have seen", "statement": "A PlaneFactor built from nodes and their matrices S = sum p p' estimates the unit 4-vector with the smallest sum of squared values at the observed points, each moved by the pose of its node, reports that sum as its error, and its Jacobian for an observing node is the derivative of the error.", "quantifier": "All numbers of nodes, poses, point clouds and eigen solvers meeting Eigen's contract; nodes inside and outside a graph.", "why_tests_cant": "The example program prints the plane of nodes at the identity only; that the poses are read, that no observation is lost for any numbering of the nodes and that no indeterminate memory enters the Jacobian concerns all inputs, and indeterminate memory may hold plausible values in a test.", "anchors": ["src/EigenFactors/plane_factor.cpp:33-151", "src/EigenFactors/mrob/plane_factor.hpp:33-173"]}
{"id": "C96", "title": "Parts of a graph that no factor connects do not influence each other", "statement": "When no factor joins a set of nodes to the other nodes of the graph (shared anchors do not count), the estimates that solve computes for these nodes are those it computes for the graph without the rest.", "quantifier": "All graphs, node sets, factors with any robust function but RANSAC, positive semidefinite information matrices, methods and arguments of solve.", "why_tests_cant": "Tests have small connected graphs; that nothing leaks from one part to the other through the assembly, the ordering, the linear solver or the control of the iteration concerns all pairs of graphs.", "anchors": ["src/FGraph/factor_graph_solve.cpp:88-209", "src/FGraph/factor_graph_solve.cpp:213-343"]}
{"id": "C97", "title": "A graph tied to anchors or priors can always be solved, a floating one never by Gauss-Newton", "statement": "When every estimated node is reached from anchors and priors by a chain of measurements with positive definite information, each of which fixes its node from known ones, the information matrix is positive definite and solve returns, however often it is called and with whatever methods and parameters. When the graph floats (only relative planar measurements), has fewer scalar measurements than unknowns, or has a node without measurements, the information matrix is singular.", "quantifier": "All graphs of all node classes with priors, relative poses, odometry, landmarks and planes; all states with rigid poses; all robust functions but RANSAC on the tying measurements; all sequences of solve calls.", "why_tests_cant": "Tests solve a few fixed graphs; that no state reached during any sequence of iterations makes the system singular concerns all graphs and states.", "anchors": ["src/FGraph/factor_graph_solve.cpp:50-209", "src/FGraph/factors/factor2Poses3d.cpp:87-105", "src/FGraph/factors/factor2Poses2d.cpp:75-90", "src/FGraph/factors/factor1Pose1Landmark2d.cpp:93-120"]}
{"id": "C98", "title": "The inverse of the information matrix is the covariance of the estimate", "statement": "When the errors of the measurements are random with mean zero, uncorrelated between measurements, and with the inverses of the information matrices of the factors as covariances, the error of a Gauss-Newton step from the true states has mean zero and the inverse of the matrix returned by get_information_matrix as covariance; and no estimate that is linear in the errors and exact without errors has a smaller variance.", "quantifier": "All graphs of planar and spatial priors, planar relative poses, landmarks and points on planes, all numbers of nodes and measurements, all distributions of errors with finitely many outcomes (errors of angles below half a turn), all positive definite information matrices.", "why_tests_cant": "A test sees one sample of the errors; covariances are averages over all of them, and a wrong factor, a transposed Jacobian or a misplaced block of the information matrix shows only in comparison with the true distribution.", "anchors": ["src/FGraph/factor_graph_solve.cpp:88-209", "src/FGraph/factors/factor1Pose2d.cpp:37-53", "src/FGraph/factors/factor2Poses2d.cpp:50-90", "src/FGraph/factors/factor1Pose1Landmark3d.cpp:59-98", "mrobpy/FGraphPy.cpp:245-260"]}
{"id": "C99", "title": "The expected chi2 is half the redundancy of the graph", "statement": "With random errors as in C98 the mean of chi2 at the true states is half the number of scalar measurements, and after solving it is half the number of scalar measurements minus half the number of unknowns.", "quantifier": "All graphs as in C98 for the first part; for the second part all graphs of 3D landmarks seen from known poses, any number and geometry.", "why_tests_cant": "The value users compare chi2 with to detect wrong models is an average over all errors; a test sees single values only.", "anchors": ["src/FGraph/factor_graph_solve.cpp:345-359", "src/FGraph/factors/factor1Pose1Landmark3d.cpp:94-98", "src/FGraph/mrob/factor.hpp:80-140"]}
{"id": "C100", "title": "A new node seen by one measurement does not disturb the others", "statement": "When a pose, landmark or plane is added together with the one measurement that locates it from the nodes already in the graph (the next odometry pose, the first sight of a landmark), Gauss-Newton gives all other nodes the same estimates as without it, the graph stays solvable, and the covariances of the other nodes in the returned information matrix are unchanged.", "quantifier": "All determined graphs of all node and factor classes, all orders of additions, all states of the new node, all measurements and information matrices, all robust types except RANSAC.", "why_tests_cant": "A test compares two particular graphs; that the new rows and columns of the system cancel exactly, wherever the node is inserted and whatever it is linked to, is an identity over all graphs.", "anchors": ["src/FGraph/factor_graph_solve.cpp:88-209", "src/FGraph/factor_graph_solve.cpp:215-350", "src/FGraph/factor_graph.cpp:40-88"]}
{"id": "C101", "title": "More measurements never make the estimate less certain", "statement": "Adding measurements to a graph, also measurements that involve further nodes, never increases the uncertainty of the nodes that were there: at the same states the joint covariance of the old nodes, taken from the inverse of the information matrix of the larger graph, is at most the covariance in the smaller graph.", "quantifier": "All pairs of determined graphs at the same states of which one contains the nodes and factors of the other, in any order; all positive semidefinite information matrices, all robust types except RANSAC.", "why_tests_cant": "The order of covariance matrices is a statement about all linear combinations of the unknowns and all graphs; a misplaced or negative contribution may leave the tested entries plausible.", "anchors": ["src/FGraph/factor_graph_solve.cpp:215-350", "src/FGraph/factor_graph.cpp:40-88", "mrobpy/FGraphPy.cpp:245-260"]}
{"id": "C102", "title": "One wild measurement with a robust kernel has bounded influence", "statement": "Next to a determined graph, one further factor with the Huber, Cauchy or McClure kernel can only do bounded harm: whatever it measured, solve(GN) returns and its step differs from the step without that factor by at most an amount that depends on the rest of the graph and on the Jacobian and information matrix of the factor, but not on the measured value. With the Cauchy and McClure kernels the difference even vanishes when the error of the measurement grows. Without a robust kernel a single measurement can move the estimate arbitrarily far.", "quantifier": "All determined graphs in which the other factors are not RANSAC, all measured values of the further factor (of a class whose Jacobian does not depend on the measured value: Factor1Pose2d, Factor2Poses2d, Factor1Pose3d, Factor1Pose1Landmark2d, Factor1Pose1Landmark3d, Factor1Pose1Plane4d), all positive semidefinite information matrices.", "why_tests_cant": "A bound that is uniform over all measured values and all graphs cannot be observed; tests with a few outliers do not distinguish a bounded from a slowly growing influence, nor see the dependence on the place where the weight enters the normal equations.", "anchors": ["src/FGraph/factor.cpp:42-73", "src/FGraph/factor_graph_solve.cpp:300-350", "src/FGraph/factor_graph_solve.cpp:215-240"]}
{"id": "C103", "title": "An anchor is the limit of strong priors", "statement": "Holding a node with a prior at its present value and information t*W is, for growing t, the same as making the node an anchor: solve(GN) returns for every t > 0, also when the graph without the prior is not determined, and its step for all nodes differs from the step with the anchored node and without the prior by at most C/t.", "quantifier": "All graphs that are determined once the node is anchored, all positions of the node and of the prior in the history of the graph, poses in the plane and in space (the prior classes Factor1Pose2d and Factor1Pose3d), all t > 0 with one constant C; all factors except RANSAC ones.", "why_tests_cant": "A limit and a rate hold for all graphs and all strengths of the prior; the two programs go through different code (an anchored node has no columns in the system, the prior adds rows to it), and a test at one large t can only see approximate agreement.", "anchors": ["src/FGraph/factor_graph.cpp:40-88", "src/FGraph/factor_graph_solve.cpp:215-350", "src/FGraph/factors/factor1Pose2d.cpp:38-60", "src/FGraph/factors/factor1Pose3d.cpp:45-75"]}
{"id": "C104", "title": "The estimate does not depend on the unit of length", "statement": "Expressing all positions, points, distances of planes and measured lengths in another unit, and the information matrices per new unit, changes neither the cost nor the estimate: chi2 is the same number and solve returns the same poses, landmarks and planes, expressed in the new unit.", "quantifier": "All units (scales u > 0), all graphs with any mixture of the five node classes and nine factor classes, all values, observations and information matrices, robust functions other than RANSAC, any number of calls that built the graph.", "why_tests_cant": "Scale equivariance relates two runs for a continuum of scales and all graphs; thresholds with a hidden unit (1e-3 between pose and landmark, the damping 1e-5) break it only for some scales, so a test in one unit sees nothing.", "anchors": ["src/FGraph/factor_graph_solve.cpp:90-211", "src/FGraph/factors/factor1Pose1Landmark2d.cpp:65-119", "src/FGraph/factors/factor2Poses3d.cpp:87-105", "src/FGraph/factors/factor1Pose1Plane4d.cpp:53-102", "src/FGraph/factors/nodePose3d.cpp:47-63", "src/geometry/SE3.cpp:114-190"]}
{"id": "C105", "title": "A single iteration on request", "statement": "PlaneRegistration::solve(mode, singleIteration = true) performs exactly one iteration of the chosen method; without the argument it iterates until the stopping rule is met.", "quantifier": "all modes, all registrations, all sound eigensolvers", "why_tests_cant": "The number of iterations is not returned (C55), and whether the argument is honoured has to be settled per mode for all data sets; the existing scripts call solve without it.", "anchors": ["src/PCRegistration/plane_registration.cpp:80-127", "src/PCRegistration/plane_registration.cpp:131-239", "src/PCRegistration/mrob/plane_registration.hpp:82", "mrobpy/PCPlanesPy.cpp:83"]}
{"id": "C106", "title": "Fourth-order compounding keeps covariances valid", "statement": "compound_4th_order of two uncertain poses with positive semidefinite covariances returns a positive semidefinite covariance.", "quantifier": "all poses and all pairs of covariances", "why_tests_cant": "The formula is a truncated series; tests compare it with samples for a few well conditioned covariances, where it is positive definite. Whether it can become indefinite, and at which scale, is a statement about all covariances.", "anchors": ["src/geometry/SE3cov.cpp:40-95", "mrobpy/SE3py.cpp:145-175"]}
{"id": "C107", "title": "A longer optimisation continues a shorter one", "statement": "solve(LM) with limit k1+k2 leaves the graph that a call with limit k1 followed by a call with limit k2 leaves; a run that converged is not changed by a larger limit; a larger limit never gives a larger cost.", "quantifier": "all graphs, solvers, tolerances and limits", "why_tests_cant": "Runs are compared for every graph and every pair of limits; a test sees a few runs and the differences after resetting the damping are below its tolerance.", "anchors": ["src/FGraph/factor_graph_solve.cpp: solve, optimize_levenberg_marquardt"]}
{"id": "C108", "title": "Asking for the error does not change the result", "statement": "A program that calls chi2() (FGraph) or get_error() (planes) at some points ends with the same graph, states, matrices and settings, and gives the same outcome of every later optimisation, as the program without those calls; asking twice gives the same value.", "quantifier": "all programs of graph calls, optimisations and queries; all graphs, solvers and planes", "why_tests_cant": "chi2() writes residuals into every factor of the graph and get_error() fills the cached matrices of every plane; that no later computation depends on those writes is a statement about all programs, with the query at any place.", "anchors": ["src/FGraph/factor_graph_solve.cpp: chi2, build_adjacency, optimize_gauss_newton, optimize_levenberg_marquardt", "src/common/optimizer.cpp: solve", "src/PCRegistration/plane_registration.cpp: get_current_error, solve", "src/PCRegistration/plane.cpp: estimate_plane, calculate_all_matrices_S"]}
{"id": "C109", "title": "Full turns do not matter", "statement": "Adding full turns (multiples of 2 pi), separately for each, to the headings of initial poses and to the angles of priors, relative and odometry measurements and bearings changes neither the run of the optimiser (cost, number of iterations, return value) nor the estimates; constructors initialise targets and landmarks to the same numbers.", "quantifier": "all graphs of library nodes and factors without RANSAC, both methods, all exact linear solvers, all integers", "why_tests_cant": "The numbers of turns are independent integers for every pose and every measurement and the wrapping happens in four residual functions, two updates and three constructors; tests use headings within one turn.", "anchors": ["src/FGraph/factors/factor1Pose2d.cpp: evaluate_residuals", "src/FGraph/factors/factor2Poses2d.cpp: evaluate_residuals, evaluate_jacobians, get_odometry_prediction", "src/FGraph/factors/factor1Pose1Landmark2d.cpp: evaluate_residuals", "src/FGraph/factors/nodePose2d.cpp: update", "src/FGraph/factor_graph_solve.cpp: solve"]}
{"id": "C110", "title": "Plane registration does not depend on the frame of the sensor", "statement": "Expressing all points in another frame fixed to the sensor (turned or displaced by a rigid transformation G), with the poses of the moved sensor G T G^-1, leaves the registration error the same, and registering the moved points gives the poses of the moved sensor after the same number of iterations.", "quantifier": "all rigid transformations, all numbers of planes, poses and points, all trajectories, all sound eigenvalue solvers (which choose any sign of the eigenvectors)", "why_tests_cant": "The frames form a six-dimensional continuum, the eigenvalue solver may return either sign of a plane independently for both problems, and the statement compares whole runs of up to 10000 iterations; tests use one frame.", "anchors": ["src/PCRegistration/plane.cpp:123-145", "src/PCRegistration/plane.cpp:170-205", "src/PCRegistration/plane_registration.cpp:199-239", "src/PCRegistration/plane_registration.cpp:307-313"]}
{"id": "C111", "title": "Spatial graphs do not depend on the frame fixed to the vehicle", "statement": "Using another frame of the vehicle (poses X G instead of X, for one rigid G) and expressing what the vehicle measures in that frame leaves the error of the graph the same, and optimisation gives the poses of the other frame and the same landmarks and planes. Information matrices of measured poses need not be changed.", "quantifier": "all rigid transformations G, all graphs of spatial poses, landmarks, planes and point-to-plane factors built by any sequence of calls, all sound linear solvers", "why_tests_cant": "G ranges over a six-dimensional continuum and the graph over all structures; the statement compares two whole optimisations.", "anchors": ["src/FGraph/factors/nodePose3d.cpp:47-56", "src/FGraph/factors/factor2Poses3d.cpp:87-110", "src/FGraph/factors/factor1Pose3d.cpp:48-64", "src/FGraph/factors/factor1Pose1Landmark3d.cpp:59-92", "src/FGraph/factors/factor1Pose1Plane4d.cpp:53-102", "src/FGraph/factors/factor1Pose2d.cpp:43-47"]}
{"id": "C112", "title": "Left and right are treated alike in planar graphs", "statement": "Mirroring a planar graph (y and headings change sign, and so do the sideways, rotational and bearing measurements, with information matrices of the mirrored errors) leaves its error the same, and optimisation gives the mirror images of the estimates.", "quantifier": "all graphs of planar poses and landmarks built by any sequence of calls, all measurements and information matrices, all sound linear solvers", "why_tests_cant": "The statement compares two whole optimisations over all graphs and all real measurements; it fails only on the measure-zero set of errors of exactly half a turn, which random tests do not hit.", "anchors": ["src/FGraph/node.cpp:60-68", "src/FGraph/factors/factor1Pose2d.cpp:37-47", "src/FGraph/factors/factor2Poses2d.cpp:58-90", "src/FGraph/factors/factor2Poses2d.cpp:121-143", "src/FGraph/factors/factor1Pose1Landmark2d.cpp:65-119"]}
{"id": "C113", "title": "Second-order steps of the plane registration go downhill", "statement": "Each iteration of the Newton and Levenberg-Marquardt modes of the plane registration moves the last pose, from the left, by the exponential of the vector that solves the (damped) equations of the gradient and the Hessian, in the order rotation, translation; and if the matrix of these equations is positive definite, moving along this vector reduces the registration error.", "quantifier": "all registrations (points, planes, trajectories), all sound eigen-solvers, all three methods and all dampings", "why_tests_cant": "Whether the direction goes downhill is a statement about derivatives over all point clouds; tests only compare final errors of a few clouds, and a permuted or mis-scaled step often still reduces those because rejected steps are undone.", "anchors": ["src/PCRegistration/plane_registration.cpp:474-536", "src/common/optimizer.cpp:59-83"]}
{"id": "C114", "title": "A plane can be cleared and filled again", "statement": "After clear_points a plane holds no points and accepts new ones, and the next estimation uses only those; clearing the points of an estimated plane does not change what is computed from the matrices already accumulated.", "quantifier": "every number of poses, every history of pushes, estimations and resets before the call, every sequence of calls after it", "why_tests_cant": "Depends on the call history; the failing access is undefined behaviour, which often goes unnoticed in a test run.", "anchors": ["src/PCRegistration/plane.cpp 98-120: push_back_point, get_points, clear_points", "src/PCRegistration/plane.cpp 170-205: calculate_all_matrices_S, calculate_all_matrices_Q", "src/PCRegistration/mrob/plane.hpp 58-60: get_number_points, get_total_number_points, clear_points"]}
{"id": "C115", "title": "Plane registration does not depend on the order in which the planes are visited", "statement": "The planes are kept in a std::unordered_map, whose order of iteration is unspecified and may change whenever a plane is added. Every function of PlaneRegistration (error, evaluation, all solving modes, initialisation) gives the same values, the same trajectory and the same planes whatever that order is; the point cloud of a pose holds the same points.", "quantifier": "every number of planes, points and poses, every order of the planes, every sequence of public calls with a different order before each call, every solving mode", "why_tests_cant": "A test sees the one order its standard library produces; the number of orders grows factorially, and an access beyond the end of a vector caused by another order is undefined behaviour that often goes unnoticed.", "anchors": ["src/PCRegistration/mrob/plane_registration.hpp 184: planes_", "src/PCRegistration/plane_registration.cpp 133-197, 199-249: gradient loops", "src/PCRegistration/plane_registration.cpp 251-305: solve_initialize", "src/PCRegistration/plane_registration.cpp 306-316, 345-352, 481-502: sums over the planes"]}
{"id": "C116", "title": "The order in which the points are handed over to the plane registration does not matter", "statement": "Calls of plane_push_back_point may be made in any order, over all planes and poses: every later sequence of calls (all solving modes, initialisation, error, evaluation) returns the same values and leaves the same trajectory and the same planes; the point cloud of a pose holds the same points.", "quantifier": "every list of points with their planes and poses, every permutation of it, every sequence of public calls before and after", "why_tests_cant": "The number of orders grows factorially; a test hands over the points in the order of a file or a loop.", "anchors": ["src/PCRegistration/plane.cpp 98-108: push_back_point", "src/PCRegistration/plane.cpp 170-188: calculate_all_matrices_S", "src/PCRegistration/plane_registration.cpp 340-343: plane_push_back_point"]}
{"id": "C117", "title": "The identifiers of the planes are labels", "statement": "Giving the planes of a PlaneRegistration other identifiers, one-to-one, changes nothing: the same calls with the new identifiers return the same values, with the same trajectory, the same planes and the same point clouds.", "quantifier": "every one-to-one correspondence of identifiers, every sequence of public calls, every number of planes, points and poses, every solving mode", "why_tests_cant": "Tests number the planes 0, 1, 2, ...; identifiers from a segmentation are arbitrary and a mix-up of identifier and position shows for some of them only.", "anchors": ["src/PCRegistration/plane_registration.cpp 327-343: add_plane, add_new_plane, plane_push_back_point", "src/PCRegistration/mrob/plane_registration.hpp 184: planes_", "src/PCRegistration/plane_registration.cpp 251-305: solve_initialize"]}
{"id": "C118", "title": "A plane without points has no influence on the registration", "statement": "Registering a plane which never receives a point changes nothing: solve returns the same value with the same trajectory, and the error is the same, as without this plane.", "quantifier": "every sound eigenvalue solver, every solving mode, every position of the additional plane in the iteration order, every number of other planes, points and poses", "why_tests_cant": "Tests fill every plane they add; whether an empty plane is harmless depends on every sum over the planes in every mode and on the position at which the map happens to visit it.", "anchors": ["src/PCRegistration/plane_registration.cpp 251-305: solve_initialize", "src/PCRegistration/plane_registration.cpp 333-338: add_new_plane", "src/PCRegistration/plane.cpp 123-145: estimate_plane", "src/PCRegistration/plane.cpp 207-280: calculate_gradient"]}
{"id": "C119", "title": "What an earlier estimation left in the planes has no influence", "statement": "Planes keep estimated parameters, transformed matrices and derivatives from earlier calls, possibly for another trajectory in another registration. None of it matters: with the same points, solve returns the same value, the same trajectory and the same estimated planes, and the error is the same.", "quantifier": "every content of the cached members, every earlier trajectory, every solving mode, every number of planes, points and poses", "why_tests_cant": "Tests use each plane in one registration; a leftover matters only through the order in which the cached members are written and read in each mode.", "anchors": ["src/PCRegistration/plane_registration.cpp 80-127: solve", "src/PCRegistration/plane_registration.cpp 327-331: add_plane", "src/PCRegistration/plane.cpp 123-145: estimate_plane", "src/PCRegistration/plane.cpp 207-304: calculate_gradient, calculate_hessian"]}
