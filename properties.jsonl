{"id": "C01", "title": "Expression arithmetic is evaluation-preserving", "statement": "Whatever combination of +, -, unary -, scalar * and / (also the in-place *=, /=, +=, -=) a user applies to variables, constants and linear expressions, the value of the resulting LinExpr at any assignment of the variables equals the same arithmetic applied to the operand values.", "quantifier": "all expression trees (any depth, any operators), all coefficient values, all variable assignments", "why_tests_cant": "Unbounded expression trees and all real assignments; the merge of repeated variables in every operator must cancel/add right for each multiset of variables.", "anchors": ["solver/src/solver/interface/Exprs.cpp:LinExpr::operator*,operator+=,clean", "solver/include/solver/interface/Exprs.hpp:LinExpr"]}
{"id": "C02", "title": "Merged expressions mention each variable once", "statement": "The result of +, - and scalar * on linear expressions never contains two terms for the same decision variable, and a variable not occurring in the operands never occurs in the result.", "quantifier": "all linear expressions of any length", "why_tests_cant": "all lengths and all coincidence patterns of column numbers", "anchors": ["solver/src/solver/interface/Exprs.cpp:LinExpr::clean,isClean"]}
{"id": "C03", "title": "Cleaning yields an expression the library regards as clean", "statement": "Passing an expression through the library's clean operation yields an expression which its own cleanliness predicate accepts, and cleaning twice is the same as cleaning once.", "quantifier": "all linear expressions", "why_tests_cant": "cancellation patterns of arbitrary length", "anchors": ["solver/src/solver/interface/Exprs.cpp:LinExpr::clean,isClean"]}
{"id": "C04", "title": "Adding an expression to itself", "statement": "e += e terminates for every expression e and doubles its value.", "quantifier": "all linear expressions", "why_tests_cant": "non-termination cannot be observed by a finite test; needs an argument over all iterations", "anchors": ["solver/src/solver/interface/Exprs.cpp:LinExpr::operator+="]}
{"id": "C05", "title": "Declaring variables: bounds, guess and numbering", "statement": "addVar rejects exactly the calls with lower bound above upper bound and then leaves the problem unchanged; otherwise the new variable gets the next free column number (so the n variables ever added are numbered 0..n-1 without gaps or repeats) and its stored guess is the point within its bounds nearest to the guess given.", "quantifier": "all histories of addVar/constraint/objective calls and all bounds and guesses", "why_tests_cant": "quantifies over every history of calls", "anchors": ["solver/src/solver/interface/ConicProblem.cpp:addVar"]}
{"id": "C06", "title": "Failed constraint calls leave the problem unchanged", "statement": "A call adding a linear, quadratic or second-order-cone constraint with an unsupported sense throws and leaves the optimisation problem exactly as it was.", "quantifier": "all problem states, all expressions, all sense strings", "why_tests_cant": "exception safety over every reachable state", "anchors": ["solver/src/solver/interface/ConicProblem.cpp:addLinConstr,addQuaConstr,addSocConstr"]}
{"id": "C07", "title": "Conic standard form is equivalent to the stated constraints", "statement": "For every problem without trust-region/soft constraints and without binaries, an assignment of the user's variables satisfies all linear, (nonnegative-weight) quadratic and second-order-cone constraints the user added iff it can be extended by values of the auxiliary variables to a point with A x = b and h - G x in the cone that is handed to the solver.", "quantifier": "all problems built through the API (any number and size of constraints), all assignments", "why_tests_cant": "equivalence over all real points and all constraint systems; row offsets depend on the number of every kind of constraint", "anchors": ["solver/src/solver/interface/ConicProblem.cpp:buildProblem", "solver/include/solver/interface/Cone.hpp"]}
{"id": "C08", "title": "Conic objective equals the user's objective", "statement": "At every point feasible for the standard form the linear objective c.x is at least the user's quadratic objective minus its constant term, and the auxiliary variables can always be chosen so that equality holds without leaving feasibility, so the two problems have the same minimisers.", "quantifier": "all objectives with nonnegative weights, all points", "why_tests_cant": "all real points and all objective lengths", "anchors": ["solver/src/solver/interface/ConicProblem.cpp:setObjective,buildProblem"]}
{"id": "C09", "title": "Constant-only constraints are honoured", "statement": "If a linear constraint added by the user has no variable left (all cancelled) and is false, the standard form handed to the solver is infeasible.", "quantifier": "all linear constraints", "why_tests_cant": "edge case among all constraint systems", "anchors": ["solver/src/solver/interface/ConicProblem.cpp:buildProblem 127-136,146-154"]}
{"id": "C10", "title": "Setting the objective replaces the previous one", "statement": "Calling setObjective a second time replaces the objective: building the problem stays well defined and uses only the last objective.", "quantifier": "all pairs of objectives", "why_tests_cant": "all histories of objective calls; the failure is undefined behaviour", "anchors": ["solver/src/solver/interface/ConicProblem.cpp:setObjective,buildProblem 219-236"]}
{"id": "C11", "title": "Trust-region constraints bound the violation of the equality", "statement": "For a quadratic constraint with nonnegative weights approximated by a trust region, every point feasible for the standard form built in refinement iteration k satisfies -threshold^k <= sum c_i q_i(x)^2 + l(x) <= 0, whatever the linearisation point; and the linearisation row is exact at the linearisation point.", "quantifier": "all constraints, linearisation points, iterations and points", "why_tests_cant": "all reals", "anchors": ["solver/src/solver/interface/ConicProblem.cpp:buildProblem 191-217"]}
{"id": "C12", "title": "Soft constraints are penalised by their squared linearisation", "statement": "For a quadratic constraint approximated as a soft constraint the auxiliary variable carrying the weight is, at every feasible point, at least the square of the linearisation of the constraint at the current solution, and the bound is attained.", "quantifier": "all constraints, linearisation points and points", "why_tests_cant": "all reals", "anchors": ["solver/src/solver/interface/ConicProblem.cpp:buildProblem 238-274"]}
{"id": "C13", "title": "Number and order of convex solves in optimize", "statement": "ConicProblem::optimize performs a warm-start solve iff warm-start iterations are positive and there is a trust/soft constraint, then the main solve iff SolverMaxIters>0, then exactly NumberRefinementsTrustRegion refinements iff there is a trust/soft constraint, with trust-region exponents 1,2,3,...; the reported exit code is that of the last solve (Indeterminate if none).", "quantifier": "all settings and all solver outcomes", "why_tests_cant": "all setting values and solver behaviours", "anchors": ["solver/src/solver/interface/ConicProblem.cpp:optimize"]}
{"id": "C14", "title": "Optimisation-variable indexing is a bijection", "statement": "For every sequence of optimisation-variable blocks laid out one after the other, the map from (block, row, column) within dimensions to the flat index is injective, consecutive and covers exactly 0..total-1; out-of-range rows/columns are clamped into the block.", "quantifier": "all block sequences, all dimensions", "why_tests_cant": "all sizes", "anchors": ["solver/src/solver/interface/OptVar.cpp:OptVar::initialize,id", "momentumopt/src/momentumopt/dynopt/DynamicsOptimizer.cpp:initializeOptimizationVariables"]}
{"id": "C15", "title": "Cone layout partitions the slack vector", "statement": "The linear block and the second-order cones of a Cone object occupy consecutive, disjoint index ranges that together cover exactly all inequality rows, and the extended (expanded) layout does so with its two extra rows per cone.", "quantifier": "all cone dimension vectors", "why_tests_cant": "all sizes", "anchors": ["solver/src/solver/interface/Cone.cpp:Cone::initialize"]}
{"id": "C16", "title": "Conic product and division are inverse", "statement": "For a scaling point strictly inside the cone (numerators above the safe-division threshold) the cone division undoes the cone product: (u o w)/u = w.", "quantifier": "all cones, all interior points u, all w", "why_tests_cant": "all reals and dimensions", "anchors": ["solver/src/solver/interface/Cone.cpp:conicProduct,conicDivision,safeDivision"]}
{"id": "C17", "title": "Conic projection lands in the cone interior", "statement": "The bring-to-cone projection used at start-up returns a point strictly inside the cone and differs from its input by a multiple of the cone's identity element.", "quantifier": "all input vectors and cone layouts", "why_tests_cant": "all reals and dimensions", "anchors": ["solver/src/solver/interface/Cone.cpp:conicProjection"]}
{"id": "C18", "title": "Nesterov-Todd scaling balances primal and dual", "statement": "When the scaling update succeeds for slack s and dual z in the cone interior, W z = W^{-1} s = lambda and lambda lies in the cone; if a point is outside the cone the update reports failure.", "quantifier": "all interior pairs and cone sizes", "why_tests_cant": "all reals and dimensions", "anchors": ["solver/src/solver/interface/Cone.cpp:updateNTScalings,conicNTScaling"]}
{"id": "C19", "title": "Read-only and mutable views of a solution agree", "statement": "The const accessors of the solver's solution vector return the same segments as the non-const ones (x, y, s, z, kappa, tau).", "quantifier": "all sizes and contents", "why_tests_cant": "only visible for some accessor/const combinations", "anchors": ["solver/include/solver/interface/Cone.hpp:OptimizationVector 340-360"]}
{"id": "C20", "title": "Equilibration is undone exactly", "statement": "Removing the Ruiz equilibration restores the problem data, and a point solves the scaled equations iff its unscaled image solves the original equations.", "quantifier": "all matrices with finite entries, any number of equilibration rounds", "why_tests_cant": "all reals and sizes", "anchors": ["solver/src/solver/optimizer/EqRoutine.cpp"]}
{"id": "C21", "title": "Interior point: Optimal is only reported for small residuals", "statement": "If the interior point method returns Optimal (or inaccurate Optimal) then the returned vector, mapped back to the problem as posed, satisfies the equality, cone and dual equations up to the (inaccurate) feasibility tolerance, its gap is below the absolute or relative tolerance, and no feasible point is better by more than that gap and tolerance-sized terms; the statistics returned are those of the returned iterate.", "quantifier": "all problems, all behaviours of the linear solver", "why_tests_cant": "all iterate histories", "anchors": ["solver/src/solver/optimizer/IPSolver.cpp:convergenceCheck,optimize"]}
{"id": "C22", "title": "Interior point: bounded number of iterations", "statement": "The interior point method always stops after at most SolverMaxIters+1 passes, with an exit code explaining why.", "quantifier": "all problems and settings, all behaviours of the linear algebra", "why_tests_cant": "all histories", "anchors": ["solver/src/solver/optimizer/IPSolver.cpp:optimize"]}
{"id": "C23", "title": "Sparse factorisation solves the linear system", "statement": "For every sparsity pattern, analysed once and factorised repeatedly with changing values, analysis and factorisation finish, the LDL' factors reproduce the symmetric matrix up to the documented regularisation of small or wrongly signed pivots, solve returns the solution of the factorised system, and for quasi-definite matrices with a margin above the threshold no pivot is regularised in any ordering, so that solve returns the solution of K x = b.", "quantifier": "all symmetric quasi-definite matrices of any size and pattern", "why_tests_cant": "all matrices", "anchors": ["solver/src/solver/optimizer/SparseCholesky.cpp"]}
{"id": "C24", "title": "Branch and bound: nodes partition the binary assignments", "statement": "At all times the open and explored leaves of the branch-and-bound tree partition the set of 0/1 assignments: every assignment belongs to exactly one leaf.", "quantifier": "all executions, all numbers of binaries and branching choices", "why_tests_cant": "all trees", "anchors": ["solver/src/solver/optimizer/BnBSolver.cpp:createBranches,optimize"]}
{"id": "C25", "title": "Branch and bound: terminates within its iteration limit and with sound bounds", "statement": "Branch and bound stops within the configured number of iterations; the reported lower bound never exceeds the optimum over the remaining leaves if node bounds are valid; when it stops by the optimality test the gap is within the tolerance.", "quantifier": "all executions", "why_tests_cant": "all trees and relaxations", "anchors": ["solver/src/solver/optimizer/BnBSolver.cpp:optimize,optimilityCheck,getProblemLowerBound"]}
{"id": "C26", "title": "Branch and bound: the stored solution is the best one found", "statement": "When branch and bound finishes, the solution it reports is the best of all feasible integral solutions it has evaluated.", "quantifier": "all executions", "why_tests_cant": "depends on evaluation order over all trees", "anchors": ["solver/src/solver/optimizer/BnBSolver.cpp:optimize 196-222,updateNodeBounds 108-156"]}
{"id": "C27", "title": "L-BFGS backtracking line search", "statement": "The backtracking line search evaluates the objective at most max_linesearch times; if it reports success the returned point is x+step*d with step within [min_step,max_step], satisfies the sufficient decrease condition and the selected (strong) Wolfe condition, and the reported value and gradient are those at the returned point.", "quantifier": "all objective functions, directions and parameters", "why_tests_cant": "all functions", "anchors": ["solver/src/solver/optimizer/LbfgsSolver.cpp:line_search_backtracking"]}
{"id": "C28", "title": "L-BFGS More-Thuente line search", "statement": "The More-Thuente search makes at most max_linesearch evaluations; if it reports success, the strong Wolfe conditions hold at the returned point and its step lies within [min_step,max_step]; every other exit leaves a point of the ray at step 0 or at a permitted step, with its own value and gradient, and a rounding-error exit never leaves a worse value than the start.", "quantifier": "all objective functions and parameters", "why_tests_cant": "all functions", "anchors": ["solver/src/solver/optimizer/LbfgsSolver.cpp:line_search_morethuente,update_trial_interval"]}
{"id": "C29", "title": "L-BFGS reports the value of the point it returns", "statement": "Whatever the exit status, the reported optimal value is the objective value of the returned point.", "quantifier": "all objective functions, parameters and exit paths", "why_tests_cant": "exit paths depend on the objective", "anchors": ["solver/src/solver/optimizer/LbfgsSolver.cpp:lbfgs 334-487"]}
{"id": "C30", "title": "L-BFGS never increases the objective and stops", "statement": "The sequence of accepted objective values never increases and strictly decreases if ftol>0 and the slope along the direction is not zero; with max_iterations>0 the method stops after at most that many iterations; success is reported only if the gradient test or the delta test passed.", "quantifier": "all objective functions and parameters", "why_tests_cant": "all histories", "anchors": ["solver/src/solver/optimizer/LbfgsSolver.cpp:lbfgs"]}
{"id": "C31", "title": "L-BFGS direction is a descent direction", "statement": "The two-loop recursion applies a positive definite operator to the gradient whenever all stored curvature products y.s are positive, so the search direction has negative inner product with a non-zero gradient, for any memory length and ring-buffer position.", "quantifier": "all stored histories, all memory sizes", "why_tests_cant": "all histories and dimensions", "anchors": ["solver/src/solver/optimizer/LbfgsSolver.cpp:lbfgs 405-456"]}
{"id": "C32", "title": "L-BFGS parameter validation precedes any effect", "statement": "Calls with invalid parameters return the corresponding error code without evaluating the objective or changing the point; all parameter sets accepted by validation lead to defined behaviour.", "quantifier": "all parameter sets", "why_tests_cant": "all parameter combinations", "anchors": ["solver/src/solver/optimizer/LbfgsSolver.cpp:lbfgs 189-265"]}
{"id": "C33", "title": "Penalised objective equals the user objective on feasible points", "statement": "The objective minimised by the constrained L-BFGS wrapper equals the user objective wherever bounds and constraints hold and is never below it; its central-difference gradient is exact for quadratic objectives.", "quantifier": "all problems and points", "why_tests_cant": "all reals", "anchors": ["solver/src/solver/optimizer/LbfgsSolver.cpp:evaluate,evaluate_objective_function 1040-1106"]}
{"id": "C34", "title": "Background decomposition thread: one decomposition per request", "statement": "In the hierarchical solver each request of the main thread is answered by exactly one decomposition by the worker, the two never access the shared matrices at the same time, no wake-up is lost (in every reachable state some thread can make progress until the worker has terminated), and shutdown terminates the worker under every schedule.", "quantifier": "all interleavings of main and worker thread, spurious wake-ups included", "why_tests_cant": "all schedules", "anchors": ["solver/include/solver/rt_optimizer/RtHQPSolver.h:doSVDComputations,stopSVD2ProblemConverter,reset,solveNextTask"]}
{"id": "C35", "title": "Substituting variables preserves values", "statement": "Substituting x = S y + s into an affine or quadratic expression of the real-time solver yields an expression whose value at y is the value of the original at S y + s.", "quantifier": "all expressions, substitutions and dimensions", "why_tests_cant": "all reals and dimensions", "anchors": ["solver/include/solver/rt_optimizer/RtMatrix.hpp:RtAffineUtils::substitute,RtQuadraticUtils::substitute"]}
{"id": "C36", "title": "Removing zero rows keeps the constraint set", "statement": "Removing zero rows from a stacked task removes all and only rows with negligible entries and keeps the order of the others.", "quantifier": "all matrices", "why_tests_cant": "all sizes", "anchors": ["solver/include/solver/rt_optimizer/RtMatrix.hpp:removeZeroRows 87-108,478-539"]}
{"id": "C37", "title": "LQR backward pass solves the linear-quadratic subproblem", "statement": "If no Cholesky failure is reported, at every time step the computed feedforward and feedback are the minimiser of the quadratic model (regularised by lambda), and without regularisation the value function recursion equals the minimum over controls of stage cost plus value at the successor.", "quantifier": "all horizons, dimensions and cost/dynamics matrices", "why_tests_cant": "all matrices and horizons", "anchors": ["solver_lqr/src/solver_lqr/BackwardPass.cpp:optimizeController"]}
{"id": "C38", "title": "LQR control limits are enforced at execution", "statement": "With control limits enabled every control applied in the forward pass lies within the limits, and the stored state trajectory is exactly the dynamics rolled out under these controls from the initial state.", "quantifier": "all horizons, controllers and dynamics", "why_tests_cant": "all trajectories", "anchors": ["solver_lqr/src/solver_lqr/ForwardPass.cpp:applyController"]}
{"id": "C39", "title": "LQR solver: accepted cost decreases, failure leaves the trajectory", "statement": "The cost of the accepted trajectory decreases strictly with every acceptance; a rejected step leaves the accepted trajectory unchanged; the accepted trajectory is always dynamically consistent.", "quantifier": "all dynamics, costs, settings", "why_tests_cant": "all histories", "anchors": ["solver_lqr/src/solver_lqr/SolverLqr.cpp:optimize"]}
{"id": "C40", "title": "LQR solver terminates", "statement": "optimize returns after finitely many backward passes for every positive minimum regularisation and growth factor above one.", "quantifier": "all problems and settings", "why_tests_cant": "all histories", "anchors": ["solver_lqr/src/solver_lqr/SolverLqr.cpp:optimize"]}
{"id": "C41", "title": "LQR box-constrained controls reduce to the unconstrained optimum", "statement": "When no control limit is active the box-constrained control computation returns the same feedforward as the unconstrained one.", "quantifier": "all Hessians, gradients and inactive limits", "why_tests_cant": "all reals", "anchors": ["solver_lqr/src/solver_lqr/BackwardPass.cpp:findConstrainedControls"]}
{"id": "C42", "title": "Finite-difference models are exact on linear-quadratic problems", "statement": "For affine dynamics and quadratic costs the finite-difference derivatives equal the exact derivatives, and the estimated Hessians are symmetric for every cost.", "quantifier": "all dimensions, all quadratic functions", "why_tests_cant": "all reals", "anchors": ["solver_lqr/src/solver_lqr/FiniteDifferences.cpp"]}
{"id": "C43", "title": "Contact plan to activation sequence", "statement": "After filling a fresh dynamics sequence from a contact plan, an end-effector is marked active at a time step iff one of its selected contacts covers that time; its contact id, position and orientation are those of a covering contact, and activation ids are exactly 0..n-1 with n the reported number of active steps.", "quantifier": "all contact plans, time steps and horizons", "why_tests_cant": "all plans", "anchors": ["momentumopt/src/momentumopt/cntopt/ContactPlanInterface.cpp:fillDynamicsSequence"]}
{"id": "C44", "title": "Refilling an activation sequence", "statement": "Filling a dynamics sequence that was filled before with another plan gives the same result as filling a fresh one.", "quantifier": "all pairs of plans", "why_tests_cant": "histories of two plans", "anchors": ["momentumopt/src/momentumopt/cntopt/ContactPlanInterface.cpp:fillDynamicsSequence"]}
{"id": "C45", "title": "Terrain half-space description contains exactly the polygon", "statement": "For a convex terrain region with counter-clockwise corners, the half-space description accepts every corner and every convex combination of corners, each edge lies on the boundary of its half-space, and points outside across an edge are rejected.", "quantifier": "all convex polygons with any number of corners", "why_tests_cant": "all reals", "anchors": ["momentumopt/src/momentumopt/cntopt/TerrainDescription.cpp:initialize"]}
{"id": "C46", "title": "Friction cone approximation respects Coulomb friction", "statement": "The linearised friction pyramid used in the force optimisation only admits forces inside the Coulomb cone of the configured friction coefficient.", "quantifier": "all forces and friction coefficients", "why_tests_cant": "all reals", "anchors": ["momentumopt/include/momentumopt/dynopt/DynamicsOptimizer.hpp:FrictionCone"]}
{"id": "C47", "title": "Momentum dynamics constraints integrate to momentum conservation", "statement": "Any solution of the centroidal dynamics constraints satisfies, at every time step, that momentum is the initial momentum plus the time-integral of gravity, contact forces and external disturbance, and CoM position is the initial CoM plus the integral of linear momentum over mass.", "quantifier": "all horizons, contact plans and forces", "why_tests_cant": "induction over the horizon", "anchors": ["momentumopt/src/momentumopt/dynopt/DynamicsOptimizer.cpp:internalOptimize 410-443"]}
{"id": "C48", "title": "Convex torque decomposition is exact when tight", "statement": "The difference-of-squares decomposition used for angular momentum reproduces the cross product of lever arm and force exactly when the two quadratic bounds are tight.", "quantifier": "all forces and lever arms", "why_tests_cant": "all reals", "anchors": ["momentumopt/src/momentumopt/dynopt/DynamicsOptimizer.cpp:internalOptimize 440-486"]}
{"id": "C49", "title": "Storing the optimised dynamics stays in bounds", "statement": "Writing the optimised trajectory back into the dynamics sequence touches only existing states and puts step k of the solution at index k.", "quantifier": "all horizons", "why_tests_cant": "memory safety for all horizons", "anchors": ["momentumopt/src/momentumopt/dynopt/DynamicsOptimizer.cpp:storeSolution 625-675"]}
{"id": "C50", "title": "Momentum feedback controller stays in bounds", "statement": "Solving for the feedback gains only reads existing states of the reference sequence.", "quantifier": "all horizons", "why_tests_cant": "memory safety for all horizons", "anchors": ["momentumopt/src/momentumopt/dynopt/DynamicsFeedback.cpp:objective 56-83"]}
{"id": "C51", "title": "Rotation maps are mutually inverse and unit norm", "statement": "exponentialMap always returns a unit quaternion with non-negative scalar part; exponentialMap(logarithmicMap(q)) = q up to sign outside the small-angle branch; integrating the required angular velocity over its time reaches the goal orientation.", "quantifier": "all rotation vectors and quaternions", "why_tests_cant": "all reals", "anchors": ["momentumopt/src/momentumopt/utilities/OrientationUtils.cpp"]}
{"id": "C52", "title": "Quaternion matrices represent quaternion products", "statement": "toQuaternionMatrix(q) p = q*p and its conjugate form gives p*q, and angular-velocity conversion matrices are mutually inverse where defined.", "quantifier": "all quaternions", "why_tests_cant": "all reals", "anchors": ["momentumopt/src/momentumopt/utilities/OrientationUtils.cpp:toQuaternionMatrix"]}
{"id": "C53", "title": "End-effector trajectories meet their boundary conditions", "statement": "The polynomial returned by the trajectory generator passes through start, via and end positions with zero velocity and acceleration at the ends, and queries outside the time interval are clamped.", "quantifier": "all positions, times and polynomial sizes", "why_tests_cant": "all reals", "anchors": ["momentumopt/src/momentumopt/utilities/TrajectoryGenerator.cpp", "momentumopt/include/momentumopt/utilities/TrajectoryGenerator.hpp"]}
{"id": "C54", "title": "Settings read back what was written", "statement": "For every setting parameter, the value read through the const getter equals the value read through the mutable getter, and a value set through the mutable getter is read back unchanged; unknown parameters throw.", "quantifier": "all parameters and values", "why_tests_cant": "whole parameter table with all values", "anchors": ["momentumopt/src/momentumopt/setting/PlannerSetting.cpp:get", "solver/src/solver/interface/SolverSetting.cpp", "solver_lqr/src/solver_lqr/SolverLqrSetting.cpp"]}
{"id": "C55", "title": "Minimum-jerk polynomial evaluation and lookup", "statement": "In the Python kinematics helper, differentiating a polynomial gives its derivative, the fitted polynomial meets all its boundary and via conditions (fitting again changes nothing), and the piecewise list returns the segment covering the query time.", "quantifier": "all coefficient lists, times and segments", "why_tests_cant": "all reals and list lengths", "anchors": ["momentumopt/python/momentumopt/kinoptpy/min_jerk_traj.py"]}
{"id": "C56", "title": "Expanded cone scaling represents the squared scaling", "statement": "The sparse, two-rows-larger form of the squared Nesterov-Todd scaling used in the linear system is equivalent to applying the scaling twice: eliminating its two auxiliary rows gives W(Wx), and the auxiliary entries are uniquely determined.", "quantifier": "all cones, all strictly interior slack/dual pairs, all vectors", "why_tests_cant": "the identity must hold for all real points and cone sizes, tests sample a few", "anchors": ["solver/src/solver/interface/Cone.cpp:conicNTScaling2,updateNTScalings"]}
{"id": "C57", "title": "Linearised time-optimal dynamics", "statement": "Every solution of the constraints of a later iteration of the time optimisation satisfies the true momentum dynamics with optimised time steps up to exactly the product of the deviations of time step and momentum (or momentum rate) from the linearisation point.", "quantifier": "all problem contexts, all solutions, all linearisation points and time steps", "why_tests_cant": "identity over all reals and horizon lengths", "anchors": ["momentumopt/src/momentumopt/dynopt/DynamicsOptimizer.cpp:internalOptimize"]}
{"id": "C58", "title": "Feedback model agrees with the planned dynamics", "statement": "Rolling the momentum feedback controller's dynamics model out under the planned forces from the initial state reproduces the planned center of mass, linear and angular momentum at every step, for plans with tight torque bounds, no external push and zero centers of pressure and contact torques.", "quantifier": "all plans and horizon lengths", "why_tests_cant": "must hold for every plan and every length", "anchors": ["momentumopt/src/momentumopt/dynopt/DynamicsFeedback.cpp", "momentumopt/src/momentumopt/dynopt/DynamicsOptimizer.cpp"]}
{"id": "C59", "title": "Swing phases cover exactly the steps without contact", "statement": "Updating end-effector trajectories reads and writes only existing states, never changes the pose of a step in contact, and gives every step without contact a swing pose exactly once.", "quantifier": "all activation patterns, numbers of contacts and horizon lengths", "why_tests_cant": "searches run over whole sequences of any length", "anchors": ["momentumopt/src/momentumopt/cntopt/ContactPlanInterface.cpp:updateEndeffectorTrajectories,findMakeContactId,findBreakContactId"]}
{"id": "C60", "title": "Flags shared between solver threads are synchronised", "statement": "Every access of the two threads of the hierarchical solver to a shared flag or counter happens while the accessing thread holds the mutex.", "quantifier": "all schedules, call histories and spurious wake-ups", "why_tests_cant": "data races depend on the schedule", "anchors": ["solver/include/solver/rt_optimizer/RtHQPSolver.h:doSVDComputations,stopSVD2ProblemConverter"]}
{"id": "C61", "title": "Stored nullspace maps stay within their array", "statement": "Every decomposition writes its nullspace map inside the array of stored maps, whatever number of tasks the caller solves.", "quantifier": "all call histories", "why_tests_cant": "number of tasks is unbounded", "anchors": ["solver/include/solver/rt_optimizer/RtHQPSolver.h:doSVDComputations", "solver/include/solver/rt_optimizer/RtHQPSolver.hpp:num_max_ranks_"]}
{"id": "C62", "title": "Interval of uncertainty of the More-Thuente search", "statement": "Every update of the interval of uncertainty keeps the best point (the new best value is the minimum of old best and trial value), proposes the next trial within the limits, keeps a bracketing interval bracketing with the slope at its best end pointing inwards, and shrinks it strictly.", "quantifier": "all intervals, trial points, values and slopes in which the search calls the update", "why_tests_cant": "all reals", "anchors": ["solver/src/solver/optimizer/LbfgsSolver.cpp:update_trial_interval"]}
{"id": "C63", "title": "L-BFGS keeps descent directions", "statement": "With a line search that enforces a curvature condition (More-Thuente with gtol<1, or Wolfe backtracking) every search direction of the whole run is a strict descent direction, so the run never fails with an increasing-gradient or invalid-step error, and accepted values strictly decrease when ftol>0.", "quantifier": "all objectives, start points, callbacks and numbers of iterations", "why_tests_cant": "the history of stored pairs is unbounded", "anchors": ["solver/src/solver/optimizer/LbfgsSolver.cpp:lbfgs"]}
{"id": "C64", "title": "LQR backward pass never fails on convex problems", "statement": "On a linear-quadratic model with positive semidefinite joint stage Hessians, positive definite control Hessians and a positive semidefinite final Hessian, the backward pass never reports a Cholesky failure, for any nonnegative regularisation.", "quantifier": "all horizons, dimensions and convex models", "why_tests_cant": "the Hessians of the value function depend on the whole horizon", "anchors": ["solver_lqr/src/solver_lqr/BackwardPass.cpp:optimizeController"]}
{"id": "C65", "title": "LQR success message means the backward pass succeeded", "statement": "When optimize stops with the message that the control gradient is small, the last backward pass succeeded and its control update is below the tolerance.", "quantifier": "all problems, settings and histories", "why_tests_cant": "depends on the whole history of the regularisation", "anchors": ["solver_lqr/src/solver_lqr/SolverLqr.cpp:optimize"]}
{"id": "C66", "title": "LQR solves convex linear-quadratic problems in one step", "statement": "For affine dynamics and convex quadratic costs, from any dynamically consistent nominal trajectory, one unregularised backward pass followed by the full step of the forward pass reaches the globally least cost over all control sequences.", "quantifier": "all horizons, dimensions, linear-quadratic problems, nominal trajectories and competing control sequences", "why_tests_cant": "an optimum over all control sequences cannot be tested", "anchors": ["solver_lqr/src/solver_lqr/BackwardPass.cpp:optimizeController", "solver_lqr/src/solver_lqr/ForwardPass.cpp:applyController", "solver_lqr/src/solver_lqr/FiniteDifferences.cpp"]}
{"id": "C67", "title": "Angular velocities from rotation-vector rates are the true ones", "statement": "Along every differentiable path of rotation vectors, outside the small-angle branch and below half a turn, the quaternion given by exponentialMap moves as predicted by jacobianQuaternionWrtRotationVector, and toAngularVelocity returns its angular velocity, in world or in body coordinates.", "quantifier": "all differentiable paths, times and rates", "why_tests_cant": "derivatives over all reals", "anchors": ["momentumopt/src/momentumopt/utilities/OrientationUtils.cpp:toAngularVelocity", "momentumopt/src/momentumopt/utilities/OrientationUtils.cpp:jacobianQuaternionWrtRotationVector"]}
{"id": "C68", "title": "World and body angular velocities agree", "statement": "For every rotation vector and rates, the angular velocity in world coordinates is the one in body coordinates rotated by the orientation described by the rotation vector.", "quantifier": "all rotation vectors and rates", "why_tests_cant": "all reals", "anchors": ["momentumopt/src/momentumopt/utilities/OrientationUtils.cpp:toAngularVelocity"]}
{"id": "C69", "title": "The required angular velocity is the constant one", "statement": "Rotating at the angular velocity reported by requiredAngularVelocity during the whole time step carries the current orientation to the desired orientation.", "quantifier": "all orientations and time steps", "why_tests_cant": "all reals", "anchors": ["momentumopt/src/momentumopt/utilities/OrientationUtils.cpp:requiredAngularVelocity"]}
{"id": "C70", "title": "The orientation error measures the rotation between two orientations", "statement": "orientationError is at most half a turn long, is zero exactly when the two quaternions describe the same orientation, rotates the current orientation into the desired one outside the small-angle branch, and depends neither on the lengths nor (unless the quaternions are orthogonal) on the signs of the two quaternions.", "quantifier": "all orientations", "why_tests_cant": "all reals", "anchors": ["momentumopt/src/momentumopt/utilities/OrientationUtils.cpp:orientationError"]}
{"id": "C71", "title": "Terrain normal and rotation follow the corners", "statement": "normalToTerrain is the unit normal from which the corners appear counter-clockwise, and terrainRotation is a rotation matrix whose third row is that normal.", "quantifier": "all convex regions with counter-clockwise corners", "why_tests_cant": "all corner positions and counts", "anchors": ["momentumopt/src/momentumopt/cntopt/TerrainDescription.cpp:initialize"]}
{"id": "C72", "title": "Terrain regions are kept in order", "statement": "Adding regions (also through loading a file) keeps the regions already present unchanged and numbers each new one by its position.", "quantifier": "all sequences of regions", "why_tests_cant": "all sequences", "anchors": ["momentumopt/src/momentumopt/cntopt/TerrainDescription.cpp:addTerrainRegion"]}
{"id": "C73", "title": "Settings parameters are independent", "statement": "Writing one settings parameter leaves every other parameter as it was, in all three settings classes.", "quantifier": "all pairs of parameters, values and objects", "why_tests_cant": "thousands of pairs times all values", "anchors": ["momentumopt/src/momentumopt/setting/PlannerSetting.cpp:get", "solver/src/solver/interface/SolverSetting.cpp:set", "solver_lqr/src/solver_lqr/SolverLqrSetting.cpp:get"]}
{"id": "C74", "title": "Loaded planner settings agree with the file", "statement": "After PlannerSetting::initialize has returned, time step, horizon, mass and gravity are those of the file, the number of time steps is the number of whole steps in the horizon, the weight is mass times gravity, the extended active degrees of freedom are the six of the base followed by the shifted active ones, and there are as many via points, in order, as the file says.", "quantifier": "all files, including unreadable and incomplete ones, and all earlier states of the object", "why_tests_cant": "all files and object states", "anchors": ["momentumopt/src/momentumopt/setting/PlannerSetting.cpp:initialize"]}
{"id": "C75", "title": "The number of time steps follows horizon and step", "statement": "At any time after loading, the number of time steps read from the planner settings is the number of whole steps in the horizon read from them.", "quantifier": "all histories of parameter writes", "why_tests_cant": "all histories of writes", "anchors": ["momentumopt/src/momentumopt/setting/PlannerSetting.cpp:initialize,get"]}
{"id": "C76", "title": "LQR line search tries decreasing step lengths", "statement": "The step lengths loaded for the forward pass start with 1, are positive, at most 1 and strictly decreasing, for every coefficient above 1 and every number of coefficients.", "quantifier": "all coefficients and numbers of coefficients", "why_tests_cant": "all reals and lengths", "anchors": ["solver_lqr/src/solver_lqr/SolverLqrSetting.cpp:initialize"]}
{"id": "C77", "title": "Interior point line search is safe", "statement": "Moving slack, dual, tau and kappa from a point strictly inside the cones along any directions by the line search step times a factor below one stays strictly inside, unless the step was raised to the configured minimum; the step lies between the configured bounds.", "quantifier": "all cones, interior points, directions, settings", "why_tests_cant": "all reals and cone sizes", "anchors": ["solver/src/solver/optimizer/IPSolver.cpp:lineSearch"]}
{"id": "C78", "title": "Interior point iterates stay inside the cones", "statement": "Whatever the linear solver answers, an iteration started strictly inside the cones with positive tau and kappa ends strictly inside, unless the step was raised to the minimum step length.", "quantifier": "all problems, iterates and linear solver answers", "why_tests_cant": "all iterates and all answers", "anchors": ["solver/src/solver/optimizer/IPSolver.cpp:optimize,lineSearch,updateVariables"]}
{"id": "C79", "title": "Interior point steps shrink all residuals alike", "statement": "With exact linear solves, a step of length a multiplies the dual, equality, cone and gap residual by the common factor 1 - a (1 - sigma).", "quantifier": "all problems, iterates, step lengths", "why_tests_cant": "identity over all reals and sizes", "anchors": ["solver/src/solver/optimizer/IPSolver.cpp:optimize,rhsAffineStep,rhsCenteringPredictor,computeResiduals"]}
{"id": "C80", "title": "Infeasibility exit codes carry certificates", "statement": "When the interior point method reports primal (dual) infeasibility, every primal (dual) feasible point of the equilibrated problem has a norm of at least the ratio of relative and feasibility tolerance (in suitable scaling).", "quantifier": "all problems and linear solver answers, all candidate feasible points", "why_tests_cant": "no test can enumerate feasible points", "anchors": ["solver/src/solver/optimizer/IPSolver.cpp:convergenceCheck,updateStatistics"]}
{"id": "C81", "title": "Swing orientation goes monotonically to its target", "statement": "The interpolation parameter of the end-effector orientation during a flight phase is 0 at its first step, never decreases, stays within [0,1] and is 1 exactly in the second half of the phase.", "quantifier": "all flight phases and steps", "why_tests_cant": "all phase lengths", "anchors": ["momentumopt/src/momentumopt/cntopt/ContactPlanInterface.cpp:generateFlightPhase"]}
{"id": "C82", "title": "Swing trajectories join the contacts", "statement": "Updating end-effector trajectories places the end-effector at its old contact at the first step and at its new contact at the last step of every flight phase, at rest with zero acceleration, and writes no other step.", "quantifier": "all flight phases, contact positions, via points, time steps", "why_tests_cant": "all reals and phase lengths", "anchors": ["momentumopt/src/momentumopt/cntopt/ContactPlanInterface.cpp:generateFlightPhase,updateEndeffectorTrajectories,mapIdToContactTime", "momentumopt/src/momentumopt/utilities/TrajectoryGenerator.cpp"]}
{"id": "C83", "title": "The kinematics contact plan is read off the activations", "statement": "The contact plan computed by the Python kinematics optimizer lists, in order and exactly once, every maximal run of steps in which the end-effector is active, with its first and last step and the position at its last step.", "quantifier": "all activation sequences, horizons, positions", "why_tests_cant": "all sequences of activations", "anchors": ["momentumopt/python/momentumopt/kinoptpy/momentum_kinematics_optimizer.py:get_contact_plan_from_dyn_optimizer"]}
{"id": "C84", "title": "Kinematic end-effector references follow the contacts", "statement": "At every step an end-effector reference exists, is at rest at the contact position during each contact phase, is differentiable with the reported reference velocity as its time derivative, and passes at half time of each swing through the point above the previous contact.", "quantifier": "all contact plans, offsets, time steps", "why_tests_cant": "all plans and real times", "anchors": ["momentumopt/python/momentumopt/kinoptpy/momentum_kinematics_optimizer.py:generate_eff_traj,__call__"]}
{"id": "C85", "title": "Via point interpolation passes through its via points", "statement": "The joint and base interpolation starts at rest at the initial value, passes at rest through each via point at its time, ends at rest at the final value and is differentiable.", "quantifier": "all increasing via times, values and horizons", "why_tests_cant": "all reals and numbers of via points", "anchors": ["momentumopt/python/momentumopt/kinoptpy/momentum_kinematics_optimizer.py:generate_trajectory"]}
{"id": "C86", "title": "Interior point fallback results never get worse", "statement": "The iterate kept for fallback is only ever replaced by one with positive and strictly smaller complementarity gap and merit; an optimize call that ends without full-precision acceptance (reduced precision, no progress, slacks leaving the cone, iteration limit) returns the first iterate or one with strictly smaller gap and merit.", "quantifier": "all problems, settings with at least one iteration, all answers of the linear solver", "why_tests_cant": "all executions", "anchors": ["solver/src/solver/optimizer/IPSolver.cpp:optimize,saveIterateAsBest,restoreBestIterate", "solver/src/solver/optimizer/CvxInfoPrinter.cpp:isBetterThan"]}
{"id": "C87", "title": "Interior point steps shrink the complementarity gap", "statement": "With exact linear solves, a step of length a in [0,1] along the predictor-corrector direction leaves at most the fraction 1 - a (1 - sigma) of the gap s'z + kappa tau (exactly that fraction without second-order cones), that is the gap shrinks at least as fast as the residuals; the second-order error of the affine step is cancelled.", "quantifier": "all problems, interior iterates, step lengths", "why_tests_cant": "identity over all reals, sizes and cones", "anchors": ["solver/src/solver/optimizer/IPSolver.cpp:optimize,rhsAffineStep,rhsCenteringPredictor", "solver/src/solver/interface/Cone.cpp:conicProduct,conicDivision,conicNTScaling"]}
{"id": "C88", "title": "The factorised matrix is the KKT matrix", "statement": "After every update of the scalings the permuted sparse matrix handed to the factorisation acts, in the original order of rows, as the extended regularised KKT operator [delta A' G'; A -delta 0; G 0 -(W^2 + delta)] (second-order cones expanded), whatever fill-reducing ordering was found and whatever updates were made before.", "quantifier": "all cones, sparse data, orderings, update histories, scalings", "why_tests_cant": "all sparsity patterns, permutations and index tables", "anchors": ["solver/src/solver/optimizer/LinSolver.cpp:buildProblem,findPermutation,initialize,initializeMatrix,updateMatrix"]}
{"id": "C89", "title": "The linear solver returns the regularised Newton direction", "statement": "For scalings of an interior point and regularisation above the pivot threshold, the factorisation of the KKT matrix succeeds with pivots of the expected signs and no pivot replaced, and the unpermuted solution satisfies the regularised Newton system exactly, with the auxiliary variables of the second-order cones eliminated.", "quantifier": "all problems, orderings, histories, interior points, right-hand sides", "why_tests_cant": "all matrices, exact arithmetic", "anchors": ["solver/src/solver/optimizer/LinSolver.cpp:solve,symbolicFactorization,numericFactorization", "solver/src/solver/optimizer/SparseCholesky.cpp:factorize,solve", "solver/src/solver/interface/Cone.cpp:unpermuteSolution"]}
{"id": "C90", "title": "Iterative refinement never makes the direction worse", "statement": "Iterative refinement performs at most the configured number of steps, and the returned solution has a residual not larger than that of the unrefined solution, for every behaviour of the factorisation; an exact solution is returned unrefined.", "quantifier": "all right-hand sides, factorisations, settings", "why_tests_cant": "all executions of the loop", "anchors": ["solver/src/solver/optimizer/LinSolver.cpp:solve", "solver/src/solver/interface/Cone.cpp:conicNTScaling2,unpermuteSolution"]}
{"id": "C91", "title": "Each rank of the real-time model is exactly its constraints", "statement": "The task handed to the hierarchical solver for a rank consists of exactly the constraints added with that rank, in the order of the calls, equalities and inequalities separated, and each row evaluates at every point to left minus right side (right minus left for '>'); only rows without significant coefficients are dropped.", "quantifier": "all programs of addLinConstr calls, expressions with repeated variables, ranks, points", "why_tests_cant": "all programs and all points", "anchors": ["solver/include/solver/rt_optimizer/RtModel.h:addLinConstr,addCostsToHierarchy,solve"]}
{"id": "C92", "title": "The hierarchy is solved rank by rank and completely", "statement": "solve() terminates, hands over the ranks 0,1,.. in increasing order once each, reports success only if every task succeeded, and leaves out a used rank only when no degree of freedom is left.", "quantifier": "all models, solvers and ranks", "why_tests_cant": "all numbers of ranks and solver answers", "anchors": ["solver/include/solver/rt_optimizer/RtModel.h:solve,checkIfHigherRanksLeft"]}
{"id": "C93", "title": "Levels declared without slacks are solved without slacks", "statement": "A hierarchy level listed in hierarchiesWithoutSlacks is solved with hard inequalities.", "quantifier": "all models and lists of levels", "why_tests_cant": "all configurations", "anchors": ["solver/include/solver/rt_optimizer/RtModel.h:checkSlacknessOfHierarchy,solve"]}
{"id": "C94", "title": "Stacking constraints keeps the old rows and adds the new ones", "statement": "append, appendAtColumn and appendRowsOfRank leave the value of every earlier row unchanged at every point and add exactly the requested rows, acting on the requested columns only, independent of uninitialised memory.", "quantifier": "all matrices, vectors, offsets, rank vectors and memory contents", "why_tests_cant": "all sizes and memory contents", "anchors": ["solver/include/solver/rt_optimizer/RtMatrix.hpp:append,appendAtColumn", "solver/include/solver/rt_optimizer/RtModel.h:appendRowsOfRank"]}
{"id": "C95", "title": "RtQP: a finite result is optimal", "statement": "If RtQPSolver::solveQP returns a finite value, the returned x satisfies every equality, violates the inequalities by at most m*eps*trace(Hess)*trace(L^-T)*100 in total, and no point satisfying the constraints has a smaller objective x'Hess x + 2 g0'x; the returned value is half of that objective. (Proved for runs whose zero tests decide correctly; violated without: an equality with tiny coefficients is ignored, contradicting equalities return a finite value.)", "quantifier": "all dimensions, all Hessians with a Cholesky factor, all constraints, all runs of the active-set iteration", "why_tests_cant": "the active set changes in a data-dependent order; optimality over all feasible points cannot be tested", "anchors": ["solver/include/solver/rt_optimizer/RtQPSolver.hpp:solveQP", "solver/include/solver/rt_optimizer/RtQPSolver.hpp:addConstraint", "solver/include/solver/rt_optimizer/RtQPSolver.hpp:deleteConstraint"]}
{"id": "C96", "title": "RtQP: an infinite result means infeasible", "statement": "If RtQPSolver::solveQP returns infinity (isOptimized() is false), no point satisfies all the constraints. (Proved for runs whose zero tests decide correctly; violated without: 1e-9 x + 1 <= 0 is declared infeasible.)", "quantifier": "all problems, all runs", "why_tests_cant": "infeasibility is a statement about all points", "anchors": ["solver/include/solver/rt_optimizer/RtQPSolver.hpp:solveQP", "solver/include/solver/rt_optimizer/RtQPSolver.hpp:isOptimized"]}
{"id": "C97", "title": "RtQP: the solver returns", "statement": "RtQPSolver::solveQP returns for every problem and never indexes an array out of range. (Proved for runs whose zero tests decide correctly; violated without: when addConstraint rejects the constraint just chosen, the search at l2 starts from the stale ss/ip and chooses it again, forever.)", "quantifier": "all problems, all runs of the goto program", "why_tests_cant": "non-termination shows only on degenerate data, and a test cannot show termination", "anchors": ["solver/include/solver/rt_optimizer/RtQPSolver.hpp:solveQP", "solver/include/solver/rt_optimizer/RtQPSolver.hpp:addConstraint"]}
{"id": "C98", "title": "RtQP: exact dual active-set method is correct", "statement": "With exact zero tests and linearly independent equalities, solveQP always returns; it returns infinity exactly when there is no feasible point and otherwise a feasible minimiser of the objective.", "quantifier": "all dimensions, Hessians and constraints", "why_tests_cant": "total correctness over an infinite class of problems", "anchors": ["solver/include/solver/rt_optimizer/RtQPSolver.hpp:solveQP"]}
{"id": "C99", "title": "RtQP: Givens updates keep the factorisation", "statement": "Adding an accepted constraint and dropping any active one keep J J' equal to the inverse Hessian and J'N = [R;0] with R upper triangular and nonsingular for the normals N of the active constraints; dropping also shifts the active set and multipliers consistently.", "quantifier": "all dimensions, all positions of the dropped constraint, all sequences of updates", "why_tests_cant": "sequences of updates of any length and order", "anchors": ["solver/include/solver/rt_optimizer/RtQPSolver.hpp:addConstraint", "solver/include/solver/rt_optimizer/RtQPSolver.hpp:deleteConstraint", "solver/include/solver/rt_optimizer/RtQPSolver.hpp:distance"]}
{"id": "C100", "title": "RtHQP: lower priorities keep higher-priority equalities", "statement": "Once solveNextTask has returned for a task with equalities A x + a, every later call of solveNextTask changes A x + a by at most (norm of A)/hsol_max_eq_cond times the distance the solution moves, whatever the later tasks are.", "quantifier": "all dimensions, all hierarchies of tasks, all later tasks", "why_tests_cant": "a hierarchy can have any number of tasks of any shape; the nullspace projector is re-multiplied at every call", "anchors": ["solver/include/solver/rt_optimizer/RtHQPSolver.h:solveNextTask", "solver/include/solver/rt_optimizer/RtHQPSolver.h:doSVDComputations", "solver/include/solver/rt_optimizer/RtMatrix.hpp:computeNullspaceMap"]}
{"id": "C101", "title": "RtHQP: each task is optimal given the earlier ones", "statement": "If solveNextTask returns true, the solution minimises the squared equality residual plus squared inequality violation of the task (with the psd_hessian_diag regularisation) among all points that keep the equality values of the earlier tasks and satisfy their inequalities.", "quantifier": "all hierarchies, all competitor points", "why_tests_cant": "optimality is a statement about all competitor points", "anchors": ["solver/include/solver/rt_optimizer/RtHQPSolver.h:solveNextTask", "solver/include/solver/rt_optimizer/RtHQPSolver.h:getxopt"]}
{"id": "C102", "title": "RtHQP: inequalities met by a task stay met", "statement": "An inequality that is met when its own task is solved is, after m further tasks, violated by at most m times ineq_relax (plus the tolerance of the QP solver).", "quantifier": "all hierarchies, all rows, all numbers of later tasks", "why_tests_cant": "accumulates over any number of later tasks", "anchors": ["solver/include/solver/rt_optimizer/RtHQPSolver.h:solveNextTask"]}
{"id": "C103", "title": "RtHQP: a lower-priority task does not increase the violation of a higher-priority one", "statement": "If some inequalities of a task cannot all be met, later (lower-priority) tasks do not increase their violation beyond ineq_relax. (Violated: the row is clamped to -ineq_relax before the optimal slack is added, so a later task may double the violation.)", "quantifier": "all hierarchies", "why_tests_cant": "requires an infeasible high-priority task followed by a conflicting one; the claim is about all hierarchies", "anchors": ["solver/include/solver/rt_optimizer/RtHQPSolver.h:solveNextTask"]}
{"id": "C104", "title": "RtHQP: nullspace dimension", "statement": "nullspaceDimension() starts at the number of variables and never increases; it decreases with each task whose equalities can still be influenced without changing the earlier ones; when it is zero, no further task changes the solution.", "quantifier": "all hierarchies", "why_tests_cant": "depends on the ranks of all projected task matrices", "anchors": ["solver/include/solver/rt_optimizer/RtHQPSolver.h:nullspaceDimension", "solver/include/solver/rt_optimizer/RtHQPSolver.h:solveNextTask", "solver/include/solver/rt_optimizer/RtMatrix.hpp:computeNullspaceMap"]}
{"id": "C105", "title": "RtHQP: memory safety of the hierarchy", "statement": "No sequence of well-formed tasks makes solveNextTask access an array out of its range. (Proved for up to seven non-empty tasks; violated with eight: prev_K_ has seven entries.)", "quantifier": "all hierarchies", "why_tests_cant": "the bound depends on the number of tasks", "anchors": ["solver/include/solver/rt_optimizer/RtHQPSolver.h:solveNextTask", "solver/include/solver/rt_optimizer/RtHQPSolver.h:doSVDComputations", "solver/include/solver/rt_optimizer/RtHQPSolver.hpp:num_max_ranks_"]}
{"id": "C106", "title": "RtHQP: every level is solvable", "statement": "The QP that solveNextTask sets up always has a feasible point, whatever the tasks are, so with a QP solver that solves feasible problems every call returns true.", "quantifier": "all hierarchies, including contradictory ones", "why_tests_cant": "quantifies over all hierarchies and histories of slacks", "anchors": ["solver/include/solver/rt_optimizer/RtHQPSolver.h:solveNextTask"]}
{"id": "C107", "title": "RtHQP with RtQP: the composed solver is lexicographically optimal", "statement": "The hierarchical solver together with the QP solver of the repository, in exact arithmetic: for every hierarchy of well-formed tasks every call of solveNextTask returns true and yields a point that minimises the task's cost among all points that keep the equality values of the earlier tasks and satisfy their inequalities.", "quantifier": "all dimensions, all hierarchies, all competitor points", "why_tests_cant": "total correctness of two interacting algorithms over all inputs", "anchors": ["solver/include/solver/rt_optimizer/RtHQPSolver.h:solveNextTask", "solver/include/solver/rt_optimizer/RtQPSolver.hpp:solveQP"]}
{"id": "C108", "title": "Kinematics: the trajectory problem is the discretised kinematics", "statement": "The constraints optimizeTrajectory hands to the solver (in its standard form) are satisfied exactly by the plans in which, at every time step, base and joints follow the discretised kinematics from the previous step, the end effectors' linearised heights respect the ground of active contacts, and the active joints respect their limits.", "quantifier": "all horizons, robots, Jacobians, plans, settings", "why_tests_cant": "equivalence of a generated constraint system with a semantic statement, for every horizon and robot", "anchors": ["momentumopt/src/momentumopt/kinopt/KinematicsOptimizer.cpp:optimizeTrajectory", "momentumopt/src/momentumopt/kinopt/KinematicsOptimizer.cpp:addVariableToModel"]}
{"id": "C109", "title": "Kinematics: the trajectory objective is the weighted tracking cost", "statement": "The value of the objective of the trajectory problem at a plan is the weighted sum of squared deviations from the tracked references plus weighted accelerations and velocities, and the minimisers of the solver's standard form are the least-cost consistent plans.", "quantifier": "all plans, settings, horizons", "why_tests_cant": "quantifies over all competitor plans", "anchors": ["momentumopt/src/momentumopt/kinopt/KinematicsOptimizer.cpp:optimizeTrajectory"]}
{"id": "C110", "title": "Kinematics: every variable entry gets its own column", "statement": "Every entry of every variable matrix of the trajectory problem is bound to a column of its own, and together they are all columns of the model.", "quantifier": "all horizons and dof counts", "why_tests_cant": "injectivity over all entries", "anchors": ["momentumopt/src/momentumopt/kinopt/KinematicsOptimizer.cpp:optimizeTrajectory", "momentumopt/src/momentumopt/kinopt/KinematicsOptimizer.cpp:addVariableToModel"]}
{"id": "C111", "title": "Kinematics: the returned trajectory is consistent", "statement": "After optimizeTrajectory, the stored postures satisfy joint limits and the stored velocities and accelerations are the finite differences of the postures. (Proved when the active dofs are a prefix of the dofs; violated otherwise: velocities are stored at the wrong joints.)", "quantifier": "all robots, settings, solutions of the solver", "why_tests_cant": "depends on the index mapping for every set of active dofs", "anchors": ["momentumopt/src/momentumopt/kinopt/KinematicsOptimizer.cpp:optimizeTrajectory", "momentumopt/src/momentumopt/kinopt/KinematicsOptimizer.cpp:saveSolution"]}
{"id": "C112", "title": "Kinematics: inactive joints do not move", "statement": "Joints that are not active keep their initial position and zero velocity. (Proved when the active dofs are a prefix; violated otherwise.)", "quantifier": "all sets of active dofs", "why_tests_cant": "depends on the index mapping for every set of active dofs", "anchors": ["momentumopt/src/momentumopt/kinopt/KinematicsOptimizer.cpp:optimizeTrajectory", "momentumopt/src/momentumopt/kinopt/KinematicsOptimizer.cpp:optimizePosture"]}
{"id": "C113", "title": "Kinematics: the posture iteration", "statement": "Each step of optimizePosture solves for the displacement that minimises the weighted tracking error of its linearised tasks within the joint limits; the resulting posture obeys the limits; at most MaxKinConvergenceIterations problems are solved, and none if the task error is already below the threshold.", "quantifier": "all robots (kinematic functions), references, settings", "why_tests_cant": "holds for every robot model and every number of iterations", "anchors": ["momentumopt/src/momentumopt/kinopt/KinematicsOptimizer.cpp:optimizePosture"]}
{"id": "C114", "title": "Kinematics: momentum references do not influence the posture step", "statement": "The displacement chosen by a step of optimizePosture does not depend on the momentum references, their weights or the centroidal momentum matrix: the momentum variables are not coupled to the displacement.", "quantifier": "all references, weights, matrices, settings", "why_tests_cant": "non-interference over all inputs", "anchors": ["momentumopt/src/momentumopt/kinopt/KinematicsOptimizer.cpp:optimizePosture"]}
{"id": "C115", "title": "Kinematics: number of problems solved by optimize", "statement": "optimize() solves at most (T+1)\u00b7MaxKinConvergenceIterations posture problems (MaxKinConvergenceIterations if it is not the first call) plus MaxTrajOptIterations trajectory problems, and terminates.", "quantifier": "all settings, robots, solver outcomes", "why_tests_cant": "holds for every outcome of the solver calls", "anchors": ["momentumopt/src/momentumopt/kinopt/KinematicsOptimizer.cpp:optimize", "momentumopt/src/momentumopt/kinopt/KinematicsOptimizer.cpp:optimizePosture"]}
{"id": "C116", "title": "Kinematics: the initial state", "statement": "optimize() starts from a state at rest that carries the reference momenta of the initial dynamic state and respects the joint limits; if every solve throws, the default posture is returned without notice.", "quantifier": "all inputs", "why_tests_cant": "quantifies over all solver outcomes", "anchors": ["momentumopt/src/momentumopt/kinopt/KinematicsOptimizer.cpp:initialize", "momentumopt/src/momentumopt/kinopt/KinematicsOptimizer.cpp:optimize"]}
{"id": "C117", "title": "Kinematics: the motion returned by optimize is consistent", "statement": "If at least one trajectory problem was solved (to a feasible point), the returned motion satisfies limits and finite-difference consistency. (Violated when every trajectory problem throws: stale velocities are kept.)", "quantifier": "all inputs, all outcomes of the solver", "why_tests_cant": "depends on which of the solver calls throw", "anchors": ["momentumopt/src/momentumopt/kinopt/KinematicsOptimizer.cpp:optimize", "momentumopt/src/momentumopt/kinopt/KinematicsOptimizer.cpp:optimizeTrajectory"]}
{"id": "C118", "title": "Kinematics: replay of the motion", "statement": "displayMotion shows T\u00b7NumSubsamples postures, takes the planned duration, shows the planned posture at the beginning of every time step, and stays within any joint limits the planned postures satisfy; the last planned posture itself is never shown.", "quantifier": "all motions, all numbers of subsamples", "why_tests_cant": "quantifies over all motions", "anchors": ["momentumopt/src/momentumopt/kinopt/KinematicsOptimizer.cpp:displayMotion"]}
{"id": "C119", "title": "Dynamics: the constraints of every problem are the limits of the plan and the centroidal dynamics", "statement": "For every heuristic and every iteration, a point satisfies all constraints DynamicsOptimizer::optimize adds to the model exactly if the plan it encodes keeps the center of mass in the height range and within reach of every active contact, its centers of pressure in the support areas, its forces in the friction cone (or pyramid) and the contact directions, its torques in the torque range, the durations in their bounds, the bounds above the squares they bound, and obeys the (discretised or, with time optimisation, linearised) centroidal dynamics.", "quantifier": "all settings, contact plans, heuristics, sequences, points", "why_tests_cant": "ranges over all real vectors and all plans", "anchors": ["momentumopt/src/momentumopt/dynopt/DynamicsOptimizer.cpp:internalOptimize", "momentumopt/src/momentumopt/dynopt/DynamicsOptimizer.cpp:addVariableToModel"]}
{"id": "C120", "title": "Dynamics: the objective is the documented cost", "statement": "The objective handed to the solver is: weighted distance to the via points, terminal and running momentum and center-of-mass tracking, momentum rates, force and force-rate regularisation, torques, durations, and, in the later time iterations, the penalty on the linearised squares.", "quantifier": "all settings, plans, points", "why_tests_cant": "ranges over all real vectors", "anchors": ["momentumopt/src/momentumopt/dynopt/DynamicsOptimizer.cpp:internalOptimize"]}
{"id": "C121", "title": "Dynamics: registration of the variables", "statement": "Every scalar of the plan gets its own solver column, columns of distinct entries differ and all lie below the number of variables.", "quantifier": "all horizons, numbers of end-effectors, numbers of active steps", "why_tests_cant": "no bound on sizes", "anchors": ["momentumopt/src/momentumopt/dynopt/DynamicsOptimizer.cpp:initializeOptimizationVariables", "momentumopt/src/momentumopt/dynopt/DynamicsOptimizer.cpp:internalOptimize"]}
{"id": "C122", "title": "Dynamics: the solver problem is the planning problem", "statement": "The standard-form cone program exists; its feasible points are plans with limits and dynamics, it has the same optimal cost, and a least-cost feasible point is a cheapest plan.", "quantifier": "all settings with positive horizon and non-zero mass, all well-formed contact plans", "why_tests_cant": "equivalence of two optimisation problems over reals", "anchors": ["momentumopt/src/momentumopt/dynopt/DynamicsOptimizer.cpp:internalOptimize", "solver/src/solver/interface/Model.cpp:optimize"]}
{"id": "C123", "title": "Dynamics with fixed timing: the stored plan obeys the centroidal dynamics exactly", "statement": "Whenever the solver returns a point that satisfies the dynamics constraints, the stored sequence satisfies com, linear and angular momentum recursions exactly with the stored forces, centers of pressure and torques, even where the bounds on the moments are not tight; durations are unchanged.", "quantifier": "all plans, all solver results", "why_tests_cant": "quantifies over all solver results", "anchors": ["momentumopt/src/momentumopt/dynopt/DynamicsOptimizer.cpp:internalOptimize", "momentumopt/src/momentumopt/dynopt/DynamicsOptimizer.cpp:storeSolution"]}
{"id": "C124", "title": "Dynamics with time optimisation: the stored plan is within the residual of an exact trajectory", "statement": "The stored center of mass, linear and angular momentum deviate from the trajectory integrated exactly over the stored durations and forces by at most T times the reported residual. (Violated for the angular momentum: it is recomputed with the durations of the previous iteration.)", "quantifier": "all plans, all solver results, all iterations", "why_tests_cant": "history-dependent: durations of the previous iteration leak into the result", "anchors": ["momentumopt/src/momentumopt/dynopt/DynamicsOptimizer.cpp:internalOptimize", "momentumopt/src/momentumopt/dynopt/DynamicsOptimizer.cpp:storeSolution"]}
{"id": "C125", "title": "Dynamics with time optimisation: stopping rule", "statement": "At most MaxNumTimeIterations+1 problems are solved, and iteration stops as soon as a plan has converged; a plan counts as converged only if its residual is below the tolerance or hardly changed. (Violated: convergence of the first plan is only noticed after another solve, whose plan is then returned as converged.)", "quantifier": "all solver results, all histories of the loop", "why_tests_cant": "history-dependent", "anchors": ["momentumopt/src/momentumopt/dynopt/DynamicsOptimizer.cpp:optimize", "momentumopt/src/momentumopt/dynopt/DynamicsOptimizer.cpp:internalOptimize"]}
{"id": "C126", "title": "Dynamics: calls of optimize are independent of earlier tracking calls", "statement": "A call of optimize without tracking objective minimises the objective given by the caller's settings regardless of earlier calls. (Violated: a tracking call overwrites the momentum weights of the settings.)", "quantifier": "all sequences of two calls", "why_tests_cant": "history-dependent", "anchors": ["momentumopt/src/momentumopt/dynopt/DynamicsOptimizer.cpp:optimize", "momentumopt/src/momentumopt/dynopt/DynamicsOptimizer.cpp:updateTrackingObjective"]}
{"id": "C127", "title": "Dynamics: torque at the contact point", "statement": "The stored contact-point torque, rotated into the world frame, equals the moment of the contact force about the contact location plus the torque about the contact normal.", "quantifier": "all plans and right-handed contact frames", "why_tests_cant": "ranges over all rotations and forces", "anchors": ["momentumopt/src/momentumopt/dynopt/DynamicsOptimizer.cpp:storeSolution"]}
{"id": "C128", "title": "Dynamics: the center of mass stays above the supporting contacts", "statement": "At every time step the center of mass is at least the minimum height above the contacts that support the robot. (Violated: the height is measured from the contact of end-effector 0 at time step 0 throughout.)", "quantifier": "all plans", "why_tests_cant": "quantifies over all feasible plans", "anchors": ["momentumopt/src/momentumopt/dynopt/DynamicsOptimizer.cpp:internalOptimize"]}
{"id": "C129", "title": "Dynamics: accuracy of the trust-region heuristic", "statement": "With the trust-region heuristic, whatever the center, every point satisfying the constraints has moment bounds within a quarter of the threshold of the true moments, so the solver's angular momentum deviates from the one recomputed from forces by at most weight*threshold/4 integrated over contact time.", "quantifier": "all centers, thresholds, plans, points", "why_tests_cant": "ranges over all points", "anchors": ["momentumopt/src/momentumopt/dynopt/DynamicsOptimizer.cpp:internalOptimize", "solver/src/solver/interface/Model.cpp:addQuaConstr"]}
{"id": "C130", "title": "Dynamics with time optimisation: the penalty vanishes at a tight fixed point", "statement": "If two iterations in a row return the same plan and its bounds are tight, the penalty on the linearised squares is zero. (Violated: it is a sum of fourth powers of the displacements of the center of mass, because the stored plan is shifted by one time step.)", "quantifier": "all plans", "why_tests_cant": "two-iteration history", "anchors": ["momentumopt/src/momentumopt/dynopt/DynamicsOptimizer.cpp:internalOptimize", "momentumopt/src/momentumopt/dynopt/DynamicsOptimizer.cpp:storeSolution"]}
{"id": "C131", "title": "QP wrapper solves the documented program", "statement": "QpSolver.quadprog_solve_qp(P, q, G, h, A, b) returns a minimiser of 1/2 x'Px + q'x subject to Gx <= h and Ax = b, for each of the four ways of giving or omitting the two kinds of constraints, and returns None when the constraints have no solution.", "quantifier": "all positive definite P, vectors q, constraint matrices (any number of rows, including none)", "why_tests_cant": "signs and the order of equality and inequality rows matter for every shape; optimality quantifies over all competitors", "anchors": ["momentumopt/python/momentumopt/kinoptpy/qp.py:QpSolver.quadprog_solve_qp"]}
{"id": "C132", "title": "First-order inverse kinematics returns the best tracking velocity", "statement": "PointContactInverseKinematics.compute returns the unique velocity minimising the weighted squared errors of linear momentum (with proportional centre-of-mass correction), angular momentum, end-effector velocities (contact weight or tracking weight, proportional position correction) and joint velocities plus 1e-6 times its squared norm; in a flight phase among the velocities with exactly the reference momentum. It returns whenever such velocities exist.", "quantifier": "all robots, numbers of end-effectors and joints, configurations, references, nonnegative weights, histories of earlier calls", "why_tests_cant": "optimality quantifies over all velocities; rows of the stacked matrices depend on sizes", "anchors": ["momentumopt/python/momentumopt/kinoptpy/inverse_kinematics.py:PointContactInverseKinematics.compute"]}
{"id": "C133", "title": "Inverse kinematics does not depend on earlier calls", "statement": "The result of PointContactInverseKinematics.compute depends only on its arguments and the gains: after any sequence of calls to compute and forward_robot it equals the result of a fresh object, although the cached kinematics are not always recomputed, and the current velocity has no influence.", "quantifier": "all call histories", "why_tests_cant": "caching bugs show up only for particular histories", "anchors": ["momentumopt/python/momentumopt/kinoptpy/inverse_kinematics.py:PointContactInverseKinematics.compute", "momentumopt/python/momentumopt/kinoptpy/inverse_kinematics.py:PointContactInverseKinematics.forward_robot"]}
{"id": "C134", "title": "Kinematic trajectory follows from the plan step by step", "statement": "MomentumKinematicsOptimizer.optimize records one row per time step; the first is the initial configuration at rest; each configuration is the previous one integrated over one time step with the recorded velocity; each velocity after a step in contact is the best tracking velocity at the previous configuration for the references of that step of the dynamics plan.", "quantifier": "all robots, plans, horizons, nonnegative weights", "why_tests_cant": "holds for every time step of every horizon; off-by-one errors in the pairing of references and states", "anchors": ["momentumopt/python/momentumopt/kinoptpy/momentum_kinematics_optimizer.py:MomentumKinematicsOptimizer.optimize"]}
{"id": "C135", "title": "Ballistic momentum in flight phases", "statement": "During a flight phase the commanded velocities have constant horizontal linear momentum and angular momentum (those of the last velocity in contact) and vertical momentum decreasing by robot weight times time step in every step.", "quantifier": "all plans and all flight phases of any length", "why_tests_cant": "arbitrary length of the flight phase, in-place updates of shared arrays", "anchors": ["momentumopt/python/momentumopt/kinoptpy/momentum_kinematics_optimizer.py:MomentumKinematicsOptimizer.optimize"]}
{"id": "C136", "title": "Kinematics optimization returns for every plan", "statement": "MomentumKinematicsOptimizer.optimize returns a motion for every contact plan, including plans in which the first time step has no contact.", "quantifier": "all plans", "why_tests_cant": "depends on the order of contact and flight phases", "anchors": ["momentumopt/python/momentumopt/kinoptpy/momentum_kinematics_optimizer.py:MomentumKinematicsOptimizer.optimize"]}
{"id": "C137", "title": "Dynamics data kept by the kinematics optimizer stay those of the plan", "statement": "After optimize the arrays com_dyn, lmom_dyn, amom_dyn hold the centroidal trajectories of the dynamics plan.", "quantifier": "all plans", "why_tests_cant": "aliasing of numpy views, only with flight phases", "anchors": ["momentumopt/python/momentumopt/kinoptpy/momentum_kinematics_optimizer.py:MomentumKinematicsOptimizer.fill_data_from_dynamics", "momentumopt/python/momentumopt/kinoptpy/momentum_kinematics_optimizer.py:MomentumKinematicsOptimizer.optimize"]}
{"id": "C138", "title": "Kinematics optimization depends on its arguments only", "statement": "The motion computed by MomentumKinematicsOptimizer.optimize depends on the initial state and dynamics plan given to it and not on earlier calls.", "quantifier": "all histories of calls", "why_tests_cant": "needs all histories", "anchors": ["momentumopt/python/momentumopt/kinoptpy/momentum_kinematics_optimizer.py:MomentumKinematicsOptimizer.optimize"]}
{"id": "C139", "title": "Recorded kinematic results are consistent", "statement": "In every recorded row the centre of mass, momentum, end-effector positions and end-effector velocities are those of the recorded configuration and velocity.", "quantifier": "all robots, plans, time steps", "why_tests_cant": "stale Jacobians are invisible when the robot stands still", "anchors": ["momentumopt/python/momentumopt/kinoptpy/momentum_kinematics_optimizer.py:MomentumKinematicsOptimizer.fill_kinematic_result"]}
{"id": "C140", "title": "Messages of the search for the initial configuration are truthful", "statement": "optimize_initial_position prints 'Found initial configuration' only if the last step was shorter than 1e-3 and 'Failed to converge' exactly when no such step was found, for every iteration budget.", "quantifier": "all robots, initial states, iteration budgets", "why_tests_cant": "boundary cases of the budget", "anchors": ["momentumopt/python/momentumopt/kinoptpy/momentum_kinematics_optimizer.py:MomentumKinematicsOptimizer.optimize_initial_position"]}
{"id": "C141", "title": "Interpolated plan quantities are piecewise linear through the plan's samples", "statement": "For any non-empty strictly increasing time vector the functions returned by desired_state and interpolate never raise; before the first and after the last time they give the first and last sample, between two neighbouring times the linear interpolant of the two samples. Hence samples are hit exactly and bounds met by all samples are met at every time.", "quantifier": "all time vectors, samples and evaluation times", "why_tests_cant": "nearest-index search with boundary cases at midpoints, sample times and both ends", "anchors": ["momentumopt/python/momentumopt/motion_execution.py:desired_state", "momentumopt/python/momentumopt/motion_execution.py:interpolate"]}
{"id": "C142", "title": "The time vector accumulates the durations of the time steps", "statement": "create_time_vector returns one entry per dynamics state; entry i is the sum of the durations of the states before i, so it starts at 0, and it is strictly increasing when all durations are positive.", "quantifier": "all sequences of durations", "why_tests_cant": "all horizons", "anchors": ["momentumopt/python/momentumopt/motion_planner.py:create_time_vector"]}
{"id": "C143", "title": "Files of create_file sample the plan every millisecond", "statement": "Each file has one row per millisecond up to the end of the plan to within half a millisecond, every row lies within the plan, row i holds the interpolated quantity at i ms (forces times the robot weight), and exported base orientations are unit quaternions.", "quantifier": "all plans", "why_tests_cant": "rounding of the number of rows, all time vectors; norms only fail between samples", "anchors": ["momentumopt/python/momentumopt/kinoptpy/create_data_file.py:create_file"]}
{"id": "C144", "title": "Files of create_qp_files and create_lqr_files hold the right quantities of the right legs", "statement": "Blocks of the rows belong to the legs in the controller's order FL, FR, HL, HR; quadruped_positions.dat and quadruped_velocities.dat hold joint positions and joint velocities; the velocity of the centre of mass is linear momentum over mass; centroidal forces and moments are the totals over the end-effectors; the rows cover the plan and repeat the last sample afterwards; both exporters use the same leg order.", "quantifier": "all plans, rows and legs", "why_tests_cant": "a permutation mistake is invisible for symmetric motions; all rows", "anchors": ["momentumopt/python/momentumopt/kinoptpy/create_data_file.py:create_qp_files", "momentumopt/python/momentumopt/kinoptpy/create_data_file.py:create_lqr_files", "momentumopt/python/momentumopt/motion_execution.py:interpolate"]}
{"id": "C145", "title": "Simulator maps joints and frames consistently", "statement": "For every order of the joint names: after reset_state(q, dq), get_state returns q and dq; and send_joint_command gives each joint the torque computed for it.", "quantifier": "all joint orders, configurations, velocities, torques", "why_tests_cant": "some permutations hide index mistakes (every involution)", "anchors": ["momentumopt/python/momentumopt/robots/simulator.py:Simulator.reset_state", "momentumopt/python/momentumopt/robots/simulator.py:Simulator.get_state", "momentumopt/python/momentumopt/robots/simulator.py:Simulator.send_joint_command"]}
{"id": "C146", "title": "The executor applies the planned forces of the current time step", "statement": "At time t of the control loop the executor uses the planned forces of the first time step of the plan whose time is not before t, and runs to its end for every plan.", "quantifier": "all time vectors and passes of the loop", "why_tests_cant": "depends on the duration of every time step and on the plan's length", "anchors": ["momentumopt/python/momentumopt/motion_execution.py:MotionExecutor.execute_motion"]}
{"id": "C147", "title": "Momentum feedback uses the velocity of the robot", "statement": "In every pass of the control loop the momentum fed back is computed from the configuration change since the previous pass divided by the time since the previous pass.", "quantifier": "all passes of the loop", "why_tests_cant": "the mistake grows with the number of passes", "anchors": ["momentumopt/python/momentumopt/motion_execution.py:MotionExecutor.execute_motion", "momentumopt/python/momentumopt/motion_execution.py:MotionExecutor.calculate_momentum"]}
{"id": "C148", "title": "Commanded torques respect the limits", "statement": "limit_torques returns, entry by entry, the given torque if it lies within the limits and the nearer limit otherwise.", "quantifier": "all torques and limits in order", "why_tests_cant": "all inputs, order of the two masked assignments", "anchors": ["momentumopt/python/momentumopt/motion_execution.py:MotionExecutor.limit_torques"]}
{"id": "C149", "title": "Recorded swing times are the swing phases", "statement": "For every sequence of force readings the swing times recorded for an end-effector are the maximal runs of unloaded readings, and every swing phase is recorded.", "quantifier": "all sequences of readings", "why_tests_cant": "all histories of contact readings", "anchors": ["momentumopt/python/momentumopt/motion_execution.py:MotionExecutor.execute_motion", "momentumopt/python/momentumopt/robots/simulator.py:Simulator.get_force"]}
{"id": "C150", "title": "Exported contact flags agree with the planned contact phases", "statement": "quadruped_contact_activation.dat flags a leg as in contact in a row exactly when the plan has that leg in contact during the time step the row belongs to.", "quantifier": "all plans, rows, legs", "why_tests_cant": "only visible at transitions between phases", "anchors": ["momentumopt/python/momentumopt/kinoptpy/create_data_file.py:create_qp_files"]}
{"id": "C151", "title": "The weighted second-order step is the optimal acceleration", "statement": "With nonnegative weights and use_hierarchy off, step returns for every state and reference, and the acceleration it returns is the unique minimiser of the weighted squared errors of momentum rates, end-effector accelerations (including the velocity dependent terms) and joint accelerations against their feedback laws.", "quantifier": "all robots, states, references, gains, nonnegative weights", "why_tests_cant": "optimality and uniqueness over all accelerations", "anchors": ["momentumopt/python/momentumopt/kinoptpy/second_order_ik.py:SecondOrderInverseKinematics.step", "momentumopt/python/momentumopt/kinoptpy/second_order_ik.py:SecondOrderInverseKinematics.update_des_acc", "momentumopt/python/momentumopt/kinoptpy/second_order_ik.py:SecondOrderInverseKinematics.fill_weights", "momentumopt/python/momentumopt/kinoptpy/second_order_ik.py:SecondOrderInverseKinematics.update_kinematics"]}
{"id": "C152", "title": "The hierarchical second-order step respects the priorities", "statement": "With use_hierarchy on, the acceleration returned by step minimises the squared error of the end-effector accelerations, and among all accelerations that do so it minimises the squared error of the momentum rates, for every robot.", "quantifier": "all robots, states, references", "why_tests_cant": "lexicographic optimality; the row range is hard coded", "anchors": ["momentumopt/python/momentumopt/kinoptpy/second_order_ik.py:SecondOrderInverseKinematics.step"]}
{"id": "C153", "title": "The second-order inverse kinematics follows the whole plan in time", "statement": "For every time step dt and number of steps, solve returns one row per time step, the first the initial state, each following one the state after simulating dt from the row before under the accelerations of step for the references at the time of the plan.", "quantifier": "all time steps, plans, robots", "why_tests_cant": "depends on the ratio of dt to the internal step of 1 ms", "anchors": ["momentumopt/python/momentumopt/kinoptpy/second_order_ik.py:SecondOrderInverseKinematics.solve"]}
{"id": "C154", "title": "Rows of the second-order inverse kinematics are consistent", "statement": "Every row returned by solve, and every kinematics state stored by optimize from it, holds the centre of mass, momentum, end-effector positions and end-effector velocities of the configuration and velocity in that row.", "quantifier": "all robots, plans, rows", "why_tests_cant": "stale Jacobians are invisible when the robot does not move", "anchors": ["momentumopt/python/momentumopt/kinoptpy/second_order_ik.py:SecondOrderInverseKinematics.solve", "momentumopt/python/momentumopt/kinoptpy/momentum_kinematics_optimizer.py:MomentumKinematicsOptimizer.optimize", "momentumopt/python/momentumopt/kinoptpy/momentum_kinematics_optimizer.py:MomentumKinematicsOptimizer.fill_kinematic_result"]}
{"id": "C155", "title": "The stored LQR gains are the optimal feedback", "statement": "For a positive semidefinite state weight and a positive definite control weight, lqr_backward_pass returns one gain per time step with a successor, and from every time step on feedback with these gains is the unique cheapest control of the linearised, discretised system for the rest of the horizon.", "quantifier": "all horizons, system matrices, weights, states, control sequences", "why_tests_cant": "optimality over all control sequences", "anchors": ["momentumopt/python/momentumopt/kinoptpy/end_eff_lqr_gain_computation.py:end_effector_lqr.lqr_backward_pass", "momentumopt/python/momentumopt/kinoptpy/end_eff_lqr_gain_computation.py:end_effector_lqr.compute_lqr_gains", "momentumopt/python/momentumopt/kinoptpy/end_eff_lqr_gain_computation.py:end_effector_lqr.descretise_dynamics"]}
{"id": "C156", "title": "The rows of the centroidal gains belong to the rows of the trajectory", "statement": "lqr_backward_pass of centroidal_lqr returns a gain for every time step of the trajectory that has a successor, row i belonging to time step i.", "quantifier": "all horizons and trajectories", "why_tests_cant": "an off-by-one in the loop range", "anchors": ["momentumopt/python/momentumopt/kinoptpy/lqr_gain_computation.py:centroidal_lqr.lqr_backward_pass"]}
{"id": "C157", "title": "The analytic linearisation is the derivative of the centroidal dynamics", "statement": "The matrices of analytical_lin_dyn are the derivatives of compute_dyn in state and wrench at every state.", "quantifier": "all states, wrenches, directions", "why_tests_cant": "derivatives at every orientation", "anchors": ["momentumopt/python/momentumopt/kinoptpy/lqr_gain_computation.py:centroidal_lqr.analytical_lin_dyn", "momentumopt/python/momentumopt/kinoptpy/lqr_gain_computation.py:centroidal_lqr.compute_dyn"]}
{"id": "C158", "title": "The end-effector dynamics use the right moments and inertia", "statement": "compute_dyn of end_effector_lqr gives the angular acceleration for which the inertia, turned into the world frame, times the acceleration is the sum of the moments of the forces about the centre of mass.", "quantifier": "all states, contact positions and forces", "why_tests_cant": "signs and frames for every lever arm and orientation", "anchors": ["momentumopt/python/momentumopt/kinoptpy/end_eff_lqr_gain_computation.py:end_effector_lqr.compute_r_cross", "momentumopt/python/momentumopt/kinoptpy/end_eff_lqr_gain_computation.py:end_effector_lqr.compute_dyn"]}
{"id": "C159", "title": "The shipped script stores a stabilising feedback", "statement": "Running lqr_gain_computation.py on a trajectory stores gains that react to deviations of the state.", "quantifier": "all trajectories", "why_tests_cant": "must hold for every trajectory", "anchors": ["momentumopt/python/momentumopt/kinoptpy/lqr_gain_computation.py:Q", "momentumopt/python/momentumopt/kinoptpy/lqr_gain_computation.py:centroidal_lqr.lqr_backward_pass"]}
{"id": "C160", "title": "The gain files hold the gains row by row", "statement": "File l of the stored gains holds in row i, column 13 a + b (a < 3), entry (3 l + a, b) of the gain of row i, and its rows have 39 numbers.", "quantifier": "all gain sequences, rows, columns", "why_tests_cant": "index arithmetic for all entries", "anchors": ["momentumopt/python/momentumopt/kinoptpy/lqr_gain_computation.py:centroidal_lqr.store_lqr_gains", "momentumopt/python/momentumopt/kinoptpy/end_eff_lqr_gain_computation.py:end_effector_lqr.store_lqr_gains"]}
{"id": "C161", "title": "The finite differences of the end-effector version are derivatives", "statement": "compute_lin_dyn returns the partial derivatives of the position, velocity and quaternion rows of compute_dyn and the exact effect of a change of the forces, whatever the distance to the next sample.", "quantifier": "all pairs of samples", "why_tests_cant": "the step is the distance to the next sample, not small", "anchors": ["momentumopt/python/momentumopt/kinoptpy/end_eff_lqr_gain_computation.py:end_effector_lqr.compute_lin_dyn", "momentumopt/python/momentumopt/kinoptpy/end_eff_lqr_gain_computation.py:end_effector_lqr.compute_dyn"]}
{"id": "C162", "title": "The linearised angular acceleration depends on the centre of mass", "statement": "The linearisation of the end-effector version reflects that moving the centre of mass changes the moment of the contact forces.", "quantifier": "all samples with a supporting force", "why_tests_cant": "a missing derivative for all samples", "anchors": ["momentumopt/python/momentumopt/kinoptpy/end_eff_lqr_gain_computation.py:end_effector_lqr.compute_lin_dyn", "momentumopt/python/momentumopt/kinoptpy/end_eff_lqr_gain_computation.py:end_effector_lqr.compute_dyn"]}
{"id": "C163", "title": "Quaternion products and rotation matrices of the manifold class agree", "statement": "quaternion_product is the Hamilton product, quaternion_to_rotation rotates vectors as conjugation by the quaternion does, and for unit quaternions gives rotation matrices that multiply like the quaternions.", "quantifier": "all quaternions and vectors", "why_tests_cant": "an identity over all real arguments", "anchors": ["momentumopt/python/momentumopt/kinoptpy/lqr_gain_manifold.py:CentroidalLqr.quaternion_product", "momentumopt/python/momentumopt/kinoptpy/lqr_gain_manifold.py:CentroidalLqr.quaternion_to_rotation"]}
{"id": "C164", "title": "exp_quaternion is the exponential map", "statement": "exp_quaternion of a vector is the exponential of the pure quaternion of that vector, a unit quaternion.", "quantifier": "all vectors", "why_tests_cant": "two branches, all real arguments", "anchors": ["momentumopt/python/momentumopt/kinoptpy/lqr_gain_manifold.py:CentroidalLqr.exp_quaternion"]}
{"id": "C165", "title": "integrate_step is an Euler step of the Newton-Euler equations", "statement": "integrate_step advances position, velocity, orientation and angular velocity by one explicit Euler step of rigid-body motion under gravity and the wrench, the wrench acting only during contact, and fails only for a zero quaternion.", "quantifier": "all states, wrenches and contact flags", "why_tests_cant": "an equation over all real states", "anchors": ["momentumopt/python/momentumopt/kinoptpy/lqr_gain_manifold.py:CentroidalLqr.integrate_step"]}
{"id": "C166", "title": "The reference trajectory keeps unit quaternions", "statement": "compute_trajectory_from_controls produces unit quaternions at every step from a unit initial quaternion and never fails.", "quantifier": "all initial states, wrench sequences, contact plans and steps", "why_tests_cant": "drift over any number of steps", "anchors": ["momentumopt/python/momentumopt/kinoptpy/lqr_gain_manifold.py:CentroidalLqr.compute_trajectory_from_controls", "momentumopt/python/momentumopt/kinoptpy/lqr_gain_manifold.py:CentroidalLqr.integrate_quaternion"]}
{"id": "C167", "title": "quaternion_difference and integrate_quaternion are inverse to each other", "statement": "For unit quaternions, integrating the difference from the first gives the second, and the difference to an integrated quaternion is the vector integrated.", "quantifier": "all unit quaternions and vectors of less than a full turn", "why_tests_cant": "inverse functions over all reals", "anchors": ["momentumopt/python/momentumopt/kinoptpy/lqr_gain_manifold.py:CentroidalLqr.quaternion_difference", "momentumopt/python/momentumopt/kinoptpy/lqr_gain_manifold.py:CentroidalLqr.integrate_quaternion", "momentumopt/python/momentumopt/kinoptpy/lqr_gain_manifold.py:CentroidalLqr.log_quaternion"]}
{"id": "C168", "title": "The difference of states depends on the orientations only", "statement": "diff_x gives the same difference for quaternions describing the same orientation.", "quantifier": "all pairs of unit quaternions", "why_tests_cant": "double cover of the rotations", "anchors": ["momentumopt/python/momentumopt/kinoptpy/lqr_gain_manifold.py:CentroidalLqr.quaternion_difference", "momentumopt/python/momentumopt/kinoptpy/lqr_gain_manifold.py:CentroidalLqr.diff_x"]}
{"id": "C169", "title": "dynamics_derivatives returns the derivatives of the step", "statement": "The matrices of dynamics_derivatives are the difference quotients of the next state by state and wrench.", "quantifier": "all states, wrenches, contact flags", "why_tests_cant": "sign and order of arguments for all entries", "anchors": ["momentumopt/python/momentumopt/kinoptpy/lqr_gain_manifold.py:CentroidalLqr.dynamics_derivatives"]}
{"id": "C170", "title": "cost_dxdx returns the second derivatives of the cost", "statement": "The matrix of cost_dxdx is the matrix of second differences of the cost.", "quantifier": "all states, weights, entries", "why_tests_cant": "state left over between loop iterations", "anchors": ["momentumopt/python/momentumopt/kinoptpy/lqr_gain_manifold.py:CentroidalLqr.cost_dxdx"]}
{"id": "C171", "title": "compute_value_function minimises over the wrench", "statement": "The gains of compute_value_function give the minimiser of the quadratic function of the wrench in every state, and the stored value function is the cost under these gains.", "quantifier": "all quadratic functions and states", "why_tests_cant": "both branches, all real matrices", "anchors": ["momentumopt/python/momentumopt/kinoptpy/lqr_gain_manifold.py:CentroidalLqr.compute_value_function", "momentumopt/python/momentumopt/kinoptpy/lqr_gain_manifold.py:CentroidalLqr._smooth_inv"]}
{"id": "C172", "title": "compute_gains solves the linear-quadratic problem of the plan", "statement": "The gains of compute_gains give the controls of least total cost for the linearised dynamics and the quadratic costs, from every initial deviation.", "quantifier": "all plans, horizons, initial deviations, control sequences", "why_tests_cant": "optimality over all control sequences of any length", "anchors": ["momentumopt/python/momentumopt/kinoptpy/lqr_gain_manifold.py:CentroidalLqr.compute_gains", "momentumopt/python/momentumopt/kinoptpy/lqr_gain_manifold.py:CentroidalLqr.compute_Q"]}
{"id": "C173", "title": "No feedback in flight", "statement": "compute_gains stores one gain matrix per time step but the last; that of a step without contact is zero.", "quantifier": "all plans and steps", "why_tests_cant": "every plan and step", "anchors": ["momentumopt/python/momentumopt/kinoptpy/lqr_gain_manifold.py:CentroidalLqr.compute_gains", "momentumopt/python/momentumopt/kinoptpy/lqr_gain_manifold.py:CentroidalLqr.switching_dynamics"]}
{"id": "C174", "title": "Gains depend on the future only", "statement": "The gains stored for a step depend only on what the plan prescribes from that step on.", "quantifier": "all pairs of plans that agree from a step on", "why_tests_cant": "relates two runs", "anchors": ["momentumopt/python/momentumopt/kinoptpy/lqr_gain_manifold.py:CentroidalLqr.compute_gains"]}
{"id": "C175", "title": "Loading a contact plan", "statement": "After a successful load the contact sequence holds exactly the contacts of the file, end-effector by end-effector in order, with consecutive identifiers from zero, and the number of contacts equals their number; nothing of an earlier plan survives.", "quantifier": "all numbers of end-effectors, plans of any length, previous contents", "why_tests_cant": "any plan length and any previous contents", "anchors": ["momentumopt/src/momentumopt/cntopt/ContactState.cpp:ContactSequence::loadFromFile", "momentumopt/src/momentumopt/cntopt/ContactState.cpp:ContactState::ContactState"]}
{"id": "C176", "title": "A failed load of a contact plan leaves the sequence consistent", "statement": "When a contact plan cannot be read the sequence is as before the call.", "quantifier": "all files and previous contents", "why_tests_cant": "every point at which reading may fail", "anchors": ["momentumopt/src/momentumopt/cntopt/ContactState.cpp:ContactSequence::loadFromFile"]}
{"id": "C177", "title": "Placement of a contact is set and read consistently", "statement": "Setting the placement of a contact to a rigid transform and reading it back gives that transform; setting the placement of another contact copies position and orientation up to the sign of the quaternion.", "quantifier": "all rigid transforms and unit quaternions", "why_tests_cant": "case distinction in the conversion over a continuum", "anchors": ["momentumopt/src/momentumopt/cntopt/ContactState.cpp:ContactState::contactPlacement", "momentumopt/include/momentumopt/cntopt/ContactState.hpp:ContactState"]}
{"id": "C178", "title": "Placement of a contact read from a file is rigid", "statement": "The rotation part of the placement of every contact read from a file is a rotation.", "quantifier": "all parameter rows", "why_tests_cant": "all real orientation entries", "anchors": ["momentumopt/src/momentumopt/cntopt/ContactState.cpp:ContactState::ContactState", "momentumopt/src/momentumopt/cntopt/ContactState.cpp:ContactState::contactPlacement"]}
{"id": "C179", "title": "Initial robot state from file", "statement": "fillInitialRobotState gives the state the values of the file for centre of mass, momenta and all end-effectors, or reports that it cannot.", "quantifier": "all files, numbers of end-effectors and previous states", "why_tests_cant": "every entry and every point at which reading may fail", "anchors": ["momentumopt/src/momentumopt/dynopt/DynamicsState.cpp:DynamicsState::fillInitialRobotState"]}
{"id": "C180", "title": "Generalised coordinates are the concatenation of their parts", "statement": "The generalised positions are base position, base orientation (in the order of the Python attribute) and joints; base and joint velocities and accelerations are independent parts of one vector, and what is set is what is read.", "quantifier": "all postures and velocities of any number of joints", "why_tests_cant": "all sizes and values", "anchors": ["momentumopt/include/momentumopt/kinopt/KinematicsState.hpp:RobotPosture", "momentumopt/include/momentumopt/kinopt/KinematicsState.hpp:RobotVelocity"]}
{"id": "C181", "title": "Python setters of a dynamics state change what they name", "statement": "setEffPosition, setEffForce, setEffTorque and setEffActivation set that quantity of that end-effector and nothing else.", "quantifier": "all states, end-effectors and values", "why_tests_cant": "frame condition over all states", "anchors": ["momentumopt/srcpy/momentumopt/dynopt/PyDynamics.cpp:DynamicsState"]}
{"id": "C182", "title": "optimize_motion alternates the two optimisers", "statement": "With n kinematic-dynamic iterations n kinematic and n+1 dynamic plans are made in alternation, each from the latest other one, the first dynamic plan without tracking; the last ones are returned and the feedback belongs to the returned dynamic plan.", "quantifier": "all numbers of iterations and behaviours of the optimisers", "why_tests_cant": "any number of iterations, arbitrary optimisers", "anchors": ["momentumopt/python/momentumopt/motion_planner.py:MotionPlanner.optimize_motion", "momentumopt/python/momentumopt/motion_planner.py:MotionPlanner.optimize_dynamics", "momentumopt/python/momentumopt/motion_planner.py:MotionPlanner.optimize_kinematics"]}
{"id": "C183", "title": "Command line of the planner", "statement": "The last file and robot named on the command line are used; feedback gains are computed unless --disable_lqr is given.", "quantifier": "all command lines", "why_tests_cant": "all argument lists, abbreviations of options included", "anchors": ["momentumopt/python/momentumopt/kino_dyn_planner.py:parse_arguments"]}
{"id": "C184", "title": "Initial configuration of the robot wrappers is the same for every leg", "statement": "The initial configuration puts every hip to minus half the given angle and every knee to the angle.", "quantifier": "all robots, legs and angles", "why_tests_cant": "all angles; slices of all robots", "anchors": ["momentumopt/python/momentumopt/robots/blmc_robot_wrapper.py", "momentumopt/python/momentumopt/kinoptpy/momentum_kinematics_optimizer.py"]}
{"id": "C185", "title": "Floor constraints of the kinematics interface", "statement": "The inequality rows a kinematics interface hands to the C++ optimiser say that no end-effector is predicted below the floor.", "quantifier": "all robots, configurations, joint velocities", "why_tests_cant": "all configurations of all robots", "anchors": ["momentumopt/python/momentumopt/PinocchioKinematicsInterface.py:PinocchioKinematicsInterface.updateJacobiansAndState", "momentumopt/srcpy/momentumopt/kinopt/PyKinematics.cpp:KinematicsInterface"]}
{"id": "C186", "title": "Wrapper jacobians are expressed in the world axes", "statement": "The translation and rotation jacobians of the robot wrapper map every joint velocity to linear and angular velocity of the frame in world axes.", "quantifier": "all robots, configurations, joint velocities", "why_tests_cant": "all configurations and velocities", "anchors": ["momentumopt/python/momentumopt/robots/blmc_robot_wrapper.py:get_world_oriented_frame_jacobian"]}
{"id": "C187", "title": "Frame placement belongs to the configuration set", "statement": "After set_configuration(q) the placement of a frame is the one at q, and a jacobian asked for at q is the one at q.", "quantifier": "all robots and histories of calls", "why_tests_cant": "histories of calls", "anchors": ["momentumopt/python/momentumopt/robots/blmc_robot_wrapper.py:get_transformation", "momentumopt/python/momentumopt/robots/blmc_robot_wrapper.py:set_configuration"]}
{"id": "C188", "title": "Feed-forward torques do the work of the planned forces", "statement": "In every pass of the execution the torque sent for a planned contact force does the same work as the force at the measured configuration.", "quantifier": "all robots, forces, velocities, measured configurations, passes", "why_tests_cant": "all trajectories of the robot", "anchors": ["momentumopt/python/momentumopt/motion_execution.py:MotionExecutor.execute_motion"]}
{"id": "C189", "title": "Recorded contact forces", "statement": "The contact force recorded for a foot is the total force measured at that foot.", "quantifier": "all lists of contact points", "why_tests_cant": "any number of contact points in any order", "anchors": ["momentumopt/python/momentumopt/robots/simulator.py:Simulator.get_force"]}
{"id": "C190", "title": "Drawing helpers of the planner", "statement": "quat2mat gives the rotation of the quaternion, the contact surface drawn lies in the plane of the contact and the time steps drawn add up to the times.", "quantifier": "all quaternions, planes, sequences of times", "why_tests_cant": "continuum of inputs, any length", "anchors": ["momentumopt/python/momentumopt/helpers.py:quat2mat", "momentumopt/python/momentumopt/helpers.py"]}
{"id": "C191", "title": "Weighted norm of a list", "statement": "norm of a list of vectors is the weighted sum of the norms; it is zero exactly when all vectors with a weight above 1e-5 vanish.", "quantifier": "all lists and weights", "why_tests_cant": "lists of any length", "anchors": ["momentumopt/python/momentumopt/kinoptpy/utils.py:norm"]}
{"id": "C192", "title": "Branching restricts exactly the chosen binaries", "statement": "At every node of branch and bound the relaxation that is solved admits exactly the feasible points of the original relaxation whose decided binary variables have the decided values, with the same cost; this is true both when decisions are written into the solver's (equilibrated) data and when the problem is rebuilt with new bounds, and a new search starts from the undecided problem whatever an earlier one left behind.", "quantifier": "all programs against the modelling API, all decisions, all points, any number of equilibration rounds", "why_tests_cant": "programs, decisions and points are unbounded", "anchors": ["solver/src/solver/optimizer/BnBSolver.cpp:updateProblemData", "solver/src/solver/optimizer/NcvxBnBSolver.cpp:updateProblemData", "solver/src/solver/optimizer/IPSolver.cpp:updateEquilH"]}
{"id": "C193", "title": "Branch and bound compares objective values", "statement": "The number by which branch and bound ranks solutions is the objective of the problem at the solution.", "quantifier": "all problems, equilibrations and solutions", "why_tests_cant": "continuum of problems", "anchors": ["solver/src/solver/optimizer/BnBSolver.cpp:updateNodeBounds", "solver/src/solver/optimizer/EqRoutine.cpp:ruizEquilibration"]}
{"id": "C194", "title": "Optimal for a mixed-binary problem means feasible, integral and near-optimal", "statement": "If optimising a problem with binary variables ends with exit code Optimal, the returned point satisfies the user's constraints, its binaries are 0 or 1 up to the tolerance, and no integral point satisfying the constraints has an objective smaller by more than the configured gap; exit code PrimalInf means there is no such point.", "quantifier": "all programs against the modelling API with binary variables, all settings", "why_tests_cant": "unbounded programs and search trees", "anchors": ["solver/src/solver/optimizer/BnBSolver.cpp:optimize", "solver/src/solver/interface/Model.cpp:optimize"]}
{"id": "C195", "title": "The real-time QP has exactly the constraints handed over since the reset", "statement": "After reset(n,..) and any sequence of appendEqualities / appendInequalities calls with n columns (with or without a constant vector), the objective and the solution are zero, a point satisfies the equalities of the problem iff mat*x+vec = 0 (mat*x = 0 without vector) for every block appended, and the inequalities iff mat*x+vec <= 0 for every block; nothing of the previous problem survives either reset.", "quantifier": "all dimensions, all sequences of calls, all contents of the memory handed out by the resizes", "why_tests_cant": "The first append replaces the matrix, later ones resize and copy into it; only a proof over all sequences excludes stale or uninitialised rows.", "anchors": ["solver/include/solver/rt_optimizer/RtQPSolverInterface.hpp: reset, appendEqualities, appendInequalities", "solver/include/solver/rt_optimizer/RtMatrix.hpp: RtAffineUtils::append"]}
{"id": "C196", "title": "checkSolution of the real-time QP accepts exactly the points feasible up to the thresholds", "statement": "checkSolution(print, t, s) returns true iff the Euclidean length of Eq*x+e is at most t and that of the positive part of Ineq*x+i at most s; with zero thresholds that is feasibility, every feasible point is accepted for any thresholds, and an accepted point violates no row by more than the threshold. The report shows the objective x'Hx+2g'x and these two lengths, and is left out exactly when it is not requested and the point is accepted or the solver was not successful. Acceptance says nothing about optimality.", "quantifier": "all problems, solutions and non-negative thresholds", "why_tests_cant": "Tests compare single solutions; the equivalence ranges over all problems.", "anchors": ["solver/include/solver/rt_optimizer/RtQPSolverInterface.hpp: checkSolution"]}
{"id": "C197", "title": "computeOptimalityCondition of the real-time QP is zero exactly at the solutions", "statement": "The measure returned by computeOptimalityCondition is zero at every minimiser of the QP and only there. (The first half holds; zero means only that no point with the same values of the nearly active inequalities is better, so that a feasible point at an active inequality whose multiplier has the wrong sign gets zero as well.)", "quantifier": "all symmetric H, all constraints, all feasible points, any least squares solver", "why_tests_cant": "The measure drops the signs of the multipliers; no sample of optimal points shows that.", "anchors": ["solver/include/solver/rt_optimizer/RtQPSolverInterface.hpp: computeOptimalityCondition"]}
{"id": "C198", "title": "computeSigmaPinv returns the pseudo-inverse of the singular values", "statement": "RtMatrixUtils::computeSigmaPinv fills the vector with 1/sv for the singular values above the threshold and 0 for all the others. (It stops at the first small one: later entries keep their old content, and the segment of the last line always ends one past the vector.)", "quantifier": "all sorted singular values, all previous contents of the vector", "why_tests_cant": "Matrices whose rank is short by at most one do not show it.", "anchors": ["solver/include/solver/rt_optimizer/RtMatrix.hpp: computeSigmaPinv"]}
{"id": "C199", "title": "conditionNumber bounds the amplification of relative errors", "statement": "For a matrix with full column rank conditionNumber(M) is the least number c with |M x| |y| <= c |M y| |x| for all x, y, and it is attained by two unit vectors; for a matrix with more columns than rows no number has this property.", "quantifier": "all matrices of full column rank and all pairs of vectors", "why_tests_cant": "Supremum over all pairs of vectors.", "anchors": ["solver/include/solver/rt_optimizer/RtMatrix.hpp: conditionNumber, conditionNumberFromSvd"]}
{"id": "C200", "title": "Arithmetic of control sequences", "statement": "For sequences u and v of equal length, u + a*v has the length of u, its feedforwards are u + a v and its feedbacks are those of v; scalar multiplication keeps the feedback and multiplies the feedforward; assigning a sequence makes an equal copy. (Assigning a sequence to itself sets every control to zero, and assigning an empty sequence reads a control that does not exist.)", "quantifier": "all control sequences, all scalars", "why_tests_cant": "Aliasing and all lengths.", "anchors": ["solver_lqr/src/solver_lqr/OcpDescription.cpp: ControlSequence::operator=, operator*, operator+, operator+="]}
{"id": "C201", "title": "initialize makes a fresh trajectory", "statement": "After OcpBase::initialize the state sequence has exactly tdim + 1 zero states and the control sequence tdim zero controls, whatever the problem was used for before. (A problem that is initialised again keeps all its old states in front of the new ones.)", "quantifier": "all horizons, dimensions and previous contents", "why_tests_cant": "History-dependent: the first call is right.", "anchors": ["solver_lqr/src/solver_lqr/OcpDescription.cpp: OcpBase::initialize, StateSequence::resize, ControlSequence::resize"]}
{"id": "C202", "title": "A solver can be given another problem", "statement": "After SolverLqr::initialize(ocp, ...) all parts of the solver - forward pass, backward pass and derivatives - work on ocp, whatever the solver was initialised with before. (The derivatives stay with the first problem for ever.)", "quantifier": "all sequences of calls of initialize", "why_tests_cant": "History-dependent: the first call is right.", "anchors": ["solver_lqr/src/solver_lqr/SolverLqr.cpp: SolverLqr::initialize", "solver_lqr/src/solver_lqr/FiniteDifferences.cpp: FiniteDifferences::initialize"]}
{"id": "C203", "title": "A stored LQR solution can be loaded", "statement": "storeSolution writes the states 0..tdim and feedforward and feedback of the controls 0..tdim-1; loadSolution of that file restores the trajectory. (Only the feedback is restored: states and feedforward stay as they are.)", "quantifier": "all trajectories and all horizons", "why_tests_cant": "Round trip over all trajectories.", "anchors": ["solver_lqr/src/solver_lqr/SolverLqr.cpp: SolverLqr::storeSolution, SolverLqr::loadSolution"]}
{"id": "C204", "title": "Order of the integration scheme", "statement": "With Runge-Kutta integration one step of a linear system x' = A x + B u agrees with the exact motion up to C h^5, without it up to C h^2, with a constant C independent of the step h; more precisely the error is at most K h^5/24 (K h^2) if K bounds the fifth (second) derivative of the exact motion over the step.", "quantifier": "all linear systems, all initial states, all constant controls, all steps", "why_tests_cant": "A limit statement over all step sizes.", "anchors": ["solver_lqr/src/solver_lqr/OcpDescription.cpp: OcpBase::internal_dynamics"]}
{"id": "C205", "title": "LbfgsSolver works on its own problem", "statement": "In every program that constructs, copies, destroys, initialises and uses LbfgsSolver objects, optimize of a solver minimises the problem, with the penalty weight and parameters, of that solver's last initialize, starting from the point the problem description gives; stores point and value in that description and touches nothing else; optimize of a solver that was never initialised does nothing. (False with copies: the copy evaluates the problem of the original, and after the original is destroyed it reads freed memory.)", "quantifier": "all histories of calls on any number of solvers and problem descriptions", "why_tests_cant": "Depends on the history of several objects; tests use one solver once.", "anchors": ["solver/src/solver/optimizer/LbfgsSolver.cpp: LbfgsSolver::LbfgsSolver, initialize, optimize, delegate_evaluate"]}
{"id": "C206", "title": "LbfgsSolver never returns a worse point", "statement": "After optimize the penalised objective at optimalVector() is not larger than at the starting point, however L-BFGS ended (the return code is not accessible); for a feasible start and a weight >= 0 the user's objective is not larger either; with parameters out of range or without variables the point is the starting point and the old value stays.", "quantifier": "all problem descriptions, weights, parameters and histories without copies", "why_tests_cant": "All objectives and all ways to stop, including failures.", "anchors": ["solver/src/solver/optimizer/LbfgsSolver.cpp: LbfgsSolver::optimize, lbfgs"]}
{"id": "C207", "title": "Meaning of the constraint penalty", "statement": "What LbfgsSolver minimises is the objective plus constraints_weight times the sum of the squared distances from the bounds; a minimiser is never worse than a feasible point, its violation is at most the gain in objective over any feasible point divided by the weight; raising the weight never increases the violation and never decreases the objective; a feasible minimiser solves the constrained problem.", "quantifier": "all problem descriptions with consistent bounds, all positive weights", "why_tests_cant": "A statement about all minimisers and all weights.", "anchors": ["solver/src/solver/optimizer/LbfgsSolver.cpp: LbfgsSolver::evaluate_objective_function"]}
{"id": "C208", "title": "Accuracy of the numerical gradient", "statement": "Every component of the gradient given to L-BFGS differs from the partial derivative at most by 2^-18 L if the derivative is L-Lipschitz along its coordinate and at most by 2^-34 M/6 if its derivative is M-Lipschitz along it.", "quantifier": "all differentiable objectives, all points", "why_tests_cant": "An error bound over a class of functions.", "anchors": ["solver/src/solver/optimizer/LbfgsSolver.cpp: LbfgsSolver::evaluate"]}
{"id": "C209", "title": "Success of L-BFGS on convex problems", "statement": "For a convex objective with L-Lipschitz partial derivatives, affine constraints with column norms^2 at most S and weight w >= 0: if L-BFGS ends with success or \"already minimized\", the penalised objective at the result exceeds that of any point y by at most (eps max(|x|,1) + sqrt(n) 2^-18 (L + 2w(1+S))) |x-y|, and the user's objective exceeds that of any feasible y by no more than that.", "quantifier": "all convex problems of that class, all starts, all parameters", "why_tests_cant": "Global optimality over all comparison points.", "anchors": ["solver/src/solver/optimizer/LbfgsSolver.cpp: LbfgsSolver::evaluate, evaluate_objective_function, lbfgs"]}
{"id": "C210", "title": "Sensitivity of the forward pass to the initial state", "statement": "If the user's dynamics increment changes by at most l times the change of the state, one integration step (Runge-Kutta or Euler) spreads two states by at most the factor exp(l); two forward passes with the same controls without feedback are at time t at most exp(t l) times as far apart as at the start, and states that miss each step by at most e stay within exp(t l)(d + t e).", "quantifier": "all dynamics with that bound, controls, limits, horizons and initial states", "why_tests_cant": "A bound over all trajectories and horizons.", "anchors": ["solver_lqr/src/solver_lqr/OcpDescription.cpp: OcpBase::internal_dynamics", "solver_lqr/src/solver_lqr/ForwardPass.cpp: applyController"]}
{"id": "C211", "title": "Accuracy of the forward pass over the whole horizon", "statement": "The states returned by the forward pass follow the motion of the differential equation under the controls returned (held over each step of length h): for a linear system with Runge-Kutta the error at time s is at most s exp(s a) K h^4/24 (a bounds A, K the fifth derivative), without it s exp(s a) K h; for any Lipschitz system Euler's error is at most s exp(s L) L M h.", "quantifier": "all linear (for Euler: all Lipschitz) systems, controllers, step lengths and horizons", "why_tests_cant": "An error bound over all systems and horizons.", "anchors": ["solver_lqr/src/solver_lqr/OcpDescription.cpp: OcpBase::internal_dynamics", "solver_lqr/src/solver_lqr/ForwardPass.cpp: applyController"]}
{"id": "C212", "title": "Interactive tuning sets exactly the gains typed", "statement": "For every dialogue (any number of joints, any wrong lines in between, empty lines to keep a gain, then stop) tunePD returns the gains typed for the joints typed, in order, and all other gains unchanged; whatever is typed, a changed gain is a number typed and the id of its joint was typed.", "quantifier": "all sequences of input lines", "why_tests_cant": "All dialogues of any length.", "anchors": ["momentumopt/python/momentumopt/motion_execution.py:MotionExecutor.tunePD", "momentumopt/python/momentumopt/motion_execution.py:query_gain_from_user"]}
{"id": "C213", "title": "Each joint is controlled with its own gains", "statement": "The P and D gain shown in the table (and chosen by name) for a joint is the one its torque is computed with. (False unless the controlled joints are listed in the order of pinocchio: the gains are in the order HL, HR, FL, FR, the errors in that of pinocchio; with FL, FR, HL, HR the damping of front and hind knees is exchanged.)", "quantifier": "all gains, errors and orders of joints", "why_tests_cant": "All assignments of joints to indices.", "anchors": ["momentumopt/python/momentumopt/motion_execution.py:MotionExecutor.execute_motion", "momentumopt/python/momentumopt/motion_execution.py:MotionExecutor.print_joint_gains"]}
{"id": "C214", "title": "Momentum reported by the executor", "statement": "Each row of the actual momentum is the centroidal momentum of the robot at the recorded configuration for the velocity since the sample before. (The first row is always zero, whatever the motion.)", "quantifier": "all recorded trajectories, sampling times and robot models", "why_tests_cant": "All trajectories and models.", "anchors": ["momentumopt/python/momentumopt/motion_execution.py:MotionExecutor.calculate_actual_trajectories"]}
{"id": "C215", "title": "Finite-difference derivatives of smooth problems are true derivatives nearby", "statement": "For continuously differentiable dynamics and objective every entry of the first derivatives computed by FiniteDifferences (fx, fu, cx, cu) equals the exact partial derivative of the integrated step, or of the objective, at a point that differs from the trajectory by less than the step 2^-17, and only in the entry differentiated.", "quantifier": "all state and control dimensions, smooth dynamics and objectives, both integrators, trajectories, times and entries", "why_tests_cant": "Tests compare with a tolerance on chosen linear or quadratic problems; the claim is about every smooth problem.", "anchors": ["solver_lqr/src/solver_lqr/FiniteDifferences.cpp"]}
{"id": "C216", "title": "Second finite differences are true second derivatives nearby", "statement": "For twice continuously differentiable problems every entry of the second differences of objective (cxx, cxu, cuu) and dynamics (fxx, fxu, fuu) equals the corresponding mixed second derivative at a point that differs from the trajectory by less than the step in each of the two entries differentiated; those of the dynamics are symmetric whatever the dynamics.", "quantifier": "all smooth problems, both integrators, trajectories, times and pairs of entries", "why_tests_cant": "Tests sample a few problems and points.", "anchors": ["solver_lqr/src/solver_lqr/FiniteDifferences.cpp"]}
{"id": "C217", "title": "Arithmetic of conic vectors", "statement": "For every cone without empty blocks: in sums and differences a scalar stands for that multiple of the identity of the cone, += agrees with + and - undoes it; the product is commutative, bilinear and has the identity as unit; u / w returns the vector whose product with u is w whenever u is well inside the cone (every residual above the threshold of the safe division).", "quantifier": "all cones, vectors and scalars", "why_tests_cant": "A test covers particular cones and vectors.", "anchors": ["solver/src/solver/interface/Cone.cpp"]}
{"id": "C218", "title": "The solver gets exactly the stated problem", "statement": "For every program of valid API calls, building the problem and handing it to the interior point solver never writes outside the matrices or vectors, and the sparse matrices and vectors of the solver are those of the standard form (equal products with every vector, equal right-hand sides and costs); duplicate coefficients are summed and no second-order cone is empty.", "quantifier": "all programs of API calls, all linearisation points, warm start or not", "why_tests_cant": "a test sees a few problem shapes; index arithmetic must be right for every mixture of constraints", "anchors": ["solver/src/solver/interface/Cone.cpp:SolverStorage::initialize,initializeMatrices", "solver/src/solver/interface/ConicProblem.cpp:buildProblem"]}
{"id": "C219", "title": "Optimal exit: the user's constraints hold up to the tolerance", "statement": "From API calls to answer: if the interior point solver reports an optimal (or inaccurately optimal) exit with an iterate inside the cones, the returned values satisfy every linear, quadratic, trust-region and second-order constraint the user stated up to an explicit multiple of (row scaling) x (feasibility tolerance) x (denominator of the residual test), and the binaries lie in the unit interval up to the same tolerance.", "quantifier": "all programs of API calls, all solver settings, all answers of the linear solver", "why_tests_cant": "tests check residuals on samples; the chain of transformations (squares to cones, equilibration, homogeneous scaling) must carry the bound for all problems", "anchors": ["solver/src/solver/interface/ConicProblem.cpp:solveProblem", "solver/src/solver/optimizer/IPSolver.cpp:optimize", "solver/src/solver/optimizer/EqRoutine.cpp:scaleVariables"]}
{"id": "C220", "title": "Optimal exit: the user's objective is nearly minimal", "statement": "Under the same conditions and with nonnegative weights, the value of the user's objective (with the penalties of soft constraints) at the returned point is at most that of any point satisfying the user's constraints, up to the relative error of the squares, the complementarity product and tolerance-sized multiples of the distance and of the multipliers.", "quantifier": "all programs of API calls with nonnegative weights, all competitors", "why_tests_cant": "no test can compare with every feasible point", "anchors": ["solver/src/solver/interface/ConicProblem.cpp:solveProblem,setObjective", "solver/src/solver/optimizer/IPSolver.cpp:optimize"]}
{"id": "C221", "title": "Infeasible exit: the user's constraints have no solution of moderate size", "statement": "If the solver reports (inaccurate) primal infeasibility with an iterate inside the cones, every point that satisfies the constraints of the user has only feasible extensions whose scaled norm exceeds the relative tolerance divided by the feasibility tolerance.", "quantifier": "all programs of API calls, all points", "why_tests_cant": "infeasibility is a statement about all points", "anchors": ["solver/src/solver/optimizer/IPSolver.cpp:convergenceCheck", "solver/src/solver/interface/ConicProblem.cpp:buildProblem"]}
{"id": "C222", "title": "Optimal exit: the plan of the dynamics optimiser meets limits and dynamics up to the tolerance", "statement": "From the settings of the dynamics optimiser to the plan: if the conic solver reports an (inaccurately) optimal exit with an iterate inside the cones, the returned plan satisfies every limit (height, horizon, durations, torque, center of pressure, friction, bounds on the squares, trust region, leg length) and the centroidal dynamics up to an explicit error built from the tolerance of the solver, and its cost is at most that of any plan that satisfies them exactly, up to the relative error of the squares, the gap of the solver and a multiple of the weights.", "quantifier": "all settings, contact plans, heuristics, starting sequences, solver settings, answers of the linear solver and competing plans", "why_tests_cant": "tests look at single plans; the composition of modelling, standard form, equilibration and interior point method must hold for all", "anchors": ["momentumopt/src/momentumopt/dynopt/DynamicsOptimizer.cpp:internalOptimize", "solver/src/solver/interface/ConicProblem.cpp:solveProblem", "solver/src/solver/optimizer/IPSolver.cpp:optimize"]}
{"id": "C223", "title": "Errors of the dynamics add up at most linearly", "statement": "With fixed timing, if the dynamics hold up to an error at every step, then at every step t the center of mass, linear and angular momentum differ from those obtained by integrating the planned momenta, forces and torques from the initial state by at most (t+1) times that error.", "quantifier": "all plans, horizons and errors", "why_tests_cant": "for every horizon", "anchors": ["momentumopt/src/momentumopt/dynopt/DynamicsOptimizer.cpp:internalOptimize"]}
{"id": "C224", "title": "Angular momentum of the trust-region heuristic against the true cross products", "statement": "With the trust-region heuristic and a cold start, the angular momentum of a plan that meets limits and dynamics up to an error differs from the one recomputed with the true cross products of lever arms and forces by at most an explicit bound that grows with the threshold, the solver error, the size of the bounds and the distance to the linearisation point.", "quantifier": "all plans, thresholds, errors and linearisation points", "why_tests_cant": "the bilinear term is replaced by a difference of convex squares; the error must be bounded at every point", "anchors": ["momentumopt/src/momentumopt/dynopt/DynamicsOptimizer.cpp:internalOptimize,updateTrackingObjective"]}
{"id": "C225", "title": "Optimal exit: the motion plan of the kinematics optimiser", "statement": "If the conic solver reports an (inaccurately) optimal exit with an iterate inside the cones, the motion plan returned satisfies the linearised kinematics, the ground and the joint limits up to the error of the solver, and its cost is at most that of any exact plan up to the relative error of the squares, the gap and a multiple of the weights.", "quantifier": "all settings, robots, sequences, solver settings, answers of the linear solver and competing plans", "why_tests_cant": "tests look at single plans", "anchors": ["momentumopt/src/momentumopt/kinopt/KinematicsOptimizer.cpp:optimizeTrajectory", "solver/src/solver/interface/ConicProblem.cpp:solveProblem"]}
{"id": "C226", "title": "Optimal exit: posture steps stay within joint limits without drift", "statement": "The same for every posture step; and if every call of the solver throws or returns a step that meets the constraints up to an error, the posture returned after any number of iterations is the one passed in or its joints are within their limits up to twice that error (errors of successive steps do not add up).", "quantifier": "all settings, robots, references, solvers and numbers of iterations", "why_tests_cant": "all histories of solver answers", "anchors": ["momentumopt/src/momentumopt/kinopt/KinematicsOptimizer.cpp:optimizePosture"]}
{"id": "C227", "title": "The line search's interpolation formulas minimise the interpolants, and the next trial lies strictly inside the bracket", "statement": "When the objective decreases from the best step u towards the trial step v and is higher or increasing at v, the point computed by the cubic formula is the only minimiser, between u and v, of the cubic polynomial with the two values and two slopes; the quadratic formula gives the only minimiser of the parabola through the two values and one slope, the secant formula that of the parabola with the two slopes, and the extrapolation formula the cubic's minimum beyond v whenever there is one. Consequently every next trial step lies strictly between the two points, strictly inside the interval then known to contain a minimum.", "quantifier": "all real values, slopes and positions, all states of the interval of uncertainty", "why_tests_cant": "a test compares finitely many numbers; being a minimiser and lying strictly inside must hold for all values, slopes and positions, including badly scaled ones", "anchors": ["solver/src/solver/optimizer/LbfgsSolver.cpp: CUBIC_MINIMIZER, CUBIC_MINIMIZER2, QUARD_MINIMIZER, QUARD_MINIMIZER2, update_trial_interval"]}
{"id": "C228", "title": "The line search takes longer steps as long as the objective keeps decreasing", "statement": "As long as no minimum is bracketed, the trial step is not higher than the best one and the objective still decreases at the trial step, the next step tried by the More-Thuente line search is longer than the trial step.", "quantifier": "all objectives, directions, steps and accepted parameters", "why_tests_cant": "a property of every trial of every line search; the failing branch needs an interpolating cubic without a minimum", "anchors": ["solver/src/solver/optimizer/LbfgsSolver.cpp: CUBIC_MINIMIZER2, update_trial_interval, line_search_morethuente"]}
{"id": "C229", "title": "Dynamics: the saved file holds the plan time step by time step", "statement": "With storing switched on, column t of every matrix in the file written at the end of optimize belongs to time step t of the stored plan: centre of mass and momenta at its end, the time passed until then, forces, torques and centres of pressure during it (zero for an end-effector without contact); references and joint trajectories are those of the kinematics sequence. (Violated for the centres of pressure: their matrix has one column per active time step.)", "quantifier": "all settings, contact plans, solver results, numbers of time iterations and kinematics sequences", "why_tests_cant": "must hold for every plan and every history of time iterations; the columns disagree only for plans with flight phases", "anchors": ["momentumopt/src/momentumopt/dynopt/DynamicsOptimizer.cpp: saveToFile, storeSolution, optimize"]}
{"id": "C230", "title": "Dynamics: switching storing on does not make optimize fail", "statement": "Saving the plan never accesses memory outside of its matrices and never violates Eigen's size assertions, for every configuration with at least one time step and a kinematics sequence sized by the settings. (Violated when not all joints are active, as in config/cfg_solo12_jump.yaml: the joint velocities have 6 + number of joints entries, the matrix 6 + number of active joints rows.)", "quantifier": "all numbers of time steps, joints and active joints, all states of the optimiser", "why_tests_cant": "memory safety for all sizes", "anchors": ["momentumopt/src/momentumopt/dynopt/DynamicsOptimizer.cpp: saveToFile", "momentumopt/src/momentumopt/kinopt/KinematicsState.cpp: resize", "momentumopt/src/momentumopt/setting/PlannerSetting.cpp: initialize"]}
{"id": "C231", "title": "Feedback of saturated controls is switched off", "statement": "With control limits enabled, in the control law a backward pass of the LQR solver returns, every control planned within 0.01 of one of its limits does not depend on the state, and every other control reacts to the state exactly as the law computed without limits. Hence, while the planned control respects its limits and the state deviation moves no control by more than 0.01, the applied control respects them too.", "quantifier": "every problem, horizon, time step, nominal trajectory, regularisation and state deviation", "why_tests_cant": "the set of saturated controls depends on data of every step; only a proof covers all combinations and all deviations", "anchors": ["solver_lqr/src/solver_lqr/BackwardPass.cpp: findConstrainedControls", "solver_lqr/src/solver_lqr/BackwardPass.cpp: optimizeController"]}
{"id": "C232", "title": "Everything in the configuration file reaches the planner settings", "statement": "When initialize() of the planner settings reads a file without printing an error, then afterwards every parameter that get() knows and that is backed by a key of the file returns the value of that key: the keys read from every file; those of the time optimisation if the heuristic is TimeOptimization; those of the kinematics if load_kinematics is set, including exactly the block of the formulation (first or second order) that the file selects; and the via points of the centre of mass, joints and base, exactly as many as announced, each from its own entry.", "quantifier": "every configuration file, every earlier content of the settings object, every parameter", "why_tests_cant": "There are more than a hundred keys, read in conditional blocks; a copied line with a wrong name shows only for one key under one combination of switches.", "anchors": ["momentumopt/src/momentumopt/setting/PlannerSetting.cpp: PlannerSetting::initialize, get"]}
{"id": "C233", "title": "The planner hands the gains of the file to the kinematics optimisation", "statement": "After init_from_settings() every weight and gain the Python kinematics optimisation uses is the one in the configuration file: those of the tracking in the formulation selected by the file, and those used to find the initial posture.", "quantifier": "every configuration file, every earlier content of the settings and of the kinematics optimiser", "why_tests_cant": "The assignments differ between the two formulations and the names are similar; a test sees one configuration.", "anchors": ["momentumopt/python/momentumopt/motion_planner.py: init_from_settings", "momentumopt/python/momentumopt/kinoptpy/momentum_kinematics_optimizer.py: optimize_initial_position"]}
{"id": "C234", "title": "The real-time model solves the hierarchy of constraints that was added", "statement": "For every sequence of addLinConstr calls with known senses, solve() of the real-time model returns true and leaves exactly one point, independent of what the solver was used for before; and for every rank k the point returned for the constraints of ranks up to k minimises the sum of the squared residuals of the equalities and of the squared violations of the inequalities of rank k (with the psd_hessian_diag regularisation) among all points that leave the equality residuals of lower ranks as they are at the point returned for the ranks below k and meet their inequalities. (The hierarchical and the QP solver of the repository, exact arithmetic, constraints that do not depend on the variables by less than 1e-12 only.)", "quantifier": "every program of constraints, with repeated variables, any ranks including gaps, negative ones and constraints without variables; every rank; every earlier state of the solver", "why_tests_cant": "Optimality quantifies over all competing points; the interplay of the loop over ranks, the removal of rows and the null-space bookkeeping depends on the whole program.", "anchors": ["solver/include/solver/rt_optimizer/RtModel.h: addLinConstr, solve, addCostsToHierarchy", "solver/include/solver/rt_optimizer/RtHQPSolver.h: reset, solveNextTask", "solver/include/solver/rt_optimizer/RtQPSolver.hpp: solveQP"]}
{"id": "C235", "title": "Lower priorities of the real-time model leave higher ones alone", "statement": "Comparing the point returned by solve() with the one returned when the constraints of ranks above k are left out: the equality residuals of rank k differ by at most their Lipschitz constant divided by hsol_max_eq_cond times the distance of the two points, and an inequality of rank k violated by v there (v = 0 if met) is violated by at most v + j (v + ineq_relax), where j is the number of higher ranks.", "quantifier": "every program of constraints, every rank, every earlier state of the solver", "why_tests_cant": "The bound must hold for whatever lower-priority constraints are added.", "anchors": ["solver/include/solver/rt_optimizer/RtModel.h: addLinConstr, solve", "solver/include/solver/rt_optimizer/RtHQPSolver.h: solveNextTask"]}
{"id": "C236", "title": "The planned motion respects the contacts of the plan", "statement": "For every contact plan with unit orientations (from a file or built by the user), the constraints of the dynamics optimiser hold for a motion exactly if, at every time step inside the time span of a contact, force, torque, center of pressure and length of the leg respect the limits in the frame and at the position of that contact (the last one of the list in case of overlap), only end-effectors with a contact push, and the centroidal dynamics hold; what the solver returns with an optimal exit respects this up to its accuracy and is not worse than any motion that does, up to the reported gap.", "quantifier": "every contact plan, settings, initial state, initial guess and solver run that ends with an optimal exit", "why_tests_cant": "ranges over all contact schedules and all motions", "anchors": ["momentumopt/src/momentumopt/cntopt/ContactPlanFromFile.cpp:optimize", "momentumopt/src/momentumopt/cntopt/ContactPlanInterface.cpp:fillDynamicsSequence", "momentumopt/src/momentumopt/dynopt/DynamicsOptimizer.cpp:internalOptimize", "momentumopt/src/momentumopt/dynopt/DynamicsOptimizer.cpp:contactRotation"]}
{"id": "C237", "title": "Only existing contacts are looked up", "statement": "While the dynamics optimiser builds its problem it reads only contacts that are in the plan, for every plan, in particular for plans with flight phases.", "quantifier": "every contact plan and settings", "why_tests_cant": "an out of range read of a vector usually goes unnoticed in a test; must hold for all contact schedules", "anchors": ["momentumopt/src/momentumopt/dynopt/DynamicsOptimizer.cpp:contactType", "momentumopt/src/momentumopt/dynopt/DynamicsOptimizer.cpp:contactLocation"]}
{"id": "C238", "title": "Optimising again uses the new plan only", "statement": "Calling the dynamics optimiser again without re-initialising it works on the contacts of the plan passed in that call, whatever plans were passed before; with the same plan nothing changes.", "quantifier": "every two contact plans and settings", "why_tests_cant": "must hold for every history of calls", "anchors": ["momentumopt/src/momentumopt/dynopt/DynamicsOptimizer.cpp:optimize", "momentumopt/src/momentumopt/cntopt/ContactPlanInterface.cpp:fillDynamicsSequence"]}
{"id": "C239", "title": "Swing orientation starts and ends at the contacts' orientations", "statement": "The orientation given to an end-effector during a flight phase is, at the start of the interpolation, the orientation it leaves, and at the end a quaternion of exactly the rotation of the contact it goes to.", "quantifier": "all pairs of quaternions, normalised or not", "why_tests_cant": "all quaternions, including opposite and almost parallel ones", "anchors": ["momentumopt/src/momentumopt/cntopt/ContactPlanInterface.cpp:generateFlightPhase"]}
{"id": "C240", "title": "Swing orientation turns uniformly along the shorter way", "statement": "Between unit quaternions the interpolated orientation is a unit quaternion and turns at constant rate along the shorter arc: the angle between the orientations at parameters s and t is |s-t| times the angle between the ends, at most half a turn. If the ends are parallel up to machine precision, the norm of the result is one up to half the machine precision.", "quantifier": "all unit quaternions, all interpolation parameters", "why_tests_cant": "real parameters, trigonometric identities", "anchors": ["momentumopt/src/momentumopt/cntopt/ContactPlanInterface.cpp:generateFlightPhase"]}
{"id": "C241", "title": "End-effector trajectories follow the contact plan", "statement": "After the dynamics sequence has been filled from a contact plan and its end-effector trajectories were updated: at every time step of a contact the end-effector has the pose of that contact; between two consecutive contacts it follows a polynomial which leaves the first contact and reaches the second at rest and without acceleration, passes half way in time through the via point given for this phase, its stored velocity and acceleration are the derivatives, and its orientation turns from one contact's to the other's; before the first contact it comes from the initial pose, after the last it goes to the initial pose shifted by the planned motion of the center of mass. No state outside the sequence is read, end-effectors without contacts and plans without kinematics are left alone.", "quantifier": "all contact plans whose contacts cover ranges of steps separated by flight phases of at least two steps, all via points, durations and initial poses, any number of end-effectors, contacts and steps", "why_tests_cant": "any number of contacts and steps", "anchors": ["momentumopt/src/momentumopt/cntopt/ContactPlanInterface.cpp:updateEndeffectorTrajectories", "momentumopt/src/momentumopt/cntopt/ContactPlanInterface.cpp:generateFlightPhase", "momentumopt/src/momentumopt/cntopt/ContactPlanInterface.cpp:findMakeContactId", "momentumopt/src/momentumopt/utilities/TrajectoryGenerator.cpp"]}
{"id": "C242", "title": "The trajectory of an end-effector depends only on its own data", "statement": "The swing trajectories of an end-effector are determined by its own contacts, via points and initial pose, the durations and the planned motion of the center of mass; the other end-effectors have no influence.", "quantifier": "all pairs of runs that agree on the data of an end-effector", "why_tests_cant": "hyperproperty over pairs of runs", "anchors": ["momentumopt/src/momentumopt/cntopt/ContactPlanInterface.cpp:updateEndeffectorTrajectories", "momentumopt/src/momentumopt/cntopt/ContactPlanInterface.cpp:findActiveViapoints"]}
{"id": "C243", "title": "Via points of the file are passed", "statement": "Loading a contact plan with kinematics replaces all via points by those of the file, in order and numbered consecutively through all end-effectors; and the updated trajectories pass, half way between contacts k and k+1 of an end-effector, through the position in the first row of its list that carries the number k.", "quantifier": "all files, all contact plans and sequences", "why_tests_cant": "all lists and plans", "anchors": ["momentumopt/src/momentumopt/cntopt/ContactState.cpp:ViapointSequence::loadFromFile", "momentumopt/src/momentumopt/cntopt/ContactPlanInterface.cpp:findActiveViapoints"]}
{"id": "C244", "title": "A contact plan written in Python is the plan that was written", "statement": "A Python script that fills numpy arrays, creates ContactState objects from them (start and end time, position, type, active) and appends them to contact_states(e) leaves, for every end-effector, exactly the contacts appended for it, in order, with the data given and the position the array had at that moment; later writes to the array or to the Python object do not change the plan.", "quantifier": "all scripts (sequences of array creations, array writes and contact creations of any length, any end-effectors) and all further programs", "why_tests_cant": "aliasing between numpy arrays, Python objects and the C++ vectors depends on the order of all statements of the program", "anchors": ["momentumopt/srcpy/momentumopt/cntopt/PyContacts.cpp: ContactState, CntStateVector, contact_states", "momentumopt/demos/demo_momentumopt_biped_from_python.py: createContactState", "momentumopt/src/momentumopt/cntopt/ContactState.cpp: ContactState::ContactState"]}
{"id": "C245", "title": "The optimiser respects the contacts written in Python", "statement": "For a plan written by a Python script, the dynamics optimiser treats an end-effector as in contact in exactly those time steps whose end lies in the time span of one of its contacts, and every point that satisfies its constraints keeps the force in the friction cone around the vertical (unless the contact is a FullContact), the center of pressure in its range and the leg to the given position not longer than its maximum.", "quantifier": "all scripts, planner settings, initial states and points of the optimisation problem", "why_tests_cant": "quantifies over all plans and all points of the feasible set", "anchors": ["momentumopt/demos/demo_momentumopt_biped_from_python.py", "momentumopt/src/momentumopt/dynopt/DynamicsOptimizer.cpp: optimize, internalOptimize", "momentumopt/src/momentumopt/cntopt/ContactPlanInterface.cpp: fillDynamicsSequence"]}
{"id": "C246", "title": "The length of a motion can be changed from Python", "statement": "Setting TimeHorizon to a duration and NumTimesteps to the whole number of time steps in it succeeds for every planner setting; both values are read back, the time step is unchanged and horizon, step and number of steps belong together.", "quantifier": "all planner settings and durations", "why_tests_cant": "ranges over all reals and all states of the settings object", "anchors": ["momentumopt/demos/demo_momentumopt_biped_from_python.py", "momentumopt/src/momentumopt/setting/PlannerSetting.cpp: get, set"]}
{"id": "C247", "title": "optimize() of the contact planner keeps contacts added in Python", "statement": "Contacts appended in Python before contact_planner.optimize(...) is called are part of the plan afterwards.", "quantifier": "all scripts and configuration files", "why_tests_cant": "depends on the history of the plan and on the file", "anchors": ["momentumopt/src/momentumopt/cntopt/ContactPlanFromFile.cpp: optimize", "momentumopt/src/momentumopt/cntopt/ContactState.cpp: ContactSequence::loadFromFile"]}
{"id": "C248", "title": "The conic solver's steps never divide by zero and shrink all residuals at a common rate", "statement": "When the linear solver answers exactly and the iterates stay in the range of the scalings, the number by which a step of tau is divided is positive, and at the head of every pass of a solve all residuals (dual, equality, inequality, gap equation) are one common multiple of the initial ones; this multiple and the remaining fraction of the complementarity gap are at most the n-th power of a factor given by the step settings.", "quantifier": "All problems, settings in the order of the defaults, exact linear solvers, runs and passes.", "why_tests_cant": "Holds for every pass of every run; a test sees the residuals of some runs, not a rate.", "anchors": ["solver/src/solver/optimizer/IPSolver.cpp:IPSolver::optimize", "solver/src/solver/optimizer/IPSolver.cpp:lineSearch"]}
{"id": "C249", "title": "The number of iterations of an exact solve is bounded independently of the iteration limit", "statement": "If tau does not fall below a bound, a solve with an exact linear solver stops after a number of passes that depends only on the settings, that bound and the size of the initial residuals and gap; the pass in which the shrunk residuals meet the tolerances returns the current iterate as optimal, unless one of the tests for a bad direction ends the solve first.", "quantifier": "All problems, exact runs and iteration limits.", "why_tests_cant": "A bound over all problems and runs.", "anchors": ["solver/src/solver/optimizer/IPSolver.cpp:IPSolver::optimize", "solver/src/solver/optimizer/IPSolver.cpp:convergenceCheck"]}
{"id": "C250", "title": "The iterates of an exact solve stay bounded; kappa vanishes on solvable problems and tau on infeasible ones", "statement": "In a solve with an exact linear solver, slacks, multipliers, tau and kappa weighted with the initial iterate never exceed twice the initial gap. If the problem and its dual have a complementary pair of solutions, kappa and the complementarity with that pair go to zero at the rate of the residuals; if the problem or its dual has a certificate of infeasibility, tau does.", "quantifier": "All problems, exact runs and passes.", "why_tests_cant": "Ranges over all runs and all solutions and certificates of the problem.", "anchors": ["solver/src/solver/optimizer/IPSolver.cpp:IPSolver::optimize"]}
{"id": "C251", "title": "Loading the conic solver's settings sets every parameter from its key", "statement": "SolverSetting.initialize on a well-formed file that returns leaves every readable parameter equal to the value the file gives under that parameter's documented key, converted to its type, regardless of what the object held before; on a well-formed file it returns exactly if the section exists and every key has a convertible value.", "quantifier": "all files, sections, earlier contents of the object and parameters", "why_tests_cant": "32 keys and parameters, every combination of present, missing and ill-typed entries and every earlier state", "anchors": ["solver/src/solver/interface/SolverSetting.cpp: initialize, get", "momentumopt/config/default_solver_setting.yaml"]}
{"id": "C252", "title": "Loading the LQR settings sets parameters, line-search steps, horizon and limits from the file", "statement": "SolverLqrSetting.initialize on a well-formed file that returns leaves the parameters equal to the file's values; the line-search coefficients are c^(-i^2), i below the given number, and are written inside the vector exactly if that number is whole; the number of steps is floor(horizon/step); control limits come from the file iff the file says there are limits, otherwise they keep their old value; integration is Euler's; the result file is named after the configuration file.", "quantifier": "all files, paths, earlier contents of the object", "why_tests_cant": "every file and every real number of coefficients", "anchors": ["solver_lqr/src/solver_lqr/SolverLqrSetting.cpp: initialize"]}
{"id": "C253", "title": "A load of solver settings that returns has loaded the file", "statement": "If initialize of the conic or LQR settings returns normally, the settings are those of the file; a file that cannot be read, parsed or converted is reported to the caller.", "quantifier": "all files", "why_tests_cant": "failure modes of the parser and every earlier state", "anchors": ["solver/src/solver/interface/SolverSetting.cpp: initialize", "solver_lqr/src/solver_lqr/SolverLqrSetting.cpp: initialize"]}
{"id": "C254", "title": "The shipped solver settings meet the prerequisites of the interior-point method", "statement": "After loading the shipped default settings, step lengths, scaling and centering are in the ranges for which the interior-point iterates stay inside the cones and converge, tolerances are positive, the inaccurate ones are no stricter, and the number of passes of an exact solve is bounded independently of the iteration limit.", "quantifier": "all earlier contents of the settings object, all problems of bounded initial error", "why_tests_cant": "convergence is quantified over all problems", "anchors": ["momentumopt/config/default_solver_setting.yaml", "solver/src/solver/optimizer/IPSolver.cpp: optimize, lineSearch"]}
{"id": "C255", "title": "The relative-decrease stopping rule of the L-BFGS solver", "statement": "With a test period past > 0 and a threshold delta > 0, the quasi-Newton solver reports 'stop' only if within the last past iterations the objective decreased by less than delta times the size of the reported value, and does not go on after such a stall. (False as coded: the quotient is divided by the signed value, so with an objective that is negative at the start the method always ends within past iterations, whatever the improvement and the gradient; holds for positive values.)", "quantifier": "every objective, dimension, starting point, valid parameter set, progress callback and run length", "why_tests_cant": "tests use least-squares objectives, which are non-negative; the claim ranges over all objectives and all histories", "anchors": ["solver/src/solver/optimizer/LbfgsSolver.cpp:371-392 lbfgs"]}
{"id": "C256", "title": "The rank-one-update QP solver stays inside its arrays", "statement": "Solving a quadratic program with the real-time QP solver never reads or writes one of its working arrays out of range. (False as coded: with more equalities than variables the solver writes a column that does not exist once as many equalities as variables have been added, even if the rest are redundant; after an inequality is rejected as degenerate while equalities are active it reads beyond the active set and writes index -1. With at most as many equalities as variables nothing goes out of range before such a rejection.)", "quantifier": "every problem size, data, tolerance and number of steps", "why_tests_cant": "out-of-range accesses depend on the history of additions, removals and rejections; they usually go unnoticed in release builds", "anchors": ["solver/include/solver/rt_optimizer/RtQPSolver.hpp: solveQP, addConstraint, deleteConstraint (98-217, 312-344, 383-507)"]}
{"id": "C257", "title": "L-BFGS converges linearly on smooth strongly convex objectives", "statement": "On an objective that is strongly convex with a Lipschitz gradient the quasi-Newton solver, with any of its four line searches (sufficient-decrease parameter in (0,1)), any positive memory and any starting point, produces iterates whose values, gradients and distances to the minimiser shrink at a linear rate that depends only on the parameters and the two constants of the objective. With a positive gradient tolerance the solver therefore ends even without an iteration limit, within the number of iterations given by that rate. With the Armijo backtracking search, if the step limits leave room for the steps the objective admits, the line search never fails: the solver ends with success (or 'already minimised'), reports the value of the returned point, and that point is within tolerance * max(|x|,1) / mu of the minimiser.", "quantifier": "every dimension, objective with constants mu and L, valid parameter set, starting point, progress callback and run", "why_tests_cant": "convergence and termination without a limit range over all objectives and unbounded runs", "anchors": ["solver/src/solver/optimizer/LbfgsSolver.cpp: lbfgs, line_search_backtracking, line_search_morethuente (189-741)"]}
{"id": "C258", "title": "The viewer shows the saved plan", "statement": "After the dynamics optimizer has stored its plan in a file, the viewer opened on that file and on the contact plan shows that plan: against the time passed at the end of each time step, the curves are the planned centre of mass, the planned momenta per unit of mass, the contact force of each end-effector (zero while it is not in contact), the references of the kinematics, and the planned and nominal duration of each time step. The contacts shown are exactly those the planner used, in number, order, times, location and frame, and each patch is drawn in the plane of its contact.", "quantifier": "every plan, duration of the plan, contact plan, set of references and result of the solver", "why_tests_cant": "it relates every number written by the planner in one language to every curve drawn by a program in another, over all plans, including plans of a single time step", "anchors": ["momentumopt/python/momentumopt/helpers.py: quat2mat, CntState, Graphics.show_motion", "momentumopt/src/momentumopt/dynopt/DynamicsOptimizer.cpp: saveToFile", "momentumopt/src/momentumopt/cntopt/ContactState.cpp: ContactSequence::loadFromFile"]}
{"id": "C259", "title": "Runge-Kutta integration is of fourth order on nonlinear systems", "statement": "When the user's dynamics is the increment h g(x, u) of a differential equation whose right hand side has a bounded and Lipschitz derivative with respect to the state, and Runge-Kutta integration is on, the states returned by the forward pass of the LQR solver stay close to the motion under the returned controls: with a constant C that depends only on bounds of the derivative of g, of its rate of change, and of five derivatives of the motion, the error at the time s = t h is at most s exp(s L) C h^4, for every time step up to one, number of steps and problem.", "quantifier": "every differential equation with these bounds, horizon, time step up to one, initial state, controls and feedback", "why_tests_cant": "an order of convergence is a statement about all time steps and all systems at once; tests see single trajectories", "anchors": ["solver_lqr/src/solver_lqr/OcpDescription.cpp: internal_dynamics", "solver_lqr/src/solver_lqr/ForwardPass.cpp: applyController"]}
{"id": "C260", "title": "Accuracy of the rotation maps at small angles", "statement": "The conversions between rotation vectors and unit quaternions use approximations for small angles. For every rotation, with no angle left out, their error is bounded: the exponential map is within 1e-7 of the exact rotation; the exponential of the logarithm of a unit quaternion describes the same rotation to within 1/2000; the logarithm of the exponential of a rotation vector of at most half a turn returns the vector to within 1/1000; and rotating the current orientation by the orientation error, or integrating the required angular velocity over the time step, gives the desired orientation to within 1/2000 (distances of quaternions, up to sign; for the integration, unless the current orientation is an exact half turn opposite to the desired one).", "quantifier": "every rotation vector, pair of unit quaternions, nonzero time step and coordinate system", "why_tests_cant": "a bound on the error over a continuum of rotations, across two branch thresholds, cannot be established by sampling", "anchors": ["momentumopt/src/momentumopt/utilities/OrientationUtils.cpp: logarithmicMap, exponentialMap, orientationError, requiredAngularVelocity, integrateAngularVelocity"]}
{"id": "C261", "title": "The number of time steps in double precision", "statement": "If the horizon in the configuration file is a whole number of time steps, the planner uses that number of time steps, and otherwise the number of whole time steps that fit, although horizon and time step are stored and divided in double precision. The same holds for the time step to which a via point of the centre of mass is attached.", "quantifier": "every horizon and time step as written in the file, and every rule of rounding ties", "why_tests_cant": "rounding errors depend on each pair of numbers; a third of the horizons that are multiples of 0.1 are affected, and the shipped files are not", "anchors": ["momentumopt/src/momentumopt/setting/PlannerSetting.cpp: PlannerSetting::initialize (num_timesteps_)", "momentumopt/src/momentumopt/dynopt/DynamicsOptimizer.cpp: internalOptimize (via points)"]}
{"id": "C262", "title": "Activation of contacts in double precision", "statement": "An end-effector is in contact at exactly the time steps whose time lies in the half-open interval from the beginning to the end of the contact, as written in the contact plan, although the times are stored, multiplied and compared in double precision; and where one contact begins when another one ends, no time step is lost or claimed twice.", "quantifier": "every time step, contact times and number of time steps, and every rule of rounding ties", "why_tests_cant": "whether the product of a step number and the time step rounds below the contact time depends on each pair of numbers", "anchors": ["momentumopt/src/momentumopt/cntopt/ContactPlanInterface.cpp: fillDynamicsSequence"]}
{"id": "C263", "title": "Counts of milliseconds in double precision", "statement": "For plans whose time steps are whole numbers of milliseconds, the data files hold one row for each millisecond of the plan, and the second-order inverse kinematics integrates each time step with one inner step per millisecond, although the times are accumulated and divided in double precision.", "quantifier": "every duration in milliseconds, number of time steps, and every rule of rounding ties", "why_tests_cant": "accumulated rounding errors depend on the whole sequence of durations", "anchors": ["momentumopt/python/momentumopt/motion_planner.py: create_time_vector", "momentumopt/python/momentumopt/kinoptpy/create_data_file.py: create_file", "momentumopt/python/momentumopt/kinoptpy/second_order_ik.py: SecondOrderInverseKinematics.solve"]}
{"id": "C264", "title": "Accumulated times of a plan in double precision", "statement": "The times create_time_vector gives to the time steps of a plan are, for every plan of up to 2^20 time steps whose durations differ by at most a factor of 2^20, the sums of the durations of the earlier steps up to a relative error of 2 i units of roundoff, and they are strictly increasing, as the interpolation of the plan requires.", "quantifier": "every sequence of durations, fixed or optimised, and every rule of rounding ties", "why_tests_cant": "accumulated rounding errors depend on the whole sequence of durations", "anchors": ["momentumopt/python/momentumopt/motion_planner.py: create_time_vector", "momentumopt/python/momentumopt/motion_execution.py: desired_state, interpolate"]}
{"id": "C265", "title": "Command line of the C++ demo", "statement": "The demo program called with -i and a name loads the configuration file of that name; called in any other way it prints its usage and loads nothing.", "quantifier": "every list of arguments", "why_tests_cant": "the space of argument lists is infinite; the usual call works", "anchors": ["momentumopt/demos/demo_momentumopt.cpp: main"]}
{"id": "C266", "title": "L-BFGS work and termination in machine arithmetic", "statement": "In floating-point arithmetic with rounding, overflow and NaN, and for every objective and progress callback, one line search of the L-BFGS minimiser evaluates the objective at most max_linesearch times and returns a point of its search ray with its own value and gradient, and a call with a positive iteration limit returns, in exactly one way, after at most max_iterations iterations and 1 + max_iterations*max_linesearch evaluations.", "quantifier": "every arithmetic, every objective, callback, start and parameters", "why_tests_cant": "rounding and exceptional values depend on the objective and the start", "anchors": ["solver/src/solver/optimizer/LbfgsSolver.cpp: lbfgs, line_search_backtracking, line_search_morethuente, update_trial_interval"]}
{"id": "C267", "title": "L-BFGS results in machine arithmetic", "statement": "In floating-point arithmetic with rounding, overflow and NaN, success and already-minimized are only reported if the gradient test holds, as computed, at the returned point; unless the parameters were rejected or the line search failed the reported value is the value of the objective at the returned point; after a failed line search the returned point is the last accepted one.", "quantifier": "every arithmetic, every objective, callback, start and parameters", "why_tests_cant": "rounding and exceptional values depend on the objective and the start", "anchors": ["solver/src/solver/optimizer/LbfgsSolver.cpp: lbfgs"]}
{"id": "C268", "title": "L-BFGS never increases the objective in machine arithmetic", "statement": "In floating-point arithmetic, whatever the objective returns, also NaN or infinities, every accepted step leads to a value that is not larger than the one before, and the returned point is not worse than the start.", "quantifier": "every IEEE arithmetic, every objective, start and parameters", "why_tests_cant": "depends on where the objective is not a number", "anchors": ["solver/src/solver/optimizer/LbfgsSolver.cpp: lbfgs, line_search_backtracking, line_search_morethuente"]}
{"id": "C269", "title": "L-BFGS returns when the objective is not a number", "statement": "If the objective is not a number at the start, a call of the L-BFGS minimiser returns with an error and leaves the start unchanged.", "quantifier": "every IEEE arithmetic, every objective, start and parameters", "why_tests_cant": "termination cannot be observed by testing", "anchors": ["solver/src/solver/optimizer/LbfgsSolver.cpp: lbfgs, line_search_backtracking, line_search_morethuente"]}
{"id": "C270", "title": "Differences of orientations, small angles included", "statement": "Half of the result of log_quaternion is the logarithm of a unit quaternion - exactly beyond the threshold, up to 2e-30 below it - and integrating the difference of two unit quaternions from the first leads to the second orientation up to 2e-13, whichever branches for small angles are taken.", "quantifier": "all pairs of unit quaternions", "why_tests_cant": "three branches that are not inverse to each other, all real arguments", "anchors": ["momentumopt/python/momentumopt/kinoptpy/lqr_gain_manifold.py:CentroidalLqr.log_quaternion", "momentumopt/python/momentumopt/kinoptpy/lqr_gain_manifold.py:CentroidalLqr.quaternion_difference", "momentumopt/python/momentumopt/kinoptpy/lqr_gain_manifold.py:CentroidalLqr.integrate_quaternion"]}
{"id": "C271", "title": "The conic solver's loop in machine arithmetic", "statement": "In whatever arithmetic the interior-point method computes and whatever the linear solver answers (NaN and infinities included), it makes at most one more pass than the iteration limit; its exit code is a verdict, the iteration limit is reported only when it was reached, and an indeterminate result only if a factorisation failed. A point reported as optimal (also with reduced accuracy) contains no NaN, and neither do the matrices, the cost and the right-hand side of the equalities.", "quantifier": "every arithmetic (for the last sentence: every IEEE arithmetic), every problem, every behaviour of the linear solver", "why_tests_cant": "the linear solver's answers near breakdown are not under the control of a test", "anchors": ["solver/src/solver/optimizer/IPSolver.cpp: IPSolver::optimize, convergenceCheck, updateStatistics, computeResiduals, lineSearch", "solver/src/solver/interface/Cone.cpp: Cone::updateNTScalings"]}
{"id": "C272", "title": "The conic solver notices a NaN iterate", "statement": "When an iterate becomes NaN the method stops and falls back on the best iterate; a result returned under any code of a best iterate or with reduced accuracy has no NaN in the slacks and duals of the cone and in the scalars tau and kappa.", "quantifier": "every IEEE arithmetic, every problem, every behaviour of the linear solver", "why_tests_cant": "needs a breakdown of the linear algebra at a chosen iteration", "anchors": ["solver/src/solver/optimizer/IPSolver.cpp: IPSolver::optimize, convergenceCheck, updateStatistics", "solver/src/solver/optimizer/CvxInfoPrinter.cpp: OptimizationInfo::isBetterThan"]}
{"id": "C273", "title": "An optimal point satisfies its constraints in machine arithmetic", "statement": "If the conic solver reports Optimal, the relative residuals of the equalities and of the cone constraints, as computed, are numbers below the feasibility tolerance.", "quantifier": "every IEEE arithmetic, every problem data including infinities and NaN", "why_tests_cant": "std::max drops a NaN second argument; data with infinities are not in any test", "anchors": ["solver/src/solver/optimizer/IPSolver.cpp: updateStatistics, convergenceCheck"]}
{"id": "C274", "title": "Branch and bound's loop in machine arithmetic", "statement": "In whatever arithmetic branch and bound computes and whatever its relaxation solver answers (NaN and infinities included), optimize has an outcome: it makes at most BnBMaxIters - 1 iterations, solves at most two relaxations and four more per iteration, never uses a node beyond those allocated, and its exit code is one of the six verdicts - or it stops with an exception or at an undefined conversion of a binary to int.", "quantifier": "every arithmetic, every problem, every behaviour of the relaxation solver, every left-over state", "why_tests_cant": "the relaxation solver's NaN answers are not under the control of a test", "anchors": ["solver/src/solver/optimizer/BnBSolver.cpp: BnBSolver::optimize, updateNodeBounds, createBranches, selectNodeToExplore, optimilityCheck, exitcode"]}
{"id": "C275", "title": "The reported integer solution was evaluated, in machine arithmetic", "statement": "A solution that branch and bound reports as optimal (also with reduced accuracy) is one of the integral solutions it has evaluated; the reported value is its objective, as computed, a number below infinity; and no integral solution evaluated has a smaller one.", "quantifier": "every IEEE arithmetic, every behaviour of the relaxation solver, NaN and infinities included", "why_tests_cant": "needs a relaxation with a NaN objective at a chosen node", "anchors": ["solver/src/solver/optimizer/BnBSolver.cpp: BnBSolver::updateNodeBounds, optimize, exitcode"]}
{"id": "C276", "title": "The reported lower bound covers every leaf, in machine arithmetic", "statement": "When branch and bound ends, every open or closed leaf has been solved with its decisions and the reported lower bound is at most the objective of its relaxation, as computed.", "quantifier": "every IEEE arithmetic, every behaviour of the relaxation solver, NaN and infinities included", "why_tests_cant": "std::min drops a NaN argument; needs a relaxation with a NaN objective at a chosen node", "anchors": ["solver/src/solver/optimizer/BnBSolver.cpp: BnBSolver::getProblemLowerBound, selectNodeToExplore, optimize"]}
{"id": "C277", "title": "Starting point of the interior-point method", "statement": "The interior-point solver starts from tau = kappa = 1, an x that satisfies the equality constraints exactly and minimises the squared slacks h - G x, slacks that are these slacks pushed into the interior of the cone by a multiple at least 1 of the identity, and multipliers that are the least-norm solution of the dual equations pushed into the interior in the same way; hence at every iterate A x = tau b, and the other residuals are one factor times a fixed vector. The starting point depends only on the problem.", "quantifier": "every problem with a cone without empty parts, every exact linear solver, every earlier use of the solver object, every iterate", "why_tests_cant": "least-squares minimality over all points; the dual part depends on what an earlier call left in a member", "anchors": ["solver/src/solver/optimizer/IPSolver.cpp: InteriorPointSolver::initializeVariables, optimize", "solver/src/solver/optimizer/Cone.cpp: Cone::conicProjection"]}
{"id": "C278", "title": "Memory safety of the real-time QP solver in machine arithmetic", "statement": "With at most as many equalities as variables, the real-time QP solver never reads or writes outside its vectors, and its active set never has more entries than there are variables or constraints, whatever rounding errors, infinities or NaNs occur.", "quantifier": "every arithmetic with sane comparisons, every problem data and factorisation (NaN included), every number of steps", "why_tests_cant": "the bookkeeping of the active set must survive every outcome of every floating-point test", "anchors": ["solver/include/solver/rt_optimizer/RtQPSolver.hpp: solveQP, addConstraint, deleteConstraint"]}
{"id": "C279", "title": "NaN in the data of the real-time QP solver", "statement": "The real-time QP solver does not report success (isOptimized) for a solution that contains a NaN.", "quantifier": "every problem, every set of constraints, every position of the NaN, every IEEE arithmetic", "why_tests_cant": "one has to feed a NaN; the claim covers every constraint set", "anchors": ["solver/include/solver/rt_optimizer/RtQPSolver.hpp: RtQPSolver::isOptimized, solveQP"]}
{"id": "C280", "title": "What an accepted QP solution guarantees in machine arithmetic", "statement": "When the real-time QP solver returns a value from its active-set iteration, it is the objective it tracked, and as computed in machine arithmetic either every violated inequality is violated by no more than the documented tolerance, or every violated inequality is in the active set.", "quantifier": "every IEEE arithmetic, every problem, every run", "why_tests_cant": "holds for the slacks as rounded, through sums in which NaN terms are dropped", "anchors": ["solver/include/solver/rt_optimizer/RtQPSolver.hpp: solveQP"]}
{"id": "C281", "title": "Regularisation schedule of the LQR solver", "statement": "Let f be the regularisation factor and lo the lower limit. A failure (a backward pass that does not succeed, or an iteration whose line search finds no cheaper trajectory) makes the multiplier m := max(m f, f) and the regularisation lambda := max(lambda m, lo); a success makes m := min(m/f, 1/f) and lambda := lambda m, or 0 if lambda was no longer above lo. An iteration of SolverLqr::optimize after which the solver goes on, having made n backward passes, is n - 1 failures followed by exactly one of: one more failure, with cost and trajectory unchanged; a cheaper trajectory found only by the shortest step of the line search, which leaves the regularisation alone; a cheaper trajectory found by a longer step, which is one success. Hence k failures since the last success, however they are spread over iterations, leave lambda = max(lambda0 f^(1+...+k), lo f^(2+...+k)) and m = f^k, and a solver that goes on after k + 1 failures has lo f^(2+...+(k+1)) at most the upper limit.", "quantifier": "every problem, every setting with factor above 1 and non-negative limits, every state of the solver, every number of backward passes and of iterations", "why_tests_cant": "The schedule is a recurrence over an unbounded history of failures and successes inside the solver; a test sees a few of its steps on one problem and not the closed form.", "anchors": ["solver_lqr/src/solver_lqr/SolverLqr.cpp: SolverLqr::optimize"]}
