# Design

Formal model in Lean 4 (Mathlib) of machines-in-motion/kino_dynamic_opt, and proofs of the properties in `properties.jsonl`.

## Conventions

* Model modules (`Verif/<Area>.lean`) carry, at each definition, the file and lines of /repo they model and the simplifications made.
  Specifications and property theorems live in separate `...Spec.lean` / `...Props.lean` files (the latter with a section "Specification").
* `double` is modelled by the real numbers (exact arithmetic) unless stated otherwise: rounding, overflow, NaN and infinities are out of the
  model. `int`/`size_t` are `Nat`/`Int`. Comparisons with fixed tolerances (`1e-6`, the machine epsilon of the real-time QP) are kept.
* Undefined behaviour (out-of-bounds access, reads of uninitialised data), exceptions and non-termination are explicit outcomes.
* Loops become structural recursion or folds; loops without an evident bound become recursion with fuel, and termination is a theorem.
* External code (Eigen decompositions, quadprog, scipy, pinocchio, pybullet, user callbacks) is a parameter over which theorems quantify; where a
  contract is assumed about it, the contract is a named hypothesis, and an existence theorem shows that it can be met.
* If the code violates a property, the negation is proved with a concrete witness (suffix `_violated`), and the largest part that does hold is
  proved under a name ending in `_partial`.
* Beside the theorems, `example`s show concrete non-trivial cases that meet the hypotheses.

## Plan and status per property

* **C01 Expression arithmetic is evaluation-preserving** (proved) — LinExpr as (constant, term list); every C++ operator one Lean function; AST of operator applications; induction on the AST. *Exact field instead of double.*
* **C02 Merged expressions mention each variable once** (proved) — Same model; invariant of the `clean` fold (column list has no duplicates, is a subset).
* **C03 Cleaning yields an expression the library regards as clean** (partial) — Model `isClean` incl. the loop from i=1; expected false (cancellation leaves a 0): negation by witness + `_partial` (duplicate-freeness, idempotence). *False of the code: exact cancellation leaves zero coefficients that isClean rejects (witness). The partial theorem proves what holds.*
* **C04 Adding an expression to itself** (partial) — Small-step model of the aliased loop (loop bound re-read from the growing vector); prove it never reaches its exit for non-empty e (negation), `_partial` for no alias / empty. *False of the code: e += e never terminates for an expression with a variable (proved for every expression).*
* **C05 Declaring variables: bounds, guess and numbering** (proved) — Problem state machine with ops; invariant by induction on the op list.
* **C06 Failed constraint calls leave the problem unchanged** (partial) — Same state machine with outcome ok/throw; linear: proved; quadratic and SOC: negation with witness. *Holds for linear constraints; false for quadratic/SOC constraints (rejected call leaves auxiliary variables and counters).*
* **C07 Conic standard form is equivalent to the stated constraints** (proved) — `buildProblem` modelled at the level of triplet/`h`/`b`/`c` writes with explicit row indices; row-block lemmas; equivalence with an independent semantic spec. *Proved for all histories of valid calls, also with binaries (relaxed to [0,1]) and trust-region rows. Needs every linear constraint to mention a variable (see C09).*
* **C08 Conic objective equals the user's objective** (proved) — Same model; objective rows.
* **C09 Constant-only constraints are honoured** (partial) — Expected false: negation with witness; `_partial` for constraints with at least one variable. *False of the code: a linear constraint without terms is dropped.*
* **C10 Setting the objective replaces the previous one** (partial) — Expected false: model `qexpr()[i]` reads as possibly out-of-bounds (ub outcome); negation. *False of the code: after an objective with quadratic terms, a second setObjective makes buildProblem read out of bounds (proved for all histories).*
* **C11 Trust-region constraints bound the violation of the equality** (proved) — Rows of the trust region block; convexity (tangent below parabola).
* **C12 Soft constraints are penalised by their squared linearisation** (proved) — Rows of the soft block.
* **C13 Number and order of convex solves in optimize** (proved) — `optimize` as a function from settings and oracle to the trace of (build,solve) calls. *For problems built by accepted calls; after a rejected trust-region call the code does an extra warm-start solve (witness). Solvers are oracles.*
* **C14 Optimisation-variable indexing is a bijection** (proved) — Index arithmetic over Nat; list of blocks; bijection by induction.
* **C15 Cone layout partitions the slack vector** (proved) — Prefix sums; partition by induction on the cone list.
* **C16 Conic product and division are inverse** (proved) — Vectors as (head, tail list) over the reals; algebra.
* **C17 Conic projection lands in the cone interior** (proved) — Same; inequality with max over blocks.
* **C18 Nesterov-Todd scaling balances primal and dual** (partial) — Same; algebra with square roots. *First half proved in full; the failure report is false of the code for points of the negative cone (witness).*
* **C19 Read-only and mutable views of a solution agree** (partial) — Segment offsets; expected false for s/z: negation. *False of the code: const s() and z() are exchanged (for every cone with a row).*
* **C20 Equilibration is undone exactly** (proved) — Diagonal scalings over finite index types; induction over rounds.
* **C21 Interior point: Optimal is only reported for small residuals** (partial) — State machine with the linear algebra as an oracle; case analysis of exits. *For at least one allowed iteration; false for SolverMaxIters=0 (witness: a never-set best iterate is restored). The gap the code tests is tau^2 times the gap of the reported vector, so the tolerance is divided by tau^2; a last step raised to the minimum step length is excepted.*
* **C22 Interior point: bounded number of iterations** (proved) — Same model; fuel-free recursion on iterations left.
* **C23 Sparse factorisation solves the linear system** (proved) — Column-by-column LDL^T with exact reals; induction on columns.
* **C24 Branch and bound: nodes partition the binary assignments** (partial) — Tree as list of leaves with fixed sets; invariant over steps. *Coverage for every oracle; exclusivity and absence of faults for relaxation solvers that respect variable bounds; exclusivity is false otherwise (witness).*
* **C25 Branch and bound: terminates within its iteration limit and with sound bounds** (proved) — Same. *The relaxation solver is an arbitrary oracle; validity of node bounds is the hypothesis named in the property.*
* **C26 Branch and bound: the stored solution is the best one found** (partial) — Expected false (root incumbent forgotten): negation by a concrete execution; `_partial`. *False of the code: the incumbent found at the root node is forgotten (witness).*
* **C27 L-BFGS backtracking line search** (partial) — Recursive loop with fuel = evaluations left; oracle objective. *Everything except the step range, which the code violates in both directions (witness); the exact range is proved instead.*
* **C28 L-BFGS More-Thuente line search** (proved) — Same with the interval update as a function.
* **C29 L-BFGS reports the value of the point it returns** (partial) — Expected false on line-search failure: negation; `_partial` for other exits. *False of the code after a failed line search: the point is reset but not the value.*
* **C30 L-BFGS never increases the objective and stops** (proved) — Outer loop as a recursion; invariant.
* **C31 L-BFGS direction is a descent direction** (proved) — Two-loop recursion over a history list in an inner-product space; quadratic form.
* **C32 L-BFGS parameter validation precedes any effect** (partial) — Validation as a decision list; m=0 negation. *False of the code for a memory length m <= 0, which is accepted.*
* **C33 Penalised objective equals the user objective on feasible points** (proved) — Finite lists; algebra.
* **C34 Background decomposition thread: one decomposition per request** (proved) — Labelled transition system of two threads with mutex and condition variables; inductive invariant; deadlock freedom; termination measure. *All schedules and call histories, with spurious wake-ups; sequentially consistent memory; completion counts steps between spurious wake-ups.*
* **C35 Substituting variables preserves values** (proved) — Matrices over Mathlib `Matrix`. *The quadratic case needs a symmetric matrix (the objective matrices of the solver are); a witness shows it fails otherwise.*
* **C36 Removing zero rows keeps the constraint set** (partial) — Row lists; expected false (row 0 skipped): negation + `_partial`. *Holds for the two versions that also take the constants (rows exactly at the threshold may go either way) and for reduceColumns; the matrix-only version starts counting at row 1 and writes out of range or drops row 0.*
* **C37 LQR backward pass solves the linear-quadratic subproblem** (proved) — Matrices; completing the square. *Without control limits (with limits the value recursion of the code uses the unconstrained law).*
* **C38 LQR control limits are enforced at execution** (proved) — Recursion over the horizon.
* **C39 LQR solver: accepted cost decreases, failure leaves the trajectory** (proved) — Outer loop state machine with oracles.
* **C40 LQR solver terminates** (proved) — Measure on the regularisation; infinite-loop witness when minReg=0.
* **C41 LQR box-constrained controls reduce to the unconstrained optimum** (partial) — Expected false (half step): negation. *False of the code: the posed objective lacks the factor 1/2, so the result is half the unconstrained step; the calls go through the conic model of C05-C08.*
* **C42 Finite-difference models are exact on linear-quadratic problems** (proved) — Central differences; algebra.
* **C43 Contact plan to activation sequence** (partial) — Nested loops as folds over a map; invariant. *Full property proved for plans without overlapping contacts; false of the code for overlapping contacts (activation ids skip values; witness).*
* **C44 Refilling an activation sequence** (partial) — Expected false: negation; `_partial`. *False of the code: stale activations are never cleared (proved for every sequence).*
* **C45 Terrain half-space description contains exactly the polygon** (proved) — Vectors in R^3; convex combination.
* **C46 Friction cone approximation respects Coulomb friction** (partial) — Expected false (outer approximation): negation; `_partial` (contains the Coulomb cone, factor sqrt 2). *Second-order-cone option proved exact; false of the linear pyramid (admits sqrt(2) times the friction); the partial theorem gives the exact admitted set.*
* **C47 Momentum dynamics constraints integrate to momentum conservation** (partial) — Induction over the horizon. *Proved (iff) for fixed timing; false with optimised timing: the external push is dropped.*
* **C48 Convex torque decomposition is exact when tight** (proved) — Algebra.
* **C49 Storing the optimised dynamics stays in bounds** (partial) — Expected false (write at index n): ub outcome; negation. *False of the code: CoM and momenta are written at index t+1, beyond the sequence.*
* **C50 Momentum feedback controller stays in bounds** (partial) — Expected false: ub outcome; negation. *False of the code: the final cost reads one state beyond the reference sequence.*
* **C51 Rotation maps are mutually inverse and unit norm** (partial) — Quaternions as 4-tuples over the reals. *Integration reaches the goal outside the small-angle branch, except for exact half turns opposite to the goal, where it is false of the code (witness); inside the small-angle branch the maps are not inverse (proved).*
* **C52 Quaternion matrices represent quaternion products** (proved) — Same.
* **C53 End-effector trajectories meet their boundary conditions** (partial) — Linear system rows; polynomial evaluation. *Proved for exact linear solves with different start and end times; false at time 0 (velocity and acceleration are not numbers).*
* **C54 Settings read back what was written** (partial) — Parameter tables as inductive types; finite case analysis. *Proved for the conic and LQR settings; false for exactly six planner parameters, which the const getter returns and the non-const getter rejects.*
* **C55 Minimum-jerk polynomial evaluation and lookup** (partial) — Polynomials as lists; derivative via Mathlib. *For exact linear solves. False for polynomials given by a single non-constant row (the derivative is reported as 0) and for fitting twice.*
* **C56 Expanded cone scaling represents the squared scaling** (proved) — Expanded representation of the squared scaling (ConicVector/Cone) as quadratic forms over reals; algebra.
* **C57 Linearised time-optimal dynamics** (proved) — Dynamics rows with optimised durations as expressions; evaluation at the linearisation point.
* **C58 Feedback model agrees with the planned dynamics** (proved) — Feedback model matrices; one step compared with the rows of C47. *Under the stated modelling differences: no external push, zero centers of pressure and contact torques.*
* **C59 Swing phases cover exactly the steps without contact** (partial) — Flight phases computed from activations by the code's loops; invariants, out-of-range read as an outcome. *Proved for contacts separated by at least one step and consistent initial activation; false otherwise (reads beyond the sequence).*
* **C60 Flags shared between solver threads are synchronised** (partial) — Same transition system as C34 with the accesses labelled by the held locks; negation by a concrete run. *False of the code: the worker reads the stop flag without the mutex.*
* **C61 Stored nullspace maps stay within their array** (partial) — Counter of stored maps as part of the state; invariant for <= 7, witness beyond. *False of the code: more than 7 requests without a reset write outside the array.*
* **C62 Interval of uncertainty of the More-Thuente search** (proved) — The interval update as a function on three points; order and length invariants over all iterations.
* **C63 L-BFGS keeps descent directions** (proved) — Curvature of stored pairs positive, hence C31's form is positive definite; invariant of the outer loop.
* **C64 LQR backward pass never fails on convex problems** (proved) — Positive definiteness propagated backwards through the recursion of C37/C38.
* **C65 LQR success message means the backward pass succeeded** (partial) — The outer loop of C39 with the status message as an outcome; witness. *False of the code when the regularisation exceeds its limit on the first iteration (witness).*
* **C66 LQR solves convex linear-quadratic problems in one step** (proved) — Forward pass with step one on a linear-quadratic problem; induction over the horizon.
* **C67 Angular velocities from rotation-vector rates are the true ones** (proved) — Rotation vectors and their derivative (HasDerivAt) against the code's Jacobian.
* **C68 World and body angular velocities agree** (proved) — Matrix identities of the two Jacobians.
* **C69 The required angular velocity is the constant one** (partial) — Witness with non-parallel axes; equality for parallel ones. *False of the code unless the rotation is about the axis of the current orientation (witness): the logarithm of the increment is treated as a rate of the rotation vector.*
* **C70 The orientation error measures the rotation between two orientations** (partial) — Quaternion algebra on 4-tuples. *Rotating by the error is exact only outside the small-angle branch, as C51_violated shows.*
* **C71 Terrain normal and rotation follow the corners** (partial) — Vectors in R^3, first three corners; sign and orthogonality computed. *False of the code: the reported normal is always the opposite one; the rotation is a rotation matrix exactly when the first corner angle is a right angle.*
* **C72 Terrain regions are kept in order** (proved) — Insertion keeps the list sorted; induction.
* **C73 Settings parameters are independent** (partial) — Setter/getter tables as finite maps; injectivity of the member assignment by case analysis. *Proved for the conic and LQR settings; false for exactly one pair of planner parameters (RobotWeight, MassTimesGravity), which share a member.*
* **C74 Loaded planner settings agree with the file** (partial) — YAML loading as a sequence of reads that may raise; induction. *Holds when nothing was thrown, in particular for every complete file; false otherwise since the error is only printed.*
* **C75 The number of time steps follows horizon and step** (partial) — State machine of set/load; witness. *Holds after loading and after writes to other parameters; false after a write to the time step.*
* **C76 LQR line search tries decreasing step lengths** (proved) — Powers of the contraction factor.
* **C77 Interior point line search is safe** (proved) — Line search over cone blocks (max step) modelled with square roots; membership of the next iterate.
* **C78 Interior point iterates stay inside the cones** (proved) — Induction over iterations with C77.
* **C79 Interior point steps shrink all residuals alike** (proved) — Affine residuals along the direction; algebra.
* **C80 Infeasibility exit codes carry certificates** (proved) — Exit tests give certificates (Farkas type) by cone duality.
* **C81 Swing orientation goes monotonically to its target** (proved) — Slerp parameter of the code's query; monotonicity.
* **C82 Swing trajectories join the contacts** (partial) — Rows of the swing polynomial system; witness for single-step phases (contradictory rows). *Flight phases of at least two steps; false for single-step phases, whose conditions contradict each other.*
* **C83 The kinematics contact plan is read off the activations** (partial) — Contact extraction loop as a fold over activations; invariant. *Proved for end-effectors in contact at the first step and phases ending before the last step; the contact lasting to the end of the horizon is dropped, and an initial swing phase is entered as a contact.*
* **C84 Kinematic end-effector references follow the contacts** (partial) — min_jerk coefficients through the linear system; piecewise evaluation. *Proved for exact linear solves and the contacts of the contact plan; false for an end-effector that never moves (raises) and for the last contact (ignored).*
* **C85 Via point interpolation passes through its via points** (proved) — As C84 for via points.
* **C86 Interior point fallback results never get worse** (proved) — Order of saved best iterates; invariant of the loop.
* **C87 Interior point steps shrink the complementarity gap** (proved) — Inner products along the Newton direction; algebra. *Exact linear solves (C23 and the refinement are separate properties).*
* **C88 The factorised matrix is the KKT matrix** (proved) — Bucket-sort permutation modelled with its index tables; entries as a multiset. *Exact reals; no empty second-order cone; no entry stored twice in A or G.*
* **C89 The linear solver returns the regularised Newton direction** (proved) — Quasi-definite operator, explicit regularisation; algebra on block rows. *The regularisation of the last auxiliary pivot leaves an explicit rank-one term in every second-order cone.*
* **C90 Iterative refinement never makes the direction worse** (partial) — Refinement loop with an arbitrary factorisation; monotone residual; witness about the measured error. *Bound on the steps and monotonicity proved for every factorisation; the measured error is not the residual of the factorised system with second-order cones (wrong sign of the regularisation in the last entry, missing in the auxiliary row), so an exact solution is not recognised there.*
* **C91 Each rank of the real-time model is exactly its constraints** (proved) — Expressions over a variable map; rows composed by the model; equivalence with the constraints. *Models built with the constructor map of variables and without user-written composers.*
* **C92 The hierarchy is solved rank by rank and completely** (proved) — Ranks collected by the map loop; every level passed to the solver exactly once. *Constraints with a negative rank are silently ignored.*
* **C93 Levels declared without slacks are solved without slacks** (partial) — Search loop of the flag; witness. *Violated: the flag is set back to true after the search, so every level is solved with slacks.*
* **C94 Stacking constraints keeps the old rows and adds the new ones** (proved) — Matrix append with resize; entry equations.
* **C95 RtQP: a finite result is optimal** (partial) — Goldfarb-Idnani modelled with R, J, active set, zero tests at eps; invariant (primal/dual), KKT sufficiency; witness at machine epsilon. *Proved for runs in which the zero tests decide correctly (RtQP.Regular; always the case for eps = 0, C98). With the machine epsilon the statement is false: two witnesses.*
* **C96 RtQP: an infinite result means infeasible** (partial) — Same model, infeasibility exit gives a certificate. *Proved for runs in which the zero tests decide correctly; with the machine epsilon false: witness 1e-9 x + 1 <= 0.*
* **C97 RtQP: the solver returns** (partial) — Termination by strictly increasing value on a finite set of active sets; loop witness. *Proved for runs in which the zero tests decide correctly; false otherwise: every run without equalities in which the constraint just chosen is rejected loops forever, with a reachable witness.*
* **C98 RtQP: exact dual active-set method is correct** (proved) — C95-C97 at eps = 0. *Total correctness for eps = 0 (exact reals).*
* **C99 RtQP: Givens updates keep the factorisation** (proved) — Givens rotations on columns of J and R; orthogonality.
* **C100 RtHQP: lower priorities keep higher-priority equalities** (proved) — Null-space recursion with the SVD contract; induction over tasks. *The SVD and the QP solver enter through their contracts (SvdOk, QpOk).*
* **C101 RtHQP: each task is optimal given the earlier ones** (proved) — Same, least squares per level.
* **C102 RtHQP: inequalities met by a task stay met** (proved) — Same, stored inequality rows.
* **C103 RtHQP: a lower-priority task does not increase the violation of a higher-priority one** (partial) — Bound and witness. *Violated: a later task doubles the violation; only the bound v + m (v + relax + tol) holds.*
* **C104 RtHQP: nullspace dimension** (proved) — Rank count of the SVD contract.
* **C105 RtHQP: memory safety of the hierarchy** (partial) — Index bounds of the arrays; witness with eight tasks. *Proved for at most seven non-empty tasks; false beyond.*
* **C106 RtHQP: every level is solvable** (proved) — Feasible point for every level.
* **C107 RtHQP with RtQP: the composed solver is lexicographically optimal** (proved) — C98 used as the QP of C101; SVD existence proved from Mathlib's spectral theorem. *Zero tests at eps = 0; Eigen SVD and LLT through their contracts, which are shown to be satisfiable.*
* **C108 Kinematics: the trajectory problem is the discretised kinematics** (proved) — Constraints of the trajectory problem generated by the code's loops as Op lists of C07; semantics read off.
* **C109 Kinematics: the trajectory objective is the weighted tracking cost** (proved) — Objective terms of the same Op list.
* **C110 Kinematics: every variable entry gets its own column** (proved) — Column counters; injectivity.
* **C111 Kinematics: the returned trajectory is consistent** (partial) — Store step; prefix case proved, witness otherwise. *Proved when the active dofs are a prefix of the dofs; false otherwise.*
* **C112 Kinematics: inactive joints do not move** (partial) — Same. *Proved when the active dofs are a prefix of the dofs; false otherwise.*
* **C113 Kinematics: the posture iteration** (proved) — Posture loop as recursion with the solver as a parameter.
* **C114 Kinematics: momentum references do not influence the posture step** (proved) — Non-interference: two references, same result. *The constraint that would couple them (KinematicsOptimizer.cpp, total_qd) is commented out in the code.*
* **C115 Kinematics: number of problems solved by optimize** (proved) — Counting solver calls in the trace.
* **C116 Kinematics: the initial state** (proved) — Loop over the initial posture.
* **C117 Kinematics: the motion returned by optimize is consistent** (partial) — Composition of C111-C116. *Proved for prefix active dofs unless every trajectory problem fails; false otherwise.*
* **C118 Kinematics: replay of the motion** (proved) — Replay loop trace.
* **C119 Dynamics: the constraints of every problem are the limits of the plan and the centroidal dynamics** (proved) — Constraints of every time step generated as Op lists; semantic spec per step.
* **C120 Dynamics: the objective is the documented cost** (proved) — Objective of the same.
* **C121 Dynamics: registration of the variables** (proved) — Columns and bounds of registered variables.
* **C122 Dynamics: the solver problem is the planning problem** (proved) — Composition with C07/C08.
* **C123 Dynamics with fixed timing: the stored plan obeys the centroidal dynamics exactly** (proved) — Induction over time steps on the stored states.
* **C124 Dynamics with time optimisation: the stored plan is within the residual of an exact trajectory** (partial) — Residual formulas; witness for the angular momentum. *Holds for center of mass and linear momentum; false for the angular momentum of a converged iteration (old durations).*
* **C125 Dynamics with time optimisation: stopping rule** (partial) — Loop over time iterations as recursion with the solver as a parameter. *Bound and rule proved; false for the first plan: the loop tests convergence only after solving again.*
* **C126 Dynamics: calls of optimize are independent of earlier tracking calls** (partial) — State machine of calls; witness. *False: the tracking call overwrites the caller's momentum weights.*
* **C127 Dynamics: torque at the contact point** (proved) — Cross products in R^3.
* **C128 Dynamics: the center of mass stays above the supporting contacts** (partial) — Constraint read off C119; witness. *Holds with respect to the contact of end-effector 0 at step 0; false for later contacts.*
* **C129 Dynamics: accuracy of the trust-region heuristic** (proved) — Trust region and tangent formulas.
* **C130 Dynamics with time optimisation: the penalty vanishes at a tight fixed point** (partial) — Exact penalty value; witness. *The exact value of the penalty is proved; it vanishes only without motion.*
* **C131 QP wrapper solves the documented program** (partial) — Wrapper around quadprog (contract as hypothesis, shown satisfiable). *Given the contract of quadprog (proved satisfiable) the wrapper solves the documented program; for inconsistent constraints it raises instead of returning None.*
* **C132 First-order inverse kinematics returns the best tracking velocity** (proved) — Hessian/gradient assembled row by row as in the code; equality with the weighted tracking cost.
* **C133 Inverse kinematics does not depend on earlier calls** (proved) — Cache of pinocchio data as state; induction over histories.
* **C134 Kinematic trajectory follows from the plan step by step** (proved) — Loop of optimize with numpy views as references; induction.
* **C135 Ballistic momentum in flight phases** (proved) — Invariant of the flight variables. *The momentum carried over is that of the last contact velocity at the configuration before it; vertical momentum starts from the planned one.*
* **C136 Kinematics optimization returns for every plan** (partial) — Exceptions as none; witness and sufficient condition. *Returns when the first step has a contact (and any momentum is attainable); raises when the plan starts in the air.*
* **C137 Dynamics data kept by the kinematics optimizer stay those of the plan** (partial) — Array aliasing modelled; witness and frame condition. *Rows of steps before a flight phase are overwritten through a numpy view; all other rows are those of the plan.*
* **C138 Kinematics optimization depends on its arguments only** (partial) — Two histories, same initial configuration. *Independent of history except that the initial state of the first call is used for ever.*
* **C139 Recorded kinematic results are consistent** (partial) — Rows recorded; witness for the velocity. *Everything but the end-effector velocity is consistent; that uses the Jacobian of the previous configuration.*
* **C140 Messages of the search for the initial configuration are truthful** (partial) — Search loop with its messages; the step is characterised by C132. *Failure is also printed when the configuration was found in the last iteration; budget 0 raises.*
* **C141 Interpolated plan quantities are piecewise linear through the plan's samples** (proved) — Sample search by argmin and linear interpolation; piecewise linear spec.
* **C142 The time vector accumulates the durations of the time steps** (proved) — Recursion over durations.
* **C143 Files of create_file sample the plan every millisecond** (partial) — Row loop of the exporter. *Rows proved; exported quaternions have norm at most one, not one.*
* **C144 Files of create_qp_files and create_lqr_files hold the right quantities of the right legs** (partial) — Column assignments of the exporter. *All but: quadruped_velocities.dat holds end-effector velocities, and the two exporters order the legs of the absolute positions differently.*
* **C145 Simulator maps joints and frames consistently** (partial) — Name lists and index maps; involution characterisation. *Round trip proved; torques are right exactly for joint orders that are involutions.*
* **C146 The executor applies the planned forces of the current time step** (partial) — Search of the time id; witnesses. *Right while the plan lasts when time steps last at least 1 ms; plans ending before 3.999 s raise; shorter steps lag.*
* **C147 Momentum feedback uses the velocity of the robot** (partial) — Velocity estimate per pass; witness. *The time since the start is used instead of the time since the previous pass.*
* **C148 Commanded torques respect the limits** (proved) — Two masked assignments; case analysis.
* **C149 Recorded swing times are the swing phases** (partial) — State machine over readings; maximal runs. *Maximal runs of readings proved; without a contact point there is no reading, so swing phases clear of the ground are not recorded.*
* **C150 Exported contact flags agree with the planned contact phases** (partial) — Flag rule per row; witness. *The flag is raised when either of the two neighbouring samples is loaded.*
* **C151 The weighted second-order step is the optimal acceleration** (proved) — Reduced to C132 by choosing virtual references; independent cost.
* **C152 The hierarchical second-order step respects the priorities** (partial) — Moore-Penrose contract (existence proved); two-level least squares; witness. *Proved for four end-effectors; for any other number the slice J[6:18] mixes in joint rows.*
* **C153 The second-order inverse kinematics follows the whole plan in time** (partial) — Nested loops with the code's own time; semi-implicit Euler as a relation. *Right for time steps that are whole milliseconds; others drop the fraction, and steps below 1 ms raise.*
* **C154 Rows of the second-order inverse kinematics are consistent** (partial) — Recorded rows; witness on a fresh object. *End-effector velocities stored by optimize use the Jacobian of the search for the initial configuration.*
* **C155 The stored LQR gains are the optimal feedback** (proved) — `PyLqr` models the Riccati recursion of both scripts for any dimensions; induction over the horizon with the quadratic value function, completing the square, gives unique optimality over all control sequences.
* **C156 The rows of the centroidal gains belong to the rows of the trajectory** (partial) — Same model with the loop range of the centroidal class; the result is the tail of the full sequence of gains (partial), a three-sample trajectory shows the missing first gain. *The loop of the centroidal version stops before time step 0; row i belongs to time step i+1.*
* **C157 The analytic linearisation is the derivative of the centroidal dynamics** (partial) — `PyLqr.dyn`, `linDyn` as functions of the 13 numbers of the state; rows are quadratic along every line, so that derivatives are read off; characterisation (iff) of the states at which each row is right, and witnesses. *Two signs of pd_omega are wrong and the inertia is not turned; exact characterisation of when the rows are right.*
* **C158 The end-effector dynamics use the right moments and inertia** (partial) — `PyLqr.rCross`, `effDyn`; compared with Mathlib's cross product and the equation of angular motion; iff upright, two witnesses. *Sign error in the third row of compute_r_cross, inertia turned by the inverse rotation.*
* **C159 The shipped script stores a stabilising feedback** (partial) — With the zero weight the value matrix stays zero by induction over the horizon. *The script overwrites its state weight with zeros, so that all gains are zero.*
* **C160 The gain files hold the gains row by row** (proved) — `PyLqr.flat`, `gainFile` as list functions; index arithmetic.
* **C161 The finite differences of the end-effector version are derivatives** (partial) — `PyLqr.effLin` with the step to the next sample; rows are affine in every single entry, hence difference quotients with any step are derivatives. *Exact except for the controls just before a flight phase.*
* **C162 The linearised angular acceleration depends on the centre of mass** (partial) — Same model; the angular rows depend on the quaternion only. *compute_dyn uses the stored centre of mass, not the one of the state.*
* **C163 Quaternion products and rotation matrices of the manifold class agree** (proved) — `PyMan.prod`, `toRot` compared with Mathlib's quaternions; ring identities.
* **C164 exp_quaternion is the exponential map** (partial) — `PyMan.expQ` compared with `NormedSpace.exp` on Mathlib's quaternions; bounds on the remainder of sine and cosine for the small branch. *Exact beyond the threshold; below it a truncated series, off by at most 1e-13 and never of norm one.*
* **C165 integrate_step is an Euler step of the Newton-Euler equations** (proved) — `PyMan.step`; positive definiteness of the turned inertia iff the quaternion is not zero; equations of motion as specification.
* **C166 The reference trajectory keeps unit quaternions** (partial) — Induction over the steps with the norm of `expQ` from C164. *Never fails, the norm drifts by at most a factor 1 - 1e-12/12 (squared norm) per step; it does drift for every slow rotation.*
* **C167 quaternion_difference and integrate_quaternion are inverse to each other** (partial) — `PyMan.qdiff`, `integ`, with `arctan2` as `Complex.arg`; trigonometric identities outside the small branch, explicit witness inside. *Exact outside the branches for small arguments, which are not inverse to each other.*
* **C168 The difference of states depends on the orientations only** (partial) — Witness pair of opposite quaternions; C167 for the orientation reached. *Opposite quaternions give differences of different length.*
* **C169 dynamics_derivatives returns the derivatives of the step** (partial) — Antisymmetry of `diff`; induction over the pass for the independence of the gains of the sign. *The matrices are the negatives of the difference quotients; the stored gains do not depend on the sign.*
* **C170 cost_dxdx returns the second derivatives of the cost** (partial) — Loop invariant of the two nested loops of `cost_dxdx` (`cols`, `rows`) gives the exact result; the true second differences as specification. *Line 295 subtracts instead of adding eps; exact formula of the result, which is indefinite with the weights of the script.*
* **C171 compute_value_function minimises over the wrench** (partial) — Completing the square; smoothing branch: identity for constant and linear part, witness for the quadratic part. *Holds when Qdudu is positive definite; with the smoothed inverse the second derivative of the value function is wrong.*
* **C172 compute_gains solves the linear-quadratic problem of the plan** (partial) — Induction over the stages with C171; the default weights are refuted by a moment along which the curvature is negative, for every orientation. *Holds when all Qdudu are positive definite, which fails with the weights of the script for every plan ending in contact.*
* **C173 No feedback in flight** (proved) — Index of the pass and `fu = 0` in flight.
* **C174 Gains depend on the future only** (proved) — Congruence of stages and the closed form of row t.
* **C175 Loading a contact plan** (proved) — The loader over a per-end-effector option of rows; loop invariant on contents, identifiers and count.
* **C176 A failed load of a contact plan leaves the sequence consistent** (partial) — The same model stopped at the first row that cannot be read; witness with two plans. *An exception half-way leaves a mixture of old and new contacts.*
* **C177 Placement of a contact is set and read consistently** (proved) — Shepperd's conversion as Eigen does it, all four branches; every rotation comes from a unit quaternion.
* **C178 Placement of a contact read from a file is rigid** (partial) — Entries of the matrix of a non-unit quaternion. *The quaternion of the file is not normalised; exact characterisation of when the placement is rigid.*
* **C179 Initial robot state from file** (partial) — State machine over the reads; witness with a missing force. *Holds when everything can be read; otherwise a mixture is left and the exception swallowed.*
* **C180 Generalised coordinates are the concatenation of their parts** (proved) — Lists with their lengths; vectors split by position.
* **C181 Python setters of a dynamics state change what they name** (partial) — Setters as bound, Function.update on the fields. *setEffTorque writes the position.*
* **C182 optimize_motion alternates the two optimisers** (proved) — Abstract optimisers; induction on the iterations.
* **C183 Command line of the planner** (partial) — Model of getopt on lists of characters with prefix matching, then the option loop. *The feedback cannot be switched on.*
* **C184 Initial configuration of the robot wrappers is the same for every leg** (partial) — Python slice assignment. *The slices for three joints per leg set only the first leg as intended.*
* **C185 Floor constraints of the kinematics interface** (partial) — Frame with rotation, translation and local jacobian; attribute binding as a table of what is a property. *A property is called, the results are stored under names the C++ side does not read, and the rows use the local axes.*
* **C186 Wrapper jacobians are expressed in the world axes** (proved) — Matrix algebra on the block rotation.
* **C187 Frame placement belongs to the configuration set** (partial) — State of the wrapper: configuration and configuration of the last kinematics call. *set_configuration does not recompute the placements.*
* **C188 Feed-forward torques do the work of the planned forces** (partial) — Virtual work identity; recursion of the configuration over passes. *Holds at the configuration the jacobian belongs to, which is not the measured one.*
* **C189 Recorded contact forces** (partial) — Dictionary of feet, fold over the contact points. *Labels are exchanged diagonally; only the last contact point of a foot counts.*
* **C190 Drawing helpers of the planner** (proved) — Polynomial identities, telescoping.
* **C191 Weighted norm of a list** (proved) — Induction over the list.
* **C192 Branching restricts exactly the chosen binaries** (proved) — The rows of the binaries come first in the inequality system; the decided rows are compared with the rebuilt ones row by row; equilibrated data by induction over the decisions.
* **C193 Branch and bound compares objective values** (partial) — Sum of c/e times x; concrete problem whose scaling vector is computed for every number of rounds by an invariant on the matrix. *The stored cost is divided by the scaling while the vector is scaled back: the ranking is right without equilibration, reversed in a problem with two binaries for any number of rounds.*
* **C194 Optimal for a mixed-binary problem means feasible, integral and near-optimal** (partial) — Instantiate C24-C26 with the relaxations of the standard form (C192) and lift to the user's problem with C07, C08. *Holds for an exact relaxation solver and no equilibration; an infeasible root relaxation with integral entries is reported Optimal.*
* **C195 The real-time QP has exactly the constraints handed over since the reset** (proved) — `RtQPIf.build` over lists of calls with arbitrary resize memory; induction over the calls with C94.
* **C196 checkSolution of the real-time QP accepts exactly the points feasible up to the thresholds** (proved) — `RtQPIf.checkSolution`, `report`; sums of squares against the thresholds.
* **C197 computeOptimalityCondition of the real-time QP is zero exactly at the solutions** (partial) — `RtQPIf.optCondition` with the loop over the inequalities; least squares residual zero iff the gradient is orthogonal to all directions free for the collected columns; first-order condition along lines. Witness with one active inequality. *Zero at every minimiser; zero characterised exactly; but zero also at a feasible point whose active inequality has a multiplier of the wrong sign.*
* **C198 computeSigmaPinv returns the pseudo-inverse of the singular values** (partial) — `RtQPIf.sigmaPinv`; loop specification; entries beyond the first small value unchanged. *Right if at most the last singular value is small; otherwise later entries keep old content, and the last line always addresses one entry too many.*
* **C199 conditionNumber bounds the amplification of relative errors** (proved) — `RtQPIf.condNumber` with the contract of the SVD from C100; bounds in the basis of singular vectors.
* **C200 Arithmetic of control sequences** (partial) — `LqrSeq.add`, `scale`, `assign` (with a flag for aliasing); induction over the sequences. Witness: every non-empty sequence. *All but self-assignment and assignment of an empty sequence.*
* **C201 initialize makes a fresh trajectory** (partial) — `LqrSeq.Obj.initialize` on an arbitrary previous object; list lengths. *Holds for a new problem; on re-initialisation the old states stay in front.*
* **C202 A solver can be given another problem** (partial) — `LqrSeq.Parts.initialize` over any list of problems; induction over the calls. *Holds for repeated initialisation with one problem; with another problem the derivatives are those of the first.*
* **C203 A stored LQR solution can be loaded** (partial) — `LqrSeq.store`, `load` with the loop; loop specification, round trip of the feedback; witness for states and feedforward. *The file is complete; only the feedback is loaded.*
* **C204 Order of the integration scheme** (proved) — `Lqr.step` on linear dynamics: closed form as a Taylor polynomial; mean value form of the remainder for the exact solution.
* **C205 LbfgsSolver works on its own problem** (partial) — `Lbfgs.Step` on a heap of solver objects whose callback buffer names an object; invariant over histories without copies. Witness: a copy initialised with another problem. *Holds for all histories without copies; a copied solver evaluates the problem of the original.*
* **C206 LbfgsSolver never returns a worse point** (proved) — C205 composed with the invariant of the main loop of L-BFGS for every way to stop. *Histories without copies.*
* **C207 Meaning of the constraint penalty** (proved) — `penalised` rewritten as objective plus weight times squared distance; exchange arguments between minimisers.
* **C208 Accuracy of the numerical gradient** (proved) — `evaluate` is the central difference; fencing theorem for derivatives, once and twice.
* **C209 Success of L-BFGS on convex problems** (proved) — Gradient, coordinate-wise Lipschitz constant and convexity of `penalised`; tangent inequality, C208 and the exit codes of C30.
* **C210 Sensitivity of the forward pass to the initial state** (proved) — Stage-by-stage Lipschitz bound of `Lqr.step` against the Taylor polynomial of `exp`; induction over the horizon (discrete Gronwall).
* **C211 Accuracy of the forward pass over the whole horizon** (proved) — C204 (local error) and C210 on the states of `applyController`; mean value theorem for the Euler step of a nonlinear system. *Runge-Kutta: linear systems.*
* **C212 Interactive tuning sets exactly the gains typed** (proved) — `ExecTune.tunePD` on lists of lines; induction over the edits and the wrong lines.
* **C213 Each joint is controlled with its own gains** (partial) — `ExecTune.pdTorque` with the position of a joint in pinocchio; unit gains as counterexample, and the concrete order of legs. *Holds exactly if the joints are listed in the order of pinocchio.*
* **C214 Momentum reported by the executor** (partial) — `ExecTune.momentumRows` as a loop carrying the configuration of the pass before; induction. *All rows but the first.*
* **C215 Finite-difference derivatives of smooth problems are true derivatives nearby** (proved) — Mean value theorem on the line through the trajectory point; smoothness of `Lqr.step` by composition.
* **C216 Second finite differences are true second derivatives nearby** (proved) — Mean value theorem twice on the difference of differences.
* **C217 Arithmetic of conic vectors** (proved) — `Cone.addHeads` as identity multiple; blockwise product and division of C16, C17.
* **C218 The solver gets exactly the stated problem** (proved) — `ConicStore.toStorage` (setFromTriplets by its documentation); column bounds by induction over the loops of `buildProblem`, row bounds from the row specification of C07.
* **C219 Optimal exit: the user's constraints hold up to the tolerance** (proved) — Composition: C218, C20, C21 and a perturbation bound for each row of the standard form (`ConicNear`).
* **C220 Optimal exit: the user's objective is nearly minimal** (proved) — C21_near_optimal against the tight extension of a user point (C07, C08), perturbed squares for the returned point.
* **C221 Infeasible exit: the user's constraints have no solution of moderate size** (proved) — C80 on the equilibrated problem, with feasible points scaled by C20.
* **C222 Optimal exit: the plan of the dynamics optimiser meets limits and dynamics up to the tolerance** (proved) — Composition of C119, C120 (constraints and objective of `Verif.DynOpt`) with C219 and C220; every kind of constraint perturbed separately (`near_cons`).
* **C223 Errors of the dynamics add up at most linearly** (proved) — Induction over the time steps of the perturbed recursions.
* **C224 Angular momentum of the trust-region heuristic against the true cross products** (proved) — C223 plus the difference-of-squares identity of C46 at the perturbed bounds.
* **C225 Optimal exit: the motion plan of the kinematics optimiser** (proved) — Composition of C108, C109 with C219 and C220 (`qp_end`).
* **C226 Optimal exit: posture steps stay within joint limits without drift** (proved) — Composition of C113 with C219 and C220; induction over the posture loop.
* **C227 The line search's interpolation formulas minimise the interpolants, and the next trial lies strictly inside the bracket** (proved) — Normal forms of the formulas (the scaling cancels), the interpolating cubic along the line between the two points, sign analysis of numerator and denominator (`Verif.LbfgsInterp`). *Real arithmetic; non-vacuity in Lbfgs.C227_example.*
* **C228 The line search takes longer steps as long as the objective keeps decreasing** (partial) — Same normal forms; the violation is a run of the modelled search on `-4z+3z^2-z^3`, where the code tests the sign of theta instead of the direction (LbfgsSolver.cpp:801). *The full statement is false of the code: when the interpolating cubic has no minimum, the limit to extrapolate to is chosen by the sign of theta instead of the direction, so the search can fall back to the smallest step. Proved: longer steps whenever the slope steepens or the interpolating cubic increases somewhere.*
* **C229 Dynamics: the saved file holds the plan time step by time step** (partial) — Model of `saveToFile` (`Verif.DynSave`) with failing column assignments; induction over the columns, composed with the loop over the time iterations (`loop_stored`). *The full statement is false of the code: the saved centres of pressure have one column per active time step. Proved for everything else, and by active time step for the centres of pressure.*
* **C230 Dynamics: switching storing on does not make optimize fail** (partial) — Characterisation of the calls of `saveToFile` that do not fail; witness with the joint numbers of a shipped configuration. *The full statement is false of the code: it fails when not all joints are active. Proved: exactly when saving works.*
* **C231 Feedback of saturated controls is switched off** (proved) — The loop of the backward pass with and without limits computes the same value function (induction); the feedback rows follow from the model of `findConstrainedControls`.
* **C232 Everything in the configuration file reaches the planner settings** (proved) — Establish/preserve calculus over the statements of `initialize` (`Est`, `Pres`, `DependsOn`): each block establishes its keys, all later statements preserve them (`Verif.SettingsLoad`).
* **C233 The planner hands the gains of the file to the kinematics optimisation** (partial) — Model of `init_from_settings` as a list of assignments; induction over the list, composed with C232 (`Verif.PyInit`); witnesses for the two violations. *The full statement is false of the code: with the second-order formulation the initial posture is found with the constructor defaults of the first-order solver, and without load_kinematics the formulation is whatever the object held. Proved for the formulation the file selects.*
* **C234 The real-time model solves the hierarchy of constraints that was added** (proved) — The loop of `RtModel::solve` instantiated with the model of the hierarchical solver (`asHqp`); the point returned is the solution of the tasks of all ranks (induction over the loop, ranks without calls and ranks after the freedom is used up change nothing); composed with C91, C106 and C107 (`Verif.RtSolve`). *Exact arithmetic and factorisations; memory safety for more than seven non-empty ranks is C105.*
* **C235 Lower priorities of the real-time model leave higher ones alone** (proved) — Same reduction, composed with C100 and C102 (`Verif.RtSolve`).
* **C236 The planned motion respects the contacts of the plan** (proved) — `DynPlan` models the way from the file over `fillDynamicsSequence` to the plan of the dynamics optimiser (`toPlan`); the filled slot of every step is computed (`filled_slot`), the hypotheses `Ok` and `Frames` of C222 follow, and its conclusion is restated with the contacts (`DynPlanProps`). *Exact arithmetic. Asks that end-effector 0 has a contact at the first step (the optimiser reads the height of that contact; otherwise C237).*
* **C237 Only existing contacts are looked up** (partial) — `DynPlan.lookups` lists the lookups of lines 262, 299, 301 ff.; a lookup is in range iff a contact covers the step; the plan with a flight phase is the witness. *The full statement is false of the code: the type of the contact is read before it is checked that there is one; every lookup is in range exactly if every end-effector has a contact at every time step.*
* **C238 Optimising again uses the new plan only** (partial) — `filled` applied twice; same plan: idempotent by the characterisation of the slots; two plans: activations are the union, with a witness that has no variable for an active step. *The full statement is false of the code: activations of an earlier plan are not removed.*
* **C239 Swing orientation starts and ends at the contacts' orientations** (proved) — Eigen's `slerp` modelled after its source (`Verif.Slerp`); evaluation at 0 and 1. *Exact arithmetic; Eigen is external and modelled after its source.*
* **C240 Swing orientation turns uniformly along the shorter way** (proved) — Inner products of interpolated unit quaternions by the addition theorems; the almost parallel branch by an estimate. *Exact arithmetic; Eigen is external and modelled after its source.*
* **C241 End-effector trajectories follow the contact plan** (proved) — `Verif.Swing` models `updateEndeffectorTrajectories` with all phases of all end-effectors; induction over the contacts shows that the phases written are exactly the gaps between the contact intervals, each once (`mid_legs`, `effector_legs`, `flyAll_in`); every phase by C53, C81 and C239; the activations and poses it starts from by C236's `filled` (`SwingProps`). *Exact arithmetic and an exact linear solver. Phases of a single step are excluded (see C82), and the via point is constrained only where the list has one (see C242).*
* **C242 The trajectory of an end-effector depends only on its own data** (partial) — The via point variable is threaded through the phases in the model; with a via point for every phase its old value does not matter (induction over the phases); witness with a plan without via points. *The full statement is false of the code: the via point variable is shared by all end-effectors and not initialised. Proved for end-effectors with a via point for each of their phases.*
* **C243 Via points of the file are passed** (proved) — Model of `ViapointSequence::loadFromFile` (`Verif.ViaLoad`), induction over end-effectors and rows as for C175; composition with C241.
* **C244 A contact plan written in Python is the plan that was written** (proved) — Model of the bindings as a small heap of arrays, objects and lists of contacts (`Verif.PyPlan`); induction over the script, with the content of an array specified by the last write (`Holds`). *pybind11 is external: its copies of Eigen vectors and of list elements are part of the model.*
* **C245 The optimiser respects the contacts written in Python** (proved) — The contacts that carry are those of the script (`carries_script`), then C236. *Exact arithmetic.*
* **C246 The length of a motion can be changed from Python** (proved) — Getter and setter tables of C54 and C73.
* **C247 optimize() of the contact planner keeps contacts added in Python** (partial) — Violated: `loadFromFile` clears the lists; what holds when the file cannot be opened. *The full statement is false of the code: the lists are cleared before the contacts of the file are stored. It holds when the file cannot be opened.*
* **C248 The conic solver's steps never divide by zero and shrink all residuals at a common rate** (proved) — Induction over the passes (`Visits`) with C79 and C87 for one step; the range of centering and step length from the settings; the division is positive because the KKT system is skew (`Verif.IPRate`). *Exact arithmetic and an exact linear solver (the code regularises and refines; see C23, C88-C90).*
* **C249 The number of iterations of an exact solve is bounded independently of the iteration limit** (proved) — C248 at the pass in which the power of the factor is below the tolerances, and the cases of the loop body. *Exact arithmetic and an exact linear solver; asks for a lower bound of tau.*
* **C250 The iterates of an exact solve stay bounded; kappa vanishes on solvable problems and tau on infeasible ones** (proved) — The homogeneous embedding is skew (`skew`): complementarity of an iterate with the initial one, with a solution and with a certificate. *Exact arithmetic and an exact linear solver.*
* **C251 Loading the conic solver's settings sets every parameter from its key** (proved) — The reads as a list of keys and members (`Verif.SettingsInit`); induction over the list; a table parameter -> key as specification. *yaml-cpp is outside the model: a section is a partial map from key and type to values.*
* **C252 Loading the LQR settings sets parameters, line-search steps, horizon and limits from the file** (proved) — The statements of the try block in order; frame reasoning over the members. *A time step of zero (undefined conversion in C++) gives zero steps in the model; a write past the end of the coefficient vector counts as a failed load.*
* **C253 A load of solver settings that returns has loaded the file** (partial) — Counterexample by evaluation on a malformed file; the rest from C251_returns. *The full statement is false of the code: a parse error is caught, printed and forgotten. Missing files, sections and values are reported.*
* **C254 The shipped solver settings meet the prerequisites of the interior-point method** (proved) — C251 on the transcribed file, then C249_finite. *The entries of the shipped file are transcribed.*
* **C255 The relative-decrease stopping rule of the L-BFGS solver** (partial) — The test of lbfgs:371-392 in the loop model (`Verif.Lbfgs`); sign analysis of the quotient; concrete run on a shifted bowl. *violated by the code for negative objective values (C255_negative_violated for every problem, C255_violated with a concrete run); exact for positive values*
* **C256 The rank-one-update QP solver stays inside its arrays** (partial) — The model of solveQP has a program counter `ub` for out-of-range accesses; invariant on the active set (distinct, in range, iq at most n and p+m) by induction over the steps; counterexamples by evaluating the model. *violated by the code (overdetermined equalities; a rejection while equalities are active); holds for p <= n up to the first rejection, for any data and any outcome of the zero tests*
* **C257 L-BFGS converges linearly on smooth strongly convex objectives** (proved) — Invariant over the loop model: every stored pair satisfies mu|s|^2 <= y.s and |y| <= L|s|, hence the two-loop operator is bounded above and below and directions keep a minimal cosine; curvature or rejected-double condition excludes short steps, so every iteration gains a multiple of the squared gradient; Polyak-Lojasiewicz inequality gives the rate; the gradient test gives the iteration bound; rejected Armijo steps are longer than a bound, so the search ends with success. *Exact arithmetic. Success of the search is shown for Armijo backtracking; the other searches can end with an error code (limits on evaluations), the rate and the iteration bound hold for all four.*
* **C258 The viewer shows the saved plan** (partial) — The reader of the viewer is modelled on the file produced by the model of saveToFile; row-wise reading and differencing by list lemmas, quat2mat equals the rotation matrix used by the planner entry by entry, contacts via the loader theorem C175. *violated for plans of a single time step, whose time vector is squeezed to a scalar; every longer plan is shown, and the contacts always are*
* **C259 Runge-Kutta integration is of fourth order on nonlinear systems** (proved) — Taylor remainders of the motion by induction on the order; Simpson's rule for the exact increment; the stage errors are expressed through the derivative of g at the midpoint, where the combination 2(e2+e3)+e4 of the stage errors is of fourth order; local error of fifth order, then the discrete Gronwall argument of C210. *Exact arithmetic. The smoothness of the motion is a hypothesis.*
* **C260 Accuracy of the rotation maps at small angles** (proved) — Both branches of both maps are compared with the exact formulas through bounds on sine, cosine and the reciprocal square root; multiplication by a unit quaternion keeps distances, which carries the bound to the orientation error and to the angular velocities. *Exact arithmetic. Complements C51 and C70, which are exact outside the small-angle branches.*
* **C261 The number of time steps in double precision** (partial) — Doubles as m 2^e with 53-bit m, rounding as any function returning a nearest double; relative error by the logarithm of the argument, monotonicity, uniqueness of the nearest double away from midpoints; error analysis of the rounded quotient and its integer part; explicit doubles for the witness. *Rounding to nearest after every operation, any rule for ties. False: horizon 1.2 with time step 0.1 gives 11 steps. Proved: never more than one step is lost, exact for representable numbers, for horizons that are not multiples, and for all shipped files.*
* **C262 Activation of contacts in double precision** (partial) — Error bounds of the rounded product against the rounded contact time; monotonicity of rounding where the stored time step is not below the written one; explicit doubles for the witness. *Rounding to nearest, any rule for ties. False for the time step 0.15 and contact times 1.35, 2.7. Proved: exact for time steps stored rounded up (0.1, 0.01, 0.005), for contact times away from the grid, and strictly inside and outside always.*
* **C263 Counts of milliseconds in double precision** (partial) — Induction over the rounded sums gives a relative error linear in the number of terms; rounding to the nearest integer absorbs it. The quotient as in C261. *The number of rows is proved for every plan; the number of inner steps is false for 43 ms (42 steps) and otherwise at most one too small.*
* **C264 Accumulated times of a plan in double precision** (proved) — Induction over the rounded sums: each addition multiplies the error by one unit of roundoff; the duration exceeds the rounding error of the sum, hence strict monotonicity. *Rounding to nearest, any rule for ties.*
* **C265 Command line of the C++ demo** (partial) — Case analysis of the argument list. *The documented call works and wrong numbers of arguments print the usage; every other first argument is accepted, and after "i" the name is ignored.*
* **C266 L-BFGS work and termination in machine arithmetic** (proved) — The solver is modelled a second time over an arbitrary arithmetic (a class of operations without laws). Induction over the line search loops (their counter) and over the remaining iterations. *Every double operation of the source is an operation of an arbitrary arithmetic, in the order of the source; nothing is assumed of it. run_real: with exact real arithmetic this model is the one of C27-C33.*
* **C267 L-BFGS results in machine arithmetic** (proved) — Invariant of the main loop in the model over an arbitrary arithmetic; case analysis of the exits. *Arbitrary arithmetic, nothing assumed of it.*
* **C268 L-BFGS never increases the objective in machine arithmetic** (partial) — Laws of IEEE arithmetic (NaN, monotone rounding) as hypotheses, proved for rounded extended reals and double precision; invariant of the More-Thuente loop (steps are nonnegative or NaN). Witness for the backtracking searches: a run of two iterations in any format with exact eighths. *Proved for the default More-Thuente search in every arithmetic satisfying the IEEE laws, which are proved of rounded arithmetic with infinities and NaN, in particular double precision. False of the backtracking searches: they accept NaN, and after it every value.*
* **C269 L-BFGS returns when the objective is not a number** (partial) — A More-Thuente search cannot succeed from a NaN value; with a backtracking search the loop has a NaN gradient as invariant and no test ever fires. *Proved for the default More-Thuente search. With a backtracking search and the default iteration limit the call never returns.*
* **C270 Differences of orientations, small angles included** (proved) — The logarithm against Mathlib's quaternion exponential: along the axis the norm of the difference is a chord of the unit circle; mean value theorem for the cubic polynomial of the arctangent; composed with C164 and the group law. *Exact arithmetic. Complements C167: the exact statement fails for small angles.*
* **C271 The conic solver's loop in machine arithmetic** (proved) — The solver is modelled a second time over an arbitrary arithmetic, the linear solver being an arbitrary oracle; read in exact arithmetic it is the model of C21-C22 (`IPF.optimize_real`). Induction over the passes; every comparison of the convergence test that succeeds has number operands, and NaN propagates through all operations but `std::max`'s second argument. *Every double operation of the loop is an operation of an arbitrary arithmetic; linear solver and scaled directions are an arbitrary oracle. optimize_real: with exact real arithmetic this is the model of C21 and C22 (when no division by zero occurs in the line search, in particular without second-order cones).*
* **C272 The conic solver notices a NaN iterate** (partial) — Invariant: the best iterate has numbers in the cone (its gap was compared); a lost iterate fails every test. The first sentence is false: a NaN iterate passes unnoticed until the iteration limit, by induction over the remaining passes. *What is returned as best iterate has no NaN in the cone. But a NaN iterate is not noticed: the loop goes on to the iteration limit, and the reduced test then uses the residuals of the NaN iterate, so that reduced optimality is never reported.*
* **C273 An optimal point satisfies its constraints in machine arithmetic** (partial) — From the convergence test the maximum of the two residuals is below tolerance; it dominates both only if the second is a number. Witness: an infinite or NaN right-hand side. *Proved when the residual of the cone constraints is a number. Otherwise std::max drops it: with an infinite right-hand side an unbounded problem is reported optimal at once.*
* **C274 Branch and bound's loop in machine arithmetic** (proved) — The solver is modelled a second time over an arbitrary arithmetic; read in exact arithmetic with infinities and NaN it is the model of C24-C26 (`BnBF.run_real`). What one update does is a relation proved by cases (`Upd`), the selected node is always one that exists and is branchable; induction over the iterations. *Every double operation is an operation of an arbitrary arithmetic; the relaxation solver is an arbitrary oracle. run_real: in the exact arithmetic of extended reals with NaN this model has exactly the outcomes of the model of C24-C26.*
* **C275 The reported integer solution was evaluated, in machine arithmetic** (partial) — Invariant from the second iteration on: the upper bound is a number, is infinite or the objective of the stored solution, and is at most every evaluated number. Needs four laws of infinity, proved for floating-point arithmetic with any rounding that has one. The witness is a run in floating-point arithmetic. *Proved when the objective of the root relaxation is a number, for the solutions evaluated after the root. A root relaxation that is integral with a NaN objective is reported as Optimal although it was never stored: the solver then holds what an earlier call left behind.*
* **C276 The reported lower bound covers every leaf, in machine arithmetic** (partial) — The fold of std::min over the leaves, each comparison dropping NaN; the leaves' decisions are never changed after they were solved. The witness is a run with two leaves, one NaN. *Proved for the leaves whose objective is a number. A leaf with a NaN objective is dropped by std::min and never explored: Optimal is reported with a closed gap.*
* **C277 Starting point of the interior-point method** (partial) — The two systems of the initialisation, solved exactly, are the optimality conditions of two least-squares problems: expand the square around the solution and cancel the cross term with the adjoint identity. The projection is C17; the iterates follow from C248. Witness: two bounds on one variable and a left-over right-hand side. *Exact arithmetic and an exact linear solver. The primal part and the statement about all iterates hold for every history; the minimality of the multipliers holds for a first call only: the y and z parts of the right-hand side keep what an earlier optimize call wrote there (branch and bound calls optimize repeatedly), so later calls on the same problem start elsewhere.*
* **C278 Memory safety of the real-time QP solver in machine arithmetic** (partial) — The solver is modelled a second time over an arbitrary arithmetic; read in exact arithmetic it is the model of C95-C99 (`RtQPF.run_real`). Invariant: active constraints are distinct inequalities, marked constraints are active, the saved active set is one; each label preserves it unless a rejection finds no room. Three facts about the comparisons are used and proved for floating-point arithmetic. *Every double operation is an operation of an arbitrary arithmetic; the factorisation is arbitrary. False after a rejected constraint without room to undo it (C278_memory_violated, witness C278_memory_witness); proved in every other run. run_real: with exact real arithmetic this model is the one of C95-C99 and C256.*
* **C279 NaN in the data of the real-time QP solver** (partial) — A NaN coordinate makes every slack NaN; std::min drops them all, so that the solver returns at the first or second label; the value is NaN and NaN is not infinity. *Violated for every problem: if the factorisation delivers a NaN in any coordinate, success is reported at once with a NaN solution (C279_nan_success for all constraints, C279_nan_success_violated in floating-point arithmetic with any rounding). That the Cholesky solve passes a NaN of the gradient on is outside the model.*
* **C280 What an accepted QP solution guarantees in machine arithmetic** (partial) — Each partial sum of the infeasibilities is at most each of its terms, in rounded arithmetic; hence each violation is within the tolerance. At the second label the search returns zero only if no unmarked slack is negative, and marked ones are active by the invariant of C278. *Proved for returns from the active-set iteration; a return while the equalities are being added is not checked at all (C95_violated_dependent), and a NaN slack counts as not violated (C279).*
* **C281 Regularisation schedule of the LQR solver** (proved) — The while loop of backward passes iterates the failure step (induction on its relation); a loop that gives up is followed by another failure above the limit, hence by the end of the call; the line search is characterised by the accepted coefficient. Closed forms by induction with the triangular numbers. *Exact arithmetic, any backward and forward pass of the model. The closed forms hold from a multiplier of at most one (failures) or at least one (successes), as after a change of direction.*

## Trusted base

* Lean 4.33.0's kernel and the Mathlib library it checks.
* The reading of the sources cited at every definition: the code was read as text, not executed, and no tool connects the Lean definitions to it.
* The simplifications stated in the comments of the definitions (exact reals above all).
* The contracts of external code, which are hypotheses of the theorems that use them: Eigen's SVD (`RtHqp.SvdOk`), LLT/LDLT and linear solves where a
  theorem says "exact solves", `quadprog.solve_qp` (`PyIk.Quadprog.Ok`), `scipy.linalg.pinv` (`PyIk2.Pinv.Ok`), condition variables and mutexes with
  their C++11 semantics.

### What is modelled

| Part of /repo | Lean modules | Properties |
|---|---|---|
| solver/interface: Exprs, Var, ConicProblem, Model, OptVar | LinExpr*, Conic*, OptVar* | C01–C14, C218–C221 |
| solver/interface: Cone, OptimizationVector | Cone* | C15–C19, C56, C217 |
| solver/interface: SolverSetting, SolverParams; solver_lqr: SolverLqrSetting; the shipped solver settings | Settings*, SettingsInit* | C54, C76, C251–C254 |
| solver/optimizer: EqRoutine.cpp | Equil* | C20 |
| solver/optimizer: IPSolver.cpp, the exit tests of CvxInfoPrinter.cpp | IP*, IPRate | C21, C22, C77–C80, C86, C87, C248–C250 |
| the same in an arbitrary arithmetic (NaN, infinities, rounding) | IPFloat* | C271–C273 |
| solver/optimizer: SparseCholesky.cpp | Ldl* | C23 |
| solver/optimizer: LinSolver.cpp | Lin* | C88–C90 |
| solver/optimizer: BnBSolver.cpp, NcvxBnBSolver.cpp | BnB, BnBInv, BnBProps, BnBViolations, BnBLink* | C24–C26, C192–C194 |
| the same in an arbitrary arithmetic | BnBFloat* | C274–C276 |
| solver/include/solver/rt_optimizer/RtQPSolver.hpp in an arbitrary arithmetic | RtQPFloat* | C278–C280 |
| solver/optimizer: LbfgsSolver.cpp/.hpp | Lbfgs, Lbfgs*Props, LbfgsInterp, LbfgsNlp, LbfgsStop, LbfgsRate | C27–C33, C62, C63, C205–C209, C227, C228, C255, C257 |
| the same in an arbitrary arithmetic | LbfgsFloat* | C266–C269 |
| solver/rt_optimizer: RtMatrix.hpp | RtMat*, RtCompact | C35, C36, C94, C198, C199 |
| solver/rt_optimizer: RtModel.h/.hpp, RtHQPCost.hpp | RtModel*, RtAppendProps, RtSolve | C91–C94, C234, C235 |
| solver/rt_optimizer: RtQPSolver.hpp | RtQP*, RtQPIf*, RtQPMem | C95–C99, C195–C197, C256 |
| solver/rt_optimizer: RtHQPSolver.h/.hpp and its worker thread, RtMutex.hpp | RtHqp*, HQPThread* | C34, C60, C61, C100–C107 |
| solver_lqr: SolverLqr, BackwardPass, ForwardPass, FiniteDifferences, OcpDescription, StateSeq/ControlSeq | Lqr*, LqrSeq*, LqrFd2*, LqrRk4 | C37–C42, C64–C66, C200–C204, C210, C211, C215, C216, C231, C259 |
| momentumopt/cntopt: ContactPlanInterface.cpp, TerrainDescription, ContactState, ContactSequence | ContactPlan*, Terrain*, Cont* | C43–C45, C59, C71, C72, C81, C175–C180 |
| momentumopt/dynopt: DynamicsOptimizer, DynamicsFeedback | Dyn*, DynOpt*, DynSave*, DynPlan* | C46–C50, C57, C58, C119–C130, C222–C224, C229, C230, C236–C238 |
| momentumopt/kinopt: KinematicsOptimizer.cpp | KinOpt*, KinDisplay | C108–C118, C225, C226 |
| momentumopt/setting: PlannerSetting, PlannerParams | Settings*, PyInit | C73–C75, C232, C233 |
| momentumopt/utilities: OrientationUtils.cpp, TrajectoryGenerator.cpp | Orient*, OrientAcc, Traj* | C51–C53, C67–C70, C82, C260 |
| momentumopt/demos: the C++ demo's command line | DemoMain | C265 |
| python: min_jerk_traj, trajectory references, slerp, swing trajectories, via points | MinJerk*, Slerp, Swing*, ViaLoad | C55, C83–C85, C239–C243 |
| python: qp.py, inverse_kinematics.py, momentum_kinematics_optimizer.py, second_order_ik.py | PyIk*, PyMko*, PyIk2* | C131–C140, C151–C154 |
| python: create_data_file.py, motion_execution.py, motion_planner.create_time_vector, robots/simulator.py, gain tuning | PyExec*, ExecTune* | C141–C150, C212–C214 |
| python: lqr_gain_computation.py, end_eff_lqr_gain_computation.py, lqr_gain_manifold.py | PyLqr*, PyMan* | C155–C174, C270 |
| python: motion_planner.py, kino_dyn_planner.py, contact_plan.py, robot wrappers, PinocchioKinematicsInterface.py; PyDynamics.cpp, PyKinematics.cpp (attributes used) | Plan*, PyPlan | C181–C191, C244–C247 |
| python: the viewer of saved plans | PyView | C258 |
| the time computations of the planners in double precision | FloatTime* | C261–C264 |

### What is not modelled

Floating-point effects outside the modules whose names contain `Float` (everywhere else a `double` is a real number); parsing of YAML beyond the order
and failure of reads; the text of log and screen output; the geometry of plots and displays beyond the data handed over; the pinocchio and pybullet back
ends (given by functions); the pybind11 glue beyond the attributes used; `cvxopt_solve_qp`; memory allocation failures; data races other than those of the
HQP worker thread; the unit tests; performance.

The modules `LbfgsFloat`, `IPFloat`, `BnBFloat` and `RtQPFloat` model the four solvers a second time, with every operation on doubles an operation of an arbitrary type
class `Arith` that has no laws. Theorems that need laws name them as hypotheses (`LbfgsF.Ieee`: comparisons with NaN are false, operations with NaN give NaN,
rounding is monotone; `BnBF.Infinity`); these are proved of extended reals with NaN under any monotone idempotent rounding (`LbfgsF.ieee_round`), in
particular of double precision (`LbfgsF.double_round`). Read in exact arithmetic the second models are the first ones: `LbfgsF.run_real`,
`IPF.optimize_real`, `BnBF.run_real`, `RtQPF.run_real`.

### Testing the theorems

`seeded/LOG.jsonl` lists the wrong programs tried in a scratch copy: the edited definition, the edit, the claim it breaks, the theorems that no
longer prove and, where a first version of a theorem survived, the theorem that was tightened.

### Axioms of the claimed theorems

Printed with `#print axioms` for all 695 theorems named in MANIFEST.json. Every theorem depends on at most `propext`, `Classical.choice`, `Quot.sound`; no axiom is declared in this project. All use exactly these three, except:

* `Verif.C01_quadratic_value`: `Quot.sound`, `propext`
* `Verif.C02_one_term_per_variable`: `Quot.sound`, `propext`
* `Verif.C03_clean_partial`: `Quot.sound`, `propext`
* `Verif.C04_self_add_diverges`: `Quot.sound`, `propext`
* `Verif.C04_self_add_partial`: `Quot.sound`, `propext`
* `Verif.C14_clamped`: `Quot.sound`, `propext`
* `Verif.Cone.C19_violated`: `Quot.sound`, `propext`
* `Verif.HQP.C34_one_answer_per_request`: `Quot.sound`, `propext`
* `Verif.HQP.C34_exclusive_access`: `Quot.sound`, `propext`
* `Verif.HQP.C34_no_lost_wakeup`: `Quot.sound`, `propext`
* `Verif.HQP.C34_calls_complete`: `Quot.sound`, `propext`
* `Verif.HQP.C34_shutdown`: `Quot.sound`, `propext`
* `Verif.Dyn.C49_violated`: `Quot.sound`, `propext`
* `Verif.Dyn.C49_shifted_index`: `Quot.sound`, `propext`
* `Verif.Dyn.C49_store_partial`: `Quot.sound`, `propext`
* `Verif.Dyn.C50_violated`: `Quot.sound`, `propext`
* `Verif.ContactPlan.C59_violated`: `Quot.sound`, `propext`
* `Verif.HQP.C60_violated`: `propext`
* `Verif.HQP.C60_flag_writes_partial`: `Quot.sound`, `propext`
* `Verif.HQP.C61_violated`: `Quot.sound`, `propext`
* `Verif.HQP.C61_index_partial`: `Quot.sound`, `propext`
* `Verif.Plan.C182_no_iterations`: none
* `Verif.Plan.C188_configuration_partial`: none
* `Verif.Plan.C189_labels_violated`: `propext`
* `Verif.LqrSeq.C202_same_partial`: `Quot.sound`, `propext`
