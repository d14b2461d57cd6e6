{"id": "C01", "title": "A conservative step never leaves the box and lands on the limiting bound", "statement": "After performConservativeStep(p, dp, plower, pupper) on a p inside its bounds, every entry of p is inside [plower, pupper], the returned factor alpha lies in [0,1], entries that are not pinned by their own bound equal p + alpha*dp exactly, the entry that limited the step sits exactly on its bound, and alpha = 1 whenever the full step violates no bound.", "quantifier": "every dimension, every p in [plower,pupper], every step dp, every combination of finite and infinite bounds", "why_tests_cant": "the limiting index is data dependent and ties/degenerate entries (already on a bound, zero step) are dense in the input space", "anchors": ["Optima/Utils.cpp:performConservativeStep"]}
{"id": "C02", "title": "An aggressive step is exactly the projection of the full step on the box", "statement": "After performAggressiveStep, p equals the nearest point of [plower,pupper] to p+dp, entry by entry; in particular it never violates a bound and no point of the box is closer to p+dp in any coordinate.", "quantifier": "every dimension, point, step and consistent bounds (finite or infinite)", "why_tests_cant": "infinite family of real inputs including infinite bounds", "anchors": ["Optima/Utils.cpp:performAggressiveStep"]}
{"id": "C03", "title": "largestStep returns exactly the largest admissible step length", "statement": "largestStep(p,dp,plower,pupper) returns alpha such that p + t*dp respects all bounds for every t in [0,min(alpha,1)], and if alpha is finite then alpha <= 1, p+alpha*dp touches a bound and any larger t leaves the box; it returns +infinity exactly when the full step violates no bound.", "quantifier": "every dimension, p in the box, dp, finite/infinite bounds", "why_tests_cant": "optimality (no larger step) is a universally quantified claim", "anchors": ["Optima/Utils.cpp:largestStep"]}
{"id": "C04", "title": "Fraction-to-the-boundary returns the maximal alpha in (0,1]", "statement": "fractionToTheBoundary(p,dp,tau) for p>0 and 0<tau<=1 returns the maximum of {alpha in (0,1] : p+alpha*dp >= (1-tau)p}; the reported limiting index is p.size() iff alpha=1 is limited by no entry, otherwise the constraint is active at that index. The lower-boundary and C p >= r variants satisfy the analogous maximality.", "quantifier": "every dimension, positive p, step dp, tau in (0,1], matrix C and vector r with C p > r", "why_tests_cant": "a maximum over a continuum", "anchors": ["Optima/Utils.cpp:fractionToTheBoundary", "Optima/Utils.cpp:fractionToTheLowerBoundary"]}
{"id": "C05", "title": "Rational approximation is legal and recovers exact rationals", "statement": "rational(x,n) returns a fraction whose denominator is between 1 and n, that equals x whenever x is a rational with denominator at most n, and that is the closest such fraction to x; rationalize never turns a finite entry into inf/NaN.", "quantifier": "every real x and every maximum denominator n >= 1", "why_tests_cant": "number-theoretic claim over all reals; the failing inputs are |x| > n and mid-gap x", "anchors": ["Optima/Utils.cpp:farey", "Optima/Utils.cpp:rational", "Optima/Utils.cpp:rationalize"]}
{"id": "C06", "title": "Brent minimisation stays in the bracket and never returns a worse point than any it evaluated", "statement": "minimizeBrent(f,min,max,tol,maxiters) evaluates f only at points of [min,max], evaluates it at most maxiters+1 times, and returns a point of [min,max] at which f is no larger than at max and at every other point evaluated.", "quantifier": "every function f (no continuity or convexity assumed), every min<=max, tol>0, maxiters>=1", "why_tests_cant": "f is an arbitrary user function; the branch taken depends on all previous values", "anchors": ["Optima/Utils.cpp:minimizeBrent"]}
{"id": "C07", "title": "Golden section search stays in the bracket and terminates", "statement": "minimizeGoldenSectionSearch(f,a,b,tol) evaluates f only inside [a,b], terminates, and returns a point of [a,b].", "quantifier": "every f, every a<=b, every tolerance", "why_tests_cant": "the comparison outcomes form an arbitrary infinite binary history, the truncated golden ratio makes the bracket drift", "anchors": ["Optima/Utils.cpp:minimizeGoldenSectionSearch"]}
{"id": "C08", "title": "Sherman-Morrison update really inverts A + D", "statement": "If invA is the inverse of A and no rank-one update pivot vanishes, inverseShermanMorrison(invA,D) is the inverse of A+diag(D); the pivots all being non-zero is equivalent to every leading modification A+diag(D_0..D_i) being invertible.", "quantifier": "every dimension, invertible matrix A, diagonal D", "why_tests_cant": "matrix identity over all matrices and sizes, proved by induction on the loop", "anchors": ["Optima/Utils.cpp:inverseShermanMorrison"]}
{"id": "C09", "title": "The BFGS inverse-Hessian functor satisfies the secant equation after every update", "statement": "For every sequence of calls (x_k,g_k), the matrix returned at call k>=1 maps g_k - g_{k-1} to x_k - x_{k-1} whenever their inner product is non-zero, and every returned matrix is symmetric; it is positive definite if the initial x is positive and all inner products are positive.", "quantifier": "every dimension and every finite history of calls", "why_tests_cant": "property of all call histories", "anchors": ["Optima/Utils.cpp:bfgs"]}
{"id": "C10", "title": "Round-off cleaning only zeroes negligible entries and is idempotent", "statement": "cleanResidualRoundoffErrors changes an entry only to zero, and only if its magnitude is at most eps*max|M|*max(rows,cols); the largest entry survives when eps*max(rows,cols)<1; applying it twice equals applying it once. multiplyMatrixVectorWithoutResidualRoundOffError differs from A*x in entry i by less than eps*(|A||x|)_i.", "quantifier": "every matrix/vector of every size", "why_tests_cant": "claim about all real matrices", "anchors": ["Optima/Utils.cpp:cleanResidualRoundoffErrors", "Optima/Utils.cpp:multiplyMatrixVectorWithoutResidualRoundOffError"]}
{"id": "C11", "title": "A compactly represented Hessian expands to the matrix it represents", "statement": "mat <<= other makes mat equal to the matrix that other represents: the dense matrix itself, the diagonal matrix of a single column, or the zero matrix for an empty one; structure classification is exhaustive and mutually exclusive.", "quantifier": "all shapes and all previous contents of mat", "why_tests_cant": "failing shapes (empty source, rectangular source) depend on prior contents", "anchors": ["Optima/Utils.cpp:operator<<=", "Optima/Utils.cpp:matrixStructure"]}
{"id": "C12", "title": "Index moves are permutations that split exactly on membership", "statement": "moveLeftIf/moveRightIf/moveIntersectionLeft/Right permute base, return k such that the first k entries are exactly those that satisfy (fail) the predicate/membership, and the rest are the others; difference, intersect and isIntersectionEmpty agree with set difference/intersection.", "quantifier": "every index vector, every selection, every implementation of std::partition allowed by the standard", "why_tests_cant": "std::partition's output order is unspecified, so the claim ranges over implementations; the empty selection is an edge case", "anchors": ["Optima/IndexUtils.hpp"]}
{"id": "C13", "title": "Stable partition bookkeeping", "statement": "After any sequence of setStable/setUnstable calls, stable() and unstable() are disjoint, duplicate free, cover all variables, and the set last passed to setStable (setUnstable) is exactly stable() (unstable()).", "quantifier": "every nx and every history of calls with valid index sets", "why_tests_cant": "history property, with an edge case on empty sets", "anchors": ["Optima/StablePartition.cpp"]}
{"id": "C14", "title": "Stability classification is exact", "statement": "After Stability::update, s = g + Wx^T w; the index lists js, jlu, juu are disjoint and cover all variables; a variable is reported lower (upper) unstable iff it is non-basic, lies on its lower (upper) bound and s>0 (s<0); meta-stable variables are exactly the basic ones on a bound.", "quantifier": "every dimension, point, bounds, gradient, multipliers and basic set, and every history of updates", "why_tests_cant": "partition is performed in place by several unstable moves over sub-ranges; correctness must hold for every order they leave behind", "anchors": ["Optima/Stability.cpp"]}
{"id": "C15", "title": "The echelon form invariant survives every history of operations", "statement": "After compute(A) followed by any sequence of swaps, priority-weight updates, reorderings, resets and cleanups, R*A*Q = [I S; 0 0] with Q a permutation and R invertible, and the basic variables' columns of A are linearly independent.", "quantifier": "every matrix A (any shape and rank) and every finite sequence of operations with legal arguments", "why_tests_cant": "history property over real matrices; round-off hides in tests behind tolerances", "anchors": ["Optima/Echelonizer.cpp"]}
{"id": "C16", "title": "Swapping is an exchange and is reversible", "statement": "updateWithSwapBasicVariable(ib,in) exchanges exactly the basic variable ib and the non-basic variable in, leaves all other positions alone, fails (assertion) exactly when the pivot is below threshold, and swapping the same pair twice restores R, S and Q.", "quantifier": "every echelon state and every pair", "why_tests_cant": "inverse law over all matrices", "anchors": ["Optima/Echelonizer.cpp:updateWithSwapBasicVariable"]}
{"id": "C17", "title": "Priority weights yield a maximum-weight basis in descending order", "statement": "After updateWithPriorityWeights(w), basic and non-basic variables are each listed in descending weight, every basic variable has weight >= that of every non-basic variable it could be exchanged with, and consequently the basis has maximum total weight among all bases; a variable with non-positive weight is basic only in the degenerate case that the columns of positive-weight variables do not span.", "quantifier": "every matrix, weights vector and previous state of the echelonizer", "why_tests_cant": "optimality over exponentially many bases; depends on one pass being sufficient", "anchors": ["Optima/Echelonizer.cpp:updateWithPriorityWeights", "Optima/Echelonizer.hpp"]}
{"id": "C18", "title": "Extended echelon form of [A;J] is correct for every sequence of J", "statement": "After updateWithPriorityWeights(J,w), R*[A;J]*Q = [I S;0 0], Q is a permutation and R is invertible, for any number of successive J matrices (including empty ones), and numEquations()/C() describe that matrix.", "quantifier": "every A, every sequence of J and weights, dependent rows included", "why_tests_cant": "history property; the claim for dependent rows is doubted in comments (warning) and tests only sample it", "anchors": ["Optima/EchelonizerExtended.cpp"]}
{"id": "C19", "title": "EchelonizerW assembles W and its echelon form with the p-columns", "statement": "After initialize(Ax,Ap) and update(Jx,Jp,w): W() = [Ax Ap;Jx Jp] and R_b*W = [I S_bn S_bp] up to column permutation; S_bp = R_b*Wp.", "quantifier": "every dimensions/rank and sequence of Jacobians", "why_tests_cant": "matrix identity over all inputs/histories", "anchors": ["Optima/EchelonizerW.cpp"]}
{"id": "C20", "title": "Canonicalizer reorders consistently", "statement": "Canonicalizer::update splits stable variables into basic-explicit, basic-implicit, nonbasic-explicit, nonbasic-implicit groups; (js,ju) is a permutation of all variables; the canonical blocks H,V,S,R are those of the master matrix under that permutation; it throws if and only if a basic variable is unstable.", "quantifier": "every master matrix and every valid stability split", "why_tests_cant": "several in-place partitions compose; correct for every order they may produce", "anchors": ["Optima/Canonicalizer.cpp"]}
{"id": "C21", "title": "LU solve returns a solution whenever the matrix is non-singular, and a solution of the retained equations otherwise", "statement": "LU::solve(b,x) after decompose(A) gives A*x=b whenever all pivots pass the degeneracy test; when pivots fail it, the discarded unknowns are exactly zero and the retained equations hold; rank() and P(),Q() describe PAQ=LU.", "quantifier": "every square matrix, right-hand side", "why_tests_cant": "singular and nearly singular matrices are measure zero for random tests", "anchors": ["Optima/LU.cpp"]}
{"id": "C22", "title": "Fullspace method solves the canonical saddle-point system", "statement": "If the inner solver solves the assembled system, decompose+solve of the full-space method returns (xs,p,wbs) satisfying all canonical equations.", "quantifier": "all dimensions including empty blocks, all block values", "why_tests_cant": "identity over all block matrices", "anchors": ["Optima/LinearSolverFullspace.cpp"]}
{"id": "C23", "title": "Nullspace method solves the canonical saddle-point system", "statement": "If the inner (reduced) solve succeeds, the null-space method returns (xs,p,wbs) satisfying all canonical equations; conversely every solution of the canonical system solves the reduced one (no solution is lost), so the method is non-singular exactly when the full system is.", "quantifier": "all dimensions including empty blocks, all block values (Hxx dense)", "why_tests_cant": "block elimination with in-place updates; identity over all matrices", "anchors": ["Optima/LinearSolverNullspace.cpp"]}
{"id": "C24", "title": "Rangespace method solves the canonical saddle-point system for diagonal Hessians", "statement": "If Hxx is diagonal and the inner solve succeeds, the range-space method returns (xs,p,wbs) satisfying all canonical equations.", "quantifier": "all dimensions including empty blocks and all block values with non-zero explicit pivots", "why_tests_cant": "identity over all block matrices; error terms may appear only for a particular combination of non-empty groups", "anchors": ["Optima/LinearSolverRangespace.cpp"]}
{"id": "C25", "title": "The linear solver solves the user's master system", "statement": "LinearSolver::decompose/solve returns u=(x,p,w) such that M*u = a for the master matrix M, x at unstable variables equals a.x there, whatever method is selected (for consistent right-hand sides when constraint rows are dependent).", "quantifier": "every master matrix with valid echelon form, every right-hand side in range", "why_tests_cant": "composition of canonicalisation, elimination and back-transformation over all matrices", "anchors": ["Optima/LinearSolver.cpp"]}
{"id": "C26", "title": "Structured master-matrix products agree with the dense matrix", "statement": "M*u and tr(M)*u computed from the block representation equal the product with the dense matrix obtained by converting M (respectively its transpose).", "quantifier": "every dimensions, stable/unstable split and vector", "why_tests_cant": "for all index splits", "anchors": ["Optima/MasterMatrixOps.cpp", "Optima/MasterMatrix.cpp"]}
{"id": "C27", "title": "The canonical residual is the echelonised residual", "statement": "ResidualVector::update produces for stable x, p and basic constraints exactly -(g + Wx^T w), -v and R_b*(b - A x - A p; -h), zero for unstable x, up to entries below the documented round-off threshold.", "quantifier": "every point, matrix and split", "why_tests_cant": "uses the echelon identity to avoid cancellation; equality for all inputs", "anchors": ["Optima/ResidualVector.cpp"]}
{"id": "C28", "title": "What a small reported error guarantees", "statement": "error() equals the largest of the optimality, parameter and canonical feasibility errors; if it is below eps then every stable, not-bound-attached variable has |gradient of the Lagrangian| < eps, every |v_i| < eps, and, when the constraint matrix has full row rank, the constraint residual is below ||R^-1|| eps.", "quantifier": "every residual state", "why_tests_cant": "implication from a scalar to all components", "anchors": ["Optima/ResidualErrors.cpp"]}
{"id": "C29", "title": "Iterates and returned state never violate bounds", "statement": "For every problem with consistent bounds, whatever the user functions return, every iterate after the first step and the state returned by solve satisfies xlower<=x<=xupper and plower<=p<=pupper, on success and on failure.", "quantifier": "all problems, options, initial guesses, user functions and iteration histories", "why_tests_cant": "iteration history is unbounded and user functions are arbitrary", "anchors": ["Optima/BacktrackSearch.cpp", "Optima/MasterSolver.cpp", "Optima/ErrorControl.cpp"]}
{"id": "C30", "title": "User functions are evaluated only inside the bounds", "statement": "During a solve, objective and constraint functions are called only with x,p within bounds (after the initial projection), including while sensitivities are computed.", "quantifier": "all problems, options, user functions and transform functions", "why_tests_cant": "trace property over all executions", "anchors": ["Optima/TransformStep.cpp", "Optima/MasterSolver.cpp"]}
{"id": "C31", "title": "Every solve terminates within the iteration budget and reports truthfully", "statement": "A solve performs at least one and at most maxiters+1 iterations, terminates for any user functions, and result.succeeded is true exactly when the convergence check accepted an iterate at or before iteration maxiters; result.iterations is the number of Newton steps taken.", "quantifier": "all user functions, tolerances, maxiters", "why_tests_cant": "termination and counting over arbitrary behaviours", "anchors": ["Optima/MasterSolver.cpp"]}
{"id": "C32", "title": "Success means converged", "statement": "If result.succeeded then the final state's reported error is below the tolerance or the user-provided check accepted it; the result of a solve does not depend on convergence history left by previous solves.", "quantifier": "all problems, options and histories of previous solves", "why_tests_cant": "history property", "anchors": ["Optima/Convergence.cpp", "Optima/MasterSolver.cpp"]}
{"id": "C33", "title": "A transformation step never increases the error and is undone if it does", "statement": "After TransformStep::execute returns true the error is not larger than before and x is within bounds; if it returns false the variables are exactly those before the call and residuals/errors are re-evaluated at them.", "quantifier": "all transform functions (arbitrary), all states", "why_tests_cant": "the transform is arbitrary user code", "anchors": ["Optima/TransformStep.cpp"]}
{"id": "C34", "title": "Line search result is a convex combination that is no worse than the full step", "statement": "LineSearch::execute leaves u = uo + alpha (u - uo) with alpha in [0,1] and error no larger than that at the full trial step; its descent test accepts exactly descent directions of the squared residual.", "quantifier": "all error functions, trial steps, options", "why_tests_cant": "error function is arbitrary", "anchors": ["Optima/LineSearch.cpp"]}
{"id": "C35", "title": "Error status flags have the documented meaning", "statement": "The error-status predicates (increased, decreased, converging, ...) hold exactly when the documented comparison between latest, previous and first errors holds; the convergence rate is computed from the current solve's errors only.", "quantifier": "all error histories", "why_tests_cant": "history property", "anchors": ["Optima/ErrorStatus.cpp", "Optima/Convergence.cpp"]}
{"id": "C36", "title": "Result accounting", "statement": "Accumulating results with += adds counters and times and keeps the last verdict; after a solve, result.error is the final residual error.", "quantifier": "all solves and accumulation sequences", "why_tests_cant": "claims over all sequences", "anchors": ["Optima/Result.cpp", "Optima/Result.hpp", "Optima/MasterSolver.cpp"]}
{"id": "C37", "title": "The slack reformulation is equivalent to the user's problem", "statement": "(x,p) satisfies the user's linear/nonlinear equality and inequality constraints and bounds iff there are slacks such that (x,slacks,p) satisfies the master problem's constraints and bounds; objective values coincide; KKT points correspond.", "quantifier": "all problem data", "why_tests_cant": "equivalence of infinite feasible sets", "anchors": ["Optima/Solver.cpp"]}
{"id": "C38", "title": "State packing round-trips", "statement": "Converting a State to the internal state and back after a solve preserves x,p,y,z,s partitioning: each multiplier block and slack block goes back to its own field, and the reported index sets contain exactly the indices of real variables (below nx) with their order.", "quantifier": "all dimensions incl. zero blocks, all values", "why_tests_cant": "for all sizes", "anchors": ["Optima/Solver.cpp:updateMasterState", "Optima/Solver.cpp:updateState"]}
{"id": "C39", "title": "Evaluation failures are reported", "statement": "If any user-supplied function (objective, he, hg, v) reports failure at a point, the residual update at that point reports failure.", "quantifier": "all combinations of failing functions", "why_tests_cant": "all combinations and call orders incl. flags left by previous calls", "anchors": ["Optima/Solver.cpp", "Optima/ResidualFunction.cpp"]}
{"id": "C40", "title": "Assigning a Problem copies the problem", "statement": "After a = b for problems of equal dimensions, solving a is the same as solving b: every data member and every function of a equals that of b; for different dimensions an error is thrown.", "quantifier": "all problems", "why_tests_cant": "all problems; functions are compared extensionally", "anchors": ["Optima/Problem.cpp"]}
{"id": "C41", "title": "Sensitivities are the derivatives of the solution", "statement": "For a solution family satisfying the stable KKT equations with constant active set, the computed xc,pc,wc satisfy the differentiated equations, xc vanishes for unstable variables, sc is the derivative of s = g + W^T w.", "quantifier": "all differentiable solution families/data", "why_tests_cant": "derivative identity over all data", "anchors": ["Optima/SensitivitySolver.cpp"]}
{"id": "C42", "title": "Output tables are aligned", "statement": "Each state line printed by the outputter has as many columns as the header, with every column as wide as in the header, whatever the names; name-count mismatches raise an error.", "quantifier": "all name lists and dimensions", "why_tests_cant": "all sizes and strings", "anchors": ["Optima/Outputter.cpp", "Optima/MasterSolver.cpp"]}
{"id": "C43", "title": "User functions see a clean result object", "statement": "Before the objective/constraint function is called all result fields are cleared and flags reset, so values never leak from one evaluation to the next; calling an uninitialised function is detected.", "quantifier": "all histories of evaluations", "why_tests_cant": "history property", "anchors": ["Optima/ObjectiveFunction.cpp", "Optima/ConstraintFunction.cpp"]}
{"id": "C44", "title": "The assembled linear constraint matrix depends only on the problem", "statement": "The master problem matrix built by the solver from (Aex,Agx,...) is [Aex 0 0; Agx I 0] for every previous use of the same solver object.", "quantifier": "all dimensions and all histories of previous problems", "why_tests_cant": "uninitialised/stale memory", "anchors": ["Optima/Solver.cpp:updateMasterProblem"]}
{"id": "C45", "title": "Backtracking blends and clamps", "statement": "BacktrackSearch::execute moves u along the segment from uo towards the trial with a common factor beta in [0,1], then projects x and p on the bounds; when the trial point is inside the bounds nothing changes; dual variables are blended with the same factor.", "quantifier": "all uo within bounds, all trials", "why_tests_cant": "all real vectors", "anchors": ["Optima/BacktrackSearch.cpp"]}
{"id": "C46", "title": "Newton step is the exact minimiser direction", "statement": "With an exact linear solver, the Newton step u = uo + du satisfies J*du = -F at the linearisation; for a problem with affine residual (quadratic objective, linear constraints, no active bounds) one step reaches a zero residual.", "quantifier": "all quadratic programs", "why_tests_cant": "all matrices", "anchors": ["Optima/NewtonStep.cpp"]}
{"id": "C47", "title": "Dimension and option errors are detected before solving", "statement": "A solve raises an error exactly when the dimensions of problem data, bounds or names do not match, before any user function is called.", "quantifier": "all inputs", "why_tests_cant": "all combinations", "anchors": ["Optima/Solver.cpp"]}
{"id": "C48", "title": "A residual function update always completes", "statement": "From every reachable state, for every evaluation of the user functions and every point, ResidualFunction::update returns normally in release builds (it never raises the canonicalizer's unstable-basic-variables error and never mixes sizes); it then holds W=[Ax Ap; hx hp] with its echelon form, a valid stable/unstable split consistent with the bounds and multipliers, and the canonical form. In debug builds only an assertion can stop it, which happens in particular when there is no basic variable.", "quantifier": "all problems, user functions, points and histories of previous updates", "why_tests_cant": "composition of four components over all histories and arbitrary user functions", "anchors": ["Optima/ResidualFunction.cpp", "Optima/Stability.cpp", "Optima/Canonicalizer.cpp", "Optima/EchelonizerW.cpp"]}
{"id": "C49", "title": "A solve always returns", "statement": "In release builds, with user functions that return and consistent bounds, MasterSolver::solve returns for every problem with at least one primal variable, every initial guess, whatever the user functions and the linear solver compute and whatever previous solves left in memory.", "quantifier": "all problems, user functions with state, linear solvers, initial guesses, options and solver histories", "why_tests_cant": "termination and absence of internal errors over all executions", "anchors": ["Optima/MasterSolver.cpp", "Optima/ResidualFunction.cpp", "Optima/NewtonStep.cpp"]}
{"id": "C50", "title": "What a reported success means", "statement": "If a solve without user check reports success, then at the returned point, with the values the user functions returned there: the bounds hold; every v is below the tolerance; the gradient of the Lagrangian is below the tolerance except at variables on a bound that are held there by the sign of the gradient or are basic. With as many basic variables as constraints, linear and non-linear constraints hold up to the tolerance times the row sums of the basic columns (exact arithmetic).", "quantifier": "all problems, user functions, linear solvers and executions", "why_tests_cant": "soundness of the success flag over all executions", "anchors": ["Optima/MasterSolver.cpp", "Optima/ResidualErrors.cpp", "Optima/ResidualVector.cpp"]}
{"id": "C51", "title": "Basic variables given to user functions are the user's", "statement": "Every index in opts.ibasicvars given to a user function is the index of a variable of the user's problem (below nx).", "quantifier": "all problems, states and solver histories", "why_tests_cant": "which variables become basic depends on all data; with slacks present tests that ignore the option never notice", "anchors": ["Optima/Solver.cpp", "Optima/ResidualFunction.cpp"]}
{"id": "C52", "title": "All user functions see the same point", "statement": "At an evaluation, the resources function r and the functions f, he, hg, v are given the same vectors x, p, c of the user's problem.", "quantifier": "all problems and evaluations", "why_tests_cant": "all combinations of inequality constraints", "anchors": ["Optima/Solver.cpp:updateMasterProblem", "Optima/ResidualFunction.cpp"]}
{"id": "C53", "title": "Success means the evaluation succeeded", "statement": "If a solve reports success, then the user functions reported success at the returned point.", "quantifier": "all problems, user functions and executions", "why_tests_cant": "all executions", "anchors": ["Optima/MasterSolver.cpp", "Optima/ResidualFunction.cpp"]}
{"id": "C54", "title": "Solutions are fixed points", "statement": "Started at a point that satisfies the first-order conditions of the problem (bounds and inequality constraints included, with matching slacks), where the gradients of the active constraints and bounds are linearly independent and the linearised first-order conditions have only the zero solution, in exact arithmetic and with at least one constraint, the solver returns this point after one iteration with success and with the right multipliers of the bounds.", "quantifier": "all problems (non-linear functions, any active set), sizes, solver histories, user states", "why_tests_cant": "all problems and active sets; tests check approximate convergence on samples", "anchors": ["Optima/MasterSolver.cpp", "Optima/NewtonStep.cpp", "Optima/Solver.cpp", "Optima/Stability.cpp"]}
{"id": "C55", "title": "Objects with fixed dimensions keep them, and states and sensitivities are copied completely", "statement": "Assigning an expression to a member with fixed dimensions (of Problem, State, Sensitivity) never changes its dimensions: it either copies all entries or raises an error, which happens exactly if the dimensions differ and not both are empty; assigning a member from another such member copies it in the same way; assigning a State or a Sensitivity copies every member.", "quantifier": "all dimensions and contents", "why_tests_cant": "all dimensions, including empty ones", "anchors": ["Optima/deps/eigenx/Eigen/src/FixedMatrix.h", "Optima/State.cpp", "Optima/Sensitivity.cpp"]}
{"id": "C56", "title": "The output shows the iterates", "statement": "With output enabled, a solve of n iterations prints n+1 lines numbered 0 to n; each line shows the current iterate together with the objective, errors and stability measures evaluated at this very point, and the last line shows the returned state.", "quantifier": "all problems, solver states and user functions", "why_tests_cant": "all executions; the order of updates of u, uo, F and E inside the loop", "anchors": ["Optima/MasterSolver.cpp"]}
{"id": "C57", "title": "A solve only uses the solver and the problem it was given", "statement": "Solver objects own their data: after any history of constructions, copies, assignments, destructions and solves every solver has an implementation object of its own, and every function called during a solve is the lambda created by this very solve, so it refers to the live solver that is solving and to the problem passed to this solve, never to a copied, assigned-over or destroyed solver or to an earlier problem.", "quantifier": "all histories of operations on any number of solvers and problems, including operations made by user functions during a solve, all choices of reused addresses", "why_tests_cant": "lifetime errors depend on the history and on address reuse; the lambdas capture by reference and survive the solve", "anchors": ["Optima/Solver.cpp:updateMasterProblem", "Optima/Solver.cpp:Solver::Solver(const Solver&)", "Optima/ResidualFunction.cpp:initialize"]}
{"id": "C58", "title": "An infeasible problem is not reported as solved", "statement": "If a solve reports success then the linear equality constraints hold up to a multiple of the tolerance; in particular a problem whose constraints contradict each other is never reported as solved.", "quantifier": "all problems, including constraint matrices with dependent rows and inconsistent right-hand sides, all starting points and solver histories", "why_tests_cant": "tests use consistent constraints of full row rank; the claim is about every rank and right-hand side", "anchors": ["Optima/MasterSolver.cpp", "Optima/EchelonizerExtended.cpp:updateWithPriorityWeights", "Optima/ResidualErrors.cpp", "Optima/ResidualVector.cpp"]}
{"id": "C59", "title": "A successful solve of a convex problem is close to optimal", "statement": "If the objective is convex, the equality constraints are affine and the inequality constraints concave, and a solve reports success, then the objective at the returned point exceeds that of every feasible point (for the same parameters) by at most a multiple of the tolerance: for the user's original problem with linear and non-linear inequality constraints, not for its slack form.", "quantifier": "all convex problems, starting points within or outside the bounds, step modes, tolerances and solver histories, including points at which basic variables sit on their bounds", "why_tests_cant": "tests compare against a few solutions of quadratic problems; the claim is about every convex problem and every point at which the solver may stop", "anchors": ["Optima/ResidualErrors.cpp", "Optima/Stability.cpp", "Optima/ResidualFunction.cpp:updateEchelonFormMatrixW", "Optima/MasterSolver.cpp", "Optima/BacktrackSearch.cpp"]}
{"id": "C60", "title": "A point at which a function is not a number never counts as solved", "statement": "If the objective gradient, a constraint or v is NaN at the last iterate, the error is not below the tolerance and the solve does not report success (unless a user-provided check accepts it).", "quantifier": "all user functions that may return NaN, all histories, memory contents and tolerances, every norm that agrees with the maximum on numbers and is NaN if all entries are", "why_tests_cant": "the comparisons with NaN on the path from the residuals to the convergence test depend on the order of the arguments of std::max; tests never make a function return NaN at the last iterate", "anchors": ["Optima/ResidualErrors.cpp", "Optima/Convergence.cpp", "Optima/ResidualVector.cpp", "Optima/Utils.cpp:multiplyMatrixVectorWithoutResidualRoundOffError"]}
{"id": "C61", "title": "Close to a regular solution the solver converges quadratically", "statement": "If the starting point is close enough to a point that satisfies the first-order conditions with independent gradients, strictly complementary active bounds and a stable linearisation, then every solve ends with success, the number of iterations grows like the logarithm of the logarithm of the tolerance, and the distance to the solution is squared in each iteration.", "quantifier": "all problem sizes, objectives, equations v and constraints with the stated regularity, all starting points in the neighbourhood, solver histories, memory contents, tolerances and iteration limits", "why_tests_cant": "tests solve quadratic problems, for which one step is enough; convergence for every non-linear problem and every starting point in a neighbourhood is not a finite check", "anchors": ["Optima/ResidualFunction.cpp:updateMasterMatrix", "Optima/NewtonStep.cpp", "Optima/ErrorControl.cpp", "Optima/MasterSolver.cpp", "Optima/Stability.cpp"]}
{"id": "C62", "title": "A smooth strictly convex problem is solved from every starting point", "statement": "If the objective is smooth and strictly convex with a minimiser, and there are no constraints or only linear ones, then a solve started anywhere succeeds when enough iterations are allowed.", "quantifier": "all smooth strictly convex objectives, all starting points, all iteration limits", "why_tests_cant": "tests start from a few points; that a run never converges, whatever the iteration limit, cannot be seen in a finite run", "anchors": ["Optima/ErrorControl.cpp", "Optima/BacktrackSearch.cpp", "Optima/MasterSolver.cpp", "Optima/NewtonStep.cpp"]}
{"id": "C63", "title": "A variable that cuts a step ends on its bound", "statement": "If the backtracking search shortens a step because a variable would cross a bound, the variable that determines the step length is put on that bound, so that the comparisons for equality in the rest of the solver see it as attached.", "quantifier": "all points within the bounds, all trial points, all bounds, all sizes; in double arithmetic", "why_tests_cant": "whether rounding misses the bound depends on the last bit; about one start in a thousand gets stuck next to the bound for all further iterations", "anchors": ["Optima/BacktrackSearch.cpp:execute", "Optima/ErrorControl.cpp", "Optima/MasterSolver.cpp"]}
{"id": "C64", "title": "Entries of a product that are exactly zero are returned as zero", "statement": "multiplyMatrixVectorWithoutResidualRoundOffError returns zero for each entry of A*x whose exact value is zero: what remains is not round-off.", "quantifier": "all matrices and vectors of doubles, all sizes", "why_tests_cant": "the function is tested on one or two small products; the error grows with the number of terms, the threshold does not", "anchors": ["Optima/Utils.cpp:multiplyMatrixVectorWithoutResidualRoundOffError", "Optima/ResidualVector.cpp"]}
{"id": "C65", "title": "The step-length utilities keep their guarantees in double arithmetic", "statement": "With every operation rounded, performConservativeStep stays within the bounds with a factor in [0,1] and puts some entry that violates a bound exactly on it, and a step scaled by fractionToTheBoundary keeps positive entries positive.", "quantifier": "all dimensions, points, steps, finite or infinite bounds and factors tau, for every number of significant bits", "why_tests_cant": "violations are in the last bit and depend on the data", "anchors": ["Optima/Utils.cpp:performConservativeStep", "Optima/Utils.cpp:fractionToTheBoundary"]}
{"id": "C66", "title": "Strictly convex quadratic problems are solved from every starting point", "statement": "A problem with a strictly convex quadratic objective, linear constraints of full rank and bounds, that has a solution, is solved with success from every starting point within the bounds, given enough iterations.", "quantifier": "all such problems, starting points, linear solvers, step modes, iteration budgets and histories of the solver", "why_tests_cant": "tests start from a few points, mostly with the solution away from the bounds", "anchors": ["Optima/MasterSolver.cpp", "Optima/BacktrackSearch.cpp", "Optima/Stability.cpp"]}
{"id": "C67", "title": "Master vectors behave like the vector (x, p, w)", "statement": "Sum, difference, multiples, quotients, dot product and norm of master vectors are those of the concatenated vectors (x, p, w), the in-place operators give the same as the others, a master vector made from one vector and converted back is that vector, and an assignment makes the destination show the values of the source; sizes that do not match are detected.", "quantifier": "all numbers of variables, all vectors and scalars, exact and rounded arithmetic, all positions of references in memory", "why_tests_cant": "tests compare up to a tolerance, for vectors of matching sizes that share no memory", "anchors": ["Optima/MasterVector.hpp", "Optima/CanonicalVector.hpp"]}
{"id": "C68", "title": "Removing round-off errors keeps the echelon form", "statement": "After the removal of residual round-off errors from R and S (adding and subtracting sigma), R*A*Q = [I S] still holds up to rounding errors of the size of the entries, so that the canonical form of the constraints has the same solutions and a successful solve satisfies the constraints.", "quantifier": "all matrices A, in double arithmetic", "why_tests_cant": "tests use matrices with entries of size one, for which sigma is small; the loss grows with the square of the largest entry", "anchors": ["Optima/EchelonizerExtended.cpp", "Optima/Echelonizer.cpp", "Optima/EchelonizerW.cpp", "Optima/ResidualVector.cpp"]}
{"id": "C69", "title": "The method of the linear solver does not change the result", "statement": "The full-space, null-space and range-space methods (and every implementation of the LU decomposition below them) are different ways of solving the same linear systems: a solve returns the same values, number of iterations and success with each of them.", "quantifier": "all problems, starting points, options, user checks and histories of the solver", "why_tests_cant": "tests run each method on its own on systems built for it; agreement of whole solves needs an argument over all iterations", "anchors": ["Optima/LinearSolver.cpp", "Optima/LinearSolverFullspace.cpp", "Optima/LinearSolverNullspace.cpp", "Optima/LinearSolverRangespace.cpp", "Optima/NewtonStep.cpp"]}
{"id": "C70", "title": "A solve does not depend on earlier solves", "statement": "A solver object can be used for several solves: the result of a solve (state, number of iterations, success, points at which the functions are evaluated, errors, sensitivities) depends on the problem, the options, the initial state and the user functions only, not on the contents of the matrices, vectors and histories that earlier solves left in the object or that memory happened to hold.", "quantifier": "all problems, options, initial states, user functions with state, and all contents of the memory of the solver", "why_tests_cant": "tests construct a new solver for almost every solve, and freshly allocated memory is often zero", "anchors": ["Optima/Solver.cpp", "Optima/MasterSolver.cpp", "Optima/ResidualFunction.cpp", "Optima/ResidualErrors.cpp", "Optima/NewtonStep.cpp", "Optima/SensitivitySolver.cpp"]}
{"id": "C71", "title": "Equivalent formulations of a problem give the same iterates", "statement": "The order of the variables, the order, scaling and mixing of the equality constraints, whether affine constraints are given as linear constraints or by the function h, the initial multipliers and the pivots chosen in the linear algebra do not change a solve: the points visited, the errors, the number of iterations, the success and the point returned are the same, and the multipliers have the same effect.", "quantifier": "all pairs of equivalent problems with or without bounds, all objective functions and functions v, all starting points and options", "why_tests_cant": "a test compares a few formulations of one problem; the equality of all iterates needs an argument over all problems and iterations", "anchors": ["Optima/MasterSolver.cpp", "Optima/EchelonizerW.cpp", "Optima/Canonicalizer.cpp", "Optima/NewtonStep.cpp", "Optima/ResidualErrors.cpp", "Optima/LinearSolver.cpp"]}
{"id": "C72", "title": "What success means in double arithmetic", "statement": "In floating-point arithmetic, whatever the order in which the sums are evaluated and whatever happens inside the steps, a solve that succeeds without the user check returns a point at which the exact optimality residuals (except those of unstable variables and of basic variables on a bound), the external constraints and R times the exact residuals of the equality constraints are below the tolerance, up to the rounding errors of one evaluation of the residuals and the defect R*W - [I S] of the canonical form. For one constraint a*x = b with |a| up to 5e6 the constraint itself is satisfied up to these errors. Conversely, a solve that reaches in time a point where these residuals, enlarged by the same errors, are below the tolerance succeeds there.", "quantifier": "all problems, dimensions, user functions, options, starting points, precisions, orders of summation (with and without fused operations), echelon forms and Newton steps", "why_tests_cant": "a test sees one order of summation on one machine and compares computed residuals, not exact ones", "anchors": ["Optima/ResidualVector.cpp", "Optima/ResidualErrors.cpp", "Optima/Utils.cpp", "Optima/MasterSolver.cpp", "Optima/Convergence.cpp"]}
{"id": "C73", "title": "Assertions hold in debug builds", "statement": "In a debug build no assertion of the library fails during a solve of a valid problem: a solve returns whenever the user functions do not throw and the bounds are consistent.", "quantifier": "all problems, dimensions, objective functions, constraints, bounds, options, starting points, histories of the solver and sequences of iterates", "why_tests_cant": "the tests are run with release builds, where assertions are disabled, and with problems that have linear constraints of full rank", "anchors": ["Optima/EchelonizerW.cpp", "Optima/Echelonizer.cpp", "Optima/Stability.cpp", "Optima/IndexUtils.cpp", "Optima/BacktrackSearch.cpp", "Optima/ResidualFunction.cpp", "Optima/MasterSolver.cpp"]}
{"id": "C74", "title": "Linear constraints stay satisfied", "statement": "In exact arithmetic the iterations never increase the violation of a linear constraint: a linear constraint that holds at one of the points of a solve holds at all later ones, and a violation shrinks in every iteration (without bounds it is zero after the first).", "quantifier": "all problems, dimensions, objective functions, non-linear constraints, bounds, starting points, options, histories of the solver and numbers of iterations, solves that succeed and solves that fail", "why_tests_cant": "tests look at the point returned by successful solves, not at the points at which the user functions are evaluated in between", "anchors": ["Optima/NewtonStep.cpp", "Optima/BacktrackSearch.cpp", "Optima/MasterSolver.cpp", "Optima/ResidualVector.cpp"]}
{"id": "C75", "title": "The options given by the user are used", "statement": "A solve uses the options last given to its solver with setOptions: the limit of iterations, the tolerance and the check of convergence, the method of the linear solver, the options of the backtrack and line search and of the error status, and the options and names for the output. Copies of a solver have the options of the original, earlier solves (also failed ones) and other solvers have no influence, and options set while a solve is running count from the next solve on.", "quantifier": "all programs that construct, copy, assign, destroy and use any number of solvers, set options at any time, and call solvers from user functions; all options and dimensions", "why_tests_cant": "tests set the options once before the first solve, and a result that satisfies the tolerance does not show which options were used", "anchors": ["Optima/Solver.cpp", "Optima/MasterSolver.cpp", "Optima/ErrorControl.cpp", "Optima/SensitivitySolver.cpp", "Optima/Options.hpp"]}
{"id": "C76", "title": "Units and coordinates of a problem do not matter", "statement": "A problem given in other units or coordinates (an invertible affine change of the variables x and of the parameters p, the objective function multiplied by a constant, the conditions v and the constraints replaced by equivalent linear combinations) is solved by the same iterates, expressed in the new coordinates, after the same number of iterations and with the same success.", "quantifier": "all problems, dimensions, changes of coordinates, starting points, initial multipliers, options, linear solver methods, histories of the solvers and numbers of iterations", "why_tests_cant": "tests solve each problem in one set of units", "anchors": ["Optima/MasterSolver.cpp", "Optima/NewtonStep.cpp", "Optima/ResidualErrors.cpp", "Optima/Convergence.cpp"]}
{"id": "C77", "title": "Brent minimisation keeps its guarantees in double arithmetic", "statement": "With every operation rounded, minimizeBrent calls the function within the bracket only, first at its upper end and at most maxiters + 1 times, returns a point with the smallest value returned by the function, and for a function that is strictly unimodal on the numbers of the bracket the minimiser stays in the bracket, so that a result accepted by the exit test is within a small multiple of the tolerance of the minimiser.", "quantifier": "all functions (with state, with exceptions), brackets, tolerances that are not negative, numbers of iterations and precisions of at least 5 bits", "why_tests_cant": "rounding can place a trial point outside the bracket or on a point used before for some of infinitely many functions and brackets only", "anchors": ["Optima/Utils.cpp", "Optima/LineSearch.cpp"]}
{"id": "C78", "title": "Golden section search keeps its guarantees in double arithmetic", "statement": "With every operation rounded, minimizeGoldenSectionSearch ends after a bounded number of calls for every positive tolerance, calls the function within the interval only, returns a point of the interval, and for a function that is strictly unimodal on the numbers of the interval the result is within a small multiple of tol * (b - a) of the minimiser, apart from the spacing of the numbers.", "quantifier": "all functions (with state, with exceptions), intervals and tolerances", "why_tests_cant": "the drift of the inner points accumulates over the iterations and depends on the function", "anchors": ["Optima/Utils.cpp"]}
{"id": "C79", "title": "Rational approximation keeps its guarantees in double arithmetic", "statement": "With the mediants, the reciprocal and the final quotient rounded, farey ends for every double in [0,1] with a reduced fraction a/b of [0,1] with b <= n and within 1/(b(n+1)) + 2^-53 of x; rational finds the fraction (±P, Q) with P, Q <= n from every double within a relative distance e of ±P/Q where 4 n^2 (e + 2^-53) < 1, so rationalize repairs rounding errors; and rationalize does not change a double nearest to a fraction whose numerator and denominator are at most n.", "quantifier": "all doubles, all fractions, all errors within the limit and all maximum denominators n of type unsigned", "why_tests_cant": "the doubles and fractions for which rounding misleads the search are rare and appear for large denominators only", "anchors": ["Optima/Utils.cpp:farey", "Optima/Utils.cpp:rational", "Optima/Utils.cpp:rationalize"]}
{"id": "C80", "title": "Infinite values never count as solved and infinite steps end at the bounds", "statement": "If an entry of the objective gradient, of the constraints or of v is infinite (and none is NaN) at the last iterate, the error is not below the tolerance and the solve does not report success; a variable whose Newton step is infinite towards a finite bound ends at that bound.", "quantifier": "all user functions that may return infinities, all canonical forms, histories, memory contents and tolerances, both step modes, every norm that agrees with the maximum on numbers and infinities and is NaN if all entries are", "why_tests_cant": "infinities turn into NaN in products with zeros of the echelon form, which depend on the problem; tests never make a function return infinity at the last iterate", "anchors": ["Optima/ResidualErrors.cpp", "Optima/Convergence.cpp", "Optima/ResidualVector.cpp", "Optima/Utils.cpp:multiplyMatrixVectorWithoutResidualRoundOffError", "Optima/BacktrackSearch.cpp"]}
{"id": "C81", "title": "The LU solver is backward stable in double arithmetic", "statement": "In double arithmetic LU::decompose followed by LU::solve returns a vector that satisfies every equation of the system that is not discarded up to 8(n+1) roundings of the terms |L||U||x| of the equation, and is zero in the unknowns of discarded equations; no equation of a regular system is discarded; the step computed by the full-space method satisfies the equations of the saddle point problem with the same accuracy.", "quantifier": "all square matrices and right-hand sides of doubles, all sizes n with 16(n+1) <= 2^53, all orders of the additions with or without fused multiply-add, all pivots that complete pivoting allows, all canonical matrices and residuals", "why_tests_cant": "tests compare solutions of a few random matrices with a tolerance; the error depends on the matrix, the pivots and the order of the operations", "anchors": ["Optima/LU.cpp", "Optima/LinearSolverFullspace.cpp"]}
{"id": "C82", "title": "The null-space step solves the saddle point problem in double arithmetic", "statement": "If LU discards no equation of the reduced system of t unknowns, the step computed by LinearSolverNullspace in double arithmetic satisfies each equation of the canonical saddle point problem up to 8(t+1) roundings of the terms of the reduced system and 5m roundings of the terms of the equation, where m is one more than the number of variables; the equations of the eliminated variables are satisfied whatever LU does.", "quantifier": "all canonical matrices (any Hessian, any numbers of explicit and implicit basic and non-basic variables and of parameters) and right-hand sides of doubles, all orders of the additions with or without fused multiply-add, all pivots", "why_tests_cant": "tests compare steps for random matrices with a tolerance; the blocks are updated in place twice and each update is rounded, and the error depends on the sizes, the values and the order of the operations", "anchors": ["Optima/LinearSolverNullspace.cpp", "Optima/LU.cpp"]}
{"id": "C83", "title": "Errors of the echelon form in double arithmetic", "statement": "After Echelonizer::compute the equations A(:,ibasic)*R = I and A(:,ibasic)*S = A(:,inonbasic) hold in the rows of the pivots up to 8(nb+1) roundings of the products of the factors with R and S. A swap adds to the error of a column that of the pivot column times the new entry of the pivot row and two roundings of the terms. After k calls of updateWithPriorityWeights in which no entry of R and S exceeds mu the error is at most (1+mu)^(nb*k) times that of compute and one swap; the rows of R of the dependent equations are rows of the permutation. The threshold for the pivots does not prevent the loss of all digits: there are a 2x4 matrix and two vectors of weights for which compute is accurate to twelve digits and after two updates no entry of A(:,ibasic)*R - I is below 0.9, although the entries of R and S are at most 10 and the determinant of the basic columns is 3, and the residual of the linear equations vanishes at a point that violates them by 4.", "quantifier": "all matrices of doubles, all pivots of the factorisation, all sequences of weights, all implementations of std::sort, all orders of the additions with or without fused multiply-add", "why_tests_cant": "tests swap variables of a few well conditioned matrices and compare with a tolerance; the error depends on the whole history of the swaps, and the bad case needs a pivot that is a rounding error above the threshold", "anchors": ["Optima/Echelonizer.cpp", "Optima/EchelonizerExtended.cpp", "Optima/ResidualVector.cpp"]}
{"id": "C84", "title": "The extended echelon form in double arithmetic, and the same constraint given twice", "statement": "After EchelonizerExtended::updateWithPriorityWeights the errors of [A;J](:,ibasic)*R = I and [A;J](:,ibasic)*S = [A;J](:,inonbasic) are at most the errors of the echelon forms of A and of the reduced matrix J2 times the entries of the products they are multiplied with, and nbA+nbJ+mJ+1 roundings of the terms. If a row of J that is counted as a pivot depends on the rows of A, the errors add up to at least one whatever the rounding. A reduced row of one entry is counted as soon as the entry is ten machine epsilons, whatever the size of its terms. Hence a constraint given both as a linear and as a non-linear one, 3136 x0 + 64 x1 = 3200, makes both variables basic without the warning about dependent rows, and the solve for (x0^2+x1^2)/4 from the feasible point (1,1) ends with success after one iteration at the point zero, where the constraint is violated by 3200, for every positive tolerance.", "quantifier": "all matrices of doubles, all weights, all implementations of std::sort, all orders of the additions with or without fused multiply-add; all options of the solve in the bad case", "why_tests_cant": "tests compare R and S for small integer matrices, whose reduced rows are exact; a dependent row is noticed only if its rounding error is below an absolute threshold, which depends on the size and the digits of the entries", "anchors": ["Optima/EchelonizerExtended.cpp", "Optima/Echelonizer.cpp", "Optima/ResidualVector.cpp", "Optima/MasterSolver.cpp"]}
{"id": "C85", "title": "The step of the linear solver in double arithmetic, and the constraints after a Newton step", "statement": "After LinearSolver::solve with every operation rounded, the errors of the equations of the master problem are at most: for the gradient, the residuals of the canonical equations, the errors of R*W(:,js) = [I S] times wbs, and nb roundings of the terms of W'*R'*wbs; for the parameters, exactly the residuals of the canonical equations; for the constraints, the entries of W(:,jb) times the residuals of the canonical equations, and the errors of W(:,jb)*R = I, W(:,jb)*S = W(:,jn) and W(:,jb)*Sp = Wp times the entries they multiply. The unstable variables get their entries of the right-hand side unchanged. The residuals of the canonical equations are those of the null-space and the full-space method. With the right-hand side computed by ResidualVector, every linearised constraint is satisfied after a Newton step up to these errors and the roundings of awbs, and a linear constraint at the new point up to half a unit in the last place of every variable more.", "quantifier": "all master matrices of doubles, all sets of stable variables, all right-hand sides, all orders of the additions with or without fused multiply-add, all states and steps", "why_tests_cant": "tests compare steps of small well-scaled matrices with a tolerance; the bound is for every matrix, and shows which errors of the echelon form reach which equations", "anchors": ["Optima/LinearSolver.cpp", "Optima/Canonicalizer.cpp", "Optima/NewtonStep.cpp", "Optima/ResidualVector.cpp"]}
{"id": "C86", "title": "The residual function without evaluations of the derivatives", "statement": "ResidualFunction::updateSkipJacobian evaluates the residuals at u without asking the user functions for derivatives; the residuals of the master problem and the error afterwards are those that update gives at u.", "quantifier": "all problems, all user functions that compute the derivatives asked for and no others, all reachable states, all points", "why_tests_cant": "no test calls updateSkipJacobian; a test with linear constraints only would pass, since the derivatives of the linear constraints are not asked for", "anchors": ["Optima/ResidualFunction.cpp", "Optima/ConstraintFunction.cpp", "Optima/EchelonizerW.cpp", "Optima/EchelonizerExtended.cpp"]}
{"id": "C87", "title": "A transformation is kept only if it is no worse than the Newton iterate", "statement": "In an iteration of MasterSolver the variables transformed by the function phi replace the Newton iterate only if the error at them is not larger than the error at the Newton iterate; a transformation function can therefore not keep a problem from being solved that is solved without it.", "quantifier": "all problems, transformation functions, initial guesses and options", "why_tests_cant": "no test uses a transformation function in a solve, and one that improves the iterate is kept under either comparison", "anchors": ["Optima/TransformStep.cpp", "Optima/MasterSolver.cpp"]}
{"id": "C88", "title": "The tolerance and the iteration budget only decide where the iterates end", "statement": "Two solves that differ only in convergence.tolerance and maxiters follow the same sequence of iterates: the one with fewer iterations ends at an iterate of the other. Loosening the tolerance never turns success into failure and never takes more iterations; a solve that succeeds has the same outcome with every larger maxiters, and the number of iterations it needs does not depend on maxiters.", "quantifier": "all problems, user functions with state, transformation functions, user convergence checks, initial guesses, solver histories and pairs of options", "why_tests_cant": "relates pairs of executions over all problems and options", "anchors": ["Optima/MasterSolver.cpp", "Optima/Convergence.cpp"]}
{"id": "C89", "title": "An interrupted solve can be continued", "statement": "A solve that runs out of iterations, followed by a solve from the state it returned, gives the same point, multiplier effect, error and verdict as one solve with the combined iteration budget, and the numbers of iterations add up.", "quantifier": "all problems, initial guesses, budgets of the two solves and solver objects used for the second one", "why_tests_cant": "relates three executions over all problems and all splits of the budget; the exception (the interrupted iterate would have been accepted) needs a particular iterate", "anchors": ["Optima/MasterSolver.cpp", "Optima/Convergence.cpp"]}
{"id": "C90", "title": "The initial multipliers do not influence a solve", "statement": "Two solves of one problem from the same initial guess of x and p, with different initial guesses of the multipliers, return the same state, error, number of iterations and verdict.", "quantifier": "all problems, options, initial guesses of x and p, and pairs of initial multipliers", "why_tests_cant": "relates two executions over all problems and all pairs of initial multipliers; the exceptions need a variable that starts on a bound and a multiplier that changes the sign of its gradient", "anchors": ["Optima/Stability.cpp", "Optima/NewtonStep.cpp", "Optima/BacktrackSearch.cpp", "Optima/MasterSolver.cpp"]}
