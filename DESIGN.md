# Formal model of reaktoro/optima in Lean 4

## 1. Layout

* `lean/Verif/Model/*.lean` is the model of the C++ code, one file per unit or group of units. Every definition cites the file and lines in /repo it models and states its simplifications.
* `lean/Verif/Lemmas/*.lean` holds helper lemmas.
* `lean/Verif/Props/*.lean` holds the property theorems. Beside each is an `example` (or a named witness) that meets its hypotheses with concrete data.
* `properties.jsonl` lists the claims in English, `MANIFEST.json` the theorems that prove or refute them, `seeded/LOG.jsonl` the wrong programs the theorems were tested against.

A property that the code violates keeps its full statement in `properties.jsonl`. Its negation is proved with a concrete witness, and what does hold is proved in a theorem with the suffix `_partial`. The status of such a property is `partial`.

## 2. Trusted base

### 2.1 Logic
* The kernel of Lean 4.33.0. Mathlib is used as a library of checked proofs.
* Axioms: every theorem depends on a subset of `propext`, `Classical.choice`, `Quot.sound`. Section 6 lists the set for each theorem (output of `#print axioms`). There are no axioms of our own, no `sorry`, no `native_decide`, no `bv_decide`.

### 2.2 The reading of the C++ code
The definitions in `lean/Verif/Model` were written by reading /repo as text. That they mean the same as the code is trusted. The choices below apply everywhere; further ones are stated at the definitions.

* **Numbers.** A `double` is an element of an arbitrary linearly ordered field `K`, so each theorem holds for ℚ and ℝ in particular. Arithmetic is exact: rounding and overflow are not modelled, with the following exceptions. The loop of the solver (C31, C32) is modelled for numbers of any type with any operations, so these theorems hold for `double` with rounding, infinities and NaN. C29, C30, C33 and the bounds of C45 need a linear order but nothing of the arithmetic (`double` without NaN). C60 is about numbers with NaN, C80 about numbers with infinities and NaN. C63, C64, C65, C67, C68, C71 (negation), C72, C77, C78, C79, C81, C82, C83, C84 and C85 are about numbers with a given number of significant bits, 53 in particular, and correctly rounded operations (`Model/Float.lean`: unbounded exponent; fused multiply-add in C72, C81, C82, C83, C84 and C85 only). The machine epsilon and thresholds of the code are parameters. Claims about a solver in exact arithmetic set them to 0 and say so in their hypotheses. Theorems about finite-precision constants (C05, C07) use the literals of the code.
* **Infinity.** Bounds and step lengths that may be infinite are `Option K` with `none` = infinite. The unary predicates of ErrorStatus on non-finite errors are modelled by a type with `inf`/`nan`.
* **Division by zero.** Lean's `x/0` is 0, that of C++ is ±inf or NaN. Where a divisor can vanish, the model has an explicit outcome for it, or the theorem has the guard, or a comment says why both readings take the same branch.
* **Containers.** Vectors are `Fin n → K`, matrices `Matrix (Fin m) (Fin n) K`. Contiguous blocks of Eigen (`head`, `tail`, `topRows`, …) are summands of sum types or `Fin.castAdd`/`Fin.natAdd`. Index vectors are lists, or functions where they are permutations. Where sizes can be wrong at run time (Problem, State, Sensitivity, size checks) they are values, not types.
* **Loops** over entries are `List.foldl` over `List.finRange n`; loops with an exit test are recursions on a fuel or on a decreasing measure, and termination is a theorem, never an assumption.
* **Outcomes.** Exceptions, failed assertions (debug builds) and undefined reads are outcomes distinct from a value wherever they can happen.
* **Memory.** Uninitialised or stale memory is an explicit parameter (`mem`); members that live across calls are part of the state.

### 2.3 Contracts of code outside the repository
* `std::partition`, `std::sort`: any function that meets the contract of the standard (`Idx.PartitionImpl`, `Ech.SortImpl`); an instance of each is constructed. One negation (C38) uses the algorithm of libstdc++.
* `Eigen::FullPivLU`: any factorisation `P A Q = L U` with unit lower triangular `L`, upper triangular `U` and pivots in decreasing size (`Ech.FullLU`, `LU.FullLU`). That such a factorisation exists for every matrix is proved (`Ech.exists_exact_oracle`, `LU.exists_fullLU`). The linear solves of the triangular factors are modelled by substitution and proved correct.
* User functions (objective, constraints, resources, transformation, convergence check) are arbitrary functions with state. They may throw.
* Number formatting of streams (`Outputter`) is an arbitrary function to text.

### 2.4 Not modelled
* Floating-point rounding outside the solver loop, C63, C64, C65, C67, C68, C72, C77, C78, C79, C81, C82, C83, C84 and C85; overflow and underflow. Infinity and NaN in values returned by user functions are modelled for the error and the convergence test (C60, C80) and for the bounds (C29, C80) only.
* Timing (`Timing.cpp`, elapsed times in results), text of error messages (`Exception.hpp`), python bindings, demos, tests, the vendored `Optima/deps`.
* Memory allocation. The `pimpl` boilerplate is modelled only for `Solver` (C57) and the options (C75).
* Lazy views (`MatrixViewH/W/V/RWQ`, `MasterVectorView`) are identified with the matrices and vectors they show; only the assignment through `MasterVectorRef` is modelled with memory (C67).

## 3. Which code is modelled where

| Model file | C++ code |
|---|---|
| Steps, Utils, Brent, BrentFloat, Golden, GoldenFloat, Rational, RationalFloat | all numerical functions of `Utils.cpp`, `Utils.hpp` |
| IndexUtils | `IndexUtils.hpp`, `StablePartition.cpp`, `Stability.cpp` |
| Echelon, EchelonFloat, EchelonExt, ExtendFloat, EchelonW | `Echelonizer.cpp`, `EchelonizerExtended.cpp`, `EchelonizerW.cpp` |
| Triangular, LU, LUFloat | `LU.cpp`, `Eigen::FullPivLU`, triangular solves of Eigen |
| Master | `MasterMatrix`, `MasterMatrixOps`, `CanonicalMatrix`, `Canonicalizer` |
| LinearSolvers, LinearSolver, NullFloat, StepFloat | `LinearSolver{,Fullspace,Nullspace,Rangespace}.cpp` |
| Residual | `ResidualVector.cpp`, `ResidualErrors.cpp`, `ResidualFunction.cpp` |
| Status | `ErrorStatus.cpp`, `Convergence.cpp`, `Result.cpp` |
| LineSearch | `LineSearch.cpp` (not called by the library) |
| MasterSolver | `BacktrackSearch.cpp`, `ErrorControl.cpp`, `TransformStep.cpp`, `MasterSolver.cpp` |
| NewtonStep | `NewtonStep.cpp`; the instance of the solver loop made of the models above |
| UserFunctions, SkipJacobian | `ObjectiveFunction.cpp`, `ConstraintFunction.cpp`, `ResourcesFunction.cpp`, `ResidualFunction.cpp` (`updateSkipJacobian`) |
| Solver | `Solver.cpp` (reformulation with slacks, calls of user functions) |
| Sensitivity | `SensitivitySolver.cpp`, sensitivities in `Solver.cpp` |
| Problem | `Problem.cpp`, `State.cpp`, `Sensitivity.cpp`, fixed-size matrices |
| FloatResidual | `ResidualVector::update`, `ResidualErrors::update` in rounded arithmetic with any order of summation; the loop with any machine whose error is computed in this way |
| FloatEchelon | `cleanResidualRoundoffErrors` with `sigma` (`EchelonizerExtended.cpp`, `Echelonizer.cpp`) in rounded arithmetic; the solver for one variable and one constraint in rounded arithmetic |
| NotANumber, Infinity | error, convergence test and bounds with NaN and infinite values |
| Float | `double` arithmetic, `multiplyMatrixVectorWithoutResidualRoundOffError` in it |
| MasterVector | `MasterVector.hpp`, `CanonicalVector.hpp` |
| Outputter | `Outputter.cpp`, output of `MasterSolver.cpp`, names in `Solver.cpp` |
| Checks | size checks of a solve in their order |
| Objects | lifetimes of `Solver` objects and of the lambdas they create |
| Options | options: where they are stored, passed on and read |

`MasterSolver.solve` is proved about for every implementation of its parts (`Machine`); `NewtonStep` instantiates it with the modelled parts, and `Solver` with the user's problem, so that the end-to-end theorems (C46, C49, C50, C54, C58 …) are about the whole composition.

## 4. Per property: what is proved and how

The theorems are in section 6 and in MANIFEST.json.
* **C01 (proved)** A conservative step never leaves the box and lands on the limiting bound. The loop is a fold; invariant on (alpha, limiting index). Maximality of alpha is an `IsGreatest` statement on the set of admissible factors.
* **C02 (proved)** An aggressive step is exactly the projection of the full step on the box. The clamp is compared with an independent definition of nearest point.
* **C03 (proved)** largestStep returns exactly the largest admissible step length. Fold with `Option` accumulator. Without zero entries of `dp` guarded by the code (`largestStep0`), the claim fails: witness. the statement (the version with bounds) is proved; the version largestStep(p, dp) without bounds ignores zero entries of p: largestStep0_ignores_zero_entries.
* **C04 (proved)** Fraction-to-the-boundary returns the maximal alpha in (0,1]. `IsGreatest` of the admissible set, for all three variants.
* **C05 (partial)** Rational approximation is legal and recovers exact rationals. Stern-Brocot invariant `b c - a d = 1`; well-founded recursion. Witnesses against 'closest' and for a zero denominator. *Missing:* 'closest fraction' and 'non-zero denominator' are false: negations proved with witnesses.
* **C06 (proved)** Brent minimisation stays in the bracket and never returns a worse point than any it evaluated. One iteration is a step on a record with the log of evaluations as ghost; invariants by induction on the budget. `brent_accurate` bounds the distance to the minimiser of a unimodal function; `brent_best_three`: no point is evaluated twice and the control points are the three best. `brentM_safe`: the same for functions with a state, values as returned.
* **C07 (partial)** Golden section search stays in the bracket and terminates. The truncated literal of the golden ratio makes the four points drift; an invariant bounds the drift for tol ≥ 5e-13. For tol ≤ 1e-14 the interval reaches a configuration that never shrinks below tol: non-termination proved. *Missing:* proved for tol >= 5e-13; for tol <= 1e-14 the truncated golden ratio makes the search run forever: negation proved.
* **C08 (proved)** Sherman-Morrison update really inverts A + D. Induction over rank-one updates (Sherman-Morrison on `Matrix`).
* **C09 (proved)** The BFGS inverse-Hessian functor satisfies the secant equation after every update. State machine over lists of calls.
* **C10 (proved)** Round-off cleaning only zeroes negligible entries and is idempotent. Direct; supremum over the entries.
* **C11 (partial)** A compactly represented Hessian expands to the matrix it represents. Matrices with run-time dimensions; `Represents` is the independent meaning. *Missing:* zero and rectangular sources: negations proved.
* **C12 (partial)** Index moves are permutations that split exactly on membership. Lists and any `std::partition`. *Missing:* moveIntersectionLeft with an empty selection: negation proved.
* **C13 (partial)** Stable partition bookkeeping. Induction on lists of calls. *Missing:* setStable of an empty set: negation proved.
* **C14 (partial)** Stability classification is exact. Composition of moves on sub-ranges for any partition implementation. *Missing:* empty basis: negation proved.
* **C15 (partial)** The echelon form invariant survives every history of operations. Invariant `Inv` kept by every operation; induction on the list of operations; the start from the contract of FullPivLU. *Missing:* the last rows of R*A*Q are not zero with dependent rows: negation proved.
* **C16 (proved)** Swapping is an exchange and is reversible. Direct on the swap; reversibility.
* **C17 (partial)** Priority weights yield a maximum-weight basis in descending order. One-pass exchange argument, then matroid exchange for global optimality. *Missing:* needs no entries strictly between zero and the threshold; negation proved otherwise.
* **C18 (partial)** Extended echelon form of [A;J] is correct for every sequence of J. Block algebra with the inner echelonizer across any sequence of `J`. *Missing:* zero rows and numEquations after a return to an empty J: negations proved.
* **C19 (partial)** EchelonizerW assembles W and its echelon form with the p-columns. Block algebra over `Fin nx ⊕ Fin np`. *Missing:* debug assertion fails without linear constraints (negation proved); nx = 0 with nz > 0 is a size mismatch, nx = ny = 0 the use of an uninitialised rank.
* **C20 (proved)** Canonicalizer reorders consistently. List partitions and re-indexing; the error is characterised by an equivalence.
* **C21 (partial)** LU solve returns a solution whenever the matrix is non-singular, and a solution of the retained equations otherwise. Contract of FullPivLU and substitution; witnesses for `Q()`, the stale rank and the discarded unknowns. *Missing:* discarded unknowns are not exactly zero, rank() is stale for n = 1 and Q() is transposed: negations proved with witnesses.
* **C22 (proved)** Fullspace method solves the canonical saddle-point system. Block matrices, the inner solver a contract (discharged by C21 in `linearSolver_lu_partial`).
* **C23 (proved)** Nullspace method solves the canonical saddle-point system. Block elimination in both directions.
* **C24 (partial)** Rangespace method solves the canonical saddle-point system for diagonal Hessians. Block elimination; `rangespace_solves_iff` is exact, including the wrong sign of one block. *Missing:* false with explicit basic variables (block M33 has the wrong sign): rangespace_solves_iff says exactly when the result is right, rangespace_wrong is a witness.
* **C25 (partial)** The linear solver solves the user's master system. Composition of C20, C22–C24 with the back transformation. *Missing:* full-space and null-space methods; the range-space method only without explicit basic variables (negation proved otherwise).
* **C26 (proved)** Structured master-matrix products agree with the dense matrix. Matrix identity with index splits.
* **C27 (proved)** The canonical residual is the echelonised residual. Matrix identity from the echelon form; error bound of the rounding filter.
* **C28 (proved)** What a small reported error guarantees. Supremum characterisation; consequences for the user's equations. the last two theorems show what a small error does not guarantee.
* **C29 (partial)** Iterates and returned state never violate bounds. Invariant of the loop of MasterSolver for every machine, with arbitrary arithmetic on linearly ordered numbers. *Missing:* proved for all numbers that are linearly ordered, with arbitrary arithmetic (rounding, infinities); false if the Newton step is not a number: negation proved.
* **C30 (partial)** User functions are evaluated only inside the bounds. Every evaluation is on a trace; invariant of the trace; a transformation function breaks it. *Missing:* true without a transformation function (the only case reachable through Solver); false with one: negation proved with a witness.
* **C31 (proved)** Every solve terminates within the iteration budget and reports truthfully. Loop with a measure; counts of steps. No assumption on numbers. for every type of numbers, including rounding, infinities and NaN.
* **C32 (proved)** Success means converged. Postcondition of the loop; equality of two runs that start from different histories. for every type of numbers, including rounding, infinities and NaN.
* **C33 (proved)** A transformation step never increases the error and is undone if it does. Direct for any transformation and any error. The theorem also says when a transformation is kept and when it is refused; *before* is the last evaluation, see C87 for which point that is.
* **C34 (partial)** Line search result is a convex combination that is no worse than the full step. From C06; sign error of the descent test: witness. `lineSearchM` runs on the state of the solver, where every trial evaluates the residual function: `lineSearchM_spec` describes all calls, `lineSearch_no_worse_partial` proves the claim where the basic variables are determined by each point, `lineSearch_worse` refutes it otherwise: two variables of equal magnitude, the error at the final point is 0.36 after a trial that reported 0.18 there and a full step with 0.2. *Missing:* the descent test is inverted (negations proved); the point is a convex combination in all cases, but the error at the end can exceed that of the full step, as the error of a point depends on the points evaluated before (negation proved); not larger where the basic variables are determined by the point.
* **C35 (partial)** Error status flags have the documented meaning. Direct, with non-finite errors. *Missing:* flags proved; the rate mixes errors of several solves (negation proved).
* **C36 (partial)** Result accounting. Record of counters; witness. *Missing:* += drops nine counters and times, result.error is never set: negations proved.
* **C37 (partial)** The slack reformulation is equivalent to the user's problem. Equivalence of feasible sets, correspondence of KKT points. *Missing:* for a correctly assembled matrix of the master problem (always without stale memory, see C44).
* **C38 (partial)** State packing round-trips. Appending and splitting; the order of `std::partition`. *Missing:* contents of the index sets proved; their order is not preserved by std::partition: negation proved with libstdc++'s algorithm.
* **C39 (partial)** Evaluation failures are reported. Flags; witness. *Missing:* a failure of the equality constraint is lost and old flags of uncalled functions count: negations proved.
* **C40 (partial)** Assigning a Problem copies the problem. Record assignment in the run-time-sized model; end to end for the solver. *Missing:* the data members are copied; the functions are not and no error is thrown for different dimensions: negation proved, end to end for the solver.
* **C41 (partial)** Sensitivities are the derivatives of the solution. Linear identities, `HasDerivAt` version, end-to-end witnesses. *Missing:* the computed columns satisfy the differentiated equations without the curvature of h; derivatives exactly if that curvature vanishes; sc of held variables omits fxx*xc + fxp*pc: both negations proved end to end.
* **C42 (partial)** Output tables are aligned. Strings as lists; widths. *Missing:* columns, names and errors proved; alignment holds if no value is longer than its column or equal to the separator: negations proved otherwise.
* **C43 (partial)** User functions see a clean result object. The functions receive the result object by reference with arbitrary previous contents. *Missing:* clean results proved; an uninitialised function is not detected: negation proved.
* **C44 (partial)** The assembled linear constraint matrix depends only on the problem. Assembly with the previous memory as a parameter; exact characterisation. *Missing:* false when there are both equality and inequality constraints (a block is never written): negation proved with a witness.
* **C45 (proved)** Backtracking blends and clamps. Fold for the factor and clamps.
* **C46 (proved)** Newton step is the exact minimiser direction. Composition of C25, C27 and the residual of affine problems; the whole solve by running the loop. exact arithmetic; the full-space and null-space methods end to end, the range-space method under the conditions of C24.
* **C47 (partial)** Dimension and option errors are detected before solving. Order of the checks with user calls in between. *Missing:* names of x and slacks are checked first; other names, states and parameters only after user calls, some sizes not at all: negations proved.
* **C48 (proved)** A residual function update always completes. Totality of the update in release builds from the invariants of C13–C20.
* **C49 (proved)** A solve always returns. C48 for every iteration. Transformation functions may be present; they must return, like the other user functions. release builds, user code that does not throw.
* **C50 (proved)** What a reported success means. C28 and C32 for the instance of the loop; translated to the user's problem by C37. proved for MasterSolver::solve; the corollaries for Solver::solve in terms of the problem of the user (..._partial) assume that the matrix was assembled correctly, which is C44.
* **C51 (partial)** Basic variables given to user functions are the user's. The indices of slacks reach the user: witness for every solve of a class of problems. What holds (`given_indices_partial`): every list given during a solve or a sensitivity evaluation has distinct indices of variables or slacks, at most as many as constraints, with linearly independent columns; without inequality constraints they are the user's variables (`given_indices_users`). *Missing:* false: negation proved, for every problem with a constraint on p only and end to end for every solve of a concrete problem; proved: the indices are distinct indices of variables or slacks with independent columns, and without inequality constraints of the user's variables.
* **C52 (partial)** All user functions see the same point. The view of `x` is shortened for f, h, v and not for r. *Missing:* false when there are inequality constraints: r sees the slacks; what each function is given is proved exactly.
* **C53 (partial)** Success means the evaluation succeeded. Witness, end to end. *Missing:* false: negation proved with a witness.
* **C54 (proved)** Solutions are fixed points. Zero error is computed exactly at the point; the loop stops after one step, by injectivity of the linearised system. exact arithmetic, full-space or null-space method, release build.
* **C55 (partial)** Objects with fixed dimensions keep them, and states and sensitivities are copied completely. Run-time-sized matrices with Eigen's resizing rules. *Missing:* false for assignment between two fixed matrices (the implicit copy assignment resizes): negation proved.
* **C56 (partial)** The output shows the iterates. The loop with output as a trace. *Missing:* the last line of a failed solve shows the previous iterate: negation proved.
* **C57 (partial)** A solve only uses the solver and the problem it was given. Object graph with addresses that may be reused; invariant over all histories of operations. *Missing:* true if no solver is entered again from its own user functions; false otherwise: negation proved.
* **C58 (partial)** An infeasible problem is not reported as solved. The kernel of the basic rows of `R` is computed from the pivot rows of the factorisation and followed through all basis changes. *Missing:* true for consistent linear constraints of any rank; false for contradictory ones (only the pivot rows of the factorisation count): negation proved end to end.
* **C59 (partial)** A successful solve of a convex problem is close to optimal. The first-order conditions of a successful solve (C50) and the tangent inequality; the negation follows a concrete run through echelon form, Newton step, step control and error for all histories. *Missing:* true if no basic variable of the result sits on a bound with a multiplier of the wrong sign (and full row rank); false otherwise: negation proved end to end.
* **C60 (partial)** A point at which a function is not a number never counts as solved. Numbers with NaN and the comparisons of IEEE 754; the error as computed by std::max of three norms; the negation follows a run of the whole solver on a concrete problem. *Missing:* true for the optimality errors; false for the values of constraints and of v, which std::max drops when they are NaN: negation proved end to end.
* **C61 (partial)** Close to a regular solution the solver converges quadratically. One Newton step in terms of the problem; Taylor and stability estimates give the squared distance and a quadratic bound for the error; induction over the loop. The negation follows the exact recursion `x⁺ = -2x` of a concrete problem. *Missing:* true for affine h (objective and v arbitrary); false for non-linear h, whose curvature is missing in the Newton matrix: negation proved, the solver diverges from every point near the minimiser.
* **C62 (partial)** A smooth strictly convex problem is solved from every starting point. Exact recursion `x⁺ = -x³` for the objective `√(1 + x²)` through the whole solver, by the same induction over the loop. Positive classes: if the derivatives of a separable objective are convex or concave the iterates are monotone after the first and the sum of the steps bounds the derivatives; if the Hessian varies little compared with a fixed quadratic form, a step contracts in the norm of that form (energy argument on the plane of the constraints). *Missing:* true from every start for quadratic objectives (C46), separable objectives with convex or concave derivatives, and objectives on linear constraints whose second derivatives vary little; close to the solution for all (C61); false in general, there is no line search: negation proved for every starting point with |x| >= 1.
* **C63 (partial)** A variable that cuts a step ends on its bound. The backtracking search is modelled for any type of numbers; `FNum p` are the numbers with `p` significant bits and correctly rounded operations (`Fl.rnd`, proved monotone, exact on such numbers and nearest). Exact arithmetic: algebra. Rounded arithmetic: a forward error analysis of `xo*(1-β) + β*x`. The negation is a computation with 53 bits done by the kernel, and the stuck solve an induction over the loop. *Missing:* true in exact arithmetic; in double arithmetic the variable may stay a few units in the last place above its bound (distance bounded), for all further iterations: negation proved, up to a failed solve.
* **C64 (partial)** Entries of a product that are exactly zero are returned as zero. The function with rounded sums and products in the order of the entries. Error of the scalar product by induction over its terms; three columns by a sharper analysis of the two additions; four columns by the same and, in the remaining case, because the result is a multiple of half a unit in the last place and the errors cannot add up to two units below the reference; the negation by computation with 53 bits for five columns, which columns of zeros extend to any larger number. *Missing:* true exactly if there are at most four columns: clean_zero_iff, with a witness for every larger number; the error of the result is bounded for all sizes.
* **C65 (partial)** The step-length utilities keep their guarantees in double arithmetic. The same model functions as for C01 and C04, instantiated with `FNum p`. Conservative step: a loop invariant and monotonicity of rounding. Fraction to the boundary: relative errors of the three operations. *Missing:* true for performConservativeStep, and for fractionToTheBoundary with tau <= 1 - 4*2^-53; false for tau = 1: negation proved.
* **C66 (partial)** Strictly convex quadratic problems are solved from every starting point. Bounds only: the error of a problem without basic variables bounds every derivative. With a constraint: four stages of a concrete run followed through basis, stability, Newton step, step control and error for all histories and both step modes. Positive part: the Newton step of an affine problem leads to the solution for the set of held variables. *Missing:* true from starting points on the bounds active at the solution (and, without active bounds, from all points: C46); false in general: negation proved, both for problems with bounds only and for a problem with one constraint started at a feasible interior point.
* **C67 (partial)** Master vectors behave like the vector (x, p, w). Master vectors as three lists, the operators of the code on each part; in double arithmetic the quotient is multiplication by the rounded reciprocal. References are blocks of a memory, copied element by element in the order of Eigen's assignment. *Missing:* true in exact arithmetic; in double arithmetic u / s and u /= s differ (negation, with a bound for the difference), data of a wrong length are not detected, and overlapping references are not copied correctly (negations).
* **C68 (partial)** Removing round-off errors keeps the echelon form. `sigma` and the two roundings `(x + sigma) - sigma` in `FNum p`; small entries are lost by the spacing of numbers with `p` bits, the general change by relative errors. The consequences follow the solver for one variable and one constraint in `double`, every operation rounded, through all iterations. *Missing:* in double arithmetic the change of R*A is bounded by a multiple of max|A|^2 and integers are kept; for large entries of A the matrix R is distorted or becomes zero: negation proved, up to a solve that reports success at a point violating its only constraint.
* **C69 (partial)** The method of the linear solver does not change the result. Both methods solve the canonical system, which has one solution, so the Newton steps agree in every state met; a general theorem replaces the Newton step of a machine by one that agrees in all reachable states. The negation follows the range-space iterates of a problem with one variable: the error of the multiplier doubles in every step. *Missing:* true in exact arithmetic for the full-space and null-space methods if the second-order systems are regular, and for the range-space method without variables of large second derivative; false for the range-space method in general: negation proved end to end, a problem solved in one iteration by the other methods is never solved.
* **C70 (partial)** A solve does not depend on earlier solves. Two runs that start from different memory are compared step by step: a relation between the states of the two solvers (everything equal except what is overwritten before it is read) is kept by evaluation, Newton step, step control, loop and sensitivities. The negation composes two solves; the matrix of the first is the memory of the second. *Missing:* true for MasterSolver, and for Solver with linear constraints of one kind (all memory left by earlier solves, and the sensitivities); with linear equality and inequality constraints true only if the block of C44 holds the same entries: negation proved end to end, a solve right after another reports success at an infeasible point.
* **C71 (partial)** Equivalent formulations of a problem give the same iterates. Two solves of problems of different size, related by a renaming of the variables and by matrices that express the constraints of each by those of the other. Newton's equations of the two determine the same new point; the errors are then equal, hence all decisions of the loop. With bounds the basic variables matter: they form a basis of largest weight, and where there is only one such basis the same variables are basic, held and measured in both solves, and the step control finds the same factor. The negations compare two solves that start where two variables weigh the same, and two solves in `double`. *Missing:* true in exact arithmetic if the constraints are independent and the linearised conditions are regular at the points visited (full-space and null-space methods, also mixed), with bounds also if the weights determine the basic variables at the points visited and the initial multipliers have the same effect; false with bounds where variables weigh the same: negation proved, the order of two variables decides whether a solve with one iteration succeeds; false in double arithmetic: negation proved, a constraint multiplied by 1e8 gives another solution.
* **C72 (proved)** What success means in double arithmetic. A relation between a list of products and every result that rounded additions, subtractions, multiplications and fused operations can give for their sum; its error by induction over the relation. The residuals are such sums; the cleaning of `R*awstar` adds at most two units. The loop is that of C32 with any machine whose error is computed from such residuals; the solver for one variable in `double` (C68) is an instance. the defect of the canonical form enters the bound for the equality constraints; it is bounded for one constraint and, through C68, for any echelon form, and C68 shows that it is not small in general.
* **C73 (partial)** Assertions hold in debug builds. One update of the residual function in a debug build fails an assertion exactly if there is no linear constraint (`assert(echelonizer.R().rows())`, EchelonizerW.cpp:73) or `[Ax; hx]` is zero (`assert(nbs == jb.size())`, Stability.cpp:76: with no basic variables `moveIntersectionLeft` returns all); the rank is tied to the matrix by C19. The solve then follows as in C49, the assertions on the iterates in BacktrackSearch.cpp holding by C29. The priority update swaps only for pivots that pass the assertion of Echelonizer.cpp:193. *Missing:* true with an exact rank decision for problems with a linear inequality constraint or a non-zero coefficient in a linear equality constraint; false without linear constraints (and where [Ax; hx] is zero): negation proved, no solve of such a problem returns in a debug build; assertions on sizes hold by the types of the model, assertions inside Eigen are not modelled.
* **C74 (partial)** Linear constraints stay satisfied. The Newton step solves the rows of the linear constraints also when variables are held at their bounds. Backtracking mixes the old and the trial point with one factor, so the violation is multiplied with `1 - β`; components on a bound which the trial point leaves are projected back and add their share. A relation between the points of the trace by induction over the loop. The negation follows one iteration of a concrete problem. *Missing:* true if no variable in the linear constraints has bounds (all solves with regular systems, no transformation function), with the exact change of the violation in one step for all bounds; false otherwise, variables on a bound are projected back while the others take the step: negation proved end to end from a start at the minimiser.
* **C75 (partial)** The options given by the user are used. Every object that keeps options has a field for them; programs are lists of operations, and what a running solve reads is logged. The options last set are computed from the list of operations alone; an invariant relates them to the fields. That some options have no effect is a simulation between two programs that differ only there. *Missing:* true for all options a solve reads and all programs that start no solve on a running solver; false for linesearch, errorstatus and steepestdescent, which nothing reads, for the method of the sensitivities, which is always null-space, and for nested solves on one solver: negations proved.
* **C76 (partial)** Units and coordinates of a problem do not matter. The linearised conditions of the two problems have the same solutions up to the change of coordinates (`Smooth.Recast.newton`), and in exact arithmetic every step of the loop goes to the solution of its linearised conditions; the traces of the two solves are compared point by point, whatever ends them. The negation follows `min c·x⁴/4`, whose iterates `(2/3)ᵏ x` do not depend on `c`, while the error does. With bounds the walk of a solve is described by the basic variables, the variables held on their bounds, the linearised conditions and the step control (`Smooth.BoundedWalk`), and each of them is carried to the other units; only the weights, which are absolute values, are not. `units_change_iterates` solves one problem from a point where all variables are on their bounds: the pivot of the factorisation, the largest coefficient of the constraint, decides which variable is basic, and with it whether the solution is reached in one step. *Missing:* the iterates correspond in exact arithmetic without bounds if the constraints are independent and the linearised conditions are regular at the points visited (full-space and null-space methods), and with bounds, for units and origins of the single variables, if also the weights determine the same basic variables in both units; false with bounds otherwise: a problem whose variables all start on their bounds takes other iterates in other units; the test of convergence compares absolute errors with the tolerance, so where the iterations end and whether they succeed depends on the units: negations proved.
* **C77 (partial)** Brent minimisation keeps its guarantees in double arithmetic. `minimizeBrent` is modelled for any arithmetic (`Model/BrentFloat.lean`) and shown to be the program of C06 for exact numbers. For numbers with `p` significant bits the trial points stay in the bracket because each bound on a step is met by exact comparisons or by a gap between neighbouring numbers (`Fl.brent_down`, `Fl.brent_up`). For tolerances of at least two machine epsilons no trial point falls on the best point, so the bracket keeps the minimiser; the exit test then bounds the width of the bracket with all rounding errors included. The negation runs three iterations in the kernel and follows the rest with the invariant. *Missing:* containment, the best value and the number of calls hold for all tolerances that are not negative; accuracy for strictly unimodal functions needs a tolerance of at least two machine epsilons and is false below: negation proved, with the tolerance 1e-17 an increasing function is minimised at 0.38 on [0, 1].
* **C78 (partial)** Golden section search keeps its guarantees in double arithmetic. `minimizeGoldenSectionSearch` is modelled for any arithmetic and functions with state (`Model/GoldenFloat.lean`) and shown to be the program of C07 for exact numbers. The invariant of C07 is carried over with a drift of three roundings per iteration; the bracket shrinks by 3/4 at least, so there are at most 100 iterations and the drift stays below 3e-13. Points at a distance of 1e-13 from the end of [0, 1] are mapped into [a, b] with rounding. For accuracy on [a, b] two probes may be mapped to the same number; the part with the minimum can then be dropped, but the whole bracket is a few numbers wide. The negation runs 79 iterations in the kernel and finds a cycle. *Missing:* tolerances of at least 1e-12 for all functions (with state, throwing) and intervals; false below: negation proved, with the tolerance 1e-14 the search for the minimum of a distance function enters a cycle.
* **C79 (partial)** Rational approximation keeps its guarantees in double arithmetic. `farey`, `rational` and `rationalize` are modelled for any division and any conversion from integers (`Model/RationalFloat.lean`) and shown to be the program of C05 for exact numbers. Mediants of neighbours with denominators up to `2n` are at least `1/(2n²)` away from any other fraction with a denominator up to `n`, so rounding does not change the direction of the search. A fraction strictly between two neighbours has a denominator of at least the sum of theirs, so the search for a rounded fraction meets it, or another one with the same double, before the limit. The witness of the negation is run in the kernel. *Missing:* termination, legality, closeness and the repair of perturbed fractions proved with every operation rounded; rounded fractions are unchanged for all maximum denominators if |x| <= 1, and for those below 2^25 otherwise; false above one: negation proved for the maximum denominator 2^26 - 1.
* **C80 (partial)** Infinite values never count as solved and infinite steps end at the bounds. Numbers with infinities and NaN and the operations of IEEE 754 (`Model/Infinity.lean`), exact on finite numbers. Their addition is associative and commutative, so a product with a matrix is classified by its terms: NaN, an infinity or a number. The negation for constraints follows a run of the whole solver on a concrete problem; the one for steps is for all problems, with a kernel-checked run of the loop. *Missing:* proved for v, for the gradient except at unstable and basic variables on a bound, for constraints if no row of R has a zero in the column of an infinite entry or combines opposite infinities, and for steps in the min-max mode; false otherwise: 0*inf = NaN in R*h makes the constraints drop out of the error, with a whole solve that succeeds at infinite constraints, and infinite steps become NaN in the default mode.
* **C81 (partial)** The LU solver is backward stable in double arithmetic. `Eigen::FullPivLU`, the triangular solves and `LU::solve` with every operation rounded and the additions in any order (`Model/LUFloat.lean`). Each entry of a factor or a solution is a rounded sum of products, so the classical componentwise error analysis applies: the errors of the factorisation, of the forward and of the backward substitution are added, and complete pivoting bounds the factors. Elimination and substitution are given as programs that meet the description. The full-space method has no arithmetic apart from `LU`. Witnesses of the negations are run in the kernel. *Missing:* proved whenever the discarded equations are the last ones of the factorised system (none in particular), and for the full-space step; false otherwise: negations proved, equations of regular systems are discarded if their right-hand sides are large, and equations that are kept are then violated.
* **C82 (proved)** The null-space step solves the saddle point problem in double arithmetic. `LinearSolverNullspace` with every operation rounded and the additions of each product of matrices in any order (`Model/NullFloat.lean`). The right-hand side is treated as one more column of the rows, so one lemma covers the first elimination of all blocks (`eliminate`), one the recovery of the multipliers (`recover`) and one the second elimination (`eliminate₂`); the residuals of `LU` come from C81. all canonical matrices, right-hand sides and orders of operations; what LU discards is in C81.
* **C83 (proved)** Errors of the echelon form in double arithmetic. `Echelonizer::compute`, the swap and `updateWithPriorityWeights` with every operation rounded, with or without fused multiply-add (`Model/EchelonFloat.lean`). `compute_double` uses the errors of the factorisation of C81 and of the triangular systems. One lemma (`pivot_error`) gives the error of every column of `R` and `S` after a swap, the pivot column included; `updates_double` adds them up over any number of updates. The bound needs the largest entry on the way, and there is no limit for it in the code: `echelon_ruined` is a matrix and two vectors of weights, evaluated step by step in the kernel, where a rounding error becomes the pivot. all matrices, weights and orders of operations; the bad case is without fused multiply-add.
* **C84 (proved)** The extended echelon form in double arithmetic, and the same constraint given twice. `EchelonizerExtended::updateWithPriorityWeights` with every operation rounded and every product of matrices in any order (`Model/ExtendFloat.lean`). `compose` bounds a product whose factors are rounded themselves; `rows_A` and `rows_J` then regroup the sums so that the errors of the two echelon forms of C83 appear as coefficients. `dependent_wrong` needs no rounding analysis: a dependent row cannot have its own unit vector. For `same_constraint_twice` the echelon forms, the reduced row and `R` are evaluated in the kernel, and `one_step_solve` shows that the loop of C31 ends after the first step for all options. all matrices, weights and orders of operations; the errors of the two echelon forms it is made of are those of C83; the bad case is without fused multiply-add.
* **C85 (proved)** The step of the linear solver in double arithmetic, and the constraints after a Newton step. `LinearSolver::solve` with every operation rounded (`Model/StepFloat.lean`). `Canonicalizer` only copies and compares, so on the values of doubles it is the exact `canonicalize`, and C20 relates its blocks to those of the master matrix. `master_double` regroups the sums of the master equations so that the residuals of the canonical equations and the errors of the echelon form appear as coefficients; `null_residuals` and `full_residuals` give the former from C82 and C81. `linearised_double` combines this with the rounded right-hand side of C72, and `linear_after` with the addition of the step. `step_total` constructs a computation that meets the hypotheses for every master matrix. all matrices, right-hand sides and orders of operations; the residuals of the canonical solvers are those of C81 and C82 and hold under their conditions on the pivots LU keeps; the errors of the echelon form are those of C84.
* **C86 (partial)** The residual function without evaluations of the derivatives. `ResidualFunction::updateSkipJacobian` with the function objects of C43 (`Model/SkipJacobian.lean`). The call operator clears the derivatives, so a constraint function that obeys the options leaves them zero (`skip_clears`). With `Jx = 0` the reduced matrix of `EchelonizerExtended` is zero, its echelon form has no basic rows, and the rows of `R` have no entries in the columns of the non-linear constraints (`wUpdate_zero`); hence neither their values nor their multipliers reach the error (`rf_ignores_h`, any `eps`; `skip_error` gives what is left). `skip_differs` is a point that violates a constraint and has no error. `skip_agrees_partial` is what remains true: no non-linear constraints, for every `eps`. *Missing:* proved without non-linear constraints; false with them: the derivatives are cleared before the call, so the constraints drop out of the gradient, the echelon form and the error.
* **C87 (partial)** A transformation is kept only if it is no worse than the Newton iterate. `TransformStep::execute` inside `MasterSolver::step`. When it is called, `F` and `E` have last been updated at the previous iterate, so `errorcurr` belongs to `uo` and not to the Newton iterate in `u` (`step_kept`). `Pointwise` says that the error is a function of the point, which `free_pointwise` proves for problems without constraints and bounds. `transformation_undoes_newton` is a strictly convex quadratic function: without a transformation function one iteration solves it, with the transformation back to `xo` every solve from another point fails. `nan_transform_kept`: `errornext > errorcurr` is false if either is NaN. *Missing:* the comparison is with the error at the previous iterate, not at the Newton iterate: proved is that every iterate is the Newton iterate or no worse than the previous one (no parameters, numbers only); the claim itself is false: negation proved end to end, a transformation back to the previous iterate is always kept and a problem solved in one iteration is never solved; errors that are NaN make any transformation kept.
* **C88 (proved)** The tolerance and the iteration budget only decide where the iterates end. Relates two executions of the loop of C31. `step` reads neither option, and `stepping` reads them only in the two tests that end the loop (`stepping_cases`), so two solves that both go on are in the same state (`continue_same`); the rest is induction over the loop. `stopping_exact` says that the number of iterations needed does not depend on the budget: a solve that succeeds in `n` iterations succeeds with every budget of at least `n` and, with every smaller budget `k`, fails after `k + 1`. Solves from the state another solve returned are the subject of C89. all machines of C31 (user functions, transformation functions and user checks with state, also throwing ones), for MasterSolver and for Solver; numbers that compare like doubles, NaN included, for MasterSolver.
* **C89 (partial)** An interrupted solve can be continued. False in general. The solve of the second call starts with a step: `MasterSolver::solve` evaluates the residuals at its initial guess but compares the error with the tolerance only after the first step, and the last iterate of a solve that runs out of iterations is not compared either (the budget is tested first). `not_resume`: for the objective c sqrt(1 + x^2) (c about 1e-8 for the default tolerance) the solve from 2 succeeds at -8, and every solve from -8 fails. `resume_partial`: when the uninterrupted solve goes beyond the iterate of the interruption, and for regular problems without bounds, the continued solve returns the point, the error and the verdict of the uninterrupted one and the iterations add up; the proof shifts the iteration count of the second loop (`loop_shift`) and compares it with the rest of the first by `loop_same` of C71, since the new solve starts from another echelon form. `resume_with_bounds_partial`: the same with bounds, if at the iterates the weights determine the basic variables (through `loop_same_bounds` of C71). Missing: weights that leave a choice, where the fresh echelon form can choose other basic variables. *Missing:* false in general: the iterate a solve is given is never compared with the tolerance (the comparison follows a step), so a state that one solve accepts can be a start from which every solve fails (not_resume). Proved where the uninterrupted solve goes beyond the iterate of the interruption: without bounds (resume_partial) with independent constraints and regular linearised conditions at the iterates, exact arithmetic; with bounds (resume_with_bounds_partial) if also the weights determine the basic variables at the iterates.
* **C90 (partial)** The initial multipliers do not influence a solve. The Newton step computes new multipliers from the linearised conditions, so the ones it starts from drop out (`multipliers_free_partial`, without bounds, by the comparison of C71 of a solve with itself). With bounds they enter twice: `Stability::update` decides with the current multipliers which variables on a bound are held, and a shortened step mixes old and new multipliers. `multipliers_partial` excludes both for the first step and compares the rest by `loop_same_bounds`; `multipliers_interior_partial` is the case that no variable starts on a bound, in the min-max mode. `multipliers_matter`: for x0^2/2 + x1^2/2 - x1 with x0 + x1 = 1, x1 >= 0 from (1, 0), the solve ends after one iteration if the multiplier is at most 1, and takes at least two if it is larger. `multipliers_matter_shortened`: for x0^2/2 + x1^2/2 + 3 x1 with the same constraints from (0, 1), where no variable is on a bound, half of the Newton step leads to the solution; the solve ends there with the initial multiplier 0 and goes on with others. *Missing:* true in exact arithmetic without bounds (independent constraints, regular linearised conditions at the iterates), and with bounds if also the weights determine the basic variables at the iterates, the two initial multipliers hold the same variables on their bounds, and the first step is not shortened (min-max mode, or the step stays within the bounds); false otherwise: negations proved end to end for both exceptions, the initial multiplier decides whether a solve with one iteration succeeds.

## 5. What the model says about the code

The negations proved correspond to the following behaviour of the code.

1. **Range-space method** (C24, C25): one block of the reduced system has the wrong sign when there are explicit basic variables. The computed step is not a solution.
2. **Stale matrix block** (C44, C37, C70): with both linear equality and inequality constraints a block of the assembled matrix is never written. A solve that follows another one with the same solver object then solves a different problem and reports success (C70: `x = 2` for the constraint `x = 1`).
3. **Infeasible problems reported as solved** (C58): only the pivot rows of the factorisation of the linear constraints count; contradictory rows are not noticed.
4. **Small error, unsolved problem** (C28): dependent rows and basic variables on a bound do not count in the error.
5. **Failures lost** (C39, C53): a failure of `he` is overwritten by `hg`, and a failed evaluation does not prevent success.
6. **Slack indices and slack values reach user functions** (C51, C52).
7. **Assigning a Problem keeps the old functions** (C40). Assigning fixed-size members resizes them (C55).
8. **Sensitivities** ignore the curvature of `h` and omit terms for variables held at a bound (C41).
9. **Golden section search** runs forever for tol ≤ 1e-14 (C07).
10. **Line search** has an inverted descent test, and can end with an error larger than that of the full step, as the error of a point depends on the points evaluated before it (C34). `result.error` is never set and `+=` drops counters (C36). The convergence rate mixes errors of several solves (C35).
11. **Debug assertions** fail for problems without basic variables (C14, C19, C48, C73): no solve of a problem without linear constraints returns in a debug build; release builds continue.
12. **Transformation functions** are evaluated outside the bounds (C30). Their safeguard compares with the error at the previous iterate, because `E` is not updated between `newtonstep.apply` and `transformstep.execute` (MasterSolver.cpp:177-178): a transformation that makes a perfect Newton step useless is kept, and a transformation to a point where the error is NaN is kept as well (C87).
13. **Re-entrant solves** call the functions of the inner problem (C57).
14. **Late or missing size checks** (C47); misaligned tables (C42); the last line of a failed solve shows the previous iterate (C56).
15. **Degenerate vertices** (C59): a convex problem is reported as solved at a vertex that is not optimal.
16. **NaN** (C60, C29): NaN values of constraints and of `v` are dropped by `std::max` and do not prevent success; a NaN step passes the bounds. **Infinity** (C80): infinite constraints become NaN where `R` has a zero (`0*inf`), so if each row of `R` has one the constraints are ignored and a solve can succeed where they are infinite; an infinite step towards a finite bound becomes NaN in the default step mode (factor zero times infinity).
17. **Divergence** (C61, C62): the Newton matrix omits the curvature of `h`, so the solver runs away from a strict regular minimiser of a problem with a non-linear constraint; without a line search it also diverges for `√(1 + x²)` from `|x| ≥ 1`.
18. **Rounding** (C63, C64, C65): a step cut at a bound by `BacktrackSearch` may end next to the bound instead of on it (`performConservativeStep` avoids this), and the solve then makes no further progress; `fractionToTheBoundary` with `tau = 1` may lead to negative entries; `multiplyMatrixVectorWithoutResidualRoundOffError` does not remove the round-off of sums with five or more terms.
19. **Convex quadratic problems that are never solved** (C66): without constraints no variable is ever held by its bound, so `min (x+1)²/2`, `x ≥ 0` always fails; with a constraint the cut steps may push all variables onto bounds at an infeasible point, where the solver stays.
20. **Large entries of `A`** (C68, C71): adding and subtracting `sigma` rounds the entries of `R` to multiples of about `2⁻⁵²·sigma`. For `A = [1.1·10⁷]` this makes `R` 31 per cent too large, for `|a| ≥ 10⁸` zero, and the solver reports success at a point that violates the constraint.
21. **Range-space solves** (C69, from C24): `min x² - x` subject to `x = 1`, solved in one iteration with the other methods, is never solved with the range-space method unless the multiplier is right from the start: the distance to the solution doubles in every iteration.
22. **Feasible points are left** (C74): variables on a bound that a step would push outside are projected back while the others take the whole step, so linear constraints that hold are violated afterwards; a solve that runs out of iterations then returns a worse point than its start.
23. **Options without effect** (C75): `linesearch`, `errorstatus` and `steepestdescent` are stored but never read (the call of the line search is commented out), sensitivities are computed with the null-space method whatever `newtonstep.linearsolver.method` says, and a solve started by a user function on the solver that is running replaces the options of the running solve.
24. **Order of the variables** (C71): where variables on their bounds weigh the same, the pivot of the factorisation decides which of them can leave its bound first, so exchanging two variables changes the number of iterations and, with a limit on it, the success of a solve.
25. **Units** (C76): errors are compared with an absolute tolerance, so a problem whose objective function is given in a large unit is declared solved early and one given in a small unit may never be, although the iterates are the same. With bounds the iterates depend on the units as well: the basic variables are chosen by the absolute values of the variables and, among variables on their bounds, by the largest coefficients of the constraints, and a basic variable is not held on its bound.
26. **Tolerances below the precision** (C77, C78): `minimizeGoldenSectionSearch` with a tolerance of 10⁻¹⁴ may not end, in double arithmetic as in exact arithmetic. `minimizeBrent` has no lower limit for its tolerance. With a tolerance of 10⁻¹⁷ a parabolic step can be lost by rounding; the function is called at the best point again, and the part of the bracket with the minimum is dropped.
27. **Large right-hand sides of linear systems** (C81): `LU::solve` discards an equation if its pivot is at most `2⁻⁵²` times the entry of the transformed right-hand side, so whether it is discarded depends on the right-hand side: equations of regular systems with large solutions are discarded, and if they are not the last ones, equations that are kept are violated as well.
28. **Round-off errors as pivots** (C83): the echelon form is updated by swaps during a whole solve and never recomputed. If columns of `A` are nearly dependent a rounding error may exceed the threshold `10⁻⁸` and become the pivot of the next swap; for a 2×4 matrix two updates leave `R` without a correct digit although the new basic columns are well conditioned, and the residual of the linear equations vanishes at points that violate them by 4.
29. **A constraint given twice** (C84): the reduced row of a non-linear constraint that repeats a linear one is rounding noise. It counts as independent if it exceeds ten machine epsilons, an absolute limit that entries of about 20 can exceed. There is no warning then, `R` has entries of 10¹⁴, and a solve started at a feasible point returns with success a point that violates the constraint by 3200. A `FIXME` in the source asks why the class is inaccurate with more than five non-linear constraints; the bounds of C84 show where errors are multiplied.
30. **Residuals without derivatives** (C86): `updateSkipJacobian` tells the user functions not to compute derivatives, but they are cleared before each call and used afterwards: `Jxᵀz` is missing in the gradient, and the non-linear constraints have zero rows in `W` and zero columns in `R`. The error is zero at points that violate them. No other file of the library calls it; it is exposed to Python.
31. **The initial guess is not tested** (C89): `MasterSolver::solve` makes a Newton step before it compares an error with the tolerance for the first time, and the last iterate of a solve that runs out of iterations is not compared either. A state that one solve accepts can therefore be a start from which every solve fails, and an interrupted solve continued from its state can fail where the uninterrupted one succeeds.
32. **The initial multipliers decide which variables are held** (C90): `Stability::update` takes the gradient of the Lagrangian with the multipliers of the initial guess. A variable that starts on a bound is held there in the first step if that gradient has the right sign, whatever the Newton step would do: with the multiplier 0 a problem is solved in one iteration, with the multiplier 2 the first step does not move. A shortened step also mixes the initial multipliers into the new ones, so they matter even if no variable starts on a bound.
33. **Utilities**: `rational` may give a zero denominator (C05), and with maximum denominators of 2²⁶ it replaces some rounded fractions above one by other doubles (C79), `moveIntersectionLeft` and `setStable` with an empty set (C12, C13), `<<=` from a zero or rectangular source (C11), `LU::Q()`, `LU::rank()` (C21), `numEquations()` (C18), `u / s` and `u /= s` of master vectors differ in the last bit, data of a wrong length are accepted and overlapping references are overwritten while being read (C67).

## 6. Theorems and the axioms they depend on

p = `propext`, c = `Classical.choice`, q = `Quot.sound`; – = none.

| Property | Theorems (axioms) |
|---|---|
| C01 | `Steps.conservativeStep_inBox` (pq), `Steps.conservativeStep_alpha_greatest` (pcq), `Steps.conservativeStep_value` (pcq), `Steps.conservativeStep_limiting` (pcq) |
| C02 | `Steps.aggressiveStep_projection` (pcq) |
| C03 | `Steps.largestStep_spec` (pcq), `Steps.stepUpToBounds_eq_largestStep` (pq), `Steps.largestStep0_spec_partial` (pcq), `Steps.largestStep0_ignores_zero_entries` (pcq), `Steps.lessThan_greaterThan_total` (pcq), `Steps.lessThan_tolerance` (pcq) |
| C04 | `Steps.fractionToTheBoundary_greatest` (pcq), `Steps.fractionToTheLowerBoundary_greatest` (pcq), `Steps.fractionToTheBoundaryC_greatest` (pcq) |
| C05 | `Rational.farey_spec` (pcq), `Rational.farey_exact` (pcq), `Rational.farey_not_closest` (pcq), `Rational.rational_small_partial` (pcq), `Rational.rational_large_partial` (pcq), `Rational.rational_zero_denominator` (pcq), `Rational.ratio_exact_small_partial` (pcq), `Rational.ratio_exact_large_partial` (pcq), `Rational.ratio_not_exact_large` (pcq), `Rational.rationalize_fixes` (pcq) |
| C06 | `Brent.brent_safe` (pcq), `Brent.brent_zero_budget` (p), `Brent.brent_accurate` (pcq), `Brent.brent_control` (pq), `Brent.brent_best_three` (pcq), `Brent.parabola_exact` (pcq), `Brent.quadratic_step` (pcq), `Brent.brentM_safe` (pcq), `Brent.brentM_pure` (pcq) |
| C07 | `Golden.golden_safe_partial` (pcq), `Golden.golden_terminates_partial` (pcq), `Golden.golden_accurate_partial` (pcq), `Golden.golden_never_ends` (pcq) |
| C08 | `Utils.inverseShermanMorrison_spec` (pcq), `Utils.inverseShermanMorrison_sound` (pcq), `Utils.inverseShermanMorrison_breakdown` (pcq) |
| C09 | `Utils.bfgs_symmetric` (pcq), `Utils.bfgs_first` (pcq), `Utils.bfgs_secant` (pcq), `Utils.bfgs_posdef` (pcq) |
| C10 | `Utils.cleanVec_spec` (pcq), `Utils.cleanMat_spec` (pcq), `Utils.multiplyClean_spec` (pcq) |
| C11 | `Utils.shiftAssign_expands_partial` (pcq), `Utils.shiftAssign_size` (pcq), `Utils.shiftAssign_zero_keeps_target` (pcq), `Utils.rectangular_reported_zero` (pcq), `Utils.matrixStructure_spec` (pcq), `Utils.ensureMinimumDimension_spec` (pcq) |
| C12 | `Idx.moveLeftIf_splits` (p), `Idx.moveRightIf_splits` (pq), `Idx.moveIntersectionRight_splits` (pq), `Idx.moveIntersectionLeft_splits_partial` (pq), `Idx.moveIntersectionLeft_empty` (p), `Idx.stable_keeps_order` (p), `Idx.stable_not_order_of_p` (pcq), `Idx.difference_spec` (pq), `Idx.isIntersectionEmpty_spec` (pq) |
| C13 | `StablePart.partition_always` (pcq), `StablePart.last_call_wins_partial` (pq), `StablePart.partition_assert` (pcq), `StablePart.setStable_empty` (pq) |
| C14 | `Stab.update_exact_partial` (pcq), `Stab.update_assert` (pcq), `Stab.update_no_basics` (pcq), `Stab.update_no_basics_witness` (pcq) |
| C15 | `Ech.echelon_history_partial` (pcq), `Ech.echelon_full_row_rank` (pcq), `Ech.echelon_same_kernel` (pcq), `Ech.bottom_rows_not_zero` (pcq) |
| C16 | `Ech.swap_exchanges` (pcq), `Ech.swap_assertion` (pcq) |
| C17 | `Ech.priority_descending` (pcq), `Ech.priority_max_weight_partial` (pcq), `Ech.priority_max_weight_threshold_zero` (pcq), `Ech.priority_not_optimal_below_threshold` (pcq) |
| C18 | `Ech.extended_history_partial` (pcq), `Ech.extended_matrix` (pcq), `Ech.extended_same_kernel` (pcq), `Ech.extended_numEquations` (pcq), `Ech.numEquations_stale` (pcq), `Ech.extended_max_weight_partial` (pcq) |
| C19 | `Ech.echelonW_spec` (pcq), `Ech.echelonW_ok` (pcq), `Ech.echelonW_assert_without_linear_constraints` (pcq) |
| C20 | `canonicalize_error_iff` (pcq), `canonicalize_spec` (pcq), `canonical_echelon` (pcq), `canonicalize_duplicates` (pcq) |
| C21 | `LU.lu_solve` (pcq), `LU.lu_solve_degenerate_partial` (pcq), `LU.lu_discarded_bound` (pcq), `LU.lu_discarded_unknown_not_zero` (pcq), `LU.lu_rank_stale` (pcq), `LU.lu_factorization` (pcq), `LU.lu_reportedQ_wrong` (pcq) |
| C22 | `fullspace_solves` (pcq), `fullspace_injective` (pcq) |
| C23 | `nullspace_solves` (pcq), `nullspace_complete` (pcq), `nullspace_injective` (pcq) |
| C24 | `rangespace_solves_iff` (pcq), `rangespace_solves_partial` (pcq), `rangespace_injective_partial` (pcq), `explicit_zero_pivot_singular` (pcq), `rangespace_wrong` (pcq) |
| C25 | `linearSolver_solves_partial` (pcq), `linearSolver_lu_partial` (pcq), `linearSolver_rangespace_wrong` (pcq), `solvesMaster_iff` (pcq) |
| C26 | `dense_spec` (pcq), `mul_eq_dense` (pcq), `trMul_eq_dense` (pcq) |
| C27 | `residual_master` (pcq), `residual_canonical` (pcq), `residual_canonical_exact` (pcq) |
| C28 | `error_le_iff` (pcq), `errors_reported` (pcq), `small_error` (pcq), `small_error_feasible` (pcq), `rfUpdate_small_error` (pcq), `rfUpdate_small_error_feasible` (pcq), `error_ignores_dependent_rows` (pcq), `error_ignores_basic_on_bound` (pcq) |
| C29 | `solve_inBounds_partial` (pcq), `errorControl_ok` (pq), `nan_passes_bounds` (pq) |
| C30 | `solve_trace_partial` (pcq), `solve_ignores_outside_partial` (pcq), `transform_evaluates_outside` (p), `solve_evaluates_outside` (pcq) |
| C31 | `solve_budget` (pcq), `loop_terminates` (pcq) |
| C32 | `success_converged` (pcq), `solve_history_independent` (pcq) |
| C33 | `transform_spec` (pcq) |
| C34 | `lineSearch_spec` (pcq), `lineSearch_assert` (pq), `descent_test_inverted` (pcq), `newton_rejected` (pcq), `lineSearchM_spec` (pcq), `lineSearchM_pure` (pcq), `lineSearch_no_worse_partial` (pcq), `lineSearch_worse` (pcq) |
| C35 | `errorStatus_values` (pq), `errorStatus_flags` (pq), `errorStatus_first` (pq), `errorStatus_nonfinite` (pq), `errorStatus_sanity_init` (pq), `errorStatus_sanity_fails` (pq), `rate_spec` (pcq), `rate_current_partial` (pcq), `rate_mixes_solves` (pcq), `converged_iff_last` (pcq), `converged_asks_iff` (pcq) |
| C36 | `plus_all_partial` (pq), `plus_drops_counters` (pq), `plus_not_sum` (pcq), `result_error_wrong` (pcq) |
| C37 | `slack_feasible_partial` (pcq), `slack_objective` (pcq), `slack_kkt_partial` (pcq), `master_vals` (pcq), `slack_feasible_stale` (pcq) |
| C38 | `unpack_pack` (pq), `pack_unpack` (pq), `unpack_s` (–), `realIndices_perm` (pcq), `realIndices_order_partial` (pq), `realIndices_order_lost` (pcq), `solver_indices` (pcq) |
| C39 | `success_flag` (pq), `failures_reported_partial` (pcq), `he_failure_lost` (pcq), `stale_flag_alarm` (pcq) |
| C40 | `assign_data_partial` (–), `assign_keeps_functions` (–), `assign_user_partial` (–), `assign_seen_partial` (–), `copy_user` (–), `assign_solves_another_problem` (pcq), `assigned_success_partial` (pcq) |
| C41 | `sensitivity_equations` (pcq), `sensitivity_zeros` (pcq), `sensitivity_derivative` (pcq), `solver_sensitivity_partial` (pcq), `solver_sensitivity_licq_partial` (pcq), `held_sensitivity` (pcq), `curved_sensitivity` (pcq) |
| C42 | `table_aligned_partial` (pcq), `table_aligned_last_partial` (pcq), `addEntries_spec` (pcq), `headerTop_spec` (pcq), `addState_spec` (pcq), `masterNames_spec` (pcq), `long_value_misaligns` (pcq), `separator_misaligns` (pcq) |
| C43 | `objective_sees_clean` (–), `constraint_sees_clean` (–), `functionEvals_indep` (pcq), `evalHistory_indep` (pcq), `empty_objective_rejected` (p), `empty_constraint_rejected` (p), `unset_objective_undetected` (–), `unset_constraint_undetected` (–) |
| C44 | `assembleAx_iff` (pq), `assembleAx_partial` (pcq), `assembleAx_stale` (pcq) |
| C45 | `betaMin_spec` (pcq), `backtrack_spec` (pcq), `backtrack_minmax` (pq), `backtrack_accepts` (pcq), `backtrack_inBounds` (pq) |
| C46 | `newton_solves` (pcq), `affine_step_error` (pcq), `affine_newton_kkt` (pcq), `quadratic_solve` (pcq), `rf_full_rank` (pcq), `solver_quadratic` (pcq) |
| C47 | `names_checked_partial` (pcq), `functions_checked` (pcq), `sizes_checked` (pcq), `names_checks_agree` (pcq), `bc_checked` (pcq), `names_checked_late` (pcq), `sizes_undetected` (pcq), `matrices_undetected` (pcq), `state_checked_late` (pcq), `parameters_checked_late` (pcq), `bounds_not_an_error` (pcq) |
| C48 | `rfUpdate_spec` (pcq), `rfUpdate_release` (pcq), `rfUpdate_assert_no_basics` (pcq) |
| C49 | `solve_returns` (pcq), `solver_returns` (pcq) |
| C50 | `solve_success_kkt` (pcq), `solve_success_feasible` (pcq), `solver_success_partial` (pcq), `solver_success_residual_partial` (pcq), `solver_success_feasible_partial` (pcq) |
| C51 | `slack_index_basic` (pcq), `slack_index_given` (pcq), `given_indices_partial` (pcq), `given_indices_users` (pcq) |
| C52 | `resources_sees_slacks` (pq) |
| C53 | `failure_ignored` (pcq), `exUser_solved` (pcq) |
| C54 | `solution_fixed` (pcq), `solver_fixed` (pcq), `unstable_iff_held` (pcq) |
| C55 | `assignFixed_spec` (pcq), `copy_changes_dimensions` (pq), `state_assign` (–), `sens_assign` (–), `sens_resize` (p), `new_problem` (–) |
| C56 | `solve_prints_partial` (pcq), `failed_solve_prints_old` (pq), `last_line_shows_old` (pcq) |
| C57 | `Obj.solvers_own` (pcq), `Obj.calls_own_problem_partial` (pcq), `Obj.all_calls_own_problem_partial` (pcq), `Obj.stale_reachable` (pcq), `Obj.reentered_solve_calls_inner` (–) |
| C58 | `Ech.echelonW_kernel` (pcq), `quadratic_solve_kept` (pcq), `success_feasible_dep_partial` (pcq), `solver_ignores_dependent_rows` (pcq), `exTwoRows_solved` (pcq), `infeasible_reported_solved` (pcq) |
| C59 | `convex_success_partial` (pcq), `IsDegenerate.solve` (pcq), `convex_wrong_success` (pcq) |
| C60 | `converged_iff` (pcq), `nan_gradient_rejected_partial` (pcq), `nan_error_fails` (pcq), `nan_constraint_ignored` (pcq), `nan_v_ignored` (pcq), `NanConfig.errors_without_nan` (pcq), `IsLog.solve` (pcq) |
| C61 | `local_convergence_partial` (pcq), `Smooth.Regular.step` (pcq), `Smooth.Regular.error` (pcq), `curved_constraint_diverges` (pcq), `parabola_minimum` (pcq) |
| C62 | `convex_diverges` (pcq), `hyperbola_convex` (pcq), `hyperbola_deriv` (pcq), `quadratic_solve` (pcq), `separable_solve_partial` (pcq), `separable_convex_partial` (pcq), `near_quadratic_partial` (pcq), `near_quadratic_converges_partial` (pcq) |
| C63 | `backtrack_on_bound_partial` (pcq), `backtrack_near_bound` (pcq), `backtrack_misses_bound` (pcq), `double_stuck` (pcq) |
| C64 | `FNum.clean_zero_partial` (pcq), `FNum.clean_zero_false` (pcq), `FNum.clean_zero_iff` (pcq), `FNum.clean_error` (pcq), `FNum.dot_error` (pcq) |
| C65 | `Steps.rounded_conservative` (pcq), `Steps.rounded_fraction_partial` (pcq), `Steps.rounded_fraction_negative` (pcq) |
| C66 | `active_solve_partial` (pcq), `affine_newton_active` (pcq), `bounds_only_success` (pcq), `bounds_only_never` (pcq), `half_line_never` (pcq), `nearest_point_never` (pcq), `exNearest_solution` (pcq), `exNearest_strictly_convex` (pcq) |
| C67 | `MV.add_sub_spec` (pq), `MV.scale_spec` (p), `MV.divs_eq_partial` (pq), `MV.divs_ne_witness` (pcq), `MV.divs_close` (pcq), `MV.dot_spec` (pq), `MV.squaredNorm_eq_dot` (pq), `MV.squaredNorm_zero` (pcq), `MV.dot_cauchy` (pcq), `MV.norm_spec` (pcq), `MV.data_roundtrip` (pcq), `MV.data_length_witness` (pq), `MV.zeros_resize_spec` (pcq), `MV.canonical_roundtrip` (pcq), `MV.assignRef_spec_partial` (pcq), `MV.assignRef_self` (pcq), `MV.assignRef_isSome` (pq), `MV.assignRef_overlap_witness` (pcq) |
| C68 | `FNum.echelon_kept_partial` (pcq), `FNum.clean_change` (pcq), `FNum.clean_int` (pcq), `FNum.clean_zero_entry` (pcq), `FNum.clean_lost` (pcq), `FNum.echelon_all_lost` (pcq), `FNum.sigma_bounds` (pcq), `echelon_lost` (pcq), `echelon_distorted` (pcq), `OneProblem.one_success` (pcq), `double_wrong_success` (pcq), `double_never` (pcq), `double_wrong_solution` (pcq) |
| C69 | `methods_agree_partial` (pcq), `solver_methods_agree_partial` (pcq), `solve_withNewton` (pcq), `regular_of_posdef` (pcq), `rangespace_never` (pcq), `line_solved` (pcq) |
| C70 | `master_history` (pcq), `luInner_mem` (pcq), `solver_history` (pcq), `solver_history_partial` (pcq), `solver_history_sensitivity_partial` (pcq), `solver_history_false` (pcq), `stale_solved` (pcq) |
| C71 | `equivalent_formulations_partial` (pcq), `equivalent_with_bounds_partial` (pcq), `order_changes_solve` (pcq), `scaling_changes_solution` (pcq) |
| C72 | `success_double` (pcq), `success_double_small` (pcq), `FloatView.error_double` (pcq), `FloatView.error_double_small` (pcq), `FloatView.feasibility_double` (pcq), `Terms.sums_error` (pcq), `OneProblem.success_double` (pcq), `OneProblem.success_double_small` (pcq), `OneProblem.defect_bound` (pcq), `OneProblem.feasible_double` (pcq) |
| C73 | `solver_returns_debug` (pcq), `solver_asserts` (pcq), `solve_returns_debug` (pcq), `solve_asserts` (pcq), `rfUpdate_assert_iff` (pcq), `Ech.priority_swap_allowed` (pcq) |
| C74 | `solve_linear_partial` (pcq), `backtrack_violation` (pcq), `newton_violation` (pcq), `regular_of_convex` (pcq), `feasibility_lost` (pcq), `cornerStart_minimum` (pcq) |
| C75 | `Opt.options_used_partial` (pcq), `Opt.updateMasterOptions_spec` (pcq), `Opt.lastSet_setOptions` (pcq), `Opt.solve_keeps_options` (pcq), `Opt.options_unread` (pcq), `Opt.sensitivity_method_ignored` (pcq), `Opt.reentrant_options` (pcq) |
| C76 | `units_partial` (pcq), `units_with_bounds_partial` (pcq), `Smooth.Recast.newton` (pcq), `Smooth.Recast.nonsingular` (pcq), `units_decide_success` (pcq), `units_change_iterates` (pcq), `inUnits_recast` (pcq) |
| C77 | `Brent.Num.brent_double` (pcq), `Brent.Num.brent_double_accurate` (pcq), `Brent.Num.minimizeBrentM_exact` (pcq), `Brent.Num.trial_inside` (pcq), `Brent.Num.brent_tiny_tolerance` (pcq) |
| C78 | `Golden.Num.golden_double` (pcq), `Golden.Num.golden_double_accurate` (pcq), `Golden.Num.minimizeM_exact` (pcq), `Golden.Num.golden_double_never_ends` (pcq) |
| C79 | `Rational.Num.farey_double` (pcq), `Rational.Num.rational_double` (pcq), `Rational.Num.ratio_double` (pcq), `Rational.Num.rationalize_double` (pcq), `Rational.Num.ratio_fixes_partial` (pcq), `Rational.Num.ratio_double_changes` (pcq), `Rational.Num.ratio_field` (pcq) |
| C80 | `inf_converged_iff` (pq), `inf_gradient_rejected` (pcq), `inf_v_rejected` (pq), `inf_wbs` (pcq), `inf_constraint_rejected_partial` (pcq), `inf_constraint_ignored` (pcq), `inf_gradient_ignored` (pcq), `IsBarrier.solve` (pcq), `inf_step_nan` (pcq), `inf_step_clamped` (pq), `extWbs_num` (pcq), `extEx_num` (pcq), `extErrors_num` (pq) |
| C81 | `FLU.factor_error` (pcq), `FLU.rank_double` (pcq), `FLU.lower_le_one` (pcq), `FLU.upper_bound` (pcq), `FLU.lu_solve_double_rank` (pcq), `FLU.lu_solve_double` (pcq), `FLU.lu_solve_double_growth` (pcq), `FLU.discarded_zero` (pcq), `FLU.lu_total` (pcq), `FLU.fullspace_double` (pcq), `FLU.lu_discards_regular` (pcq), `FLU.lu_kept_violated` (pcq) |
| C82 | `FNull.nullspace_double` (pcq), `FNull.eliminated_double` (pcq), `FNull.null_total` (pcq), `FNull.isSub_error` (pcq) |
| C83 | `FEch.compute_double` (pcq), `FEch.swap_double` (pcq), `FEch.updates_double` (pcq), `FEch.dependent_rows` (pcq), `FEch.findCandidate_heaviest` (pcq), `FEch.updates_total` (pcq), `FEch.Ruin.echelon_ruined` (pcq) |
| C84 | `FEch.rows_A` (pcq), `FEch.rows_J` (pcq), `FEch.rows_dependent` (pcq), `FEch.form_rows` (pcq), `FEch.dependent_wrong` (pcq), `FEch.numBasicVariables_one` (pcq), `FEch.TwoProblem.newton_conditions` (pcq), `FEch.Twice.same_constraint_twice` (pcq) |
| C85 | `FStep.master_double` (pcq), `FStep.rhs_double` (pcq), `FStep.solve_double` (pcq), `FStep.null_residuals` (pcq), `FStep.full_residuals` (pcq), `FStep.step_total` (pcq), `FStep.linearised_double` (pcq), `FStep.linear_after` (pcq), `FStep.one_after` (pcq) |
| C86 | `skip_agrees_partial` (pcq), `skip_returns` (pcq), `ObjFn.pure_call` (pq), `ConFn.pure_call` (pq), `skip_clears` (pq), `skip_error` (pcq), `rf_ignores_h` (pcq), `rf_error_congr` (pcq), `skip_differs` (pcq), `Ech.wUpdate_zero` (pcq) |
| C87 | `transformed_not_worse_than_previous_partial` (pcq), `step_kept` (pcq), `transformation_undoes_newton` (pcq), `stays` (pcq), `free_pointwise` (pcq), `nan_transform_kept` (pq) |
| C88 | `stopping_one_sequence` (pcq), `stopping_looser` (pcq), `stopping_more` (pcq), `stopping_exact` (pcq), `solver_stopping_more` (pcq), `solver_stopping_looser` (pcq) |
| C89 | `resume_partial` (pcq), `resume_with_bounds_partial` (pcq), `not_resume` (pcq) |
| C90 | `multipliers_free_partial` (pcq), `multipliers_partial` (pcq), `multipliers_interior_partial` (pcq), `multipliers_matter` (pcq), `multipliers_matter_shortened` (pcq) |

All names are in the namespace `Optima`.
