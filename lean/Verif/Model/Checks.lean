import Verif.Model.Problem
import Verif.Model.Outputter
import Verif.Model.Sensitivity

/-!
# Model of the checks of sizes in `Solver::solve`

The sizes of all members are values.  A solve is the sequence of its checks, with the calls of the user functions in between.
-/

namespace Optima

variable {K : Type*} {τ : Type*}

/-- How a check fails: an exception (`errorif`, or `std::runtime_error` of `FixedMatrix`), or an assertion (`assert`, `eigen_assert`), which is undefined behaviour in release builds. -/
inductive Failure
  | error
  | assertion
  deriving DecidableEq, Repr

/-- A step of a solve as far as sizes matter: something that fails if `bad`, or calls of user functions (which are assumed to return). -/
inductive Action
  | check (kind : Failure) (bad : Bool)
  | user
  deriving DecidableEq, Repr

/-- Run a sequence of steps: whether user functions were called, and how it failed. -/
def runActions : List Action → Bool → Bool × Option Failure
  | [], called => (called, none)
  | .check kind bad :: l, called => if bad then (called, some kind) else runActions l called
  | .user :: l, _ => runActions l true

/-- The further blocks of a comma initializer, `CommaInitializer::operator,` and `finished` of Eigen 3.4 (external code): the current row, column and height of the block, and the sizes of the blocks. -/
def commaRest (R C : ℕ) : ℕ → ℕ → ℕ → List (ℕ × ℕ) → Bool
  | row, col, height, [] => (decide (row + height = R) || decide (C = 0)) && decide (col = C)
  | row, col, height, (r, c) :: l =>
    if col = C ∧ (c ≠ 0 ∨ r ≠ height) then decide (row + height + r ≤ R) && decide (c ≤ C) && commaRest R C (row + height) c r l
    else decide (col + c ≤ C) && decide (height = r) && commaRest R C row (col + c) height l

/-- `M << A, B, ...` with `M` of size `R × C` and blocks of the given sizes fails no assertion: `CommaInitializer` of Eigen 3.4 (external code). -/
def commaFits (R C : ℕ) : List (ℕ × ℕ) → Bool
  | [] => true
  | (r, c) :: l => decide (r ≤ R) && decide (c ≤ C) && commaRest R C 0 c r l

/-- The sizes of a matrix. -/
def DMat.shape {α : Type*} (A : DMat α) : ℕ × ℕ := (A.rows, A.cols)

/-- `updateMasterProblem`, Solver.cpp:106-280: the functions (lines 119-137; here given as flags), then lines 238-279. `Vector = FixedVector` resizes. -/
def problemActions (finit heinit hginit vinit : Bool) (D : DProblem τ K) : List Action :=
  let d := D.dims
  let ny := d.be + d.bg
  let nxbar := d.x + d.bg + d.hg
  [ .check .error (!finit),
    .check .error (decide (0 < d.he) && !heinit),
    .check .error (decide (0 < d.hg) && !hginit),
    .check .error (decide (0 < d.p) && !vinit),
    -- xbarlower.head(nx) = problem.xlower; xbarupper.head(nx) = problem.xupper
    .check .assertion (decide (D.xlower.shape ≠ (d.x, 1))),
    .check .assertion (decide (D.xupper.shape ≠ (d.x, 1))),
    -- b << be, bg
    .check .assertion (!commaFits ny 1 [D.be.shape, D.bg.shape]),
    -- Ax.leftCols(nx) << Aex, Agx; Ap << Aep, Agp
    .check .assertion (decide (ny * nxbar ≠ 0) && !commaFits ny d.x [D.Aex.shape, D.Agx.shape]),
    .check .assertion (decide (ny * d.p ≠ 0) && !commaFits ny d.p [D.Aep.shape, D.Agp.shape]),
    -- bc.topRows(be) = bec; bc.bottomRows(bg) = bgc
    .check .assertion (decide (D.bec.shape ≠ (d.be, d.c))),
    .check .assertion (decide (D.bgc.shape ≠ (d.bg, d.c))) ]

/-- The number of names is wrong. -/
def badNames (names : List Str) (size : ℕ) : Bool := decide (names ≠ [] ∧ names.length ≠ size)

/-- `updateMasterOptions`, Solver.cpp:66-103. -/
def optionsActions (active : Bool) (d : Dims) (N : Names) : List Action :=
  [ .check .error (active && badNames N.x d.x),
    .check .error (active && badNames N.xbg d.bg),
    .check .error (active && badNames N.xhg d.hg) ]

/-- `updateMasterState`, Solver.cpp:283-295. -/
def stateActions (d : Dims) (S : DState K) : List Action :=
  [ .check .assertion (!commaFits (d.x + d.bg + d.hg) 1 [S.x.shape, S.xbg.shape, S.xhg.shape]),
    .check .assertion (!commaFits (d.be + d.bg + (d.he + d.hg)) 1 [S.ye.shape, S.yg.shape, S.ze.shape, S.zg.shape]) ]

/-- `MasterSolver::Impl::solve`, MasterSolver.cpp:115-122: `sanitycheck` (200-212; what concerns sizes made by `Solver` itself holds), the first evaluation (`F.update`, line 150), `sensitivitysolver.initialize` (157 and SensitivitySolver.cpp:41-49; `bc` has
    `ny` rows and `dims.c` columns), `outputHeaderTop` (159; one name for each variable of the master problem, or numbers), and the iterations. -/
def masterActions (active : Bool) (d : Dims) (D : DProblem τ K) (S : DState K) (N : Names) : List Action :=
  [ .check .assertion (decide (d.p ≠ D.plower.size)),
    .check .assertion (decide (d.p ≠ D.pupper.size)),
    .check .assertion (decide (d.p ≠ S.p.size)),
    .user,
    .check .error (decide (D.c.size ≠ 0) && decide (d.c ≠ D.c.size)),
    .check .error (active && badNames N.p d.p),
    .check .error (active && badNames N.y (d.be + d.bg)),
    .check .error (active && badNames N.z (d.he + d.hg)),
    .user ]

/-- Assigning a vector with `n` entries to a member of the state. -/
def assignAction (A : DMat K) (n : ℕ) : Action := .check .error ((A.assignFixed { A with rows := n, cols := 1 }).isNone)

/-- `updateState`, Solver.cpp:298-308. -/
def resultActions (d : Dims) (S : DState K) : List Action :=
  [ assignAction S.x d.x, assignAction S.xbg d.bg, assignAction S.xhg d.hg, assignAction S.ye d.be, assignAction S.yg d.bg, assignAction S.ze d.he, assignAction S.zg d.hg, assignAction S.p d.p, assignAction S.s d.x ]

/-- `Solver::solve(problem, state)`, Solver.cpp:346-354, for functions that are set. -/
def solveActions (active : Bool) (D : DProblem τ K) (S : DState K) (N : Names) : List Action :=
  problemActions true true true true D ++ optionsActions active D.dims N ++ stateActions D.dims S ++ masterActions active D.dims D S N ++ resultActions D.dims S

end Optima
