import Mathlib.Algebra.Order.Field.Basic

/-!
# Models of `ErrorStatus.cpp`, `Convergence.cpp` and `Result.cpp`
-/

namespace Optima

/-- Error values as stored by `ErrorStatus`: a finite number, `inf` or `nan` (errors are not negative). -/
inductive Fl (K : Type*)
  | fin (x : K)
  | inf
  | nan

namespace Fl
variable {K : Type*}

/-- IEEE `<`. -/
def lt [LT K] [DecidableLT K] : Fl K → Fl K → Bool
  | fin a, fin b => decide (a < b)
  | fin _, inf => true
  | _, _ => false

/-- IEEE `c * a` for finite positive `c` and non-negative `a`. -/
def mul [Mul K] (c : K) : Fl K → Fl K
  | fin a => fin (c * a)
  | inf => inf
  | nan => nan

/-- IEEE `a >= 0.0` -/
def nonneg [Zero K] [LE K] [DecidableLE K] : Fl K → Bool
  | fin a => decide (0 ≤ a)
  | inf => true
  | nan => false

/-- `std::isinf` -/
def isInf : Fl K → Bool
  | inf => true
  | _ => false

/-- `std::isfinite` -/
def isFinite : Fl K → Bool
  | fin _ => true
  | _ => false

end Fl

/-- Members of `ErrorStatus::Impl`, ErrorStatus.cpp:29-38. -/
structure ErrorStatus (K : Type*) where
  errorfirst : Fl K
  errorprev : Fl K
  error : Fl K

/-- `ErrorStatusOptions`, ErrorStatusOptions.hpp:23-33. -/
structure ErrorStatusOptions (K : Type*) where
  increased : K
  decreased : K

namespace ErrorStatus
variable {K : Type*}

/-- `initialize`, ErrorStatus.cpp:44-50. -/
def init : ErrorStatus K := ⟨.inf, .inf, .inf⟩

/-- `update`, ErrorStatus.cpp:52-59 (`e` is `E.error()`). -/
def update (s : ErrorStatus K) (e : Fl K) : ErrorStatus K :=
  ⟨if s.errorfirst.isInf then e else s.errorfirst, s.error, e⟩

/-- The assertions of `sanitycheck`, ErrorStatus.cpp:86-94; `significantly_increased_initial` is the argument `i0`. -/
def sanity [Zero K] [LT K] [DecidableLT K] [LE K] [DecidableLE K] (o : ErrorStatusOptions K) (i0 : K) (s : ErrorStatus K) : Bool :=
  decide (0 < o.increased) && decide (0 < o.decreased) && decide (0 < i0) && (Fl.fin 0).lt s.errorfirst && s.errorprev.nonneg && s.error.nonneg

variable [Mul K] [LT K] [DecidableLT K]

/-- `errorHasDecreased`, ErrorStatus.cpp:61-64. -/
def hasDecreased (s : ErrorStatus K) : Bool := s.error.lt s.errorprev
/-- `errorHasDecreasedSignificantly`, ErrorStatus.cpp:66-69. -/
def hasDecreasedSignificantly (o : ErrorStatusOptions K) (s : ErrorStatus K) : Bool := s.error.lt (s.errorprev.mul o.decreased)
/-- `errorHasIncreased`, ErrorStatus.cpp:71-74. -/
def hasIncreased (s : ErrorStatus K) : Bool := s.errorprev.lt s.error
/-- `errorHasIncreasedSignificantly`, ErrorStatus.cpp:76-79. -/
def hasIncreasedSignificantly (o : ErrorStatusOptions K) (s : ErrorStatus K) : Bool := (s.errorprev.mul o.increased).lt s.error
/-- `errorIsntFinite`, ErrorStatus.cpp:81-84. -/
def isntFinite (s : ErrorStatus K) : Bool := !s.error.isFinite

end ErrorStatus

/-- `Convergence::Impl`: the member `history`, most recent error last, Convergence.cpp:31. -/
abbrev History (K : Type*) := List K

namespace History
variable {K : Type*}

/-- `initialize`, Convergence.cpp:40-42: does nothing. -/
def init (h : History K) : History K := h
/-- `update`, Convergence.cpp:44-47. -/
def update (h : History K) (e : K) : History K := h ++ [e]

/-- `converged`, Convergence.cpp:49-56, up to the user check (line 55): `none` stands for "ask the user check". -/
def converged [LT K] [DecidableLT K] (tol : K) (h : History K) : Option Bool :=
  match h.getLast? with
  | none => some false
  | some e => if e < tol then some true else none

/-- `rate`, Convergence.cpp:58-67. -/
def rate [Field K] (h : History K) : K :=
  let N := h.length
  if N < 3 then 0
  else
    let E1 := h.getD (N - 1) 0
    let E2 := h.getD (N - 2) 0
    let E3 := h.getD (N - 3) 0
    (E2 - E1) / (E3 - E2)

end History

/-- `Result`, Result.hpp:29-94, with the default member initialisers. -/
structure Result (K : Type*) [Zero K] where
  succeeded : Bool := false
  failure_reason : String := ""
  iterations : ℕ := 0
  error : K := 0
  error_optimality : K := 0
  error_feasibility : K := 0
  num_objective_evals : ℕ := 0
  num_objective_evals_f : ℕ := 0
  num_objective_evals_fx : ℕ := 0
  num_objective_evals_fxx : ℕ := 0
  num_objective_evals_fxp : ℕ := 0
  time : K := 0
  time_objective_evals : K := 0
  time_objective_evals_f : K := 0
  time_objective_evals_fx : K := 0
  time_objective_evals_fxx : K := 0
  time_objective_evals_fxp : K := 0
  time_constraint_evals : K := 0
  time_linear_systems : K := 0
  time_sensitivities : K := 0

/-- `Result::operator+=`, Result.cpp:22-34. -/
def Result.plus {K : Type*} [Zero K] [Add K] (a other : Result K) : Result K :=
  { a with
    succeeded := other.succeeded
    iterations := a.iterations + other.iterations
    num_objective_evals := a.num_objective_evals + other.num_objective_evals
    error := other.error
    time := a.time + other.time
    time_objective_evals := a.time_objective_evals + other.time_objective_evals
    time_constraint_evals := a.time_constraint_evals + other.time_constraint_evals
    time_linear_systems := a.time_linear_systems + other.time_linear_systems }

end Optima
