import Verif.Model.MasterSolver
import Verif.Model.Float
import Mathlib.Data.Int.Log

/-!
# The removal of round-off errors from the echelon form, in rounded arithmetic

`Model/Echelon.lean` and `Model/EchelonExt.lean` model `cleanResidualRoundoffErrors` in exact arithmetic, where adding and subtracting the same number changes nothing.  The purpose of the two operations is their rounding, which is
modelled here, together with the solver for the smallest problem in which the cleaned matrix is used.
-/

namespace Optima

namespace FNum

variable {p : ℕ}

/-- `A.cwiseAbs().maxCoeff()`; zero for an empty matrix (EchelonizerExtended.cpp:73, Echelonizer.cpp:166). -/
def maxAbs {m n : ℕ} (A : Fin m → Fin n → FNum p) : FNum p := (List.finRange m).foldl (fun s i => (List.finRange n).foldl (fun s j => max s (A i j).abs) s) 0

/-- `sigma`, EchelonizerExtended.cpp:73-74, Echelonizer.cpp:166-167: `10^(1 + ceil(log10(max|A|)))`.  For a zero matrix `log10` gives `-inf` and `pow` zero; for an empty matrix the code gives zero.
    Simplification: `std::log10` is exact and `std::pow` is the exact power, rounded. -/
def sigma {m n : ℕ} (A : Fin m → Fin n → FNum p) : FNum p := if maxAbs A = 0 then 0 else fl (10 ^ (1 + Int.clog 10 (maxAbs A).val))

/-- `M.array() += sigma; M.array() -= sigma;`, EchelonizerExtended.cpp:236-243, Echelonizer.cpp:331-338. -/
def cleanSigma (σ : FNum p) {ι κ : Type*} (M : ι → κ → FNum p) : ι → κ → FNum p := fun i j => M i j + σ - σ

end FNum

/-! ## One variable and one linear constraint -/

/-- The problem `min f(x)` subject to `a·x = b`, without bounds; `g` and `h` are the functions for `f'` and `f''`.  Only problems whose pivot is not explicit, `|f''| < 1`, Canonicalizer.cpp:149-157. -/
structure OneProblem (p : ℕ) where
  a : FNum p
  b : FNum p
  g : FNum p → FNum p
  h : FNum p → FNum p
  implicit : ∀ x, (h x).abs < 1

/-- What an evaluation of `F` and `E` leaves for the Newton step and the loop. -/
structure OneState (p : ℕ) where
  ax : FNum p
  awbs : FNum p
  h : FNum p

namespace OneProblem

variable {p : ℕ} (P : OneProblem p)

/-- The matrix `R` computed by `Echelonizer::compute`, Echelonizer.cpp:152-155, for the `1×1` matrix `[a]` with `a ≠ 0`: the solution of `a·R = 1`. -/
def R0 : Fin 1 → Fin 1 → FNum p := fun _ _ => 1 / P.a

/-- The matrix `R` after `EchelonizerW::update`, EchelonizerW.cpp:88-89 (there is nothing to swap or sort). -/
def R : Fin 1 → Fin 1 → FNum p := FNum.cleanSigma (FNum.sigma fun (_ : Fin 1) (_ : Fin 1) => P.a) P.R0

/-- `F.update(u); E.update(u, F)` for one variable, one linear constraint, no parameters and no bounds (the variable is stable and basic): ResidualVector.cpp:114 and 125-130. -/
def eval (u : MVec (FNum p) 1 0 1) : OneState p :=
  { ax := -(P.g (u.x 0) + P.a * u.w 0), awbs := FNum.multiplyClean P.R (fun _ => P.b) 0 - u.x 0, h := P.h (u.x 0) }

/-- `E.error()`, ResidualErrors.cpp:83-108, without parameters and bounds. -/
def error (s : OneState p) : FNum p := max s.ax.abs s.awbs.abs

/-- `newtonstep.apply(F, uo, u)`, NewtonStep.cpp:54-65, with `LinearSolver::solve`, LinearSolver.cpp:96-128, and `LinearSolverNullspace::solve`, LinearSolverNullspace.cpp:207-240 (the default method), for a
    pivot that is not explicit. -/
def newton (s : OneState p) (uo : MVec (FNum p) 1 0 1) : MVec (FNum p) 1 0 1 :=
  let abi := s.ax - s.h * s.awbs
  let dx := s.awbs
  let dw := 0 + P.R 0 0 * abi
  { x := fun _ => uo.x 0 + dx, p := uo.p, w := fun _ => uo.w 0 + dw }

/-- The machine of the loop of `MasterSolver`, without transformation and user check. -/
def machine : Machine (OneState p) (FNum p) 1 0 1 where
  eval := fun _ u => some (P.eval u)
  evalJac := fun s _ => some s
  newton := fun s uo => some (s, P.newton s uo)
  error := fun s => error s
  phi := none
  check := none
  phi_error := fun _ h => by cases h
  check_error := fun _ h => by cases h

/-- No bounds. -/
def bounds : Bounds (FNum p) 1 0 := { xlower := fun _ => none, xupper := fun _ => none, plower := fun _ => none, pupper := fun _ => none }

end OneProblem

end Optima
