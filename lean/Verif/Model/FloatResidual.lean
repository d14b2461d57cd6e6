import Verif.Model.MasterSolver
import Verif.Model.Float
import Mathlib.Data.Fintype.Sum
import Mathlib.Logic.Equiv.Fin.Basic

/-!
# The residuals and their errors in rounded arithmetic

`Model/Residual.lean` models ResidualVector.cpp and ResidualErrors.cpp in exact arithmetic.  Here every operation is rounded.  The order in which Eigen adds the terms of a product of a matrix and a vector depends on the sizes, on the
instruction set and on the version, so that no order is assumed: a result is related to the list of its terms.
-/

namespace Optima

/-- The terms `a·b` of a sum of products, with factors in floating-point numbers. -/
abbrev Terms (p : ℕ) := List (FNum p × FNum p)

namespace Terms

variable {p : ℕ}

/-- The terms with the opposite signs. -/
def neg (l : Terms p) : Terms p := l.map fun t => (-t.1, t.2)

/-- The entries of a vector times those of another. -/
def dot {n : ℕ} (a b : Fin n → FNum p) : Terms p := (List.finRange n).map fun j => (a j, b j)

/-- `l.Sums s`: the number `s` can be computed from the terms `l` with rounded additions, subtractions, multiplications and fused multiply-adds, in any order and with any parentheses, each term used once.  Stands for the evaluation by Eigen
    of expressions with sums of vectors and products of matrices and vectors, such as those of ResidualVector.cpp:114, 126-127 and 130. -/
inductive Sums : Terms p → FNum p → Prop
  | nil : Sums [] 0
  | entry (a : FNum p) : Sums [(a, 1)] a
  | mul (a b : FNum p) : Sums [(a, b)] (a * b)
  | neg {l s} : Sums l s → Sums (neg l) (-s)
  | add {l l' s s'} : Sums l s → Sums l' s' → Sums (l ++ l') (s + s')
  | sub {l l' s s'} : Sums l s → Sums l' s' → Sums (l ++ neg l') (s - s')
  | fma (a b : FNum p) {l s} : Sums l s → Sums ((a, b) :: l) (.fl (a.val * b.val + s.val))
  | perm {l l' s} : l.Perm l' → Sums l s → Sums l' s

end Terms

/-- The constants of a `MasterProblem` used in the residuals and their errors (MasterProblem.hpp:31-48). -/
structure FloatProblem (p nx np ny : ℕ) where
  Ax : Fin ny → Fin nx → FNum p
  Ap : Fin ny → Fin np → FNum p
  b : Fin ny → FNum p
  xlower : Fin nx → Option (FNum p)
  xupper : Fin nx → Option (FNum p)

/-- What `ResidualFunction` and `ResidualErrors` have at a point: the results of the user functions, the canonical form and the partition of the variables (CanonicalMatrix.hpp; stable basic, stable nonbasic and unstable variables) and the
    vectors of ResidualVector.cpp:100-130.  How the canonical form and the partition are found is left open. -/
structure FloatView (p nx np ny nz : ℕ) where
  g : Fin nx → FNum p
  v : Fin np → FNum p
  h : Fin nz → FNum p
  Jx : Fin nz → Fin nx → FNum p
  Jp : Fin nz → Fin np → FNum p
  nb : ℕ
  nn : ℕ
  nu : ℕ
  /-- `jbs`, `jns` and `ju` -/
  j : Fin nb ⊕ Fin nn ⊕ Fin nu ≃ Fin nx
  R : Fin nb → Fin (ny + nz) → FNum p
  S : Fin nb → Fin nn → FNum p
  Sp : Fin nb → Fin np → FNum p
  ax : Fin nx → FNum p
  ap : Fin np → FNum p
  awstar : Fin (ny + nz) → FNum p
  awbs : Fin nb → FNum p
  /-- the largest entry of `ewbar` besides its head: the zeros of `ewbl` and the entries that are not written, ResidualErrors.cpp:87-91 -/
  rest : FNum p

namespace FloatView

variable {p nx np ny nz : ℕ} (r : FloatView p nx np ny nz) (P : FloatProblem p nx np ny) (u : MVec (FNum p) nx np (ny + nz))

/-- `jbs` -/
def jb (i : Fin r.nb) : Fin nx := r.j (.inl i)

/-- `jns` -/
def jn (i : Fin r.nn) : Fin nx := r.j (.inr (.inl i))

/-- `ju` -/
def ju (i : Fin r.nu) : Fin nx := r.j (.inr (.inr i))

/-- The terms of `gs + tr(As)*y + tr(Js)*z`, ResidualVector.cpp:114. -/
def gradientTerms (i : Fin nx) : Terms p :=
  (r.g i, 1) :: (Terms.dot (fun l => P.Ax l i) (fun l => u.w (.castAdd nz l)) ++ Terms.dot (fun l => r.Jx l i) (fun l => u.w (.natAdd ny l)))

/-- The terms of `b - Au*xu`, ResidualVector.cpp:126. -/
def linearTerms (l : Fin ny) : Terms p := (P.b l, 1) :: (Terms.dot (fun i => P.Ax l (r.ju i)) (fun i => u.x (r.ju i))).neg

/-- The terms of `Js*xs + Jp*p - h`, ResidualVector.cpp:127. -/
def nonlinearTerms (l : Fin nz) : Terms p :=
  Terms.dot (fun i => r.Jx l (r.jb i)) (fun i => u.x (r.jb i)) ++ Terms.dot (fun i => r.Jx l (r.jn i)) (fun i => u.x (r.jn i)) ++ Terms.dot (r.Jp l) u.p ++ Terms.neg [(r.h l, 1)]

/-- The terms of `xbs + Sbsns*xns + Sbsp*p`, ResidualVector.cpp:130. -/
def canonicalTerms (i : Fin r.nb) : Terms p := (u.x (r.jb i), 1) :: (Terms.dot (r.S i) (fun k => u.x (r.jn k)) ++ Terms.dot (r.Sp i) u.p)

/-- `ResidualVector::update`, ResidualVector.cpp:113-130, in rounded arithmetic with any order of the additions, and `multiplyMatrixVectorWithoutResidualRoundOffError`, Utils.cpp:561-579.  Not included: `aw`, which does not enter the error. -/
structure Computes : Prop where
  /-- `ax(js) = -(gs + tr(As)*y + tr(Js)*z)` -/
  ax : ∀ i, (∀ k, i ≠ r.ju k) → Terms.Sums (r.gradientTerms P u i).neg (r.ax i)
  /-- `ap = -v` -/
  ap : ∀ l, r.ap l = -r.v l
  /-- `awstar.head(ny) = b - Au*xu` -/
  linear : ∀ l, Terms.Sums (r.linearTerms P u l) (r.awstar (.castAdd nz l))
  /-- `awstar.tail(nz) = Js*xs + Jp*p - h` -/
  nonlinear : ∀ l, Terms.Sums (r.nonlinearTerms u l) (r.awstar (.natAdd ny l))
  /-- `awbs = multiplyMatrixVectorWithoutResidualRoundOffError(Rbs, awstar); awbs -= xbs + Sbsns*xns + Sbsp*p` -/
  awbs : ∀ i, ∃ raw ref, Terms.Sums (Terms.dot (r.R i) r.awstar) raw ∧ Terms.Sums (Terms.dot (fun l => (r.R i l).abs) (fun l => (r.awstar l).abs)) ref ∧
    Terms.Sums ((if raw.abs < ref * FNum.epsilon then 0 else raw, 1) :: (r.canonicalTerms u i).neg) (r.awbs i)

/-- `norminf`, the largest of nonnegative numbers, zero if there is none. -/
def norminf {n : ℕ} (f : Fin n → FNum p) : FNum p := (List.finRange n).foldl (fun s i => max s (f i)) 0

/-- `ex`, ResidualErrors.cpp:83 and 94-103: zero for unstable variables and for basic variables on a bound. -/
def ex (i : Fin nx) : FNum p :=
  match r.j.symm i with
  | .inl _ => if some (u.x i) = P.xlower i ∨ some (u.x i) = P.xupper i then 0 else (r.ax i).abs
  | .inr (.inl _) => (r.ax i).abs
  | .inr (.inr _) => 0

/-- `error`, ResidualErrors.cpp:83-108. -/
def error : FNum p := max (max (norminf (r.ex P u)) (norminf fun l => (r.ap l).abs)) (max (norminf fun i => (r.awbs i).abs) r.rest)

end FloatView

/-- A machine for the loop of `MasterSolver` whose error is that of residuals computed in rounded arithmetic: `View s u r` says that the state `s`, left by an evaluation at `u`, has the results `r`.  Everything else about the machine (user
    functions, echelon forms, stability, Newton steps, linear solvers) is left open; the user check leaves the results as they are (Convergence.cpp:52-56). -/
structure FloatMachine {p nx np ny nz : ℕ} {σ : Type*} (m : Machine σ (FNum p) nx np (ny + nz)) (P : FloatProblem p nx np ny) (View : σ → MVec (FNum p) nx np (ny + nz) → FloatView p nx np ny nz → Prop) : Prop where
  eval : ∀ s u s', m.eval s u = some s' → ∃ r, View s' u r
  computes : ∀ s u r, View s u r → r.Computes P u ∧ m.error s = r.error P u
  check : ∀ f, m.check = some f → ∀ s uo u e s' b, f s uo u e = some (s', b) → ∀ r, View s u r → View s' u r

end Optima
