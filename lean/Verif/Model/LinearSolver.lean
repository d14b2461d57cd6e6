import Verif.Model.LinearSolvers

/-!
# Model of `LinearSolver.cpp`
-/

namespace Optima

open Matrix

variable {K : Type*} [Field K] {nx np nw : ℕ}

/-- `LinearSolverMethod`, LinearSolverOptions.hpp. -/
inductive Method
  | fullspace
  | nullspace
  | rangespace

/-- Eigen's `v(idx) = b` for an index vector given as a function. -/
def assignFn {m n : ℕ} (v : Fin m → K) (idx : Fin n → Fin m) (b : Fin n → K) : Fin m → K := (List.finRange n).foldl (fun v k => Function.update v (idx k) (b k)) v

/-- The inner solvers (`LU` objects) of the three methods. -/
structure Inners (K : Type*) (np nbe nbi nne nni : ℕ) where
  full : Inner K (FullT np (Fin nbe) (Fin nbi) (Fin nne) (Fin nni))
  null : Inner K (NullT np (Fin nbe) (Fin nne) (Fin nni))
  range : Inner K (RangeT np (Fin nbe) (Fin nbi) (Fin nni))

/-- `LinearSolver::Impl::decompose` and `solveCanonical`, LinearSolver.cpp:48-66. The options are the same in both calls. -/
def solveCanonical (m : Method) {nbe nbi nne nni nnu : ℕ} (I : Inners K np nbe nbi nne nni) (C : Canon K nx np nw (Fin nbe) (Fin nbi) (Fin nne) (Fin nni) (Fin nnu))
    (a : CVec K np (Fin nbe) (Fin nbi) (Fin nne) (Fin nni)) : CVec K np (Fin nbe) (Fin nbi) (Fin nne) (Fin nni) :=
  match m with
  | .nullspace => nullSolve I.null C a
  | .rangespace => rangeSolve I.range C a
  | .fullspace => fullSolve I.full C a

/-- `LinearSolver::Impl::solve(CanonicalMatrix, CanonicalVectorView, MasterVectorRef)`, LinearSolver.cpp:96-129. `au` is `a.xu`; `u0` holds the previous contents of `u`. -/
def linSolveCanonical (m : Method) {nbe nbi nne nni nnu : ℕ} (I : Inners K np nbe nbi nne nni) (C : Canon K nx np nw (Fin nbe) (Fin nbi) (Fin nne) (Fin nni) (Fin nnu))
    (a : CVec K np (Fin nbe) (Fin nbi) (Fin nne) (Fin nni)) (au : Fin nnu → K) (u0 : MVec K nx np nw) : MVec K nx np nw :=
  let v := solveCanonical m I C a
  let w := C.Rbsᵀ *ᵥ v.wbs
  let x := assignFn u0.x (fun k => C.js (.inl (.inl k))) (fun k => v.xs (.inl (.inl k)))
  let x := assignFn x (fun k => C.js (.inl (.inr k))) (fun k => v.xs (.inl (.inr k)))
  let x := assignFn x (fun k => C.js (.inr (.inl k))) (fun k => v.xs (.inr (.inl k)))
  let x := assignFn x (fun k => C.js (.inr (.inr k))) (fun k => v.xs (.inr (.inr k)))
  let x := assignFn x C.ju au
  { x := x, p := v.p, w := w }

/-- `LinearSolver::Impl::solve(CanonicalMatrix, MasterVectorView, MasterVectorRef)`, LinearSolver.cpp:68-94. -/
def linSolve (m : Method) {nbe nbi nne nni nnu : ℕ} (I : Inners K np nbe nbi nne nni) (C : Canon K nx np nw (Fin nbe) (Fin nbi) (Fin nne) (Fin nni) (Fin nnu))
    (a : MVec K nx np nw) (u0 : MVec K nx np nw) : MVec K nx np nw :=
  linSolveCanonical m I C { xs := a.x ∘ C.js, p := a.p, wbs := C.Rbs *ᵥ a.w } (a.x ∘ C.ju) u0

/-- The inner solver of the code: `lu.decompose(M)`, `lu.solve(r)` (LU.cpp) with the unknowns numbered by `e`; `F` is `Eigen::FullPivLU::compute` and `rank0` the previous value of the member `rank`. -/
def luInner [LinearOrder K] {T : Type} {n : ℕ} (eps : K) (e : T ≃ Fin n) (F : (A : Matrix (Fin n) (Fin n) K) → LU.FullLU A) (rank0 : ℕ) : Inner K T :=
  fun M r => (LU.solve eps (F (M.submatrix e.symm e.symm)) rank0 (r ∘ e.symm)).1 ∘ e

end Optima
