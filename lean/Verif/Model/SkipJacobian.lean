import Verif.Model.Solver

/-!
# Model of `ResidualFunction::updateSkipJacobian`

The call is part of the public interface (ResidualFunction.hpp:98-99) and is not used by the other files of the library.  User functions that obey the options and nothing else are modelled by `ObjFn.pure` and `ConFn.pure`.
-/

namespace Optima

open Matrix

variable {τ K : Type*} {nx np ny nz nc nq : ℕ}

/-- A user function that computes `f`, its gradient and the derivatives asked for, as the functions in tests and documentation do (ObjectiveFunction.hpp:103-118 for the meaning of the options). -/
def ObjFn.pure (f : (Fin nx → K) → (Fin np → K) → (Fin nc → K) → K) (fx : (Fin nx → K) → (Fin np → K) → (Fin nc → K) → Fin nx → K)
    (fxx : (Fin nx → K) → (Fin np → K) → (Fin nc → K) → Matrix (Fin nx) (Fin nx) K) (fxp : (Fin nx → K) → (Fin np → K) → (Fin nc → K) → Matrix (Fin nx) (Fin np) K)
    (fxc : (Fin nx → K) → (Fin np → K) → (Fin nc → K) → Matrix (Fin nx) (Fin nc) K) : ObjFn τ K nx np nc :=
  ⟨some fun t res x p c opts => some (t, { res with
    f := f x p c
    fx := fx x p c
    fxx := if opts.ddx then fxx x p c else res.fxx
    fxp := if opts.ddp then fxp x p c else res.fxp
    fxc := if opts.ddc then fxc x p c else res.fxc })⟩

/-- A user function that computes the value and the derivatives asked for (ConstraintFunction.hpp:95-110 for the meaning of the options). -/
def ConFn.pure (val : (Fin nx → K) → (Fin np → K) → (Fin nc → K) → Fin nq → K) (ddx : (Fin nx → K) → (Fin np → K) → (Fin nc → K) → Matrix (Fin nq) (Fin nx) K)
    (ddp : (Fin nx → K) → (Fin np → K) → (Fin nc → K) → Matrix (Fin nq) (Fin np) K) (ddc : (Fin nx → K) → (Fin np → K) → (Fin nc → K) → Matrix (Fin nq) (Fin nc) K) : ConFn τ K nq nx np nc :=
  ⟨some fun t res x p c opts => some (t, { res with
    val := val x p c
    ddx := if opts.ddx then ddx x p c else res.ddx
    ddp := if opts.ddp then ddp x p c else res.ddp
    ddc := if opts.ddc then ddc x p c else res.ddc })⟩

variable [Field K] [LinearOrder K]

/-- `updateSkipJacobian`, ResidualFunction.cpp:123-131 and 168-172: the statements of `update` (lines 113-121) with no derivatives asked for; then the errors are computed, ResidualErrors.cpp:60-109. -/
def skipJacobian (cfg : Config K nx np ny nz (τ × ResMem K nx np nz nc)) (F : MFuns τ K nx np nz nc) (c : Fin nc → K) (first : List ℕ) (s : Parts K nx np ny nz (τ × ResMem K nx np nz nc) cfg.pb.Ax)
    (u : MVec K nx np (ny + nz)) : Option (Parts K nx np ny nz (τ × ResMem K nx np nz nc) cfg.pb.Ax) :=
  (cfg.updateF (userCode F c first false false false) s u).map fun s => cfg.updateE s u

/-- `update`, ResidualFunction.cpp:113-121 and 162-166, and the errors. -/
def withJacobian (cfg : Config K nx np ny nz (τ × ResMem K nx np nz nc)) (F : MFuns τ K nx np nz nc) (c : Fin nc → K) (first : List ℕ) (s : Parts K nx np ny nz (τ × ResMem K nx np nz nc) cfg.pb.Ax)
    (u : MVec K nx np (ny + nz)) : Option (Parts K nx np ny nz (τ × ResMem K nx np nz nc) cfg.pb.Ax) :=
  (cfg.updateF (userCode F c first true true false) s u).map fun s => cfg.updateE s u

end Optima
