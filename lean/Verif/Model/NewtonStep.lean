import Verif.Model.Residual
import Verif.Model.MasterSolver

/-!
# Model of `NewtonStep.cpp` and the machine of `MasterSolver` made of the models of its parts
-/

namespace Optima

variable {K : Type*} [Field K] [LinearOrder K] {nx np ny nz : ℕ} {τ : Type*}

/-- What a solve is given: the compiled constants and external routines, the problem, the linear solver method with its `LU` objects (one for each size of canonical form), and the user code with
    state `τ`.  User code that throws returns `none`. -/
structure Config (K : Type*) [Field K] [LinearOrder K] (nx np ny nz : ℕ) (τ : Type*) where
  env : Env K
  pb : MProblem K nx np ny nz
  method : Method
  inners : ∀ c : CanonPack K nx np (ny + nz), Inners K np c.nbe c.nbi c.nne c.nni
  /-- `r`, `f`, `h` and `v` called one after the other, ResidualFunction.cpp:143-160, with the indices of the basic variables known at this time -/
  user : τ → (Fin nx → K) → (Fin np → K) → Option (Ech.RWQ K nx np (ny + nz)) → Option (τ × Evals K nx np nz)
  /-- the same, asking for the derivatives with respect to `c` also -/
  userJac : τ → (Fin nx → K) → (Fin np → K) → Option (Ech.RWQ K nx np (ny + nz)) → Option (τ × Evals K nx np nz)
  /-- `phi`, MasterProblem.hpp:45 -/
  phi : Option (τ → (Fin nx → K) → (Fin nx → K) → Option (τ × (Fin nx → K) × Bool))

/-- The state of the parts of `MasterSolver::Impl`: user code, `F` (`ech` and, after the first update, `rf`), `E` and the memory they and the Newton step keep between calls. -/
structure Parts (K : Type*) [Field K] [LinearOrder K] (nx np ny nz : ℕ) (τ : Type*) (Ax : Matrix (Fin ny) (Fin nx) K) where
  user : τ
  ech : Ech.WState K nx np ny nz Ax
  rf : Option (RFState K nx np ny nz Ax)
  errors : ErrorsOut K nx np (ny + nz)
  ax : Fin nx → K
  du : MVec K nx np (ny + nz)

/-- `F.update(u)`, ResidualFunction.cpp:113-121; `none` is an exception or a failed assertion. -/
def Config.updateF (cfg : Config K nx np ny nz τ) (ask : τ → (Fin nx → K) → (Fin np → K) → Option (Ech.RWQ K nx np (ny + nz)) → Option (τ × Evals K nx np nz)) (s : Parts K nx np ny nz τ cfg.pb.Ax)
    (u : MVec K nx np (ny + nz)) : Option (Parts K nx np ny nz τ cfg.pb.Ax) :=
  match ask s.user u.x u.p s.ech.rwq with
  | none => none
  | some (t, ev) =>
    match rfUpdate cfg.env cfg.pb s.ech s.ax ev u with
    | .ok rf => some { s with user := t, ech := rf.ech, rf := some rf, ax := rf.res.master.x }
    | _ => none

/-- `E.update(u, F)`, ResidualErrors.cpp:60-109. -/
def Config.updateE (cfg : Config K nx np ny nz τ) (s : Parts K nx np ny nz τ cfg.pb.Ax) (u : MVec K nx np (ny + nz)) : Parts K nx np ny nz τ cfg.pb.Ax :=
  match s.rf with
  | none => s
  | some rf => { s with errors := residualErrors rf.C.mat cfg.pb.xlower cfg.pb.xupper u.x rf.res s.errors.ewbar }

/-- `NewtonStep::Impl::apply`, NewtonStep.cpp:54-65.  (The canonical residual has `xu = 0`, ResidualVector.cpp:118.) -/
def Config.newton (cfg : Config K nx np ny nz τ) (s : Parts K nx np ny nz τ cfg.pb.Ax) (uo : MVec K nx np (ny + nz)) : Option (Parts K nx np ny nz τ cfg.pb.Ax × MVec K nx np (ny + nz)) :=
  match s.rf with
  | none => none
  | some rf =>
    let du := linSolveCanonical cfg.method (cfg.inners rf.C) rf.C.mat rf.res.canonical 0 s.du
    some ({ s with du := du }, { x := fun i => uo.x i + du.x i, p := fun i => uo.p i + du.p i, w := fun i => uo.w i + du.w i })

/-- The machine of the code.  `check` is the user check, which sees all parts and changes the state of the user code only. `evalJac` also computes residuals, which the code leaves as they were; they are not used afterwards. -/
def Config.machine (cfg : Config K nx np ny nz τ) (check : Option (Parts K nx np ny nz τ cfg.pb.Ax → MVec K nx np (ny + nz) → MVec K nx np (ny + nz) → Result K → Option (τ × Bool))) :
    Machine (Parts K nx np ny nz τ cfg.pb.Ax) K nx np (ny + nz) where
  eval s u := (cfg.updateF cfg.user s u).map fun s => cfg.updateE s u
  evalJac s u := cfg.updateF cfg.userJac s u
  newton := cfg.newton
  error s := s.errors.error
  phi := cfg.phi.map fun f s xo x => (f s.user xo x).map fun r => ({ s with user := r.1 }, r.2)
  check := check.map fun f s uo u r => (f s uo u r).map fun q => ({ s with user := q.1 }, q.2)
  phi_error := by
    intro f hf s xo x t x' b h
    obtain ⟨g, -, rfl⟩ := Option.map_eq_some_iff.1 hf
    obtain ⟨r, -, e⟩ := Option.map_eq_some_iff.1 h
    simp only [Prod.mk.injEq] at e
    rw [← e.1]
  check_error := by
    intro f hf s uo u r t b h
    obtain ⟨g, -, rfl⟩ := Option.map_eq_some_iff.1 hf
    obtain ⟨r, -, e⟩ := Option.map_eq_some_iff.1 h
    simp only [Prod.mk.injEq] at e
    rw [← e.1]

/-- The bounds of the problem. -/
def MProblem.bounds (pb : MProblem K nx np ny nz) : Bounds K nx np := { xlower := pb.xlower, xupper := pb.xupper, plower := pb.plower, pupper := pb.pupper }

/-- The parts after `F.initialize(problem)` and `E.initialize(problem)`, MasterSolver.cpp:149-152: everything but the echelon form of `Ax` is memory left by previous solves. -/
def Config.start (cfg : Config K nx np ny nz τ) (user : τ) (mem : Matrix (Fin (ny + nz)) (Fin nx ⊕ Fin np) K) (errors : ErrorsOut K nx np (ny + nz)) (ax : Fin nx → K) (du : MVec K nx np (ny + nz)) :
    Parts K nx np ny nz τ cfg.pb.Ax :=
  { user := user, ech := Ech.wInit cfg.env.o mem cfg.pb.Ax cfg.pb.Ap, rf := none, errors := errors, ax := ax, du := du }

end Optima
