import Verif.Model.Master
import Verif.Model.Status

/-!
# Models of `BacktrackSearch.cpp`, `ErrorControl.cpp`, `TransformStep.cpp` and `MasterSolver.cpp`

The solver is modelled for every implementation of the residual function, the residual errors and the Newton step (`Machine`): the user functions are arbitrary and may keep state, so may the linear solver.
`Verif.Model.NewtonStep` gives the machine of the code.  A step that throws or fails an assertion ends the solve (`none`).

The numbers are any type `K` with any operations and comparisons (`max` and `min` are those of Eigen): exact numbers, or `double` with rounding and NaN.  For `double` the equality test `x[i] == xo[i]` differs from
equality for NaN only, where both sides of the test give `betamin`.
-/

namespace Optima

variable {K : Type*} [Zero K] [One K] [Add K] [Sub K] [Mul K] [Div K] [LT K] [DecidableLT K] [LE K] [DecidableLE K] [DecidableEq K] [Max K] [Min K] {nx np nw : ℕ} {σ : Type*}

/-- `min(max(v, lower), upper)`; infinite bounds are `none`. -/
def clamp (lower upper : Option K) (v : K) : K :=
  let v := match lower with | none => v | some l => max v l
  match upper with | none => v | some h => min v h

/-- The bounds of `MasterProblem`. -/
structure Bounds (K : Type*) (nx np : ℕ) where
  xlower : Fin nx → Option K
  xupper : Fin nx → Option K
  plower : Fin np → Option K
  pupper : Fin np → Option K

/-- `x > upper` -/
def above (v : K) (upper : Option K) : Bool := match upper with | none => false | some h => decide (h < v)
/-- `x < lower` -/
def below (v : K) (lower : Option K) : Bool := match lower with | none => false | some l => decide (v < l)
/-- `xo < upper`, for a finite number `xo` -/
def ltUpper (v : K) (upper : Option K) : Bool := match upper with | none => true | some h => decide (v < h)
/-- `xo > lower`, for a finite number `xo` -/
def gtLower (v : K) (lower : Option K) : Bool := match lower with | none => true | some l => decide (l < v)
/-- `(bound - xo)/(x - xo)`; only used with a finite bound. -/
def betaTo (bound : Option K) (xo x : K) : K := match bound with | none => 1 | some b => (b - xo) / (x - xo)

/-- The body of the loops in BacktrackSearch.cpp:77-82 and 87-92. -/
def betaStep (lower upper : Option K) (xo x betamin : K) : K :=
  if x = xo then betamin
  else if above x upper && ltUpper xo upper then min betamin (betaTo upper xo x)
  else if below x lower && gtLower xo lower then min betamin (betaTo lower xo x)
  else betamin

/-- `betamin`, BacktrackSearch.cpp:73-93. -/
def betaMin (B : Bounds K nx np) (uo u : MVec K nx np nw) : K :=
  let betamin := (List.finRange nx).foldl (fun beta i => betaStep (B.xlower i) (B.xupper i) (uo.x i) (u.x i) beta) 1
  (List.finRange np).foldl (fun beta i => betaStep (B.plower i) (B.pupper i) (uo.p i) (u.p i) beta) betamin

/-- `u.x = min(max(u.x, xlower), xupper)` and the same for `p`. -/
def clampVec (B : Bounds K nx np) (u : MVec K nx np nw) : MVec K nx np nw :=
  { x := fun i => clamp (B.xlower i) (B.xupper i) (u.x i), p := fun i => clamp (B.plower i) (B.pupper i) (u.p i), w := u.w }

/-- `xupper >= xo`; for an infinite bound every number passes except NaN, the only one with `¬ xo ≤ xo` -/
def leUpper (v : K) (upper : Option K) : Bool := match upper with | none => decide (v ≤ v) | some h => decide (v ≤ h)
/-- `xlower <= xo`, in the same way -/
def geLower (v : K) (lower : Option K) : Bool := match lower with | none => decide (v ≤ v) | some l => decide (l ≤ v)

/-- The assertions of BacktrackSearch.cpp:61-64. -/
def insideB (B : Bounds K nx np) (u : MVec K nx np nw) : Bool :=
  (List.finRange nx).all (fun i => leUpper (u.x i) (B.xupper i)) && (List.finRange nx).all (fun i => geLower (u.x i) (B.xlower i)) &&
  (List.finRange np).all (fun i => leUpper (u.p i) (B.pupper i)) && (List.finRange np).all (fun i => geLower (u.p i) (B.plower i))

/-- `BacktrackSearch::Impl::execute`, BacktrackSearch.cpp:55-99 (`minmax` is `options.apply_min_max_fix_and_accept`); `none` is an assertion failure. -/
def backtrack (debug minmax : Bool) (B : Bounds K nx np) (uo u : MVec K nx np nw) : Option (MVec K nx np nw) :=
  if debug && !insideB B uo then none
  else if minmax then some (clampVec B u)
  else
    let beta := betaMin B uo u
    some (clampVec B { x := fun i => uo.x i * (1 - beta) + beta * u.x i, p := fun i => uo.p i * (1 - beta) + beta * u.p i, w := fun i => uo.w i * (1 - beta) + beta * u.w i })

/-- The components used by `MasterSolver`: `F` and `E` (always updated together), `newtonstep`, and the user code `phi` and `options.convergence.check`.  The state `σ` includes the state of the user functions. -/
structure Machine (σ K : Type*) [Zero K] (nx np nw : ℕ) where
  /-- `F.update(u); E.update(u, F)` -/
  eval : σ → MVec K nx np nw → Option σ
  /-- `F.updateOnlyJacobian(u)` -/
  evalJac : σ → MVec K nx np nw → Option σ
  /-- `newtonstep.apply(F, uo, u)`: the new value of `u` -/
  newton : σ → MVec K nx np nw → Option (σ × MVec K nx np nw)
  /-- `E.error()` -/
  error : σ → K
  /-- the transformation function, if any: `phi(uo.x, u.x)` changes `u.x` -/
  phi : Option (σ → (Fin nx → K) → (Fin nx → K) → Option (σ × (Fin nx → K) × Bool))
  /-- the user check, if any: `check(dims, F, E, uo, u, result)` -/
  check : Option (σ → MVec K nx np nw → MVec K nx np nw → Result K → Option (σ × Bool))
  /-- user code does not change `E` (it gets views of `x`, resp. constant references) -/
  phi_error : ∀ f, phi = some f → ∀ s xo x t x' b, f s xo x = some (t, x', b) → error t = error s
  check_error : ∀ f, check = some f → ∀ s uo u r t b, f s uo u r = some (t, b) → error t = error s

/-- The state of a solve: `F`, `E` and user code (`mach`), `u`, `uo`, `result.iterations` (the other members of `result` keep their defaults until `finalize`), `convergence.history`.
    `trace` (not in the code) records the points at which the user functions were evaluated, most recent first. -/
structure SolveState (σ K : Type*) (nx np nw : ℕ) where
  mach : σ
  u : MVec K nx np nw
  uo : MVec K nx np nw
  iterations : ℕ
  history : History K
  trace : List (MVec K nx np nw)

/-- The options used by the loop. -/
structure SolveOptions (K : Type*) where
  maxiters : ℕ
  tolerance : K
  minmax : Bool
  debug : Bool

/-- `F.update(u); E.update(u, F)` at `s.u` -/
def evalAt (m : Machine σ K nx np nw) (s : SolveState σ K nx np nw) : Option (SolveState σ K nx np nw) :=
  match m.eval s.mach s.u with
  | none => none
  | some t => some { s with mach := t, trace := s.u :: s.trace }

/-- `TransformStep::Impl::execute`, TransformStep.cpp:44-77; the flag is its return value. -/
def transform (m : Machine σ K nx np nw) (B : Bounds K nx np) (s : SolveState σ K nx np nw) : Option (SolveState σ K nx np nw × Bool) :=
  match m.phi with
  | none => some (s, false)
  | some phi =>
    let ubkp := s.u
    match phi s.mach s.uo.x s.u.x with
    | none => none
    | some (t, x, outcome) =>
      let s := { s with mach := t, u := { s.u with x := x } }
      if outcome = false then
        match evalAt m { s with u := ubkp } with
        | none => none
        | some s => some (s, false)
      else
        let s := { s with u := { s.u with x := fun i => clamp (B.xlower i) (B.xupper i) (s.u.x i) } }
        let errorcurr := m.error s.mach
        match evalAt m s with
        | none => none
        | some s =>
          let errornext := m.error s.mach
          if errornext > errorcurr then
            match evalAt m { s with u := ubkp } with
            | none => none
            | some s => some (s, false)
          else some (s, true)

/-- `ErrorControl::Impl::execute`, ErrorControl.cpp:51-61. -/
def errorControl (o : SolveOptions K) (B : Bounds K nx np) (s : SolveState σ K nx np nw) : Option (SolveState σ K nx np nw) :=
  match backtrack o.debug o.minmax B s.uo s.u with
  | none => none
  | some u => some { s with u := u }

/-- `step`, MasterSolver.cpp:173-182 (without output). -/
def step (m : Machine σ K nx np nw) (o : SolveOptions K) (B : Bounds K nx np) (s : SolveState σ K nx np nw) : Option (SolveState σ K nx np nw) :=
  let s := { s with iterations := s.iterations + 1 }
  match m.newton s.mach s.uo with
  | none => none
  | some (t, u) =>
    match transform m B { s with mach := t, u := u } with
    | none => none
    | some (s, _) =>
      match errorControl o B s with
      | none => none
      | some s => evalAt m s

/-- `stepping`, MasterSolver.cpp:162-171; the flag is `true` for `CONTINUE`. -/
def stepping (m : Machine σ K nx np nw) (o : SolveOptions K) (s : SolveState σ K nx np nw) : Option (SolveState σ K nx np nw × Bool) :=
  let s := { s with history := s.history.update (m.error s.mach) }
  if s.iterations > o.maxiters then some (s, false)
  else
    match s.history.converged o.tolerance with
    | some converged => some ({ s with uo := s.u }, !converged)
    | none =>
      match m.check with
      | none => some ({ s with uo := s.u }, true)
      | some check =>
        match check s.mach s.uo s.u { iterations := s.iterations } with
        | none => none
        | some (t, converged) => some ({ s with mach := t, uo := s.u }, !converged)

/-- `do step(u); while(stepping(u))`, MasterSolver.cpp:119: `Loop s r` says that the loop started in `s` ends with outcome `r` (`none`: an exception or an assertion failure). -/
inductive Loop (m : Machine σ K nx np nw) (o : SolveOptions K) (B : Bounds K nx np) : SolveState σ K nx np nw → Option (SolveState σ K nx np nw) → Prop
  | stepFails (s) : step m o B s = none → Loop m o B s none
  | checkFails (s s1) : step m o B s = some s1 → stepping m o s1 = none → Loop m o B s none
  | stop (s s1 s2) : step m o B s = some s1 → stepping m o s1 = some (s2, false) → Loop m o B s (some s2)
  | again (s s1 s2 r) : step m o B s = some s1 → stepping m o s1 = some (s2, true) → Loop m o B s2 r → Loop m o B s r

/-- `initialize`, MasterSolver.cpp:141-160, for a solver object whose parts are in state `mach` (after `F.initialize`, `E.initialize`, ...) and whose convergence history is `history`. -/
def solveInit (m : Machine σ K nx np nw) (B : Bounds K nx np) (mach : σ) (history : History K) (u : MVec K nx np nw) : Option (SolveState σ K nx np nw) :=
  let u := clampVec B u
  evalAt m { mach := mach, u := u, uo := u, iterations := 0, history := history.init, trace := [] }

/-- The `result` returned, MasterSolver.cpp:186 in `finalize`. -/
def solveResult (o : SolveOptions K) (s : SolveState σ K nx np nw) : Result K := { iterations := s.iterations, succeeded := decide (s.iterations ≤ o.maxiters) }

/-- `solve(problem, state)`, MasterSolver.cpp:115-122: `Solve … r` relates the solver object and the initial guess to the outcome, the final loop state (`state.u` is its `u`). -/
inductive Solve (m : Machine σ K nx np nw) (o : SolveOptions K) (B : Bounds K nx np) (mach : σ) (history : History K) (u : MVec K nx np nw) : Option (SolveState σ K nx np nw) → Prop
  | initFails : solveInit m B mach history u = none → Solve m o B mach history u none
  | run (s r) : solveInit m B mach history u = some s → Loop m o B s r → Solve m o B mach history u r

/-- `solve(problem, state, sensitivity)`, MasterSolver.cpp:124-130: the evaluation after the solve (the sensitivity solver itself evaluates nothing). -/
def sensEval (m : Machine σ K nx np nw) (s : SolveState σ K nx np nw) : Option (SolveState σ K nx np nw) :=
  match m.evalJac s.mach s.u with
  | none => none
  | some t => some { s with mach := t, trace := s.u :: s.trace }

end Optima
