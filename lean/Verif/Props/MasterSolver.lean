import Verif.Props.Backtrack
import Verif.Props.SolverLoop

/-!
# C29, C30, C33: bounds and the transformation step

All theorems hold for every machine: whatever the residual function, the Newton step and the user code compute, with any internal state.  The numbers are any linearly ordered type with any operations: rounded
arithmetic is included, NaN is not.
-/

set_option linter.unusedSectionVars false

namespace Optima

variable {K : Type*} [Zero K] [One K] [Add K] [Sub K] [Mul K] [Div K] [LinearOrder K] {nx np nw : ℕ} {σ : Type*}

/-! ## C33 -/

/-- **C33**: for every transformation function (arbitrary user code) and every state, if `execute` returns `true` the error is not larger than before the call and `x` is within its bounds (`p` and the multipliers are
    untouched): it is the transformed point moved into the bounds, at which the residuals have been evaluated.  If it returns `false` the variables are those before the call, and if there is a transformation function the
    residuals have been re-evaluated at them; it does so only if there is no transformation function, if this function failed, or if the error at the transformed point is larger than before the call. -/
theorem transform_spec {m : Machine σ K nx np nw} {B : Bounds K nx np} (hB : ConsistentBounds B) {s s' : SolveState σ K nx np nw} {b : Bool} (h : transform m B s = some (s', b)) :
    (b = true → m.error s'.mach ≤ m.error s.mach ∧ (∀ i, Between (B.xlower i) (B.xupper i) (s'.u.x i)) ∧ s'.u.p = s.u.p ∧ s'.u.w = s.u.w ∧
      ∃ f t x, m.phi = some f ∧ f s.mach s.uo.x s.u.x = some (t, x, true) ∧ (∀ i, s'.u.x i = clamp (B.xlower i) (B.xupper i) (x i)) ∧ s'.trace = s'.u :: s.trace ∧ m.eval t s'.u = some s'.mach) ∧
    (b = false → s'.u = s.u ∧ (m.phi.isSome → s'.trace.head? = some s.u ∧ ∃ t, m.eval t s.u = some s'.mach) ∧
      ∀ f, m.phi = some f → ∀ t x, f s.mach s.uo.x s.u.x = some (t, x, true) → ∀ t', m.eval t { s.u with x := fun i => clamp (B.xlower i) (B.xupper i) (x i) } = some t' → m.error s.mach < m.error t') ∧
    s'.uo = s.uo ∧ s'.iterations = s.iterations ∧ s'.history = s.history := by
  unfold transform at h
  split at h
  · rename_i e
    cases h
    simp [e]
  · rename_i phi e
    dsimp only at h
    split at h
    · cases h
    · rename_i t x outcome hphi
      have herr := m.phi_error _ e _ _ _ _ _ _ hphi
      split_ifs at h with ho
      · split at h
        · cases h
        · rename_i s1 h1
          cases h
          obtain ⟨e1, e2, e3, e4, e5, e6⟩ := evalAt_u h1
          refine ⟨by simp, fun _ => ⟨e1, fun _ => ⟨by rw [e5]; rfl, _, e6⟩, fun f hf t' x' hx' => ?_⟩, e2, e3, e4⟩
          cases e.symm.trans hf
          rw [hphi] at hx'
          cases hx'
          cases ho
      · split at h
        · cases h
        · rename_i s1 h1
          obtain ⟨e1, e2, e3, e4, e5, e6⟩ := evalAt_u h1
          split_ifs at h with hgt
          · split at h
            · cases h
            · rename_i s2 h2
              cases h
              obtain ⟨f1, f2, f3, f4, f5, f6⟩ := evalAt_u h2
              refine ⟨by simp, fun _ => ⟨f1, fun _ => ⟨by rw [f5]; rfl, _, f6⟩, fun f hf t' x' hx' t'' ht'' => ?_⟩, f2.trans e2, f3.trans e3, f4.trans e4⟩
              cases e.symm.trans hf
              rw [hphi] at hx'
              cases hx'
              rw [e6] at ht''
              cases ht''
              rw [← herr]
              exact hgt
          · cases h
            refine ⟨fun _ => ⟨?_, fun i => ?_, by rw [e1], by rw [e1], phi, t, x, e, ?_, fun i => by rw [e1], by rw [e5, e1], by rw [e1]; exact e6⟩, by simp, e2, e3, e4⟩
            · rw [← herr]; exact not_lt.1 hgt
            · rw [e1]; exact clamp_between (hB.1 i) _
            · rw [hphi, Bool.eq_true_of_not_eq_false ho]

/-! ## C29 -/

/-- What a step does to the loop state. -/
theorem step_spec {m : Machine σ K nx np nw} {o : SolveOptions K} {B : Bounds K nx np} {s s' : SolveState σ K nx np nw} (ho : InBounds B s.uo) (h : step m o B s = some s') :
    InBounds B s'.u ∧ s'.uo = s.uo ∧ s'.iterations = s.iterations + 1 ∧ s'.history = s.history := by
  unfold step at h
  dsimp only at h
  split at h
  · cases h
  · split at h
    · cases h
    · rename_i s1 b h1
      obtain ⟨-, -, t1, t2, t3⟩ := transform_spec (inBounds_consistent ho) h1
      split at h
      · cases h
      · rename_i s2 h2
        obtain ⟨e1, e2, e3, e4, -, -⟩ := evalAt_u h
        unfold errorControl at h2
        obtain ⟨v, hv, hin⟩ := backtrack_inBounds o.debug o.minmax (B := B) (uo := s1.uo) (by rw [t1]; exact ho) s1.u
        rw [hv] at h2
        cases h2
        exact ⟨by rw [e1]; exact hin, by rw [e2]; exact t1, by rw [e3]; exact t2, by rw [e4]; exact t3⟩

theorem continue_inBounds {m : Machine σ K nx np nw} {o : SolveOptions K} {B : Bounds K nx np} {s s1 s2 : SolveState σ K nx np nw} (ho : InBounds B s.uo) (h : step m o B s = some s1)
    (h2 : stepping m o s1 = some (s2, true)) : InBounds B s2.uo ∧ s1.iterations ≤ o.maxiters := by
  obtain ⟨e1, e2, e3, e4, e5, e6, e7⟩ := stepping_spec h2
  have hle : s1.iterations ≤ o.maxiters := by
    by_contra hc
    exact absurd (e6 (not_le.1 hc)).1 (by simp)
  exact ⟨by rw [(e7 hle).1]; exact (step_spec ho h).1, hle⟩

theorem visits_inBounds {m : Machine σ K nx np nw} {o : SolveOptions K} {B : Bounds K nx np} {s t : SolveState σ K nx np nw} (ho : InBounds B s.uo) (h : Visits m o B s t) : InBounds B t.u := by
  induction h with
  | here s s1 h1 => exact (step_spec ho h1).1
  | later s s1 s2 t h1 h2 h3 ih => exact ih (continue_inBounds ho h1 h2).1

theorem loop_inBounds {m : Machine σ K nx np nw} {o : SolveOptions K} {B : Bounds K nx np} {s : SolveState σ K nx np nw} {r} (ho : InBounds B s.uo) (h : Loop m o B s r) :
    ∀ t, r = some t → InBounds B t.u ∧ InBounds B t.uo := by
  induction h with
  | stepFails => intro t e; cases e
  | checkFails => intro t e; cases e
  | stop s s1 s2 h1 h2 =>
    intro t e
    cases e
    have hs := step_spec ho h1
    obtain ⟨e1, e2, e3, e4, e5, e6, e7⟩ := stepping_spec h2
    refine ⟨by rw [e1]; exact hs.1, ?_⟩
    rcases lt_or_ge o.maxiters s1.iterations with hlt | hle
    · rw [(e6 hlt).2, hs.2.1]; exact ho
    · rw [(e7 hle).1]; exact hs.1
  | again s s1 s2 r h1 h2 h3 ih => exact ih (continue_inBounds ho h1 h2).1

/-- **C29 in part** (numbers that are linearly ordered, so not NaN, see `nan_passes_bounds`): for all consistent bounds, options, user functions, Newton steps, previous histories and initial guesses: every iterate of a solve (of any execution, also one that is later stopped by an exception)
    and the final state, successful or not, satisfy the bounds. -/
theorem solve_inBounds_partial (m : Machine σ K nx np nw) (o : SolveOptions K) {B : Bounds K nx np} (hB : ConsistentBounds B) (mach : σ) (history : History K) (u : MVec K nx np nw) :
    (∀ s t, solveInit m B mach history u = some s → Visits m o B s t → InBounds B t.u) ∧ ∀ t, Solve m o B mach history u (some t) → InBounds B t.u := by
  constructor
  · intro s t hs ht
    refine visits_inBounds ?_ ht
    rw [(solveInit_spec hs).2.1]
    exact clampVec_inBounds hB u
  · intro t ht
    cases ht with
    | run s r hs hl =>
      refine (loop_inBounds ?_ hl t rfl).1
      rw [(solveInit_spec hs).2.1]
      exact clampVec_inBounds hB u

/-- **C29 (assertions)**: the assertions of the backtrack search never fail in a solve: in every step, if the Newton step and the evaluations return normally so does the step. -/
theorem errorControl_ok (o : SolveOptions K) {B : Bounds K nx np} {s : SolveState σ K nx np nw} (ho : InBounds B s.uo) : ∃ s', errorControl o B s = some s' := by
  obtain ⟨v, hv, -⟩ := backtrack_inBounds o.debug o.minmax ho s.u
  exact ⟨_, by unfold errorControl; rw [hv]⟩

/-! ## C30 -/

theorem transform_no_phi {m : Machine σ K nx np nw} (hphi : m.phi = none) (B : Bounds K nx np) (s : SolveState σ K nx np nw) : transform m B s = some (s, false) := by
  unfold transform; rw [hphi]

theorem step_trace {m : Machine σ K nx np nw} (hphi : m.phi = none) {o : SolveOptions K} {B : Bounds K nx np} {s s' : SolveState σ K nx np nw} (ho : InBounds B s.uo)
    (h : step m o B s = some s') : s'.trace = s'.u :: s.trace := by
  unfold step at h
  dsimp only at h
  split at h
  · cases h
  · rw [transform_no_phi hphi] at h
    dsimp only at h
    split at h
    · cases h
    · rename_i s2 h2
      obtain ⟨e1, e2, e3, e4, e5, -⟩ := evalAt_u h
      unfold errorControl at h2
      split at h2
      · cases h2
      · cases h2
        rw [e5, e1]

theorem loop_trace {m : Machine σ K nx np nw} (hphi : m.phi = none) {o : SolveOptions K} {B : Bounds K nx np} {s : SolveState σ K nx np nw} {r} (h : Loop m o B s r) (ho : InBounds B s.uo)
    (ht : ∀ v ∈ s.trace, InBounds B v) : ∀ t, r = some t → ∀ v ∈ t.trace, InBounds B v := by
  induction h with
  | stepFails => intro t e; cases e
  | checkFails => intro t e; cases e
  | stop s s1 s2 h1 h2 =>
    intro t e
    cases e
    rw [(stepping_spec h2).2.2.2.2.1, step_trace hphi ho h1]
    intro v hv
    rcases List.mem_cons.1 hv with rfl | hv
    · exact (step_spec ho h1).1
    · exact ht v hv
  | again s s1 s2 r h1 h2 h3 ih =>
    refine ih (continue_inBounds ho h1 h2).1 ?_
    rw [(stepping_spec h2).2.2.2.2.1, step_trace hphi ho h1]
    intro v hv
    rcases List.mem_cons.1 hv with rfl | hv
    · exact (step_spec ho h1).1
    · exact ht v hv

/-- **C30, part**: without a transformation function (`Solver` never sets one), the user functions are evaluated only at points within the bounds during a solve, and the evaluation for the sensitivities is at the final
    point.  (Missing: with a transformation function this is false, `transform_evaluates_outside`.) -/
theorem solve_trace_partial {m : Machine σ K nx np nw} (hphi : m.phi = none) (o : SolveOptions K) {B : Bounds K nx np} (hB : ConsistentBounds B) (mach : σ) (history : History K) (u : MVec K nx np nw)
    (t : SolveState σ K nx np nw) (h : Solve m o B mach history u (some t)) : (∀ v ∈ t.trace, InBounds B v) ∧ ∀ t', sensEval m t = some t' → ∀ v ∈ t'.trace, InBounds B v := by
  have key : ∀ v ∈ t.trace, InBounds B v := by
    cases h with
    | run s r hs hl =>
      obtain ⟨e1, e2, e3, e4, e5⟩ := solveInit_spec hs
      refine loop_trace hphi hl (by rw [e2]; exact clampVec_inBounds hB u) ?_ t rfl
      rw [e5]
      intro v hv
      rw [List.mem_singleton] at hv
      rw [hv]; exact clampVec_inBounds hB u
  refine ⟨key, fun t' ht' => ?_⟩
  unfold sensEval at ht'
  split at ht'
  · cases ht'
  · cases ht'
    intro v hv
    rcases List.mem_cons.1 hv with rfl | hv
    · exact (solve_inBounds_partial m o hB mach history u).2 t h
    · exact key v hv

/-- A machine that agrees with `m` at all points within the bounds and does anything else outside. -/
structure AgreeInside (B : Bounds K nx np) (m m' : Machine σ K nx np nw) : Prop where
  eval : ∀ s u, InBounds B u → m'.eval s u = m.eval s u
  newton : m'.newton = m.newton
  error : m'.error = m.error
  phi : m'.phi = m.phi
  check : m'.check = m.check

theorem evalAt_agree {B : Bounds K nx np} {m m' : Machine σ K nx np nw} (h : AgreeInside B m m') {s : SolveState σ K nx np nw} (hs : InBounds B s.u) : evalAt m' s = evalAt m s := by
  unfold evalAt
  rw [h.eval _ _ hs]

theorem step_agree {B : Bounds K nx np} {m m' : Machine σ K nx np nw} (h : AgreeInside B m m') (hphi : m.phi = none) (o : SolveOptions K) {s : SolveState σ K nx np nw} (ho : InBounds B s.uo) :
    step m' o B s = step m o B s := by
  unfold step
  dsimp only
  rw [h.newton]
  cases m.newton s.mach s.uo with
  | none => rfl
  | some tu =>
    dsimp only
    rw [transform_no_phi hphi, transform_no_phi (h.phi.trans hphi)]
    dsimp only
    unfold errorControl
    obtain ⟨v, hv, hin⟩ := backtrack_inBounds o.debug o.minmax ho tu.2
    dsimp only
    rw [hv]
    exact evalAt_agree h hin

theorem stepping_agree {B : Bounds K nx np} {m m' : Machine σ K nx np nw} (h : AgreeInside B m m') (o : SolveOptions K) (s : SolveState σ K nx np nw) : stepping m' o s = stepping m o s := by
  unfold stepping
  rw [h.error, h.check]

/-- **C30, part**, for all executions including those ended by exceptions: nothing the user functions do outside the bounds has any influence on a solve without transformation function. -/
theorem solve_ignores_outside_partial {B : Bounds K nx np} (hB : ConsistentBounds B) {m m' : Machine σ K nx np nw} (h : AgreeInside B m m') (hphi : m.phi = none) (o : SolveOptions K) (mach : σ)
    (history : History K) (u : MVec K nx np nw) (r) (hs : Solve m o B mach history u r) : Solve m' o B mach history u r := by
  have hinit : solveInit m' B mach history u = solveInit m B mach history u := evalAt_agree h (clampVec_inBounds hB u)
  have hloop : ∀ s r, Loop m o B s r → InBounds B s.uo → Loop m' o B s r := by
    intro s r hl
    induction hl with
    | stepFails s h1 => intro ho; exact .stepFails s ((step_agree h hphi o ho).trans h1)
    | checkFails s s1 h1 h2 => intro ho; exact .checkFails s s1 ((step_agree h hphi o ho).trans h1) ((stepping_agree h o s1).trans h2)
    | stop s s1 s2 h1 h2 => intro ho; exact .stop s s1 s2 ((step_agree h hphi o ho).trans h1) ((stepping_agree h o s1).trans h2)
    | again s s1 s2 r h1 h2 h3 ih =>
      intro ho
      exact .again s s1 s2 r ((step_agree h hphi o ho).trans h1) ((stepping_agree h o s1).trans h2) (ih (continue_inBounds ho h1 h2).1)
  cases hs with
  | initFails e => exact .initFails (hinit.trans e)
  | run s r e hl =>
    refine .run s _ (hinit.trans e) (hloop s _ hl ?_)
    rw [(solveInit_spec e).2.1]
    exact clampVec_inBounds hB u

/-- **C30, negation** with a transformation function: whenever it reports failure, the user functions are evaluated at the raw Newton point, which is within the bounds only by accident. -/
theorem transform_evaluates_outside {m : Machine σ K nx np nw} {phi} (hphi : m.phi = some phi) (B : Bounds K nx np) (s s' : SolveState σ K nx np nw) {t x} (hf : phi s.mach s.uo.x s.u.x = some (t, x, false))
    {b} (h : transform m B s = some (s', b)) : s.u ∈ s'.trace := by
  unfold transform at h
  rw [hphi] at h
  dsimp only at h
  rw [hf] at h
  dsimp only at h
  rw [if_pos rfl] at h
  split at h
  · cases h
  · rename_i s1 h1
    cases h
    rw [(evalAt_u h1).2.2.2.2.1]
    exact List.mem_cons_self

/-! ## A concrete machine

One variable in `[0, 5]`; the state of the machine is the error `|x - 4|`, the "Newton step" moves by 3.  From the initial guess -7 (projected to 0) the iterates are 3, 5 (6 is cut), 5, ... -/

/-- The machine, with a given transformation function and user check. -/
def exMachine (phi : Option (Bool × ℚ)) (accept : Option ℚ) : Machine ℚ ℚ 1 0 0 where
  eval _ u := some |u.x 0 - 4|
  evalJac s _ := some s
  newton s uo := some (s, { uo with x := fun i => uo.x i + 3 })
  error s := s
  phi := phi.map fun b s _ x => some (s, fun i => x i + b.2, b.1)
  check := accept.map fun a s _ u _ => some (s, decide (u.x 0 = a))
  phi_error := by
    intro f hf s xo x t x' b h
    obtain ⟨a, -, rfl⟩ := Option.map_eq_some_iff.1 hf
    simp only [Option.some.injEq, Prod.mk.injEq] at h
    exact h.1.symm
  check_error := by
    intro f hf s uo u r t b h
    obtain ⟨a, -, rfl⟩ := Option.map_eq_some_iff.1 hf
    simp only [Option.some.injEq, Prod.mk.injEq] at h
    exact h.1.symm

/-- The bounds `0 ≤ x ≤ 5`. -/
def exBounds : Bounds ℚ 1 0 := { xlower := fun _ => some 0, xupper := fun _ => some 5, plower := fun _ => none, pupper := fun _ => none }

theorem exBounds_consistent : ConsistentBounds exBounds := by
  refine ⟨fun i l h hl hh => ?_, fun i => i.elim0⟩
  simp only [exBounds, Option.some.injEq] at hl hh
  rw [← hl, ← hh]; norm_num

/-- The initial guess. -/
def exStart : MVec ℚ 1 0 0 := { x := fun _ => -7, p := fun i => i.elim0, w := fun i => i.elim0 }

/-- The options. -/
def exOptions (maxiters : ℕ) (tol : ℚ) : SolveOptions ℚ := { maxiters := maxiters, tolerance := tol, minmax := false, debug := true }

/-- What the examples look at: the iterations, the first variable and the verdict. -/
def exView (o : SolveOptions ℚ) (s : SolveState ℚ ℚ 1 0 0) : ℕ × ℚ × Bool × List ℚ := (s.iterations, s.u.x 0, (solveResult o s).succeeded, s.trace.map fun u => u.x 0)

/-- Tolerance 2: the first iterate is accepted; tolerance 1: none is, the solve fails after `maxiters + 1` iterations; a user check accepting 5 makes the second one accepted. -/
example : (runSolve (exMachine none none) (exOptions 3 2) exBounds 0 [] exStart 9).map (exView (exOptions 3 2)) = some (1, 3, true, [3, 0]) ∧
    (runSolve (exMachine none none) (exOptions 3 1) exBounds 0 [] exStart 9).map (exView (exOptions 3 1)) = some (4, 5, false, [5, 5, 5, 3, 0]) ∧
    (runSolve (exMachine none (some 5)) (exOptions 3 1) exBounds 0 [] exStart 9).map (exView (exOptions 3 1)) = some (2, 5, true, [5, 3, 0]) := by
  decide +kernel

/-- An iterate accepted only at iteration `maxiters + 1` does not count: the same solve with `maxiters = 1` fails although the final iterate would be accepted. -/
example : (runSolve (exMachine none (some 5)) (exOptions 1 1) exBounds 0 [] exStart 9).map (exView (exOptions 1 1)) = some (2, 5, false, [5, 3, 0]) := by
  decide +kernel

/-- The bounds, the machine and the solve of the first example meet the hypotheses of the theorems. -/
example : ∃ t, Solve (exMachine none none) (exOptions 3 2) exBounds 0 [] exStart (some t) ∧ InBounds exBounds t.u ∧ (solveResult (exOptions 3 2) t).succeeded = true := by
  have h : (runSolve (exMachine none none) (exOptions 3 2) exBounds 0 [] exStart 9).isSome ∧
      ((runSolve (exMachine none none) (exOptions 3 2) exBounds 0 [] exStart 9).map fun t => (solveResult (exOptions 3 2) t).succeeded) = some true := by decide +kernel
  obtain ⟨t, ht⟩ := Option.isSome_iff_exists.1 h.1
  have hs := runSolve_solve 9 ht
  refine ⟨t, hs, (solve_inBounds_partial _ _ exBounds_consistent _ _ _).2 t hs, ?_⟩
  have := h.2
  rw [ht] at this
  simpa using this

/-- **C30, negation (witness)**: with a transformation function that reports failure, the solve evaluates the user functions at 6, outside the bounds `[0, 5]`. -/
theorem solve_evaluates_outside : ∃ t, Solve (exMachine (some (false, 0)) none) (exOptions 1 1) exBounds 0 [] exStart (some t) ∧ ∃ v ∈ t.trace, ¬ InBounds exBounds v := by
  have h : ((runSolve (exMachine (some (false, 0)) none) (exOptions 1 1) exBounds 0 [] exStart 9).map fun t => decide ((6 : ℚ) ∈ t.trace.map fun u => u.x 0)) = some true := by decide +kernel
  rcases ht : runSolve (exMachine (some (false, 0)) none) (exOptions 1 1) exBounds 0 [] exStart 9 with _ | t
  · rw [ht] at h; cases h
  · rw [ht] at h
    simp only [Option.map_some, Option.some.injEq, decide_eq_true_eq] at h
    obtain ⟨v, hv, e⟩ := List.mem_map.1 h
    refine ⟨t, runSolve_solve 9 ht, v, hv, fun hin => ?_⟩
    have := (hin.1 0).2 5 rfl
    rw [e] at this
    norm_num at this

/-- A transformation that lands closer to the solution is kept (3 becomes 4), one that increases the error (from 3, via 6 - 9 to 0) is undone. -/
example : (runSolve (exMachine (some (true, 1)) none) (exOptions 3 1) exBounds 0 [] exStart 9).map (exView (exOptions 3 1)) = some (1, 4, true, [4, 4, 0]) ∧
    (runSolve (exMachine (some (true, -9)) none) (exOptions 0 1) exBounds 0 [] { exStart with x := fun _ => 3 } 9).map (exView (exOptions 0 1)) = some (1, 5, false, [5, 6, 0, 3]) := by
  decide +kernel

end Optima
