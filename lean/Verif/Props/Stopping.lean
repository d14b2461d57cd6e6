import Verif.Props.History

/-!
# C88: the tolerance and the maximum number of iterations only decide where the sequence of iterates ends

Two solves of the same problem by equal solver objects that differ only in `options.convergence.tolerance` and `options.maxiters`.
-/

namespace Optima

variable {K : Type*} [Zero K] [One K] [Add K] [Sub K] [Mul K] [Div K] [LT K] [DecidableLT K] [LE K] [DecidableLE K] [DecidableEq K] [Max K] [Min K] {nx np nw : ℕ} {σ : Type*}
  {m : Machine σ K nx np nw} {o o' : SolveOptions K} {B : Bounds K nx np}

/-- Options that differ at most in the tolerance and the maximum number of iterations. -/
structure SameSteps (o o' : SolveOptions K) : Prop where
  minmax : o'.minmax = o.minmax
  debug : o'.debug = o.debug

theorem SameSteps.step (h : SameSteps o o') (s : SolveState σ K nx np nw) : step m o' B s = step m o B s := by
  unfold Optima.step errorControl
  rw [h.minmax, h.debug]

/-- What `stepping` does if neither the budget nor the tolerance ends the loop; no option is read. -/
def askCheck (m : Machine σ K nx np nw) (s : SolveState σ K nx np nw) : Option (SolveState σ K nx np nw × Bool) :=
  let s := { s with history := s.history.update (m.error s.mach) }
  match m.check with
  | none => some ({ s with uo := s.u }, true)
  | some check =>
    match check s.mach s.uo s.u { iterations := s.iterations } with
    | none => none
    | some (t, converged) => some ({ s with mach := t, uo := s.u }, !converged)

theorem stepping_cases (o : SolveOptions K) (s : SolveState σ K nx np nw) : stepping m o s =
    if o.maxiters < s.iterations then some ({ s with history := s.history.update (m.error s.mach) }, false)
    else if m.error s.mach < o.tolerance then some ({ s with history := s.history.update (m.error s.mach), uo := s.u }, false)
    else askCheck m s := by
  have hconv : (History.update s.history (m.error s.mach)).converged o.tolerance = if m.error s.mach < o.tolerance then some true else none := by
    simp [History.update, History.converged]
  unfold stepping askCheck
  dsimp only
  split_ifs with h1 h2
  · rfl
  · rw [hconv, if_pos h2]; rfl
  · rw [hconv, if_neg h2]; rfl

/-- Two solves that both go on are in the same state. -/
theorem continue_same {s s1 s2 : SolveState σ K nx np nw} (h1 : stepping m o s = some (s1, true)) (h2 : stepping m o' s = some (s2, true)) : s1 = s2 := by
  rw [stepping_cases] at h1 h2
  split_ifs at h1 h2 <;> first | (cases h1; done) | (cases h2; done) | skip
  all_goals first | (simp at h1; done) | (simp at h2; done) | skip
  exact congrArg Prod.fst (Option.some.inj (h1.symm.trans h2))

theorem transform_suffix {s s' : SolveState σ K nx np nw} {b : Bool} (h : transform m B s = some (s', b)) : s.trace <:+ s'.trace := by
  unfold transform at h
  split at h
  · cases h; exact List.suffix_refl _
  · dsimp only at h
    split at h
    · cases h
    · split_ifs at h
      · split at h
        · cases h
        · rename_i e
          cases h
          rw [(evalAt_u e).2.2.2.2.1]
          exact List.suffix_cons _ _
      · split at h
        · cases h
        · rename_i e
          have e1 := (evalAt_u e).2.2.2.2.1
          split_ifs at h
          · split at h
            · cases h
            · rename_i e2
              cases h
              rw [(evalAt_u e2).2.2.2.2.1, e1]
              exact (List.suffix_cons _ _).trans (List.suffix_cons _ _)
          · cases h
            rw [e1]
            exact List.suffix_cons _ _

theorem step_suffix {s s' : SolveState σ K nx np nw} (h : step m o B s = some s') : s.trace <:+ s'.trace := by
  unfold Optima.step at h
  dsimp only at h
  split at h
  · cases h
  · split at h
    · cases h
    · rename_i s1 b h1
      have := transform_suffix h1
      unfold errorControl at h
      split at h
      · cases h
      · rename_i s2 h2
        split at h2
        · cases h2
        · cases h2
          rw [(evalAt_u h).2.2.2.2.1]
          exact this.trans (List.suffix_cons _ _)

theorem loop_suffix {s : SolveState σ K nx np nw} {r} (hl : Loop m o B s r) : ∀ t, r = some t → s.trace <:+ t.trace := by
  induction hl with
  | stepFails => intro t e; cases e
  | checkFails => intro t e; cases e
  | stop s s1 s2 h1 h2 => intro t e; cases e; rw [(stepping_spec h2).2.2.2.2.1]; exact step_suffix h1
  | again s s1 s2 _ h1 h2 h3 ih => intro t e; exact (step_suffix h1).trans ((stepping_spec h2).2.2.2.2.1 ▸ ih t e)

/-- **C88 (one sequence)**: of two solves that return, the one with fewer iterations ends at an iterate of the other: at the same point, after the same evaluations in the same order. -/
theorem loop_one_sequence (h : SameSteps o o') {s t t' : SolveState σ K nx np nw} {r r'} (hl : Loop m o B s r) (hr : r = some t) (hl' : Loop m o' B s r') (hr' : r' = some t') (hle : t.iterations ≤ t'.iterations) :
    ∃ v, Visits m o' B s v ∧ v.u = t.u ∧ v.iterations = t.iterations ∧ v.trace = t.trace ∧ m.error v.mach = m.error t.mach ∧ t.trace <:+ t'.trace ∧ (t.iterations = t'.iterations → t'.u = t.u ∧ t'.trace = t.trace ∧ m.error t'.mach = m.error t.mach) := by
  induction hl generalizing r' with
  | stepFails => cases hr
  | checkFails => cases hr
  | stop s s1 s2 h1 h2 =>
    cases hr
    obtain ⟨b1, b2, -, b4, b5, -⟩ := stepping_spec h2
    refine ⟨s1, .here s s1 ((h.step s).trans h1), b1.symm, b2.symm, b5.symm, b4.symm, ?_, fun e => ?_⟩
    · cases hl' with
      | stepFails => cases hr'
      | checkFails => cases hr'
      | stop _ s1' s2' g1 g2 =>
        cases hr'
        rw [h.step, h1] at g1
        cases g1
        rw [b5, (stepping_spec g2).2.2.2.2.1]
      | again _ s1' s2' _ g1 g2 g3 =>
        rw [h.step, h1] at g1
        cases g1
        rw [b5, ← (stepping_spec g2).2.2.2.2.1]
        exact loop_suffix g3 _ hr'
    cases hl' with
    | stepFails => cases hr'
    | checkFails => cases hr'
    | stop _ s1' s2' g1 g2 =>
      cases hr'
      rw [h.step, h1] at g1
      cases g1
      obtain ⟨c1, -, -, c4, c5, -⟩ := stepping_spec g2
      exact ⟨c1.trans b1.symm, c5.trans b5.symm, c4.trans b4.symm⟩
    | again _ s1' s2' _ g1 g2 g3 =>
      subst hr'
      rw [h.step, h1] at g1
      cases g1
      obtain ⟨n, t0, t1, k1, k2, k3⟩ := loop_steps g3 t' rfl
      have := (steps_spec k1).1
      have := (step_frame k2).2.1
      have := (stepping_spec k3).2.1
      have := (stepping_spec g2).2.1
      omega
  | again s s1 s2 _ h1 h2 h3 ih =>
    subst hr
    cases hl' with
    | stepFails => cases hr'
    | checkFails => cases hr'
    | stop _ s1' s2' g1 g2 =>
      cases hr'
      rw [h.step, h1] at g1
      cases g1
      obtain ⟨n, t0, t1, k1, k2, k3⟩ := loop_steps h3 t rfl
      have := (steps_spec k1).1
      have := (step_frame k2).2.1
      have := (stepping_spec k3).2.1
      have := (stepping_spec g2).2.1
      have := (stepping_spec h2).2.1
      omega
    | again _ s1' s2' _ g1 g2 g3 =>
      rw [h.step, h1] at g1
      cases g1
      cases continue_same h2 g2
      obtain ⟨v, e1, e2⟩ := ih rfl g3 hr'
      exact ⟨v, .later s s1 s2 v ((h.step s).trans h1) g2 e1, e2⟩

/-- `o'` stops wherever `o` does. -/
structure Looser (o o' : SolveOptions K) : Prop extends SameSteps o o' where
  maxiters : o'.maxiters ≤ o.maxiters
  tolerance : ∀ e : K, e < o.tolerance → e < o'.tolerance

/-- With looser options a solve that returned returns as well, no later. -/
theorem loop_looser (h : Looser o o') {s t : SolveState σ K nx np nw} {r} (hl : Loop m o B s r) (hr : r = some t) : ∃ t', Loop m o' B s (some t') ∧ t'.iterations ≤ t.iterations := by
  induction hl with
  | stepFails => cases hr
  | checkFails => cases hr
  | stop s s1 s2 h1 h2 =>
    cases hr
    have g1 : step m o' B s = some s1 := (h.step s).trans h1
    obtain ⟨s3, g2⟩ : ∃ s3, stepping m o' s1 = some (s3, false) := by
      rw [stepping_cases] at h2 ⊢
      split_ifs at h2 ⊢ with a1 a2 a3 a4
      all_goals first | exact ⟨_, rfl⟩ | (exact ⟨_, h2⟩) | (have := h.maxiters; omega) | exact absurd (h.tolerance _ ‹_›) ‹_›
    exact ⟨s3, .stop s s1 s3 g1 g2, by rw [(stepping_spec g2).2.1, (stepping_spec h2).2.1]⟩
  | again s s1 s2 _ h1 h2 h3 ih =>
    subst hr
    have g1 : step m o' B s = some s1 := (h.step s).trans h1
    have hlt : s1.iterations ≤ t.iterations := by
      obtain ⟨n, t0, t1, k1, k2, k3⟩ := loop_steps h3 t rfl
      have := (steps_spec k1).1
      have := (step_frame k2).2.1
      have := (stepping_spec k3).2.1
      have := (stepping_spec h2).2.1
      omega
    by_cases hstop : ∃ s3, stepping m o' s1 = some (s3, false)
    · obtain ⟨s3, g2⟩ := hstop
      exact ⟨s3, .stop s s1 s3 g1 g2, by rw [(stepping_spec g2).2.1]; exact hlt⟩
    · have g2 : stepping m o' s1 = some (s2, true) := by
        have c1 : ¬ o'.maxiters < s1.iterations := fun c => hstop ⟨_, by rw [stepping_cases, if_pos c]⟩
        have c2 : ¬ m.error s1.mach < o'.tolerance := fun c => hstop ⟨_, by rw [stepping_cases, if_neg c1, if_pos c]⟩
        have c3 := continue_le h2
        rw [stepping_cases, if_neg (not_lt.2 c3), if_neg fun c => c2 (h.tolerance _ c)] at h2
        rw [stepping_cases, if_neg c1, if_neg c2, h2]
      obtain ⟨t', e1, e2⟩ := ih rfl
      exact ⟨t', .again s s1 s2 _ g1 g2 e1, e2⟩

/-- With a larger budget a solve that succeeded has the same outcome. -/
theorem loop_more (h : SameSteps o o') (ht : o'.tolerance = o.tolerance) (hm : o.maxiters ≤ o'.maxiters) {s t : SolveState σ K nx np nw} {r} (hl : Loop m o B s r) (hr : r = some t) (hs : t.iterations ≤ o.maxiters) : Loop m o' B s (some t) := by
  have key : ∀ (s1 : SolveState σ K nx np nw), s1.iterations ≤ o.maxiters → stepping m o' s1 = stepping m o s1 := by
    intro s1 h1
    rw [stepping_cases, stepping_cases, ht, if_neg (not_lt.2 (h1.trans hm)), if_neg (not_lt.2 h1)]
  induction hl with
  | stepFails => cases hr
  | checkFails => cases hr
  | stop s s1 s2 h1 h2 =>
    cases hr
    exact .stop s s1 _ ((h.step s).trans h1) ((key s1 (by rw [← (stepping_spec h2).2.1]; exact hs)).trans h2)
  | again s s1 s2 _ h1 h2 h3 ih => exact .again s s1 s2 _ ((h.step s).trans h1) ((key s1 (continue_le h2)).trans h2) (ih hr)

/-! ## The claims for whole solves -/

variable {mach : σ} {history : History K} {u : MVec K nx np nw}

/-- **C88 (one sequence)** for a solve: two solves that differ only in the tolerance and the maximum number of iterations follow one sequence of iterates, whatever the user functions, the transformation function and the user check do. -/
theorem stopping_one_sequence (h : SameSteps o o') {t t' : SolveState σ K nx np nw} (ht : Solve m o B mach history u (some t)) (ht' : Solve m o' B mach history u (some t')) (hle : t.iterations ≤ t'.iterations) :
    ∃ s v, solveInit m B mach history u = some s ∧ Visits m o' B s v ∧ v.u = t.u ∧ v.iterations = t.iterations ∧ v.trace = t.trace ∧ m.error v.mach = m.error t.mach ∧ t.trace <:+ t'.trace ∧
      (t.iterations = t'.iterations → t'.u = t.u ∧ t'.trace = t.trace ∧ m.error t'.mach = m.error t.mach) := by
  cases ht with
  | run s _ hs hl =>
    cases ht' with
    | run s' _ hs' hl' =>
      rw [hs] at hs'
      cases hs'
      obtain ⟨v, e⟩ := loop_one_sequence h hl rfl hl' rfl hle
      exact ⟨s, v, hs, e⟩

/-- **C88 (looser options)**: with a looser tolerance and a budget that is not larger, a solve that returned returns no later; with the same budget a solve that succeeded succeeds. -/
theorem stopping_looser (h : Looser o o') {t : SolveState σ K nx np nw} (ht : Solve m o B mach history u (some t)) :
    ∃ t', Solve m o' B mach history u (some t') ∧ (solveResult o' t').iterations ≤ (solveResult o t).iterations ∧
      (o'.maxiters = o.maxiters → (solveResult o t).succeeded = true → (solveResult o' t').succeeded = true) := by
  cases ht with
  | run s _ hs hl =>
    obtain ⟨t', e1, e2⟩ := loop_looser h hl rfl
    refine ⟨t', .run s _ hs e1, e2, fun he hsuc => ?_⟩
    have : t.iterations ≤ o.maxiters := of_decide_eq_true hsuc
    exact decide_eq_true (by omega)

/-- **C88 (larger budget)**: a solve that succeeded does exactly the same with a larger budget; `result` is the same. -/
theorem stopping_more (h : SameSteps o o') (htol : o'.tolerance = o.tolerance) (hm : o.maxiters ≤ o'.maxiters) {t : SolveState σ K nx np nw} (ht : Solve m o B mach history u (some t)) (hsuc : (solveResult o t).succeeded = true) :
    Solve m o' B mach history u (some t) ∧ solveResult o' t = solveResult o t := by
  have hle : t.iterations ≤ o.maxiters := of_decide_eq_true hsuc
  cases ht with
  | run s _ hs hl =>
    refine ⟨.run s _ hs (loop_more h htol hm hl rfl hle), ?_⟩
    unfold solveResult
    rw [decide_eq_true hle, decide_eq_true (hle.trans hm)]

/-- Conversely, a solve that succeeds within `n` iterations succeeds with every budget of at least `n`, and with no smaller one: the number of iterations needed does not depend on the budget. -/
theorem stopping_exact (h : SameSteps o o') (htol : o'.tolerance = o.tolerance) {t : SolveState σ K nx np nw} (ht : Solve m o B mach history u (some t)) (hsuc : (solveResult o t).succeeded = true) :
    (t.iterations ≤ o'.maxiters ∧ Solve m o' B mach history u (some t)) ∨
      (o'.maxiters < t.iterations ∧ ∃ t', Solve m o' B mach history u (some t') ∧ (solveResult o' t').succeeded = false ∧ (solveResult o' t').iterations = o'.maxiters + 1) := by
  have hle : t.iterations ≤ o.maxiters := of_decide_eq_true hsuc
  rcases le_or_gt o.maxiters o'.maxiters with hm | hm
  · exact .inl ⟨hle.trans hm, (stopping_more h htol hm ht hsuc).1⟩
  · obtain ⟨t', e1, e2, -⟩ := stopping_looser (o := o) (o' := o') ⟨h, hm.le, fun e he => htol ▸ he⟩ ht
    by_cases hs' : (solveResult o' t').succeeded = true
    · obtain ⟨f1, f2⟩ := stopping_more (o := o') (o' := o) ⟨h.minmax.symm, h.debug.symm⟩ htol.symm hm.le e1 hs'
      have : t' = t := by
        obtain ⟨r, -, hr⟩ := (solve_budget m o B mach history u).1
        exact Option.some.inj ((hr _ f1).trans (hr _ ht).symm)
      subst this
      exact .inl ⟨of_decide_eq_true hs', e1⟩
    · have hlt : ¬ t'.iterations ≤ o'.maxiters := fun hc => hs' (decide_eq_true hc)
      obtain ⟨s, n, t0, t1, -, -, -, -, g5, g6, -⟩ := (solve_budget m o' B mach history u).2 t' e1
      refine .inr ⟨?_, t', e1, by simpa using hs', ?_⟩
      · have : t'.iterations ≤ t.iterations := e2
        omega
      · rw [g5]
        have : t'.iterations = n + 1 := g5
        omega

/-- The machine of C31: with the tolerance 2 and with the tolerance 1/2 the first iterate is the same; the first solve ends there, the second goes on and fails. -/
example : SameSteps (exOptions 3 2) (exOptions 5 (1 / 2)) ∧ Looser (exOptions 5 (1 / 2)) (exOptions 3 2) ∧
    (runSolve (exMachine none none) (exOptions 3 2) exBounds 0 [] exStart 9).map (exView (exOptions 3 2)) = some (1, 3, true, [3, 0]) ∧
    (runSolve (exMachine none none) (exOptions 5 (1 / 2)) exBounds 0 [] exStart 9).map (exView (exOptions 5 (1 / 2))) = some (6, 5, false, [5, 5, 5, 5, 5, 3, 0]) :=
  ⟨⟨rfl, rfl⟩, ⟨⟨rfl, rfl⟩, by decide, fun e he => he.trans (by simp only [exOptions]; norm_num)⟩, by decide +kernel, by decide +kernel⟩

/-- A solve that needs two iterations (with a user check): the budgets 2 and 9 give the same outcome, the budget 1 does not suffice although two iterations are made. -/
example : ((runSolve (exMachine none (some 5)) (exOptions 2 1) exBounds 0 [] exStart 9).map (exView (exOptions 2 1)) = some (2, 5, true, [5, 3, 0])) ∧
    ((runSolve (exMachine none (some 5)) (exOptions 9 1) exBounds 0 [] exStart 9).map (exView (exOptions 9 1)) = some (2, 5, true, [5, 3, 0])) ∧
    (runSolve (exMachine none (some 5)) (exOptions 1 1) exBounds 0 [] exStart 9).map (exView (exOptions 1 1)) = some (2, 5, false, [5, 3, 0]) := by
  decide +kernel

/-! ## The claims for `Solver` -/

section user
variable {K : Type*} [Field K] [LinearOrder K] {nx np nbe nbg nhe nhg nc : ℕ} {τ : Type*}
variable {env : Env K} {method : Method} {inners : ∀ c : CanonPack K (nx + nbg + nhg) np (nbe + nbg + (nhe + nhg)), Inners K np c.nbe c.nbi c.nne c.nni} {P : UProblem τ K nx np nbe nbg nhe nhg nc}
  {part : Idx.PartitionImpl ℕ} {o o' : SolveOptions K} {S S1 : UState K nx np nbe nbg nhe nhg} {r1 : Result K} {mem : Matrix (Fin (nbe + nbg)) (Fin (nx + nbg + nhg)) K} {check}

/-- **C88 for `Solver` (larger budget)**: a solve that succeeded returns the same state and the same result with every larger maximum number of iterations. -/
theorem solver_stopping_more (hs : SameSteps o o') (htol : o'.tolerance = o.tolerance) (hm : o.maxiters ≤ o'.maxiters) (h : SolverReturns env method inners part o P mem S S1 r1 check) (hsuc : r1.succeeded = true) :
    ∃ h' : SolverReturns env method inners part o' P mem S S1 r1 check, h'.final = h.final := by
  have e := h.result_eq
  obtain ⟨f1, f2⟩ := stopping_more hs htol hm h.solved (e ▸ hsuc)
  exact ⟨{ h with solved := f1, result_eq := e.trans f2.symm }, rfl⟩

/-- **C88 for `Solver` (looser tolerance)**: with a larger tolerance a solve that succeeded succeeds, in at most as many iterations. -/
theorem solver_stopping_looser [IsStrictOrderedRing K] (hthr : 0 ≤ env.thr) (heps : 0 ≤ env.eps) (hnx : 0 < nx) (hs : SameSteps o o') (htol : o.tolerance ≤ o'.tolerance) (hm : o'.maxiters = o.maxiters) (h : SolverReturns env method inners part o P mem S S1 r1 check)
    (hsuc : r1.succeeded = true) : ∃ S2 r2, ∃ h' : SolverReturns env method inners part o' P mem S S2 r2 check, h'.t0 = h.t0 ∧ r2.succeeded = true ∧ r2.iterations ≤ r1.iterations ∧ h'.final.trace <:+ h.final.trace := by
  have e := h.result_eq
  obtain ⟨t', f1, f2, f3⟩ := stopping_looser (o' := o') ⟨hs, hm.le, fun e he => he.trans_le htol⟩ h.solved
  obtain ⟨-, ev, rf, ew0, g1, -⟩ := solve_inv (machine_inv (cfg := solverConfig env method inners P mem) hthr heps (by omega) check) o' _ (start_reach _ (h.t0, h.res) h.memW h.errors h.ax h.du) h.history _ _ f1
  refine ⟨_, _, { h with final := t', rf := rf, solved := f1, evaluated := g1, state := rfl, result_eq := rfl }, rfl, f3 hm (e ▸ hsuc), by rw [e]; exact f2, ?_⟩
  obtain ⟨s, v, a1, a2, a3, a4, a5, a6, a7, -⟩ := stopping_one_sequence (o := o') (o' := o) ⟨hs.minmax.symm, hs.debug.symm⟩ f1 h.solved f2
  exact a7

end user

/-- The problem with two equality constraints of C70, from every initial state: solved with the default budget, it is solved in the same way with ten times the budget, and with the tolerance 1 in at most as many iterations. -/
example (part : Idx.PartitionImpl ℕ) (mem : Matrix (Fin (2 + 0)) (Fin (2 + 0 + 0)) ℝ) (S : UState ℝ 2 0 2 0 0 0) :
    ∃ S1 r1 S2 r2, Nonempty (SolverReturns exactEnv .nullspace exactInners part exactOptions earlierProblem mem S S1 r1 none) ∧ S1.x = ![1, 0] ∧ r1.succeeded = true ∧
      Nonempty (SolverReturns exactEnv .nullspace exactInners part { exactOptions with maxiters := 2000 } earlierProblem mem S S1 r1 none) ∧
      Nonempty (SolverReturns exactEnv .nullspace exactInners part { exactOptions with tolerance := 1 } earlierProblem mem S S2 r2 none) ∧ r2.succeeded = true ∧ r2.iterations ≤ r1.iterations := by
  obtain ⟨S1, r1, ⟨h⟩, h1, h2⟩ := earlier_solved part mem S
  obtain ⟨k, -⟩ := solver_stopping_more (o := exactOptions) (o' := { exactOptions with maxiters := 2000 }) ⟨rfl, rfl⟩ rfl (by norm_num [exactOptions]) h h1
  obtain ⟨S2, r2, k', -, e1, e2, -⟩ := solver_stopping_looser (o := exactOptions) (o' := { exactOptions with tolerance := 1 }) le_rfl le_rfl (by norm_num) ⟨rfl, rfl⟩ (by norm_num [exactOptions]) rfl h h1
  exact ⟨S1, r1, S2, r2, ⟨h⟩, h2, h1, ⟨k⟩, ⟨k'⟩, e1, e2⟩

end Optima
