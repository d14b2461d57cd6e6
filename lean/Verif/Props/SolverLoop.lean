import Verif.Model.MasterSolver

/-!
# C31, C32: the solver loop

All theorems hold for every machine: whatever the residual function, the Newton step and the user code compute, with any internal state.  The numbers are any type with any operations and comparisons: nothing is
assumed about them, so the theorems hold for `double` with rounding, infinities and NaN.
-/

set_option linter.unusedSectionVars false

namespace Optima

variable {K : Type*} [Zero K] [One K] [Add K] [Sub K] [Mul K] [Div K] [LT K] [DecidableLT K] [LE K] [DecidableLE K] [DecidableEq K] [Max K] [Min K] {nx np nw : ℕ} {σ : Type*}

theorem evalAt_u {m : Machine σ K nx np nw} {s s' : SolveState σ K nx np nw} (h : evalAt m s = some s') :
    s'.u = s.u ∧ s'.uo = s.uo ∧ s'.iterations = s.iterations ∧ s'.history = s.history ∧ s'.trace = s.u :: s.trace ∧ m.eval s.mach s.u = some s'.mach := by
  unfold evalAt at h
  split at h
  · cases h
  · rename_i t e
    cases h
    exact ⟨rfl, rfl, rfl, rfl, rfl, e⟩


theorem transform_frame {m : Machine σ K nx np nw} {B : Bounds K nx np} {s s' : SolveState σ K nx np nw} {b : Bool} (h : transform m B s = some (s', b)) :
    s'.uo = s.uo ∧ s'.iterations = s.iterations ∧ s'.history = s.history := by
  unfold transform at h
  split at h
  · cases h
    exact ⟨rfl, rfl, rfl⟩
  · dsimp only at h
    split at h
    · cases h
    · split_ifs at h with hb
      · split at h
        · cases h
        · rename_i s1 h1
          cases h
          obtain ⟨-, e2, e3, e4, -⟩ := evalAt_u h1
          exact ⟨e2, e3, e4⟩
      · split at h
        · cases h
        · rename_i s1 h1
          obtain ⟨-, e2, e3, e4, -⟩ := evalAt_u h1
          split_ifs at h
          · split at h
            · cases h
            · rename_i s2 h2
              cases h
              obtain ⟨-, f2, f3, f4, -⟩ := evalAt_u h2
              exact ⟨f2.trans e2, f3.trans e3, f4.trans e4⟩
          · cases h
            exact ⟨e2, e3, e4⟩

/-- What a step does to the counters of the loop. -/
theorem step_frame {m : Machine σ K nx np nw} {o : SolveOptions K} {B : Bounds K nx np} {s s' : SolveState σ K nx np nw} (h : step m o B s = some s') :
    s'.uo = s.uo ∧ s'.iterations = s.iterations + 1 ∧ s'.history = s.history := by
  unfold step at h
  dsimp only at h
  split at h
  · cases h
  · split at h
    · cases h
    · rename_i s1 b h1
      obtain ⟨t1, t2, t3⟩ := transform_frame h1
      split at h
      · cases h
      · rename_i s2 h2
        obtain ⟨-, e2, e3, e4, -⟩ := evalAt_u h
        unfold errorControl at h2
        split at h2
        · cases h2
        · cases h2
          exact ⟨e2.trans t1, e3.trans t2, e4.trans t3⟩

/-- The user check accepts the iterate in state `s` (the state after a step). -/
def CheckAccepts (m : Machine σ K nx np nw) (s : SolveState σ K nx np nw) : Prop := ∃ f t, m.check = some f ∧ f s.mach s.uo s.u { iterations := s.iterations } = some (t, true)

theorem stepping_spec {m : Machine σ K nx np nw} {o : SolveOptions K} {s s' : SolveState σ K nx np nw} {b : Bool} (h : stepping m o s = some (s', b)) :
    s'.u = s.u ∧ s'.iterations = s.iterations ∧ s'.history = s.history ++ [m.error s.mach] ∧ m.error s'.mach = m.error s.mach ∧ s'.trace = s.trace ∧
    (o.maxiters < s.iterations → b = false ∧ s'.uo = s.uo) ∧
    (s.iterations ≤ o.maxiters → s'.uo = s.u ∧ (b = false ↔ m.error s.mach < o.tolerance ∨ (¬ m.error s.mach < o.tolerance ∧ CheckAccepts m s))) := by
  unfold stepping at h
  dsimp only at h
  split_ifs at h with hi
  · cases h
    refine ⟨rfl, rfl, rfl, rfl, rfl, fun _ => ⟨rfl, rfl⟩, fun hle => absurd hle (not_le.2 hi)⟩
  · have hconv : (History.update s.history (m.error s.mach)).converged o.tolerance = if m.error s.mach < o.tolerance then some true else none := by
      simp [History.converged, History.update]
    rw [hconv] at h
    by_cases ht : m.error s.mach < o.tolerance
    · rw [if_pos ht] at h
      cases h
      exact ⟨rfl, rfl, rfl, rfl, rfl, fun hlt => absurd hlt hi, fun _ => ⟨rfl, by simp [ht]⟩⟩
    · rw [if_neg ht] at h
      split at h
      · rename_i c hc
        cases hc
      rename_i hc
      clear hc
      split at h
      · rename_i hc
        cases h
        exact ⟨rfl, rfl, rfl, rfl, rfl, fun hlt => absurd hlt hi, fun _ => ⟨rfl, by simp [ht, CheckAccepts, hc]⟩⟩
      · rename_i f hc
        split at h
        · cases h
        · rename_i t c hcheck
          cases h
          refine ⟨rfl, rfl, rfl, m.check_error _ hc _ _ _ _ _ _ hcheck, rfl, fun hlt => absurd hlt hi, fun _ => ⟨rfl, ?_⟩⟩
          simp only [ht, false_or, not_false_iff, true_and, CheckAccepts, hc]
          constructor
          · intro e
            have : c = true := by simpa using e
            subst this
            exact ⟨f, t, rfl, hcheck⟩
          · rintro ⟨f', t', e, hf⟩
            cases e
            rw [hcheck] at hf
            cases hf
            rfl

/-- The loop goes on only if the iteration counter is within the budget. -/
theorem continue_le {m : Machine σ K nx np nw} {o : SolveOptions K} {s1 s2 : SolveState σ K nx np nw} (h2 : stepping m o s1 = some (s2, true)) : s1.iterations ≤ o.maxiters := by
  by_contra hc
  exact absurd ((stepping_spec h2).2.2.2.2.2.1 (not_le.1 hc)).1 (by simp)

/-- `Visits s t`: `t` is the state after one of the steps of the loop started in `s` (the loop may still be running or end in any way). -/
inductive Visits (m : Machine σ K nx np nw) (o : SolveOptions K) (B : Bounds K nx np) : SolveState σ K nx np nw → SolveState σ K nx np nw → Prop
  | here (s s1) : step m o B s = some s1 → Visits m o B s s1
  | later (s s1 s2 t) : step m o B s = some s1 → stepping m o s1 = some (s2, true) → Visits m o B s2 t → Visits m o B s t
theorem solveInit_spec {m : Machine σ K nx np nw} {B : Bounds K nx np} {mach : σ} {history : History K} {u : MVec K nx np nw} {s : SolveState σ K nx np nw}
    (h : solveInit m B mach history u = some s) : s.u = clampVec B u ∧ s.uo = clampVec B u ∧ s.iterations = 0 ∧ s.history = history ∧ s.trace = [clampVec B u] := by
  unfold solveInit at h
  obtain ⟨e1, e2, e3, e4, e5, -⟩ := evalAt_u h
  exact ⟨e1, e2, e3, e4, e5⟩
/-! ## C31 -/

/-- **C31 (termination)**: whatever the user functions do, the loop ends, and its outcome is determined. -/
theorem loop_terminates (m : Machine σ K nx np nw) (o : SolveOptions K) (B : Bounds K nx np) (s : SolveState σ K nx np nw) : ∃! r, Loop m o B s r := by
  have hex : ∀ n (s : SolveState σ K nx np nw), o.maxiters - s.iterations ≤ n → ∃ r, Loop m o B s r := by
    intro n
    induction n with
    | zero =>
      intro s hn
      rcases h1 : step m o B s with _ | s1
      · exact ⟨_, .stepFails s h1⟩
      · rcases h2 : stepping m o s1 with _ | ⟨s2, b⟩
        · exact ⟨_, .checkFails s s1 h1 h2⟩
        · cases b with
          | false => exact ⟨_, .stop s s1 s2 h1 h2⟩
          | true =>
            have := continue_le h2
            have := (step_frame h1).2.1
            omega
    | succ n ih =>
      intro s hn
      rcases h1 : step m o B s with _ | s1
      · exact ⟨_, .stepFails s h1⟩
      · rcases h2 : stepping m o s1 with _ | ⟨s2, b⟩
        · exact ⟨_, .checkFails s s1 h1 h2⟩
        · cases b with
          | false => exact ⟨_, .stop s s1 s2 h1 h2⟩
          | true =>
            have hle := continue_le h2
            have e1 := (step_frame h1).2.1
            have e2 := (stepping_spec h2).2.1
            obtain ⟨r, hr⟩ := ih s2 (by omega)
            exact ⟨r, .again s s1 s2 r h1 h2 hr⟩
  obtain ⟨r, hr⟩ := hex _ s le_rfl
  refine ⟨r, hr, ?_⟩
  intro r' hr'
  clear hex
  induction hr generalizing r' with
  | stepFails s h1 => cases hr' <;> simp_all
  | checkFails s s1 h1 h2 => cases hr' <;> simp_all
  | stop s s1 s2 h1 h2 => cases hr' <;> simp_all
  | again s s1 s2 r h1 h2 h3 ih =>
    cases hr' with
    | stepFails => simp_all
    | checkFails => simp_all
    | stop => simp_all
    | again _ t1 t2 _ g1 g2 g3 =>
      rw [h1] at g1
      cases g1
      rw [h2] at g2
      cases g2
      exact ih _ g3

/-- `Steps n s t`: after `n` steps, none of them the last, the loop started in `s` is in state `t`. -/
inductive Steps (m : Machine σ K nx np nw) (o : SolveOptions K) (B : Bounds K nx np) : ℕ → SolveState σ K nx np nw → SolveState σ K nx np nw → Prop
  | zero (s) : Steps m o B 0 s s
  | succ (n s s1 s2 t) : step m o B s = some s1 → stepping m o s1 = some (s2, true) → Steps m o B n s2 t → Steps m o B (n + 1) s t

theorem loop_steps {m : Machine σ K nx np nw} {o : SolveOptions K} {B : Bounds K nx np} {s : SolveState σ K nx np nw} {r} (h : Loop m o B s r) :
    ∀ t, r = some t → ∃ n t0 t1, Steps m o B n s t0 ∧ step m o B t0 = some t1 ∧ stepping m o t1 = some (t, false) := by
  induction h with
  | stepFails => intro t e; cases e
  | checkFails => intro t e; cases e
  | stop s s1 s2 h1 h2 => intro t e; cases e; exact ⟨0, s, s1, .zero s, h1, h2⟩
  | again s s1 s2 r h1 h2 h3 ih =>
    intro t e
    obtain ⟨n, t0, t1, g1, g2, g3⟩ := ih t e
    exact ⟨n + 1, t0, t1, .succ n s s1 s2 t0 h1 h2 g1, g2, g3⟩

theorem steps_spec {m : Machine σ K nx np nw} {o : SolveOptions K} {B : Bounds K nx np} {n : ℕ} {s t : SolveState σ K nx np nw} (h : Steps m o B n s t) :
    t.iterations = s.iterations + n ∧ (n ≠ 0 → t.iterations ≤ o.maxiters) ∧ ∃ es : List K, es.length = n ∧ t.history = s.history ++ es := by
  induction h with
  | zero s => exact ⟨rfl, by simp, [], rfl, by simp⟩
  | succ n s s1 s2 t h1 h2 h3 ih =>
    obtain ⟨i2, i3, es, i4, i5⟩ := ih
    have e1 := step_frame h1
    have e2 := stepping_spec h2
    refine ⟨by rw [i2, e2.2.1, e1.2.1]; omega, fun _ => ?_, m.error s1.mach :: es, by simp [i4], by rw [i5, e2.2.2.1, e1.2.2]; simp⟩
    by_cases hn : n = 0
    · subst hn
      cases h3
      rw [e2.2.1]; exact continue_le h2
    · exact i3 hn

/-- The iterate in state `t` (after a step) is accepted by the convergence test. -/
def Accepted (m : Machine σ K nx np nw) (o : SolveOptions K) (t : SolveState σ K nx np nw) : Prop := m.error t.mach < o.tolerance ∨ CheckAccepts m t

/-- An accepted iterate at or before iteration `maxiters` ends the loop. -/
theorem visits_accepted_last {m : Machine σ K nx np nw} {o : SolveOptions K} {B : Bounds K nx np} {s t : SolveState σ K nx np nw} (hv : Visits m o B s t)
    (hi : t.iterations ≤ o.maxiters) (ha : Accepted m o t) : ∀ r, Loop m o B s (some r) → r.iterations = t.iterations := by
  induction hv with
  | here s s1 h1 =>
    intro r hl
    cases hl with
    | stop _ t1 t2 g1 g2 =>
      rw [h1] at g1; cases g1
      exact (stepping_spec g2).2.1
    | again _ t1 t2 _ g1 g2 g3 =>
      rw [h1] at g1; cases g1
      have := ((stepping_spec g2).2.2.2.2.2.2 hi).2
      exfalso
      refine absurd (this.2 ?_) (by simp)
      by_cases hlt : m.error s1.mach < o.tolerance
      · exact Or.inl hlt
      · exact Or.inr ⟨hlt, ha.resolve_left hlt⟩
  | later s s1 s2 t h1 h2 h3 ih =>
    intro r hl
    cases hl with
    | stop _ t1 t2 g1 g2 =>
      rw [h1] at g1; cases g1
      rw [h2] at g2; cases g2
    | again _ t1 t2 _ g1 g2 g3 =>
      rw [h1] at g1; cases g1
      rw [h2] at g2; cases g2
      exact ih hi ha r g3

theorem steps_visits {m : Machine σ K nx np nw} {o : SolveOptions K} {B : Bounds K nx np} {n : ℕ} {s t t1 : SolveState σ K nx np nw} (h : Steps m o B n s t) (h1 : step m o B t = some t1) :
    Visits m o B s t1 := by
  induction h with
  | zero s => exact .here s t1 h1
  | succ n s s1 s2 t g1 g2 g3 ih => exact .later s s1 s2 t1 g1 g2 (ih h1)

/-- **C31**: for all user functions, options and initial guesses, a solve has exactly one outcome.  If it returns, the number `result.iterations` is the number of Newton steps taken, which is at least one and at most
    `maxiters + 1`; `result.succeeded` is true exactly when one of the iterates at or before iteration `maxiters` was accepted by the convergence test, and then the last one was. -/
theorem solve_budget (m : Machine σ K nx np nw) (o : SolveOptions K) (B : Bounds K nx np) (mach : σ) (history : History K) (u : MVec K nx np nw) :
    (∃! r, Solve m o B mach history u r) ∧
    ∀ t, Solve m o B mach history u (some t) → ∃ s n t0 t1, solveInit m B mach history u = some s ∧ Steps m o B n s t0 ∧ step m o B t0 = some t1 ∧ stepping m o t1 = some (t, false) ∧
      (solveResult o t).iterations = n + 1 ∧ n ≤ o.maxiters ∧
      ((solveResult o t).succeeded = true ↔ ∃ v, Visits m o B s v ∧ v.iterations ≤ o.maxiters ∧ Accepted m o v) ∧
      ((solveResult o t).succeeded = true ↔ t1.iterations ≤ o.maxiters ∧ Accepted m o t1) := by
  constructor
  · rcases hs : solveInit m B mach history u with _ | s
    · refine ⟨none, .initFails hs, ?_⟩
      intro r hr
      cases hr with
      | initFails => rfl
      | run s r e hl => rw [hs] at e; cases e
    · obtain ⟨r, hr, huniq⟩ := loop_terminates m o B s
      refine ⟨r, .run s r hs hr, ?_⟩
      intro r' hr'
      cases hr' with
      | initFails e => rw [hs] at e; cases e
      | run s' _ e hl => rw [hs] at e; cases e; exact huniq _ hl
  · intro t ht
    cases ht with
    | run s r hs hl =>
      obtain ⟨n, t0, t1, g1, g2, g3⟩ := loop_steps hl t rfl
      obtain ⟨p2, p3, -⟩ := steps_spec g1
      have q := step_frame g2
      obtain ⟨r1, r2, r3, r4, r5, r6, r7⟩ := stepping_spec g3
      have hit : t.iterations = n + 1 := by rw [r2, q.2.1, p2, (solveInit_spec hs).2.2.1]; omega
      have hsucc : (solveResult o t).succeeded = true ↔ t1.iterations ≤ o.maxiters ∧ Accepted m o t1 := by
        simp only [solveResult, decide_eq_true_eq]
        rw [r2]
        constructor
        · intro hle
          refine ⟨hle, ?_⟩
          rcases (r7 hle).2.1 rfl with h | h
          · exact Or.inl h
          · exact Or.inr h.2
        · exact fun h => h.1
      refine ⟨s, n, t0, t1, hs, g1, g2, g3, hit, ?_, ?_, hsucc⟩
      · by_cases hn : n = 0
        · omega
        · have := p3 hn
          have := (solveInit_spec hs).2.2.1
          omega
      · constructor
        · intro h
          obtain ⟨h1, h2⟩ := hsucc.1 h
          exact ⟨t1, steps_visits g1 g2, h1, h2⟩
        · rintro ⟨v, hv, hi, ha⟩
          have := visits_accepted_last hv hi ha t hl
          simp only [solveResult, decide_eq_true_eq]
          omega

/-! ## C32 -/

/-- **C32 (success means converged)**: if `result.succeeded` the error at the final state is below the tolerance or the user check accepted the final iterate. -/
theorem success_converged (m : Machine σ K nx np nw) (o : SolveOptions K) (B : Bounds K nx np) (mach : σ) (history : History K) (u : MVec K nx np nw)
    (t : SolveState σ K nx np nw) (h : Solve m o B mach history u (some t)) (hsucc : (solveResult o t).succeeded = true) :
    m.error t.mach < o.tolerance ∨ ∃ t1, t1.u = t.u ∧ m.error t1.mach = m.error t.mach ∧ CheckAccepts m t1 := by
  obtain ⟨s, n, t0, t1, -, -, -, g3, -, -, -, h2⟩ := (solve_budget m o B mach history u).2 t h
  obtain ⟨-, ha⟩ := h2.1 hsucc
  obtain ⟨r1, r2, r3, r4, -⟩ := stepping_spec g3
  rcases ha with ha | ha
  · left; rw [r4]; exact ha
  · exact Or.inr ⟨t1, r1.symm, r4.symm, ha⟩

/-- The same state with another convergence history. -/
def withHistory (h : History K) (s : SolveState σ K nx np nw) : SolveState σ K nx np nw := { s with history := h }

theorem evalAt_history (m : Machine σ K nx np nw) (h : History K) (s : SolveState σ K nx np nw) : evalAt m (withHistory h s) = (evalAt m s).map (withHistory h) := by
  unfold evalAt withHistory
  dsimp only
  cases m.eval s.mach s.u <;> rfl

theorem transform_history (m : Machine σ K nx np nw) (B : Bounds K nx np) (h : History K) (s : SolveState σ K nx np nw) :
    transform m B (withHistory h s) = (transform m B s).map fun r => (withHistory h r.1, r.2) := by
  unfold transform
  cases m.phi with
  | none => rfl
  | some phi =>
    dsimp only [withHistory]
    cases phi s.mach s.uo.x s.u.x with
    | none => rfl
    | some r =>
      obtain ⟨t, x, b⟩ := r
      dsimp only
      unfold evalAt
      dsimp only
      split_ifs
      · cases m.eval t s.u <;> rfl
      · cases m.eval t { x := fun i => clamp (B.xlower i) (B.xupper i) (x i), p := s.u.p, w := s.u.w } with
        | none => rfl
        | some t' =>
          dsimp only
          split_ifs
          · cases m.eval t' s.u <;> rfl
          · rfl

theorem step_history (m : Machine σ K nx np nw) (o : SolveOptions K) (B : Bounds K nx np) (h : History K) (s : SolveState σ K nx np nw) :
    step m o B (withHistory h s) = (step m o B s).map (withHistory h) := by
  unfold step
  dsimp only
  have e : (withHistory h s).mach = s.mach := rfl
  have e' : (withHistory h s).uo = s.uo := rfl
  rw [e, e']
  cases m.newton s.mach s.uo with
  | none => rfl
  | some tu =>
    obtain ⟨t, u⟩ := tu
    dsimp only
    have := transform_history m B h { mach := t, u := u, uo := s.uo, iterations := s.iterations + 1, history := s.history, trace := s.trace }
    unfold withHistory at this ⊢
    dsimp only at this ⊢
    rw [this]
    cases transform m B { mach := t, u := u, uo := s.uo, iterations := s.iterations + 1, history := s.history, trace := s.trace } with
    | none => rfl
    | some r =>
      obtain ⟨s1, b⟩ := r
      dsimp only [Option.map_some]
      unfold errorControl
      dsimp only
      cases backtrack o.debug o.minmax B s1.uo s1.u with
      | none => rfl
      | some v => exact evalAt_history m h { s1 with u := v }

theorem stepping_history (m : Machine σ K nx np nw) (o : SolveOptions K) (h : History K) (s : SolveState σ K nx np nw) :
    stepping m o (withHistory h s) = (stepping m o s).map fun r => (withHistory (h ++ [m.error s.mach]) r.1, r.2) := by
  unfold stepping
  have hconv : ∀ h : History K, (History.update h (m.error s.mach)).converged o.tolerance = if m.error s.mach < o.tolerance then some true else none := by
    intro h; simp [History.converged, History.update]
  dsimp only [withHistory]
  rw [hconv, hconv]
  split_ifs
  · rfl
  · rfl
  · dsimp only
    cases m.check with
    | none => rfl
    | some f =>
      dsimp only
      cases f s.mach s.uo s.u { iterations := s.iterations } <;> rfl

/-- **C32 (no dependence on previous solves)**: a solver object with another convergence history takes the same steps and returns the same result; the new errors are appended to whatever history there was. -/
theorem solve_history_independent (m : Machine σ K nx np nw) (o : SolveOptions K) (B : Bounds K nx np) (mach : σ) (h h' : History K) (u : MVec K nx np nw) (r)
    (hs : Solve m o B mach h u r) : ∃ es : List K, (∀ t, r = some t → t.history = h ++ es) ∧ Solve m o B mach h' u (r.map (withHistory (h' ++ es))) := by
  have hloop : ∀ s r, Loop m o B s r → ∀ h', ∃ es : List K, (∀ t, r = some t → t.history = s.history ++ es) ∧ Loop m o B (withHistory h' s) (r.map (withHistory (h' ++ es))) := by
    intro s r hl
    have step_hist : ∀ {s s1 : SolveState σ K nx np nw}, step m o B s = some s1 → s1.history = s.history := by
      intro s s1 h1
      have := step_history m o B s.history s
      have e : withHistory s.history s = s := rfl
      rw [e, h1] at this
      simp only [Option.map_some, Option.some.injEq] at this
      rw [this]; rfl
    have stepping_hist : ∀ {s1 s2 : SolveState σ K nx np nw} {b}, stepping m o s1 = some (s2, b) → s2.history = s1.history ++ [m.error s1.mach] := fun h2 => (stepping_spec h2).2.2.1
    induction hl with
    | stepFails s h1 => intro h'; exact ⟨[], by simp, .stepFails _ (by rw [step_history, h1]; rfl)⟩
    | checkFails s s1 h1 h2 => intro h'; exact ⟨[], by simp, .checkFails _ (withHistory h' s1) (by rw [step_history, h1]; rfl) (by rw [stepping_history, h2]; rfl)⟩
    | stop s s1 s2 h1 h2 =>
      intro h'
      refine ⟨[m.error s1.mach], ?_, .stop _ (withHistory h' s1) _ (by rw [step_history, h1]; rfl) (by rw [stepping_history, h2]; rfl)⟩
      intro t e
      cases e
      rw [stepping_hist h2, step_hist h1]
    | again s s1 s2 r h1 h2 h3 ih =>
      intro h'
      obtain ⟨es, e1, e2⟩ := ih (h' ++ [m.error s1.mach])
      refine ⟨m.error s1.mach :: es, ?_, .again _ (withHistory h' s1) (withHistory (h' ++ [m.error s1.mach]) s2) _ (by rw [step_history, h1]; rfl) (by rw [stepping_history, h2]; rfl) ?_⟩
      · intro t e
        rw [e1 t e, stepping_hist h2, step_hist h1, List.append_assoc]; rfl
      · rw [List.append_assoc] at e2
        exact e2
  have hinit : solveInit m B mach h' u = (solveInit m B mach h u).map (withHistory h') := by
    unfold solveInit
    exact evalAt_history m h' { mach := mach, u := clampVec B u, uo := clampVec B u, iterations := 0, history := h, trace := [] }
  cases hs with
  | initFails e => exact ⟨[], by simp, .initFails (by rw [hinit, e]; rfl)⟩
  | run s r e hl =>
    obtain ⟨es, e1, e2⟩ := hloop s _ hl h'
    refine ⟨es, fun t ht => ?_, .run (withHistory h' s) _ (by rw [hinit, e]; rfl) e2⟩
    rw [e1 t ht, (solveInit_spec e).2.2.2.1]

/-- The loop as a function with fuel, to run the example. -/
def runLoop (m : Machine σ K nx np nw) (o : SolveOptions K) (B : Bounds K nx np) : ℕ → SolveState σ K nx np nw → Option (SolveState σ K nx np nw)
  | 0, _ => none
  | n + 1, s => match step m o B s with
    | none => none
    | some s1 => match stepping m o s1 with
      | none => none
      | some (s2, true) => runLoop m o B n s2
      | some (s2, false) => some s2

theorem runLoop_loop {m : Machine σ K nx np nw} {o : SolveOptions K} {B : Bounds K nx np} (n : ℕ) (s t : SolveState σ K nx np nw) (h : runLoop m o B n s = some t) : Loop m o B s (some t) := by
  induction n generalizing s with
  | zero => cases h
  | succ n ih =>
    unfold runLoop at h
    split at h
    · cases h
    · rename_i s1 h1
      split at h
      · cases h
      · rename_i h2
        exact .again s s1 _ _ h1 h2 (ih _ h)
      · rename_i h2
        cases h
        exact .stop s s1 _ h1 h2

/-- A solve run with fuel. -/
def runSolve (m : Machine σ K nx np nw) (o : SolveOptions K) (B : Bounds K nx np) (mach : σ) (history : History K) (u : MVec K nx np nw) (n : ℕ) : Option (SolveState σ K nx np nw) :=
  match solveInit m B mach history u with
  | none => none
  | some s => runLoop m o B n s

theorem runSolve_solve {m : Machine σ K nx np nw} {o : SolveOptions K} {B : Bounds K nx np} {mach : σ} {history : History K} {u : MVec K nx np nw} (n : ℕ) {t : SolveState σ K nx np nw}
    (h : runSolve m o B mach history u n = some t) : Solve m o B mach history u (some t) := by
  unfold runSolve at h
  split at h
  · cases h
  · rename_i s hs
    exact .run s _ hs (runLoop_loop n s t h)

end Optima
