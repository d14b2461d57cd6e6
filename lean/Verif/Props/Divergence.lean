import Verif.Props.LocalConvergence
import Verif.Props.SensitivityWitness
import Mathlib.Analysis.Convex.Deriv
import Mathlib.Analysis.SpecialFunctions.Sqrt
import Mathlib.Analysis.Calculus.Deriv.Inv

/-!
# C61, C62: solves that diverge

C61: the matrix of the Newton system contains the second derivatives of the objective only (`Hxx = fxx`, ResidualFunction.cpp:229), not those of the constraints `h`.  Close to a strict regular minimiser of a problem with one
non-linear constraint the iterates run away.  C62: a smooth strictly convex function without constraints and bounds, for which every iterate is further away than the one before.
-/

set_option linter.unusedSectionVars false

namespace Optima

open Matrix

variable {K : Type*} [Field K] [LinearOrder K] [IsStrictOrderedRing K] {nx np ny nz : ℕ} {τ : Type*}

section generic

variable {cfg : Config K nx np ny nz τ}

/-- If a property of the iterates is kept by Newton steps and excludes small errors, the solve uses up its iterations and fails. -/
theorem solve_never (hthr : 0 ≤ cfg.env.thr) (heps : cfg.env.eps = 0) (hd : cfg.env.debug = false) (hnx : 0 < nx) (hphi : cfg.phi = none)
    (huser : ∀ t x p q, ∃ r, cfg.user t x p q = some r) (o : SolveOptions K) (P : ℕ → MVec K nx np (ny + nz) → Prop) (hB : ∀ u : MVec K nx np (ny + nz), InBounds cfg.pb.bounds u)
    (hstep : ∀ k s u sm un, EvaluatedAt cfg s u → P k u → cfg.newton s u = some (sm, un) → P (k + 1) un) (herr : ∀ k s u, EvaluatedAt cfg s u → P (k + 1) u → o.tolerance ≤ s.errors.error)
    (user : τ) (mem errors ax du) (history : History K) (u : MVec K nx np (ny + nz)) (hu : P 0 u) :
    ∃ t, (∀ r, Solve (cfg.machine none) o cfg.pb.bounds (cfg.start user mem errors ax du) history u r ↔ r = some t) ∧
      (solveResult o t).succeeded = false ∧ (solveResult o t).iterations = o.maxiters + 1 ∧ P (o.maxiters + 1) t.u := by
  have hinv := machine_inv hthr heps.ge hnx (cfg := cfg) none
  have hstep1 : ∀ k s s1, Reach cfg s.mach → EvaluatedAt cfg s.mach s.u → s.uo = s.u → P k s.u → step (cfg.machine none) o cfg.pb.bounds s = some s1 →
      Reach cfg s1.mach ∧ EvaluatedAt cfg s1.mach s1.u ∧ P (k + 1) s1.u ∧ s1.iterations = s.iterations + 1 := by
    intro k s s1 h1 h2 h3 h4 h5
    unfold step at h5
    dsimp only at h5
    split at h5
    · cases h5
    · rename_i tm un hn
      change cfg.newton s.mach s.uo = some (tm, un) at hn
      rw [h3] at hn
      rw [transform_no_phi (by change Option.map _ cfg.phi = none; rw [hphi]; rfl)] at h5
      dsimp only at h5
      unfold errorControl at h5
      dsimp only at h5
      rw [backtrack_accepts o.debug o.minmax (hB _) (hB _)] at h5
      dsimp only at h5
      obtain ⟨e1, e2, e3, e4, e5, e6⟩ := evalAt_u h5
      obtain ⟨f1, f2⟩ := evalAt_inv hinv (by exact hinv.newton _ _ _ _ h1 hn) h5
      refine ⟨f1, f2, ?_, e3⟩
      rw [e1]
      exact hstep k _ _ _ _ h2 h4 hn
  have hloop : ∀ s r, Loop (cfg.machine none) o cfg.pb.bounds s r → ∀ t, r = some t → Reach cfg s.mach → EvaluatedAt cfg s.mach s.u → s.uo = s.u → P s.iterations s.u → s.iterations ≤ o.maxiters → t.iterations = o.maxiters + 1 ∧ P t.iterations t.u := by
    intro s r h
    induction h with
    | stepFails s h => intro t e; cases e
    | checkFails s s1 h h' => intro t e; cases e
    | stop s s1 s2 h h' =>
      rintro t ⟨⟩ h1 h2 h3 h4 h5
      obtain ⟨a1, a2, a3, a4⟩ := hstep1 _ s s1 h1 h2 h3 h4 h
      obtain ⟨b1, b2, -, b4, -, b6, b7⟩ := stepping_spec h'
      rw [b2, b1, a4]
      refine ⟨?_, a3⟩
      by_contra hn
      have hle : s1.iterations ≤ o.maxiters := by omega
      rcases (b7 hle).2.1 rfl with c | ⟨-, f, t, hc, -⟩
      · exact absurd c (not_lt.2 (herr _ _ _ a2 a3))
      · cases hc
    | again s s1 s2 r h h' _ ih =>
      intro t e h1 h2 h3 h4 h5
      obtain ⟨a1, a2, a3, a4⟩ := hstep1 _ s s1 h1 h2 h3 h4 h
      obtain ⟨b1, b2, -, b4, -, b6, b7⟩ := stepping_spec h'
      have hle : s1.iterations ≤ o.maxiters := by
        by_contra hn
        have := (b6 (not_le.1 hn)).1
        cases this
      have hmach : s2.mach = s1.mach := by
        unfold stepping at h'
        dsimp only at h'
        split_ifs at h'
        · cases h'
        split at h'
        · simp only [Option.some.injEq, Prod.mk.injEq] at h'
          rw [← h'.1]
        · rw [show (cfg.machine none).check = none from rfl] at h'
          cases h'; rfl
      exact ih t e (by rw [hmach]; exact a1) (by rw [hmach, b1]; exact a2) ((b7 hle).1.trans b1.symm) (by rw [b1, b2, a4]; exact a3) (by rw [b2]; exact hle)
  obtain ⟨t, ht⟩ := solve_returns hthr heps.ge hd hnx none (noPhi hphi) huser (fun f hf => by cases hf) o (inBounds_consistent (hB u)) user mem errors ax du history u
  have huq : ∀ r, Solve (cfg.machine none) o cfg.pb.bounds (cfg.start user mem errors ax du) history u r ↔ r = some t := by
    intro r
    obtain ⟨⟨r0, h0, h1⟩, -⟩ := solve_budget (cfg.machine none) o cfg.pb.bounds (cfg.start user mem errors ax du) history u
    constructor
    · intro hr; rw [h1 r hr, h1 _ ht]
    · rintro rfl; exact ht
  refine ⟨t, huq, ?_⟩
  cases ht with
  | run s r es hl =>
    obtain ⟨su, suo, sit, -, -⟩ := solveInit_spec es
    obtain ⟨q0, p0⟩ := evalAt_inv hinv (s := { mach := cfg.start user mem errors ax du, u := clampVec cfg.pb.bounds u, uo := clampVec cfg.pb.bounds u, iterations := 0, history := history.init, trace := [] })
        (start_reach cfg user mem errors ax du) es
    obtain ⟨c1, c2⟩ := hloop s _ hl t rfl q0 p0 (suo.trans su.symm) (by rw [sit, su, clampVec_of_inBounds (hB u)]; exact hu) (by rw [sit]; exact Nat.zero_le _)
    refine ⟨?_, c1, by rw [← c1]; exact c2⟩
    change decide (t.iterations ≤ o.maxiters) = false
    rw [c1]; simp

end generic

/-! ## C61: a curved constraint -/

/-- `min x0²/2 + 2 x1` subject to `h = x1 - x0²/2 = 0`: no bounds, no linear constraints. -/
def parabola (K : Type*) [Field K] : MProblem K 2 0 0 1 where
  Ax := fun i => i.elim0
  Ap := fun i => i.elim0
  b := fun i => i.elim0
  xlower := fun _ => none
  xupper := fun _ => none
  plower := fun _ => none
  pupper := fun _ => none

/-- The user functions of the problem, with their exact derivatives. -/
structure ParabolaReturns (x : Fin 2 → K) (ev : Evals K 2 0 1) : Prop where
  fx : ev.fx = ![x 0, 2]
  fxx : ev.fxx = !![1, 0; 0, 0]
  h : ev.h = fun _ => x 1 - x 0 ^ 2 / 2
  hx : ev.hx = fun _ => ![- x 0, 1]

/-- The origin is the only minimiser, with quadratic growth. -/
theorem parabola_minimum (x : Fin 2 → K) (h : x 1 - x 0 ^ 2 / 2 = 0) : x 0 ^ 2 / 2 + 2 * x 1 = (0 ^ 2 / 2 + 2 * 0) + 3 / 2 * x 0 ^ 2 := by
  linear_combination 2 * h

section parabola

variable {env : Env K} {ev : Evals K 2 0 1} {u un du : MVec K 2 0 (0 + 1)} {rf : RFState K 2 0 0 1 (parabola K).Ax}

theorem parabola_ju (h : RFSpec env (parabola K) ev u rf) : rf.M.ju = [] := by
  refine List.eq_nil_iff_forall_not_mem.2 fun i hi => ?_
  rcases (h.unstable i hi).2 with h1 | h1
  · cases h1.1
  · cases h1.1

/-- The first-order conditions hold at the origin with `w = -2`. -/
theorem parabola_kkt {ev : Evals K 2 0 1} (hev : ParabolaReturns (fun _ => 0) ev) : (parabola K).KktAt ev ⟨fun _ => 0, fun q => q.elim0, fun _ => -2⟩ := by
  refine ⟨fun i => Or.inl ?_, fun q => q.elim0, fun l => l.elim0, fun l => ?_⟩
  · unfold MProblem.mult
    rw [hev.fx, hev.hx]
    revert i
    rw [Fin.forall_fin_two]
    simp
  · rw [hev.h]; simp

theorem parabola_rows (h : RFSpec env (parabola K) ev u rf) (hev : ParabolaReturns u.x ev) (l : Fin (0 + 1)) : rf.M.Wx l = ![- u.x 0, 1] := by
  rw [h.Wx, show l = Fin.natAdd 0 (0 : Fin 1) from Subsingleton.elim (α := Fin 1) _ _]
  funext i
  unfold stack
  rw [Fin.addCases_right, hev.hx]

/-- The step: `x0` is doubled with the other sign. -/
theorem parabola_step (h : RFSpec env (parabola K) ev u rf) (hev : ParabolaReturns u.x ev) (hdu : SolvesMaster rf.M rf.res.master du) : u.x 0 + du.x 0 = -2 * u.x 0 ∧ u.w 0 + du.w 0 = -2 := by
  obtain ⟨ax0, hres⟩ := h.res
  obtain ⟨m1, m2, m3, m4, m5, m6⟩ := residual_master env.eps h.canon ax0 (rfArgs (parabola K) rf.M ev u)
  rw [← hres] at m1
  have hju := parabola_ju h
  have hnot : ∀ i, i ∉ rf.M.ju := by rw [hju]; simp
  have e0 := hdu.stable 0 (hnot 0)
  have e1 := hdu.stable 1 (hnot 1)
  rw [m1 _ (hnot _)] at e0 e1
  simp only [hnot, if_false] at e0 e1
  unfold lagGrad rfArgs at e0 e1
  dsimp only at e0 e1
  rw [h.Hxx, hev.fxx, hev.fx] at e0 e1
  simp only [parabola_rows h hev] at e0 e1
  simp at e0 e1
  have hw : u.w 0 + du.w 0 = -2 := by linear_combination e1
  refine ⟨?_, hw⟩
  linear_combination e0 + u.x 0 * hw

/-- The linearisation has only the zero solution, at every point. -/
theorem parabola_nonsingular (h : RFSpec env (parabola K) ev u rf) (hev : ParabolaReturns u.x ev) (d : MVec K 2 0 (0 + 1)) (hd : SolvesMaster rf.M ⟨0, 0, 0⟩ d) : d = ⟨0, 0, 0⟩ := by
  have hju := parabola_ju h
  have hnot : ∀ i, i ∉ rf.M.ju := by rw [hju]; simp
  have e0 := hd.stable 0 (hnot 0)
  have e1 := hd.stable 1 (hnot 1)
  have e2 := hd.constr 0
  simp only [hnot, if_false] at e0 e1 e2
  rw [h.Hxx, hev.fxx] at e0 e1
  simp only [parabola_rows h hev] at e0 e1 e2
  simp at e0 e1 e2
  have z0 : d.x 0 = 0 := by rw [e1] at e0; simpa using e0
  have z1 : d.x 1 = 0 := by rw [z0] at e2; simpa using e2
  ext i
  · revert i; rw [Fin.forall_fin_two]; exact ⟨z0, z1⟩
  · exact i.elim0
  · rw [show i = 0 from Subsingleton.elim (α := Fin 1) _ _]; exact e1

theorem parabola_indep (h : RFSpec env (parabola K) ev u rf) (hev : ParabolaReturns u.x ev) : ∀ y : Fin (0 + 1) → K, (∀ i, ∑ l, rf.M.Wx l i * y l = 0) → y = 0 := by
  intro y hy
  have := hy 1
  simp only [parabola_rows h hev] at this
  simp at this
  funext l
  rw [show l = 0 from Subsingleton.elim (α := Fin 1) _ _]; exact this

/-- The reported error is at least the residual of the stationarity condition. -/
theorem parabola_error (h : RFSpec env (parabola K) ev u rf) (hev : ParabolaReturns u.x ev) (ew0) : |u.x 0 - u.x 0 * u.w 0| ≤ (residualErrors rf.C.mat (parabola K).xlower (parabola K).xupper u.x rf.res ew0).error := by
  obtain ⟨ax0, hres⟩ := h.res
  obtain ⟨m1, m2, m3, m4, m5, m6⟩ := residual_master env.eps h.canon ax0 (rfArgs (parabola K) rf.M ev u)
  rw [← hres] at m1
  have hnot : ∀ i, i ∉ rf.M.ju := by rw [parabola_ju h]; simp
  have h0 : 0 ≤ (residualErrors rf.C.mat (parabola K).xlower (parabola K).xupper u.x rf.res ew0).error := le_trans (normInf_nonneg _) (le_max_right _ _)
  have hle := (error_le_iff h.canon (basics_le_rows h.canon h.b) (parabola K).xlower (parabola K).xupper u.x rf.res ew0 _ h0).1 le_rfl
  have := hle.1 0 (hnot 0) (by rintro ⟨-, hb⟩; rcases hb with hb | hb <;> cases hb)
  rw [m1 0 (hnot 0), abs_neg] at this
  refine le_trans (le_of_eq (congrArg abs ?_)) this
  unfold lagGrad rfArgs
  dsimp only
  rw [hev.fx]
  simp only [parabola_rows h hev]
  simp
  ring

end parabola

/-- **C61, negation**: close to a regular solution the iterations need not converge when `h` is not affine.  The problem `min x0²/2 + 2 x1` subject to `x1 = x0²/2` has the single minimiser `(0, 0)`, with independent constraint gradients and quadratic growth.
    From every start with `x0 ≠ 0` (however close; tolerance at most `6 |x0|`), with any multipliers, the solver doubles `x0` in each iteration and fails, whatever the number of iterations allowed: exact arithmetic, exact derivatives, full-space or null-space method. -/
theorem curved_constraint_diverges {cfg : Config K 2 0 0 1 τ} (hpb : cfg.pb = parabola K) (hthr : 0 ≤ cfg.env.thr) (heps : cfg.env.eps = 0) (hd : cfg.env.debug = false) (ho : ∀ M, (cfg.env.o M).lu.Z = 0) (hphi : cfg.phi = none)
    (hlu : LUInners cfg) (hm : cfg.method ≠ .rangespace) (huser : ∀ t x p q, ∃ t' ev, cfg.user t x p q = some (t', ev) ∧ ParabolaReturns x ev)
    (o : SolveOptions K) (user : τ) (mem errors ax du) (history : History K) (u : MVec K 2 0 (0 + 1)) (htol : o.tolerance ≤ 6 * |u.x 0|) :
    ∃ t, (∀ r, Solve (cfg.machine none) o cfg.pb.bounds (cfg.start user mem errors ax du) history u r ↔ r = some t) ∧
      (solveResult o t).succeeded = false ∧ (solveResult o t).iterations = o.maxiters + 1 ∧ t.u.x 0 = (-2) ^ (o.maxiters + 1) * u.x 0 := by
  obtain ⟨env, pb, method, inners, cuser, userJac, phi⟩ := cfg
  dsimp only at hpb
  subst hpb
  have hev : ∀ {s : Parts K 2 0 0 1 τ (parabola K).Ax} {u}, EvaluatedAt ⟨env, parabola K, method, inners, cuser, userJac, phi⟩ s u →
      ∃ ev rf ew0, s.rf = some rf ∧ RFSpec env (parabola K) ev u rf ∧ s.errors = residualErrors rf.C.mat (parabola K).xlower (parabola K).xupper u.x rf.res ew0 ∧ ParabolaReturns u.x ev := by
    rintro s u ⟨ev, rf, ew0, h1, h2, h3, t0, t1, q, h4⟩
    obtain ⟨t', ev', e, hr⟩ := huser t0 u.x u.p q
    rw [h4] at e; cases e
    exact ⟨ev, rf, ew0, h1, h2, h3, hr⟩
  obtain ⟨t, h1, h2, h3, h4, -⟩ := solve_never hthr heps hd (by norm_num) hphi (fun t x p q => let ⟨_, _, e, _⟩ := huser t x p q; ⟨_, e⟩) o (fun k v => v.x 0 = (-2) ^ k * u.x 0 ∧ (0 < k → v.w 0 = -2))
    (fun v => ⟨fun _ => ⟨fun l e => (by cases e), fun l e => (by cases e)⟩, fun i => i.elim0⟩)
    (by
      rintro k s v sm un hs ⟨hv, -⟩ hn
      obtain ⟨ev, rf, ew0, k1, k2, k3, k4⟩ := hev hs
      have hE := rf_echelon heps k2
      obtain ⟨hR, hC⟩ := full_row_rank hE (rf_full_rank ho k2 (parabola_indep k2 k4))
      obtain ⟨dn, hdn, hx, hp, hw⟩ := newton_solves heps k1 k2 hR (hC _) (luInners_ok hlu hm k2.canon hE hR (parabola_nonsingular k2 k4) _) (fun e => absurd e hm) hn
      obtain ⟨c1, c2⟩ := parabola_step k2 k4 hdn
      refine ⟨?_, fun _ => by rw [hw]; exact c2⟩
      rw [hx, c1, hv, pow_succ]; ring)
    (by
      rintro k s v hs ⟨hv, hv'⟩
      obtain ⟨ev, rf, ew0, k1, k2, k3, k4⟩ := hev hs
      have := parabola_error k2 k4 ew0
      rw [← k3, hv' (Nat.succ_pos k), hv] at this
      refine le_trans htol (le_trans ?_ this)
      have e : (-2) ^ (k + 1) * u.x 0 - (-2) ^ (k + 1) * u.x 0 * -2 = (-2 : K) ^ k * (-6 * u.x 0) := by rw [pow_succ]; ring
      rw [e, abs_mul, abs_mul, abs_pow, abs_neg, abs_neg, abs_of_pos (by norm_num : (0 : K) < 2), abs_of_pos (by norm_num : (0 : K) < 6)]
      exact le_mul_of_one_le_left (by positivity) (one_le_pow₀ (by norm_num)))
    user mem errors ax du history u ⟨by simp, fun h => absurd h (lt_irrefl 0)⟩
  exact ⟨t, h1, h2, h3, h4⟩

/-! ## C62: a strictly convex function -/

/-- No constraints, no bounds, one variable. -/
def freeLine : MProblem ℝ 1 0 0 0 where
  Ax := fun i => i.elim0
  Ap := fun i => i.elim0
  b := fun i => i.elim0
  xlower := fun _ => none
  xupper := fun _ => none
  plower := fun _ => none
  pupper := fun _ => none

/-- Gradient and Hessian of `√(1 + x²)`. -/
structure HyperbolaReturns (x : Fin 1 → ℝ) (ev : Evals ℝ 1 0 0) : Prop where
  f : ev.f = √(1 + x 0 ^ 2)
  fx : ev.fx = fun _ => x 0 / √(1 + x 0 ^ 2)
  fxx : ev.fxx = fun _ _ => 1 / √(1 + x 0 ^ 2) ^ 3

section hyperbola

variable {env : Env ℝ} {ev : Evals ℝ 1 0 0} {u un du : MVec ℝ 1 0 (0 + 0)} {rf : RFState ℝ 1 0 0 0 freeLine.Ax}

theorem freeLine_ju (h : RFSpec env freeLine ev u rf) : rf.M.ju = [] := by
  refine List.eq_nil_iff_forall_not_mem.2 fun i hi => ?_
  rcases (h.unstable i hi).2 with h1 | h1
  · cases h1.1
  · cases h1.1

theorem hyperbola_pos (x : ℝ) : 0 < √(1 + x ^ 2) := Real.sqrt_pos.2 (by positivity)

theorem hyperbola_step (h : RFSpec env freeLine ev u rf) (hev : HyperbolaReturns u.x ev) (hdu : SolvesMaster rf.M rf.res.master du) : u.x 0 + du.x 0 = - u.x 0 ^ 3 := by
  obtain ⟨ax0, hres⟩ := h.res
  obtain ⟨m1, m2, m3, m4, m5, m6⟩ := residual_master env.eps h.canon ax0 (rfArgs freeLine rf.M ev u)
  rw [← hres] at m1
  have hnot : ∀ i, i ∉ rf.M.ju := by rw [freeLine_ju h]; simp
  have e0 := hdu.stable 0 (hnot 0)
  rw [m1 _ (hnot _)] at e0
  simp only [hnot, if_false] at e0
  unfold lagGrad rfArgs at e0
  dsimp only at e0
  rw [h.Hxx, hev.fxx, hev.fx] at e0
  simp at e0
  have hp := hyperbola_pos (u.x 0)
  have hs : √(1 + u.x 0 ^ 2) ^ 2 = 1 + u.x 0 ^ 2 := Real.sq_sqrt (by positivity)
  field_simp at e0
  rw [hs] at e0
  linear_combination e0

theorem hyperbola_nonsingular (h : RFSpec env freeLine ev u rf) (hev : HyperbolaReturns u.x ev) (d : MVec ℝ 1 0 (0 + 0)) (hd : SolvesMaster rf.M ⟨0, 0, 0⟩ d) : d = ⟨0, 0, 0⟩ := by
  have hnot : ∀ i, i ∉ rf.M.ju := by rw [freeLine_ju h]; simp
  have e0 := hd.stable 0 (hnot 0)
  simp only [hnot, if_false] at e0
  rw [h.Hxx, hev.fxx] at e0
  have hp := hyperbola_pos (u.x 0)
  simp [hp.ne'] at e0
  ext i
  · rw [Subsingleton.elim i 0]; exact e0
  · exact i.elim0
  · exact (i : Fin 0).elim0

theorem hyperbola_error (h : RFSpec env freeLine ev u rf) (hev : HyperbolaReturns u.x ev) (ew0) : |u.x 0 / √(1 + u.x 0 ^ 2)| ≤ (residualErrors rf.C.mat freeLine.xlower freeLine.xupper u.x rf.res ew0).error := by
  obtain ⟨ax0, hres⟩ := h.res
  obtain ⟨m1, m2, m3, m4, m5, m6⟩ := residual_master env.eps h.canon ax0 (rfArgs freeLine rf.M ev u)
  rw [← hres] at m1
  have hnot : ∀ i, i ∉ rf.M.ju := by rw [freeLine_ju h]; simp
  have h0 : 0 ≤ (residualErrors rf.C.mat freeLine.xlower freeLine.xupper u.x rf.res ew0).error := le_trans (normInf_nonneg _) (le_max_right _ _)
  have hle := (error_le_iff h.canon (basics_le_rows h.canon h.b) freeLine.xlower freeLine.xupper u.x rf.res ew0 _ h0).1 le_rfl
  have := hle.1 0 (hnot 0) (by rintro ⟨-, hb⟩; rcases hb with hb | hb <;> cases hb)
  rw [m1 0 (hnot 0), abs_neg] at this
  refine le_trans (le_of_eq (congrArg abs ?_)) this
  unfold lagGrad rfArgs
  dsimp only
  rw [hev.fx]
  simp

end hyperbola

/-- `HyperbolaReturns` gives the derivatives of `√(1 + x²)`. -/
theorem hyperbola_deriv (x : ℝ) : HasDerivAt (fun x : ℝ => √(1 + x ^ 2)) (x / √(1 + x ^ 2)) x ∧ HasDerivAt (fun x : ℝ => x / √(1 + x ^ 2)) (1 / √(1 + x ^ 2) ^ 3) x := by
  have hp := hyperbola_pos x
  have h1 : HasDerivAt (fun x : ℝ => 1 + x ^ 2) (2 * x) x := by simpa using (hasDerivAt_pow 2 x).const_add 1
  have h2 : HasDerivAt (fun x : ℝ => √(1 + x ^ 2)) (x / √(1 + x ^ 2)) x := by
    have := h1.sqrt (by positivity)
    convert this using 1
    field_simp
  refine ⟨h2, ?_⟩
  have h3 : HasDerivAt (fun x : ℝ => x / √(1 + x ^ 2)) ((1 * √(1 + x ^ 2) - x * (x / √(1 + x ^ 2))) / √(1 + x ^ 2) ^ 2) x := HasDerivAt.div (hasDerivAt_id x) h2 hp.ne'
  have hs : √(1 + x ^ 2) ^ 2 = 1 + x ^ 2 := Real.sq_sqrt (by positivity)
  have e : (1 * √(1 + x ^ 2) - x * (x / √(1 + x ^ 2))) / √(1 + x ^ 2) ^ 2 = 1 / √(1 + x ^ 2) ^ 3 := by
    field_simp
    linear_combination hs
  rwa [e] at h3

/-- The function is strictly convex, and smallest at `0`. -/
theorem hyperbola_convex : StrictConvexOn ℝ Set.univ (fun x : ℝ => √(1 + x ^ 2)) ∧ ∀ x : ℝ, x ≠ 0 → √(1 + (0 : ℝ) ^ 2) < √(1 + x ^ 2) := by
  constructor
  · have e1 : deriv (fun x : ℝ => √(1 + x ^ 2)) = fun x : ℝ => x / √(1 + x ^ 2) := funext fun x => (hyperbola_deriv x).1.deriv
    refine strictConvexOn_univ_of_deriv2_pos (Continuous.sqrt (by fun_prop)) fun x => ?_
    rw [Function.iterate_succ, Function.iterate_one, Function.comp_apply, e1, (hyperbola_deriv x).2.deriv]
    have := hyperbola_pos x
    positivity
  · intro x hx
    apply Real.sqrt_lt_sqrt (by norm_num)
    have : 0 < x ^ 2 := by positivity
    linarith

/-- **C62, negation**: a smooth strictly convex problem is not solved from every start.  For the objective `√(1 + x²)` (strictly convex, minimiser `0`), no constraints, no bounds, every solve started at `|x| ≥ 1` fails, whatever the number of iterations
    allowed and any tolerance up to `1/2`: after `n` iterations `|x|` is `|x_start|^(3^n)`.  Exact arithmetic, exact derivatives, full-space or null-space method. -/
theorem convex_diverges {cfg : Config ℝ 1 0 0 0 τ} (hpb : cfg.pb = freeLine) (hthr : 0 ≤ cfg.env.thr) (heps : cfg.env.eps = 0) (hd : cfg.env.debug = false) (ho : ∀ M, (cfg.env.o M).lu.Z = 0) (hphi : cfg.phi = none)
    (hlu : LUInners cfg) (hm : cfg.method ≠ .rangespace) (huser : ∀ t x p q, ∃ t' ev, cfg.user t x p q = some (t', ev) ∧ HyperbolaReturns x ev)
    (o : SolveOptions ℝ) (htol : o.tolerance ≤ 1 / 2) (user : τ) (mem errors ax du) (history : History ℝ) (u : MVec ℝ 1 0 (0 + 0)) (hu : 1 ≤ |u.x 0|) :
    ∃ t, (∀ r, Solve (cfg.machine none) o cfg.pb.bounds (cfg.start user mem errors ax du) history u r ↔ r = some t) ∧
      (solveResult o t).succeeded = false ∧ (solveResult o t).iterations = o.maxiters + 1 ∧ |t.u.x 0| = |u.x 0| ^ 3 ^ (o.maxiters + 1) := by
  obtain ⟨env, pb, method, inners, cuser, userJac, phi⟩ := cfg
  dsimp only at hpb
  subst hpb
  have hev : ∀ {s : Parts ℝ 1 0 0 0 τ freeLine.Ax} {u}, EvaluatedAt ⟨env, freeLine, method, inners, cuser, userJac, phi⟩ s u →
      ∃ ev rf ew0, s.rf = some rf ∧ RFSpec env freeLine ev u rf ∧ s.errors = residualErrors rf.C.mat freeLine.xlower freeLine.xupper u.x rf.res ew0 ∧ HyperbolaReturns u.x ev := by
    rintro s u ⟨ev, rf, ew0, h1, h2, h3, t0, t1, q, h4⟩
    obtain ⟨t', ev', e, hr⟩ := huser t0 u.x u.p q
    rw [h4] at e; cases e
    exact ⟨ev, rf, ew0, h1, h2, h3, hr⟩
  exact solve_never hthr heps hd (by norm_num) hphi (fun t x p q => let ⟨_, _, e, _⟩ := huser t x p q; ⟨_, e⟩) o (fun k v => |v.x 0| = |u.x 0| ^ 3 ^ k)
    (fun v => ⟨fun _ => ⟨fun l e => (by cases e), fun l e => (by cases e)⟩, fun i => i.elim0⟩)
    (by
      intro k s v sm un hs hv hn
      obtain ⟨ev, rf, ew0, k1, k2, k3, k4⟩ := hev hs
      have hE := rf_echelon heps k2
      obtain ⟨hR, hC⟩ := full_row_rank hE (rf_full_rank ho k2 (fun y _ => funext fun l => (l : Fin 0).elim0))
      obtain ⟨dn, hdn, hx, hp, hw⟩ := newton_solves heps k1 k2 hR (hC _) (luInners_ok hlu hm k2.canon hE hR (hyperbola_nonsingular k2 k4) _) (fun e => absurd e hm) hn
      rw [hx, hyperbola_step k2 k4 hdn, abs_neg, abs_pow, hv, ← pow_mul, pow_succ])
    (by
      intro k s v hs hv
      obtain ⟨ev, rf, ew0, k1, k2, k3, k4⟩ := hev hs
      have := hyperbola_error k2 k4 ew0
      rw [← k3] at this
      refine le_trans htol (le_trans ?_ this)
      have h1 : 1 ≤ |v.x 0| := by rw [hv]; exact one_le_pow₀ hu
      have hp := hyperbola_pos (v.x 0)
      rw [abs_div, abs_of_pos hp, le_div_iff₀ hp]
      have h2 : √(1 + v.x 0 ^ 2) ≤ 2 * |v.x 0| := by
        rw [Real.sqrt_le_left (by positivity), mul_pow, sq_abs]
        have : 1 ≤ v.x 0 ^ 2 := by rw [← sq_abs]; exact one_le_pow₀ h1
        linarith
      linarith)
    user mem errors ax du history u (by simp)

/-! ### Non-vacuity -/

/-- Linear solvers made of LU decompositions, and an exact echelon form. -/
theorem exists_exact_config (pb : MProblem ℝ nx np ny nz) (f : (Fin nx → ℝ) → (Fin np → ℝ) → Evals ℝ nx np nz) :
    ∃ cfg : Config ℝ nx np ny nz Unit, cfg.pb = pb ∧ 0 ≤ cfg.env.thr ∧ cfg.env.eps = 0 ∧ cfg.env.debug = false ∧ (∀ M, (cfg.env.o M).lu.Z = 0) ∧ cfg.phi = none ∧ LUInners cfg ∧ cfg.method ≠ .rangespace ∧ ∀ t x p q, cfg.user t x p q = some (t, f x p) :=
  ⟨{ env := exactEnv, pb := pb, method := .nullspace, inners := exactInners, user := fun t x p _ => some (t, f x p), userJac := fun t x p _ => some (t, f x p), phi := none }, rfl, le_rfl, rfl, rfl, exactEnv_oracle, rfl,
    fun c => exactInners_lu c, (by intro h; cases h), fun _ _ _ _ => rfl⟩

/-- From the distance 1/1000 of the minimiser (with the right multiplier) to `x0 = -2 ^ 201 / 1000`. -/
example : ∃ (cfg : Config ℝ 2 0 0 1 Unit) (t : _), cfg.pb = parabola ℝ ∧ Solve (cfg.machine none) exactOptions cfg.pb.bounds (cfg.start () 0 ⟨0, 0, 0, 0, 0, 0, 0, 0⟩ 0 ⟨0, 0, 0⟩) (History.init default) ⟨![1/1000, 0], 0, fun _ => -2⟩ (some t) ∧
    (solveResult exactOptions t).succeeded = false ∧ t.u.x 0 = (-2) ^ 201 * (1/1000) := by
  obtain ⟨cfg, h1, h2, h3, h4, h5, h6, h7, h8, h9⟩ := exists_exact_config (parabola ℝ) fun x _ =>
    { f := x 0 ^ 2 / 2 + 2 * x 1, fx := ![x 0, 2], fxx := !![1, 0; 0, 0], fxp := 0, diagfxx := true, h := fun _ => x 1 - x 0 ^ 2 / 2, hx := fun _ => ![- x 0, 1], hp := 0, v := 0, vx := 0, vp := 0, succeeded := true }
  obtain ⟨t, a1, a2, -, a4⟩ := curved_constraint_diverges h1 h2 h3 h4 h5 h6 h7 h8 (fun t x p q => ⟨t, _, h9 t x p q, ⟨rfl, rfl, rfl, rfl⟩⟩) exactOptions () 0 ⟨0, 0, 0, 0, 0, 0, 0, 0⟩ 0 ⟨0, 0, 0⟩ (History.init default) ⟨![1/1000, 0], 0, fun _ => -2⟩
    (by norm_num [exactOptions, abs_of_pos])
  exact ⟨cfg, t, h1, (a1 _).2 rfl, a2, a4⟩

/-- From `x = 2` to `2 ^ 3 ^ 201`. -/
example : ∃ (cfg : Config ℝ 1 0 0 0 Unit) (t : _), cfg.pb = freeLine ∧ Solve (cfg.machine none) exactOptions cfg.pb.bounds (cfg.start () 0 ⟨0, 0, 0, 0, 0, 0, 0, 0⟩ 0 ⟨0, 0, 0⟩) (History.init default) ⟨fun _ => 2, 0, 0⟩ (some t) ∧
    (solveResult exactOptions t).succeeded = false ∧ |t.u.x 0| = 2 ^ 3 ^ (exactOptions.maxiters + 1) := by
  obtain ⟨cfg, h1, h2, h3, h4, h5, h6, h7, h8, h9⟩ := exists_exact_config freeLine fun x _ =>
    { f := √(1 + x 0 ^ 2), fx := fun _ => x 0 / √(1 + x 0 ^ 2), fxx := fun _ _ => 1 / √(1 + x 0 ^ 2) ^ 3, fxp := 0, diagfxx := true, h := 0, hx := 0, hp := 0, v := 0, vx := 0, vp := 0, succeeded := true }
  obtain ⟨t, a1, a2, -, a4⟩ := convex_diverges h1 h2 h3 h4 h5 h6 h7 h8 (fun t x p q => ⟨t, _, h9 t x p q, ⟨rfl, rfl, rfl⟩⟩) exactOptions (by norm_num [exactOptions]) () 0 ⟨0, 0, 0, 0, 0, 0, 0, 0⟩ 0 ⟨0, 0, 0⟩ (History.init default) ⟨fun _ => 2, 0, 0⟩
    (by norm_num)
  refine ⟨cfg, t, h1, (a1 _).2 rfl, a2, ?_⟩
  rw [a4]
  norm_num

end Optima
