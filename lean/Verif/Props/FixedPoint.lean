import Verif.Props.QuadraticSolve

/-!
# C54: solutions are fixed points

A point that satisfies the first-order conditions (with bounds), with independent gradients of the constraints and active bounds and a non-singular linearisation, is left unchanged by the solver: for non-linear problems too.
-/

set_option linter.unusedSectionVars false

namespace Optima

open Matrix

variable {K : Type*} [Field K] [LinearOrder K] [IsStrictOrderedRing K] {nx np ny nz : ℕ} {τ : Type*}

/-- The multipliers of the bounds. -/
def MProblem.mult (pb : MProblem K nx np ny nz) (ev : Evals K nx np nz) (u : MVec K nx np (ny + nz)) (i : Fin nx) : K :=
  ev.fx i + ∑ l, pb.Ax l i * u.w (Fin.castAdd nz l) + ∑ l, ev.hx l i * u.w (Fin.natAdd ny l)

/-- The variable is on a bound and its multiplier pushes it against the bound. -/
def MProblem.Held (pb : MProblem K nx np ny nz) (ev : Evals K nx np nz) (u : MVec K nx np (ny + nz)) (i : Fin nx) : Prop :=
  (pb.xlower i = some (u.x i) ∧ 0 < pb.mult ev u i) ∨ (pb.xupper i = some (u.x i) ∧ pb.mult ev u i < 0)

/-- The variable is not on a bound. -/
def MProblem.Interior (pb : MProblem K nx np ny nz) (u : MVec K nx np (ny + nz)) (i : Fin nx) : Prop := pb.xlower i ≠ some (u.x i) ∧ pb.xupper i ≠ some (u.x i)

/-- The gradients of the constraints and of the active bounds are linearly independent (LICQ): so are the rows of `[Ax; hx]` restricted to the variables that are not on a bound. -/
def MProblem.Licq (pb : MProblem K nx np ny nz) (ev : Evals K nx np nz) (u : MVec K nx np (ny + nz)) : Prop :=
  ∀ (y : Fin ny → K) (z : Fin nz → K), (∀ i, pb.Interior u i → ∑ l, pb.Ax l i * y l + ∑ l, ev.hx l i * z l = 0) → y = 0 ∧ z = 0

/-- The first-order conditions at `u`. -/
structure MProblem.KktAt (pb : MProblem K nx np ny nz) (ev : Evals K nx np nz) (u : MVec K nx np (ny + nz)) : Prop where
  grad : ∀ i, pb.mult ev u i = 0 ∨ pb.Held ev u i
  v : ∀ q, ev.v q = 0
  lin : ∀ l, ∑ j, pb.Ax l j * u.x j + ∑ q, pb.Ap l q * u.p q = pb.b l
  h : ∀ l, ev.h l = 0

/-- The direction `d` satisfies the linearised first-order conditions. -/
structure MProblem.LinAt (pb : MProblem K nx np ny nz) (ev : Evals K nx np nz) (u d : MVec K nx np (ny + nz)) : Prop where
  free : ∀ i, ¬ pb.Held ev u i → ∑ j, ev.fxx i j * d.x j + ∑ q, ev.fxp i q * d.p q + ∑ l, pb.Ax l i * d.w (Fin.castAdd nz l) + ∑ l, ev.hx l i * d.w (Fin.natAdd ny l) = 0
  held : ∀ i, pb.Held ev u i → d.x i = 0
  v : ∀ q, ∑ j, ev.vx q j * d.x j + ∑ r, ev.vp q r * d.p r = 0
  lin : ∀ l, ∑ j, pb.Ax l j * d.x j + ∑ q, pb.Ap l q * d.p q = 0
  h : ∀ l, ∑ j, ev.hx l j * d.x j + ∑ q, ev.hp l q * d.p q = 0

section spec

variable {env : Env K} {pb : MProblem K nx np ny nz} {ev : Evals K nx np nz} {u : MVec K nx np (ny + nz)} {rf : RFState K nx np ny nz pb.Ax}

theorem rf_mult (h : RFSpec env pb ev u rf) (i : Fin nx) : rf.status.s i = pb.mult ev u i := by
  rw [h.mult, h.Wx]
  dsimp only
  rw [Fin.sum_univ_add]
  simp only [stack, Fin.addCases_left, Fin.addCases_right, MProblem.mult]
  ring

/-- With threshold zero and independent gradients no basic variable is on a bound. -/
theorem basic_interior (hthr : env.thr = 0) (h : RFSpec env pb ev u rf) (hq : pb.Licq ev u) (b : Fin rf.M.RWQ.nb) : pb.Interior u (rf.M.RWQ.jb b) := by
  by_contra hb
  have hwb : weights pb u.x (rf.M.RWQ.jb b) = -1 := by
    unfold weights
    rw [if_neg]
    rintro ⟨h1, h2⟩
    exact hb ⟨fun e => h1 e.symm, fun e => h2 e.symm⟩
  have hrow : ∀ i, pb.Interior u i → ∑ l, rf.M.RWQ.Rb b l * rf.M.Wx l i = 0 := by
    intro i hi
    obtain ⟨k, rfl⟩ := h.perm.2 i
    rcases k with b' | k
    · have e := congrFun (congrFun h.b b) b'
      simp only [mul_apply, submatrix_apply, id, one_apply] at e
      simp only [Sum.elim_inl] at hi ⊢
      rw [e, if_neg]
      rintro rfl
      exact hb hi
    · have e := congrFun (congrFun h.n b) k
      simp only [mul_apply, submatrix_apply, id] at e
      simp only [Sum.elim_inr] at hi ⊢
      rw [e]
      by_contra hne
      have hle := h.opt hthr b k hne
      rw [hwb] at hle
      have : weights pb u.x (rf.M.RWQ.jn k) = |u.x (rf.M.RWQ.jn k)| := by
        unfold weights
        rw [if_pos]
        exact ⟨fun e => hi.1 e.symm, fun e => hi.2 e.symm⟩
      rw [this] at hle
      linarith [abs_nonneg (u.x (rf.M.RWQ.jn k))]
  obtain ⟨hy, hz⟩ := hq (fun l => rf.M.RWQ.Rb b (Fin.castAdd nz l)) (fun l => rf.M.RWQ.Rb b (Fin.natAdd ny l)) fun i hi => by
    have := hrow i hi
    rw [h.Wx, Fin.sum_univ_add] at this
    simp only [stack, Fin.addCases_left, Fin.addCases_right] at this
    rw [← this]
    congr 1 <;> exact Finset.sum_congr rfl fun l _ => mul_comm _ _
  have h0 : ∀ l, rf.M.RWQ.Rb b l = 0 := fun l => Fin.addCases (fun l => congrFun hy l) (fun l => congrFun hz l) l
  have e := congrFun (congrFun h.b b) b
  simp [mul_apply, one_apply, h0] at e

/-- The rows of `Wx` are independent. -/
theorem licq_rows (h : RFSpec env pb ev u rf) (hq : pb.Licq ev u) (y : Fin (ny + nz) → K) (hy : ∀ i, ∑ l, rf.M.Wx l i * y l = 0) : y = 0 := by
  obtain ⟨h1, h2⟩ := hq (fun l => y (Fin.castAdd nz l)) (fun l => y (Fin.natAdd ny l)) fun i _ => by
    have := hy i
    rw [h.Wx, Fin.sum_univ_add] at this
    simpa only [stack, Fin.addCases_left, Fin.addCases_right] using this
  exact funext fun l => Fin.addCases (fun l => congrFun h1 l) (fun l => congrFun h2 l) l

/-- **No meta-stable variables** under LICQ, if there is a constraint: in exact arithmetic the unstable variables are exactly those held on their bounds. -/
theorem unstable_iff_held (hthr : env.thr = 0) (ho : ∀ M, (env.o M).lu.Z = 0) (hc : 0 < ny + nz) (h : RFSpec env pb ev u rf) (hq : pb.Licq ev u) : rf.status.jms = [] ∧ ∀ i, i ∈ rf.M.ju ↔ pb.Held ev u i := by
  have hnb : 0 < rf.M.RWQ.nb := by rw [rf_full_rank ho h (licq_rows h hq)]; exact hc
  have hint := basic_interior hthr h hq
  have hheld : ∀ i, ((pb.xlower i = some (u.x i) ∧ 0 < rf.status.s i) ∨ (pb.xupper i = some (u.x i) ∧ rf.status.s i < 0)) ↔ pb.Held ev u i := fun i => by rw [rf_mult h]; rfl
  have hne : ∀ i, pb.Held ev u i → ∀ b, rf.M.RWQ.jb b ≠ i := by
    rintro i hi b rfl
    rcases hi with hi | hi
    · exact (hint b).1 hi.1
    · exact (hint b).2 hi.1
  constructor
  · refine List.eq_nil_iff_forall_not_mem.2 fun i hi => ?_
    obtain ⟨h1, h2⟩ := (h.jms i).1 hi
    obtain ⟨b, hb⟩ := h1 hnb
    exact hne i ((hheld i).1 h2) b hb
  · intro i
    exact ⟨fun hi => (hheld i).1 (h.unstable i hi).2, fun hi => h.unstable_all hnb i (hne i hi) ((hheld i).2 hi)⟩

/-- The linearisation in the solver is that of the problem. -/
theorem lin_of_master (h : RFSpec env pb ev u rf) (hju : ∀ i, i ∈ rf.M.ju ↔ pb.Held ev u i) {d : MVec K nx np (ny + nz)} (hd : SolvesMaster rf.M ⟨0, 0, 0⟩ d) : pb.LinAt ev u d := by
  have drop : ∀ f : Fin nx → K, ∑ j, (if j ∈ rf.M.ju then 0 else f j * d.x j) = ∑ j, f j * d.x j := fun f => Finset.sum_congr rfl fun j _ => by
    by_cases hj : j ∈ rf.M.ju
    · simp [hj, hd.unstable j hj]
    · simp [hj]
  have st := hd.stable
  have pa := hd.par
  have co := hd.constr
  simp only [drop] at st pa co
  refine ⟨fun i hi => ?_, fun i hi => hd.unstable i ((hju i).2 hi), fun q => ?_, fun l => ?_, fun l => ?_⟩
  · have := st i (by rwa [hju])
    rw [h.Hxx, h.Hxp, h.Wx, Fin.sum_univ_add] at this
    simp only [stack, Fin.addCases_left, Fin.addCases_right, Pi.zero_apply] at this
    linear_combination this
  · have := pa q
    rw [h.Vpx, h.Vpp] at this
    exact this
  · have := co (Fin.castAdd nz l)
    rw [h.Wx, h.Wp] at this
    simp only [stack, Fin.addCases_left] at this
    exact this
  · have := co (Fin.natAdd ny l)
    rw [h.Wx, h.Wp] at this
    simp only [stack, Fin.addCases_right] at this
    exact this

/-- At a solution the residuals vanish. -/
theorem kkt_residual (h : RFSpec env pb ev u rf) (hju : ∀ i, i ∈ rf.M.ju ↔ pb.Held ev u i) (hk : pb.KktAt ev u) : rf.res.master = ⟨0, 0, 0⟩ := by
  obtain ⟨ax0, hres⟩ := h.res
  obtain ⟨m1, m2, m3, m4, m5, m6⟩ := residual_master env.eps h.canon ax0 (rfArgs pb rf.M ev u)
  rw [← hres] at m1 m2 m3 m4 m5 m6
  have hgrad : ∀ i, i ∉ rf.M.ju → lagGrad (rfArgs pb rf.M ev u) i = 0 := by
    intro i hi
    have e : lagGrad (rfArgs pb rf.M ev u) i = pb.mult ev u i := by
      unfold lagGrad rfArgs MProblem.mult
      simp only [h.Wx, stack, Fin.addCases_left, Fin.addCases_right]
    rw [e]
    exact (hk.grad i).resolve_right fun hh => hi ((hju i).2 hh)
  ext i
  · by_cases hi : i ∈ rf.M.ju
    · exact m2 i hi
    · rw [m1 i hi, hgrad i hi, neg_zero]; rfl
  · rw [m3 i]
    change - ev.v i = 0
    rw [hk.v, neg_zero]
  · rw [m4]
    refine Fin.addCases (fun l => ?_) (fun l => ?_) i
    · simp only [feasRes, Fin.addCases_left]
      change pb.b l - ∑ j, rf.M.Wx (Fin.castAdd nz l) j * u.x j - ∑ q, rf.M.Wp (Fin.castAdd nz l) q * u.p q = 0
      rw [h.Wx, h.Wp]
      simp only [stack, Fin.addCases_left]
      rw [← hk.lin l]; ring
    · simp only [feasRes, Fin.addCases_right]
      change - ev.h l = 0
      rw [hk.h, neg_zero]

theorem kkt_error (heps : env.eps = 0) (h : RFSpec env pb ev u rf) (hz : rf.res.master = ⟨0, 0, 0⟩) (ew0) : (residualErrors rf.C.mat pb.xlower pb.xupper u.x rf.res ew0).error = 0 := by
  refine le_antisymm ?_ (le_trans (normInf_nonneg _) (le_max_right _ _))
  rw [error_le_iff h.canon (basics_le_rows h.canon h.b) _ _ _ _ _ _ le_rfl]
  refine ⟨fun i hi _ => ?_, fun q => ?_, fun b => ?_⟩
  · rw [hz]; simp
  · rw [hz]; simp
  · obtain ⟨ax0, hres⟩ := h.res
    obtain ⟨m1, m2, m3, m4, m5, m6⟩ := residual_master env.eps h.canon ax0 (rfArgs pb rf.M ev u)
    rw [← hres, hz] at m4
    rw [hres, heps, residual_canonical_exact h.canon (rf_echelon heps h) ax0 (rfArgs pb rf.M ev u) rfl rfl b]
    simp [← m4]

end spec

/-- **C54**: solutions are fixed points.  Let `u` satisfy the bounds and the first-order conditions, with linearly independent gradients of the constraints and active bounds and with a linearisation that has only the zero solution; the problem may be
    non-linear in every function.  In exact arithmetic (full-space or null-space method) the solver started at `u` returns `u` after one iteration with success and zero error: for all sizes with at least one constraint, all solver histories,
    all contents of uninitialised memory, user functions that are stateful or throw at every other point, any tolerance above zero and user check. -/
theorem solution_fixed {cfg : Config K nx np ny nz τ} (hthr : cfg.env.thr = 0) (heps : cfg.env.eps = 0) (hd : cfg.env.debug = false) (ho : ∀ M, (cfg.env.o M).lu.Z = 0) (hnx : 0 < nx) (hc : 0 < ny + nz) (hphi : cfg.phi = none)
    (hlu : LUInners cfg) (hm : cfg.method ≠ .rangespace) (u : MVec K nx np (ny + nz)) (hin : InBounds cfg.pb.bounds u)
    (huser : ∀ t q, ∃ t' ev, cfg.user t u.x u.p q = some (t', ev) ∧ cfg.pb.KktAt ev u ∧ cfg.pb.Licq ev u ∧ ∀ d, cfg.pb.LinAt ev u d → d = ⟨0, 0, 0⟩)
    (o : SolveOptions K) (hmax : 1 ≤ o.maxiters) (htol : 0 < o.tolerance) (user : τ) (mem errors ax du) (history : History K) (check) :
    ∃ t, (∀ r, Solve (cfg.machine check) o cfg.pb.bounds (cfg.start user mem errors ax du) history u r ↔ r = some t) ∧
      t.u = u ∧ t.mach.errors.error = 0 ∧ (solveResult o t).succeeded = true ∧ (solveResult o t).iterations = 1 := by
  have hB : ConsistentBounds cfg.pb.bounds := inBounds_consistent hin
  have hinv := machine_inv hthr.ge heps.ge hnx (cfg := cfg) check
  have hcl := clampVec_of_inBounds hin
  -- an evaluation at `u`
  have heval : ∀ s, Reach cfg s → ∃ s', (cfg.machine check).eval s u = some s' := by
    intro s hs
    obtain ⟨t', ev, e, -⟩ := huser s.user s.ech.rwq
    obtain ⟨rf, hrf, -⟩ := rfUpdate_release hthr.ge heps.ge hd cfg.pb hs hnx s.ax ev u
    have : ∃ s', cfg.updateF cfg.user s u = some s' := by
      unfold Config.updateF
      rw [e]
      dsimp only
      rw [hrf]
      exact ⟨_, rfl⟩
    obtain ⟨s', h'⟩ := this
    exact ⟨cfg.updateE s' u, by change (cfg.updateF cfg.user s u).map _ = _; rw [h']; rfl⟩
  have hat : ∀ s, EvaluatedAt cfg s u → ∃ rf ev, s.rf = some rf ∧ RFSpec cfg.env cfg.pb ev u rf ∧ rf.res.master = ⟨0, 0, 0⟩ ∧ s.errors.error = 0 ∧ rf.M.RWQ.nb = ny + nz ∧ ∀ d, SolvesMaster rf.M ⟨0, 0, 0⟩ d → d = ⟨0, 0, 0⟩ := by
    rintro s ⟨ev, rf, ew0, h1, h2, h3, t0, t1, q, h4⟩
    obtain ⟨t', ev', e, k1, k2, k3⟩ := huser t0 q
    rw [h4] at e; cases e
    obtain ⟨-, hju⟩ := unstable_iff_held hthr ho hc h2 k2
    have hz := kkt_residual h2 hju k1
    exact ⟨rf, ev, h1, h2, hz, by rw [h3]; exact kkt_error heps h2 hz ew0, rf_full_rank ho h2 (licq_rows h2 k2), fun d hd => k3 d (lin_of_master h2 hju hd)⟩
  -- a Newton step from `u`
  have hnew : ∀ s, EvaluatedAt cfg s u → ∃ s', cfg.newton s u = some (s', u) := by
    intro s hs
    obtain ⟨rf, ev, h1, h2, h3, -, hnb, hM⟩ := hat s hs
    have hE := rf_echelon heps h2
    obtain ⟨hR, hC⟩ := full_row_rank hE hnb
    have hn : ∃ r, cfg.newton s u = some r := by unfold Config.newton; rw [h1]; exact ⟨_, rfl⟩
    obtain ⟨⟨s', un⟩, hn⟩ := hn
    obtain ⟨dn, hdn, hx, hp, hw⟩ := newton_solves heps h1 h2 hR (hC _) (luInners_ok hlu hm h2.canon hE hR hM _) (fun e => absurd e hm) hn
    rw [h3] at hdn
    obtain rfl := hM dn hdn
    have : un = u := by
      ext i
      · rw [hx]; simp
      · rw [hp]; simp
      · rw [hw]; simp
    rw [this] at hn
    exact ⟨s', hn⟩
  obtain ⟨s0, he0⟩ := heval _ (start_reach cfg user mem errors ax du)
  obtain ⟨q0, p0⟩ := hinv.eval _ _ _ (start_reach cfg user mem errors ax du) he0
  obtain ⟨s1, hn1⟩ := hnew s0 p0
  have q1 : Reach cfg s1 := hinv.newton _ _ _ _ q0 hn1
  obtain ⟨s2, he2⟩ := heval s1 q1
  obtain ⟨q2, p2⟩ := hinv.eval _ _ _ q1 he2
  obtain ⟨-, -, -, -, -, herr, -⟩ := hat s2 p2
  let a0 : SolveState (Parts K nx np ny nz τ cfg.pb.Ax) K nx np (ny + nz) := { mach := s0, u := u, uo := u, iterations := 0, history := history.init, trace := [u] }
  have ha0 : solveInit (cfg.machine check) cfg.pb.bounds (cfg.start user mem errors ax du) history u = some a0 := by
    unfold solveInit evalAt
    simp only [hcl, he0, a0]
  let a1 : SolveState (Parts K nx np ny nz τ cfg.pb.Ax) K nx np (ny + nz) := { mach := s2, u := u, uo := u, iterations := 1, history := history.init, trace := [u, u] }
  have ha1 : step (cfg.machine check) o cfg.pb.bounds a0 = some a1 := by
    unfold step
    dsimp only
    rw [show (cfg.machine check).newton a0.mach a0.uo = some (s1, u) from hn1]
    dsimp only
    rw [transform_no_phi (by change Option.map _ cfg.phi = none; rw [hphi]; rfl)]
    dsimp only
    unfold errorControl
    dsimp only
    rw [show a0.uo = u from rfl, backtrack_accepts o.debug o.minmax hin hin]
    dsimp only
    unfold evalAt
    dsimp only
    rw [he2]
  obtain ⟨r2, hr2⟩ : ∃ r, stepping (cfg.machine check) o a1 = some r := by
    unfold stepping
    dsimp only
    rw [if_neg (not_lt.2 hmax)]
    have : (History.update a1.history ((cfg.machine check).error a1.mach)).converged o.tolerance = some true := by
      have : (cfg.machine check).error a1.mach < o.tolerance := by change s2.errors.error < _; rw [herr]; exact htol
      simp [History.converged, History.update, this]
    rw [this]
    exact ⟨_, rfl⟩
  obtain ⟨t, b⟩ := r2
  obtain ⟨b1, b2, -, b4, -, -, b7⟩ := stepping_spec hr2
  have hb : b = false := (b7 hmax).2.2 (Or.inl (by change s2.errors.error < _; rw [herr]; exact htol))
  subst hb
  have hsol : Solve (cfg.machine check) o cfg.pb.bounds (cfg.start user mem errors ax du) history u (some t) := .run a0 _ ha0 (.stop _ a1 _ ha1 hr2)
  refine ⟨t, fun r => ?_, b1, b4.trans herr, ?_, b2⟩
  · obtain ⟨⟨r0, -, h1⟩, -⟩ := solve_budget (cfg.machine check) o cfg.pb.bounds (cfg.start user mem errors ax du) history u
    constructor
    · intro hr; rw [h1 r hr, h1 _ hsol]
    · rintro rfl; exact hsol
  · change decide (t.iterations ≤ o.maxiters) = true
    rw [b2]; simpa using hmax

end Optima
