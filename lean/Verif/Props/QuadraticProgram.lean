import Verif.Props.Convex
import Verif.Props.LocalConvergence

/-!
# C66: is a strictly convex quadratic problem solved from every starting point?
-/

set_option linter.unusedSectionVars false

namespace Optima

open Matrix

variable {K : Type*} [Field K] [LinearOrder K] [IsStrictOrderedRing K] {τ : Type*}

/-! ## Problems with bounds only -/

section

variable {nx np nc : ℕ} {env : Env K} {method : Method} {inners : ∀ c : CanonPack K (nx + 0 + 0) np (0 + 0 + (0 + 0)), Inners K np c.nbe c.nbi c.nne c.nni} {part : Idx.PartitionImpl ℕ}
  {o : SolveOptions K} {P : UProblem τ K nx np 0 0 0 0 nc} {mem : Matrix (Fin (0 + 0)) (Fin (nx + 0 + 0)) K} {S S' : UState K nx np 0 0 0 0} {result : Result K}

/-- **C66 (bounds only)**: without constraints a success (of a solve without user check) means that every derivative of the objective is below the tolerance, also those of variables on their bounds: no variable is ever considered
    to be held by its bound. -/
theorem bounds_only_success {U : UserVals K nx np 0 0} (hU : Implements P U) (hthr : 0 ≤ env.thr) (heps : 0 ≤ env.eps) (hnx : 0 < nx) (hB : UConsistent P) (h : SolverReturns env method inners part o P mem S S' result none)
    (hsucc : result.succeeded = true) : (∀ i, Between (P.xlower i) (P.xupper i) (S'.x i)) ∧ (∀ i, Between (P.plower i) (P.pupper i) (S'.p i)) ∧ ∀ i, |U.fx S'.x S'.p i| < o.tolerance := by
  have hA : IsMasterAx P.Aex P.Agx (masterProblem P mem).Ax := (assembleAx_iff _ _ _).2 fun l => l.elim0
  obtain ⟨b1, b2, -⟩ := solver_success_partial hU hA hthr heps hnx hB h hsucc
  refine ⟨b1, b2, fun i => ?_⟩
  obtain ⟨-, ev, rf, ew0, h1, h2, h3, t0, t1, q, h4⟩ :=
    solve_inv (machine_inv (cfg := solverConfig env method inners P mem) hthr heps (by omega) none) o _ (start_reach _ (h.t0, h.res) h.memW h.errors h.ax h.du) h.history _ _ h.solved
  have herr : h.final.mach.errors.error < o.tolerance := by
    rcases success_converged _ o _ _ h.history _ _ h.solved ((congrArg Result.succeeded h.result_eq).symm.trans hsucc) with h | ⟨t1, -, -, f, -, hf, -⟩
    · exact h
    · cases hf
  obtain ⟨k1, -⟩ := rfUpdate_small_error h2 ew0 h.final.mach.errors.error (by rw [h3])
  have z : ∀ f : Fin (0 + 0) → K, ∑ l, f l = 0 := fun f => Finset.sum_of_isEmpty (ι := Fin 0) _
  have hnb : rf.M.RWQ.nb = 0 := by
    by_contra hn
    have e := congrFun (congrFun h2.b ⟨0, Nat.pos_of_ne_zero hn⟩) ⟨0, Nat.pos_of_ne_zero hn⟩
    rw [mul_apply, one_apply_eq, z] at e
    exact zero_ne_one e
  have hju : ∀ j, j ∉ rf.M.ju := by rw [h2.unstable_none hnb]; simp
  have hpk := solver_blocks h
  have hX : (fun i => h.final.u.x (ixX 0 0 i)) = S'.x := funext fun i => by rw [← hpk]; simp [packState]
  have hp : h.final.u.p = S'.p := by rw [← hpk]; rfl
  have hmv := master_vals hU (⟨_, _, _, _, _, h4⟩ : EvaluatesTo P h.final.u.x h.final.u.p ev)
  have e := k1 (ixX 0 0 i) (hju _) (by rintro ⟨⟨b, -⟩, -⟩; rw [hnb] at b; exact b.elim0)
  rw [z, z, add_zero, add_zero, hmv.fx, hX, hp] at e
  exact e.trans_lt herr

/-- **C66 (bounds only)**: without constraints, a problem at whose points within the bounds some derivative of the objective is not below the tolerance is never reported as solved; every solution at which a multiplier of a bound is
    not below the tolerance is such a point. -/
theorem bounds_only_never {U : UserVals K nx np 0 0} (hU : Implements P U) (hthr : 0 ≤ env.thr) (heps : 0 ≤ env.eps) (hnx : 0 < nx) (hB : UConsistent P)
    (hg : ∀ x p, (∀ i, Between (P.xlower i) (P.xupper i) (x i)) → (∀ i, Between (P.plower i) (P.pupper i) (p i)) → ∃ i, o.tolerance ≤ |U.fx x p i|) (h : SolverReturns env method inners part o P mem S S' result none) :
    result.succeeded = false := by
  by_contra hs
  obtain ⟨h1, h2, h3⟩ := bounds_only_success hU hthr heps hnx hB h (by simpa using hs)
  obtain ⟨i, hi⟩ := hg _ _ h1 h2
  exact absurd (h3 i) (not_lt.2 hi)

end

/-- `min (x + 1)²/2` subject to `x ≥ 0`. -/
def exHalfLine : UProblem Unit ℚ 1 0 0 0 0 0 0 where
  r := ResFn.default
  f := ⟨some fun t res x _ _ _ => some (t, { res with f := (x 0 + 1) ^ 2 / 2, fx := fun _ => x 0 + 1, fxx := 1, succeeded := true })⟩
  he := ConFn.default
  hg := ConFn.default
  v := ConFn.default
  Aex := fun i => i.elim0
  Aep := fun i => i.elim0
  Agx := fun i => i.elim0
  Agp := fun i => i.elim0
  be := fun i => i.elim0
  bg := fun i => i.elim0
  xlower := fun _ => some 0
  xupper := fun _ => none
  plower := fun i => i.elim0
  pupper := fun i => i.elim0
  c := fun i => i.elim0
  bec := fun i => i.elim0
  bgc := fun i => i.elim0

/-- The functions of `exHalfLine`. -/
def exHalfLineVals : UserVals ℚ 1 0 0 0 where
  f := fun x _ => (x 0 + 1) ^ 2 / 2
  fx := fun x _ _ => x 0 + 1
  he := fun _ _ i => i.elim0
  hex := fun _ _ i => i.elim0
  hg := fun _ _ i => i.elim0
  hgx := fun _ _ i => i.elim0
  v := fun _ _ i => i.elim0

theorem exHalfLine_implements : Implements exHalfLine exHalfLineVals where
  f := by
    refine ⟨_, rfl, fun t x p o t' q _ h => ?_⟩
    simp only [Option.some.injEq, Prod.mk.injEq] at h
    obtain ⟨-, rfl⟩ := h
    exact ⟨rfl, fun _ => rfl⟩
  he := ⟨_, rfl, fun t x p o t' q _ _ => ⟨fun i => i.elim0, fun i => i.elim0⟩⟩
  hg := ⟨_, rfl, fun t x p o t' q _ _ => ⟨fun i => i.elim0, fun i => i.elim0⟩⟩
  v := ⟨_, rfl, fun t x p o t' q _ _ i => i.elim0⟩

/-- **C66 is false (bounds only)**: for `min (x + 1)²/2` subject to `x ≥ 0`, solved by `x = 0`, every solve with a tolerance of at most 1 fails: whatever the starting point, the options, the linear solver, the history of the solver and the
    accuracy of the arithmetic.  In release builds every solve returns (with `succeeded = false`). -/
theorem half_line_never {env : Env ℚ} (hthr : 0 ≤ env.thr) (heps : 0 ≤ env.eps) (method inners part) (o : SolveOptions ℚ) (ho : o.tolerance ≤ 1) (mem) (S : UState ℚ 1 0 0 0 0 0) :
    (∀ S' result, SolverReturns env method inners part o exHalfLine mem S S' result none → result.succeeded = false) ∧
    (env.debug = false → ∀ t0 res memW errors ax du history, ∃ S' result, ∃ h : SolverReturns env method inners part o exHalfLine mem S S' result none,
      h.t0 = t0 ∧ h.res = res ∧ h.memW = memW ∧ h.errors = errors ∧ h.ax = ax ∧ h.du = du ∧ h.history = history) := by
  have hB : UConsistent exHalfLine := ⟨fun i l r _ e => (by cases e), fun i => i.elim0⟩
  refine ⟨fun S' result h => ?_, fun hd => ?_⟩
  · refine bounds_only_never exHalfLine_implements hthr heps one_pos hB (fun x p hx _ => ⟨0, ?_⟩) h
    have := (hx 0).1 0 rfl
    change _ ≤ |x 0 + 1|
    rw [abs_of_nonneg (by linarith)]
    linarith
  · exact solver_returns ⟨fun _ _ _ _ _ => ⟨_, rfl⟩, fun _ _ _ _ _ => ⟨_, rfl⟩, fun _ _ _ _ _ => ⟨_, rfl⟩, fun _ _ _ _ _ => ⟨_, rfl⟩, fun _ _ _ _ _ => ⟨_, rfl⟩⟩ hthr heps hd one_pos hB part o S method inners

/-! ## Constraints and bounds -/

section generic

variable {nx np ny nz : ℕ} {cfg : Config K nx np ny nz τ}

/-- The check between the iterations does not change the state of the solver. -/
theorem stepping_mach {o : SolveOptions K} {s s' : SolveState (Parts K nx np ny nz τ cfg.pb.Ax) K nx np (ny + nz)} {b} (h : stepping (cfg.machine none) o s = some (s', b)) (hc : (cfg.machine none).check = none) : s'.mach = s.mach := by
  unfold stepping at h
  dsimp only at h
  split_ifs at h
  · cases h; rfl
  split at h
  · simp only [Option.some.injEq, Prod.mk.injEq] at h
    rw [← h.1]
  · rw [hc] at h
    cases h; rfl

/-- If a property of the state of the solver and of the iterates is kept by the iterations and excludes small errors, the solve uses up its iterations and fails. -/
theorem solve_never_state (hthr : 0 ≤ cfg.env.thr) (heps : 0 ≤ cfg.env.eps) (hd : cfg.env.debug = false) (hnx : 0 < nx) (hphi : cfg.phi = none) (huser : ∀ t x p q, ∃ r, cfg.user t x p q = some r)
    (o : SolveOptions K) (P : ℕ → Parts K nx np ny nz τ cfg.pb.Ax → MVec K nx np (ny + nz) → Prop) (hB : ConsistentBounds cfg.pb.bounds)
    (hstep : ∀ k s0 s u sm un v s', Reach cfg s0 → (cfg.machine none).eval s0 u = some s → P k s u → InBounds cfg.pb.bounds u → cfg.newton s u = some (sm, un) → backtrack o.debug o.minmax cfg.pb.bounds u un = some v →
      (cfg.machine none).eval sm v = some s' → P (k + 1) s' v)
    (herr : ∀ k s0 s u, Reach cfg s0 → (cfg.machine none).eval s0 u = some s → P (k + 1) s u → o.tolerance ≤ s.errors.error)
    (user : τ) (mem errors ax du) (history : History K) (u : MVec K nx np (ny + nz)) (hu : ∀ s, (cfg.machine none).eval (cfg.start user mem errors ax du) (clampVec cfg.pb.bounds u) = some s → P 0 s (clampVec cfg.pb.bounds u)) :
    ∃ t, (∀ r, Solve (cfg.machine none) o cfg.pb.bounds (cfg.start user mem errors ax du) history u r ↔ r = some t) ∧
      (solveResult o t).succeeded = false ∧ (solveResult o t).iterations = o.maxiters + 1 ∧ P (o.maxiters + 1) t.mach t.u := by
  have hinv := machine_inv hthr heps hnx (cfg := cfg) none
  have hstep1 : ∀ k s0 s s1, Reach cfg s0 → (cfg.machine none).eval s0 s.u = some s.mach → s.uo = s.u → InBounds cfg.pb.bounds s.u → P k s.mach s.u → step (cfg.machine none) o cfg.pb.bounds s = some s1 →
      InBounds cfg.pb.bounds s1.u ∧ P (k + 1) s1.mach s1.u ∧ s1.iterations = s.iterations + 1 ∧ ∃ s2, Reach cfg s2 ∧ (cfg.machine none).eval s2 s1.u = some s1.mach := by
    intro k s0 s s1 h1 h2 h3 h3' h4 h5
    unfold step at h5
    dsimp only at h5
    split at h5
    · cases h5
    · rename_i tm un hn
      change cfg.newton s.mach s.uo = some (tm, un) at hn
      rw [h3] at hn
      rw [transform_no_phi (by change Option.map _ cfg.phi = none; rw [hphi]; rfl)] at h5
      dsimp only at h5
      unfold errorControl at h5
      dsimp only at h5
      rcases hv : backtrack o.debug o.minmax cfg.pb.bounds s.uo un with _ | v
      · rw [hv] at h5
        cases h5
      · rw [hv] at h5
        dsimp only at h5
        rw [h3] at hv
        obtain ⟨e1, e2, e3, e4, e5, e6⟩ := evalAt_u h5
        refine ⟨?_, ?_, e3, tm, hinv.newton _ _ _ _ (hinv.eval _ _ _ h1 h2).1 hn, by rw [e1]; exact e6⟩
        · rw [e1]
          cases hmm : o.minmax with
          | true =>
            rw [hmm] at hv
            obtain ⟨v', b1, b2, -⟩ := backtrack_minmax o.debug h3' un
            rw [b1] at hv
            cases hv
            exact b2
          | false =>
            rw [hmm] at hv
            obtain ⟨v', β, b1, -, b2, -⟩ := backtrack_spec o.debug h3' un
            rw [b1] at hv
            cases hv
            exact b2
        · rw [e1]
          exact hstep k s0 s.mach s.u tm un v _ h1 h2 h4 h3' hn hv e6
  have hloop : ∀ s r, Loop (cfg.machine none) o cfg.pb.bounds s r → ∀ t, r = some t → ∀ s0, Reach cfg s0 → (cfg.machine none).eval s0 s.u = some s.mach → s.uo = s.u → InBounds cfg.pb.bounds s.u → P s.iterations s.mach s.u →
      s.iterations ≤ o.maxiters → t.iterations = o.maxiters + 1 ∧ P t.iterations t.mach t.u := by
    intro s r h
    induction h with
    | stepFails s h => intro t e; cases e
    | checkFails s s1 h h' => intro t e; cases e
    | stop s s1 s2 h h' =>
      rintro t ⟨⟩ s0 h1 h2 h3 h3' h4 h5
      obtain ⟨-, a3, a4, sa, a1, a2⟩ := hstep1 _ s0 s s1 h1 h2 h3 h3' h4 h
      obtain ⟨b1, b2, -, b4, -, b6, b7⟩ := stepping_spec h'
      have hmach : s2.mach = s1.mach := stepping_mach h' rfl
      rw [b2, b1, a4, hmach]
      refine ⟨?_, a3⟩
      by_contra hn
      have hle : s1.iterations ≤ o.maxiters := by omega
      rcases (b7 hle).2.1 rfl with c | ⟨-, f, t, hc, -⟩
      · exact absurd c (not_lt.2 (herr _ _ _ _ a1 a2 a3))
      · cases hc
    | again s s1 s2 r h h' _ ih =>
      intro t e s0 h1 h2 h3 h3' h4 h5
      obtain ⟨a0, a3, a4, sa, a1, a2⟩ := hstep1 _ s0 s s1 h1 h2 h3 h3' h4 h
      obtain ⟨b1, b2, -, b4, -, b6, b7⟩ := stepping_spec h'
      have hle : s1.iterations ≤ o.maxiters := by
        by_contra hn
        have := (b6 (not_le.1 hn)).1
        cases this
      have hmach : s2.mach = s1.mach := stepping_mach h' rfl
      exact ih t e sa a1 (by rw [hmach, b1]; exact a2) ((b7 hle).1.trans b1.symm) (by rw [b1]; exact a0) (by rw [b1, b2, a4, hmach]; exact a3) (by rw [b2]; exact hle)
  obtain ⟨t, ht⟩ := solve_returns hthr heps hd hnx none (noPhi hphi) huser (fun f hf => by cases hf) o hB user mem errors ax du history u
  have huq : ∀ r, Solve (cfg.machine none) o cfg.pb.bounds (cfg.start user mem errors ax du) history u r ↔ r = some t := by
    intro r
    obtain ⟨⟨r0, h0, h1⟩, -⟩ := solve_budget (cfg.machine none) o cfg.pb.bounds (cfg.start user mem errors ax du) history u
    constructor
    · intro hr; rw [h1 r hr, h1 _ ht]
    · rintro rfl; exact ht
  refine ⟨t, huq, ?_⟩
  cases ht with
  | run s r es hl =>
    obtain ⟨su, suo, sit, -, -⟩ := solveInit_spec es
    obtain ⟨e1, e2, e3, e4, e5, e6⟩ := evalAt_u (s := { mach := cfg.start user mem errors ax du, u := clampVec cfg.pb.bounds u, uo := clampVec cfg.pb.bounds u, iterations := 0, history := history.init, trace := [] }) es
    dsimp only at e6
    obtain ⟨c1, c2⟩ := hloop s _ hl t rfl _ (start_reach cfg user mem errors ax du) (by rw [su]; exact e6) (suo.trans su.symm) (by rw [su]; exact clampVec_inBounds hB u) (by rw [sit, su]; exact hu _ e6) (by rw [sit]; exact Nat.zero_le _)
    refine ⟨?_, c1, by rw [← c1]; exact c2⟩
    change decide (t.iterations ≤ o.maxiters) = false
    rw [c1]; simp

end generic

/-! ## A start on the right bounds -/

section active

variable {nx np ny nz : ℕ} {pb : MProblem K nx np ny nz} {A : Affine K nx np nz} {ev : Evals K nx np nz} {u : MVec K nx np (ny + nz)}

theorem Affine.mult_eq (h : A.Returns u.x u.p ev) (i) : pb.mult ev u i = pb.mult (A.evals u.x u.p) u i := by
  unfold MProblem.mult
  rw [h.fx, h.hx]
  rfl

theorem Affine.held_iff (h : A.Returns u.x u.p ev) (i) : pb.Held ev u i ↔ pb.Held (A.evals u.x u.p) u i := by
  unfold MProblem.Held
  rw [Affine.mult_eq h]

theorem Affine.licq_of (h : A.Returns u.x u.p ev) (hq : pb.Licq (A.evals u.x u.p) u) : pb.Licq ev u := by
  intro y z hy
  refine hq y z fun i hi => ?_
  have := hy i hi
  rw [h.hx] at this
  exact this

theorem Affine.kktAt_of (h : A.Returns u.x u.p ev) (hk : pb.KktAt (A.evals u.x u.p) u) : pb.KktAt ev u where
  grad := fun i => by rw [Affine.mult_eq h, Affine.held_iff h]; exact hk.grad i
  v := fun q => by rw [h.v]; exact hk.v q
  lin := hk.lin
  h := fun l => by rw [h.h]; exact hk.h l

theorem Affine.linAt_of (h : A.Returns u.x u.p ev) {d} (hd : pb.LinAt ev u d) : pb.LinAt (A.evals u.x u.p) u d where
  free := fun i hi => by
    have := hd.free i (by rwa [Affine.held_iff h])
    rwa [h.fxx, h.fxp, h.hx] at this
  held := fun i hi => hd.held i ((Affine.held_iff h i).2 hi)
  v := fun q => by
    have := hd.v q
    rwa [h.vx, h.vp] at this
  lin := hd.lin
  h := fun l => by
    have := hd.h l
    rwa [h.hx, h.hp] at this

/-- An exact Newton step from a point on the right bounds leads to the solution. -/
theorem affine_newton_active {env : Env K} {us uo un du : MVec K nx np (ny + nz)} {rf : RFState K nx np ny nz pb.Ax} (h : RFSpec env pb ev uo rf) (hev : A.Returns uo.x uo.p ev)
    (hju : ∀ i, i ∈ rf.M.ju ↔ pb.Held ev uo i) (hk : pb.KktAt (A.evals us.x us.p) us) (hact : ∀ i, pb.Held (A.evals uo.x uo.p) uo i → uo.x i = us.x i)
    (hact2 : ∀ i, pb.Held (A.evals us.x us.p) us i → pb.Held (A.evals uo.x uo.p) uo i) (hlin : ∀ d, pb.LinAt (A.evals uo.x uo.p) uo d → d = ⟨0, 0, 0⟩)
    (hdu : SolvesMaster rf.M rf.res.master du) (hx : ∀ i, un.x i = uo.x i + du.x i) (hp : ∀ q, un.p q = uo.p q + du.p q) (hw : ∀ l, un.w l = uo.w l + du.w l) : un = us := by
  obtain ⟨ax0, hres⟩ := h.res
  obtain ⟨m1, m2, m3, m4, m5, m6⟩ := residual_master env.eps h.canon ax0 (rfArgs pb rf.M ev uo)
  rw [← hres] at m1 m2 m3 m4 m5 m6
  have hz : ∀ i, i ∈ rf.M.ju → du.x i = 0 := fun i hi => by rw [hdu.unstable i hi, m2 i hi]
  have drop : ∀ f : Fin nx → K, ∑ j, (if j ∈ rf.M.ju then 0 else f j * du.x j) = ∑ j, f j * du.x j := fun f => Finset.sum_congr rfl fun j _ => by
    by_cases hj : j ∈ rf.M.ju
    · simp [hj, hz j hj]
    · simp [hj]
  have st := hdu.stable
  have pa := hdu.par
  have co := hdu.constr
  simp only [drop] at st pa co
  have hd0 := hlin ⟨fun i => un.x i - us.x i, fun q => un.p q - us.p q, fun l => un.w l - us.w l⟩ (Affine.linAt_of hev ⟨fun i hi => ?_, fun i hi => ?_, fun q => ?_, fun l => ?_, fun l => ?_⟩)
  · ext i
    · have := congrArg (fun m => m.x i) hd0
      exact sub_eq_zero.1 this
    · have := congrArg (fun m => m.p i) hd0
      exact sub_eq_zero.1 this
    · have := congrArg (fun m => m.w i) hd0
      exact sub_eq_zero.1 this
  · have hi' : i ∉ rf.M.ju := by rwa [hju]
    have e := st i hi'
    rw [m1 i hi'] at e
    unfold lagGrad rfArgs at e
    dsimp only at e
    rw [h.Hxx, h.Hxp, hev.fxx, hev.fxp, hev.fx, h.Wx, hev.hx] at e
    rw [Fin.sum_univ_add] at e
    simp only [stack, Fin.addCases_left, Fin.addCases_right, Pi.add_apply, mulVec, dotProduct] at e
    have g := (hk.grad i).resolve_right fun hh => hi ((Affine.held_iff hev i).2 (hact2 i hh))
    simp only [MProblem.mult, Affine.evals, Pi.add_apply, mulVec, dotProduct] at g
    rw [hev.fxx, hev.fxp, hev.hx]
    simp only [hx, hp, hw, mul_add, mul_sub, Finset.sum_add_distrib, Finset.sum_sub_distrib]
    linear_combination e - g
  · dsimp only
    rw [hx, hz i ((hju i).2 hi), add_zero, hact i ((Affine.held_iff hev i).1 hi), sub_self]
  · have e := pa q
    rw [m3 q] at e
    change _ = - ev.v q at e
    rw [h.Vpx, h.Vpp, hev.vx, hev.vp, hev.v] at e
    have g := hk.v q
    simp only [Affine.evals, Pi.add_apply, mulVec, dotProduct] at e g
    rw [hev.vx, hev.vp]
    simp only [hx, hp, mul_add, mul_sub, Finset.sum_add_distrib, Finset.sum_sub_distrib]
    linear_combination e - g
  · have e := co (Fin.castAdd nz l)
    rw [m4] at e
    simp only [feasRes, Fin.addCases_left] at e
    change _ = pb.b l - ∑ j, rf.M.Wx (Fin.castAdd nz l) j * uo.x j - ∑ q, rf.M.Wp (Fin.castAdd nz l) q * uo.p q at e
    rw [h.Wx, h.Wp] at e
    simp only [stack, Fin.addCases_left] at e
    have g := hk.lin l
    simp only [hx, hp, mul_add, mul_sub, Finset.sum_add_distrib, Finset.sum_sub_distrib]
    linear_combination e - g
  · have e := co (Fin.natAdd ny l)
    rw [m4] at e
    simp only [feasRes, Fin.addCases_right] at e
    change _ = - ev.h l at e
    rw [h.Wx, h.Wp, hev.h, hev.hx, hev.hp] at e
    have g := hk.h l
    simp only [stack, Fin.addCases_right, Affine.evals, Pi.add_apply, mulVec, dotProduct] at e g
    rw [hev.hx, hev.hp]
    simp only [hx, hp, mul_add, mul_sub, Finset.sum_add_distrib, Finset.sum_sub_distrib]
    linear_combination e - g

/-- **C66, positive part**: a problem with quadratic objective and affine constraints (at least one) and a solution `us` of its first-order conditions with independent gradients of the active constraints.  If the projection of the starting point on the bounds has
    independent gradients as well, sits on every bound that is held at the solution, is held on these bounds by its multipliers and on no bounds that are not those of the solution, and the linearisation is non-singular, then in exact arithmetic the full-space and null-space methods return `us`
    after one iteration, with success and zero error: for all sizes, histories, uninitialised memory and stateful user functions.  Missing: all other starting points, from which the solver may fail (`half_line_never`, `nearest_point_never`). -/
theorem active_solve_partial {cfg : Config K nx np ny nz τ} (hthr : cfg.env.thr = 0) (heps : cfg.env.eps = 0) (hd : cfg.env.debug = false) (ho : ∀ M, (cfg.env.o M).lu.Z = 0) (hnx : 0 < nx) (hc : 0 < ny + nz) (hphi : cfg.phi = none)
    (hlu : LUInners cfg) (hm : cfg.method ≠ .rangespace) (A : Affine K nx np nz) (huser : ∀ t x p q, ∃ t' ev, cfg.user t x p q = some (t', ev) ∧ A.Returns x p ev)
    (us : MVec K nx np (ny + nz)) (hk : cfg.pb.KktAt (A.evals us.x us.p) us) (hq : cfg.pb.Licq (A.evals us.x us.p) us) (hin : InBounds cfg.pb.bounds us)
    (o : SolveOptions K) (hmax : 1 ≤ o.maxiters) (htol : 0 < o.tolerance) (user : τ) (mem errors ax du) (history : History K) (u u0 : MVec K nx np (ny + nz)) (hu0 : clampVec cfg.pb.bounds u = u0)
    (hq0 : cfg.pb.Licq (A.evals u0.x u0.p) u0) (hact : ∀ i, cfg.pb.Held (A.evals u0.x u0.p) u0 i → u0.x i = us.x i) (hact2 : ∀ i, cfg.pb.Held (A.evals us.x us.p) us i → cfg.pb.Held (A.evals u0.x u0.p) u0 i)
    (hlin : ∀ d, cfg.pb.LinAt (A.evals u0.x u0.p) u0 d → d = ⟨0, 0, 0⟩) :
    ∃ t, (∀ r, Solve (cfg.machine none) o cfg.pb.bounds (cfg.start user mem errors ax du) history u r ↔ r = some t) ∧
      t.u = us ∧ t.mach.errors.error = 0 ∧ (solveResult o t).succeeded = true ∧ (solveResult o t).iterations = 1 := by
  have hB : ConsistentBounds cfg.pb.bounds := inBounds_consistent hin
  have hinv := machine_inv hthr.ge heps.ge hnx (cfg := cfg) none
  obtain ⟨t, ht⟩ := solve_returns hthr.ge heps.ge hd hnx none (noPhi hphi) (fun t x p q => let ⟨t', ev, e, _⟩ := huser t x p q; ⟨_, e⟩) (fun f hf => by cases hf) o hB user mem errors ax du history u
  have huq : ∀ r, Solve (cfg.machine none) o cfg.pb.bounds (cfg.start user mem errors ax du) history u r ↔ r = some t := by
    intro r
    obtain ⟨⟨r0, h0, h1⟩, -⟩ := solve_budget (cfg.machine none) o cfg.pb.bounds (cfg.start user mem errors ax du) history u
    constructor
    · intro hr; rw [h1 r hr, h1 _ ht]
    · rintro rfl; exact ht
  refine ⟨t, huq, ?_⟩
  cases ht with
  | run s r es hl =>
    obtain ⟨su, suo, sit, -, -⟩ := solveInit_spec es
    obtain ⟨hq1, ev, rf, ew0, hrf, hspec, herr, t0, t1, q, hu⟩ :=
      evalAt_inv hinv (s := { mach := cfg.start user mem errors ax du, u := clampVec cfg.pb.bounds u, uo := clampVec cfg.pb.bounds u, iterations := 0, history := history.init, trace := [] })
        (start_reach cfg user mem errors ax du) es
    rw [hu0] at su suo
    rw [su] at hspec hu
    have hev : A.Returns u0.x u0.p ev := by
      obtain ⟨t', ev', e, hr⟩ := huser t0 u0.x u0.p q
      rw [hu] at e; cases e; exact hr
    have hq0' := Affine.licq_of hev hq0
    obtain ⟨-, hju⟩ := unstable_iff_held hthr ho hc hspec hq0'
    have hE := rf_echelon heps hspec
    obtain ⟨hR, hC⟩ := full_row_rank hE (rf_full_rank ho hspec (licq_rows hspec hq0'))
    have hM : ∀ d, SolvesMaster rf.M ⟨0, 0, 0⟩ d → d = ⟨0, 0, 0⟩ := fun d hd => hlin d (Affine.linAt_of hev (lin_of_master hspec hju hd))
    have hstep : ∀ s1, step (cfg.machine none) o cfg.pb.bounds s = some s1 → s1.u = us ∧ s1.mach.errors.error = 0 ∧ s1.iterations = 1 := by
      intro s1 h1
      unfold step at h1
      dsimp only at h1
      split at h1
      · cases h1
      · rename_i tm un hn
        change cfg.newton s.mach s.uo = some (tm, un) at hn
        rw [suo] at hn
        obtain ⟨dn, hdn, hx, hp, hw⟩ := newton_solves heps hrf hspec hR (hC _) (luInners_ok hlu hm hspec.canon hE hR hM _) (fun e => absurd e hm) hn
        obtain rfl := affine_newton_active hspec hev hju hk hact hact2 hlin hdn hx hp hw
        rw [transform_no_phi (by change Option.map _ cfg.phi = none; rw [hphi]; rfl)] at h1
        dsimp only at h1
        unfold errorControl at h1
        dsimp only at h1
        rw [backtrack_accepts o.debug o.minmax (by rw [suo, ← hu0]; exact clampVec_inBounds hB u) hin] at h1
        dsimp only at h1
        have hr1 : Reach cfg tm := hinv.newton _ _ _ _ hq1 (hn : (cfg.machine none).newton _ _ = _)
        obtain ⟨e1, e2, e3, e4, e5, e6⟩ := evalAt_u h1
        obtain ⟨-, ev', rf', ew0', hrf', hspec', herr', t0', t1', q', hu'⟩ := evalAt_inv hinv (by exact hr1) h1
        rw [e1] at hspec' hu' herr'
        have hev' : A.Returns un.x un.p ev' := by
          obtain ⟨t', ev'', e, hr⟩ := huser t0' un.x un.p q'
          rw [hu'] at e; cases e; exact hr
        refine ⟨e1, ?_, ?_⟩
        · rw [herr']
          obtain ⟨-, hju'⟩ := unstable_iff_held hthr ho hc hspec' (Affine.licq_of hev' hq)
          exact kkt_error heps hspec' (kkt_residual hspec' hju' (Affine.kktAt_of hev' hk)) ew0'
        · rw [e3]; change s.iterations + 1 = 1; rw [sit]
    cases hl with
    | stop _ s1 _ h1 h2 =>
      obtain ⟨a1, a2, a3⟩ := hstep s1 h1
      obtain ⟨b1, b2, -, b4, -⟩ := stepping_spec h2
      refine ⟨b1.trans a1, b4.trans a2, ?_, ?_⟩
      · change decide (t.iterations ≤ o.maxiters) = true
        rw [b2, a3]; simpa using hmax
      · change t.iterations = 1; rw [b2, a3]
    | again _ s1 s2 _ h1 h2 h3 =>
      obtain ⟨a1, a2, a3⟩ := hstep s1 h1
      obtain ⟨-, -, -, -, -, -, b7⟩ := stepping_spec h2
      have := (b7 (by rw [a3]; exact hmax)).2.2 (Or.inl (by change s1.mach.errors.error < _; rw [a2]; exact htol))
      cases this

end active

/-- The problem in the form seen by the master solver: `min |x - (-10, 2, 8)|²/2` subject to `x0 - x1 - x2 = 1`, `x ≥ 0`. -/
structure IsNearest (cfg : Config ℚ 3 0 1 0 τ) : Prop where
  Ax : ∀ l, cfg.pb.Ax l = ![1, -1, -1]
  b : ∀ l, cfg.pb.b l = 1
  xlower : ∀ i, cfg.pb.xlower i = some 0
  xupper : ∀ i, cfg.pb.xupper i = none
  user : ∀ t x p q, ∃ t' ev, cfg.user t x p q = some (t', ev) ∧ ev.fx = ![x 0 + 10, x 1 - 2, x 2 - 8] ∧ ev.fxx = 1

section

variable {cfg : Config ℚ 3 0 1 0 τ} {ev ev' : Evals ℚ 3 0 0} {u un v : MVec ℚ 3 0 (1 + 0)} {rf rf' : RFState ℚ 3 0 1 0 cfg.pb.Ax}

theorem IsNearest.Wx (h : IsNearest cfg) (hs : RFSpec cfg.env cfg.pb ev u rf) (l) : rf.M.Wx l = ![1, -1, -1] := by
  rw [hs.Wx]
  funext j
  have : l = Fin.castAdd 0 0 := Subsingleton.elim (α := Fin 1) _ _
  rw [this]
  simp only [stack, Fin.addCases_left, h.Ax]

theorem IsNearest.nb (h : IsNearest cfg) (ho : ∀ M, (cfg.env.o M).lu.Z = 0) (hs : RFSpec cfg.env cfg.pb ev u rf) : rf.M.RWQ.nb = 1 + 0 := by
  refine rf_full_rank ho hs fun y hy => ?_
  have e := hy 0
  rw [Fin.sum_univ_add] at e
  simp [h.Wx hs] at e
  funext l
  have : l = 0 := Subsingleton.elim (α := Fin 1) _ _
  rw [this]
  exact e

/-- Only `i` is basic. -/
def OnlyBasic (rf : RFState ℚ 3 0 1 0 cfg.pb.Ax) (i : Fin 3) : Prop := ∀ j, (∃ b, rf.M.RWQ.jb b = j) ↔ j = i

theorem IsNearest.onlyBasic (h : IsNearest cfg) (ho : ∀ M, (cfg.env.o M).lu.Z = 0) (hs : RFSpec cfg.env cfg.pb ev u rf) {i} (hi : ∃ b, rf.M.RWQ.jb b = i) : OnlyBasic rf i := by
  intro j
  constructor
  · rintro ⟨b, rfl⟩
    obtain ⟨c, rfl⟩ := hi
    have hnb := h.nb ho hs
    have : b = c := Fin.ext (by have := b.2; have := c.2; omega)
    rw [this]
  · rintro rfl; exact hi

/-- The variable with the largest weight is basic. -/
theorem IsNearest.heaviest (h : IsNearest cfg) (ho : ∀ M, (cfg.env.o M).lu.Z = 0) (hthr : 0 ≤ cfg.env.thr) (hthr2 : cfg.env.thr < 1) {e : Ech.WState ℚ 3 0 1 0 cfg.pb.Ax} {ax0}
    (hr : Ech.WReach cfg.env.debug cfg.env.o cfg.env.sort cfg.env.thr cfg.env.eps cfg.pb.Ax cfg.pb.Ap e) (hrf : rfUpdate cfg.env cfg.pb e ax0 ev u = .ok rf) (hs : RFSpec cfg.env cfg.pb ev u rf)
    {i} (hi : ∀ j, j ≠ i → weights cfg.pb u.x j < weights cfg.pb u.x i) : OnlyBasic rf i := by
  refine h.onlyBasic ho hs ?_
  obtain ⟨k, hk⟩ := hs.perm.2 i
  rcases k with c | k
  · exact ⟨c, hk⟩
  have hk : rf.M.RWQ.jn k = i := hk
  exfalso
  have hnb := h.nb ho hs
  obtain ⟨w1, w2⟩ := rfUpdate_wUpdate hrf
  have hW := h.Wx hs
  let b : Fin rf.M.RWQ.nb := ⟨0, by omega⟩
  have e1 := congrFun (congrFun hs.b b) b
  have e2 := congrFun (congrFun hs.n b) k
  have hne : ∀ j, (![1, -1, -1] : Fin 3 → ℚ) j ≠ 0 := by decide +kernel
  simp only [mul_apply, submatrix_apply, id, one_apply_eq, hW] at e1 e2
  rw [← Finset.sum_mul] at e1 e2
  have hS : rf.M.RWQ.Sbn b k ≠ 0 := by
    rw [← e2]
    refine mul_ne_zero (fun e0 => ?_) (hne _)
    rw [e0, zero_mul] at e1
    exact zero_ne_one e1
  have hw := Ech.wUpdate_opt_clean hthr rfl hr w1 (Ech.clean_row (thr := cfg.env.thr) (A := cfg.pb.Ax) ?_) w2 b k hS
  · rw [hk] at hw
    by_cases hb : rf.M.RWQ.jb b = i
    · have := hs.perm.1 (a₁ := Sum.inl b) (a₂ := Sum.inr k) (by simp [hb, hk])
      cases this
    · exact absurd (hi _ hb) (not_lt.2 hw)
  · intro i j hij
    exfalso
    revert hij
    rw [h.Ax]
    fin_cases i <;> fin_cases j <;> simp <;> linarith

theorem IsNearest.feasRes (h : IsNearest cfg) (hs : RFSpec cfg.env cfg.pb ev u rf) (l) : feasRes (rfArgs cfg.pb rf.M ev u) l = 1 - (u.x 0 - u.x 1 - u.x 2) := by
  have : l = Fin.castAdd 0 0 := Subsingleton.elim (α := Fin 1) _ _
  rw [this]
  simp only [Optima.feasRes, rfArgs, Fin.addCases_left, h.b, h.Wx hs, Fin.sum_univ_three]
  simp
  ring

theorem IsNearest.lagGrad (h : IsNearest cfg) (hs : RFSpec cfg.env cfg.pb ev u rf) (hfx : ev.fx = ![u.x 0 + 10, u.x 1 - 2, u.x 2 - 8]) (i) :
    lagGrad (rfArgs cfg.pb rf.M ev u) i = ![u.x 0 + 10 + u.w 0, u.x 1 - 2 - u.w 0, u.x 2 - 8 - u.w 0] i := by
  simp only [Optima.lagGrad, rfArgs, hfx, h.Wx hs]
  simp only [Finset.univ_unique, Finset.sum_singleton, Finset.univ_eq_empty, Finset.sum_empty]
  fin_cases i <;> simp <;> first | rfl | exact (sub_eq_add_neg _ _).symm | exact sub_eq_add_neg _ _

/-- The equations of the Newton step. -/
theorem IsNearest.newton (h : IsNearest cfg) (heps : cfg.env.eps = 0) (ho : ∀ M, (cfg.env.o M).lu.Z = 0) (hlu : LUInners cfg) (hm : cfg.method ≠ .rangespace) {s s' : Parts ℚ 3 0 1 0 τ cfg.pb.Ax}
    (hrf : s.rf = some rf) (hs : RFSpec cfg.env cfg.pb ev u rf) (hfx : ev.fx = ![u.x 0 + 10, u.x 1 - 2, u.x 2 - 8]) (hfxx : ev.fxx = 1) (h2 : 2 ∉ rf.M.ju) (hn : cfg.newton s u = some (s', un)) :
    (∀ i, i ∈ rf.M.ju → un.x i = u.x i) ∧ (∀ i, i ∉ rf.M.ju → ![un.x 0 + 10 + un.w 0, un.x 1 - 2 - un.w 0, un.x 2 - 8 - un.w 0] i = 0) ∧ un.x 0 - un.x 1 - un.x 2 = 1 := by
  have hW := h.Wx hs
  have hE := rf_echelon heps hs
  obtain ⟨hR, hC⟩ := full_row_rank hE (h.nb ho hs)
  have drop : ∀ (d : MVec ℚ 3 0 (1 + 0)), (∀ i, i ∈ rf.M.ju → d.x i = 0) → ∀ f : Fin 3 → ℚ, ∑ j, (if j ∈ rf.M.ju then 0 else f j * d.x j) = ∑ j, f j * d.x j := fun d hz f => Finset.sum_congr rfl fun j _ => by
    by_cases hj : j ∈ rf.M.ju
    · simp [hj, hz j hj]
    · simp [hj]
  have key : ∀ a (d : MVec ℚ 3 0 (1 + 0)), (∀ i, i ∈ rf.M.ju → a.x i = 0) → SolvesMaster rf.M a d →
      (∀ i, i ∈ rf.M.ju → d.x i = 0) ∧ (∀ i, i ∉ rf.M.ju → ![d.x 0 + d.w 0, d.x 1 - d.w 0, d.x 2 - d.w 0] i = a.x i) ∧ d.x 0 - d.x 1 - d.x 2 = a.w 0 := by
    intro a d ha hd
    have hz : ∀ i, i ∈ rf.M.ju → d.x i = 0 := fun i hi => by rw [hd.unstable i hi, ha i hi]
    have st := hd.stable
    have co := hd.constr 0
    simp only [drop d hz, hs.Hxx, hfxx, hW] at st co
    refine ⟨hz, fun i hi => ?_, ?_⟩
    · have e := st i hi
      rw [← e]
      simp only [Fin.sum_univ_three, one_apply]
      fin_cases i <;> simp <;> first | rfl | exact (sub_eq_add_neg _ _).symm | exact sub_eq_add_neg _ _
    · rw [← co]
      simp [Fin.sum_univ_three]
      ring
  have hM : ∀ d, SolvesMaster rf.M ⟨0, 0, 0⟩ d → d = ⟨0, 0, 0⟩ := by
    intro d hd
    obtain ⟨k1, k2, k3⟩ := key _ _ (fun _ _ => rfl) hd
    have e2 := k2 2 h2
    have e0 : d.x 0 = 0 ∨ d.x 0 + d.w 0 = 0 := by
      by_cases hj : 0 ∈ rf.M.ju
      · exact Or.inl (k1 0 hj)
      · exact Or.inr (k2 0 hj)
    have e1 : d.x 1 = 0 ∨ d.x 1 - d.w 0 = 0 := by
      by_cases hj : 1 ∈ rf.M.ju
      · exact Or.inl (k1 1 hj)
      · exact Or.inr (k2 1 hj)
    have e2 : d.x 2 - d.w 0 = 0 := e2
    have k3 : d.x 0 - d.x 1 - d.x 2 = 0 := k3
    have hw : d.w 0 = 0 := by rcases e0 with e0 | e0 <;> rcases e1 with e1 | e1 <;> linarith
    have z0 : d.x 0 = 0 := by rcases e0 with e0 | e0 <;> linarith
    have z1 : d.x 1 = 0 := by rcases e1 with e1 | e1 <;> linarith
    have z2 : d.x 2 = 0 := by linarith
    ext i
    · fin_cases i
      · exact z0
      · exact z1
      · exact z2
    · exact i.elim0
    · have : i = 0 := Subsingleton.elim (α := Fin 1) _ _
      rw [this]
      exact hw
  obtain ⟨ax0, hres⟩ := hs.res
  obtain ⟨m1, m2, m3, m4, m5, m6⟩ := residual_master cfg.env.eps hs.canon ax0 (rfArgs cfg.pb rf.M ev u)
  rw [← hres] at m1 m2 m4
  obtain ⟨du, hdu, d1, -, d3⟩ := newton_solves heps hrf hs hR (hC _) (luInners_ok hlu hm hs.canon hE hR hM _) (fun e => absurd e hm) hn
  obtain ⟨k1, k2, k3⟩ := key _ _ m2 hdu
  refine ⟨fun i hi => by rw [d1, k1 i hi, add_zero], fun i hi => ?_, ?_⟩
  · have e := k2 i hi
    rw [m1 i hi, h.lagGrad hs hfx] at e
    simp only [d1, d3]
    fin_cases i
    · change du.x 0 + du.w 0 = -(u.x 0 + 10 + u.w 0) at e
      change u.x 0 + du.x 0 + 10 + (u.w 0 + du.w 0) = 0
      linarith
    · change du.x 1 - du.w 0 = -(u.x 1 - 2 - u.w 0) at e
      change u.x 1 + du.x 1 - 2 - (u.w 0 + du.w 0) = 0
      linarith
    · change du.x 2 - du.w 0 = -(u.x 2 - 8 - u.w 0) at e
      change u.x 2 + du.x 2 - 8 - (u.w 0 + du.w 0) = 0
      linarith
  · rw [m4, h.feasRes hs] at k3
    rw [d1, d1, d1]
    linarith

/-- The step control. -/
theorem IsNearest.cut (h : IsNearest cfg) {debug minmax : Bool} (hin : InBounds cfg.pb.bounds u) (hv : backtrack debug minmax cfg.pb.bounds u un = some v) :
    ∃ β, 0 < β ∧ β ≤ 1 ∧ v.w 0 = u.w 0 + β * (un.w 0 - u.w 0) ∧ (∀ i, v.x i = max 0 (u.x i + β * (un.x i - u.x i))) ∧ (β = 1 ∨ ∃ i, un.x i < 0 ∧ u.x i + β * (un.x i - u.x i) = 0) ∧
      ((∀ i, 0 < u.x i → 0 ≤ u.x i + β * (un.x i - u.x i)) ∨ β = 1) := by
  have hl : ∀ i, cfg.pb.bounds.xlower i = some 0 := h.xlower
  have hu : ∀ i, cfg.pb.bounds.xupper i = none := h.xupper
  have hb : ∀ β a b : ℚ, blend β a b = a + β * (b - a) := fun β a b => by unfold blend; ring
  have hc : ∀ a : ℚ, clamp (some 0) none a = max 0 a := fun a => by simp [clamp, max_comm]
  cases minmax with
  | true =>
    obtain ⟨v', e1, -, e3, e4, -⟩ := backtrack_minmax debug hin un
    rw [e1] at hv
    cases hv
    refine ⟨1, one_pos, le_rfl, by rw [e3]; ring, fun i => ?_, Or.inl rfl, Or.inr rfl⟩
    rw [e4, hl, hu, hc]
    congr 1
    ring
  | false =>
    obtain ⟨v', β, e1, hf, -, e3, e4, -⟩ := backtrack_spec debug hin un
    rw [e1] at hv
    cases hv
    refine ⟨β, hf.pos, hf.le_one, by rw [e3, hb], fun i => by rw [e4, hl, hu, hc, hb], ?_, Or.inl fun i hi => ?_⟩
    · rcases hf.tight with e | ⟨i, l, e, -⟩ | ⟨i, l, e, hlt, ht⟩ | ⟨i, -⟩ | ⟨i, -⟩
      · exact Or.inl e
      · rw [hu] at e; cases e
      · rw [hl] at e
        cases e
        rw [hb] at ht
        exact Or.inr ⟨i, hlt, ht⟩
      · exact i.elim0
      · exact i.elim0
    · have := hf.x_lower i 0 (hl i) (Or.inl hi)
      rwa [hb] at this

/-- The points met: the starting point, possibly a second one, and then `(0, 0, 1)` and `(0, 0, 0)` with some multiplier. -/
def NearestPath (rf : RFState ℚ 3 0 1 0 cfg.pb.Ax) (u : MVec ℚ 3 0 (1 + 0)) : Prop :=
  (u.x = ![4, 2, 1] ∧ u.w 0 = 0 ∧ OnlyBasic rf 0) ∨ (u.x = ![2, 0, 1] ∧ u.w 0 = -2 ∧ OnlyBasic rf 0) ∨
  (u.x = ![0, 0, 1] ∧ -10 < u.w 0 ∧ u.w 0 < -2 ∧ OnlyBasic rf 2) ∨ (u.x = ![0, 0, 0] ∧ -10 < u.w 0 ∧ u.w 0 < -2 ∧ OnlyBasic rf 2)

theorem IsNearest.error (h : IsNearest cfg) (heps : cfg.env.eps = 0) (ho : ∀ M, (cfg.env.o M).lu.Z = 0) (hs : RFSpec cfg.env cfg.pb ev u rf) (hfx : ev.fx = ![u.x 0 + 10, u.x 1 - 2, u.x 2 - 8]) (hp : NearestPath rf u) (ew0) :
    1 ≤ (residualErrors rf.C.mat cfg.pb.xlower cfg.pb.xupper u.x rf.res ew0).error := by
  have hE := rf_echelon heps hs
  obtain ⟨ax0, hres⟩ := hs.res
  obtain ⟨m1, m2, m3, m4, m5, m6⟩ := residual_master cfg.env.eps hs.canon ax0 (rfArgs cfg.pb rf.M ev u)
  rw [← hres] at m1
  have h0 : 0 ≤ (residualErrors rf.C.mat cfg.pb.xlower cfg.pb.xupper u.x rf.res ew0).error := le_trans (normInf_nonneg _) (le_max_right _ _)
  obtain ⟨k1, -, k3⟩ := (error_le_iff hs.canon (basics_le_rows hs.canon hs.b) cfg.pb.xlower cfg.pb.xupper u.x rf.res ew0 _ h0).1 le_rfl
  generalize (residualErrors rf.C.mat cfg.pb.xlower cfg.pb.xupper u.x rf.res ew0).error = E at k1 k3 ⊢
  have grad : u.x 0 ≠ 0 → 1 ≤ |u.x 0 + 10 + u.w 0| → 1 ≤ E := by
    intro e1 e2
    have hju : (0 : Fin 3) ∉ rf.M.ju := by
      intro hi
      rcases (hs.unstable 0 hi).2 with ⟨a, -⟩ | ⟨a, -⟩
      · rw [h.xlower] at a; exact e1 (Option.some.inj a).symm
      · rw [h.xupper] at a; cases a
    have e := k1 0 hju (by
      rintro ⟨-, a | a⟩
      · rw [h.xlower] at a; exact e1 (Option.some.inj a).symm
      · rw [h.xupper] at a; cases a)
    rw [m1 0 hju, h.lagGrad hs hfx, abs_neg] at e
    exact e2.trans e
  have feas : 1 ≤ |1 - (u.x 0 - u.x 1 - u.x 2)| → OnlyBasic rf 2 → 1 ≤ E := by
    intro e1 hb
    obtain ⟨c, hc⟩ := (hb 2).2 rfl
    obtain ⟨σ, -, hσ, -, hjb, -, -, -, hR⟩ := hs.canon.ech
    obtain ⟨b, rfl⟩ := hσ.2 c
    have e := k3 b
    rw [hres, heps, residual_canonical_exact hs.canon hE ax0 (rfArgs cfg.pb rf.M ev u) rfl rfl b] at e
    simp only [h.feasRes hs] at e
    have e2 := congrFun (congrFun hs.b (σ b)) (σ b)
    simp only [mul_apply, submatrix_apply, id, one_apply_eq, h.Wx hs, hc] at e2
    rw [← Finset.sum_mul] at e2 e
    refine e1.trans (le_trans (le_of_eq ?_) e)
    have e3 : ∑ l, rf.C.mat.Rbs b l = -1 := by
      simp only [hR]
      have : (∑ l, rf.M.RWQ.Rb (σ b) l) * (-1) = 1 := e2
      linarith
    rw [e3]
    rw [abs_mul]
    norm_num
  rcases hp with ⟨a1, a2, -⟩ | ⟨a1, a2, -⟩ | ⟨a1, -, -, a4⟩ | ⟨a1, -, -, a4⟩
  · refine grad ?_ ?_ <;> rw [a1] <;> norm_num [a2]
  · refine grad ?_ ?_ <;> rw [a1] <;> norm_num [a2]
  · refine feas ?_ a4
    rw [a1]
    change (1 : ℚ) ≤ |1 - (0 - 0 - 1)|
    decide +kernel
  · refine feas ?_ a4
    rw [a1]
    change (1 : ℚ) ≤ |1 - (0 - 0 - 0)|
    decide +kernel

/-- On the path the first two variables are held by their bounds once both are on them, and no other variable ever is. -/
theorem IsNearest.held (h : IsNearest cfg) (ho : ∀ M, (cfg.env.o M).lu.Z = 0) (hs : RFSpec cfg.env cfg.pb ev u rf) (hfx : ev.fx = ![u.x 0 + 10, u.x 1 - 2, u.x 2 - 8]) (hp : NearestPath rf u) :
    2 ∉ rf.M.ju ∧ (((u.x = ![4, 2, 1] ∧ u.w 0 = 0) ∨ (u.x = ![2, 0, 1] ∧ u.w 0 = -2)) ∧ 0 ∉ rf.M.ju ∧ 1 ∉ rf.M.ju ∨
      (u.x = ![0, 0, 1] ∨ u.x = ![0, 0, 0]) ∧ -10 < u.w 0 ∧ u.w 0 < -2 ∧ OnlyBasic rf 2 ∧ 0 ∈ rf.M.ju ∧ 1 ∈ rf.M.ju) := by
  have hnb : 0 < rf.M.RWQ.nb := by rw [h.nb ho hs]; omega
  have hmult : ∀ i, rf.status.s i = ![u.x 0 + 10 + u.w 0, u.x 1 - 2 - u.w 0, u.x 2 - 8 - u.w 0] i := by
    intro i
    rw [hs.mult, hfx]
    simp only [h.Wx hs, Finset.univ_unique, Finset.sum_singleton]
    fin_cases i <;> simp <;> first | rfl | exact (sub_eq_add_neg _ _).symm | exact sub_eq_add_neg _ _
  have hin : ∀ i, i ∈ rf.M.ju → u.x i = 0 ∧ 0 < rf.status.s i := by
    intro i hi
    rcases (hs.unstable i hi).2 with ⟨a, b⟩ | ⟨a, -⟩
    · rw [h.xlower] at a; exact ⟨(Option.some.inj a).symm, b⟩
    · rw [h.xupper] at a; cases a
  have hbig : (u.x = ![0, 0, 1] ∨ u.x = ![0, 0, 0]) → -10 < u.w 0 → u.w 0 < -2 → OnlyBasic rf 2 → 0 ∈ rf.M.ju ∧ 1 ∈ rf.M.ju := by
    intro a1 a2 a3 a4
    constructor
    · refine hs.unstable_all hnb 0 (fun b e => absurd ((a4 0).1 ⟨b, e⟩) (by decide)) (Or.inl ⟨?_, ?_⟩)
      · rw [h.xlower]; rcases a1 with a | a <;> rw [a] <;> rfl
      · rw [hmult]
        change 0 < u.x 0 + 10 + u.w 0
        have : u.x 0 = 0 := by rcases a1 with a | a <;> rw [a] <;> rfl
        linarith
    · refine hs.unstable_all hnb 1 (fun b e => absurd ((a4 1).1 ⟨b, e⟩) (by decide)) (Or.inl ⟨?_, ?_⟩)
      · rw [h.xlower]; rcases a1 with a | a <;> rw [a] <;> rfl
      · rw [hmult]
        change 0 < u.x 1 - 2 - u.w 0
        have : u.x 1 = 0 := by rcases a1 with a | a <;> rw [a] <;> rfl
        linarith
  have hbas : ∀ i, OnlyBasic rf i → i ∉ rf.M.ju := fun i hb hi => by
    obtain ⟨b, e⟩ := (hb i).2 rfl
    exact (hs.unstable i hi).1 b e
  rcases hp with ⟨a1, a2, a3⟩ | ⟨a1, a2, a3⟩ | ⟨a1, a2, a3, a4⟩ | ⟨a1, a2, a3, a4⟩
  · refine ⟨fun hi => ?_, Or.inl ⟨Or.inl ⟨a1, a2⟩, hbas 0 a3, fun hi => ?_⟩⟩
    · have := (hin _ hi).1; rw [a1] at this; exact absurd this (by decide +kernel)
    · have := (hin _ hi).1; rw [a1] at this; exact absurd this (by decide +kernel)
  · refine ⟨fun hi => ?_, Or.inl ⟨Or.inr ⟨a1, a2⟩, hbas 0 a3, fun hi => ?_⟩⟩
    · have := (hin _ hi).1; rw [a1] at this; exact absurd this (by decide +kernel)
    · have := (hin _ hi).2
      rw [hmult] at this
      change 0 < u.x 1 - 2 - u.w 0 at this
      have e : u.x 1 = 0 := by rw [a1]; rfl
      linarith
  · exact ⟨hbas 2 a4, Or.inr ⟨Or.inl a1, a2, a3, a4, hbig (Or.inl a1) a2 a3 a4⟩⟩
  · exact ⟨hbas 2 a4, Or.inr ⟨Or.inr a1, a2, a3, a4, hbig (Or.inr a1) a2 a3 a4⟩⟩

/-- The next point of the path. -/
theorem IsNearest.next (h : IsNearest cfg) (heps : cfg.env.eps = 0) (ho : ∀ M, (cfg.env.o M).lu.Z = 0) (hlu : LUInners cfg) (hm : cfg.method ≠ .rangespace) {s s' : Parts ℚ 3 0 1 0 τ cfg.pb.Ax}
    (hrf : s.rf = some rf) (hs : RFSpec cfg.env cfg.pb ev u rf) (hfx : ev.fx = ![u.x 0 + 10, u.x 1 - 2, u.x 2 - 8]) (hfxx : ev.fxx = 1) (hp : NearestPath rf u) (hn : cfg.newton s u = some (s', un))
    {debug minmax : Bool} (hin : InBounds cfg.pb.bounds u) (hv : backtrack debug minmax cfg.pb.bounds u un = some v) :
    (u.x = ![4, 2, 1] ∧ v.x = ![2, 0, 1] ∧ v.w 0 = -2) ∨ ((u.x = ![4, 2, 1] ∨ u.x = ![2, 0, 1]) ∧ v.x = ![0, 0, 1] ∧ -10 < v.w 0 ∧ v.w 0 < -2) ∨ (v.x = ![0, 0, 0] ∧ -10 < v.w 0 ∧ v.w 0 < -2 ∧ OnlyBasic rf 2) := by
  obtain ⟨g2, g⟩ := h.held ho hs hfx hp
  obtain ⟨n1, n2, n3⟩ := h.newton heps ho hlu hm hrf hs hfx hfxx g2 hn
  obtain ⟨β, b1, b2, b3, b4, b5, b6⟩ := h.cut hin hv
  have e2 : un.x 2 - 8 - un.w 0 = 0 := n2 2 g2
  have vec : ∀ a b c : ℚ, v.x 0 = a → v.x 1 = b → v.x 2 = c → v.x = ![a, b, c] := by
    intro a b c h0 h1 h2
    funext i
    fin_cases i
    · exact h0
    · exact h1
    · exact h2
  rcases g with ⟨g0, j0, j1⟩ | ⟨g0, w1, w2, hb, j0, j1⟩
  · have e0 : un.x 0 + 10 + un.w 0 = 0 := n2 0 j0
    have e1 : un.x 1 - 2 - un.w 0 = 0 := n2 1 j1
    have ew : un.w 0 = -7 := by linarith
    have x0 : un.x 0 = -3 := by linarith
    have x1 : un.x 1 = -5 := by linarith
    have x2 : un.x 2 = 1 := by linarith
    rw [ew] at b3
    have c0 := b4 0
    have c1 := b4 1
    have c2 := b4 2
    rw [x0] at c0
    rw [x1] at c1
    rw [x2] at c2
    rcases g0 with ⟨g0, gw⟩ | ⟨g0, gw⟩
    · have u0 : u.x 0 = 4 := by rw [g0]; rfl
      have u1 : u.x 1 = 2 := by rw [g0]; rfl
      have u2 : u.x 2 = 1 := by rw [g0]; rfl
      rw [u0] at c0
      rw [u1] at c1
      rw [u2] at c2
      rw [gw] at b3
      have hβ : β = 1 ∨ β = 2/7 := by
        rcases b5 with rfl | ⟨i, i1, i2⟩
        · exact Or.inl rfl
        rcases b6 with b6 | b6
        · have := b6 1 (by rw [u1]; norm_num)
          rw [u1, x1] at this
          right
          fin_cases i
          · change u.x 0 + β * (un.x 0 - u.x 0) = 0 at i2
            rw [u0, x0] at i2
            linarith
          · change u.x 1 + β * (un.x 1 - u.x 1) = 0 at i2
            rw [u1, x1] at i2
            linarith
          · change un.x 2 < 0 at i1
            linarith
        · exact Or.inl b6
      rcases hβ with rfl | rfl
      · refine Or.inr (Or.inl ⟨Or.inl g0, vec _ _ _ (by rw [c0]; norm_num) (by rw [c1]; norm_num) (by rw [c2]; norm_num), ?_, ?_⟩) <;> rw [b3] <;> norm_num
      · refine Or.inl ⟨g0, vec _ _ _ (by rw [c0]; norm_num) (by rw [c1]; norm_num) (by rw [c2]; norm_num), ?_⟩
        rw [b3]; norm_num
    · have u0 : u.x 0 = 2 := by rw [g0]; rfl
      have u1 : u.x 1 = 0 := by rw [g0]; rfl
      have u2 : u.x 2 = 1 := by rw [g0]; rfl
      rw [u0] at c0
      rw [u1] at c1
      rw [u2] at c2
      rw [gw] at b3
      have hβ : β = 1 ∨ β = 2/5 := by
        rcases b5 with rfl | ⟨i, i1, i2⟩
        · exact Or.inl rfl
        · right
          fin_cases i
          · change u.x 0 + β * (un.x 0 - u.x 0) = 0 at i2
            rw [u0, x0] at i2
            linarith
          · change u.x 1 + β * (un.x 1 - u.x 1) = 0 at i2
            rw [u1, x1] at i2
            linarith
          · change un.x 2 < 0 at i1
            linarith
      right; left
      rcases hβ with rfl | rfl
      · refine ⟨Or.inr g0, vec _ _ _ (by rw [c0]; norm_num) (by rw [c1]; norm_num) (by rw [c2]; norm_num), ?_, ?_⟩ <;> rw [b3] <;> norm_num
      · refine ⟨Or.inr g0, vec _ _ _ (by rw [c0]; norm_num) (by rw [c1]; norm_num) (by rw [c2]; norm_num), ?_, ?_⟩ <;> rw [b3] <;> norm_num
  · have u0 : u.x 0 = 0 := by rcases g0 with a | a <;> rw [a] <;> rfl
    have u1 : u.x 1 = 0 := by rcases g0 with a | a <;> rw [a] <;> rfl
    have x0 : un.x 0 = 0 := by rw [n1 0 j0, u0]
    have x1 : un.x 1 = 0 := by rw [n1 1 j1, u1]
    have x2 : un.x 2 = -1 := by linarith
    have ew : un.w 0 = -9 := by linarith
    have c0 := b4 0
    have c1 := b4 1
    have c2 := b4 2
    rw [x0, u0] at c0
    rw [x1, u1] at c1
    rw [x2] at c2
    rw [ew] at b3
    have z2 : u.x 2 + β * (-1 - u.x 2) ≤ 0 := by
      rcases g0 with a | a
      · have u2 : u.x 2 = 1 := by rw [a]; rfl
        rcases b5 with rfl | ⟨i, i1, i2⟩
        · rw [u2]; norm_num
        · fin_cases i
          · change un.x 0 < 0 at i1
            linarith
          · change un.x 1 < 0 at i1
            linarith
          · change u.x 2 + β * (un.x 2 - u.x 2) = 0 at i2
            rw [x2] at i2
            exact i2.le
      · have u2 : u.x 2 = 0 := by rw [a]; rfl
        rw [u2]; linarith
    refine Or.inr (Or.inr ⟨vec _ _ _ (by rw [c0]; norm_num) (by rw [c1]; norm_num) (by rw [c2, max_eq_left z2]), ?_, ?_, hb⟩)
    · rw [b3]; nlinarith
    · rw [b3]; nlinarith

/-- The solve stays on the path. -/
theorem IsNearest.solve (h : IsNearest cfg) (hthr : 0 ≤ cfg.env.thr) (hthr2 : cfg.env.thr < 1) (heps : cfg.env.eps = 0) (hd : cfg.env.debug = false) (ho : ∀ M, (cfg.env.o M).lu.Z = 0) (hphi : cfg.phi = none)
    (hlu : LUInners cfg) (hm : cfg.method ≠ .rangespace) (o : SolveOptions ℚ) (htol : o.tolerance ≤ 1) (user : τ) (mem errors ax du) (history : History ℚ) (u : MVec ℚ 3 0 (1 + 0)) (hx : u.x = ![4, 2, 1]) (hw : u.w 0 = 0) :
    ∃ t, (∀ r, Solve (cfg.machine none) o cfg.pb.bounds (cfg.start user mem errors ax du) history u r ↔ r = some t) ∧
      (solveResult o t).succeeded = false ∧ (solveResult o t).iterations = o.maxiters + 1 ∧ (3 ≤ o.maxiters + 1 → t.u.x = ![0, 0, 0]) := by
  have hl : ∀ i, cfg.pb.bounds.xlower i = some 0 := h.xlower
  have hu : ∀ i, cfg.pb.bounds.xupper i = none := h.xupper
  have hB : ConsistentBounds cfg.pb.bounds := ⟨fun i l r e1 e2 => (by rw [hu] at e2; cases e2), fun i => i.elim0⟩
  have hcl : (clampVec cfg.pb.bounds u).x = ![4, 2, 1] := by
    funext i
    change clamp _ _ (u.x i) = _
    rw [hl, hu, hx]
    fin_cases i <;> simp [clamp]
  have hwt : ∀ (x : Fin 3 → ℚ) i, weights cfg.pb x i = if x i = 0 then -1 else |x i| := by
    intro x i
    unfold weights
    rw [h.xlower, h.xupper]
    by_cases e : x i = 0 <;> simp [e]
  refine Exists.imp (fun t ht => ⟨ht.1, ht.2.1, ht.2.2.1, ht.2.2.2.2.2.1⟩) (solve_never_state hthr heps.ge hd (by norm_num) hphi (fun t x p q => let ⟨t', ev, e, _⟩ := h.user t x p q; ⟨_, e⟩) o
    (fun k s u => (1 ≤ k → u.x ≠ ![4, 2, 1]) ∧ (2 ≤ k → u.x ≠ ![2, 0, 1]) ∧ (3 ≤ k → u.x = ![0, 0, 0]) ∧ ∃ rf, s.rf = some rf ∧ NearestPath rf u) hB ?_ ?_ user mem errors ax du history u ?_)
  · rintro k s0 s u sm un v s' hr he ⟨p1, p2, p3, rf, hrf, hp⟩ hin hn hv he'
    obtain ⟨t', ev, rf1, ew0, hu1, hrf1, hs1, hs2, hspec, -⟩ := eval_full hthr heps.ge (by norm_num) hr he
    rw [hrf] at hs1
    cases hs1
    obtain ⟨t1, ev1, hu2, f1, f2⟩ := h.user s0.user u.x u.p s0.ech.rwq
    rw [hu1] at hu2
    cases hu2
    have hech : sm.ech = rf.ech := by
      unfold Config.newton at hn
      rw [hrf] at hn
      cases hn
      exact hs2
    have hq : Reach cfg sm := by
      unfold Reach
      rw [hech]
      exact hspec.reach
    obtain ⟨t2, ev', rf', ew0', hu1', hrf', hs1', hs2', hspec', -⟩ := eval_full hthr heps.ge (by norm_num) hq he'
    have heavy := fun i (hi : ∀ j, j ≠ i → weights cfg.pb v.x j < weights cfg.pb v.x i) => h.heaviest ho hthr hthr2 hq hrf' hspec' hi
    rcases h.next heps ho hlu hm hrf hspec f1 f2 hp hn hin hv with ⟨a0, a1, a2⟩ | ⟨a0, a1, a2, a3⟩ | ⟨a1, a2, a3, a4⟩
    · refine ⟨fun _ e => ?_, fun k2 => absurd a0 (p1 (by omega)), fun k3 => absurd a0 (p1 (by omega)), rf', hs1', Or.inr (Or.inl ⟨a1, a2, heavy 0 ?_⟩)⟩
      · rw [a1] at e; revert e; decide +kernel
      · simp only [hwt, a1]; decide +kernel
    · refine ⟨fun _ e => ?_, fun _ e => ?_, fun k3 => ?_, rf', hs1', Or.inr (Or.inr (Or.inl ⟨a1, a2, a3, heavy 2 ?_⟩))⟩
      · rw [a1] at e; revert e; decide +kernel
      · rw [a1] at e; revert e; decide +kernel
      · rcases a0 with a0 | a0
        · exact absurd a0 (p1 (by omega))
        · exact absurd a0 (p2 (by omega))
      · simp only [hwt, a1]; decide +kernel
    · refine ⟨fun _ e => ?_, fun _ e => ?_, fun _ => a1, rf', hs1', Or.inr (Or.inr (Or.inr ⟨a1, a2, a3, ?_⟩))⟩
      · rw [a1] at e; revert e; decide +kernel
      · rw [a1] at e; revert e; decide +kernel
      · intro i
        obtain ⟨w1, w2⟩ := rfUpdate_wUpdate hrf1
        obtain ⟨w1', w2'⟩ := rfUpdate_wUpdate hrf'
        rw [hech] at w1'
        refine (Ech.wUpdate_basics_kept hthr rfl hr w1 w1' w2 w2' (fun b k => ?_) i).trans (a4 i)
        have : ∀ i, weights cfg.pb v.x i = -1 := by
          intro i
          rw [hwt, a1]
          fin_cases i <;> simp
        rw [this, this]
  · rintro k s0 s u hr he ⟨p1, p2, p3, rf, hrf, hp⟩
    obtain ⟨t', ev, rf1, ew0, hu1, hrf1, hs1, hs2, hspec, herr⟩ := eval_full hthr heps.ge (by norm_num) hr he
    rw [hrf] at hs1
    cases hs1
    obtain ⟨t1, ev1, hu2, f1, f2⟩ := h.user s0.user u.x u.p s0.ech.rwq
    rw [hu1] at hu2
    cases hu2
    rw [herr]
    exact htol.trans (h.error heps ho hspec f1 hp ew0)
  · intro s he
    obtain ⟨t', ev, rf1, ew0, hu1, hrf1, hs1, hs2, hspec, herr⟩ := eval_full hthr heps.ge (by norm_num) (start_reach cfg user mem errors ax du) he
    refine ⟨fun e => absurd e (by omega), fun e => absurd e (by omega), fun e => absurd e (by omega), rf1, hs1, Or.inl ⟨hcl, hw, h.heaviest ho hthr hthr2 (start_reach cfg user mem errors ax du) hrf1 hspec ?_⟩⟩
    simp only [hwt, hcl]; decide +kernel

end

/-- `min |x - (-10, 2, 8)|²/2` subject to `x0 - x1 - x2 = 1`, `x ≥ 0`. -/
def exNearest : UProblem Unit ℚ 3 0 1 0 0 0 0 where
  r := ResFn.default
  f := ⟨some fun t res x _ _ _ => some (t, { res with f := ((x 0 + 10) ^ 2 + (x 1 - 2) ^ 2 + (x 2 - 8) ^ 2) / 2, fx := ![x 0 + 10, x 1 - 2, x 2 - 8], fxx := 1, succeeded := true })⟩
  he := ConFn.default
  hg := ConFn.default
  v := ConFn.default
  Aex := fun _ => ![1, -1, -1]
  Aep := fun _ i => i.elim0
  Agx := fun i => i.elim0
  Agp := fun i => i.elim0
  be := fun _ => 1
  bg := fun i => i.elim0
  xlower := fun _ => some 0
  xupper := fun _ => none
  plower := fun i => i.elim0
  pupper := fun i => i.elim0
  c := fun i => i.elim0
  bec := fun _ i => i.elim0
  bgc := fun i => i.elim0

/-- The functions of `exNearest`. -/
def exNearestVals : UserVals ℚ 3 0 0 0 where
  f := fun x _ => ((x 0 + 10) ^ 2 + (x 1 - 2) ^ 2 + (x 2 - 8) ^ 2) / 2
  fx := fun x _ => ![x 0 + 10, x 1 - 2, x 2 - 8]
  he := fun _ _ i => i.elim0
  hex := fun _ _ i => i.elim0
  hg := fun _ _ i => i.elim0
  hgx := fun _ _ i => i.elim0
  v := fun _ _ i => i.elim0

/-- The starting point `(4, 2, 1)` with multiplier zero. -/
def exNearestStart : UState ℚ 3 0 1 0 0 0 :=
  ⟨![4, 2, 1], fun i => i.elim0, fun _ => 0, fun i => i.elim0, fun i => i.elim0, fun i => i.elim0, fun _ => 0, fun i => i.elim0, fun i => i.elim0, [], [], [], [], [], []⟩

theorem exNearest_implements : Implements exNearest exNearestVals where
  f := by
    refine ⟨_, rfl, fun t x p o t' q _ h => ?_⟩
    simp only [Option.some.injEq, Prod.mk.injEq] at h
    obtain ⟨-, rfl⟩ := h
    exact ⟨rfl, fun _ => rfl⟩
  he := ⟨_, rfl, fun t x p o t' q _ _ => ⟨fun i => i.elim0, fun i => i.elim0⟩⟩
  hg := ⟨_, rfl, fun t x p o t' q _ _ => ⟨fun i => i.elim0, fun i => i.elim0⟩⟩
  v := ⟨_, rfl, fun t x p o t' q _ _ i => i.elim0⟩

theorem exNearest_isNearest (env : Env ℚ) (method inners mem) : IsNearest (solverConfig env method inners exNearest mem) where
  Ax := fun l => by
    have hA : IsMasterAx exNearest.Aex exNearest.Agx (masterProblem exNearest mem).Ax := (assembleAx_iff _ _ _).2 fun _ j => j.elim0
    funext j
    have : l = 0 := Subsingleton.elim _ _
    rw [this]
    exact hA.ex 0 j
  b := fun l => cat2_l exNearest.be exNearest.bg l
  xlower := fun i => by
    change (masterProblem exNearest mem).xlower (ixX 0 0 i) = _
    simp [masterProblem, exNearest]
  xupper := fun i => by
    change (masterProblem exNearest mem).xupper (ixX 0 0 i) = _
    simp [masterProblem, exNearest]
  user := fun t x p q => by
    obtain ⟨s', ev, h1, h2⟩ := UEvals.returns (P := exNearest) (x := x) (p := p)
      (E := { fx := ![x 0 + 10, x 1 - 2, x 2 - 8], fxx := 1, fxp := fun _ j => j.elim0, he := fun i => i.elim0, hex := fun i => i.elim0, hep := fun i => i.elim0, hg := fun i => i.elim0, hgx := fun i => i.elim0, hgp := fun i => i.elim0,
              v := fun i => i.elim0, vx := fun i => i.elim0, vp := fun i => i.elim0 })
      { r := fun _ _ _ _ => ⟨_, rfl⟩
        f := ⟨_, rfl, fun t o _ _ => ⟨_, _, rfl, rfl, rfl, funext fun _ => funext fun j => j.elim0⟩⟩
        he := ⟨_, rfl, fun t o _ _ => ⟨_, _, rfl, funext fun i => i.elim0, funext fun i => i.elim0, funext fun i => i.elim0⟩⟩
        hg := ⟨_, rfl, fun t o _ _ => ⟨_, _, rfl, funext fun i => i.elim0, funext fun i => i.elim0, funext fun i => i.elim0⟩⟩
        v := ⟨_, rfl, fun t o _ _ => ⟨_, _, rfl, funext fun i => i.elim0, funext fun i => i.elim0, funext fun i => i.elim0⟩⟩ } (firstBasics env.o (masterProblem exNearest mem).Ax) false t (xbar := x) (fun i => rfl) q
    refine ⟨s', ev, h1, ?_, ?_⟩
    · rw [h2.fx]
      funext i
      exact cat3_X _ _ _ i
    · rw [h2.fxx]
      funext i j
      exact (cat3_X _ _ _ i).trans (cat3_X _ _ _ j)

/-- The problem is strictly convex: the objective is quadratic and exceeds its tangents by half of the squared distance. -/
theorem exNearest_strictly_convex (x x' : Fin 3 → ℚ) (p : Fin 0 → ℚ) : exNearestVals.f x' p = exNearestVals.f x p + ∑ i, exNearestVals.fx x p i * (x' i - x i) + (∑ i, (x' i - x i) ^ 2) / 2 := by
  simp [exNearestVals, Fin.sum_univ_three]
  ring

/-- The unique solution is `(1, 0, 0)`; the starting point is feasible and away from all bounds. -/
theorem exNearest_solution (p : Fin 0 → ℚ) : UFeasible exNearest exNearestVals ![1, 0, 0] p ∧ (∀ x, UFeasible exNearest exNearestVals x p → x ≠ ![1, 0, 0] → exNearestVals.f ![1, 0, 0] p < exNearestVals.f x p) ∧
    UFeasible exNearest exNearestVals exNearestStart.x p ∧ ∀ i, 0 < exNearestStart.x i := by
  refine ⟨⟨fun l => ?_, fun i => i.elim0, fun i => i.elim0, fun i => i.elim0, fun i => i.elim0, fun i => ⟨fun l e => ?_, fun l e => (by cases e)⟩, fun i => i.elim0⟩, fun x hx hne => ?_,
    ⟨fun l => ?_, fun i => i.elim0, fun i => i.elim0, fun i => i.elim0, fun i => i.elim0, fun i => ⟨fun l e => ?_, fun l e => (by cases e)⟩, fun i => i.elim0⟩, fun i => ?_⟩
  · simp [exNearest, Fin.sum_univ_three]
  · cases e
    fin_cases i <;> simp
  · obtain ⟨e, -, -, -, -, hb, -⟩ := hx
    have e := e 0
    simp [exNearest, Fin.sum_univ_three] at e
    have h1 : 0 ≤ x 1 := (hb 1).1 0 rfl
    have h2 : 0 ≤ x 2 := (hb 2).1 0 rfl
    have hd : 0 < x 1 ∨ 0 < x 2 := by
      by_contra hn
      push Not at hn
      apply hne
      funext i
      fin_cases i
      · change x 0 = 1; linarith
      · change x 1 = 0; linarith
      · change x 2 = 0; linarith
    change ((1 + 10 : ℚ) ^ 2 + (0 - 2) ^ 2 + (0 - 8) ^ 2) / 2 < ((x 0 + 10) ^ 2 + (x 1 - 2) ^ 2 + (x 2 - 8) ^ 2) / 2
    have : x 0 = 1 + x 1 + x 2 := by linarith
    rw [this]
    rcases hd with hd | hd <;> nlinarith [mul_nonneg h1 h2, sq_nonneg (x 1), sq_nonneg (x 2), sq_nonneg (x 1 + x 2)]
  · simp [exNearest, exNearestStart, Fin.sum_univ_three]
    try norm_num
  · cases e
    fin_cases i <;> simp [exNearestStart]
  · fin_cases i <;> simp [exNearestStart]

/-- **C66 is false (with a constraint)**: for the nearest point to `(-10, 2, 8)` in the set `x0 - x1 - x2 = 1`, `x ≥ 0`, started at the feasible point `(4, 2, 1)` away from all bounds: every solve in exact arithmetic, with the full-space or null-space method, in either
    step mode, with any number of iterations and any history of the solver object, fails for every tolerance up to 1; after two iterations it returns the infeasible point `(0, 0, 0)`.  The step lengths are cut at the bounds until all variables are on them;
    the only variable that may still move is the basic one, and Newton's step for it points out of the bounds. -/
theorem nearest_point_never {env : Env ℚ} (hthr : 0 ≤ env.thr) (hthr2 : env.thr < 1) (heps : env.eps = 0) (hd : env.debug = false) (ho : ∀ M, (env.o M).lu.Z = 0) (method inners) (hm : method ≠ Method.rangespace)
    (hlu : ∀ mem, LUInners (solverConfig env method inners exNearest mem)) (o : SolveOptions ℚ) (htol : o.tolerance ≤ 1) (part mem t0 res memW errors ax du history) :
    ∃ S' result, ∃ h : SolverReturns env method inners part o exNearest mem exNearestStart S' result none,
      (h.t0 = t0 ∧ h.res = res ∧ h.memW = memW ∧ h.errors = errors ∧ h.ax = ax ∧ h.du = du ∧ h.history = history) ∧ result.succeeded = false ∧ result.iterations = o.maxiters + 1 ∧
      (2 ≤ o.maxiters → S'.x = ![0, 0, 0] ∧ ¬ UFeasible exNearest exNearestVals S'.x S'.p) := by
  obtain ⟨t, h1, h2, h3, h4⟩ := (exNearest_isNearest env method inners mem).solve hthr hthr2 heps hd ho rfl (hlu mem) hm o htol (t0, res) memW errors ax du history (packState exNearestStart)
    (funext fun i => cat3_X (nbg := 0) (nhg := 0) _ _ _ i) (by
      change cat2 (cat2 (fun _ : Fin 1 => (0 : ℚ)) (fun i : Fin 0 => i.elim0)) (cat2 (fun i : Fin 0 => i.elim0) (fun i : Fin 0 => i.elim0)) (Fin.castAdd (0 + 0) (Fin.castAdd 0 (0 : Fin 1))) = 0
      rw [cat2_l, cat2_l])
  have ht := (h1 _).2 rfl
  obtain ⟨-, ev, rf, ew0, e1, -⟩ := solve_inv (machine_inv (cfg := solverConfig env method inners exNearest mem) hthr heps.ge (by omega) none) o _ (start_reach _ (t0, res) memW errors ax du) history _ _ ht
  refine ⟨_, _, { t0 := t0, res := res, memW := memW, errors := errors, ax := ax, du := du, history := history, final := t, rf := rf, solved := ht, evaluated := e1, state := rfl, result_eq := rfl },
    ⟨rfl, rfl, rfl, rfl, rfl, rfl, rfl⟩, h2, h3, fun hk => ?_⟩
  have hx : ∀ i : Fin 3, t.u.x i = ![0, 0, 0] i := congrFun (h4 (by omega))
  refine ⟨funext hx, fun hf => ?_⟩
  have e := hf.be 0
  simp only [unpackState, finalState, Fin.sum_univ_three] at e
  change 1 * t.u.x 0 + -1 * t.u.x 1 + -1 * t.u.x 2 + ∑ j : Fin 0, _ = 1 at e
  rw [hx, hx, hx] at e
  simp at e

/-- Exact pivoting and decompositions as `nearest_point_never` needs them exist. -/
example : ∃ (env : Env ℚ) (inners : _), (0 ≤ env.thr ∧ env.thr < 1 ∧ env.eps = 0 ∧ env.debug = false ∧ ∀ M, (env.o M).lu.Z = 0) ∧ ∀ mem, LUInners (solverConfig env .nullspace inners exNearest mem) := by
  obtain ⟨oracle, ho⟩ := Ech.exists_exact_oracle (K := ℚ)
  let F : ∀ n, (A : Matrix (Fin n) (Fin n) ℚ) → LU.FullLU A := fun n A => (LU.exists_fullLU n A).some
  exact ⟨{ o := oracle, sort := Ech.sortImpl, P := fun n => Idx.stableImpl, thr := 1/100000000, eps := 0, debug := false },
    fun c => ⟨luInner 0 (Fintype.equivFin _) (F _) 0, luInner 0 (Fintype.equivFin _) (F _) 0, luInner 0 (Fintype.equivFin _) (F _) 0⟩, ⟨by norm_num, by norm_num, rfl, rfl, ho⟩,
    fun mem c => ⟨_, _, _, Fintype.equivFin _, Fintype.equivFin _, Fintype.equivFin _, F, 0, rfl⟩⟩

/-- The nearest-point problem in the form seen by the master solver. -/
def exNearestProblem : MProblem ℚ 3 0 1 0 where
  Ax := fun _ => ![1, -1, -1]
  Ap := fun _ i => i.elim0
  b := fun _ => 1
  xlower := fun _ => some 0
  xupper := fun _ => none
  plower := fun i => i.elim0
  pupper := fun i => i.elim0

/-- Its functions. -/
def exNearestAffine : Affine ℚ 3 0 0 where
  H := 1
  Hp := fun _ i => i.elim0
  c := ![10, -2, -8]
  hx := fun i => i.elim0
  hp := fun i => i.elim0
  h0 := fun i => i.elim0
  vx := fun i => i.elim0
  vp := fun i => i.elim0
  v0 := fun i => i.elim0

/-- The solution. -/
def exNearestSolution : MVec ℚ 3 0 (1 + 0) := { x := ![1, 0, 0], p := fun i => i.elim0, w := fun _ => -11 }

theorem exNearest_mult (u : MVec ℚ 3 0 (1 + 0)) (i) : exNearestProblem.mult (exNearestAffine.evals u.x u.p) u i = ![u.x 0 + 10 + u.w 0, u.x 1 - 2 - u.w 0, u.x 2 - 8 - u.w 0] i := by
  simp only [MProblem.mult, exNearestProblem, exNearestAffine, Affine.evals, Pi.add_apply, one_mulVec, Finset.univ_eq_empty, Finset.sum_empty, Finset.univ_unique, Finset.sum_singleton, mulVec, dotProduct, add_zero]
  fin_cases i
  · change u.x 0 + 10 + 1 * u.w 0 = u.x 0 + 10 + u.w 0
    ring
  · change u.x 1 + -2 + -1 * u.w 0 = u.x 1 - 2 - u.w 0
    ring
  · change u.x 2 + -8 + -1 * u.w 0 = u.x 2 - 8 - u.w 0
    ring

/-- Every hypothesis of `active_solve_partial` is met: the nearest-point problem is solved in one iteration from every starting point on (or below) the two bounds that are active at the solution, whose multiplier is small enough. -/
example : ∃ cfg : Config ℚ 3 0 1 0 Unit, cfg.pb = exNearestProblem ∧ IsNearest cfg ∧ ∀ mem errors ax du history (u : MVec ℚ 3 0 (1 + 0)), 0 < u.x 0 → u.x 1 ≤ 0 → u.x 2 ≤ 0 → u.w 0 < -8 →
    ∃ t, Solve (cfg.machine none) { maxiters := 200, tolerance := 1/1000000000, minmax := false, debug := false } cfg.pb.bounds (cfg.start () mem errors ax du) history u (some t) ∧
      t.u = exNearestSolution ∧ (solveResult (K := ℚ) { maxiters := 200, tolerance := 1/1000000000, minmax := false, debug := false } t).succeeded = true ∧
      (solveResult (K := ℚ) { maxiters := 200, tolerance := 1/1000000000, minmax := false, debug := false } t).iterations = 1 := by
  obtain ⟨oracle, ho⟩ := Ech.exists_exact_oracle (K := ℚ)
  let F : ∀ n, (A : Matrix (Fin n) (Fin n) ℚ) → LU.FullLU A := fun n A => (LU.exists_fullLU n A).some
  let cfg : Config ℚ 3 0 1 0 Unit :=
    { env := { o := oracle, sort := Ech.sortImpl, P := fun n => Idx.stableImpl, thr := 0, eps := 0, debug := false }
      pb := exNearestProblem
      method := .nullspace
      inners := fun c => ⟨luInner 0 (Fintype.equivFin _) (F _) 0, luInner 0 (Fintype.equivFin _) (F _) 0, luInner 0 (Fintype.equivFin _) (F _) 0⟩
      user := fun t x p _ => some (t, exNearestAffine.evals x p)
      userJac := fun t x p _ => some (t, exNearestAffine.evals x p)
      phi := none }
  have hheld : ∀ u : MVec ℚ 3 0 (1 + 0), 0 < u.x 0 → u.x 1 = 0 → u.x 2 = 0 → u.w 0 < -8 → (∀ i, exNearestProblem.Held (exNearestAffine.evals u.x u.p) u i ↔ i ≠ 0) ∧ exNearestProblem.Interior u 0 := by
    intro u h0 h1 h2 h3
    have hl : (some 0 : Option ℚ) ≠ some (u.x 0) := fun e => h0.ne (Option.some.inj e)
    refine ⟨fun i => ?_, hl, fun e => (by cases e)⟩
    unfold MProblem.Held
    rw [exNearest_mult]
    fin_cases i
    · refine ⟨?_, fun h => absurd rfl h⟩
      rintro (⟨e, -⟩ | ⟨e, -⟩)
      · exact absurd e hl
      · cases e
    · refine ⟨fun _ => by decide, fun _ => Or.inl ⟨congrArg some h1.symm, ?_⟩⟩
      change 0 < u.x 1 - 2 - u.w 0
      linarith
    · refine ⟨fun _ => by decide, fun _ => Or.inl ⟨congrArg some h2.symm, ?_⟩⟩
      change 0 < u.x 2 - 8 - u.w 0
      linarith
  have hlicq : ∀ u : MVec ℚ 3 0 (1 + 0), exNearestProblem.Interior u 0 → exNearestProblem.Licq (exNearestAffine.evals u.x u.p) u := by
    intro u hi y z hy
    have e := hy 0 hi
    simp [exNearestProblem] at e
    exact ⟨funext fun l => by rw [Subsingleton.elim l 0]; exact e, funext fun l => l.elim0⟩
  have hs := hheld exNearestSolution (by decide +kernel) (by decide +kernel) (by decide +kernel) (by decide +kernel)
  refine ⟨cfg, rfl, ⟨fun _ => rfl, fun _ => rfl, fun _ => rfl, fun _ => rfl, fun t x p q => ⟨t, _, rfl, ?_, rfl⟩⟩, fun mem errors ax du history u h0 h1 h2 h3 => ?_⟩
  · simp only [exNearestAffine, Affine.evals, one_mulVec]
    funext i
    fin_cases i <;> simp [mulVec, dotProduct] <;> first | rfl | exact (sub_eq_add_neg _ _).symm
  have c0 : (clampVec exNearestProblem.bounds u).x 0 = u.x 0 := by
    change clamp (some 0) none (u.x 0) = _
    simp [clamp, h0.le]
  have c1 : (clampVec exNearestProblem.bounds u).x 1 = 0 := by
    change clamp (some 0) none (u.x 1) = _
    simp [clamp, h1]
  have c2 : (clampVec exNearestProblem.bounds u).x 2 = 0 := by
    change clamp (some 0) none (u.x 2) = _
    simp [clamp, h2]
  have hu := hheld (clampVec exNearestProblem.bounds u) (by rw [c0]; exact h0) c1 c2 h3
  refine Exists.imp (fun t ht => ⟨(ht.1 _).2 rfl, ht.2.1, ht.2.2.2.1, ht.2.2.2.2⟩) (active_solve_partial (cfg := cfg) rfl rfl rfl ho (by norm_num) (by norm_num) rfl (fun c => ⟨_, _, _, Fintype.equivFin _, Fintype.equivFin _, Fintype.equivFin _, F, 0, rfl⟩) (by intro h; cases h)
    exNearestAffine (fun t x p q => ⟨t, _, rfl, ⟨rfl, rfl, rfl, rfl, rfl, rfl, rfl, rfl, rfl⟩⟩) exNearestSolution
    ⟨fun i => ?_, fun q => q.elim0, fun l => ?_, fun l => l.elim0⟩ (hlicq _ hs.2) ⟨fun i => ⟨fun l e => ?_, fun l e => (by cases e)⟩, fun i => i.elim0⟩
    { maxiters := 200, tolerance := 1/1000000000, minmax := false, debug := false } (by norm_num) (by norm_num) () mem errors ax du history u _ rfl (hlicq _ hu.2) (fun i hi => ?_) (fun i hi => ?_) (fun d hd => ?_))
  · by_cases hi : i = 0
    · left
      rw [hi]
      change exNearestProblem.mult _ _ _ = 0
      rw [exNearest_mult]
      decide +kernel
    · exact Or.inr ((hs.1 i).2 hi)
  · change ∑ j, (![1, -1, -1] : Fin 3 → ℚ) j * (![1, 0, 0] : Fin 3 → ℚ) j + ∑ q : Fin 0, _ = 1
    simp [Fin.sum_univ_three]
  · cases e
    fin_cases i <;> simp [exNearestSolution]
  · have := (hu.1 i).1 hi
    fin_cases i
    · exact absurd rfl this
    · exact c1
    · exact c2
  · exact (hu.1 i).2 ((hs.1 i).1 hi)
  · have d1 : d.x 1 = 0 := hd.held 1 ((hu.1 1).2 (by decide))
    have d2 : d.x 2 = 0 := hd.held 2 ((hu.1 2).2 (by decide))
    have e := hd.lin 0
    have g := hd.free 0 (fun h => absurd rfl ((hu.1 0).1 h))
    change ∑ j, (![1, -1, -1] : Fin 3 → ℚ) j * d.x j + ∑ q : Fin 0, _ = 0 at e
    change ∑ j, (1 : Matrix (Fin 3) (Fin 3) ℚ) 0 j * d.x j + ∑ q : Fin 0, _ + ∑ l : Fin 1, 1 * d.w (Fin.castAdd 0 l) + ∑ l : Fin 0, _ = 0 at g
    simp [Fin.sum_univ_three, d1, d2] at e g
    rw [e] at g
    ext i
    · fin_cases i
      · exact e
      · exact d1
      · exact d2
    · exact i.elim0
    · have : i = 0 := Subsingleton.elim (α := Fin 1) _ _
      rw [this]
      simpa using g

end Optima
