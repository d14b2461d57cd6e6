import Verif.Props.GlobalConvergence
import Verif.Props.Infeasible

/-!
# C69: the choice of the linear solver does not change the result of a solve

In exact arithmetic the full-space and the null-space method compute the same Newton steps, so entire solves agree; the range-space method joins them if no variable is taken as an explicit basic variable.  Otherwise it does not.
-/

set_option linter.unusedSectionVars false

namespace Optima

open Matrix

variable {K : Type*} [Field K] [LinearOrder K] [IsStrictOrderedRing K] {nx np ny nz : ℕ} {τ σ : Type*}

/-! ## Replacing the Newton step of a machine -/

section replace

variable {nw : ℕ} {m : Machine σ K nx np nw} {Q : σ → Prop} {P : σ → MVec K nx np nw → Prop}

/-- The machine with another Newton step. -/
def Machine.withNewton (m : Machine σ K nx np nw) (f : σ → MVec K nx np nw → Option (σ × MVec K nx np nw)) : Machine σ K nx np nw := { m with newton := f }

/-- If another Newton step gives the same results in all states met, the solve has the same outcome. -/
theorem solve_withNewton (h : MachInv m Q P) {f} (hf : ∀ s uo v, Q s → P s v → f s uo = m.newton s uo) (o : SolveOptions K) (B : Bounds K nx np) {mach : σ} (hq : Q mach) (history : History K) (u : MVec K nx np nw) (r) :
    Solve (m.withNewton f) o B mach history u r ↔ Solve m o B mach history u r := by
  have hstep : ∀ s : SolveState σ K nx np nw, Q s.mach → (∃ v, P s.mach v) → step (m.withNewton f) o B s = step m o B s := by
    rintro s h1 ⟨v, h2⟩
    have e : (m.withNewton f).newton s.mach s.uo = m.newton s.mach s.uo := hf _ _ _ h1 h2
    unfold step
    dsimp only
    rw [e]
    rfl
  have hloop : ∀ s r, Loop m o B s r → Q s.mach → (∃ v, P s.mach v) → Loop (m.withNewton f) o B s r := by
    intro s r hl
    induction hl with
    | stepFails s e => intro h1 h2; exact .stepFails s ((hstep s h1 h2).trans e)
    | checkFails s s1 e e' => intro h1 h2; exact .checkFails s s1 ((hstep s h1 h2).trans e) e'
    | stop s s1 s2 e e' => intro h1 h2; exact .stop s s1 s2 ((hstep s h1 h2).trans e) e'
    | again s s1 s2 r e e' _ ih =>
      intro h1 h2
      have := stepping_inv h (step_inv h h1 e) e'
      exact .again s s1 s2 r ((hstep s h1 h2).trans e) e' (ih this.1 ⟨_, this.2⟩)
  have key : ∀ r, Solve m o B mach history u r → Solve (m.withNewton f) o B mach history u r := by
    intro r hr
    cases hr with
    | initFails e => exact .initFails e
    | run s r e hl =>
      have := evalAt_inv h (s := { mach := mach, u := clampVec B u, uo := clampVec B u, iterations := 0, history := history.init, trace := [] }) hq e
      exact .run s r e (hloop s r hl this.1 ⟨_, this.2⟩)
  refine ⟨fun hr => ?_, key r⟩
  obtain ⟨⟨r1, h1, -⟩, -⟩ := solve_budget m o B mach history u
  obtain ⟨⟨r2, -, h2⟩, -⟩ := solve_budget (m.withNewton f) o B mach history u
  rw [h2 r hr, ← h2 r1 (key r1 h1)]
  exact h1

end replace

/-! ## The methods solve the same system -/

/-- The second-order system of the problem is regular: whichever variables `U` are kept fixed, a step that leaves all linearised conditions unchanged is zero (the multipliers need not be determined). -/
def MProblem.Regular (pb : MProblem K nx np ny nz) (ev : Evals K nx np nz) : Prop :=
  ∀ (U : Fin nx → Prop) (d : MVec K nx np (ny + nz)), (∀ i, U i → d.x i = 0) →
    (∀ i, ¬ U i → ∑ j, ev.fxx i j * d.x j + ∑ q, ev.fxp i q * d.p q + (∑ l, pb.Ax l i * d.w (Fin.castAdd nz l) + ∑ l, ev.hx l i * d.w (Fin.natAdd ny l)) = 0) →
    (∀ r, ∑ j, ev.vx r j * d.x j + ∑ q, ev.vp r q * d.p q = 0) → (∀ l, ∑ j, pb.Ax l j * d.x j + ∑ q, pb.Ap l q * d.p q = 0) → (∀ l, ∑ j, ev.hx l j * d.x j + ∑ q, ev.hp l q * d.p q = 0) → d.x = 0 ∧ d.p = 0

/-- The constraints can be solved for the variables whatever the parameters are: the columns of the parameters are in the range of those of the variables. -/
def MProblem.ParamsSpanned (pb : MProblem K nx np ny nz) (ev : Evals K nx np nz) : Prop :=
  ∀ q, ∃ y : Fin nx → K, (∀ l, pb.Ap l q = ∑ j, pb.Ax l j * y j) ∧ ∀ l, ev.hp l q = ∑ j, ev.hx l j * y j

/-- What the range-space method needs: a diagonal Hessian matrix, and no variable whose diagonal entry is at least 1 and dominates its column of the derivatives of `v`. -/
def Method.Suits (m : Method) (ev : Evals K nx np nz) : Prop := m = .rangespace → (∀ i j, i ≠ j → ev.fxx i j = 0) ∧ ∀ i, ¬ (1 ≤ |ev.fxx i i| ∧ ∀ q, |ev.vx q i| ≤ |ev.fxx i i|)

/-- A system that is regular for the problem is regular for the linear solver. -/
theorem regular_canonical {env : Env K} (heps : env.eps = 0) (ho : ∀ M, (env.o M).lu.Z = 0) {pb : MProblem K nx np ny nz} {ev u} {rf : RFState K nx np ny nz pb.Ax} (h : RFSpec env pb ev u rf)
    (hr : pb.Regular ev) (hp : pb.ParamsSpanned ev) (v) (hv : SolvesCanonical rf.C.mat ⟨0, 0, 0⟩ v) : v = ⟨0, 0, 0⟩ := by
  refine canonical_injective_dep h.canon (rf_echelon heps h) (rf_rowsSpanned ho h fun q => ?_) (fun d hd => ?_) v hv
  · obtain ⟨y, h1, h2⟩ := hp q
    refine ⟨y, fun l => ?_⟩
    rw [h.Wx, h.Wp]
    refine Fin.addCases (fun l => ?_) (fun l => ?_) l
    · simpa only [stack, Fin.addCases_left] using h1 l
    · simpa only [stack, Fin.addCases_right] using h2 l
  · have z : ∀ i, i ∈ rf.M.ju → d.x i = 0 := fun i hi => hd.unstable i hi
    have e : ∀ c : Fin nx → K, (∑ j, if j ∈ rf.M.ju then 0 else c j * d.x j) = ∑ j, c j * d.x j := fun c =>
      Finset.sum_congr rfl fun j _ => by split_ifs with hj; · rw [z j hj, mul_zero]
                                         · rfl
    refine hr (fun i => i ∈ rf.M.ju) d z (fun i hi => ?_) (fun r => ?_) (fun l => ?_) (fun l => ?_)
    · have := hd.stable i hi
      rw [e, h.Hxx, h.Hxp, h.Wx, Fin.sum_univ_add] at this
      simpa only [stack, Fin.addCases_left, Fin.addCases_right, Pi.zero_apply] using this
    · have := hd.par r
      rw [e, h.Vpx, h.Vpp] at this
      simpa using this
    · have := hd.constr (Fin.castAdd nz l)
      rw [e, h.Wx, h.Wp] at this
      simpa only [stack, Fin.addCases_left, Pi.zero_apply] using this
    · have := hd.constr (Fin.natAdd ny l)
      rw [e, h.Wx, h.Wp] at this
      simpa only [stack, Fin.addCases_right, Pi.zero_apply] using this

/-- The canonical system has one solution at most if that for zero has. -/
theorem canonical_unique {nw nbe nbi nne nni nnu : ℕ} {C : Canon K nx np nw (Fin nbe) (Fin nbi) (Fin nne) (Fin nni) (Fin nnu)} (hinj : ∀ v, SolvesCanonical C ⟨0, 0, 0⟩ v → v = ⟨0, 0, 0⟩) {a v v'}
    (h : SolvesCanonical C a v) (h' : SolvesCanonical C a v') : v = v' := by
  have key := hinj ⟨v.xs - v'.xs, v.p - v'.p, v.wbs - v'.wbs⟩ ⟨fun b => ?_, fun k => ?_, fun q => ?_, fun b => ?_⟩
  · ext s
    · exact sub_eq_zero.1 (congrFun (congrArg CVec.xs key) s)
    · exact sub_eq_zero.1 (congrFun (congrArg CVec.p key) s)
    · exact sub_eq_zero.1 (congrFun (congrArg CVec.wbs key) s)
  · have := h.basic b
    have := h'.basic b
    simp only [Pi.sub_apply, mul_sub, Finset.sum_sub_distrib, Pi.zero_apply]
    linear_combination h.basic b - h'.basic b
  · simp only [Pi.sub_apply, mul_sub, Finset.sum_sub_distrib, Pi.zero_apply]
    linear_combination h.nonbasic k - h'.nonbasic k
  · simp only [Pi.sub_apply, mul_sub, Finset.sum_sub_distrib, Pi.zero_apply]
    linear_combination h.par q - h'.par q
  · simp only [Pi.sub_apply, mul_sub, Finset.sum_sub_distrib, Pi.zero_apply]
    linear_combination h.feas b - h'.feas b

/-- Each method, if it suits the problem, solves the canonical system. -/
theorem method_solves {cfg : Config K nx np ny nz τ} (hlu : LUInners cfg) {env : Env K} {ev u} {rf : RFState K nx np ny nz cfg.pb.Ax} (h : RFSpec env cfg.pb ev u rf)
    (hinj : ∀ v, SolvesCanonical rf.C.mat ⟨0, 0, 0⟩ v → v = ⟨0, 0, 0⟩) (hm : cfg.method.Suits ev) (a) : SolvesCanonical rf.C.mat a (solveCanonical cfg.method (cfg.inners rf.C) rf.C.mat a) := by
  obtain ⟨n1, n2, n3, e1, e2, e3, F, rank0, e⟩ := hlu rf.C
  rw [e]
  revert hm
  generalize cfg.method = m
  intro hm
  cases m with
  | fullspace => exact (fullspace_solves _ rf.C.mat a).2 (luInner_exact e1 (F n1) rank0 _ _ ((fullspace_injective rf.C.mat).2 hinj))
  | nullspace => exact (nullspace_solves _ rf.C.mat a).2 (luInner_exact e2 (F n2) rank0 _ _ ((nullspace_injective rf.C.mat).2 hinj))
  | rangespace =>
    obtain ⟨hd, hs⟩ := hm rfl
    have hbe : IsEmpty (Fin rf.C.nbe) := ⟨fun k => by
      have := h.canon.be k
      rw [h.Hxx, h.Vpx] at this
      exact hs _ this⟩
    have hdiag : HssDiag rf.C.mat := by
      intro s t hst
      rw [h.canon.Hss, h.Hxx]
      exact hd _ _ fun e => hst (Sum.inl_injective (h.canon.split.1 (by simpa using e)))
    have hne : ∀ k, rf.C.mat.hne k ≠ 0 := by
      intro k h0
      obtain ⟨c1, c2⟩ := h.canon.ne k
      have h0' : rf.C.mat.Hss (.inr (.inl k)) (.inr (.inl k)) = 0 := h0
      rw [h0', abs_zero] at c1 c2
      obtain ⟨v, hv, hv0⟩ := explicit_zero_pivot_singular rf.C.mat hdiag k h0 (fun b => abs_nonpos_iff.1 (c1 b)) (fun q => abs_nonpos_iff.1 (c2 q))
      exact hv0 (hinj v hv)
    exact (rangespace_solves_partial _ rf.C.mat hdiag hne a).2 (luInner_exact e3 (F n3) rank0 _ _ ((rangespace_injective_partial rf.C.mat hdiag hne).2 hinj))

/-- **C69, part**: with exact arithmetic, if the second-order systems of the problem are regular, a solve has the same outcome with every method that suits the problem (the full-space and null-space methods always do) and every implementation of the
    LU decomposition: the same final values, number of iterations and success, the same calls of the user functions, or a failure with both.  Any constraints, ranks, bounds, starting point and user check.
    Missing: singular systems and rounded arithmetic; the range-space method with variables of large second derivative, where the claim is false (`rangespace_never`). -/
theorem methods_agree_partial {cfg : Config K nx np ny nz τ} (hthr : 0 ≤ cfg.env.thr) (heps : cfg.env.eps = 0) (ho : ∀ M, (cfg.env.o M).lu.Z = 0) (hnx : 0 < nx) (hlu : LUInners cfg)
    (method : Method) (inners : ∀ c : CanonPack K nx np (ny + nz), Inners K np c.nbe c.nbi c.nne c.nni) (hlu' : LUInners { cfg with method := method, inners := inners })
    (huser : ∀ t x p q t' ev, cfg.user t x p q = some (t', ev) → cfg.pb.Regular ev ∧ cfg.pb.ParamsSpanned ev ∧ cfg.method.Suits ev ∧ method.Suits ev)
    (check) (o : SolveOptions K) (user : τ) (mem errors ax du) (history : History K) (u : MVec K nx np (ny + nz)) (r) :
    Solve (Config.machine { cfg with method := method, inners := inners } check) o cfg.pb.bounds (Config.start { cfg with method := method, inners := inners } user mem errors ax du) history u r ↔
      Solve (cfg.machine check) o cfg.pb.bounds (cfg.start user mem errors ax du) history u r := by
  have em : Config.machine { cfg with method := method, inners := inners } check = (cfg.machine check).withNewton (Config.newton { cfg with method := method, inners := inners }) := by
    have e1 : ∀ ask s u, Config.updateF { cfg with method := method, inners := inners } ask s u = cfg.updateF ask s u := by
      intro ask s u
      unfold Config.updateF
      dsimp only
      rcases ask s.user u.x u.p s.ech.rwq with _ | ⟨t, ev⟩
      · rfl
      · dsimp only
        cases rfUpdate cfg.env cfg.pb s.ech s.ax ev u <;> rfl
    have e2 : ∀ s u, Config.updateE { cfg with method := method, inners := inners } s u = cfg.updateE s u := by
      intro s u
      unfold Config.updateE
      dsimp only
      cases s.rf <;> rfl
    unfold Config.machine Machine.withNewton
    simp only [e1, e2]
  rw [em]
  refine solve_withNewton (machine_inv hthr heps.ge hnx check) (f := Config.newton { cfg with method := method, inners := inners }) ?_ o cfg.pb.bounds (start_reach cfg user mem errors ax du) history u r
  rintro s uo v - ⟨ev, rf, ew0, hrf, hspec, -, t, t', q, hu⟩
  obtain ⟨h1, h2, h3, h4⟩ := huser _ _ _ _ _ _ hu
  have hinj := regular_canonical heps ho hspec h1 h2
  have e : solveCanonical method (inners rf.C) rf.C.mat rf.res.canonical = solveCanonical cfg.method (cfg.inners rf.C) rf.C.mat rf.res.canonical :=
    canonical_unique hinj (method_solves (cfg := { cfg with method := method, inners := inners }) hlu' hspec hinj h4 _) (method_solves hlu hspec hinj h3 _)
  change Config.newton { cfg with method := method, inners := inners } s uo = cfg.newton s uo
  unfold Config.newton
  rw [hrf]
  dsimp only
  unfold linSolveCanonical
  rw [e]

/-- A Hessian matrix that is positive on the steps allowed by the linearised constraints makes the systems regular (without parameters). -/
theorem regular_of_posdef {pb : MProblem K nx 0 ny nz} {ev : Evals K nx 0 nz}
    (hpos : ∀ d : Fin nx → K, d ≠ 0 → (∀ l, ∑ j, pb.Ax l j * d j = 0) → (∀ l, ∑ j, ev.hx l j * d j = 0) → 0 < ∑ i, d i * ∑ j, ev.fxx i j * d j) : pb.Regular ev ∧ pb.ParamsSpanned ev := by
  refine ⟨fun U d hU hst _ hA hh => ⟨?_, funext fun q => q.elim0⟩, fun q => q.elim0⟩
  by_contra hne
  have hA' : ∀ l, ∑ j, pb.Ax l j * d.x j = 0 := fun l => by simpa using hA l
  have hh' : ∀ l, ∑ j, ev.hx l j * d.x j = 0 := fun l => by simpa using hh l
  refine (hpos d.x hne hA' hh').ne' ?_
  have e : ∑ i, d.x i * (∑ j, ev.fxx i j * d.x j + (∑ l, pb.Ax l i * d.w (Fin.castAdd nz l) + ∑ l, ev.hx l i * d.w (Fin.natAdd ny l))) = 0 :=
    Finset.sum_eq_zero fun i _ => by
      by_cases hi : U i
      · rw [hU i hi, zero_mul]
      · have := hst i hi
        simp only [Finset.univ_eq_empty, Finset.sum_empty, add_zero] at this
        rw [this, mul_zero]
  simp only [mul_add, Finset.sum_add_distrib] at e
  have e1 : ∑ i, d.x i * ∑ l, pb.Ax l i * d.w (Fin.castAdd nz l) = ∑ l, d.w (Fin.castAdd nz l) * ∑ j, pb.Ax l j * d.x j := by
    simp only [Finset.mul_sum]
    rw [Finset.sum_comm]
    exact Finset.sum_congr rfl fun l _ => Finset.sum_congr rfl fun j _ => by ring
  have e2 : ∑ i, d.x i * ∑ l, ev.hx l i * d.w (Fin.natAdd ny l) = ∑ l, d.w (Fin.natAdd ny l) * ∑ j, ev.hx l j * d.x j := by
    simp only [Finset.mul_sum]
    rw [Finset.sum_comm]
    exact Finset.sum_congr rfl fun l _ => Finset.sum_congr rfl fun j _ => by ring
  rw [e1, e2] at e
  simpa only [hA', hh', mul_zero, Finset.sum_const_zero, add_zero] using e

/-! ## The range-space method -/

/-- One variable, no bounds, the constraint `x = b`. -/
def fixedLine (b : K) : MProblem K 1 0 1 0 where
  Ax := fun _ _ => 1
  Ap := fun _ i => i.elim0
  b := fun _ => b
  xlower := fun _ => none
  xupper := fun _ => none
  plower := fun _ => none
  pupper := fun _ => none

/-- Derivatives of the objective `h x²/2 + g x`. -/
structure LineReturns (h g : K) (x : Fin 1 → K) (ev : Evals K 1 0 0) : Prop where
  fx : ev.fx = fun _ => h * x 0 + g
  fxx : ev.fxx = fun _ _ => h

section line

variable {h g b : K} {env : Env K} {ev : Evals K 1 0 0} {u : MVec K 1 0 (1 + 0)} {rf : RFState K 1 0 1 0 (fixedLine b).Ax}

/-- The canonical form of the problem: one explicit basic variable. -/
theorem line_canonical (heps : env.eps = 0) (ho : ∀ M, (env.o M).lu.Z = 0) (hs : RFSpec env (fixedLine b) ev u rf) (hev : LineReturns h g u.x ev) (hh : 1 ≤ |h|) :
    ∃ i : Fin rf.C.nbe, (∀ j, j = i) ∧ IsEmpty (Fin rf.C.nbi) ∧ IsEmpty (Fin rf.C.nne) ∧ IsEmpty (Fin rf.C.nni) ∧ rf.C.mat.hbe i = h ∧ (∀ l, rf.C.mat.Rbs (.inl i) l = 1) ∧
      rf.res.canonical.xs (.inl (.inl i)) = - (h * u.x 0 + g + u.w 0) ∧ rf.res.canonical.wbs (.inl i) = b - u.x 0 := by
  have hE := rf_echelon heps hs
  have hWx : ∀ l j, rf.M.Wx l j = 1 := by
    intro l j
    rw [hs.Wx]
    have : l = Fin.castAdd 0 (0 : Fin 1) := Subsingleton.elim (α := Fin 1) _ _
    rw [this]
    unfold stack
    rw [Fin.addCases_left]
    rfl
  have hnb : rf.M.RWQ.nb = 1 := rf_full_rank ho hs fun y hy => by
    have := hy 0
    simp only [hWx] at this
    funext l
    rw [Subsingleton.elim (α := Fin 1) l 0]
    simpa using this
  obtain ⟨σ, τ, hσ, hτ, jb, jn, S, Sp, R⟩ := hs.canon.ech
  have hsub : Subsingleton (Fin rf.M.RWQ.nb) := by rw [hnb]; infer_instance
  have hnn : IsEmpty (Fin rf.M.RWQ.nn) := ⟨fun k => by
    have e : rf.M.RWQ.jn k = rf.M.RWQ.jb ⟨0, by omega⟩ := Subsingleton.elim _ _
    have := hs.perm.1 (a₁ := .inr k) (a₂ := .inl ⟨0, by omega⟩) e
    cases this⟩
  have hbi : IsEmpty (Fin rf.C.nbi) := ⟨fun k => hs.canon.bi k ⟨by rw [hs.Hxx, hev.fxx]; exact hh, fun q => q.elim0⟩⟩
  have hne : IsEmpty (Fin rf.C.nne) := ⟨fun k => hnn.elim (τ (.inl (.inl k)))⟩
  have hni : IsEmpty (Fin rf.C.nni) := ⟨fun k => hnn.elim (τ (.inl (.inr k)))⟩
  obtain ⟨c, hc⟩ := hσ.2 ⟨0, by omega⟩
  obtain ⟨i, rfl⟩ : ∃ i, c = .inl i := by
    rcases c with i | i
    · exact ⟨i, rfl⟩
    · exact isEmptyElim i
  have hR : ∀ l, rf.C.mat.Rbs (.inl i) l = 1 := by
    intro l
    rw [R]
    have := congrFun (congrFun hs.b (σ (.inl i))) (σ (.inl i))
    rw [mul_apply, one_apply_eq] at this
    simp only [submatrix_apply, id, hWx, mul_one] at this
    rw [Subsingleton.elim (α := Fin 1) l 0]
    simpa using this
  obtain ⟨ax0, hres⟩ := hs.res
  obtain ⟨m1, m2, m3, m4, m5, m6⟩ := residual_master env.eps hs.canon ax0 (rfArgs (fixedLine b) rf.M ev u)
  refine ⟨i, fun j => Sum.inl_injective (hσ.1 (Subsingleton.elim _ _)), hbi, hne, hni, ?_, hR, ?_, ?_⟩
  · change rf.C.mat.Hss _ _ = h
    rw [hs.canon.Hss, hs.Hxx, hev.fxx]
  · rw [hres, m5]
    unfold lagGrad rfArgs
    dsimp only
    rw [hev.fx]
    simp only [hWx]
    simp
  · rw [hres, heps, residual_canonical_exact hs.canon hE ax0 (rfArgs (fixedLine b) rf.M ev u) rfl rfl]
    simp only [hR, one_mul]
    rw [Fin.sum_univ_add]
    unfold feasRes rfArgs
    simp only [Fin.addCases_left, hWx]
    simp [fixedLine]

/-- The step computed by the range-space method. -/
theorem line_step (heps : env.eps = 0) (ho : ∀ M, (env.o M).lu.Z = 0) (hs : RFSpec env (fixedLine b) ev u rf) (hev : LineReturns h g u.x ev) (hh : 1 ≤ |h|)
    {inners : ∀ c : CanonPack K 1 0 (1 + 0), Inners K 0 c.nbe c.nbi c.nne c.nni}
    (hlu : ∃ (n : ℕ) (e : RangeT 0 (Fin rf.C.nbe) (Fin rf.C.nbi) (Fin rf.C.nni) ≃ Fin n) (F : (A : Matrix (Fin n) (Fin n) K) → LU.FullLU A) (rank0 : ℕ), (inners rf.C).range = luInner 0 e F rank0) (u0 : MVec K 1 0 (1 + 0)) :
    u.x 0 + (linSolveCanonical .rangespace (inners rf.C) rf.C.mat rf.res.canonical 0 u0).x 0 - b = - 2 * (u.w 0 + g + h * b) / h ∧
      u.w 0 + (linSolveCanonical .rangespace (inners rf.C) rf.C.mat rf.res.canonical 0 u0).w 0 + g + h * b = 2 * (u.w 0 + g + h * b) := by
  obtain ⟨i, hi, hbi, hne, hni, hH, hR, hx, hw⟩ := line_canonical heps ho hs hev hh
  obtain ⟨n, e, F, rank0, hin⟩ := hlu
  have h0 : h ≠ 0 := fun e => by rw [e, abs_zero] at hh; exact absurd hh (by norm_num)
  have row : ∀ r s, (rangeDecompose rf.C.mat).2 *ᵥ r = s → h⁻¹ * r (.inr (.inr (.inl i))) = s (.inr (.inr (.inl i))) := by
    intro r s hr
    have := congrFun ((range_blocks rf.C.mat r s).1 hr).2.2.1 i
    simpa [mulVec_diagonal, mulVec, dotProduct, hH, diagonal_apply, Matrix.mul_apply] using this
  have hinj : ∀ r, (rangeDecompose rf.C.mat).2 *ᵥ r = 0 → r = 0 := by
    intro r hr
    have := row r 0 hr
    funext t
    rcases t with q | k | k | k
    · exact q.elim0
    · exact isEmptyElim k
    · rw [hi k]
      simpa [h0] using this
    · exact isEmptyElim k
  have hsol := row _ _ (luInner_exact e F rank0 (rangeDecompose rf.C.mat).2 (rangeRhs rf.C.mat (rangeDecompose rf.C.mat).1 rf.res.canonical) hinj)
  rw [← hin] at hsol
  have hrhs : rangeRhs rf.C.mat (rangeDecompose rf.C.mat).1 rf.res.canonical (.inr (.inr (.inl i))) = (b - u.x 0) - (- (h * u.x 0 + g + u.w 0)) / h := by
    simp [rangeRhs, hH, mulVec, dotProduct, hx, hw]
  rw [hrhs] at hsol
  have hW : (linSolveCanonical .rangespace (inners rf.C) rf.C.mat rf.res.canonical 0 u0).w 0 =
      (inners rf.C).range (rangeDecompose rf.C.mat).2 (rangeRhs rf.C.mat (rangeDecompose rf.C.mat).1 rf.res.canonical) (.inr (.inr (.inl i))) := by
    change ∑ b, rf.C.mat.Rbs b 0 * (rangeSolve (inners rf.C).range rf.C.mat rf.res.canonical).wbs b = _
    rw [Fintype.sum_sum_type, Finset.sum_eq_single i (fun j _ hj => absurd (hi j) hj) (fun hj => absurd (Finset.mem_univ _) hj), hR]
    simp [rangeSolve, rangeRecover]
  have hX : (linSolveCanonical .rangespace (inners rf.C) rf.C.mat rf.res.canonical 0 u0).x 0 =
      - (h * u.x 0 + g + u.w 0) / h - (inners rf.C).range (rangeDecompose rf.C.mat).2 (rangeRhs rf.C.mat (rangeDecompose rf.C.mat).1 rf.res.canonical) (.inr (.inr (.inl i))) / h := by
    have e1 := (linSolveCanonical_x .rangespace (inners rf.C) rf.C.mat hs.canon.split rf.res.canonical 0 u0).1 (.inl (.inl i))
    rw [Subsingleton.elim (rf.C.mat.js (.inl (.inl i))) 0] at e1
    rw [e1]
    simp [solveCanonical, rangeSolve, rangeRecover, hH, hx, mulVec, dotProduct]
  rw [hW, hX]
  generalize (inners rf.C).range (rangeDecompose rf.C.mat).2 (rangeRhs rf.C.mat (rangeDecompose rf.C.mat).1 rf.res.canonical) (.inr (.inr (.inl i))) = r at hsol
  have hr : r = h * (b - u.x 0) + (h * u.x 0 + g + u.w 0) := by
    field_simp at hsol
    linear_combination hsol
  rw [hr]
  constructor
  · field_simp
    ring
  · ring

end line

/-- **C69, negation**: with the range-space method a problem with the constraint `x = b` and a quadratic objective `h x²/2 + g x`, `|h| ≥ 1`, which the other methods solve in one iteration, is not solved: whatever the number of iterations allowed, the
    solve fails unless the multiplier is right from the start (up to the tolerance); the distance of `x` to `b` doubles in every iteration.  Exact arithmetic, exact derivatives. -/
theorem rangespace_never {h g b : K} {cfg : Config K 1 0 1 0 τ} (hpb : cfg.pb = fixedLine b) (hthr : 0 ≤ cfg.env.thr) (heps : cfg.env.eps = 0) (hd : cfg.env.debug = false) (ho : ∀ M, (cfg.env.o M).lu.Z = 0)
    (hphi : cfg.phi = none) (hlu : LUInners cfg) (hm : cfg.method = .rangespace) (hh : 1 ≤ |h|) (huser : ∀ t x p q, ∃ t' ev, cfg.user t x p q = some (t', ev) ∧ LineReturns h g x ev)
    (o : SolveOptions K) (user : τ) (mem errors ax du) (history : History K) (u : MVec K 1 0 (1 + 0)) (hu : o.tolerance ≤ 2 * |u.w 0 + g + h * b| / |h|) :
    ∃ t, (∀ r, Solve (cfg.machine none) o cfg.pb.bounds (cfg.start user mem errors ax du) history u r ↔ r = some t) ∧
      (solveResult o t).succeeded = false ∧ (solveResult o t).iterations = o.maxiters + 1 ∧ |t.u.x 0 - b| = 2 ^ (o.maxiters + 1) * |u.w 0 + g + h * b| / |h| := by
  obtain ⟨env, pb, method, inners, cuser, userJac, phi⟩ := cfg
  dsimp only at hpb hm
  subst hpb hm
  have hev : ∀ {s : Parts K 1 0 1 0 τ (fixedLine b).Ax} {u}, EvaluatedAt ⟨env, fixedLine b, .rangespace, inners, cuser, userJac, phi⟩ s u →
      ∃ ev rf ew0, s.rf = some rf ∧ RFSpec env (fixedLine b) ev u rf ∧ s.errors = residualErrors rf.C.mat (fixedLine b).xlower (fixedLine b).xupper u.x rf.res ew0 ∧ LineReturns h g u.x ev := by
    rintro s u ⟨ev, rf, ew0, h1, h2, h3, t0, t1, q, h4⟩
    obtain ⟨t', ev', e, hr⟩ := huser t0 u.x u.p q
    rw [h4] at e; cases e
    exact ⟨ev, rf, ew0, h1, h2, h3, hr⟩
  have h0 : 0 < |h| := lt_of_lt_of_le one_pos hh
  obtain ⟨t, t1, t2, t3, t4⟩ := solve_never hthr heps hd (by norm_num) hphi (fun t x p q => let ⟨_, _, e, _⟩ := huser t x p q; ⟨_, e⟩) o
    (fun k v => v.w 0 + g + h * b = 2 ^ k * (u.w 0 + g + h * b) ∧ (0 < k → |v.x 0 - b| = 2 ^ k * |u.w 0 + g + h * b| / |h|))
    (fun v => ⟨fun _ => ⟨fun l e => (by cases e), fun l e => (by cases e)⟩, fun i => i.elim0⟩)
    (by
      rintro k s v sm un hs ⟨hv, -⟩ hn
      obtain ⟨ev, rf, ew0, k1, k2, k3, k4⟩ := hev hs
      obtain ⟨n1, n2, n3, e1, e2, e3, F, rank0, e⟩ := hlu rf.C
      obtain ⟨l1, l2⟩ := line_step heps ho k2 k4 hh (inners := inners) ⟨n3, e3, F n3, rank0, by dsimp only at e; rw [e]⟩ s.du
      unfold Config.newton at hn
      rw [k1] at hn
      cases hn
      refine ⟨?_, fun _ => ?_⟩
      · dsimp only
        rw [l2, hv, pow_succ]
        ring
      · dsimp only
        rw [l1, hv, abs_div, abs_mul, abs_mul, abs_neg, abs_two, abs_of_pos (by positivity : (0 : K) < 2 ^ k), pow_succ]
        ring)
    (by
      rintro k s v hs ⟨-, hv⟩
      obtain ⟨ev, rf, ew0, k1, k2, k3, k4⟩ := hev hs
      obtain ⟨i, -, -, -, -, -, -, -, hw⟩ := line_canonical heps ho k2 k4 hh
      have hE : 0 ≤ s.errors.error := by rw [k3]; exact le_trans (normInf_nonneg _) (le_max_right _ _)
      have hle := ((error_le_iff k2.canon (basics_le_rows k2.canon k2.b) (fixedLine b).xlower (fixedLine b).xupper v.x rf.res ew0 _ hE).1 (by rw [← k3])).2.2 (.inl i)
      rw [hw, abs_sub_comm, hv (Nat.succ_pos k)] at hle
      refine le_trans hu (le_trans ?_ hle)
      have : (1 : K) ≤ 2 ^ k := one_le_pow₀ one_le_two
      have ha := abs_nonneg (u.w 0 + g + h * b)
      rw [pow_succ]
      gcongr
      nlinarith)
    user mem errors ax du history u (by simp)
  exact ⟨t, t1, t2, t3, t4.2 (Nat.succ_pos _)⟩

/-- With the other methods the same problem is solved in one iteration from every start. -/
theorem line_solved {h g b : K} {cfg : Config K 1 0 1 0 τ} (hpb : cfg.pb = fixedLine b) (hthr : 0 ≤ cfg.env.thr) (heps : cfg.env.eps = 0) (hd : cfg.env.debug = false) (ho : ∀ M, (cfg.env.o M).lu.Z = 0)
    (hphi : cfg.phi = none) (hlu : LUInners cfg) (hm : cfg.method ≠ .rangespace) (huser : ∀ t x p q, ∃ t' ev, cfg.user t x p q = some (t', ev) ∧ LineReturns h g x ev)
    (o : SolveOptions K) (hmax : 1 ≤ o.maxiters) (htol : 0 < o.tolerance) (user : τ) (mem errors ax du) (history : History K) (u : MVec K 1 0 (1 + 0)) :
    ∃ t, (∀ r, Solve (cfg.machine none) o cfg.pb.bounds (cfg.start user mem errors ax du) history u r ↔ r = some t) ∧
      (solveResult o t).succeeded = true ∧ (solveResult o t).iterations = 1 ∧ t.u.x 0 = b := by
  obtain ⟨env, pb, method, inners, cuser, userJac, phi⟩ := cfg
  dsimp only at hpb
  subst hpb
  let A : Affine K 1 0 0 := { H := fun _ _ => h, Hp := 0, c := fun _ => g, hx := 0, hp := 0, h0 := 0, vx := 0, vp := 0, v0 := 0 }
  obtain ⟨t, t1, t2, -, t4, t5⟩ := quadratic_solve hthr heps hd ho one_pos hphi hlu hm A
    (fun t x p q => by
      obtain ⟨t', ev, e, hr⟩ := huser t x p q
      refine ⟨t', ev, e, ⟨?_, hr.fxx, ?_, ?_, ?_, ?_, ?_, ?_, ?_⟩⟩
      · rw [hr.fx]; funext i; simp [A, mulVec, dotProduct]
      · ext i j; exact j.elim0
      · ext i; exact i.elim0
      · ext i; exact i.elim0
      · ext i; exact i.elim0
      · ext i; exact i.elim0
      · ext i; exact i.elim0
      · ext i; exact i.elim0)
    ⟨fun _ => b, fun i => i.elim0, fun _ => - (h * b + g)⟩
    ⟨fun i => by simp [A, fixedLine], fun q => q.elim0, fun l => by simp [fixedLine], fun l => l.elim0⟩
    (fun v hv => by
      have e1 := hv.lin 0
      have e2 := hv.grad 0
      simp [A, fixedLine] at e1 e2
      ext i
      · rw [Subsingleton.elim i 0, e1]
      · exact i.elim0
      · rw [Subsingleton.elim (α := Fin 1) i 0]
        rw [e1] at e2
        linear_combination e2)
    ⟨fun _ => ⟨fun l e => (by cases e), fun l e => (by cases e)⟩, fun i => i.elim0⟩ o hmax htol user mem errors ax du history u
    (fun i => ⟨fun e => (by cases e), fun e => (by cases e)⟩)
  exact ⟨t, t1, t4, t5, by rw [t2]⟩

/-! ## `Solver::solve` -/

section solver

variable {nbe nbg nhe nhg nc : ℕ} {env : Env K} {method method' : Method} {inners inners' : ∀ c : CanonPack K (nx + nbg + nhg) np (nbe + nbg + (nhe + nhg)), Inners K np c.nbe c.nbi c.nne c.nni} {part : Idx.PartitionImpl ℕ} {o : SolveOptions K}
  {P : UProblem τ K nx np nbe nbg nhe nhg nc} {mem : Matrix (Fin (nbe + nbg)) (Fin (nx + nbg + nhg)) K} {S S' : UState K nx np nbe nbg nhe nhg} {result : Result K}

/-- **C69, part (the user's problem)**: whatever the solver returns with one method it returns with the other: state, result, and the calls made of the user functions. -/
theorem solver_methods_agree_partial (hthr : 0 ≤ env.thr) (heps : env.eps = 0) (ho : ∀ M, (env.o M).lu.Z = 0) (hnx : 0 < nx + nbg + nhg) (hlu : LUInners (solverConfig env method inners P mem))
    (hlu' : LUInners (solverConfig env method' inners' P mem))
    (huser : ∀ t x p q t' ev, (solverConfig env method inners P mem).user t x p q = some (t', ev) → (masterProblem P mem).Regular ev ∧ (masterProblem P mem).ParamsSpanned ev ∧ method.Suits ev ∧ method'.Suits ev)
    {check} (h : SolverReturns env method inners part o P mem S S' result check) :
    ∃ h' : SolverReturns env method' inners' part o P mem S S' result check, h'.t0 = h.t0 ∧ h'.res = h.res ∧ h'.memW = h.memW ∧ h'.errors = h.errors ∧ h'.ax = h.ax ∧ h'.du = h.du ∧ h'.history = h.history ∧
      h'.final = h.final :=
  ⟨{ t0 := h.t0, res := h.res, memW := h.memW, errors := h.errors, ax := h.ax, du := h.du, history := h.history, final := h.final, rf := h.rf,
     solved := (methods_agree_partial (cfg := solverConfig env method inners P mem) hthr heps ho hnx hlu method' inners' hlu' huser check o (h.t0, h.res) h.memW h.errors h.ax h.du h.history (packState S) (some h.final)).2 h.solved,
     evaluated := h.evaluated, state := h.state, result_eq := h.result_eq }, rfl, rfl, rfl, rfl, rfl, rfl, rfl, rfl⟩

end solver

/-! ## Non-vacuity -/

/-- Constraints of `min x²/4 + y²/8` subject to `x + 2 y = 1` and the dependent row `2 x + 4 y = 2`, `x, y ≥ 0`. -/
def exMethodsPb : MProblem ℝ 2 0 2 0 where
  Ax := !![1, 2; 2, 4]
  Ap := fun _ i => i.elim0
  b := ![1, 2]
  xlower := fun _ => some 0
  xupper := fun _ => none
  plower := fun _ => none
  pupper := fun _ => none

/-- All three methods and all LU decompositions give the same results for `exMethodsPb`, from every starting point. -/
example (m m' : Method) (inners : ∀ c : CanonPack ℝ 2 0 (2 + 0), Inners ℝ 0 c.nbe c.nbi c.nne c.nni) : ∃ cfg : Config ℝ 2 0 2 0 Unit, cfg.pb = exMethodsPb ∧ cfg.method = m ∧
    (LUInners { cfg with method := m', inners := inners } → ∀ check o user mem errors ax du history u r,
      Solve (Config.machine { cfg with method := m', inners := inners } check) o cfg.pb.bounds (Config.start { cfg with method := m', inners := inners } user mem errors ax du) history u r ↔
        Solve (cfg.machine check) o cfg.pb.bounds (cfg.start user mem errors ax du) history u r) := by
  let ev : (Fin 2 → ℝ) → Evals ℝ 2 0 0 := fun x =>
    { f := x 0 ^ 2 / 4 + x 1 ^ 2 / 8, fx := ![x 0 / 2, x 1 / 4], fxx := !![1 / 2, 0; 0, 1 / 4], fxp := 0, diagfxx := true, h := 0, hx := 0, hp := 0, v := 0, vx := 0, vp := 0, succeeded := true }
  refine ⟨{ env := exactEnv, pb := exMethodsPb, method := m, inners := exactInners, user := fun t x _ _ => some (t, ev x), userJac := fun t x _ _ => some (t, ev x), phi := none }, rfl, rfl, fun hlu' => ?_⟩
  intro check o user mem errors ax du history u r
  refine methods_agree_partial (cfg := { env := exactEnv, pb := exMethodsPb, method := m, inners := exactInners, user := fun t x _ _ => some (t, ev x), userJac := fun t x _ _ => some (t, ev x), phi := none })
    le_rfl rfl exactEnv_oracle two_pos (fun c => exactInners_lu c) m' inners hlu' (fun t x p q t' e he => ?_) check o user mem errors ax du history u r
  cases he
  have hreg : exMethodsPb.Regular (ev x) ∧ exMethodsPb.ParamsSpanned (ev x) := regular_of_posdef fun d hd _ _ => by
    have : 0 < d 0 ^ 2 / 2 + d 1 ^ 2 / 4 := by
      rcases eq_or_ne (d 0) 0 with h0 | h0
      · have h1 : d 1 ≠ 0 := fun h1 => hd (funext fun i => by fin_cases i <;> assumption)
        positivity
      · positivity
    simp [ev, Fin.sum_univ_two]
    linarith
  have hsuit : ∀ m : Method, m.Suits (ev x) := fun m _ => ⟨fun i j hij => by fin_cases i <;> fin_cases j <;> simp_all [ev], fun i hi => by
    have := hi.1
    fin_cases i <;> norm_num [ev, abs_of_pos] at this⟩
  exact ⟨hreg.1, hreg.2, hsuit _, hsuit _⟩

/-- `min x² - x` subject to `x = 1` from zero: the null-space method succeeds after one iteration, the range-space method is at the distance `2 ^ 200` of the solution after 201 iterations. -/
example : ∃ (env : Env ℝ) (inners : ∀ c : CanonPack ℝ 1 0 (1 + 0), Inners ℝ 0 c.nbe c.nbi c.nne c.nni) (user : Unit → (Fin 1 → ℝ) → (Fin 0 → ℝ) → Option (Ech.RWQ ℝ 1 0 (1 + 0)) → Option (Unit × Evals ℝ 1 0 0)) (t t' : _),
    (∀ t x p q, ∃ t' ev, user t x p q = some (t', ev) ∧ LineReturns 2 (-1) x ev) ∧
    Solve (Config.machine ⟨env, fixedLine 1, .nullspace, inners, user, user, none⟩ none) exactOptions (fixedLine 1).bounds (Config.start ⟨env, fixedLine 1, .nullspace, inners, user, user, none⟩ () 0 ⟨0, 0, 0, 0, 0, 0, 0, 0⟩ 0 ⟨0, 0, 0⟩)
      (History.init default) ⟨0, 0, 0⟩ (some t) ∧ (solveResult exactOptions t).succeeded = true ∧ (solveResult exactOptions t).iterations = 1 ∧
    Solve (Config.machine ⟨env, fixedLine 1, .rangespace, inners, user, user, none⟩ none) exactOptions (fixedLine 1).bounds (Config.start ⟨env, fixedLine 1, .rangespace, inners, user, user, none⟩ () 0 ⟨0, 0, 0, 0, 0, 0, 0, 0⟩ 0 ⟨0, 0, 0⟩)
      (History.init default) ⟨0, 0, 0⟩ (some t') ∧ (solveResult exactOptions t').succeeded = false ∧ |t'.u.x 0 - 1| = 2 ^ 200 := by
  let user : Unit → (Fin 1 → ℝ) → (Fin 0 → ℝ) → Option (Ech.RWQ ℝ 1 0 (1 + 0)) → Option (Unit × Evals ℝ 1 0 0) := fun t x _ _ =>
    some (t, { f := x 0 ^ 2 - x 0, fx := fun _ => 2 * x 0 + -1, fxx := fun _ _ => 2, fxp := 0, diagfxx := true, h := 0, hx := 0, hp := 0, v := 0, vx := 0, vp := 0, succeeded := true })
  have hu : ∀ t x p q, ∃ t' ev, user t x p q = some (t', ev) ∧ LineReturns 2 (-1) x ev := fun t x p q => ⟨t, _, rfl, rfl, rfl⟩
  obtain ⟨t, a1, a2, a3, a4⟩ := line_solved (cfg := ⟨exactEnv, fixedLine 1, .nullspace, exactInners, user, user, none⟩) rfl le_rfl rfl rfl exactEnv_oracle rfl (fun c => exactInners_lu c) (by intro h; cases h) hu exactOptions
    (by norm_num [exactOptions]) (by norm_num [exactOptions]) () 0 ⟨0, 0, 0, 0, 0, 0, 0, 0⟩ 0 ⟨0, 0, 0⟩ (History.init default) ⟨0, 0, 0⟩
  obtain ⟨t', b1, b2, b3, b4⟩ := rangespace_never (cfg := ⟨exactEnv, fixedLine 1, .rangespace, exactInners, user, user, none⟩) rfl le_rfl rfl rfl exactEnv_oracle rfl (fun c => exactInners_lu c) rfl (by norm_num) hu exactOptions
    () 0 ⟨0, 0, 0, 0, 0, 0, 0, 0⟩ 0 ⟨0, 0, 0⟩ (History.init default) ⟨0, 0, 0⟩ (by norm_num [exactOptions])
  refine ⟨exactEnv, exactInners, user, t, t', hu, (a1 _).2 rfl, a2, a3, (b1 _).2 rfl, b2, ?_⟩
  rw [b4]
  norm_num [exactOptions]

end Optima
