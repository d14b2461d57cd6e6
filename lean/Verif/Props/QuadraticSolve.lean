import Verif.Props.NewtonStep

/-!
# C46 end to end: a quadratic problem is solved in one iteration
-/

set_option linter.unusedSectionVars false

namespace Optima

open Matrix

variable {K : Type*} [Field K] [LinearOrder K] [IsStrictOrderedRing K] {nx np ny nz : ℕ} {τ : Type*}

/-- `u` satisfies the first-order conditions of the problem without its bounds: the gradient of the Lagrangian, `v` and the constraints vanish. -/
structure Affine.Kkt (A : Affine K nx np nz) (pb : MProblem K nx np ny nz) (u : MVec K nx np (ny + nz)) : Prop where
  grad : ∀ i, ∑ j, A.H i j * u.x j + ∑ q, A.Hp i q * u.p q + A.c i + ∑ l, pb.Ax l i * u.w (Fin.castAdd nz l) + ∑ l, A.hx l i * u.w (Fin.natAdd ny l) = 0
  v : ∀ q, ∑ j, A.vx q j * u.x j + ∑ q', A.vp q q' * u.p q' + A.v0 q = 0
  lin : ∀ l, ∑ j, pb.Ax l j * u.x j + ∑ q, pb.Ap l q * u.p q = pb.b l
  nonlin : ∀ l, ∑ j, A.hx l j * u.x j + ∑ q, A.hp l q * u.p q + A.h0 l = 0

/-- Difference of two solutions. -/
theorem Affine.kkt_add {A : Affine K nx np nz} {pb : MProblem K nx np ny nz} {u : MVec K nx np (ny + nz)} (h : A.Kkt pb u) (d : MVec K nx np (ny + nz))
    (h1 : ∀ i, ∑ j, A.H i j * d.x j + ∑ q, A.Hp i q * d.p q + ∑ l, pb.Ax l i * d.w (Fin.castAdd nz l) + ∑ l, A.hx l i * d.w (Fin.natAdd ny l) = 0)
    (h2 : ∀ q, ∑ j, A.vx q j * d.x j + ∑ q', A.vp q q' * d.p q' = 0) (h3 : ∀ l, ∑ j, pb.Ax l j * d.x j + ∑ q, pb.Ap l q * d.p q = 0)
    (h4 : ∀ l, ∑ j, A.hx l j * d.x j + ∑ q, A.hp l q * d.p q = 0) :
    A.Kkt pb { x := fun i => u.x i + d.x i, p := fun i => u.p i + d.p i, w := fun i => u.w i + d.w i } := by
  refine ⟨fun i => ?_, fun q => ?_, fun l => ?_, fun l => ?_⟩
  · simp only [mul_add, Finset.sum_add_distrib]; linear_combination h.grad i + h1 i
  · simp only [mul_add, Finset.sum_add_distrib]; linear_combination h.v q + h2 q
  · simp only [mul_add, Finset.sum_add_distrib]; linear_combination h.lin l + h3 l
  · simp only [mul_add, Finset.sum_add_distrib]; linear_combination h.nonlin l + h4 l

theorem Affine.kkt_unique_zero {A : Affine K nx np nz} {pb : MProblem K nx np ny nz} {u : MVec K nx np (ny + nz)} (h : A.Kkt pb u) (huniq : ∀ u', A.Kkt pb u' → u' = u) (d : MVec K nx np (ny + nz))
    (h1 : ∀ i, ∑ j, A.H i j * d.x j + ∑ q, A.Hp i q * d.p q + ∑ l, pb.Ax l i * d.w (Fin.castAdd nz l) + ∑ l, A.hx l i * d.w (Fin.natAdd ny l) = 0)
    (h2 : ∀ q, ∑ j, A.vx q j * d.x j + ∑ q', A.vp q q' * d.p q' = 0) (h3 : ∀ l, ∑ j, pb.Ax l j * d.x j + ∑ q, pb.Ap l q * d.p q = 0)
    (h4 : ∀ l, ∑ j, A.hx l j * d.x j + ∑ q, A.hp l q * d.p q = 0) : d = ⟨0, 0, 0⟩ := by
  have e := huniq _ (Affine.kkt_add h d h1 h2 h3 h4)
  ext i
  · have := congrArg (fun m => m.x i) e; simpa using this
  · have := congrArg (fun m => m.p i) e; simpa using this
  · have := congrArg (fun m => m.w i) e; simpa using this

/-- The point reached by an exact Newton step satisfies the first-order conditions. -/
theorem affine_newton_kkt {env : Env K} {pb : MProblem K nx np ny nz} {A : Affine K nx np nz} {ev : Evals K nx np nz} {uo u du : MVec K nx np (ny + nz)}
    {rf : RFState K nx np ny nz pb.Ax} (h : RFSpec env pb ev uo rf) (hev : A.Returns uo.x uo.p ev) (hju : rf.M.ju = [])
    (hdu : SolvesMaster rf.M rf.res.master du) (hx : ∀ i, u.x i = uo.x i + du.x i) (hp : ∀ q, u.p q = uo.p q + du.p q) (hw : ∀ l, u.w l = uo.w l + du.w l) : A.Kkt pb u := by
  obtain ⟨ax0, hres⟩ := h.res
  obtain ⟨m1, m2, m3, m4, m5, m6⟩ := residual_master env.eps h.canon ax0 (rfArgs pb rf.M ev uo)
  rw [← hres] at m1 m2 m3 m4 m5 m6
  have hnot : ∀ i, i ∉ rf.M.ju := by rw [hju]; simp
  refine ⟨fun i => ?_, fun q => ?_, fun l => ?_, fun l => ?_⟩
  · have e := hdu.stable i (hnot i)
    rw [m1 i (hnot i)] at e
    simp only [hnot, if_false] at e
    unfold lagGrad rfArgs at e
    dsimp only at e
    rw [h.Hxx, h.Hxp, hev.fxx, hev.fxp, hev.fx, h.Wx, hev.hx] at e
    rw [Fin.sum_univ_add] at e
    simp only [stack, Fin.addCases_left, Fin.addCases_right, Pi.add_apply, mulVec, dotProduct] at e
    simp only [hx, hp, hw, mul_add, Finset.sum_add_distrib]
    linear_combination e
  · have e := hdu.par q
    rw [m3 q] at e
    simp only [hnot, if_false] at e
    change _ = - ev.v q at e
    rw [h.Vpx, h.Vpp, hev.vx, hev.vp, hev.v] at e
    simp only [Pi.add_apply, mulVec, dotProduct] at e
    simp only [hx, hp, mul_add, Finset.sum_add_distrib]
    linear_combination e
  · have e := hdu.constr (Fin.castAdd nz l)
    rw [m4] at e
    simp only [hnot, if_false, feasRes, Fin.addCases_left] at e
    change _ = pb.b l - ∑ j, rf.M.Wx (Fin.castAdd nz l) j * uo.x j - ∑ q, rf.M.Wp (Fin.castAdd nz l) q * uo.p q at e
    rw [h.Wx, h.Wp] at e
    simp only [stack, Fin.addCases_left] at e
    simp only [hx, hp, mul_add, Finset.sum_add_distrib]
    linear_combination e
  · have e := hdu.constr (Fin.natAdd ny l)
    rw [m4] at e
    simp only [hnot, if_false, feasRes, Fin.addCases_right] at e
    change _ = - ev.h l at e
    rw [h.Wx, h.Wp, hev.h, hev.hx, hev.hp] at e
    simp only [stack, Fin.addCases_right, Pi.add_apply, mulVec, dotProduct] at e
    simp only [hx, hp, mul_add, Finset.sum_add_distrib]
    linear_combination e

/-- With an exact rank decision and linearly independent rows of `Wx` there are as many basic variables as constraints. -/
theorem rf_full_rank {env : Env K} (ho : ∀ M, (env.o M).lu.Z = 0) {pb : MProblem K nx np ny nz} {ev u} {rf : RFState K nx np ny nz pb.Ax} (h : RFSpec env pb ev u rf)
    (hind : ∀ y : Fin (ny + nz) → K, (∀ i, ∑ l, rf.M.Wx l i * y l = 0) → y = 0) : rf.M.RWQ.nb = ny + nz := by
  have hone : rf.M.Wx.submatrix id rf.M.RWQ.jb * rf.M.RWQ.Rb = 1 := by
    have key : (rf.M.Wx.submatrix id rf.M.RWQ.jb * rf.M.RWQ.Rb) * rf.M.Wx = rf.M.Wx := by
      rw [Matrix.mul_assoc]
      ext l j
      obtain ⟨k, rfl⟩ := h.perm.2 j
      rcases k with b | k
      · have e := fun b' => congrFun (congrFun h.b b') b
        simp only [mul_apply, submatrix_apply, id, one_apply] at e
        simp only [mul_apply, submatrix_apply, id, Sum.elim_inl, e]
        simp
      · have e := fun b' => congrFun (congrFun h.n b') k
        simp only [mul_apply, submatrix_apply, id] at e
        simp only [mul_apply, submatrix_apply, id, Sum.elim_inr, e]
        exact (h.spans ho l k).symm
    ext l r
    have := hind (fun r => (rf.M.Wx.submatrix id rf.M.RWQ.jb * rf.M.RWQ.Rb) l r - (1 : Matrix (Fin (ny + nz)) (Fin (ny + nz)) K) l r) (fun i => by
      have e := congrFun (congrFun key l) i
      simp only [mul_sub, Finset.sum_sub_distrib]
      rw [mul_apply] at e
      simp only [mul_comm (rf.M.Wx _ i)]
      rw [e]
      simp [one_apply])
    exact sub_eq_zero.1 (congrFun this r)
  have := Matrix.square_of_invertible _ _ h.b hone
  simpa using this

/-- The inner solvers are the `LU` objects of the code (threshold zero, i.e. exact arithmetic; any `FullPivLU` implementation satisfying its contract). -/
def LUInners (cfg : Config K nx np ny nz τ) : Prop :=
  ∀ c, ∃ (n1 n2 n3 : ℕ) (e1 : FullT np (Fin c.nbe) (Fin c.nbi) (Fin c.nne) (Fin c.nni) ≃ Fin n1) (e2 : NullT np (Fin c.nbe) (Fin c.nne) (Fin c.nni) ≃ Fin n2)
    (e3 : RangeT np (Fin c.nbe) (Fin c.nbi) (Fin c.nni) ≃ Fin n3) (F : ∀ n, (A : Matrix (Fin n) (Fin n) K) → LU.FullLU A) (rank0 : ℕ),
    cfg.inners c = ⟨luInner 0 e1 (F n1) rank0, luInner 0 e2 (F n2) rank0, luInner 0 e3 (F n3) rank0⟩

theorem luInners_ok {cfg : Config K nx np ny nz τ} (hlu : LUInners cfg) (hm : cfg.method ≠ .rangespace) {M : MasterMatrix K nx np (ny + nz)} {c : CanonPack K nx np (ny + nz)} (h : CanonSpec M c)
    (hE : EchelonOK M) (hR : RowsSpanned M) (hM : ∀ u, SolvesMaster M ⟨0, 0, 0⟩ u → u = ⟨0, 0, 0⟩) (a) : InnerOK cfg.method c (cfg.inners c) a := by
  obtain ⟨n1, n2, n3, e1, e2, e3, F, rank0, e⟩ := hlu c
  have hinj := canonical_injective h hE hR hM
  rw [e]
  revert hm
  generalize cfg.method = m
  intro hm
  cases m with
  | fullspace => exact luInner_exact e1 (F n1) rank0 _ _ ((fullspace_injective c.mat).2 hinj)
  | nullspace => exact luInner_exact e2 (F n2) rank0 _ _ ((nullspace_injective c.mat).2 hinj)
  | rangespace => exact absurd rfl hm

/-- The gradient of the Lagrangian at `u`. -/
def Affine.grad (A : Affine K nx np nz) (pb : MProblem K nx np ny nz) (u : MVec K nx np (ny + nz)) (i : Fin nx) : K :=
  ∑ j, A.H i j * u.x j + ∑ q, A.Hp i q * u.p q + A.c i + ∑ l, pb.Ax l i * u.w (Fin.castAdd nz l) + ∑ l, A.hx l i * u.w (Fin.natAdd ny l)

/-- **C46, end to end**: a problem with quadratic objective and affine `h` and `v` whose first-order conditions without the bounds have exactly one solution `ustar`, and `ustar` satisfies the bounds.  In exact arithmetic
    the full-space and null-space methods, started from any point whose projection on the bounds is strictly inside, or on bounds at which the gradient does not point outwards (with the initial multipliers), return `ustar` after one iteration with success and zero error: for all sizes, all solver
    histories, all contents of uninitialised memory, stateful user functions, any tolerance above zero. -/
theorem quadratic_solve {cfg : Config K nx np ny nz τ} (hthr : 0 ≤ cfg.env.thr) (heps : cfg.env.eps = 0) (hd : cfg.env.debug = false) (ho : ∀ M, (cfg.env.o M).lu.Z = 0) (hnx : 0 < nx) (hphi : cfg.phi = none)
    (hlu : LUInners cfg) (hm : cfg.method ≠ .rangespace) (A : Affine K nx np nz) (huser : ∀ t x p q, ∃ t' ev, cfg.user t x p q = some (t', ev) ∧ A.Returns x p ev)
    (ustar : MVec K nx np (ny + nz)) (hk : A.Kkt cfg.pb ustar) (huniq : ∀ u', A.Kkt cfg.pb u' → u' = ustar) (hin : InBounds cfg.pb.bounds ustar)
    (o : SolveOptions K) (hmax : 1 ≤ o.maxiters) (htol : 0 < o.tolerance) (user : τ) (mem errors ax du) (history : History K) (u : MVec K nx np (ny + nz))
    (hstart : ∀ i, (cfg.pb.xlower i = some ((clampVec cfg.pb.bounds u).x i) → A.grad cfg.pb (clampVec cfg.pb.bounds u) i ≤ 0) ∧
      (cfg.pb.xupper i = some ((clampVec cfg.pb.bounds u).x i) → 0 ≤ A.grad cfg.pb (clampVec cfg.pb.bounds u) i)) :
    ∃ t, (∀ r, Solve (cfg.machine none) o cfg.pb.bounds (cfg.start user mem errors ax du) history u r ↔ r = some t) ∧
      t.u = ustar ∧ t.mach.errors.error = 0 ∧ (solveResult o t).succeeded = true ∧ (solveResult o t).iterations = 1 := by
  have hB : ConsistentBounds cfg.pb.bounds := inBounds_consistent hin
  have hinv := machine_inv hthr heps.ge hnx (cfg := cfg) none
  obtain ⟨t, ht⟩ := solve_returns hthr heps.ge hd hnx none (noPhi hphi) (fun t x p q => let ⟨t', ev, e, _⟩ := huser t x p q; ⟨_, e⟩) (fun f hf => by cases hf) o hB user mem errors ax du history u
  have huq : ∀ r, Solve (cfg.machine none) o cfg.pb.bounds (cfg.start user mem errors ax du) history u r ↔ r = some t := by
    intro r
    obtain ⟨⟨r0, h0, h1⟩, -⟩ := solve_budget (cfg.machine none) o cfg.pb.bounds (cfg.start user mem errors ax du) history u
    constructor
    · intro hr; rw [h1 r hr, h1 _ ht]
    · rintro rfl; exact ht
  refine ⟨t, huq, ?_⟩
  cases ht with
  | run s r es hl =>
    obtain ⟨su, suo, sit, -, -⟩ := solveInit_spec es
    obtain ⟨-, ev, rf, ew0, hrf, hspec, herr, t0, t1, q, hu⟩ :=
      evalAt_inv hinv (s := { mach := cfg.start user mem errors ax du, u := clampVec cfg.pb.bounds u, uo := clampVec cfg.pb.bounds u, iterations := 0, history := history.init, trace := [] })
        (start_reach cfg user mem errors ax du) es
    have hev : A.Returns s.u.x s.u.p ev := by
      obtain ⟨t', ev', e, hr⟩ := huser t0 s.u.x s.u.p q
      rw [hu] at e; cases e; exact hr
    have hju : rf.M.ju = [] := by
      refine List.eq_nil_iff_forall_not_mem.2 fun i hi => ?_
      rw [su] at hspec hev
      have hg : rf.status.s i = A.grad cfg.pb (clampVec cfg.pb.bounds u) i := by
        rw [hspec.mult, hspec.Wx, hev.hx, hev.fx]
        dsimp only
        rw [Fin.sum_univ_add]
        simp only [stack, Fin.addCases_left, Fin.addCases_right, Pi.add_apply, mulVec, dotProduct, Affine.grad]
        ring
      rcases (hspec.unstable i hi).2 with ⟨h1, h2⟩ | ⟨h1, h2⟩
      · exact absurd ((hstart i).1 h1) (by rw [← hg]; exact not_le.2 h2)
      · exact absurd ((hstart i).2 h1) (by rw [← hg]; exact not_le.2 h2)
    have hnot : ∀ i, i ∉ rf.M.ju := by rw [hju]; simp
    have hind : ∀ y : Fin (ny + nz) → K, (∀ i, ∑ l, rf.M.Wx l i * y l = 0) → y = 0 := by
      intro y hy
      have := Affine.kkt_unique_zero hk huniq ⟨0, 0, y⟩ (fun i => ?_) (fun q => by simp) (fun l => by simp) (fun l => by simp)
      · exact congrArg MVec.w this
      · have e := hy i
        rw [hspec.Wx, hev.hx, Fin.sum_univ_add] at e
        simp only [stack, Fin.addCases_left, Fin.addCases_right] at e
        simp only [Pi.zero_apply, mul_zero, Finset.sum_const_zero, zero_add]
        exact e
    have hE := rf_echelon heps hspec
    obtain ⟨hR, hC⟩ := full_row_rank hE (rf_full_rank ho hspec hind)
    have hM : ∀ d, SolvesMaster rf.M ⟨0, 0, 0⟩ d → d = ⟨0, 0, 0⟩ := by
      intro d hd
      refine Affine.kkt_unique_zero hk huniq d (fun i => ?_) (fun q => ?_) (fun l => ?_) (fun l => ?_)
      · have e := hd.stable i (hnot i)
        simp only [hnot, if_false] at e
        rw [hspec.Hxx, hspec.Hxp, hev.fxx, hev.fxp, hspec.Wx, hev.hx, Fin.sum_univ_add] at e
        simp only [stack, Fin.addCases_left, Fin.addCases_right, Pi.zero_apply] at e
        linear_combination e
      · have e := hd.par q
        simp only [hnot, if_false] at e
        rw [hspec.Vpx, hspec.Vpp, hev.vx, hev.vp] at e
        exact e
      · have e := hd.constr (Fin.castAdd nz l)
        simp only [hnot, if_false] at e
        rw [hspec.Wx, hspec.Wp] at e
        simp only [stack, Fin.addCases_left] at e
        exact e
      · have e := hd.constr (Fin.natAdd ny l)
        simp only [hnot, if_false] at e
        rw [hspec.Wx, hspec.Wp, hev.hx, hev.hp] at e
        simp only [stack, Fin.addCases_right] at e
        exact e
    have hInner := luInners_ok hlu hm hspec.canon hE hR hM rf.res.master
    -- one step
    have hstep : ∀ s1, step (cfg.machine none) o cfg.pb.bounds s = some s1 → s1.u = ustar ∧ s1.mach.errors.error = 0 ∧ s1.iterations = 1 := by
      intro s1 h1
      unfold step at h1
      dsimp only at h1
      split at h1
      · cases h1
      · rename_i tm un hn
        change cfg.newton s.mach s.uo = some (tm, un) at hn
        rw [suo, ← su] at hn
        obtain ⟨dn, hdn, hx, hp, hw⟩ := newton_solves heps hrf hspec hR (hC _) hInner (fun e => absurd e hm) hn
        have hun : un = ustar := huniq _ (affine_newton_kkt hspec hev hju hdn hx hp hw)
        subst hun
        rw [transform_no_phi (by change Option.map _ cfg.phi = none; rw [hphi]; rfl)] at h1
        dsimp only at h1
        unfold errorControl at h1
        dsimp only at h1
        rw [backtrack_accepts o.debug o.minmax (by rw [suo]; exact clampVec_inBounds hB u) hin] at h1
        dsimp only at h1
        have hq : Reach cfg tm := hinv.newton _ _ _ _ (evalAt_inv hinv (s := { mach := cfg.start user mem errors ax du, u := clampVec cfg.pb.bounds u, uo := clampVec cfg.pb.bounds u, iterations := 0, history := history.init, trace := [] })
          (start_reach cfg user mem errors ax du) es).1 (hn : (cfg.machine none).newton _ _ = _)
        obtain ⟨e1, e2, e3, e4, e5, e6⟩ := evalAt_u h1
        obtain ⟨-, ev', rf', ew0', hrf', hspec', herr', t0', t1', q', hu'⟩ := evalAt_inv hinv (by exact hq) h1
        rw [e1] at hspec' hu' herr'
        have hev' : A.Returns un.x un.p ev' := by
          obtain ⟨t', ev'', e, hr⟩ := huser t0' un.x un.p q'
          rw [hu'] at e; cases e; exact hr
        refine ⟨e1, ?_, ?_⟩
        · rw [herr']
          exact affine_step_error heps hspec hspec' hev hev' hju hdn hx hp hw ew0'
        · rw [e3]; change s.iterations + 1 = 1; rw [sit]
    cases hl with
    | stop _ s1 _ h1 h2 =>
      obtain ⟨a1, a2, a3⟩ := hstep s1 h1
      obtain ⟨b1, b2, -, b4, -⟩ := stepping_spec h2
      refine ⟨b1.trans a1, b4.trans a2, ?_, ?_⟩
      · change decide (t.iterations ≤ o.maxiters) = true
        rw [b2, a3]; simpa using hmax
      · change t.iterations = 1; rw [b2, a3]
    | again _ s1 s2 _ h1 h2 h3 =>
      obtain ⟨a1, a2, a3⟩ := hstep s1 h1
      obtain ⟨-, -, -, -, -, -, b7⟩ := stepping_spec h2
      have := (b7 (by rw [a3]; exact hmax)).2.2 (Or.inl (by change s1.mach.errors.error < _; rw [a2]; exact htol))
      cases this

/-! ### Non-vacuity

`min (x0² + x1² + x2²)/2` subject to `x0 + x1 + x2 = 3`, `x0 - x1 = 0`, `p - 1 = 0`, `x ≥ 0`, started from `(5, 1/2, 1/3)`: the solution `x = (1, 1, 1)`, `p = 1` is found in one iteration. -/

/-- The problem data. -/
def exQuadProblem : MProblem ℚ 3 1 1 1 where
  Ax := fun _ _ => 1
  Ap := 0
  b := fun _ => 3
  xlower := fun _ => some 0
  xupper := fun _ => none
  plower := fun _ => none
  pupper := fun _ => none

/-- The user functions. -/
def exQuad : Affine ℚ 3 1 1 where
  H := 1
  Hp := 0
  c := 0
  hx := fun _ => ![1, -1, 0]
  hp := 0
  h0 := 0
  vx := 0
  vp := 1
  v0 := fun _ => -1

/-- What user code for affine functions returns. -/
def Affine.evals {K : Type*} [Field K] (A : Affine K nx np nz) (x : Fin nx → K) (p : Fin np → K) : Evals K nx np nz where
  f := 0
  fx := A.H *ᵥ x + A.Hp *ᵥ p + A.c
  fxx := A.H
  fxp := A.Hp
  diagfxx := false
  h := A.hx *ᵥ x + A.hp *ᵥ p + A.h0
  hx := A.hx
  hp := A.hp
  v := A.vx *ᵥ x + A.vp *ᵥ p + A.v0
  vx := A.vx
  vp := A.vp
  succeeded := true

/-- The solution. -/
def exQuadSolution : MVec ℚ 3 1 (1 + 1) := { x := fun _ => 1, p := fun _ => 1, w := ![-1, 0] }

/-- The initial guess. -/
def exQuadStart : MVec ℚ 3 1 (1 + 1) := { x := ![5, 1/2, 1/3], p := fun _ => 0, w := 0 }

theorem exQuad_kkt : exQuad.Kkt exQuadProblem exQuadSolution := by
  refine ⟨?_, ?_, ?_, ?_⟩ <;> decide +kernel

theorem exQuad_unique (u : MVec ℚ 3 1 (1 + 1)) (h : exQuad.Kkt exQuadProblem u) : u = exQuadSolution := by
  have g0 := h.grad 0
  have g1 := h.grad 1
  have g2 := h.grad 2
  have v := h.v 0
  have l := h.lin 0
  have n := h.nonlin 0
  simp [exQuad, exQuadProblem, Fin.sum_univ_three, one_apply] at g0 g1 g2 v l n
  have e0 : u.x 0 = 1 := by linarith
  have e1 : u.x 1 = 1 := by linarith
  have e2 : u.x 2 = 1 := by linarith
  have ep : u.p 0 = 1 := by linarith
  have ey : u.w 0 = -1 := by linarith
  have ez : u.w 1 = 0 := by linarith
  ext i
  · change u.x i = 1; revert i; rw [Fin.forall_fin_succ, Fin.forall_fin_two]; exact ⟨e0, e1, e2⟩
  · change u.p i = 1; rw [Subsingleton.elim i 0]; exact ep
  · revert i
    change ∀ i : Fin 2, _
    rw [Fin.forall_fin_two]; exact ⟨ey, ez⟩

theorem exQuad_inBounds : InBounds exQuadProblem.bounds exQuadSolution :=
  ⟨fun _ => ⟨fun l e => (by cases e; exact zero_le_one), fun l e => (by cases e)⟩, fun _ => ⟨fun l e => (by cases e), fun l e => (by cases e)⟩⟩

/-- Every hypothesis of `quadratic_solve` is met: the solver finds the solution in one iteration. -/
example : ∃ cfg : Config ℚ 3 1 1 1 Unit, cfg.pb = exQuadProblem ∧ ∀ mem errors ax du history,
    ∃ t, Solve (cfg.machine none) { maxiters := 200, tolerance := 1/1000000000, minmax := false, debug := false } cfg.pb.bounds (cfg.start () mem errors ax du) history exQuadStart (some t) ∧
      t.u = exQuadSolution ∧ (solveResult (K := ℚ) { maxiters := 200, tolerance := 1/1000000000, minmax := false, debug := false } t).iterations = 1 := by
  obtain ⟨oracle, ho⟩ := Ech.exists_exact_oracle (K := ℚ)
  let F : ∀ n, (A : Matrix (Fin n) (Fin n) ℚ) → LU.FullLU A := fun n A => (LU.exists_fullLU n A).some
  let cfg : Config ℚ 3 1 1 1 Unit :=
    { env := { o := oracle, sort := Ech.sortImpl, P := fun n => Idx.stableImpl, thr := 1/100000000, eps := 0, debug := false }
      pb := exQuadProblem
      method := .nullspace
      inners := fun c => ⟨luInner 0 (Fintype.equivFin _) (F _) 0, luInner 0 (Fintype.equivFin _) (F _) 0, luInner 0 (Fintype.equivFin _) (F _) 0⟩
      user := fun t x p _ => some (t, exQuad.evals x p)
      userJac := fun t x p _ => some (t, exQuad.evals x p)
      phi := none }
  refine ⟨cfg, rfl, fun mem errors ax du history => ?_⟩
  obtain ⟨t, h1, h2, -, -, h5⟩ := quadratic_solve (cfg := cfg) (by norm_num [cfg]) rfl rfl ho (by norm_num) rfl (fun c => ⟨_, _, _, Fintype.equivFin _, Fintype.equivFin _, Fintype.equivFin _, F, 0, rfl⟩)
    (by intro h; cases h) exQuad (fun t x p q => ⟨t, exQuad.evals x p, rfl, ⟨rfl, rfl, rfl, rfl, rfl, rfl, rfl, rfl, rfl⟩⟩) exQuadSolution exQuad_kkt exQuad_unique
    exQuad_inBounds
    { maxiters := 200, tolerance := 1/1000000000, minmax := false, debug := false } (by norm_num) (by norm_num) () mem errors ax du history exQuadStart
    (by
      have h : ∀ i, exQuadProblem.xlower i ≠ some ((clampVec exQuadProblem.bounds exQuadStart).x i) ∧ exQuadProblem.xupper i ≠ some ((clampVec exQuadProblem.bounds exQuadStart).x i) := by decide +kernel
      exact fun i => ⟨fun e => absurd e (h i).1, fun e => absurd e (h i).2⟩)
  exact ⟨t, (h1 _).2 rfl, h2, h5⟩

end Optima
