import Verif.Props.Divergence
import Mathlib.Analysis.SpecialFunctions.ExpDeriv
import Mathlib.Analysis.Complex.ExponentialBounds
import Mathlib.Analysis.SpecialFunctions.Trigonometric.Bounds
import Mathlib.Algebra.Order.Archimedean.Basic

/-!
# C62: classes of convex problems that are solved from every start

A full Newton step without line search diverges in general (`convex_diverges`).  It does converge from everywhere when the derivative of each term of a separable objective is itself convex or concave (the iterates are monotone after the first
step), and when the second derivatives vary little relative to a fixed quadratic form (then linear constraints are allowed).
-/

set_option linter.unusedSectionVars false

namespace Optima

open Matrix

variable {K : Type*} [Field K] [LinearOrder K] [IsStrictOrderedRing K] {nx np ny nz : ℕ} {τ : Type*}

section generic

variable {cfg : Config K nx np ny nz τ}

/-- If a property of the iterates is kept by Newton steps and after `N + 1` steps implies a small error, the solve succeeds within `N + 1` iterations. -/
theorem solve_eventually (hthr : 0 ≤ cfg.env.thr) (heps : cfg.env.eps = 0) (hd : cfg.env.debug = false) (hnx : 0 < nx) (hphi : cfg.phi = none)
    (huser : ∀ t x p q, ∃ r, cfg.user t x p q = some r) (o : SolveOptions K) (P : ℕ → MVec K nx np (ny + nz) → Prop) (hB : ∀ k u, P k u → InBounds cfg.pb.bounds u)
    (hstep : ∀ k s u sm un, EvaluatedAt cfg s u → P k u → cfg.newton s u = some (sm, un) → P (k + 1) un) (N : ℕ) (hN : N < o.maxiters)
    (herr : ∀ s u, EvaluatedAt cfg s u → P (N + 1) u → s.errors.error < o.tolerance)
    (user : τ) (mem errors ax du) (history : History K) (u : MVec K nx np (ny + nz)) (hu : P 0 u) :
    ∃ t, (∀ r, Solve (cfg.machine none) o cfg.pb.bounds (cfg.start user mem errors ax du) history u r ↔ r = some t) ∧
      (solveResult o t).succeeded = true ∧ (solveResult o t).iterations ≤ N + 1 ∧ 0 < t.iterations ∧ P t.iterations t.u ∧ EvaluatedAt cfg t.mach t.u ∧ t.mach.errors.error < o.tolerance := by
  have hinv := machine_inv hthr heps.ge hnx (cfg := cfg) none
  have hstep1 : ∀ k s s1, Reach cfg s.mach → EvaluatedAt cfg s.mach s.u → s.uo = s.u → P k s.u → step (cfg.machine none) o cfg.pb.bounds s = some s1 →
      Reach cfg s1.mach ∧ EvaluatedAt cfg s1.mach s1.u ∧ P (k + 1) s1.u ∧ s1.iterations = s.iterations + 1 := by
    intro k s s1 h1 h2 h3 h4 h5
    unfold step at h5
    dsimp only at h5
    split at h5
    · cases h5
    · rename_i tm un hn
      change cfg.newton s.mach s.uo = some (tm, un) at hn
      rw [h3] at hn
      have hP := hstep k _ _ _ _ h2 h4 hn
      rw [transform_no_phi (by change Option.map _ cfg.phi = none; rw [hphi]; rfl)] at h5
      dsimp only at h5
      unfold errorControl at h5
      dsimp only at h5
      rw [backtrack_accepts o.debug o.minmax (by rw [h3]; exact hB _ _ h4) (hB _ _ hP)] at h5
      dsimp only at h5
      obtain ⟨e1, e2, e3, e4, e5, e6⟩ := evalAt_u h5
      obtain ⟨f1, f2⟩ := evalAt_inv hinv (by exact hinv.newton _ _ _ _ h1 hn) h5
      refine ⟨f1, f2, ?_, e3⟩
      rw [e1]
      exact hP
  have hmach : ∀ {s1 s2 : SolveState (Parts K nx np ny nz τ cfg.pb.Ax) K nx np (ny + nz)} {b}, stepping (cfg.machine none) o s1 = some (s2, b) → s2.mach = s1.mach := by
    intro s1 s2 b h'
    unfold stepping at h'
    dsimp only at h'
    split_ifs at h'
    · cases h'; rfl
    split at h'
    · simp only [Option.some.injEq, Prod.mk.injEq] at h'
      rw [← h'.1]
    · rw [show (cfg.machine none).check = none from rfl] at h'
      cases h'; rfl
  have hloop : ∀ s r, Loop (cfg.machine none) o cfg.pb.bounds s r → ∀ t, r = some t → Reach cfg s.mach → EvaluatedAt cfg s.mach s.u → s.uo = s.u → P s.iterations s.u → s.iterations ≤ N →
      0 < t.iterations ∧ t.iterations ≤ N + 1 ∧ P t.iterations t.u ∧ EvaluatedAt cfg t.mach t.u ∧ t.mach.errors.error < o.tolerance := by
    intro s r h
    induction h with
    | stepFails s h => intro t e; cases e
    | checkFails s s1 h h' => intro t e; cases e
    | stop s s1 s2 h h' =>
      rintro t ⟨⟩ h1 h2 h3 h4 h5
      obtain ⟨a1, a2, a3, a4⟩ := hstep1 _ s s1 h1 h2 h3 h4 h
      obtain ⟨b1, b2, -, b4, -, b6, b7⟩ := stepping_spec h'
      rw [b2, b1, a4, hmach h']
      refine ⟨by omega, by omega, a3, a2, ?_⟩
      rcases (b7 (by omega)).2.1 rfl with c | ⟨-, f, t, hc, -⟩
      · exact c
      · cases hc
    | again s s1 s2 r h h' _ ih =>
      intro t e h1 h2 h3 h4 h5
      obtain ⟨a1, a2, a3, a4⟩ := hstep1 _ s s1 h1 h2 h3 h4 h
      obtain ⟨b1, b2, -, b4, -, b6, b7⟩ := stepping_spec h'
      have hle : s1.iterations ≤ o.maxiters := by omega
      have hlt : s1.iterations ≤ N := by
        by_contra hn
        have e : s.iterations = N := by omega
        have hb : true = false := (b7 hle).2.2 (Or.inl (herr _ _ a2 (e ▸ a3)))
        cases hb
      exact ih t e (by rw [hmach h']; exact a1) (by rw [hmach h', b1]; exact a2) ((b7 hle).1.trans b1.symm) (by rw [b1, b2, a4]; exact a3) (by rw [b2]; exact hlt)
  obtain ⟨t, ht⟩ := solve_returns hthr heps.ge hd hnx none (noPhi hphi) huser (fun f hf => by cases hf) o (inBounds_consistent (hB _ u hu)) user mem errors ax du history u
  have huq : ∀ r, Solve (cfg.machine none) o cfg.pb.bounds (cfg.start user mem errors ax du) history u r ↔ r = some t := by
    intro r
    obtain ⟨⟨r0, h0, h1⟩, -⟩ := solve_budget (cfg.machine none) o cfg.pb.bounds (cfg.start user mem errors ax du) history u
    constructor
    · intro hr; rw [h1 r hr, h1 _ ht]
    · rintro rfl; exact ht
  refine ⟨t, huq, ?_⟩
  cases ht with
  | run s r es hl =>
    obtain ⟨su, suo, sit, -, -⟩ := solveInit_spec es
    obtain ⟨q0, p0⟩ := evalAt_inv hinv (s := { mach := cfg.start user mem errors ax du, u := clampVec cfg.pb.bounds u, uo := clampVec cfg.pb.bounds u, iterations := 0, history := history.init, trace := [] })
        (start_reach cfg user mem errors ax du) es
    obtain ⟨c1, c2, c3⟩ := hloop s _ hl t rfl q0 p0 (suo.trans su.symm) (by rw [sit, su, clampVec_of_inBounds (hB _ u hu)]; exact hu) (by rw [sit]; exact Nat.zero_le _)
    refine ⟨?_, c2, c1, c3⟩
    change decide (t.iterations ≤ o.maxiters) = true
    simpa using by omega

variable {F : Smooth K nx np nz}

/-- The variables have no bounds. -/
def Unbounded (pb : MProblem K nx np ny nz) : Prop := (∀ i, pb.xlower i = none ∧ pb.xupper i = none) ∧ ∀ q, pb.plower q = none ∧ pb.pupper q = none

theorem Unbounded.inBounds {pb : MProblem K nx np ny nz} (h : Unbounded pb) (u : MVec K nx np (ny + nz)) : InBounds pb.bounds u :=
  ⟨fun i => ⟨fun l e => (by rw [show pb.bounds.xlower i = none from (h.1 i).1] at e; cases e), fun l e => (by rw [show pb.bounds.xupper i = none from (h.1 i).2] at e; cases e)⟩,
    fun i => ⟨fun l e => (by rw [show pb.bounds.plower i = none from (h.2 i).1] at e; cases e), fun l e => (by rw [show pb.bounds.pupper i = none from (h.2 i).2] at e; cases e)⟩⟩

theorem Unbounded.ju {env : Env K} {pb : MProblem K nx np ny nz} (hb : Unbounded pb) {ev u rf} (h : RFSpec env pb ev u rf) (i : Fin nx) : i ∉ rf.M.ju := fun hi => by
  rcases (h.unstable i hi).2 with h1 | h1
  · rw [(hb.1 i).1] at h1; cases h1.1
  · rw [(hb.1 i).2] at h1; cases h1.1

/-- The Newton step for unbounded variables: the linearised conditions hold at the new point. -/
theorem Smooth.free_step (heps : cfg.env.eps = 0) (ho : ∀ M, (cfg.env.o M).lu.Z = 0) (hlu : LUInners cfg) (hm : cfg.method ≠ .rangespace) (hb : Unbounded cfg.pb)
    (huser : ∀ t x p q, ∃ t' ev, cfg.user t x p q = some (t', ev) ∧ F.Returns x p ev)
    (hrows : ∀ (y : Fin ny → K) (z : Fin nz → K), (∀ i, ∑ l, cfg.pb.Ax l i * y l + ∑ l, F.hx l i * z l = 0) → y = 0 ∧ z = 0)
    {s sm uo un} (hs : EvaluatedAt cfg s uo)
    (hns : ∀ d : MVec K nx np (ny + nz), (∀ i, ∑ j, F.H uo.x uo.p i j * d.x j + ∑ q, F.Hp uo.x uo.p i q * d.p q + (∑ l, cfg.pb.Ax l i * d.w (Fin.castAdd nz l) + ∑ l, F.hx l i * d.w (Fin.natAdd ny l)) = 0) →
      (∀ r, ∑ j, F.vx uo.x uo.p r j * d.x j + ∑ q, F.vp uo.x uo.p r q * d.p q = 0) → (∀ l, ∑ j, cfg.pb.Ax l j * d.x j + ∑ q, cfg.pb.Ap l q * d.p q = 0) → (∀ l, ∑ j, F.hx l j * d.x j + ∑ q, F.hp l q * d.p q = 0) → d.x = 0 ∧ d.p = 0)
    (hn : cfg.newton s uo = some (sm, un)) :
    (∀ i, ∑ j, F.H uo.x uo.p i j * (un.x j - uo.x j) + ∑ q, F.Hp uo.x uo.p i q * (un.p q - uo.p q) + F.g uo.x uo.p i + (∑ l, cfg.pb.Ax l i * un.w (Fin.castAdd nz l) + ∑ l, F.hx l i * un.w (Fin.natAdd ny l)) = 0) ∧
    (∀ r, ∑ j, F.vx uo.x uo.p r j * (un.x j - uo.x j) + ∑ q, F.vp uo.x uo.p r q * (un.p q - uo.p q) + F.v uo.x uo.p r = 0) ∧
    (∀ l, ∑ j, cfg.pb.Ax l j * un.x j + ∑ q, cfg.pb.Ap l q * un.p q = cfg.pb.b l) ∧ F.hx *ᵥ un.x + F.hp *ᵥ un.p + F.h0 = 0 := by
  obtain ⟨ev, rf, ew0, hrf, hspec, herr, t0, t1, q, hu⟩ := hs
  have hev : F.Returns uo.x uo.p ev := by
    obtain ⟨t', ev', e, hr⟩ := huser t0 uo.x uo.p q
    rw [hu] at e; cases e; exact hr
  have hnot := hb.ju hspec
  have hE := rf_echelon heps hspec
  have hind : ∀ y : Fin (ny + nz) → K, (∀ i, ∑ l, rf.M.Wx l i * y l = 0) → y = 0 := by
    intro y hy
    obtain ⟨e1, e2⟩ := hrows (fun l => y (Fin.castAdd nz l)) (fun l => y (Fin.natAdd ny l)) fun i => by
      have := hy i
      rw [hspec.Wx, hev.hx, Fin.sum_univ_add] at this
      simpa only [stack, Fin.addCases_left, Fin.addCases_right] using this
    funext l
    refine Fin.addCases (fun l => ?_) (fun l => ?_) l
    · exact congrFun e1 l
    · exact congrFun e2 l
  obtain ⟨hR, hC⟩ := full_row_rank hE (rf_full_rank ho hspec hind)
  have hker : ∀ d : MVec K nx np (ny + nz), SolvesMaster rf.M ⟨0, 0, 0⟩ d → d = ⟨0, 0, 0⟩ := by
    intro d hd
    have st : ∀ i, ∑ j, F.H uo.x uo.p i j * d.x j + ∑ q, F.Hp uo.x uo.p i q * d.p q + (∑ l, cfg.pb.Ax l i * d.w (Fin.castAdd nz l) + ∑ l, F.hx l i * d.w (Fin.natAdd ny l)) = 0 := fun i => by
      have e := hd.stable i (hnot i)
      simp only [hnot, if_false] at e
      rw [hspec.Hxx, hspec.Hxp, hev.fxx, hev.fxp, hspec.Wx, hev.hx, Fin.sum_univ_add] at e
      simpa only [stack, Fin.addCases_left, Fin.addCases_right, Pi.zero_apply] using e
    obtain ⟨z1, z2⟩ := hns d st
      (fun r => by
        have e := hd.par r
        simp only [hnot, if_false] at e
        rw [hspec.Vpx, hspec.Vpp, hev.vx, hev.vp] at e
        rw [e]; simp)
      (fun l => by
        have e := hd.constr (Fin.castAdd nz l)
        simp only [hnot, if_false] at e
        rw [hspec.Wx, hspec.Wp] at e
        simpa only [stack, Fin.addCases_left, Pi.zero_apply] using e)
      (fun l => by
        have e := hd.constr (Fin.natAdd ny l)
        simp only [hnot, if_false] at e
        rw [hspec.Wx, hspec.Wp, hev.hx, hev.hp] at e
        simpa only [stack, Fin.addCases_right, Pi.zero_apply] using e)
    obtain ⟨e1, e2⟩ := hrows (fun l => d.w (Fin.castAdd nz l)) (fun l => d.w (Fin.natAdd ny l)) fun i => by
      have := st i
      rw [z1, z2] at this
      simpa using this
    ext i
    · rw [z1]
    · rw [z2]
    · refine Fin.addCases (fun l => ?_) (fun l => ?_) i
      · exact congrFun e1 l
      · exact congrFun e2 l
  obtain ⟨dn, hdn, hx, hp, hw⟩ := newton_solves heps hrf hspec hR (hC _) (luInners_ok hlu hm hspec.canon hE hR hker _) (fun e => absurd e hm) hn
  obtain ⟨-, k2, k3, k4, k5⟩ := Smooth.step_eqs (A := fun _ => False) hspec hev (fun i => ⟨fun h => hnot i h, fun h => h.elim⟩) hdn hx hp hw
  exact ⟨fun i => k2 i id, k3, k4, k5⟩

/-- The reported error is small if the conditions hold up to the tolerance and the constraints exactly. -/
theorem Smooth.free_error (heps : cfg.env.eps = 0) (hb : Unbounded cfg.pb) (huser : ∀ t x p q, ∃ t' ev, cfg.user t x p q = some (t', ev) ∧ F.Returns x p ev) {s u} (hs : EvaluatedAt cfg s u) {e : K} (he : 0 ≤ e)
    (hg : ∀ i, |F.mult cfg.pb u i| ≤ e) (hv : ∀ q, |F.v u.x u.p q| ≤ e) (hA : ∀ l, ∑ j, cfg.pb.Ax l j * u.x j + ∑ q, cfg.pb.Ap l q * u.p q = cfg.pb.b l) (hh : F.hx *ᵥ u.x + F.hp *ᵥ u.p + F.h0 = 0) : s.errors.error ≤ e := by
  obtain ⟨ev, rf, ew0, hrf, hspec, herr, t0, t1, q, hu⟩ := hs
  have hev : F.Returns u.x u.p ev := by
    obtain ⟨t', ev', e, hr⟩ := huser t0 u.x u.p q
    rw [hu] at e; cases e; exact hr
  obtain ⟨ax0, hres⟩ := hspec.res
  obtain ⟨m1, m2, m3, m4, m5, m6⟩ := residual_master cfg.env.eps hspec.canon ax0 (rfArgs cfg.pb rf.M ev u)
  rw [← hres] at m1 m2 m3 m4 m5 m6
  have hE := rf_echelon heps hspec
  rw [herr, error_le_iff hspec.canon (basics_le_rows hspec.canon hspec.b) _ _ _ _ _ _ he]
  refine ⟨fun i hi _ => ?_, fun q => ?_, fun b => ?_⟩
  · rw [m1 i hi, abs_neg]
    refine le_trans (le_of_eq (congrArg abs ?_)) (hg i)
    unfold lagGrad rfArgs Smooth.mult
    dsimp only
    rw [hev.fx, hspec.Wx, hev.hx]
    simp only [stack, Fin.addCases_left, Fin.addCases_right]
  · rw [m3 q]
    change |- ev.v q| ≤ _
    rw [abs_neg, hev.v]
    exact hv q
  · have hf : ∀ l, feasRes (rfArgs cfg.pb rf.M ev u) l = 0 := by
      intro l
      refine Fin.addCases (fun l => ?_) (fun l => ?_) l
      · simp only [feasRes, Fin.addCases_left]
        change cfg.pb.b l - ∑ j, rf.M.Wx (Fin.castAdd nz l) j * u.x j - ∑ q, rf.M.Wp (Fin.castAdd nz l) q * u.p q = 0
        rw [hspec.Wx, hspec.Wp]
        simp only [stack, Fin.addCases_left]
        linear_combination -(hA l)
      · simp only [feasRes, Fin.addCases_right]
        change - ev.h l = 0
        rw [hev.h, hh]
        simp
    rw [hres, heps, residual_canonical_exact hspec.canon hE ax0 (rfArgs cfg.pb rf.M ev u) rfl rfl b]
    simp only [hf, mul_zero, Finset.sum_const_zero, abs_zero]
    exact he

/-- The reported error bounds the residuals of the stationarity conditions. -/
theorem Smooth.free_error_ge (hb : Unbounded cfg.pb) (huser : ∀ t x p q, ∃ t' ev, cfg.user t x p q = some (t', ev) ∧ F.Returns x p ev) {s u} (hs : EvaluatedAt cfg s u) (i : Fin nx) : |F.mult cfg.pb u i| ≤ s.errors.error := by
  obtain ⟨ev, rf, ew0, hrf, hspec, herr, t0, t1, q, hu⟩ := hs
  have hev : F.Returns u.x u.p ev := by
    obtain ⟨t', ev', e, hr⟩ := huser t0 u.x u.p q
    rw [hu] at e; cases e; exact hr
  obtain ⟨ax0, hres⟩ := hspec.res
  obtain ⟨m1, m2, m3, m4, m5, m6⟩ := residual_master cfg.env.eps hspec.canon ax0 (rfArgs cfg.pb rf.M ev u)
  rw [← hres] at m1
  have h0 : 0 ≤ s.errors.error := by rw [herr]; exact le_trans (normInf_nonneg _) (le_max_right _ _)
  have hle := (error_le_iff hspec.canon (basics_le_rows hspec.canon hspec.b) cfg.pb.xlower cfg.pb.xupper u.x rf.res ew0 _ h0).1 (by rw [herr])
  have := hle.1 i (hb.ju hspec i) (by rintro ⟨-, hc⟩; rcases hc with hc | hc <;> simp [(hb.1 i).1, (hb.1 i).2] at hc)
  rw [m1 i (hb.ju hspec i), abs_neg] at this
  refine le_trans (le_of_eq (congrArg abs ?_)) this
  unfold lagGrad rfArgs Smooth.mult
  dsimp only
  rw [hev.fx, hspec.Wx, hev.hx]
  simp only [stack, Fin.addCases_left, Fin.addCases_right]

end generic

/-! ## Separable objectives with convex or concave derivatives -/

section line

variable {g h : K → K} {c x : K}

/-- The tangents of `g` are below `g`. -/
def TangentBelow (g h : K → K) : Prop := ∀ s t, g s + h s * (t - s) ≤ g t

/-- The tangents of `g` are above `g`. -/
def TangentAbove (g h : K → K) : Prop := ∀ s t, g t ≤ g s + h s * (t - s)

theorem TangentAbove.mirror (H : TangentAbove g h) : TangentBelow (fun s => - g (- s)) (fun s => h (- s)) := fun s t => by
  have := H (-s) (-t)
  dsimp only
  linarith

theorem TangentBelow.right (H : TangentBelow g h) (hpos : ∀ s, 0 < h s) (hc : g c = 0) (s : K) : c ≤ s - g s / h s := by
  have := H s c
  rw [hc] at this
  have h1 : g s / h s ≤ s - c := by rw [div_le_iff₀ (hpos s)]; linarith
  linarith

theorem TangentBelow.mono (H : TangentBelow g h) {s t : K} (hst : s ≤ t) : h s ≤ h t := by
  rcases hst.eq_or_lt with e | e
  · rw [e]
  have h1 := H s t
  have h2 := H t s
  by_contra hn
  have : 0 < (h s - h t) * (t - s) := mul_pos (by linarith [not_le.1 hn]) (by linarith)
  linarith

/-- The iterates to the right of the root: they decrease, and the sum of the steps bounds the derivative. -/
theorem TangentBelow.step (H : TangentBelow g h) (hpos : ∀ s, 0 < h s) (hc : g c = 0) {a : K} {k : ℕ} (h1 : c ≤ x) (h2 : x ≤ a) (h3 : k * g x ≤ h a * (a - x)) :
    c ≤ x - g x / h x ∧ x - g x / h x ≤ a ∧ ((k + 1 : ℕ) : K) * g (x - g x / h x) ≤ h a * (a - (x - g x / h x)) := by
  have hg : 0 ≤ g x := by
    have := H c x
    have := mul_nonneg (hpos c).le (sub_nonneg.2 h1)
    linarith
  have hd : 0 ≤ g x / h x := div_nonneg hg (hpos x).le
  refine ⟨H.right hpos hc x, by linarith, ?_⟩
  have hle : g (x - g x / h x) ≤ g x := by
    have h4 := H (x - g x / h x) x
    have h5 : 0 ≤ h (x - g x / h x) * (x - (x - g x / h x)) := mul_nonneg (hpos _).le (by linarith)
    linarith
  have h6 : ((k + 1 : ℕ) : K) * g (x - g x / h x) ≤ ((k + 1 : ℕ) : K) * g x := mul_le_mul_of_nonneg_left hle (Nat.cast_nonneg _)
  have h7 : g x = h x * (g x / h x) := by field_simp [(hpos x).ne']
  have h8 : h x * (g x / h x) ≤ h a * (g x / h x) := mul_le_mul_of_nonneg_right (H.mono h2) hd
  push_cast at h6 ⊢
  calc _ ≤ _ := h6
    _ = k * g x + g x := by ring
    _ ≤ h a * (a - x) + h a * (g x / h x) := add_le_add h3 (h7.le.trans h8)
    _ = _ := by ring

/-- What is known of an iterate after the first, `a`: it lies between the root and `a`, and the `k`-fold derivative is bounded. -/
def TowardRoot (g h : K → K) (c a : K) (k : ℕ) (x : K) : Prop :=
  (TangentBelow g h ∧ c ≤ x ∧ x ≤ a ∧ k * g x ≤ h a * (a - x)) ∨ (TangentAbove g h ∧ x ≤ c ∧ a ≤ x ∧ k * (- g x) ≤ h a * (x - a))

theorem towardRoot_first (H : TangentBelow g h ∨ TangentAbove g h) (hpos : ∀ s, 0 < h s) (hc : g c = 0) (x : K) : TowardRoot g h c (x - g x / h x) 0 (x - g x / h x) := by
  rcases H with H | H
  · exact Or.inl ⟨H, H.right hpos hc x, le_rfl, by simp⟩
  · refine Or.inr ⟨H, ?_, le_rfl, by simp⟩
    have := H.mirror.right (c := - c) (fun s => hpos _) (by simp [hc]) (- x)
    simp only [neg_neg, neg_div] at this
    linarith

theorem TowardRoot.step (hpos : ∀ s, 0 < h s) (hc : g c = 0) {a : K} {k : ℕ} (H : TowardRoot g h c a k x) : TowardRoot g h c a (k + 1) (x - g x / h x) := by
  rcases H with ⟨H, h1, h2, h3⟩ | ⟨H, h1, h2, h3⟩
  · exact Or.inl ⟨H, H.step hpos hc h1 h2 h3⟩
  · obtain ⟨a1, a2, a3⟩ := H.mirror.step (c := - c) (x := - x) (a := - a) (k := k) (fun s => hpos _) (by simp [hc]) (by linarith) (by linarith) (by simp only [neg_neg]; linarith)
    simp only [neg_neg, neg_div] at a1 a2 a3
    have e : -(-x - -(g x / h x)) = x - g x / h x := by ring
    rw [e] at a3
    exact Or.inr ⟨H, by linarith, by linarith, by linarith⟩

theorem TowardRoot.bound (hpos : ∀ s, 0 < h s) (hc : g c = 0) {a : K} {k : ℕ} (H : TowardRoot g h c a k x) : k * |g x| ≤ h a * |a - c| ∧ h c * |x - c| ≤ |g x| := by
  have key : ∀ {g h : K → K} {c x a : K}, (∀ s, 0 < h s) → g c = 0 → TangentBelow g h → c ≤ x → x ≤ a → k * g x ≤ h a * (a - x) → k * |g x| ≤ h a * |a - c| ∧ h c * |x - c| ≤ |g x| := by
    intro g h c x a hpos hc H h1 h2 h3
    have h4 := H c x
    have h5 := mul_nonneg (hpos c).le (sub_nonneg.2 h1)
    rw [abs_of_nonneg (by linarith : 0 ≤ g x), abs_of_nonneg (by linarith : 0 ≤ a - c), abs_of_nonneg (by linarith : 0 ≤ x - c)]
    refine ⟨h3.trans (mul_le_mul_of_nonneg_left (by linarith) (hpos a).le), by linarith⟩
  rcases H with ⟨H, h1, h2, h3⟩ | ⟨H, h1, h2, h3⟩
  · exact key hpos hc H h1 h2 h3
  · have := key (c := - c) (x := - x) (a := - a) (fun s => hpos _) (by simp [hc]) H.mirror (by linarith) (by linarith) (by simp only [neg_neg]; linarith)
    simp only [neg_neg, abs_neg] at this
    rwa [show - a - - c = -(a - c) by ring, show - x - - c = -(x - c) by ring, abs_neg, abs_neg] at this

end line

/-- The functions of a separable objective: derivatives `g i (x i)` and `h i (x i)`; no parameters, no constraints. -/
def separable (g h : Fin nx → K → K) : Smooth K nx 0 0 where
  g := fun x _ i => g i (x i)
  H := fun x _ => Matrix.diagonal fun i => h i (x i)
  Hp := 0
  hx := fun l => l.elim0
  hp := fun l => l.elim0
  h0 := fun l => l.elim0
  v := fun _ _ q => q.elim0
  vx := fun _ _ q => q.elim0
  vp := fun _ _ q => q.elim0

/-- **C62**, separable objectives: if the objective is a sum of functions of one variable each, with positive second derivatives, whose derivatives are convex or concave and have a root `c i`, then a solve without bounds and constraints started anywhere
    succeeds when enough iterations are allowed; their number is bounded by the data at the first iterate `a`.  Missing: other strictly convex objectives, for which the claim is false (`convex_diverges`).  Exact arithmetic, full-space or null-space method. -/
theorem separable_solve_partial {cfg : Config K nx 0 0 0 τ} (hb : Unbounded cfg.pb) (hnx : 0 < nx) (hthr : 0 ≤ cfg.env.thr) (heps : cfg.env.eps = 0) (hd : cfg.env.debug = false) (ho : ∀ M, (cfg.env.o M).lu.Z = 0) (hphi : cfg.phi = none)
    (hlu : LUInners cfg) (hm : cfg.method ≠ .rangespace) (g h : Fin nx → K → K) (c : Fin nx → K) (hpos : ∀ i s, 0 < h i s) (hcurv : ∀ i, TangentBelow (g i) (h i) ∨ TangentAbove (g i) (h i)) (hroot : ∀ i, g i (c i) = 0)
    (huser : ∀ t x p q, ∃ t' ev, cfg.user t x p q = some (t', ev) ∧ (separable g h).Returns x p ev)
    (o : SolveOptions K) (user : τ) (mem errors ax du) (history : History K) (u : MVec K nx 0 (0 + 0)) (a : Fin nx → K) (ha : ∀ i, a i = u.x i - g i (u.x i) / h i (u.x i))
    (N : ℕ) (hN : N < o.maxiters) (htol : ∀ i, h i (a i) * |a i - c i| < N * o.tolerance) :
    ∃ t, (∀ r, Solve (cfg.machine none) o cfg.pb.bounds (cfg.start user mem errors ax du) history u r ↔ r = some t) ∧
      (solveResult o t).succeeded = true ∧ (solveResult o t).iterations ≤ N + 1 ∧ ∀ i, |g i (t.u.x i)| < o.tolerance ∧ h i (c i) * |t.u.x i - c i| < o.tolerance := by
  have hmult : ∀ (v : MVec K nx 0 (0 + 0)) i, (separable g h).mult cfg.pb v i = g i (v.x i) := fun v i => by
    simp [Smooth.mult, separable]
  have hnewton : ∀ s v sm un, EvaluatedAt cfg s v → cfg.newton s v = some (sm, un) → ∀ i, un.x i = v.x i - g i (v.x i) / h i (v.x i) := by
    intro s v sm un hs hn i
    obtain ⟨k1, -⟩ := Smooth.free_step heps ho hlu hm hb huser (fun y z _ => ⟨funext fun l => l.elim0, funext fun l => l.elim0⟩) hs
      (fun d hd _ _ _ => ⟨funext fun i => by
        have := hd i
        simp [separable, Matrix.diagonal_apply, (hpos i _).ne'] at this
        exact this, funext fun l => l.elim0⟩) hn
    have := k1 i
    simp [separable, Matrix.diagonal_apply] at this
    have hp := hpos i (v.x i)
    field_simp
    linear_combination this
  let P : ℕ → MVec K nx 0 (0 + 0) → Prop := fun k v => (k = 0 → v = u) ∧ ∀ k', k = k' + 1 → ∀ i, TowardRoot (g i) (h i) (c i) (a i) k' (v.x i)
  obtain ⟨t, h1, h2, h3, h4, h5, h6, h7⟩ := solve_eventually hthr heps hd hnx hphi (fun t x p q => let ⟨_, _, e, _⟩ := huser t x p q; ⟨_, e⟩) o P (fun k v _ => hb.inBounds v)
    (by
      rintro k s v sm un hs ⟨p1, p2⟩ hn
      refine ⟨fun e => by omega, fun k' e i => ?_⟩
      have hk : k' = k := by omega
      subst hk
      rw [hnewton s v sm un hs hn i]
      rcases k' with _ | k'
      · rw [p1 rfl, ha i]
        exact towardRoot_first (hcurv i) (hpos i) (hroot i) _
      · exact (p2 k' rfl i).step (hpos i) (hroot i))
    N hN
    (by
      rintro s v hs ⟨-, p2⟩
      have : Nonempty (Fin nx) := ⟨⟨0, hnx⟩⟩
      obtain ⟨i0, -, hmax⟩ := Finset.exists_max_image Finset.univ (fun i => |g i (v.x i)|) Finset.univ_nonempty
      refine lt_of_le_of_lt (Smooth.free_error heps hb huser hs (e := |g i0 (v.x i0)|) (abs_nonneg _) (fun i => by rw [hmult]; exact hmax i (Finset.mem_univ i)) (fun q => q.elim0) (fun l => l.elim0) (funext fun l => l.elim0)) ?_
      have hb1 := ((p2 N rfl i0).bound (hpos i0) (hroot i0)).1
      have hN0 : (0 : K) < N := by
        rcases Nat.eq_zero_or_pos N with e | e
        · have := htol i0
          rw [e, Nat.cast_zero, zero_mul] at this
          exact absurd this (not_lt.2 (mul_nonneg (hpos _ _).le (abs_nonneg _)))
        · exact_mod_cast e
      exact lt_of_mul_lt_mul_left (hb1.trans_lt (htol i0)) hN0.le)
    user mem errors ax du history u ⟨fun _ => rfl, fun k' e => by omega⟩
  refine ⟨t, h1, h2, h3, fun i => ?_⟩
  have hg : |g i (t.u.x i)| < o.tolerance := by
    have := Smooth.free_error_ge hb huser h6 i
    rw [hmult] at this
    exact this.trans_lt h7
  obtain ⟨k, hk⟩ := Nat.exists_eq_succ_of_ne_zero h4.ne'
  exact ⟨hg, ((h5.2 k hk i).bound (hpos i) (hroot i)).2.trans_lt hg⟩

/-- The derivative of a convex function gives tangents below. -/
theorem tangentBelow_of_convex {g h : ℝ → ℝ} (hd : ∀ s, HasDerivAt g (h s) s) (hc : ConvexOn ℝ Set.univ g) : TangentBelow g h := by
  intro s t
  rcases lt_trichotomy s t with e | e | e
  · have := hc.le_slope_of_hasDerivAt (Set.mem_univ s) (Set.mem_univ t) e (hd s)
    rw [slope_def_field, le_div_iff₀ (by linarith)] at this
    linarith
  · subst e; simp
  · have := hc.slope_le_of_hasDerivAt (Set.mem_univ t) (Set.mem_univ s) e (hd s)
    rw [slope_def_field, div_le_iff₀ (by linarith)] at this
    linarith

theorem tangentAbove_of_concave {g h : ℝ → ℝ} (hd : ∀ s, HasDerivAt g (h s) s) (hc : ConcaveOn ℝ Set.univ g) : TangentAbove g h := fun s t => by
  have := tangentBelow_of_convex (g := fun s => - g s) (h := fun s => - h s) (fun s => (hd s).neg) hc.neg s t
  dsimp only at this
  linarith

/-- **C62**, separable objectives over the reals: terms `f i` with positive second derivative and a minimiser, whose derivative is convex or concave.  From every start and for every tolerance there is a number of iterations with which the solve succeeds,
    at a point whose derivatives are below the tolerance. -/
theorem separable_convex_partial {cfg : Config ℝ nx 0 0 0 τ} (hb : Unbounded cfg.pb) (hnx : 0 < nx) (hthr : 0 ≤ cfg.env.thr) (heps : cfg.env.eps = 0) (hd : cfg.env.debug = false) (ho : ∀ M, (cfg.env.o M).lu.Z = 0) (hphi : cfg.phi = none)
    (hlu : LUInners cfg) (hm : cfg.method ≠ .rangespace) (f g h : Fin nx → ℝ → ℝ) (hf : ∀ i s, HasDerivAt (f i) (g i s) s) (hg : ∀ i s, HasDerivAt (g i) (h i s) s) (hpos : ∀ i s, 0 < h i s)
    (hcurv : ∀ i, ConvexOn ℝ Set.univ (g i) ∨ ConcaveOn ℝ Set.univ (g i)) (hmin : ∀ i, ∃ c, ∀ s, f i c ≤ f i s)
    (huser : ∀ t x p q, ∃ t' ev, cfg.user t x p q = some (t', ev) ∧ (separable g h).Returns x p ev) (u : MVec ℝ nx 0 (0 + 0)) (tol : ℝ) (htol : 0 < tol) :
    ∃ N : ℕ, ∀ (o : SolveOptions ℝ), o.tolerance = tol → N ≤ o.maxiters → ∀ (user : τ) (mem errors ax du) (history : History ℝ),
      ∃ t, (∀ r, Solve (cfg.machine none) o cfg.pb.bounds (cfg.start user mem errors ax du) history u r ↔ r = some t) ∧
        (solveResult o t).succeeded = true ∧ (solveResult o t).iterations ≤ N ∧ ∀ i, |g i (t.u.x i)| < tol := by
  choose c hc using hmin
  have hroot : ∀ i, g i (c i) = 0 := fun i => IsLocalMin.hasDerivAt_eq_zero (Filter.Eventually.of_forall (hc i)) (hf i (c i))
  obtain ⟨N, hN⟩ := exists_nat_gt (∑ i, h i (u.x i - g i (u.x i) / h i (u.x i)) * |u.x i - g i (u.x i) / h i (u.x i) - c i| / tol)
  refine ⟨N + 1, fun o ho' hmax user mem errors ax du history => ?_⟩
  obtain ⟨t, h1, h2, h3, h4⟩ := separable_solve_partial hb hnx hthr heps hd ho hphi hlu hm g h c hpos
    (fun i => (hcurv i).imp (tangentBelow_of_convex (hg i)) (tangentAbove_of_concave (hg i))) hroot huser o user mem errors ax du history u (fun i => u.x i - g i (u.x i) / h i (u.x i)) (fun i => rfl) N (by omega)
    (fun i => by
      rw [ho', ← div_lt_iff₀ htol]
      refine lt_of_le_of_lt ?_ hN
      exact Finset.single_le_sum (f := fun i => h i (u.x i - g i (u.x i) / h i (u.x i)) * |u.x i - g i (u.x i) / h i (u.x i) - c i| / tol) (fun i _ => div_nonneg (mul_nonneg (hpos _ _).le (abs_nonneg _)) htol.le) (Finset.mem_univ i))
  exact ⟨t, h1, h2, h3, fun i => ho' ▸ (h4 i).1⟩

/-! ## Second derivatives that vary little -/

/-- An objective without parameters. -/
def objective (g : (Fin nx → K) → Fin nx → K) (H : (Fin nx → K) → Matrix (Fin nx) (Fin nx) K) : Smooth K nx 0 0 where
  g := fun x _ => g x
  H := fun x _ => H x
  Hp := 0
  hx := fun l => l.elim0
  hp := fun l => l.elim0
  h0 := fun l => l.elim0
  v := fun _ _ q => q.elim0
  vx := fun _ _ q => q.elim0
  vp := fun _ _ q => q.elim0

/-- The quadratic form of a matrix. -/
def qform (B : Matrix (Fin nx) (Fin nx) K) (d : Fin nx → K) : K := ∑ i, d i * ∑ j, B i j * d j

/-- The gradient `g` and the Hessian `H` on the plane `A x = b`, compared with a fixed quadratic form `B`: the Hessian is at least `B`, and Newton's linearisation about any feasible point misses the gradient by at most the factor `√r` in the norm of `B`. -/
structure NearQuadratic (g : (Fin nx → K) → Fin nx → K) (H : (Fin nx → K) → Matrix (Fin nx) (Fin nx) K) (A : Matrix (Fin ny) (Fin nx) K) (b : Fin ny → K) (B : Matrix (Fin nx) (Fin nx) K) (xs : Fin nx → K) (r G : K) : Prop where
  feas : A *ᵥ xs = b
  grad : ∃ w : Fin ny → K, ∀ i, g xs i + ∑ l, A l i * w l = 0
  pos : ∀ d, A *ᵥ d = 0 → d ≠ 0 → 0 < qform B d
  ge : ∀ x d, A *ᵥ d = 0 → qform B d ≤ qform (H x) d
  near : ∀ x d, A *ᵥ x = b → A *ᵥ d = 0 → (∑ i, d i * (∑ j, H x i j * (x j - xs j) - (g x i - g xs i))) ^ 2 ≤ r * (qform B d * qform B (x - xs))
  taylor : ∀ x y, A *ᵥ x = b → A *ᵥ y = b → ∀ i, (g y i - g x i - ∑ j, H x i j * (y j - x j)) ^ 2 ≤ G * qform B (y - x)
  r_nonneg : 0 ≤ r
  r_lt : r < 1
  G_nonneg : 0 ≤ G

section nearQuadratic

variable {g : (Fin nx → K) → Fin nx → K} {H : (Fin nx → K) → Matrix (Fin nx) (Fin nx) K} {A : Matrix (Fin ny) (Fin nx) K} {b : Fin ny → K} {B : Matrix (Fin nx) (Fin nx) K} {xs : Fin nx → K} {r G : K}

theorem qform_parallelogram (B : Matrix (Fin nx) (Fin nx) K) (d e : Fin nx → K) : qform B (d - e) + qform B (d + e) = 2 * (qform B d + qform B e) := by
  unfold qform
  simp only [Pi.sub_apply, Pi.add_apply, Finset.mul_sum, ← Finset.sum_add_distrib]
  exact Finset.sum_congr rfl fun i _ => Finset.sum_congr rfl fun j _ => by ring

theorem NearQuadratic.nonneg (Q : NearQuadratic g H A b B xs r G) {d : Fin nx → K} (hd : A *ᵥ d = 0) : 0 ≤ qform B d := by
  by_cases h : d = 0
  · rw [h]; simp [qform]
  · exact (Q.pos d hd h).le

/-- The multipliers do no work along the constraints. -/
theorem mul_rows_zero {d : Fin nx → K} (hd : A *ᵥ d = 0) (w : Fin ny → K) : ∑ i, d i * ∑ l, A l i * w l = 0 := by
  simp only [Finset.mul_sum]
  rw [Finset.sum_comm]
  refine Finset.sum_eq_zero fun l _ => ?_
  have := congrFun hd l
  simp only [mulVec, dotProduct, Pi.zero_apply] at this
  calc ∑ i, d i * (A l i * w l) = (∑ i, A l i * d i) * w l := by rw [Finset.sum_mul]; exact Finset.sum_congr rfl fun i _ => by ring
    _ = 0 := by rw [this, zero_mul]

theorem NearQuadratic.nonsingular (Q : NearQuadratic g H A b B xs r G) {x d : Fin nx → K} {w : Fin ny → K} (hd : A *ᵥ d = 0) (h : ∀ i, ∑ j, H x i j * d j + ∑ l, A l i * w l = 0) : d = 0 := by
  by_contra hn
  have h1 := Q.pos d hd hn
  have h2 := Q.ge x d hd
  have h3 : qform (H x) d = 0 := by
    have : ∑ i, d i * (∑ j, H x i j * d j + ∑ l, A l i * w l) = 0 := Finset.sum_eq_zero fun i _ => by rw [h i, mul_zero]
    simp only [mul_add, Finset.sum_add_distrib, mul_rows_zero hd w] at this
    simpa [qform] using this
  linarith

/-- One step reduces the squared distance by the factor `r`. -/
theorem NearQuadratic.step (Q : NearQuadratic g H A b B xs r G) {x y : Fin nx → K} {w : Fin ny → K} (hx : A *ᵥ x = b) (hy : A *ᵥ y = b) (h : ∀ i, ∑ j, H x i j * (y j - x j) + g x i + ∑ l, A l i * w l = 0) :
    qform B (y - xs) ≤ r * qform B (x - xs) := by
  have hd : A *ᵥ (y - xs) = 0 := by rw [mulVec_sub, hy, Q.feas, sub_self]
  have he : A *ᵥ (x - xs) = 0 := by rw [mulVec_sub, hx, Q.feas, sub_self]
  obtain ⟨ws, hws⟩ := Q.grad
  have h1 := Q.ge x _ hd
  have h2 := Q.near x _ hx hd
  have h3 : qform (H x) (y - xs) = ∑ i, (y - xs) i * (∑ j, H x i j * (x j - xs j) - (g x i - g xs i)) := by
    have z1 := mul_rows_zero hd w
    have z2 := mul_rows_zero hd ws
    unfold qform
    rw [← sub_eq_zero, ← Finset.sum_sub_distrib]
    have : ∀ i, (y - xs) i * ∑ j, H x i j * (y - xs) j - (y - xs) i * (∑ j, H x i j * (x j - xs j) - (g x i - g xs i)) = (y - xs) i * (∑ l, A l i * ws l) - (y - xs) i * (∑ l, A l i * w l) := fun i => by
      have e1 := h i
      have e2 := hws i
      simp only [Pi.sub_apply, mul_sub, Finset.sum_sub_distrib] at e1 ⊢
      linear_combination (y i - xs i) * e1 - (y i - xs i) * e2
    simp only [this, Finset.sum_sub_distrib, z1, z2, sub_self]
  rw [← h3] at h2
  rcases (Q.nonneg hd).eq_or_lt with e | e
  · rw [← e]; exact mul_nonneg Q.r_nonneg (Q.nonneg he)
  · have h4 : qform B (y - xs) ^ 2 ≤ qform (H x) (y - xs) ^ 2 := pow_le_pow_left₀ e.le h1 2
    have h5 : qform B (y - xs) * qform B (y - xs) ≤ qform B (y - xs) * (r * qform B (x - xs)) := by linarith
    exact le_of_mul_le_mul_left h5 e

/-- The residual after a step. -/
theorem NearQuadratic.residual (Q : NearQuadratic g H A b B xs r G) {x y : Fin nx → K} {w : Fin ny → K} (hx : A *ᵥ x = b) (hy : A *ᵥ y = b) (h : ∀ i, ∑ j, H x i j * (y j - x j) + g x i + ∑ l, A l i * w l = 0) (i : Fin nx) :
    (g y i + ∑ l, A l i * w l) ^ 2 ≤ 4 * G * qform B (x - xs) := by
  have hd : A *ᵥ (y - xs) = 0 := by rw [mulVec_sub, hy, Q.feas, sub_self]
  have he : A *ᵥ (x - xs) = 0 := by rw [mulVec_sub, hx, Q.feas, sub_self]
  have h1 := Q.taylor x y hx hy i
  have h2 : g y i + ∑ l, A l i * w l = g y i - g x i - ∑ j, H x i j * (y j - x j) := by linear_combination h i
  rw [h2]
  refine h1.trans ?_
  have h3 := qform_parallelogram B (y - xs) (x - xs)
  rw [show y - xs - (x - xs) = y - x by abel] at h3
  have h4 : 0 ≤ qform B (y - xs + (x - xs)) := Q.nonneg (by rw [mulVec_add, hd, he, add_zero])
  have h5 := Q.step hx hy h
  have h6 : r * qform B (x - xs) ≤ 1 * qform B (x - xs) := mul_le_mul_of_nonneg_right Q.r_lt.le (Q.nonneg he)
  calc G * qform B (y - x) ≤ G * (4 * qform B (x - xs)) := mul_le_mul_of_nonneg_left (by linarith) Q.G_nonneg
    _ = _ := by ring

/-- **C62**, objectives whose second derivatives vary little: on the plane of the linear constraints the Hessian is at least a fixed form `B` and differs from its averages by less than `B`.  A solve without bounds started anywhere, feasible or not,
    succeeds when enough iterations are allowed; the squared distance to the solution falls by the factor `r` in every iteration after the first (`D`: squared distance of the first iterate).  Missing: strictly convex objectives whose second derivatives vary more,
    for which the claim is false (`convex_diverges`).  Exact arithmetic, full-space or null-space method. -/
theorem near_quadratic_partial {cfg : Config K nx 0 ny 0 τ} (hb : Unbounded cfg.pb) (hnx : 0 < nx) (hthr : 0 ≤ cfg.env.thr) (heps : cfg.env.eps = 0) (hd : cfg.env.debug = false) (ho : ∀ M, (cfg.env.o M).lu.Z = 0) (hphi : cfg.phi = none)
    (hlu : LUInners cfg) (hm : cfg.method ≠ .rangespace) (hrows : ∀ y : Fin ny → K, (∀ i, ∑ l, cfg.pb.Ax l i * y l = 0) → y = 0) (Q : NearQuadratic g H cfg.pb.Ax cfg.pb.b B xs r G)
    (huser : ∀ t x p q, ∃ t' ev, cfg.user t x p q = some (t', ev) ∧ (objective g H).Returns x p ev)
    (o : SolveOptions K) (htol : 0 < o.tolerance) (user : τ) (mem errors ax du) (history : History K) (u : MVec K nx 0 (ny + 0)) (D : K)
    (hD : ∀ (x : Fin nx → K) (w : Fin ny → K), cfg.pb.Ax *ᵥ x = cfg.pb.b → (∀ i, ∑ j, H u.x i j * (x j - u.x j) + g u.x i + ∑ l, cfg.pb.Ax l i * w l = 0) → qform B (x - xs) ≤ D)
    (N : ℕ) (hN : N + 1 < o.maxiters) (hrate : 4 * G * (r ^ N * D) < o.tolerance ^ 2) :
    ∃ t, (∀ r, Solve (cfg.machine none) o cfg.pb.bounds (cfg.start user mem errors ax du) history u r ↔ r = some t) ∧
      (solveResult o t).succeeded = true ∧ (solveResult o t).iterations ≤ N + 2 ∧ cfg.pb.Ax *ᵥ t.u.x = cfg.pb.b ∧ r * qform B (t.u.x - xs) ≤ r ^ t.iterations * D := by
  have hmult : ∀ (v : MVec K nx 0 (ny + 0)) i, (objective g H).mult cfg.pb v i = g v.x i + ∑ l, cfg.pb.Ax l i * v.w (Fin.castAdd 0 l) := fun v i => by
    simp [Smooth.mult, objective]
  have hnewton : ∀ s v sm un, EvaluatedAt cfg s v → cfg.newton s v = some (sm, un) →
      (∀ i, ∑ j, H v.x i j * (un.x j - v.x j) + g v.x i + ∑ l, cfg.pb.Ax l i * un.w (Fin.castAdd 0 l) = 0) ∧ cfg.pb.Ax *ᵥ un.x = cfg.pb.b := by
    intro s v sm un hs hn
    obtain ⟨k1, -, k3, -⟩ := Smooth.free_step heps ho hlu hm hb huser (fun y z hyz => ⟨hrows y fun i => by simpa using hyz i, funext fun l => l.elim0⟩) hs
      (fun d hd _ hA _ => ⟨Q.nonsingular (x := v.x) (w := fun l => d.w (Fin.castAdd 0 l)) (funext fun l => by simpa [mulVec, dotProduct] using hA l) fun i => by
        simpa [objective] using hd i, funext fun l => l.elim0⟩) hn
    refine ⟨fun i => ?_, funext fun l => ?_⟩
    · simpa [objective] using k1 i
    · simpa [mulVec, dotProduct] using k3 l
  let P : ℕ → MVec K nx 0 (ny + 0) → Prop := fun k v => (k = 0 → v = u) ∧ ∀ k', k = k' + 1 → cfg.pb.Ax *ᵥ v.x = cfg.pb.b ∧ qform B (v.x - xs) ≤ r ^ k' * D ∧
    ∀ j, k' = j + 1 → ∀ i, (g v.x i + ∑ l, cfg.pb.Ax l i * v.w (Fin.castAdd 0 l)) ^ 2 ≤ 4 * G * (r ^ j * D)
  obtain ⟨t, h1, h2, h3, h4, h5, h6, h7⟩ := solve_eventually hthr heps hd hnx hphi (fun t x p q => let ⟨_, _, e, _⟩ := huser t x p q; ⟨_, e⟩) o P (fun k v _ => hb.inBounds v)
    (by
      rintro k s v sm un hs ⟨p1, p2⟩ hn
      refine ⟨fun e => by omega, fun k' e => ?_⟩
      have hk : k' = k := by omega
      subst hk
      obtain ⟨n1, n2⟩ := hnewton s v sm un hs hn
      rcases k' with _ | k'
      · refine ⟨n2, ?_, fun j e => by omega⟩
        rw [p1 rfl] at n1
        simpa using hD _ _ n2 n1
      · obtain ⟨a1, a2, -⟩ := p2 k' rfl
        refine ⟨n2, ?_, fun j e i => ?_⟩
        · calc _ ≤ r * qform B (v.x - xs) := Q.step a1 n2 n1
            _ ≤ r * (r ^ k' * D) := mul_le_mul_of_nonneg_left a2 Q.r_nonneg
            _ = _ := by ring
        · have hj : j = k' := by omega
          subst hj
          exact (Q.residual a1 n2 n1 i).trans (mul_le_mul_of_nonneg_left a2 (mul_nonneg (by norm_num) Q.G_nonneg)))
    (N + 1) hN
    (by
      rintro s v hs ⟨-, p2⟩
      obtain ⟨a1, -, a3⟩ := p2 (N + 1) rfl
      have : Nonempty (Fin nx) := ⟨⟨0, hnx⟩⟩
      obtain ⟨i0, -, hmax⟩ := Finset.exists_max_image Finset.univ (fun i => |g v.x i + ∑ l, cfg.pb.Ax l i * v.w (Fin.castAdd 0 l)|) Finset.univ_nonempty
      refine lt_of_le_of_lt (Smooth.free_error heps hb huser hs (e := |g v.x i0 + ∑ l, cfg.pb.Ax l i0 * v.w (Fin.castAdd 0 l)|) (abs_nonneg _) (fun i => by rw [hmult]; exact hmax i (Finset.mem_univ i)) (fun q => q.elim0)
        (fun l => by have := congrFun a1 l; simpa [mulVec, dotProduct] using this) (funext fun l => l.elim0)) ?_
      refine abs_lt_of_sq_lt_sq ((a3 N rfl i0).trans_lt hrate) htol.le)
    user mem errors ax du history u ⟨fun _ => rfl, fun k' e => by omega⟩
  obtain ⟨k, hk⟩ := Nat.exists_eq_succ_of_ne_zero h4.ne'
  obtain ⟨a1, a2, -⟩ := h5.2 k hk
  refine ⟨t, h1, h2, h3, a1, ?_⟩
  rw [hk, Nat.succ_eq_add_one, pow_succ', mul_assoc]
  exact mul_le_mul_of_nonneg_left a2 Q.r_nonneg

/-- The same, without reference to the first iterate: for every start and tolerance there is a number of iterations with which the solve succeeds. -/
theorem near_quadratic_converges_partial [Archimedean K] {cfg : Config K nx 0 ny 0 τ} (hb : Unbounded cfg.pb) (hnx : 0 < nx) (hthr : 0 ≤ cfg.env.thr) (heps : cfg.env.eps = 0) (hd : cfg.env.debug = false) (ho : ∀ M, (cfg.env.o M).lu.Z = 0) (hphi : cfg.phi = none)
    (hlu : LUInners cfg) (hm : cfg.method ≠ .rangespace) (hrows : ∀ y : Fin ny → K, (∀ i, ∑ l, cfg.pb.Ax l i * y l = 0) → y = 0) (Q : NearQuadratic g H cfg.pb.Ax cfg.pb.b B xs r G)
    (huser : ∀ t x p q, ∃ t' ev, cfg.user t x p q = some (t', ev) ∧ (objective g H).Returns x p ev) (u : MVec K nx 0 (ny + 0)) (tol : K) (htol : 0 < tol) :
    ∃ N : ℕ, ∀ (o : SolveOptions K), o.tolerance = tol → N ≤ o.maxiters → ∀ (user : τ) (mem errors ax du) (history : History K),
      ∃ t, (∀ r, Solve (cfg.machine none) o cfg.pb.bounds (cfg.start user mem errors ax du) history u r ↔ r = some t) ∧ (solveResult o t).succeeded = true ∧ (solveResult o t).iterations ≤ N := by
  have hex : ∃ D, ∀ (x : Fin nx → K) (w : Fin ny → K), cfg.pb.Ax *ᵥ x = cfg.pb.b → (∀ i, ∑ j, H u.x i j * (x j - u.x j) + g u.x i + ∑ l, cfg.pb.Ax l i * w l = 0) → qform B (x - xs) ≤ D := by
    by_cases he : ∃ (x : Fin nx → K) (w : Fin ny → K), cfg.pb.Ax *ᵥ x = cfg.pb.b ∧ ∀ i, ∑ j, H u.x i j * (x j - u.x j) + g u.x i + ∑ l, cfg.pb.Ax l i * w l = 0
    · obtain ⟨x1, w1, e1, e2⟩ := he
      refine ⟨qform B (x1 - xs), fun x w f1 f2 => ?_⟩
      have := Q.nonsingular (x := u.x) (d := x - x1) (w := w - w1) (by rw [mulVec_sub, e1, f1, sub_self]) fun i => by
        have a1 := e2 i
        have a2 := f2 i
        simp only [Pi.sub_apply, mul_sub, Finset.sum_sub_distrib] at a1 a2 ⊢
        linear_combination a2 - a1
      rw [sub_eq_zero.1 this]
    · exact ⟨0, fun x w f1 f2 => absurd ⟨x, w, f1, f2⟩ he⟩
  obtain ⟨D, hD⟩ := hex
  have hr : ∃ N : ℕ, 4 * G * (r ^ N * D) < tol ^ 2 := by
    have hp : 0 < tol ^ 2 := by positivity
    obtain ⟨N, hN⟩ := exists_pow_lt_of_lt_one (show 0 < tol ^ 2 / (4 * G * |D| + 1) from div_pos hp (by have := Q.G_nonneg; positivity)) Q.r_lt
    refine ⟨N, ?_⟩
    have hk : 0 ≤ 4 * G * |D| := by have := Q.G_nonneg; positivity
    rw [lt_div_iff₀ (by linarith)] at hN
    have hr0 : 0 ≤ r ^ N := pow_nonneg Q.r_nonneg N
    calc 4 * G * (r ^ N * D) ≤ 4 * G * (r ^ N * |D|) := mul_le_mul_of_nonneg_left (mul_le_mul_of_nonneg_left (le_abs_self D) hr0) (by have := Q.G_nonneg; positivity)
      _ = r ^ N * (4 * G * |D|) := by ring
      _ ≤ r ^ N * (4 * G * |D| + 1) := mul_le_mul_of_nonneg_left (by linarith) hr0
      _ < _ := hN
  obtain ⟨N, hN⟩ := hr
  refine ⟨N + 2, fun o ho' hmax user mem errors ax du history => ?_⟩
  obtain ⟨t, h1, h2, h3, -⟩ := near_quadratic_partial hb hnx hthr heps hd ho hphi hlu hm hrows Q huser o (by rw [ho']; exact htol) user mem errors ax du history u D hD N (by omega) (by rw [ho']; exact hN)
  exact ⟨t, h1, h2, h3⟩

end nearQuadratic

/-! ### Non-vacuity -/

/-- No bounds. -/
def freeSpace (nx : ℕ) : MProblem ℝ nx 0 0 0 where
  Ax := fun i => i.elim0
  Ap := fun i => i.elim0
  b := fun i => i.elim0
  xlower := fun _ => none
  xupper := fun _ => none
  plower := fun _ => none
  pupper := fun _ => none

/-- `exp x0 - x0 + exp (-x1) + x1` from `(1, -1)`: solved to `10⁻²` within 200 iterations. -/
example : ∃ (cfg : Config ℝ 2 0 0 0 Unit) (t : _), cfg.pb = freeSpace 2 ∧ Solve (cfg.machine none) { exactOptions with tolerance := (1 / 100 : ℝ) } cfg.pb.bounds (cfg.start () 0 ⟨0, 0, 0, 0, 0, 0, 0, 0⟩ 0 ⟨0, 0, 0⟩) (History.init default) ⟨![1, -1], 0, 0⟩ (some t) ∧
    (solveResult { exactOptions with tolerance := (1 / 100 : ℝ) } t).succeeded = true ∧ ∀ i, |t.u.x i| < 1 / 100 := by
  obtain ⟨cfg, h1, h2, h3, h4, h5, h6, h7, h8, h9⟩ := exists_exact_config (freeSpace 2) fun x _ =>
    { f := Real.exp (x 0) - x 0 + Real.exp (- x 1) + x 1, fx := ![Real.exp (x 0) - 1, 1 - Real.exp (- x 1)], fxx := Matrix.diagonal ![Real.exp (x 0), Real.exp (- x 1)], fxp := 0, diagfxx := true, h := 0, hx := 0, hp := 0, v := 0, vx := 0, vp := 0, succeeded := true }
  have hE : Real.exp 1 < 3 := Real.exp_one_lt_d9.trans (by norm_num)
  have hE' : 1 < Real.exp 1 := Real.one_lt_exp_iff.2 one_pos
  have hi : 0 < Real.exp (-1) := Real.exp_pos _
  have ht : ∀ s t : ℝ, Real.exp s + Real.exp s * (t - s) ≤ Real.exp t := fun s t => by
    have a := Real.add_one_le_exp (t - s)
    have b := mul_le_mul_of_nonneg_left a (Real.exp_pos s).le
    rw [← Real.exp_add, show s + (t - s) = t by ring] at b
    linarith
  obtain ⟨t, a1, a2, -, a4⟩ := separable_solve_partial (by rw [h1]; exact ⟨fun i => ⟨rfl, rfl⟩, fun q => q.elim0⟩) (by norm_num) h2 h3 h4 h5 h6 h7 h8 ![fun s => Real.exp s - 1, fun s => 1 - Real.exp (- s)] ![Real.exp, fun s => Real.exp (- s)] (fun _ => 0)
    (by rw [Fin.forall_fin_two]; exact ⟨fun s => Real.exp_pos s, fun s => Real.exp_pos (-s)⟩)
    (by
      rw [Fin.forall_fin_two]
      refine ⟨Or.inl fun s t => ?_, Or.inr fun s t => ?_⟩
      · have := ht s t
        simp; linarith
      · have := ht (-s) (-t)
        simp; linarith)
    (by rw [Fin.forall_fin_two]; simp)
    (fun t x p q => ⟨t, _, h9 t x p q, ⟨by funext i; revert i; rw [Fin.forall_fin_two]; exact ⟨rfl, rfl⟩,
      by change Matrix.diagonal _ = Matrix.diagonal _; congr 1; funext i; revert i; rw [Fin.forall_fin_two]; exact ⟨rfl, rfl⟩, rfl, funext fun l => l.elim0, funext fun l => l.elim0, funext fun l => l.elim0, funext fun l => l.elim0, funext fun l => l.elim0, funext fun l => l.elim0⟩⟩)
    { exactOptions with tolerance := (1 / 100 : ℝ) } () 0 ⟨0, 0, 0, 0, 0, 0, 0, 0⟩ 0 ⟨0, 0, 0⟩ (History.init default) ⟨![1, -1], 0, 0⟩ ![Real.exp (-1), - Real.exp (-1)]
    (by
      have e : Real.exp (-1) = 1 / Real.exp 1 := by rw [Real.exp_neg, one_div]
      rw [Fin.forall_fin_two]
      simp only [Matrix.cons_val_zero, Matrix.cons_val_one, neg_neg, e]
      constructor
      · field_simp; ring
      · field_simp; ring)
    199 (by norm_num [exactOptions])
    (by
      have hle : Real.exp (-1) < 1 / 2 := by
        rw [Real.exp_neg]
        have := Real.exp_one_gt_d9
        rw [inv_lt_comm₀ (by linarith) (by norm_num)]
        linarith
      have h2 : Real.exp (Real.exp (-1)) < 3 := (Real.exp_lt_exp.2 (by linarith)).trans hE
      have h3 : Real.exp (Real.exp (-1)) * Real.exp (-1) < 199 * (1 / 100) := by nlinarith [Real.exp_pos (Real.exp (-1))]
      rw [Fin.forall_fin_two]
      simpa [abs_of_pos hi] using h3)
  refine ⟨cfg, t, h1, (a1 _).2 rfl, a2, fun i => ?_⟩
  have := (a4 i).2
  revert this
  revert i
  rw [Fin.forall_fin_two]
  simp

/-- The constraint `x0 + x1 = 2`. -/
def plane : MProblem ℝ 2 0 1 0 where
  Ax := fun _ _ => 1
  Ap := fun _ q => q.elim0
  b := fun _ => 2
  xlower := fun _ => none
  xupper := fun _ => none
  plower := fun _ => none
  pupper := fun _ => none

/-- `Σ (x² / 2 - cos x / 4)`: the derivative `x + sin x / 4` is neither convex nor concave. -/
theorem waves_nearQuadratic : NearQuadratic (fun x : Fin 2 → ℝ => fun i => x i + Real.sin (x i) / 4) (fun x => Matrix.diagonal fun i => 1 + Real.cos (x i) / 4) plane.Ax plane.b (Matrix.diagonal fun _ => 3 / 4) (fun _ => 1) (4 / 9) (1 / 3) := by
  have hq : ∀ (a : Fin 2 → ℝ) d, qform (Matrix.diagonal a) d = a 0 * d 0 ^ 2 + a 1 * d 1 ^ 2 := fun a d => by
    simp [qform, Fin.sum_univ_two, Matrix.diagonal]
    ring
  have hs : ∀ x y : ℝ, |Real.cos x / 4 * (y - x) - (Real.sin y - Real.sin x) / 4| ≤ 1 / 2 * |y - x| := fun x y => by
    have h1 : |Real.sin y - Real.sin x| ≤ |y - x| := by
      have := Real.abs_sin_sub_sin_le y x
      exact this
    have h2 : |Real.cos x * (y - x)| ≤ |y - x| := by
      rw [abs_mul]
      exact mul_le_of_le_one_left (abs_nonneg _) (Real.abs_cos_le_one x)
    rw [abs_le] at *
    constructor <;> linarith [h1.1, h1.2, h2.1, h2.2]
  refine ⟨?_, ⟨fun _ => -(1 + Real.sin 1 / 4), fun i => by simp [plane]⟩, fun d _ hd => ?_, fun x d _ => ?_, fun x d _ _ => ?_, fun x y _ _ i => ?_, by norm_num, by norm_num, by norm_num⟩
  · funext l; simp [plane, mulVec, dotProduct]
  · rw [hq]
    have : d 0 ≠ 0 ∨ d 1 ≠ 0 := by
      by_contra hn
      push Not at hn
      exact hd (funext fun i => by revert i; rw [Fin.forall_fin_two]; exact hn)
    rcases this with h | h <;> positivity
  · rw [hq, hq]
    have h0 := Real.neg_one_le_cos (x 0)
    have h1 := Real.neg_one_le_cos (x 1)
    nlinarith [sq_nonneg (d 0), sq_nonneg (d 1)]
  · rw [hq, hq]
    simp only [Fin.sum_univ_two, Pi.sub_apply]
    have h0 := hs (x 0) 1
    have h1 := hs (x 1) 1
    have e : ∀ i, Matrix.diagonal (fun i => 1 + Real.cos (x i) / 4) i 0 * (x 0 - 1) + Matrix.diagonal (fun i => 1 + Real.cos (x i) / 4) i 1 * (x 1 - 1) - (x i + Real.sin (x i) / 4 - (1 + Real.sin 1 / 4))
        = -(Real.cos (x i) / 4 * (1 - x i) - (Real.sin 1 - Real.sin (x i)) / 4) := by
      rw [Fin.forall_fin_two]
      simp [Matrix.diagonal]
      constructor <;> ring
    simp only [e]
    generalize Real.cos (x 0) / 4 * (1 - x 0) - (Real.sin 1 - Real.sin (x 0)) / 4 = a0 at *
    generalize Real.cos (x 1) / 4 * (1 - x 1) - (Real.sin 1 - Real.sin (x 1)) / 4 = a1 at *
    have s0 : a0 ^ 2 ≤ (1 / 2 * (1 - x 0)) ^ 2 := sq_le_sq.2 (by rw [abs_mul, abs_of_pos (by norm_num : (0 : ℝ) < 1 / 2)]; exact h0)
    have s1 : a1 ^ 2 ≤ (1 / 2 * (1 - x 1)) ^ 2 := sq_le_sq.2 (by rw [abs_mul, abs_of_pos (by norm_num : (0 : ℝ) < 1 / 2)]; exact h1)
    calc (d 0 * -a0 + d 1 * -a1) ^ 2 = (d 0 ^ 2 + d 1 ^ 2) * (a0 ^ 2 + a1 ^ 2) - (d 0 * a1 - d 1 * a0) ^ 2 := by ring
      _ ≤ (d 0 ^ 2 + d 1 ^ 2) * (a0 ^ 2 + a1 ^ 2) := by linarith [sq_nonneg (d 0 * a1 - d 1 * a0)]
      _ ≤ (d 0 ^ 2 + d 1 ^ 2) * ((1 / 2 * (1 - x 0)) ^ 2 + (1 / 2 * (1 - x 1)) ^ 2) := mul_le_mul_of_nonneg_left (add_le_add s0 s1) (by positivity)
      _ = _ := by ring
  · rw [hq]
    have h0 := hs (x i) (y i)
    have e : y i + Real.sin (y i) / 4 - (x i + Real.sin (x i) / 4) - ∑ j, Matrix.diagonal (fun i => 1 + Real.cos (x i) / 4) i j * (y j - x j) = -(Real.cos (x i) / 4 * (y i - x i) - (Real.sin (y i) - Real.sin (x i)) / 4) := by
      simp [Matrix.diagonal_apply]
      ring
    rw [e, neg_sq]
    have s0 : (Real.cos (x i) / 4 * (y i - x i) - (Real.sin (y i) - Real.sin (x i)) / 4) ^ 2 ≤ (1 / 2 * (y i - x i)) ^ 2 := sq_le_sq.2 (by rw [abs_mul, abs_of_pos (by norm_num : (0 : ℝ) < 1 / 2)]; exact h0)
    refine s0.trans ?_
    revert i
    rw [Fin.forall_fin_two]
    simp only [Pi.sub_apply]
    refine ⟨fun _ _ _ => ?_, fun _ _ _ => ?_⟩
    · nlinarith [sq_nonneg (y 1 - x 1)]
    · nlinarith [sq_nonneg (y 0 - x 0)]

/-- From a point far off the constraint, to the tolerance `10⁻¹⁰`. -/
example : ∃ (cfg : Config ℝ 2 0 1 0 Unit) (N : ℕ), cfg.pb = plane ∧ ∀ o : SolveOptions ℝ, o.tolerance = 1 / 10 ^ 10 → N ≤ o.maxiters →
    ∃ t, Solve (cfg.machine none) o cfg.pb.bounds (cfg.start () 0 ⟨0, 0, 0, 0, 0, 0, 0, 0⟩ 0 ⟨0, 0, 0⟩) (History.init default) ⟨![1000, 50], 0, fun _ => 7⟩ (some t) ∧ (solveResult o t).succeeded = true := by
  obtain ⟨cfg, h1, h2, h3, h4, h5, h6, h7, h8, h9⟩ := exists_exact_config plane fun x _ =>
    { f := ∑ i, (x i ^ 2 / 2 - Real.cos (x i) / 4), fx := fun i => x i + Real.sin (x i) / 4, fxx := Matrix.diagonal fun i => 1 + Real.cos (x i) / 4, fxp := 0, diagfxx := true, h := 0, hx := 0, hp := 0, v := 0, vx := 0, vp := 0, succeeded := true }
  obtain ⟨N, hN⟩ := near_quadratic_converges_partial (by rw [h1]; exact ⟨fun i => ⟨rfl, rfl⟩, fun q => q.elim0⟩) (by norm_num) h2 h3 h4 h5 h6 h7 h8
    (by
      rw [h1]
      intro y hy
      funext l
      rw [Subsingleton.elim l 0]
      simpa [plane] using hy 0)
    (by rw [h1]; exact waves_nearQuadratic)
    (fun t x p q => ⟨t, _, h9 t x p q, ⟨rfl, rfl, rfl, funext fun l => l.elim0, funext fun l => l.elim0, funext fun l => l.elim0, funext fun l => l.elim0, funext fun l => l.elim0, funext fun l => l.elim0⟩⟩)
    ⟨![1000, 50], 0, fun _ => 7⟩ (1 / 10 ^ 10) (by norm_num)
  refine ⟨cfg, N, h1, fun o ho hmax => ?_⟩
  obtain ⟨t, a1, a2, -⟩ := hN o ho hmax () 0 ⟨0, 0, 0, 0, 0, 0, 0, 0⟩ 0 ⟨0, 0, 0⟩ (History.init default)
  exact ⟨t, (a1 _).2 rfl, a2⟩

end Optima
