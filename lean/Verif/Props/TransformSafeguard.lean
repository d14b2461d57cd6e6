import Verif.Props.GlobalConvergence
import Verif.Props.NotANumber

/-!
# C87: with what a transformation is compared

`TransformStep::execute` keeps the transformed point unless the error there is larger than `E.error()` before the call (TransformStep.cpp:60-75).  In `MasterSolver::step` the Newton step changes `u` but not `E`
(MasterSolver.cpp:177-178), so this is the error at the previous iterate `uo`, not at the Newton iterate that is transformed.
-/

set_option linter.unusedSectionVars false

namespace Optima

open Matrix

/-! ## Any machine whose error is a function of the point -/

section machine

variable {K : Type*} [Field K] [LinearOrder K] [IsStrictOrderedRing K] {nx np nw : ℕ} {σ : Type*}

/-- In the states `Q`, which are never left, `E.error()` after an evaluation at `u` is `err u`, and a Newton step does not change it. -/
structure Pointwise (m : Machine σ K nx np nw) (Q : σ → Prop) (err : MVec K nx np nw → K) : Prop where
  inv : MachInv m Q fun s u => m.error s = err u
  newton : ∀ s uo t u, m.newton s uo = some (t, u) → m.error t = m.error s

variable {m : Machine σ K nx np nw} {Q : σ → Prop} {err : MVec K nx np nw → K} {o : SolveOptions K} {B : Bounds K nx np}

/-- A state at the beginning of an iteration: `E` has last been evaluated at `uo`, which is within the bounds. -/
structure AtPrevious (m : Machine σ K nx np nw) (Q : σ → Prop) (err : MVec K nx np nw → K) (B : Bounds K nx np) (s : SolveState σ K nx np nw) : Prop where
  state : Q s.mach
  error : m.error s.mach = err s.uo
  inside : InBounds B s.uo

theorem solveInit_previous (h : Pointwise m Q err) (hB : ConsistentBounds B) {mach : σ} (hq : Q mach) {history : History K} {u : MVec K nx np nw} {s} (hs : solveInit m B mach history u = some s) : AtPrevious m Q err B s := by
  obtain ⟨e1, e2, -⟩ := solveInit_spec hs
  obtain ⟨f1, f2⟩ := evalAt_inv h.inv (s := { mach := mach, u := clampVec B u, uo := clampVec B u, iterations := 0, history := history.init, trace := [] }) hq hs
  exact ⟨f1, by rw [f2, e1, e2], by rw [e2]; exact clampVec_inBounds hB u⟩

/-- What one step does: either the transformation has not been kept and the iterate is the Newton iterate moved into the bounds, or it has been kept and its error is compared with that at the previous iterate. -/
theorem step_kept (h : Pointwise m Q err) {s s1 : SolveState σ K nx np nw} (hs : AtPrevious m Q err B s) (h1 : step m o B s = some s1) :
    s1.uo = s.uo ∧ Q s1.mach ∧ m.error s1.mach = err s1.u ∧ InBounds B s1.u ∧ ∃ t un, m.newton s.mach s.uo = some (t, un) ∧
      (backtrack o.debug o.minmax B s.uo un = some s1.u ∨
        ∃ x, err { un with x := x } ≤ err s.uo ∧ (∀ i, Between (B.xlower i) (B.xupper i) (x i)) ∧ backtrack o.debug o.minmax B s.uo { un with x := x } = some s1.u) := by
  obtain ⟨f1, f2⟩ := step_inv h.inv hs.state h1
  refine ⟨(step_frame h1).1, f1, f2, ?_, ?_⟩
  · exact (step_spec hs.inside h1).1
  · unfold step at h1
    dsimp only at h1
    split at h1
    · cases h1
    · rename_i t un hn
      refine ⟨t, un, hn, ?_⟩
      have ht := h.inv.newton _ _ _ _ hs.state hn
      split at h1
      · cases h1
      · rename_i s2 b h2
        have hspec := transform_spec (inBounds_consistent hs.inside) h2
        have hback : ∀ v, errorControl o B s2 = some v → backtrack o.debug o.minmax B s.uo s2.u = some v.u := by
          intro v hv
          unfold errorControl at hv
          rw [(transform_frame h2).1] at hv
          split at hv
          · cases hv
          · rename_i w hw; cases hv; exact hw
        split at h1
        · cases h1
        · rename_i s3 h3
          have e := (evalAt_u h1).1
          rw [e]
          cases b with
          | false =>
            left
            rw [← hback s3 h3, (hspec.2.1 rfl).1]
          | true =>
            right
            obtain ⟨g1, g2, g3, g4, f, t', x', hf, hx', -, -, g5⟩ := hspec.1 rfl
            refine ⟨s2.u.x, ?_, g2, ?_⟩
            · have hev : m.error s2.mach = err s2.u := (h.inv.eval _ _ _ (h.inv.phi _ hf _ _ _ _ _ _ ht hx') g5).2
              have hu : ({ un with x := s2.u.x } : MVec K nx np nw) = s2.u := by
                rw [show s2.u = ⟨s2.u.x, s2.u.p, s2.u.w⟩ from rfl, g3, g4]
              rw [hu, ← hev]
              refine g1.trans (le_of_eq ?_)
              rw [← hs.error]
              exact h.newton _ _ _ _ hn
            · rw [← hback s3 h3]
              congr 1
              rw [show s2.u = ⟨s2.u.x, s2.u.p, s2.u.w⟩ from rfl, g3, g4]

theorem stepping_previous (h : Pointwise m Q err) {s s1 s2 : SolveState σ K nx np nw} (hs : AtPrevious m Q err B s) (h1 : step m o B s = some s1) (h2 : stepping m o s1 = some (s2, true)) : AtPrevious m Q err B s2 := by
  obtain ⟨-, f1, f2, f3, -⟩ := step_kept h hs h1
  obtain ⟨b1, -, -, b4, -, -, b7⟩ := stepping_spec h2
  have hle := continue_le h2
  have := stepping_inv h.inv ⟨f1, f2⟩ h2
  exact ⟨this.1, by rw [this.2, (b7 hle).1, b1], by rw [(b7 hle).1]; exact f3⟩

/-- **C87 in part**: what does hold for every transformation function, whatever the Newton step computes, if the error is a function of the point and there are no parameters: every iterate of a solve is the Newton
    iterate moved into the bounds, or its error is at most that of the previous iterate. -/
theorem transformed_not_worse_than_previous_partial {m : Machine σ K nx 0 nw} {B : Bounds K nx 0} {err : MVec K nx 0 nw → K} (h : Pointwise m Q err) (hB : ConsistentBounds B) {mach : σ} (hq : Q mach) {history : History K} {u : MVec K nx 0 nw} {s v}
    (hs : solveInit m B mach history u = some s) (hv : Visits m o B s v) :
    ∃ a t un, Q a ∧ m.error a = err v.uo ∧ m.newton a v.uo = some (t, un) ∧ (backtrack o.debug o.minmax B v.uo un = some v.u ∨ err v.u ≤ err v.uo) := by
  have hp := solveInit_previous h hB hq hs
  clear hs
  induction hv with
  | here s s1 h1 =>
    obtain ⟨f0, f1, f2, f3, t, un, f4, f5⟩ := step_kept h hp h1
    refine ⟨s.mach, t, un, hp.state, by rw [f0]; exact hp.error, by rw [f0]; exact f4, ?_⟩
    rw [f0]
    refine f5.imp_right ?_
    rintro ⟨x, g1, g2, g3⟩
    rw [backtrack_accepts o.debug o.minmax hp.inside ⟨g2, fun i => i.elim0⟩] at g3
    rw [← Option.some.inj g3]
    exact g1
  | later s s1 s2 t h1 h2 h3 ih => exact ih (stepping_previous h hp h1 h2)

/-- The transformation that goes back to the previous iterate is kept in every iteration: without parameters and constraints the solve returns the point it was given, moved into the bounds. -/
theorem stays {m : Machine σ K nx 0 nw} (hw : nw = 0) {B : Bounds K nx 0} {err : MVec K nx 0 nw → K} (h : Pointwise m Q err) (hphi : m.phi = some fun s xo _ => some (s, xo, true)) (hc : m.check = none) (hB : ConsistentBounds B) {mach : σ}
    (hq : Q mach) (history : History K) (u : MVec K nx 0 nw) (t) (ht : Solve m o B mach history u (some t)) :
    t.u = clampVec B u ∧ (o.tolerance ≤ err (clampVec B u) → (solveResult o t).succeeded = false ∧ (solveResult o t).iterations = o.maxiters + 1) := by
  subst hw
  have hstep : ∀ s s1, AtPrevious m Q err B s → step m o B s = some s1 → s1.u = s.uo := by
    intro s s1 hs h1
    have hx : ∀ un : MVec K nx 0 0, ({ un with x := s.uo.x } : MVec K nx 0 0) = s.uo := by
      intro un
      ext i
      · rfl
      · exact i.elim0
      · exact i.elim0
    unfold step at h1
    dsimp only at h1
    split at h1
    · cases h1
    · rename_i tm un hn
      split at h1
      · cases h1
      · rename_i s2 b h2
        have hspec := transform_spec (inBounds_consistent hs.inside) h2
        have hcl : ∀ i, clamp (B.xlower i) (B.xupper i) (s.uo.x i) = s.uo.x i := fun i => clamp_of_between (hs.inside.1 i)
        have h2u : s2.u = s.uo := by
          cases b with
          | true =>
            obtain ⟨g1, g2, g3, g4, f, t', x', hf, hx', g5, -⟩ := hspec.1 rfl
            cases hphi.symm.trans hf
            cases hx'
            rw [← hx s2.u]
            ext i
            · change s2.u.x i = s.uo.x i
              rw [g5 i]
              exact hcl i
            · rfl
            · rfl
          | false =>
            exfalso
            obtain ⟨-, -, g⟩ := hspec.2.1 rfl
            -- the evaluation at the previous iterate has the error of the previous iterate
            have hq' := h.inv.newton _ _ _ _ hs.state hn
            unfold transform at h2
            rw [hphi] at h2
            dsimp only at h2
            rw [if_neg (by simp)] at h2
            split at h2
            · cases h2
            · rename_i s3 h3
              obtain ⟨e1, -, -, -, -, e6⟩ := evalAt_u h3
              have hlt := g _ hphi tm s.uo.x rfl s3.mach e6
              have herr := (h.inv.eval _ _ _ hq' e6).2
              rw [herr] at hlt
              have : ({ un with x := fun i => clamp (B.xlower i) (B.xupper i) (s.uo.x i) } : MVec K nx 0 0) = s.uo := by
                rw [← hx un]
                ext i
                · exact hcl i
                · rfl
                · rfl
              change m.error tm < err { un with x := fun i => clamp (B.xlower i) (B.xupper i) (s.uo.x i) } at hlt
              rw [this, h.newton _ _ _ _ hn, hs.error] at hlt
              exact lt_irrefl _ hlt
        unfold errorControl at h1
        rw [(transform_frame h2).1, h2u] at h1
        rw [backtrack_accepts o.debug o.minmax hs.inside hs.inside] at h1
        exact (evalAt_u h1).1
  have hloop : ∀ s r, Loop m o B s r → ∀ t, r = some t → AtPrevious m Q err B s → t.u = s.uo ∧ m.error t.mach = err s.uo := by
    intro s r hl
    induction hl with
    | stepFails => intro t e; cases e
    | checkFails => intro t e; cases e
    | stop s s1 s2 h1 h2 =>
      rintro t ⟨⟩ hs
      obtain ⟨b1, -, -, b4, -⟩ := stepping_spec h2
      have := hstep s s1 hs h1
      exact ⟨b1.trans this, by rw [b4, (step_kept h hs h1).2.2.1, this]⟩
    | again s s1 s2 r h1 h2 h3 ih =>
      intro t e hs
      obtain ⟨b1, -, -, -, -, -, b7⟩ := stepping_spec h2
      have := ih t e (stepping_previous h hs h1 h2)
      rwa [(b7 (continue_le h2)).1, hstep s s1 hs h1] at this
  obtain ⟨s, n, t0, t1, e1, -, -, -, e5, e6, -⟩ := (solve_budget m o B mach history u).2 t ht
  obtain ⟨a1, a2⟩ : t.u = clampVec B u ∧ m.error t.mach = err (clampVec B u) := by
    cases ht with
    | run s r es hl =>
      have := hloop s _ hl t rfl (solveInit_previous h hB hq es)
      rwa [(solveInit_spec es).2.1] at this
  refine ⟨a1, fun htol => ?_⟩
  have hf : (solveResult o t).succeeded = false := by
    by_contra hs
    rcases success_converged m o B mach history u t ht (by simpa using hs) with g | ⟨t1, -, -, f, -, hf, -⟩
    · rw [a2] at g
      exact absurd g (not_lt.2 htol)
    · rw [hc] at hf; cases hf
  refine ⟨hf, ?_⟩
  have : ¬ t.iterations ≤ o.maxiters := by simpa [solveResult] using hf
  have : t.iterations = n + 1 := e5
  change t.iterations = _
  omega

end machine

/-! ## Problems without constraints and bounds -/

section problem

variable {K : Type*} [Field K] [LinearOrder K] [IsStrictOrderedRing K] {nx : ℕ} {τ : Type*}

/-- Without constraints, parameters and bounds the error is the largest entry of the gradient, whatever the transformation function. -/
theorem free_pointwise {F : Smooth K nx 0 0} {cfg : Config K nx 0 0 0 τ} (hthr : 0 ≤ cfg.env.thr) (heps : cfg.env.eps = 0) (hnx : 0 < nx) (hb : Unbounded cfg.pb)
    (huser : ∀ t x p q, ∃ t' ev, cfg.user t x p q = some (t', ev) ∧ F.Returns x p ev) : Pointwise (cfg.machine none) (Reach cfg) fun u => normInf (F.g u.x u.p) where
  inv :=
    { eval := by
        intro s u s' hq he
        obtain ⟨h1, h2⟩ := (machine_inv hthr heps.ge hnx (cfg := cfg) none).eval s u s' hq he
        have hm : ∀ i, F.mult cfg.pb u i = F.g u.x u.p i := fun i => by simp [Smooth.mult]
        refine ⟨h1, le_antisymm ?_ ?_⟩
        · exact Smooth.free_error heps hb huser h2 (normInf_nonneg _) (fun i => by rw [hm]; exact (normInf_le_iff _ (normInf_nonneg _)).1 le_rfl i) (fun q => q.elim0) (fun l => l.elim0) (funext fun l => l.elim0)
        · refine (normInf_le_iff _ ?_).2 fun i => by rw [← hm]; exact Smooth.free_error_ge hb huser h2 i
          exact (abs_nonneg _).trans (Smooth.free_error_ge hb huser h2 ⟨0, hnx⟩)
      newton := (machine_inv hthr heps.ge hnx (cfg := cfg) none).newton
      phi := (machine_inv hthr heps.ge hnx (cfg := cfg) none).phi
      check := by intro f hf; cases hf }
  newton := by
    intro s uo t u h
    change cfg.newton s uo = some (t, u) at h
    unfold Config.newton at h
    split at h
    · cases h
    · cases h; rfl

/-- **C87 fails**: minimise a strictly convex quadratic function, without constraints and bounds.  From every point at which the gradient is not below the tolerance the Newton iterate is the solution, so that a solve without
    transformation function succeeds after one iteration with error zero.  With a transformation function that returns the previous iterate, every one of these Newton iterates is replaced by the starting point: the solve
    ends where it began, after the whole budget of iterations, without success. -/
theorem transformation_undoes_newton {cfg : Config K nx 0 0 0 τ} (hthr : 0 ≤ cfg.env.thr) (heps : cfg.env.eps = 0) (hd : cfg.env.debug = false) (ho : ∀ M, (cfg.env.o M).lu.Z = 0) (hnx : 0 < nx) (hphi : cfg.phi = none)
    (hlu : LUInners cfg) (hm : cfg.method ≠ .rangespace) (hb : Unbounded cfg.pb) (H : Matrix (Fin nx) (Fin nx) K) (c : Fin nx → K) (hH : ∀ d, H *ᵥ d = 0 → d = 0)
    (huser : ∀ t x p q, ∃ t' ev, cfg.user t x p q = some (t', ev) ∧ ev.fx = H *ᵥ x + c ∧ ev.fxx = H) (xs : Fin nx → K) (hxs : H *ᵥ xs + c = 0)
    (o : SolveOptions K) (hmax : 1 ≤ o.maxiters) (htol : 0 < o.tolerance) (user : τ) (mem errors ax du) (history : History K) (u : MVec K nx 0 (0 + 0)) (hu : ∃ i, o.tolerance ≤ |(H *ᵥ u.x + c) i|) :
    (∃ t, Solve (cfg.machine none) o cfg.pb.bounds (cfg.start user mem errors ax du) history u (some t) ∧ t.u.x = xs ∧ t.mach.errors.error = 0 ∧ (solveResult o t).succeeded = true ∧ (solveResult o t).iterations = 1) ∧
    ∃ t, Solve (({ cfg with phi := some fun t xo _ => some (t, xo, true) } : Config K nx 0 0 0 τ).machine none) o cfg.pb.bounds (cfg.start user mem errors ax du) history u (some t) ∧ t.u = u ∧
      (solveResult o t).succeeded = false ∧ (solveResult o t).iterations = o.maxiters + 1 := by
  have e0 : ∀ {n : ℕ} (f g : Fin n → Fin 0 → K), f = g := fun f g => funext fun _ => funext fun i => i.elim0
  have hret : ∀ t x p q, ∃ t' ev, cfg.user t x p q = some (t', ev) ∧ (⟨H, 0, c, 0, 0, 0, 0, 0, 0⟩ : Affine K nx 0 0).Returns x p ev := by
    intro t x p q
    obtain ⟨t', ev, e, h1, h2⟩ := huser t x p q
    exact ⟨t', ev, e, ⟨by rw [h1]; simp, h2, e0 _ _, funext fun l => l.elim0, funext fun l => l.elim0, funext fun l => l.elim0, funext fun l => l.elim0, funext fun l => l.elim0, funext fun l => l.elim0⟩⟩
  have hcl : clampVec cfg.pb.bounds u = u := clampVec_of_inBounds (hb.inBounds u)
  constructor
  · obtain ⟨t, h1, h2, h3, h4, h5⟩ := quadratic_solve hthr heps hd ho hnx hphi hlu hm ⟨H, 0, c, 0, 0, 0, 0, 0, 0⟩ hret ⟨xs, 0, 0⟩
      ⟨fun i => by have := congrFun hxs i; simpa [mulVec, dotProduct] using this, fun q => q.elim0, fun l => l.elim0, fun l => l.elim0⟩
      (fun u' hk => by
        have hz : H *ᵥ (u'.x - xs) = 0 := by
          ext i
          have a := hk.grad i
          have b := congrFun hxs i
          simp only [mulVec, dotProduct, Pi.add_apply, Pi.zero_apply] at b
          simp only [mulVec, dotProduct, Pi.sub_apply, mul_sub, Finset.sum_sub_distrib, Pi.zero_apply]
          simp at a
          linear_combination a - b
        ext i
        · exact sub_eq_zero.1 (congrFun (hH _ hz) i)
        · exact i.elim0
        · exact i.elim0)
      (hb.inBounds _) o hmax htol user mem errors ax du history u
      (fun i => ⟨fun h => (by rw [(hb.1 i).1] at h; cases h), fun h => (by rw [(hb.1 i).2] at h; cases h)⟩)
    exact ⟨t, (h1 _).2 rfl, by rw [h2], h3, h4, h5⟩
  · let cfg' : Config K nx 0 0 0 τ := { cfg with phi := some fun t xo _ => some (t, xo, true) }
    obtain ⟨t, ht⟩ := solve_returns (cfg := cfg') hthr heps.ge hd hnx none (fun f hf t xo x => by cases hf; exact ⟨_, rfl⟩) (fun t x p q => let ⟨t', ev, e, _⟩ := huser t x p q; ⟨_, e⟩) (fun f hf => by cases hf) o
      (inBounds_consistent (hb.inBounds u)) user mem errors ax du history u
    let F : Smooth K nx 0 0 := { g := fun x _ => H *ᵥ x + c, H := fun _ _ => H, Hp := 0, hx := 0, hp := 0, h0 := 0, v := 0, vx := 0, vp := 0 }
    have hF : ∀ t x p q, ∃ t' ev, cfg'.user t x p q = some (t', ev) ∧ F.Returns x p ev := by
      intro t x p q
      obtain ⟨t', ev, e, h1, h2⟩ := huser t x p q
      exact ⟨t', ev, e, ⟨h1, h2, e0 _ _, funext fun l => l.elim0, funext fun l => l.elim0, funext fun l => l.elim0, funext fun l => l.elim0, funext fun l => l.elim0, funext fun l => l.elim0⟩⟩
    obtain ⟨a1, a2⟩ := stays (o := o) rfl (free_pointwise (F := F) (cfg := cfg') hthr heps hnx hb hF) rfl rfl (inBounds_consistent (hb.inBounds u)) (start_reach cfg' user mem errors ax du) history u t ht
    refine ⟨t, ht, a1.trans hcl, a2 ?_⟩
    obtain ⟨i, hi⟩ := hu
    change _ ≤ normInf (H *ᵥ (clampVec cfg.pb.bounds u).x + c)
    rw [hcl]
    exact hi.trans ((normInf_le_iff _ (normInf_nonneg _)).1 le_rfl i)

/-- Two variables, `x0² + 3/2 x1² - 2 x0 - 6 x1`, from `(5, 5)`: solved in one iteration; with the transformation function the solve ends at `(5, 5)`. -/
example : ∃ (cfg : Config ℝ 2 0 0 0 Unit) (t t' : _), Solve (cfg.machine none) exactOptions cfg.pb.bounds (cfg.start () 0 ⟨0, 0, 0, 0, 0, 0, 0, 0⟩ 0 ⟨0, 0, 0⟩) (History.init default) ⟨![5, 5], 0, 0⟩ (some t) ∧ t.u.x = ![1, 2] ∧
    (solveResult exactOptions t).iterations = 1 ∧
    Solve (({ cfg with phi := some fun t xo _ => some (t, xo, true) } : Config ℝ 2 0 0 0 Unit).machine none) exactOptions cfg.pb.bounds (cfg.start () 0 ⟨0, 0, 0, 0, 0, 0, 0, 0⟩ 0 ⟨0, 0, 0⟩) (History.init default) ⟨![5, 5], 0, 0⟩ (some t') ∧
    t'.u.x = ![5, 5] ∧ (solveResult exactOptions t').iterations = 201 := by
  obtain ⟨cfg, h1, h2, h3, h4, h5, h6, h7, h8, h9⟩ := exists_exact_config (nx := 2) (np := 0) (ny := 0) (nz := 0) ⟨0, 0, 0, fun _ => none, fun _ => none, fun _ => none, fun _ => none⟩ fun x _ =>
    { f := x 0 ^ 2 + 3 / 2 * x 1 ^ 2 - 2 * x 0 - 6 * x 1, fx := !![2, 0; 0, 3] *ᵥ x + ![-2, -6], fxx := !![2, 0; 0, 3], fxp := 0, diagfxx := true, h := 0, hx := 0, hp := 0, v := 0, vx := 0, vp := 0, succeeded := true }
  have hb : Unbounded cfg.pb := by rw [h1]; exact ⟨fun _ => ⟨rfl, rfl⟩, fun _ => ⟨rfl, rfl⟩⟩
  obtain ⟨⟨t, a1, a2, -, -, a5⟩, t', b1, b2, -, b4⟩ := transformation_undoes_newton h2 h3 h4 h5 two_pos h6 h7 h8 hb !![2, 0; 0, 3] ![-2, -6]
    (fun d hd => by
      have e0 := congrFun hd 0
      have e1 := congrFun hd 1
      simp [mulVec, dotProduct, Fin.sum_univ_two] at e0 e1
      ext i
      fin_cases i
      · exact e0
      · exact e1)
    (fun t x p q => ⟨t, _, h9 t x p q, rfl, rfl⟩) ![1, 2] (by ext i; fin_cases i <;> norm_num [mulVec, dotProduct, Fin.sum_univ_two]) exactOptions (by norm_num [exactOptions]) (by norm_num [exactOptions])
    () 0 ⟨0, 0, 0, 0, 0, 0, 0, 0⟩ 0 ⟨0, 0, 0⟩ (History.init default) ⟨![5, 5], 0, 0⟩ ⟨0, by norm_num [exactOptions, mulVec, dotProduct, Fin.sum_univ_two]⟩
  exact ⟨cfg, t, t', a1, a2, a5, b1, by rw [b2], b4⟩

/-- The hypotheses of `transformed_not_worse_than_previous_partial` are met by every transformation function of this problem, here one that goes half the way back. -/
example : ∃ (cfg : Config ℝ 1 0 0 0 Unit) (err : MVec ℝ 1 0 (0 + 0) → ℝ), cfg.phi = some (fun t xo x => some (t, fun i => (xo i + x i) / 2, true)) ∧ Pointwise (cfg.machine none) (Reach cfg) err ∧ ConsistentBounds cfg.pb.bounds ∧
    (∀ u, err u = |u.x 0 - 1|) ∧ ∃ t, Solve (cfg.machine none) exactOptions cfg.pb.bounds (cfg.start () 0 ⟨0, 0, 0, 0, 0, 0, 0, 0⟩ 0 ⟨0, 0, 0⟩) (History.init default) ⟨![5], 0, 0⟩ (some t) := by
  obtain ⟨cfg, h1, h2, h3, h4, h5, h6, h7, h8, h9⟩ := exists_exact_config (nx := 1) (np := 0) (ny := 0) (nz := 0) ⟨0, 0, 0, fun _ => none, fun _ => none, fun _ => none, fun _ => none⟩ fun x _ =>
    { f := x 0 ^ 2 / 2 - x 0, fx := fun i => x i - 1, fxx := 1, fxp := 0, diagfxx := true, h := 0, hx := 0, hp := 0, v := 0, vx := 0, vp := 0, succeeded := true }
  have hb : Unbounded cfg.pb := by rw [h1]; exact ⟨fun _ => ⟨rfl, rfl⟩, fun _ => ⟨rfl, rfl⟩⟩
  let cfg' : Config ℝ 1 0 0 0 Unit := { cfg with phi := some fun t xo x => some (t, fun i => (xo i + x i) / 2, true) }
  refine ⟨cfg', _, rfl, free_pointwise (cfg := cfg') (F := ⟨fun x _ i => x i - 1, 1, 0, 0, 0, 0, 0, 0, 0⟩) h2 h3 one_pos hb fun t x p q => ⟨t, _, h9 t x p q, ⟨rfl, rfl, rfl, by simp, rfl, rfl, rfl, rfl, rfl⟩⟩, inBounds_consistent (hb.inBounds ⟨0, 0, 0⟩),
    fun u => ?_, solve_returns (cfg := cfg') h2 h3.ge h4 one_pos none (fun f hf t xo x => by cases hf; exact ⟨_, rfl⟩) (fun t x p q => ⟨_, h9 t x p q⟩) (fun f hf => by cases hf) exactOptions (inBounds_consistent (hb.inBounds ⟨0, 0, 0⟩)) () 0
      ⟨0, 0, 0, 0, 0, 0, 0, 0⟩ 0 ⟨0, 0, 0⟩ (History.init default) ⟨![5], 0, 0⟩⟩
  change normInf (fun i => u.x i - 1) = _
  refine le_antisymm ((normInf_le_iff _ (abs_nonneg _)).2 fun i => ?_) ((normInf_le_iff (fun i => u.x i - 1) (normInf_nonneg _)).1 le_rfl 0)
  rw [Subsingleton.elim i 0]

end problem

/-! ## Transformations to points where the functions are not numbers -/

section nan

variable {K : Type*} [Field K] [LinearOrder K] [IsStrictOrderedRing K] {nx np nw : ℕ} {σ : Type*}

/-- **C87 with NaN**: a comparison with NaN is false, so a transformation to a point at which the error is NaN is kept, and from a point at which the error is NaN every transformation is kept. -/
theorem nan_transform_kept (m : Machine σ (Dbl K) nx np nw) {phi} (hphi : m.phi = some phi) (B : Bounds (Dbl K) nx np) (s : SolveState σ (Dbl K) nx np nw) {t x t'} (hf : phi s.mach s.uo.x s.u.x = some (t, x, true))
    (he : m.eval t { s.u with x := fun i => clamp (B.xlower i) (B.xupper i) (x i) } = some t') (hn : m.error t' = .nan ∨ m.error s.mach = .nan) :
    ∃ s', transform m B s = some (s', true) ∧ s'.mach = t' ∧ s'.u = { s.u with x := fun i => clamp (B.xlower i) (B.xupper i) (x i) } := by
  have herr := m.phi_error _ hphi _ _ _ _ _ _ hf
  have hev : evalAt m { s with mach := t, u := { s.u with x := fun i => clamp (B.xlower i) (B.xupper i) (x i) } } =
      some { s with mach := t', u := { s.u with x := fun i => clamp (B.xlower i) (B.xupper i) (x i) }, trace := { s.u with x := fun i => clamp (B.xlower i) (B.xupper i) (x i) } :: s.trace } := by
    unfold evalAt
    rw [he]
  refine ⟨{ s with mach := t', u := { s.u with x := fun i => clamp (B.xlower i) (B.xupper i) (x i) }, trace := { s.u with x := fun i => clamp (B.xlower i) (B.xupper i) (x i) } :: s.trace }, ?_, rfl, rfl⟩
  unfold transform
  rw [hphi]
  dsimp only
  rw [hf]
  dsimp only
  rw [if_neg (by simp), hev]
  dsimp only
  rw [if_neg]
  rw [herr]
  rcases hn with h | h <;> rw [h]
  · exact Dbl.not_lt_nan _
  · exact Dbl.not_nan_lt _

/-- The error is the distance from 4, which the Newton step finds; it is NaN at negative numbers (a logarithm, say).  The transformation function, if any, subtracts 5. -/
def exNanTransform (phi : Bool) : Machine (Dbl ℚ) (Dbl ℚ) 1 0 0 where
  eval _ u := some (if u.x 0 < .num 0 then .nan else (u.x 0 - .num 4).abs)
  evalJac s _ := some s
  newton s uo := some (s, { uo with x := fun _ => .num 4 })
  error s := s
  phi := if phi then some fun s _ x => some (s, fun i => x i - .num 5, true) else none
  check := none
  phi_error := by
    intro f hf s xo x t x' b h
    split_ifs at hf
    cases hf
    cases h
    rfl
  check_error := by intro f hf; cases hf

/-- Without it the solve from 1 ends with success at 4; with it the solve ends without success at -1, where the error is NaN. -/
example : let B : Bounds (Dbl ℚ) 1 0 := { xlower := fun _ => none, xupper := fun _ => none, plower := fun _ => none, pupper := fun _ => none }
    let o : SolveOptions (Dbl ℚ) := { maxiters := 3, tolerance := .num 1, minmax := false, debug := false }
    let u : MVec (Dbl ℚ) 1 0 0 := { x := fun _ => .num 1, p := fun i => i.elim0, w := fun i => i.elim0 }
    ((runSolve (exNanTransform false) o B .nan [] u 9).map fun t => ((solveResult o t).iterations, (solveResult o t).succeeded, t.u.x 0, t.mach)) = some (1, true, .num 4, .num 0) ∧
    ((runSolve (exNanTransform true) o B .nan [] u 9).map fun t => ((solveResult o t).iterations, (solveResult o t).succeeded, t.u.x 0, t.mach)) = some (4, false, .num (-1), .nan) := by
  decide +kernel

end nan

end Optima
