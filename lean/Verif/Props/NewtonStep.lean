import Verif.Model.NewtonStep
import Verif.Props.MasterSolver
import Verif.Props.Residual
import Verif.Props.LinearSolver

/-!
# C46 and solves end to end

The solver loop with the models of its parts: what holds in the final state of a solve, and the Newton step.
-/

set_option linter.unusedSectionVars false

namespace Optima

open Matrix

variable {K : Type*} [Field K] [LinearOrder K] [IsStrictOrderedRing K] {nx np ny nz : ℕ} {τ σ : Type*}

/-! ## Invariants of a solve, for any machine -/

/-- `Q` holds for the parts at all times, `P` relates them to the point of the last evaluation. -/
structure MachInv {nw : ℕ} (m : Machine σ K nx np nw) (Q : σ → Prop) (P : σ → MVec K nx np nw → Prop) : Prop where
  eval : ∀ s u s', Q s → m.eval s u = some s' → Q s' ∧ P s' u
  newton : ∀ s uo s' u, Q s → m.newton s uo = some (s', u) → Q s'
  phi : ∀ f, m.phi = some f → ∀ s xo x s' x' b, Q s → f s xo x = some (s', x', b) → Q s'
  check : ∀ f, m.check = some f → ∀ s uo u r s' b, Q s → f s uo u r = some (s', b) → Q s' ∧ (P s u → P s' u)

section inv
variable {nw : ℕ} {m : Machine σ K nx np nw} {Q : σ → Prop} {P : σ → MVec K nx np nw → Prop}

theorem evalAt_inv (h : MachInv m Q P) {s s' : SolveState σ K nx np nw} (hq : Q s.mach) (he : evalAt m s = some s') : Q s'.mach ∧ P s'.mach s'.u := by
  obtain ⟨e1, -, -, -, -, e6⟩ := evalAt_u he
  rw [e1]
  exact h.eval _ _ _ hq e6

theorem transform_inv (h : MachInv m Q P) {B : Bounds K nx np} {s s' : SolveState σ K nx np nw} {b} (hq : Q s.mach) (he : transform m B s = some (s', b)) : Q s'.mach := by
  unfold transform at he
  split at he
  · cases he; exact hq
  · rename_i phi e
    dsimp only at he
    split at he
    · cases he
    · rename_i t x o hphi
      have ht : Q t := h.phi _ e _ _ _ _ _ _ hq hphi
      split_ifs at he
      · split at he
        · cases he
        · rename_i s1 h1; cases he; exact (evalAt_inv h (s := { s with mach := t, u := s.u }) ht h1).1
      · split at he
        · cases he
        · rename_i s1 h1
          have hs1 := (evalAt_inv h (s := { s with mach := t, u := { s.u with x := fun i => clamp (B.xlower i) (B.xupper i) (x i) } }) ht h1).1
          split_ifs at he
          · split at he
            · cases he
            · rename_i s2 h2; cases he; exact (evalAt_inv h (s := { s1 with u := s.u }) hs1 h2).1
          · cases he; exact hs1

theorem step_inv (h : MachInv m Q P) {o : SolveOptions K} {B : Bounds K nx np} {s s' : SolveState σ K nx np nw} (hq : Q s.mach) (he : step m o B s = some s') : Q s'.mach ∧ P s'.mach s'.u := by
  unfold step at he
  dsimp only at he
  split at he
  · cases he
  · rename_i t u hn
    split at he
    · cases he
    · rename_i s1 b h1
      have hs1 := transform_inv h (s := { s with iterations := s.iterations + 1, mach := t, u := u }) (h.newton _ _ _ _ hq hn) h1
      split at he
      · cases he
      · rename_i s2 h2
        refine evalAt_inv h (s := s2) ?_ he
        unfold errorControl at h2
        split at h2
        · cases h2
        · cases h2; exact hs1

theorem stepping_inv (h : MachInv m Q P) {o : SolveOptions K} {s s' : SolveState σ K nx np nw} {b} (hq : Q s.mach ∧ P s.mach s.u) (he : stepping m o s = some (s', b)) : Q s'.mach ∧ P s'.mach s'.u := by
  unfold stepping at he
  dsimp only at he
  split_ifs at he
  · cases he; exact hq
  · split at he
    · cases he; exact hq
    · split at he
      · cases he; exact hq
      · rename_i f hf
        split at he
        · cases he
        · rename_i t c hc
          cases he
          have := h.check _ hf _ _ _ _ _ _ hq.1 hc
          exact ⟨this.1, this.2 hq.2⟩

/-- The final state of the loop satisfies the invariants. -/
theorem loop_inv (h : MachInv m Q P) {o : SolveOptions K} {B : Bounds K nx np} {s : SolveState σ K nx np nw} {r} (hl : Loop m o B s r) : Q s.mach → ∀ t, r = some t → Q t.mach ∧ P t.mach t.u := by
  induction hl with
  | stepFails => intro _ t e; cases e
  | checkFails => intro _ t e; cases e
  | stop s s1 s2 h1 h2 => intro hq t e; cases e; exact stepping_inv h (step_inv h hq h1) h2
  | again s s1 s2 r h1 h2 h3 ih => intro hq t e; exact ih (stepping_inv h (step_inv h hq h1) h2).1 t e

/-- The final state of a solve satisfies the invariants: the parts have last been evaluated at the final point. -/
theorem solve_inv (h : MachInv m Q P) (o : SolveOptions K) (B : Bounds K nx np) {mach : σ} (hq : Q mach) (history : History K) (u : MVec K nx np nw) (t : SolveState σ K nx np nw)
    (hs : Solve m o B mach history u (some t)) : Q t.mach ∧ P t.mach t.u := by
  cases hs with
  | run s r e hl => exact loop_inv h hl (evalAt_inv h hq e).1 t rfl

/-- A transformation step whose parts never fail returns. -/
theorem transform_some (h : MachInv m Q P) (he : ∀ s u, Q s → ∃ s', m.eval s u = some s') (hphi : ∀ f, m.phi = some f → ∀ s xo x, ∃ r, f s xo x = some r) (B : Bounds K nx np) (s : SolveState σ K nx np nw) (hq : Q s.mach) :
    ∃ r, transform m B s = some r := by
  have hev : ∀ s : SolveState σ K nx np nw, Q s.mach → ∃ s', evalAt m s = some s' := by
    intro s hs
    obtain ⟨s', e⟩ := he s.mach s.u hs
    exact ⟨_, by unfold evalAt; rw [e]⟩
  unfold transform
  split
  · exact ⟨_, rfl⟩
  · rename_i f hf
    obtain ⟨⟨t, x, b⟩, e⟩ := hphi f hf s.mach s.uo.x s.u.x
    have ht : Q t := h.phi _ hf _ _ _ _ _ _ hq e
    dsimp only
    rw [e]
    dsimp only
    split_ifs
    · obtain ⟨s1, h1⟩ := hev { s with mach := t, u := s.u } ht
      rw [h1]
      exact ⟨_, rfl⟩
    · obtain ⟨s1, h1⟩ := hev { s with mach := t, u := { s.u with x := fun i => clamp (B.xlower i) (B.xupper i) (x i) } } ht
      rw [h1]
      dsimp only
      split_ifs
      · obtain ⟨s2, h2⟩ := hev { s1 with u := s.u } (evalAt_inv h (s := { s with mach := t, u := { s.u with x := fun i => clamp (B.xlower i) (B.xupper i) (x i) } }) ht h1).1
        rw [h2]
        exact ⟨_, rfl⟩
      · exact ⟨_, rfl⟩

/-- A solve whose parts never fail returns. -/
theorem solve_some (h : MachInv m Q P) (he : ∀ s u, Q s → ∃ s', m.eval s u = some s') (hn : ∀ s uo, Q s → (∃ v, P s v) → ∃ r, m.newton s uo = some r)
    (hphi : ∀ f, m.phi = some f → ∀ s xo x, ∃ r, f s xo x = some r) (hc : ∀ f, m.check = some f → ∀ s uo u r, ∃ q, f s uo u r = some q) (o : SolveOptions K) {B : Bounds K nx np} (hB : ConsistentBounds B) {mach : σ} (hq : Q mach)
    (history : History K) (u : MVec K nx np nw) : ∃ t, Solve m o B mach history u (some t) := by
  obtain ⟨⟨r, hr, -⟩, -⟩ := solve_budget m o B mach history u
  have hev : ∀ s : SolveState σ K nx np nw, Q s.mach → ∃ s', evalAt m s = some s' := by
    intro s hs
    obtain ⟨s', e⟩ := he s.mach s.u hs
    exact ⟨_, by unfold evalAt; rw [e]⟩
  have hstep : ∀ s : SolveState σ K nx np nw, Q s.mach → (∃ v, P s.mach v) → InBounds B s.uo → ∃ s', step m o B s = some s' := by
    intro s hs hp ho
    obtain ⟨⟨t, v⟩, e⟩ := hn s.mach s.uo hs hp
    unfold step
    dsimp only
    rw [e]
    dsimp only
    have ht := h.newton _ _ _ _ hs e
    obtain ⟨⟨s1, b⟩, h1⟩ := transform_some h he hphi B { s with iterations := s.iterations + 1, mach := t, u := v } ht
    have hs1 := transform_inv h (s := { s with iterations := s.iterations + 1, mach := t, u := v }) ht h1
    rw [h1]
    dsimp only
    obtain ⟨s2, h2⟩ := errorControl_ok o (B := B) (s := s1) (by rw [(transform_frame h1).1]; exact ho)
    rw [h2]
    refine hev s2 ?_
    unfold errorControl at h2
    split at h2
    · cases h2
    · cases h2; exact hs1
  have hstepping : ∀ s : SolveState σ K nx np nw, ∃ q, stepping m o s = some q := by
    intro s
    unfold stepping
    dsimp only
    split_ifs
    · exact ⟨_, rfl⟩
    · split
      · exact ⟨_, rfl⟩
      · split
        · exact ⟨_, rfl⟩
        · rename_i f hf
          obtain ⟨q, e⟩ := hc f hf s.mach s.uo s.u { iterations := s.iterations }
          rw [e]
          exact ⟨_, rfl⟩
  have hloop : ∀ s r, Loop m o B s r → Q s.mach → (∃ v, P s.mach v) → InBounds B s.uo → ∃ t, r = some t := by
    intro s r hl
    induction hl with
    | stepFails s h1 => intro hq hp ho; obtain ⟨s', e⟩ := hstep s hq hp ho; rw [h1] at e; cases e
    | checkFails s s1 h1 h2 => intro hq hp ho; obtain ⟨q, e⟩ := hstepping s1; rw [h2] at e; cases e
    | stop s s1 s2 h1 h2 => intro _ _ _; exact ⟨_, rfl⟩
    | again s s1 s2 r h1 h2 h3 ih =>
      intro hq hp ho
      have := stepping_inv h (step_inv h hq h1) h2
      exact ih this.1 ⟨_, this.2⟩ (continue_inBounds ho h1 h2).1
  cases hr with
  | initFails e =>
    obtain ⟨s', e'⟩ := hev _ (show Q ({ mach := mach, u := clampVec B u, uo := clampVec B u, iterations := 0, history := history.init, trace := [] } : SolveState σ K nx np nw).mach from hq)
    have : solveInit m B mach history u = some s' := e'
    rw [e] at this
    cases this
  | run s r e hl =>
    have hi := evalAt_inv h (s := { mach := mach, u := clampVec B u, uo := clampVec B u, iterations := 0, history := history.init, trace := [] }) hq e
    obtain ⟨t, rfl⟩ := hloop s r hl hi.1 ⟨_, hi.2⟩ (by rw [(solveInit_spec e).2.1]; exact clampVec_inBounds hB u)
    exact ⟨t, .run s _ e hl⟩

end inv

/-! ## The machine of the code -/

/-- The parts are in a reachable state. -/
def Reach (cfg : Config K nx np ny nz τ) (s : Parts K nx np ny nz τ cfg.pb.Ax) : Prop :=
  Ech.WReach cfg.env.debug cfg.env.o cfg.env.sort cfg.env.thr cfg.env.eps cfg.pb.Ax cfg.pb.Ap s.ech

/-- `F` and `E` have last been updated at the point `u`: the user functions returned `ev` there, the residual function holds what it should (`RFSpec`) and the errors are those of its residuals. -/
def EvaluatedAt (cfg : Config K nx np ny nz τ) (s : Parts K nx np ny nz τ cfg.pb.Ax) (u : MVec K nx np (ny + nz)) : Prop :=
  ∃ ev rf ew0, s.rf = some rf ∧ RFSpec cfg.env cfg.pb ev u rf ∧ s.errors = residualErrors rf.C.mat cfg.pb.xlower cfg.pb.xupper u.x rf.res ew0 ∧ ∃ t t' q, cfg.user t u.x u.p q = some (t', ev)

theorem machine_inv {cfg : Config K nx np ny nz τ} (hthr : 0 ≤ cfg.env.thr) (heps : 0 ≤ cfg.env.eps) (hnx : 0 < nx) (check) : MachInv (cfg.machine check) (Reach cfg) (EvaluatedAt cfg) where
  eval := by
    intro s u s' hq he
    obtain ⟨s1, h1, rfl⟩ := Option.map_eq_some_iff.1 he
    unfold Config.updateF at h1
    split at h1
    · cases h1
    · rename_i t ev hu
      rcases rfUpdate_spec hthr heps cfg.pb hq hnx s.ax ev u with ⟨rf, hrf, hspec⟩ | ⟨hf, -⟩
      · rw [hrf] at h1
        cases h1
        exact ⟨hspec.reach, ev, rf, s.errors.ewbar, rfl, hspec, rfl, s.user, t, s.ech.rwq, hu⟩
      · rw [hf] at h1; cases h1
  newton := by
    intro s uo s' u hq he
    change cfg.newton s uo = _ at he
    unfold Config.newton at he
    split at he
    · cases he
    · cases he; exact hq
  phi := by
    intro f hf s xo x s' x' b hq h
    obtain ⟨g, -, rfl⟩ := Option.map_eq_some_iff.1 hf
    obtain ⟨r, -, e⟩ := Option.map_eq_some_iff.1 h
    simp only [Prod.mk.injEq] at e
    rw [← e.1]; exact hq
  check := by
    intro f hf s uo u r s' b hq h
    obtain ⟨g, -, rfl⟩ := Option.map_eq_some_iff.1 hf
    obtain ⟨r, -, e⟩ := Option.map_eq_some_iff.1 h
    simp only [Prod.mk.injEq] at e
    rw [← e.1]
    exact ⟨hq, fun hp => hp⟩

theorem start_reach (cfg : Config K nx np ny nz τ) (user : τ) (mem errors ax du) : Reach cfg (cfg.start user mem errors ax du) := Ech.WReach.init mem

/-- Without a transformation function there is none that throws. -/
theorem noPhi {cfg : Config K nx np ny nz τ} (h : cfg.phi = none) : ∀ f, cfg.phi = some f → ∀ t xo x, ∃ r, f t xo x = some r := fun f hf => by rw [h] at hf; cases hf

/-- **A solve always returns** (release builds, user code that does not throw): whatever the user functions, the transformation function and the user check return and whatever the linear solver computes. -/
theorem solve_returns {cfg : Config K nx np ny nz τ} (hthr : 0 ≤ cfg.env.thr) (heps : 0 ≤ cfg.env.eps) (hd : cfg.env.debug = false) (hnx : 0 < nx) (check) (hphi : ∀ f, cfg.phi = some f → ∀ t xo x, ∃ r, f t xo x = some r)
    (huser : ∀ t x p q, ∃ r, cfg.user t x p q = some r) (hcheck : ∀ f, check = some f → ∀ s uo u r, ∃ q, f s uo u r = some q) (o : SolveOptions K) (hB : ConsistentBounds cfg.pb.bounds)
    (user : τ) (mem errors ax du) (history : History K) (u : MVec K nx np (ny + nz)) :
    ∃ t, Solve (cfg.machine check) o cfg.pb.bounds (cfg.start user mem errors ax du) history u (some t) := by
  refine solve_some (machine_inv hthr heps hnx check) ?_ ?_ ?_ ?_ o hB (start_reach cfg user mem errors ax du) history u
  · intro s u hq
    obtain ⟨⟨t, ev⟩, e⟩ := huser s.user u.x u.p s.ech.rwq
    obtain ⟨rf, hrf, -⟩ := rfUpdate_release hthr heps hd cfg.pb hq hnx s.ax ev u
    obtain ⟨s', h⟩ : ∃ s', cfg.updateF cfg.user s u = some s' := by
      unfold Config.updateF
      rw [e]
      dsimp only
      rw [hrf]
      exact ⟨_, rfl⟩
    exact ⟨cfg.updateE s' u, by change Option.map _ (cfg.updateF cfg.user s u) = _; rw [h]; rfl⟩
  · rintro s uo - ⟨v, ev, rf, ew0, e, -⟩
    change ∃ r, cfg.newton s uo = some r
    unfold Config.newton
    rw [e]
    exact ⟨_, rfl⟩
  · intro f hf s xo x
    obtain ⟨g, hg, rfl⟩ := Option.map_eq_some_iff.1 hf
    obtain ⟨q, e⟩ := hphi g hg s.user xo x
    exact ⟨_, by dsimp only; rw [e]; rfl⟩
  · intro f hf s uo u r
    obtain ⟨g, hg, rfl⟩ := Option.map_eq_some_iff.1 hf
    obtain ⟨q, e⟩ := hcheck g hg s uo u r
    exact ⟨_, by dsimp only; rw [e]; rfl⟩

/-- **What success means** (C28, C29, C32 and C48 together): if a solve without user check succeeds, then at the final point, with the values `ev` the user functions returned there, the bounds hold; every `v`
    is below the tolerance; the gradient of the Lagrangian is below the tolerance except at variables on a bound, which are either non-basic and held there by the sign of the gradient (those reported unstable)
    or basic. -/
theorem solve_success_kkt {cfg : Config K nx np ny nz τ} (hthr : 0 ≤ cfg.env.thr) (heps : 0 ≤ cfg.env.eps) (hnx : 0 < nx) (o : SolveOptions K) (hB : ConsistentBounds cfg.pb.bounds)
    (user : τ) (mem errors ax du) (history : History K) (u : MVec K nx np (ny + nz)) (t : SolveState (Parts K nx np ny nz τ cfg.pb.Ax) K nx np (ny + nz))
    (hs : Solve (cfg.machine none) o cfg.pb.bounds (cfg.start user mem errors ax du) history u (some t)) (hsucc : (solveResult o t).succeeded = true) :
    ∃ ev rf, (∃ t0 t1 q, cfg.user t0 t.u.x t.u.p q = some (t1, ev)) ∧ t.mach.rf = some rf ∧ RFSpec cfg.env cfg.pb ev t.u rf ∧ InBounds cfg.pb.bounds t.u ∧ (∀ q, |ev.v q| < o.tolerance) ∧
      ∀ i, let s := ev.fx i + ∑ l, cfg.pb.Ax l i * t.u.w (Fin.castAdd nz l) + ∑ l, ev.hx l i * t.u.w (Fin.natAdd ny l)
        |s| < o.tolerance ∨ (cfg.pb.xlower i = some (t.u.x i) ∧ 0 < s) ∨ (cfg.pb.xupper i = some (t.u.x i) ∧ s < 0) ∨
          ((∃ b, rf.M.RWQ.jb b = i) ∧ OnBound cfg.pb.xlower cfg.pb.xupper t.u.x i) := by
  obtain ⟨-, ev, rf, ew0, h1, h2, h3, h4⟩ := solve_inv (machine_inv hthr heps hnx none) o cfg.pb.bounds (start_reach cfg user mem errors ax du) history u t hs
  have herr : t.mach.errors.error < o.tolerance := by
    rcases success_converged _ o _ _ history u t hs hsucc with h | ⟨t1, -, -, f, -, hf, -⟩
    · exact h
    · cases hf
  obtain ⟨k1, k2⟩ := rfUpdate_small_error h2 ew0 t.mach.errors.error (by rw [h3])
  refine ⟨ev, rf, h4, h1, h2, (solve_inBounds_partial _ o hB _ history u).2 t hs, fun q => (k2 q).trans_lt herr, fun i => ?_⟩
  intro s
  have hmult : rf.status.s i = s := by
    rw [h2.mult, h2.Wx]
    simp only [stack, Fin.sum_univ_add, Fin.addCases_left, Fin.addCases_right, s]
    ring
  by_cases hi : i ∈ rf.M.ju
  · have := (h2.unstable i hi).2
    rw [hmult] at this
    tauto
  · by_cases hb : (∃ b, rf.M.RWQ.jb b = i) ∧ OnBound cfg.pb.xlower cfg.pb.xupper t.u.x i
    · exact Or.inr (Or.inr (Or.inr hb))
    · exact Or.inl ((k1 i hi hb).trans_lt herr)

/-- **What success means, feasibility**: in exact arithmetic and with as many basic variables as constraints, a successful solve satisfies the linear and non-linear constraints up to the tolerance times the row sums of
    the basic columns. -/
theorem solve_success_feasible {cfg : Config K nx np ny nz τ} (hthr : 0 ≤ cfg.env.thr) (heps : cfg.env.eps = 0) (hnx : 0 < nx) (o : SolveOptions K) (hB : ConsistentBounds cfg.pb.bounds)
    (user : τ) (mem errors ax du) (history : History K) (u : MVec K nx np (ny + nz)) (t : SolveState (Parts K nx np ny nz τ cfg.pb.Ax) K nx np (ny + nz))
    (hs : Solve (cfg.machine none) o cfg.pb.bounds (cfg.start user mem errors ax du) history u (some t)) (hsucc : (solveResult o t).succeeded = true)
    (hfull : ∀ rf, t.mach.rf = some rf → rf.M.RWQ.nb = ny + nz) :
    ∃ ev rf, (∃ t0 t1 q, cfg.user t0 t.u.x t.u.p q = some (t1, ev)) ∧ t.mach.rf = some rf ∧
      (∀ l, |cfg.pb.b l - ∑ j, cfg.pb.Ax l j * t.u.x j - ∑ q, cfg.pb.Ap l q * t.u.p q| ≤ (∑ b, |cfg.pb.Ax l (rf.M.RWQ.jb b)|) * o.tolerance) ∧
      ∀ l, |ev.h l| ≤ (∑ b, |ev.hx l (rf.M.RWQ.jb b)|) * o.tolerance := by
  obtain ⟨-, ev, rf, ew0, h1, h2, h3, h4⟩ := solve_inv (machine_inv hthr heps.ge hnx none) o cfg.pb.bounds (start_reach cfg user mem errors ax du) history u t hs
  have herr : t.mach.errors.error < o.tolerance := by
    rcases success_converged _ o _ _ history u t hs hsucc with h | ⟨t1, -, -, f, -, hf, -⟩
    · exact h
    · cases hf
  have hb1 : ∀ i q, |(rf.M.RWQ.Rb * rf.M.Wp) i q| ≤ ∑ i, ∑ q, |(rf.M.RWQ.Rb * rf.M.Wp) i q| := fun i q =>
    le_trans (Finset.single_le_sum (f := fun q => |(rf.M.RWQ.Rb * rf.M.Wp) i q|) (fun q _ => abs_nonneg _) (Finset.mem_univ q))
      (Finset.single_le_sum (f := fun i => ∑ q, |(rf.M.RWQ.Rb * rf.M.Wp) i q|) (fun i _ => Finset.sum_nonneg fun q _ => abs_nonneg _) (Finset.mem_univ i))
  have hb2 : ∀ b, ∑ l, |rf.M.RWQ.Rb b l| * |starRes rf.M.ju (rfArgs cfg.pb rf.M ev t.u) l| ≤ ∑ b, ∑ l, |rf.M.RWQ.Rb b l| * |starRes rf.M.ju (rfArgs cfg.pb rf.M ev t.u) l| := fun b =>
    Finset.single_le_sum (f := fun b => ∑ l, |rf.M.RWQ.Rb b l| * |starRes rf.M.ju (rfArgs cfg.pb rf.M ev t.u) l|) (fun b _ => Finset.sum_nonneg fun l _ => by positivity) (Finset.mem_univ b)
  obtain ⟨f1, f2⟩ := rfUpdate_small_error_feasible heps.ge h2 (hfull rf h1) ew0 o.tolerance _ _ hb1 hb2 (by rw [← h3]; exact herr.le)
  simp only [heps, mul_zero, zero_mul, add_zero] at f1 f2
  exact ⟨ev, rf, h4, h1, f1, f2⟩

/-! ## C46 -/

/-- The echelon form is exact with `eps = 0`. -/
theorem rf_echelon {env : Env K} (heps : env.eps = 0) {pb : MProblem K nx np ny nz} {ev u} {rf : RFState K nx np ny nz pb.Ax} (h : RFSpec env pb ev u rf) : EchelonOK rf.M := by
  refine ⟨h.b, h.n, ?_⟩
  classical
  obtain ⟨m, hm⟩ : ∃ m : K, ∀ i q, |(rf.M.RWQ.Rb * rf.M.Wp) i q| ≤ m := by
    refine ⟨∑ i, ∑ q, |(rf.M.RWQ.Rb * rf.M.Wp) i q|, fun i q => ?_⟩
    refine le_trans ?_ (Finset.single_le_sum (f := fun i => ∑ q, |(rf.M.RWQ.Rb * rf.M.Wp) i q|) (fun i _ => Finset.sum_nonneg fun q _ => abs_nonneg _) (Finset.mem_univ i))
    exact Finset.single_le_sum (f := fun q => |(rf.M.RWQ.Rb * rf.M.Wp) i q|) (fun q _ => abs_nonneg _) (Finset.mem_univ q)
  funext i q
  have := h.p m hm i q
  rw [heps, zero_mul, zero_mul] at this
  exact (sub_eq_zero.1 (abs_nonpos_iff.1 this)).symm

/-- **C46 (Newton equation)**: with exact arithmetic and an inner solver that solves its system, the Newton step satisfies `J du = -F`: `SolvesMaster` is the linear system with the dense Jacobian (`solvesMaster_iff`)
    and the right-hand side `Fm` is minus the residual (`residual_master`). -/
theorem newton_solves {cfg : Config K nx np ny nz τ} (heps : cfg.env.eps = 0) {s s' : Parts K nx np ny nz τ cfg.pb.Ax} {uo u : MVec K nx np (ny + nz)} {ev rf} (hrf : s.rf = some rf)
    (hspec : RFSpec cfg.env cfg.pb ev uo rf) (hR : RowsSpanned rf.M) (hc : Consistent rf.M rf.res.master) (hin : InnerOK cfg.method rf.C (cfg.inners rf.C) rf.res.master)
    (hm : cfg.method = .rangespace → (∀ i j, i ≠ j → ev.fxx i j = 0) ∧ rf.C.nbe = 0 ∧ ∀ k, rf.C.mat.hne k ≠ 0) (hn : cfg.newton s uo = some (s', u)) :
    ∃ du, SolvesMaster rf.M rf.res.master du ∧ (∀ i, u.x i = uo.x i + du.x i) ∧ (∀ q, u.p q = uo.p q + du.p q) ∧ ∀ l, u.w l = uo.w l + du.w l := by
  unfold Config.newton at hn
  rw [hrf] at hn
  cases hn
  refine ⟨_, ?_, fun i => rfl, fun q => rfl, fun l => rfl⟩
  have hE := rf_echelon heps hspec
  have key := linearSolver_solves_partial hspec.canon hE hR rf.res.master hc cfg.method (cfg.inners rf.C) s.du hin (by rw [hspec.Hxx]; exact hm)
  have e : linSolve cfg.method (cfg.inners rf.C) rf.C.mat rf.res.master s.du = linSolveCanonical cfg.method (cfg.inners rf.C) rf.C.mat rf.res.canonical 0 s.du := by
    obtain ⟨ax0, hres⟩ := hspec.res
    obtain ⟨m1, m2, m3, m4, m5, m6⟩ := residual_master cfg.env.eps hspec.canon ax0 (rfArgs cfg.pb rf.M ev uo)
    unfold linSolve
    congr 1
    · rw [hres]
      ext k
      · rw [m5]
        dsimp only [Function.comp]
        exact m1 _ ((stable_iff hspec.canon _).2 ⟨k, rfl⟩)
      · rw [m6]
        exact m3 k
      · rw [heps, residual_canonical_exact hspec.canon hE ax0 (rfArgs cfg.pb rf.M ev uo) rfl rfl k]
        rw [heps] at m4
        simp only [mulVec, dotProduct, m4]
    · rw [hres]
      funext k
      exact m2 _ ((hspec.canon.unstable _).1 ⟨k, rfl⟩)
  rw [e] at key
  exact key

/-- The user functions of a problem with affine residual: quadratic objective, affine `h` and `v`. -/
structure Affine (K : Type*) (nx np nz : ℕ) where
  H : Matrix (Fin nx) (Fin nx) K
  Hp : Matrix (Fin nx) (Fin np) K
  c : Fin nx → K
  hx : Matrix (Fin nz) (Fin nx) K
  hp : Matrix (Fin nz) (Fin np) K
  h0 : Fin nz → K
  vx : Matrix (Fin np) (Fin nx) K
  vp : Matrix (Fin np) (Fin np) K
  v0 : Fin np → K

/-- What they return at `(x, p)`: values and derivatives. -/
structure Affine.Returns (A : Affine K nx np nz) (x : Fin nx → K) (p : Fin np → K) (ev : Evals K nx np nz) : Prop where
  fx : ev.fx = A.H *ᵥ x + A.Hp *ᵥ p + A.c
  fxx : ev.fxx = A.H
  fxp : ev.fxp = A.Hp
  h : ev.h = A.hx *ᵥ x + A.hp *ᵥ p + A.h0
  hx : ev.hx = A.hx
  hp : ev.hp = A.hp
  v : ev.v = A.vx *ᵥ x + A.vp *ᵥ p + A.v0
  vx : ev.vx = A.vx
  vp : ev.vp = A.vp

/-- **C46 (affine residual)**: after an exact Newton step from a point without unstable variables, all residuals vanish: whatever echelon form and stability status the update at the new point finds, the reported error is zero. -/
theorem affine_step_error {env : Env K} (heps : env.eps = 0) {pb : MProblem K nx np ny nz} {A : Affine K nx np nz} {ev ev' : Evals K nx np nz} {uo u du : MVec K nx np (ny + nz)}
    {rf rf' : RFState K nx np ny nz pb.Ax} (h : RFSpec env pb ev uo rf) (h' : RFSpec env pb ev' u rf') (hev : A.Returns uo.x uo.p ev) (hev' : A.Returns u.x u.p ev') (hju : rf.M.ju = [])
    (hdu : SolvesMaster rf.M rf.res.master du) (hx : ∀ i, u.x i = uo.x i + du.x i) (hp : ∀ q, u.p q = uo.p q + du.p q) (hw : ∀ l, u.w l = uo.w l + du.w l) (ew0) :
    (residualErrors rf'.C.mat pb.xlower pb.xupper u.x rf'.res ew0).error = 0 := by
  obtain ⟨ax0, hres⟩ := h.res
  obtain ⟨ax0', hres'⟩ := h'.res
  obtain ⟨m1, m2, m3, m4, m5, m6⟩ := residual_master env.eps h.canon ax0 (rfArgs pb rf.M ev uo)
  obtain ⟨m1', m2', m3', m4', m5', m6'⟩ := residual_master env.eps h'.canon ax0' (rfArgs pb rf'.M ev' u)
  rw [← hres] at m1 m2 m3 m4 m5 m6
  rw [← hres'] at m1' m2' m3' m4' m5' m6'
  have hE' := rf_echelon heps h'
  have hWx : rf'.M.Wx = rf.M.Wx := by rw [h'.Wx, h.Wx, hev'.hx, hev.hx]
  have hWp : rf'.M.Wp = rf.M.Wp := by rw [h'.Wp, h.Wp, hev'.hp, hev.hp]
  have hnot : ∀ i, i ∉ rf.M.ju := by rw [hju]; simp
  -- the gradient of the Lagrangian at the new point
  have hgrad : ∀ i, lagGrad (rfArgs pb rf'.M ev' u) i = 0 := by
    intro i
    have e := hdu.stable i (hnot i)
    rw [m1 i (hnot i)] at e
    simp only [hnot, if_false] at e
    have e0 : lagGrad (rfArgs pb rf.M ev uo) i = (∑ j, A.H i j * uo.x j + ∑ q, A.Hp i q * uo.p q + A.c i) + ∑ l, rf.M.Wx l i * uo.w l := by
      unfold lagGrad rfArgs
      dsimp only
      rw [hev.fx, Fin.sum_univ_add]
      simp only [Pi.add_apply, mulVec, dotProduct]
      ring
    have e1 : lagGrad (rfArgs pb rf'.M ev' u) i = (∑ j, A.H i j * u.x j + ∑ q, A.Hp i q * u.p q + A.c i) + ∑ l, rf.M.Wx l i * u.w l := by
      unfold lagGrad rfArgs
      dsimp only
      rw [hev'.fx, Fin.sum_univ_add, hWx]
      simp only [Pi.add_apply, mulVec, dotProduct]
      ring
    rw [e1]
    rw [e0] at e
    rw [h.Hxx, h.Hxp, hev.fxx, hev.fxp] at e
    simp only [hx, hp, hw, mul_add, Finset.sum_add_distrib]
    linear_combination e
  have hv : ∀ q, ev'.v q = 0 := by
    intro q
    have e := hdu.par q
    rw [m3 q] at e
    simp only [hnot, if_false] at e
    change _ = - ev.v q at e
    rw [h.Vpx, h.Vpp, hev.vx, hev.vp, hev.v] at e
    rw [hev'.v]
    simp only [Pi.add_apply, mulVec, dotProduct] at e ⊢
    simp only [hx, hp, mul_add, Finset.sum_add_distrib]
    linear_combination e
  have hf : ∀ l, feasRes (rfArgs pb rf'.M ev' u) l = 0 := by
    intro l
    have e := hdu.constr l
    rw [m4 l] at e
    simp only [hnot, if_false] at e
    refine Fin.addCases (fun l => ?_) (fun l => ?_) l <;> clear e
    · have e := hdu.constr (Fin.castAdd nz l)
      rw [m4] at e
      simp only [hnot, if_false, feasRes, Fin.addCases_left] at e ⊢
      change _ = pb.b l - ∑ j, rf.M.Wx (Fin.castAdd nz l) j * uo.x j - ∑ q, rf.M.Wp (Fin.castAdd nz l) q * uo.p q at e
      change pb.b l - ∑ j, rf'.M.Wx (Fin.castAdd nz l) j * u.x j - ∑ q, rf'.M.Wp (Fin.castAdd nz l) q * u.p q = 0
      rw [hWx, hWp]
      simp only [hx, hp, mul_add, Finset.sum_add_distrib]
      linear_combination -e
    · have e := hdu.constr (Fin.natAdd ny l)
      rw [m4] at e
      simp only [hnot, if_false, feasRes, Fin.addCases_right] at e ⊢
      change _ = - ev.h l at e
      change - ev'.h l = 0
      rw [h.Wx, h.Wp, hev.h, hev.hx, hev.hp] at e
      rw [hev'.h]
      simp only [stack, Fin.addCases_right, Pi.add_apply, mulVec, dotProduct] at e ⊢
      simp only [hx, hp, mul_add, Finset.sum_add_distrib]
      linear_combination -e
  refine le_antisymm ?_ (le_trans (normInf_nonneg _) (le_max_right _ _))
  rw [error_le_iff h'.canon (basics_le_rows h'.canon h'.b) _ _ _ _ _ _ le_rfl]
  refine ⟨fun i hi _ => ?_, fun q => ?_, fun b => ?_⟩
  · rw [m1' i hi, hgrad]; simp
  · rw [m3' q]
    change |- ev'.v q| ≤ 0
    rw [hv]; simp
  · rw [hres', heps, residual_canonical_exact h'.canon hE' ax0' (rfArgs pb rf'.M ev' u) rfl rfl b]
    simp [hf]

end Optima
