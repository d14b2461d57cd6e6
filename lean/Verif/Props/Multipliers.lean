import Verif.Props.Resume
import Verif.Props.UnitsBounds
import Verif.Props.EquivalentBounds

/-!
# C90: the initial multipliers

Newton's step does not depend on the multipliers it starts from, but the variables that are held on their bounds in that step do.
-/

namespace Optima
open Matrix

section free
variable {K : Type*} [Field K] [LinearOrder K] [IsStrictOrderedRing K] {nx np ny nz : ℕ} {τ : Type*} {F : Smooth K nx np nz} {cfg : Config K nx np ny nz τ}

/-- **C90 in part**: without bounds, with independent constraints and regular linearised conditions at the points visited (exact arithmetic), two solves that differ in the initial multipliers return the same state, with the same error, number of iterations and verdict. -/
theorem multipliers_free_partial (X : FreeSolve F cfg) (o : SolveOptions K) (user mem errors ax du) (history : History K) (u u' : MVec K nx np (ny + nz)) (hx : u.x = u'.x) (hp : u.p = u'.p) {t t'}
    (ht : Solve (cfg.machine none) o cfg.pb.bounds (cfg.start user mem errors ax du) history u (some t)) (hns : ∀ v ∈ t.trace, F.Nonsingular cfg.pb v.x v.p)
    (ht' : Solve (cfg.machine none) o cfg.pb.bounds (cfg.start user mem errors ax du) history u' (some t')) :
    t'.u = t.u ∧ t'.mach.errors.error = t.mach.errors.error ∧ solveResult o t' = solveResult o t := by
  obtain ⟨t2, h1, h2, h3, h4⟩ := equivalent_formulations_partial X X (.refl F) (.refl F cfg.pb) (.refl F cfg.pb) o user mem errors ax du history u user mem errors ax du history u' hx hp ht hns
  cases (h1 _).1 ht'
  refine ⟨(h2.point.eq X.rows).symm, h2.error.symm, ?_⟩
  unfold solveResult
  rw [h2.iterations]

/-- **C90 in part**: with bounds, when the initial multipliers hold the same variables on their bounds (in particular if no variable starts on a bound), and when at the points visited the weights determine the basic variables and the linearised conditions with the
    held variables are regular.  Steps are cut by projection on the bounds, or the first step
    stays within the bounds: the other way of cutting mixes the initial multipliers into the new ones. -/
theorem multipliers_partial (X : BoundedSolve F cfg) (o : SolveOptions K) (user mem errors ax du) (history : History K) (u u' : MVec K nx np (ny + nz)) (hx : u.x = u'.x) (hp : u.p = u'.p) 
    (hcut : o.minmax = true ∨ ∀ B v, Preferred (stack cfg.pb.Ax F.hx) (weights cfg.pb (clampVec cfg.pb.bounds u).x) B → F.NewtonOn cfg.pb (F.Held cfg.pb B (clampVec cfg.pb.bounds u)) (clampVec cfg.pb.bounds u).x (clampVec cfg.pb.bounds u).p v.x v.p v.w → InBounds cfg.pb.bounds v)
    (hheld : ∀ B i, Preferred (stack cfg.pb.Ax F.hx) (weights cfg.pb (clampVec cfg.pb.bounds u).x) B → (F.Held cfg.pb B (clampVec cfg.pb.bounds u) i ↔ F.Held cfg.pb B (clampVec cfg.pb.bounds u') i)) {t t'}
    (ht : Solve (cfg.machine none) o cfg.pb.bounds (cfg.start user mem errors ax du) history u (some t)) (hns : ∀ v ∈ t.trace, F.RegularAt cfg.pb v)
    (ht' : Solve (cfg.machine none) o cfg.pb.bounds (cfg.start user mem errors ax du) history u' (some t')) :
    t'.u = t.u ∧ t'.mach.errors.error = t.mach.errors.error ∧ solveResult o t' = solveResult o t := by
  have hinv := machine_inv X.thr.ge X.eps.ge X.nx_pos (cfg := cfg) none
  have hcx : (clampVec cfg.pb.bounds u).x = (clampVec cfg.pb.bounds u').x := by unfold clampVec; simp only [hx]
  have hcp : (clampVec cfg.pb.bounds u).p = (clampVec cfg.pb.bounds u').p := by unfold clampVec; simp only [hp]
  have hin := clampVec_inBounds X.bounds u
  have hin' := clampVec_inBounds X.bounds u'
  have hb : SameBounds cfg.pb cfg.pb (Equiv.refl (Fin nx)) := ⟨fun _ => rfl, fun _ => rfl, rfl, rfl⟩
  suffices key : SameOutcome F cfg F cfg (Equiv.refl _) t t' by
    refine ⟨(key.point.eq X.rows).symm, key.error.symm, ?_⟩
    unfold solveResult
    rw [key.iterations]
  cases ht with
  | run s r es hl =>
    cases ht' with
    | run s' r' es' hl' =>
      obtain ⟨su, suo, sit, -, str⟩ := solveInit_spec es
      obtain ⟨q0, p0⟩ := evalAt_inv hinv (s := { mach := cfg.start user mem errors ax du, u := clampVec cfg.pb.bounds u, uo := clampVec cfg.pb.bounds u, iterations := 0, history := history.init, trace := [] })
        (start_reach cfg user mem errors ax du) es
      obtain ⟨su', suo', sit', -, str'⟩ := solveInit_spec es'
      obtain ⟨q0', p0'⟩ := evalAt_inv hinv (s := { mach := cfg.start user mem errors ax du, u := clampVec cfg.pb.bounds u', uo := clampVec cfg.pb.bounds u', iterations := 0, history := history.init, trace := [] })
        (start_reach cfg user mem errors ax du) es'
      rw [← su] at hheld hcut hcx hcp hin
      rw [← su'] at hheld hcx hcp hin'
      -- the first step
      obtain ⟨s1, a0, a1, a2, a3, a4, a5, sm, un, a6, a7⟩ := X.step o q0 p0 (suo.trans su.symm) hin
      obtain ⟨s1', b0, b1, b2, b3, b4, b5, sm', un', b6, b7⟩ := X.step o q0' p0' (suo'.trans su'.symm) hin'
      have htr := X.trace hl _ rfl q0 p0 (suo.trans su.symm) hin s1 a0
      have hr : F.RegularAt cfg.pb s.u := hns _ (htr.subset (by rw [a5, str, su]; simp))
      have hr1 : F.RegularAt cfg.pb s1.u := hns _ (htr.subset (by rw [a5]; simp))
      obtain ⟨B, P⟩ := X.spec p0
      obtain ⟨B', P'⟩ := X.spec p0'
      have hBB : ∀ i, B i ↔ B' i := hr.1 B B' P.basis (by rw [hcx]; exact P'.basis)
      obtain rfl : B = B' := funext fun i => propext (hBB i)
      have hU : F.Held cfg.pb B s.u = F.Held cfg.pb B s'.u := funext fun i => propext (hheld B i P.basis)
      have hn := hr.2 B P.basis
      have n1 := P.newton hn _ _ a6
      have n2 := P'.newton (by rw [← hU, ← hcx, ← hcp]; exact hn) _ _ b6
      rw [← hU, ← hcx, ← hcp] at n2
      obtain ⟨c1, c2, c3⟩ := n1.unique X.rows P.basis (fun i hi => hi.2.1) hn n2
      have hun : un = un' := by
        obtain ⟨x1, y1, w1⟩ := un
        obtain ⟨x2, y2, w2⟩ := un'
        simp only at c1 c2 c3
        subst c1 c2 c3
        rfl
      have hv : s1.u = s1'.u := by
        rcases hcut with hmm | hcut
        · have hc : ∀ {uo v : MVec K nx np (ny + nz)}, InBounds cfg.pb.bounds uo → backtrack o.debug o.minmax cfg.pb.bounds uo un = some v → v = clampVec cfg.pb.bounds un := by
            intro uo v h hv
            rw [hmm] at hv
            simp only [backtrack, (insideB_iff cfg.pb.bounds uo).2 h, Bool.not_true, Bool.and_false, Bool.false_eq_true, if_false, if_true] at hv
            exact (Option.some.inj hv).symm
          exact (hc hin a7).trans (hc hin' (by rw [hun]; exact b7)).symm
        · have hi := hcut B un P.basis n1
          rw [backtrack_accepts _ _ hin hi] at a7
          rw [← hun, backtrack_accepts _ _ hin' hi] at b7
          exact (Option.some.inj a7).symm.trans (Option.some.inj b7)
      have hp1 : SamePoint F cfg.pb F cfg.pb (Equiv.refl _) s1.u s1'.u := by
        rw [hv]
        exact ⟨rfl, rfl, fun _ => rfl⟩
      obtain ⟨-, -, -, -, -, he⟩ := evaluated_same X X (.refl F) (.refl F cfg.pb) (.refl F cfg.pb) hb a2 b2 hp1 hr1.1
      have ho : SameOutcome F cfg F cfg (Equiv.refl _) s1 s1' := ⟨hp1, by rw [a4, b4, sit, sit'], he, by rw [a5, b5, str, str']; exact .cons ⟨hp1.x, hp1.p⟩ (.cons ⟨by rw [← su, ← su']; exact hcx, by rw [← su, ← su']; exact hcp⟩ .nil)⟩
      -- the other steps
      obtain ⟨r0, -, huq⟩ := loop_terminates (cfg.machine none) o cfg.pb.bounds s'
      cases hl with
      | stop _ s1c s2 e1 e2 =>
        cases a0.symm.trans e1
        obtain ⟨s2', d1, d2⟩ := stepping_same e2 ho
        cases (huq _ hl').trans (huq _ (.stop _ _ _ b0 d1)).symm
        exact d2
      | again _ s1c s2 _ e1 e2 e3 =>
        cases a0.symm.trans e1
        obtain ⟨s2', d1, d2⟩ := stepping_same e2 ho
        obtain ⟨g1, g2, -, -, g5, -, g7⟩ := stepping_spec e2
        obtain ⟨k1, k2, -, -, k5, -, k7⟩ := stepping_spec d1
        have hle := continue_le e2
        obtain ⟨t2, l1, l2⟩ := loop_same_bounds X X (.refl F) (.refl F cfg.pb) (.refl F cfg.pb) hb e3 t rfl hns s2' (by rw [machine_stepping e2]; exact a1) (by rw [machine_stepping e2, g1]; exact a2) ((g7 hle).1.trans g1.symm) (by rw [g1]; exact a3)
          (by rw [machine_stepping d1]; exact b1) (by rw [machine_stepping d1, k1]; exact b2) ((k7 (by rw [← ho.iterations]; exact hle)).1.trans k1.symm) (by rw [k1]; exact b3) d2.point d2.iterations (by rw [g1, g5, a5]; exact List.mem_cons_self) d2.trace
        cases (huq _ hl').trans (huq _ (.again _ _ _ _ b0 d1 l1)).symm
        exact l2

/-- **C90 in part**: with bounds in the min-max mode, when no variable starts on a bound, and when at the points visited the weights determine the basic variables and the linearised conditions with the held variables are regular. -/
theorem multipliers_interior_partial (X : BoundedSolve F cfg) (o : SolveOptions K) (hmm : o.minmax = true) (user mem errors ax du) (history : History K) (u u' : MVec K nx np (ny + nz)) (hx : u.x = u'.x) (hp : u.p = u'.p)
    (hlower : ∀ i l, cfg.pb.xlower i = some l → l < u.x i) (hupper : ∀ i h, cfg.pb.xupper i = some h → u.x i < h) {t t'}
    (ht : Solve (cfg.machine none) o cfg.pb.bounds (cfg.start user mem errors ax du) history u (some t)) (hns : ∀ v ∈ t.trace, F.RegularAt cfg.pb v)
    (ht' : Solve (cfg.machine none) o cfg.pb.bounds (cfg.start user mem errors ax du) history u' (some t')) :
    t'.u = t.u ∧ t'.mach.errors.error = t.mach.errors.error ∧ solveResult o t' = solveResult o t := by
  have hcx : ∀ v : MVec K nx np (ny + nz), v.x = u.x → (clampVec cfg.pb.bounds v).x = u.x := by
    intro v hv
    funext i
    have hb : Between (cfg.pb.xlower i) (cfg.pb.xupper i) (u.x i) := ⟨fun l hl => (hlower i l hl).le, fun h hh => (hupper i h hh).le⟩
    simp only [clampVec, hv]
    exact clamp_of_between hb
  have hno : ∀ (v : MVec K nx np (ny + nz)) B i, v.x = u.x → ¬ F.Held cfg.pb B (clampVec cfg.pb.bounds v) i := by
    intro v B i hv h
    rcases h.2.2 with ⟨h, -⟩ | ⟨h, -⟩
    · rw [hcx v hv] at h
      exact (hlower i _ h).false
    · rw [hcx v hv] at h
      exact (hupper i _ h).false
  exact multipliers_partial X o user mem errors ax du history u u' hx hp (.inl hmm) (fun B i _ => ⟨fun h => absurd h (hno u B i rfl), fun h => absurd h (hno u' B i hx.symm)⟩) ht hns ht'

end free

/-! ## Multipliers that matter -/

/-- `x0²/2 + x1²/2 - x1`. -/
def seesaw : Smooth ℝ 2 0 0 where
  g := fun x _ => ![x 0, x 1 - 1]
  H := fun _ _ => 1
  Hp := 0
  hx := 0
  hp := 0
  h0 := 0
  v := 0
  vx := 0
  vp := 0

/-- `x0 + x1 = 1`, `x1 ≥ 0`. -/
def halfPlank : MProblem ℝ 2 0 1 0 where
  Ax := fun _ => ![1, 1]
  Ap := fun _ q => q.elim0
  b := fun _ => 1
  xlower := ![none, some 0]
  xupper := fun _ => none
  plower := fun _ => none
  pupper := fun _ => none

theorem seesaw_stack : (∀ l, stack halfPlank.Ax seesaw.hx l = ![1, 1]) ∧ ∀ l, seesaw.rhs halfPlank l = 1 := by
  refine ⟨fun l => ?_, fun l => ?_⟩
  · obtain rfl : l = Fin.castAdd 0 (0 : Fin 1) := Fin.ext (by omega); funext j; simp only [stack, Fin.addCases_left, halfPlank]
  · obtain rfl : l = Fin.castAdd 0 (0 : Fin 1) := Fin.ext (by omega); simp only [Smooth.rhs, Fin.addCases_left, halfPlank]

/-- At `(1, 0)` the first variable is basic. -/
theorem seesaw_basis {x : Fin 2 → ℝ} (h0 : x 0 = 1) (h1 : x 1 = 0) {B} (hB : Preferred (stack halfPlank.Ax seesaw.hx) (weights halfPlank x) B) : B 0 ∧ ¬ B 1 := by
  have hB0 : B 0 := by
    by_contra hn
    obtain ⟨c, c1, c2, c3⟩ := hB.exch 0 hn
    have e := c2 0
    simp only [seesaw_stack.1, Fin.sum_univ_two, c1 0 hn] at e
    have := c3 1 (by intro hc; rw [hc] at e; simp at e)
    simp [weights, halfPlank, h0, h1] at this
    norm_num at this
  refine ⟨hB0, fun hB1 => ?_⟩
  have := congrFun (hB.indep ![1, -1] (fun j hj => by revert hj; revert j; rw [Fin.forall_fin_two]; exact ⟨fun h => absurd hB0 h, fun h => absurd hB1 h⟩) fun l => by simp [seesaw_stack.1, Fin.sum_univ_two]) 0
  simp at this

theorem seesaw_held {u : MVec ℝ 2 0 (1 + 0)} (h0 : u.x 0 = 1) (h1 : u.x 1 = 0) {B} (hB : B 0 ∧ ¬ B 1) (i) : seesaw.Held halfPlank B u i ↔ i = 1 ∧ 1 < u.w 0 := by
  revert i
  rw [Fin.forall_fin_two]
  refine ⟨⟨fun h => absurd hB.1 h.2.1, fun h => absurd h.1 (by decide)⟩, ?_⟩
  unfold Smooth.Held Smooth.lag
  simp only [seesaw_stack.1]
  have : (∃ j, B j) := ⟨0, hB.1⟩
  simp [this, hB.2, seesaw, halfPlank, h1]

theorem seesaw_nonsingular (U : Fin 2 → Prop) (hU : ¬ U 0) (x p) : seesaw.NonsingularOn halfPlank U x p := by
  intro dx dp w h0 h1 h2 h3
  have a3 := h3 0
  simp only [seesaw_stack.1] at a3
  simp [Fin.sum_univ_two] at a3
  have a0 := h1 0 hU
  simp only [seesaw_stack.1] at a0
  simp [seesaw, Fin.sum_univ_two, Matrix.one_apply] at a0
  have z1 : dx 1 = 0 := by
    by_cases hc : U 1
    · exact h0 1 hc
    · have a1 := h1 1 hc
      simp only [seesaw_stack.1] at a1
      simp [seesaw, Fin.sum_univ_two, Matrix.one_apply] at a1
      linarith
  refine ⟨?_, funext fun q => q.elim0⟩
  funext i
  revert i
  rw [Fin.forall_fin_two]
  exact ⟨by simp only [Pi.zero_apply]; linarith, z1⟩

theorem seesaw_newton {U : Fin 2 → Prop} (hU : ¬ U 0) {u v : MVec ℝ 2 0 (1 + 0)} (h0 : u.x 0 = 1) (h1 : u.x 1 = 0) (h : seesaw.NewtonOn halfPlank U u.x u.p v.x v.p v.w) : (U 1 → v.x 0 = 1 ∧ v.x 1 = 0 ∧ v.w 0 = -1) ∧ (¬ U 1 → v.x 0 = 0 ∧ v.x 1 = 1 ∧ v.w 0 = 0) := by
  have a3 := h.con 0
  simp only [seesaw_stack.1, seesaw_stack.2] at a3
  simp [Fin.sum_univ_two] at a3
  have a0 := h.grad 0 hU
  simp only [seesaw_stack.1] at a0
  simp [seesaw, Fin.sum_univ_two, Matrix.one_apply, h0] at a0
  refine ⟨fun hc => ?_, fun hc => ?_⟩
  · have := h.held 1 hc
    rw [h1] at this
    refine ⟨by linarith, this, by linarith⟩
  · have a1 := h.grad 1 hc
    simp only [seesaw_stack.1] at a1
    simp [seesaw, Fin.sum_univ_two, Matrix.one_apply, h1] at a1
    refine ⟨by linarith, by linarith, by linarith⟩

section matter
variable {τ : Type*} {cfg : Config ℝ 2 0 1 0 τ}

theorem seesaw_first (hpb : cfg.pb = halfPlank) (X : BoundedSolve seesaw cfg) (o : SolveOptions ℝ) (user mem errors ax du) (history : History ℝ) {u : MVec ℝ 2 0 (1 + 0)} (h0 : u.x 0 = 1) (h1 : u.x 1 = 0) :
    ∃ t s s1, Solve (cfg.machine none) o cfg.pb.bounds (cfg.start user mem errors ax du) history u (some t) ∧ Loop (cfg.machine none) o cfg.pb.bounds s (some t) ∧ step (cfg.machine none) o cfg.pb.bounds s = some s1 ∧ EvaluatedAt cfg s1.mach s1.u ∧ s1.iterations = 1 ∧
      (1 < u.w 0 → s1.u.x 0 = 1 ∧ s1.u.x 1 = 0 ∧ s1.u.w 0 = -1) ∧ (¬ 1 < u.w 0 → s1.u.x 0 = 0 ∧ s1.u.x 1 = 1 ∧ s1.u.w 0 = 0) := by
  have hinv := machine_inv X.thr.ge X.eps.ge X.nx_pos (cfg := cfg) none
  have hbd : ∀ v : MVec ℝ 2 0 (1 + 0), 0 ≤ v.x 1 → InBounds cfg.pb.bounds v := by
    intro v hv
    rw [hpb]
    exact ⟨by rw [Fin.forall_fin_two]; simp [halfPlank, MProblem.bounds, Between, hv], fun q => q.elim0⟩
  have hin := hbd u h1.ge
  obtain ⟨t, ht⟩ := solve_returns X.thr.ge X.eps.ge X.debug X.nx_pos none (noPhi X.phi) (fun t x p q => by obtain ⟨a, b, c, -⟩ := X.user t x p q; exact ⟨_, c⟩) (fun f hf => by cases hf) o X.bounds user mem errors ax du history u
  obtain ⟨s, es, hl⟩ : ∃ s, solveInit (cfg.machine none) cfg.pb.bounds (cfg.start user mem errors ax du) history u = some s ∧ Loop (cfg.machine none) o cfg.pb.bounds s (some t) := by
    cases ht with
    | run s r es hl => exact ⟨s, es, hl⟩
  obtain ⟨su, suo, sit, -, -⟩ := solveInit_spec es
  obtain ⟨q0, p0⟩ := evalAt_inv hinv (s := { mach := cfg.start user mem errors ax du, u := clampVec cfg.pb.bounds u, uo := clampVec cfg.pb.bounds u, iterations := 0, history := history.init, trace := [] })
    (start_reach cfg user mem errors ax du) es
  rw [clampVec_of_inBounds hin] at su suo
  rw [← su] at hin h0 h1
  obtain ⟨s1, a0, a1, a2, a3, a4, -, sm, un, a6, a7⟩ := X.step o q0 p0 (suo.trans su.symm) hin
  obtain ⟨B, P⟩ := X.spec p0
  have hB : B 0 ∧ ¬ B 1 := seesaw_basis h0 h1 (by rw [← hpb]; exact P.basis)
  have hH := seesaw_held h0 h1 hB
  rw [← hpb] at hH
  have hU0 : ¬ seesaw.Held cfg.pb B s.u 0 := fun h => absurd ((hH 0).1 h).1 (by decide)
  have hn := P.newton (by have := seesaw_nonsingular _ hU0 s.u.x s.u.p; rwa [← hpb] at this) _ _ a6
  obtain ⟨k1, k2⟩ := seesaw_newton (U := seesaw.Held cfg.pb B s.u) (v := un) hU0 h0 h1 (by rw [← hpb]; exact hn)
  have hui : InBounds cfg.pb.bounds un := by
    refine hbd _ ?_
    by_cases hc : seesaw.Held cfg.pb B s.u 1
    · exact (k1 hc).2.1.ge
    · rw [(k2 hc).2.1]; norm_num
  rw [backtrack_accepts _ _ hin hui] at a7
  have hv := Option.some.inj a7
  rw [hv] at k1 k2
  refine ⟨t, s, s1, ht, hl, a0, a2, by omega, fun hc => k1 ((hH 1).2 ⟨rfl, by rw [su]; exact hc⟩), fun hc => k2 fun h => hc ?_⟩
  have := ((hH 1).1 h).2
  rwa [su] at this

/-- **C90 is false with bounds**: for `x0²/2 + x1²/2 - x1` with `x0 + x1 = 1` and `x1 ≥ 0`, started at `(1, 0)`, the solve takes one iteration if the initial multiplier is at most 1.  If it is larger then `x1` is held on its bound in the first step, the step does not move,
    and more iterations are needed: with a budget of one iteration the first solve succeeds and the second fails. -/
theorem multipliers_matter (hpb : cfg.pb = halfPlank) (X : BoundedSolve seesaw cfg) (o : SolveOptions ℝ) (hpos : 0 < o.tolerance) (htol : o.tolerance ≤ 2) (hmax : 1 ≤ o.maxiters) (user mem errors ax du) (history : History ℝ) {u u' : MVec ℝ 2 0 (1 + 0)} (h0 : u.x 0 = 1) (h1 : u.x 1 = 0)
    (hw : u.w 0 ≤ 1) (hx : u'.x = u.x) (hw' : 1 < u'.w 0) :
    ∃ t t', Solve (cfg.machine none) o cfg.pb.bounds (cfg.start user mem errors ax du) history u (some t) ∧ Solve (cfg.machine none) o cfg.pb.bounds (cfg.start user mem errors ax du) history u' (some t') ∧
      t.u.x 0 = 0 ∧ t.u.x 1 = 1 ∧ t.iterations = 1 ∧ (solveResult o t).succeeded = true ∧ 2 ≤ t'.iterations ∧ (o.maxiters = 1 → (solveResult o t').succeeded = false) := by
  obtain ⟨t, s, s1, a1, a2, a3, a4, a5, -, a6⟩ := seesaw_first hpb X o user mem errors ax du history h0 h1
  obtain ⟨t', s', s1', b1, b2, b3, b4, b5, b6, -⟩ := seesaw_first hpb X o user mem errors ax du history (u := u') (by rw [hx]; exact h0) (by rw [hx]; exact h1)
  obtain ⟨c1, c2, c3⟩ := a6 (not_lt.2 hw)
  obtain ⟨d1, d2, d3⟩ := b6 hw'
  have hlag : ∀ (v : MVec ℝ 2 0 (1 + 0)) i, seesaw.lag cfg.pb v i = ![v.x 0, v.x 1 - 1] i + v.w 0 := by
    rw [hpb]
    intro v
    unfold Smooth.lag
    simp only [seesaw_stack.1]
    rw [Fin.forall_fin_two]
    simp [seesaw]
  have hdef : ∀ (v : MVec ℝ 2 0 (1 + 0)) l, seesaw.defect cfg.pb v l = 1 - (v.x 0 + v.x 1) := by
    rw [hpb]
    intro v l
    unfold Smooth.defect
    simp only [seesaw_stack.1, seesaw_stack.2]
    simp [Fin.sum_univ_two]
  have herr : s1.mach.errors.error ≤ 0 := by
    obtain ⟨B, P⟩ := X.spec a4
    rw [P.error 0 le_rfl]
    refine ⟨fun i _ _ => ?_, fun q => q.elim0, 0, fun _ _ => rfl, fun l => ?_, fun j => by simp⟩
    · rw [hlag]
      revert i
      rw [Fin.forall_fin_two]
      simp [c1, c2, c3]
    · rw [hdef]
      simp [c1, c2]
  have herr' : 2 ≤ s1'.mach.errors.error := by
    by_contra hc
    obtain ⟨B, P⟩ := X.spec b4
    have hB : B 0 ∧ ¬ B 1 := seesaw_basis d1 d2 (by rw [← hpb]; exact P.basis)
    have hH := seesaw_held d1 d2 hB
    rw [← hpb] at hH
    have := ((P.error (max s1'.mach.errors.error 0) (le_max_right _ _)).1 (le_max_left _ _)).1 1 (fun h => by have := ((hH 1).1 h).2; rw [d3] at this; norm_num at this) (fun h => hB.2 h.1)
    rw [hlag] at this
    simp [d2, d3] at this
    norm_num at this
    exact hc this
  obtain ⟨s2, hs2⟩ : ∃ s2, stepping (cfg.machine none) o s1 = some (s2, false) := by
    rw [stepping_cases, if_neg (by omega), if_pos (show (cfg.machine none).error s1.mach < o.tolerance from lt_of_le_of_lt herr hpos)]
    exact ⟨_, rfl⟩
  obtain ⟨r0, -, huq⟩ := loop_terminates (cfg.machine none) o cfg.pb.bounds s
  cases (huq _ a2).trans (huq _ (.stop s s1 s2 a3 hs2)).symm
  obtain ⟨g1, g2, -⟩ := stepping_spec hs2
  have hit : 2 ≤ t'.iterations := by
    cases b2 with
    | stop _ s1c _ e1 e2 =>
      cases b3.symm.trans e1
      rw [stepping_cases, if_neg (by omega), if_neg (show ¬ (cfg.machine none).error s1'.mach < o.tolerance from not_lt.2 (htol.trans herr'))] at e2
      simp [askCheck, Config.machine] at e2
    | again _ s1c s2' _ e1 e2 e3 =>
      cases b3.symm.trans e1
      have := loop_iterations e3
      have := (stepping_spec e2).2.1
      omega
  refine ⟨t, t', a1, b1, by rw [g1, c1], by rw [g1, c2], by omega, ?_, hit, fun hm => ?_⟩
  · unfold solveResult
    simp only [decide_eq_true_eq]
    omega
  · unfold solveResult
    simp only [decide_eq_false_iff_not]
    omega

end matter

/-- A solver for `seesaw`. -/
theorem exists_seesaw : ∃ cfg : Config ℝ 2 0 1 0 Unit, BoundedSolve seesaw cfg ∧ cfg.pb = halfPlank := by
  let f : (Fin 2 → ℝ) → Evals ℝ 2 0 0 := fun x =>
    { f := x 0 ^ 2 / 2 + x 1 ^ 2 / 2 - x 1, fx := ![x 0, x 1 - 1], fxx := 1, fxp := 0, diagfxx := true, h := 0, hx := 0, hp := 0, v := 0, vx := 0, vp := 0, succeeded := true }
  let cfg : Config ℝ 2 0 1 0 Unit := { env := exactEnv, pb := halfPlank, method := .nullspace, inners := exactInners, user := fun t x _ _ => some (t, f x), userJac := fun t x _ _ => some (t, f x), phi := none }
  have hb : ConsistentBounds halfPlank.bounds := inBounds_consistent (u := ⟨![1, 0], 0, (0 : Fin 0 → ℝ)⟩) ⟨by rw [Fin.forall_fin_two]; simp [halfPlank, MProblem.bounds, Between], fun q => q.elim0⟩
  exact ⟨cfg, ⟨hb, rfl, rfl, rfl, exactEnv_oracle, by norm_num, rfl, fun c => exactInners_lu c, (by intro h; cases h),
    fun t x p q => ⟨t, f x, rfl, ⟨rfl, rfl, rfl, funext fun l => l.elim0, rfl, rfl, rfl, rfl, rfl⟩⟩, by
      intro y hy
      have := hy 0
      simp only [cfg, seesaw_stack.1] at this
      funext l
      obtain rfl : l = 0 := Fin.ext (by omega)
      simpa using this⟩, rfl⟩

/-- `multipliers_matter`: multipliers 0 and 2, with the default tolerance and one iteration. -/
example : ∃ (cfg : Config ℝ 2 0 1 0 Unit) (t t' : _), Solve (cfg.machine none) { exactOptions with tolerance := 1 / 10 ^ 8, maxiters := 1 } cfg.pb.bounds (cfg.start () 0 ⟨0, 0, 0, 0, 0, 0, 0, 0⟩ 0 ⟨0, 0, 0⟩) (History.init default) ⟨![1, 0], 0, fun _ => 0⟩ (some t) ∧
    Solve (cfg.machine none) { exactOptions with tolerance := 1 / 10 ^ 8, maxiters := 1 } cfg.pb.bounds (cfg.start () 0 ⟨0, 0, 0, 0, 0, 0, 0, 0⟩ 0 ⟨0, 0, 0⟩) (History.init default) ⟨![1, 0], 0, fun _ => 2⟩ (some t') ∧
    (solveResult ({ exactOptions with tolerance := 1 / 10 ^ 8, maxiters := 1 } : SolveOptions ℝ) t).succeeded = true ∧ (solveResult ({ exactOptions with tolerance := 1 / 10 ^ 8, maxiters := 1 } : SolveOptions ℝ) t').succeeded = false := by
  obtain ⟨cfg, X, hpb⟩ := exists_seesaw
  obtain ⟨t, t', h1, h2, -, -, -, h3, -, h4⟩ := multipliers_matter hpb X { exactOptions with tolerance := 1 / 10 ^ 8, maxiters := 1 } (by norm_num) (by norm_num) le_rfl () 0 ⟨0, 0, 0, 0, 0, 0, 0, 0⟩ 0 ⟨0, 0, 0⟩ (History.init default)
    (u := ⟨![1, 0], 0, fun _ => 0⟩) (u' := ⟨![1, 0], 0, fun _ => 2⟩) rfl rfl (by norm_num) rfl (by norm_num)
  exact ⟨cfg, t, t', h1, h2, h3, h4 rfl⟩

/-- `multipliers_interior_partial` (and with it `multipliers_partial`): the problem `slope` on `edge`, from `(5, 3)`, multipliers 6 and -1. -/
example : ∃ (cfg : Config ℝ 2 0 1 0 Unit) (t t' : _), cfg.pb = edge ∧ Solve (cfg.machine none) { exactOptions with minmax := true } cfg.pb.bounds (cfg.start () 0 ⟨0, 0, 0, 0, 0, 0, 0, 0⟩ 0 ⟨0, 0, 0⟩) (History.init default) ⟨![5, 3], 0, fun _ => 6⟩ (some t) ∧
    Solve (cfg.machine none) { exactOptions with minmax := true } cfg.pb.bounds (cfg.start () 0 ⟨0, 0, 0, 0, 0, 0, 0, 0⟩ 0 ⟨0, 0, 0⟩) (History.init default) ⟨![5, 3], 0, fun _ => -1⟩ (some t') ∧ t'.u = t.u := by
  let f : (Fin 2 → ℝ) → Evals ℝ 2 0 0 := fun x =>
    { f := x 0 ^ 2 / 2 + x 1 + x 1 ^ 2 / 2 - Real.cos (x 1) / 4, fx := ![x 0, 1 + x 1 + Real.sin (x 1) / 4], fxx := !![1, 0; 0, 1 + Real.cos (x 1) / 4], fxp := 0, diagfxx := true, h := 0, hx := 0, hp := 0, v := 0, vx := 0, vp := 0, succeeded := true }
  let cfg : Config ℝ 2 0 1 0 Unit := { env := exactEnv, pb := edge, method := .nullspace, inners := exactInners, user := fun t x _ _ => some (t, f x), userJac := fun t x _ _ => some (t, f x), phi := none }
  have hb : ConsistentBounds edge.bounds := inBounds_consistent (u := ⟨![0, 0], 0, (0 : Fin 0 → ℝ)⟩) ⟨by rw [Fin.forall_fin_two]; simp [edge, MProblem.bounds, Between], fun q => q.elim0⟩
  have X : BoundedSolve slope cfg := ⟨hb, rfl, rfl, rfl, exactEnv_oracle, by norm_num, rfl, fun c => exactInners_lu c, (by intro h; cases h),
    fun t x p q => ⟨t, f x, rfl, ⟨rfl, rfl, rfl, funext fun l => l.elim0, rfl, rfl, rfl, rfl, rfl⟩⟩, by
      intro y hy
      have := hy 0
      simp only [cfg, slope_stack.1] at this
      funext l
      obtain rfl : l = 0 := Fin.ext (by omega)
      simpa using this⟩
  have hd : ∀ w : ℝ, ∃ t, Solve (cfg.machine none) { exactOptions with minmax := true } cfg.pb.bounds (cfg.start () 0 ⟨0, 0, 0, 0, 0, 0, 0, 0⟩ 0 ⟨0, 0, 0⟩) (History.init default) ⟨![5, 3], 0, fun _ => w⟩ (some t) :=
    fun w => solve_returns X.thr.ge X.eps.ge X.debug X.nx_pos none (noPhi X.phi) (fun t x p q => ⟨_, rfl⟩) (fun f hf => by cases hf) _ X.bounds () 0 ⟨0, 0, 0, 0, 0, 0, 0, 0⟩ 0 ⟨0, 0, 0⟩ (History.init default) ⟨![5, 3], 0, fun _ => w⟩
  obtain ⟨t, h1⟩ := hd 6
  obtain ⟨t', k1⟩ := hd (-1)
  have hlow : ∀ i l, edge.xlower i = some l → l < (![5, 3] : Fin 2 → ℝ) i := by
    rw [Fin.forall_fin_two]
    refine ⟨fun l h => (by cases h), fun l h => ?_⟩
    obtain rfl : 0 = l := Option.some.inj h
    norm_num
  exact ⟨cfg, t, t', rfl, h1, k1, (multipliers_interior_partial X { exactOptions with minmax := true } rfl () 0 ⟨0, 0, 0, 0, 0, 0, 0, 0⟩ 0 ⟨0, 0, 0⟩ (History.init default) ⟨![5, 3], 0, fun _ => 6⟩ ⟨![5, 3], 0, fun _ => -1⟩ rfl rfl hlow (fun i h hh => by cases hh) h1
    (fun v _ => slope_regular v) k1).1⟩

/-- `halfPlank` without the bound. -/
def plank : MProblem ℝ 2 0 1 0 := { halfPlank with xlower := fun _ => none }

/-- `multipliers_free_partial`: the problem `seesaw` on `plank`, from `(1, 0)`, multipliers 0 and 2. -/
example : ∃ (cfg : Config ℝ 2 0 1 0 Unit) (t t' : _), cfg.pb = plank ∧ Solve (cfg.machine none) exactOptions cfg.pb.bounds (cfg.start () 0 ⟨0, 0, 0, 0, 0, 0, 0, 0⟩ 0 ⟨0, 0, 0⟩) (History.init default) ⟨![1, 0], 0, fun _ => 0⟩ (some t) ∧
    Solve (cfg.machine none) exactOptions cfg.pb.bounds (cfg.start () 0 ⟨0, 0, 0, 0, 0, 0, 0, 0⟩ 0 ⟨0, 0, 0⟩) (History.init default) ⟨![1, 0], 0, fun _ => 2⟩ (some t') ∧ t'.u = t.u := by
  let f : (Fin 2 → ℝ) → Evals ℝ 2 0 0 := fun x =>
    { f := x 0 ^ 2 / 2 + x 1 ^ 2 / 2 - x 1, fx := ![x 0, x 1 - 1], fxx := 1, fxp := 0, diagfxx := true, h := 0, hx := 0, hp := 0, v := 0, vx := 0, vp := 0, succeeded := true }
  let cfg : Config ℝ 2 0 1 0 Unit := { env := exactEnv, pb := plank, method := .nullspace, inners := exactInners, user := fun t x _ _ => some (t, f x), userJac := fun t x _ _ => some (t, f x), phi := none }
  have hst : ∀ l, stack plank.Ax seesaw.hx l = ![1, 1] := seesaw_stack.1
  have X : FreeSolve seesaw cfg := ⟨⟨fun i => ⟨rfl, rfl⟩, fun q => q.elim0⟩, le_rfl, rfl, rfl, exactEnv_oracle, by norm_num, rfl, fun c => exactInners_lu c, (by intro h; cases h),
    fun t x p q => ⟨t, f x, rfl, ⟨rfl, rfl, rfl, funext fun l => l.elim0, rfl, rfl, rfl, rfl, rfl⟩⟩, by
      intro y hy
      have := hy 0
      simp only [cfg, hst] at this
      funext l
      obtain rfl : l = 0 := Fin.ext (by omega)
      simpa using this⟩
  have hd : ∀ w : ℝ, ∃ t, Solve (cfg.machine none) exactOptions cfg.pb.bounds (cfg.start () 0 ⟨0, 0, 0, 0, 0, 0, 0, 0⟩ 0 ⟨0, 0, 0⟩) (History.init default) ⟨![1, 0], 0, fun _ => w⟩ (some t) :=
    fun w => solve_returns X.thr X.eps.ge X.debug X.nx_pos none (noPhi X.phi) (fun t x p q => ⟨_, rfl⟩) (fun f hf => by cases hf) _ (inBounds_consistent (X.unbounded.inBounds (⟨![1, 0], 0, fun _ => w⟩ : MVec ℝ 2 0 (1 + 0)))) () 0 ⟨0, 0, 0, 0, 0, 0, 0, 0⟩ 0 ⟨0, 0, 0⟩ (History.init default) ⟨![1, 0], 0, fun _ => w⟩
  obtain ⟨t, h1⟩ := hd 0
  obtain ⟨t', k1⟩ := hd 2
  refine ⟨cfg, t, t', rfl, h1, k1, (multipliers_free_partial X exactOptions () 0 ⟨0, 0, 0, 0, 0, 0, 0, 0⟩ 0 ⟨0, 0, 0⟩ (History.init default) ⟨![1, 0], 0, fun _ => 0⟩ ⟨![1, 0], 0, fun _ => 2⟩ rfl rfl h1 (fun v _ => ?_) k1).1⟩
  intro dx dp w a1 a2 a3
  exact seesaw_nonsingular (fun _ => False) id v.x v.p dx dp w (fun _ h => h.elim) (fun i _ => a1 i) a2 a3

/-! ## Multipliers that matter where no variable starts on a bound -/

/-- `x0²/2 + x1²/2 + 3 x1`. -/
def incline : Smooth ℝ 2 0 0 := { seesaw with g := fun x _ => ![x 0, x 1 + 3] }

section cut
variable {τ : Type*} {cfg : Config ℝ 2 0 1 0 τ}

theorem incline_first (hpb : cfg.pb = halfPlank) (X : BoundedSolve incline cfg) (o : SolveOptions ℝ) (hmm : o.minmax = false) (user mem errors ax du) (history : History ℝ) {u : MVec ℝ 2 0 (1 + 0)} (h0 : u.x 0 = 0) (h1 : u.x 1 = 1) :
    ∃ t s s1, Solve (cfg.machine none) o cfg.pb.bounds (cfg.start user mem errors ax du) history u (some t) ∧ Loop (cfg.machine none) o cfg.pb.bounds s (some t) ∧ step (cfg.machine none) o cfg.pb.bounds s = some s1 ∧ EvaluatedAt cfg s1.mach s1.u ∧ s1.iterations = 1 ∧
      s1.u.x 0 = 1 ∧ s1.u.x 1 = 0 ∧ s1.u.w 0 = u.w 0 / 2 - 1 := by
  have hinv := machine_inv X.thr.ge X.eps.ge X.nx_pos (cfg := cfg) none
  have hbd : ∀ v : MVec ℝ 2 0 (1 + 0), 0 ≤ v.x 1 → InBounds cfg.pb.bounds v := by
    intro v hv
    rw [hpb]
    exact ⟨by rw [Fin.forall_fin_two]; simp [halfPlank, MProblem.bounds, Between, hv], fun q => q.elim0⟩
  have hin := hbd u (by rw [h1]; norm_num)
  obtain ⟨t, ht⟩ := solve_returns X.thr.ge X.eps.ge X.debug X.nx_pos none (noPhi X.phi) (fun t x p q => by obtain ⟨a, b, c, -⟩ := X.user t x p q; exact ⟨_, c⟩) (fun f hf => by cases hf) o X.bounds user mem errors ax du history u
  obtain ⟨s, es, hl⟩ : ∃ s, solveInit (cfg.machine none) cfg.pb.bounds (cfg.start user mem errors ax du) history u = some s ∧ Loop (cfg.machine none) o cfg.pb.bounds s (some t) := by
    cases ht with
    | run s r es hl => exact ⟨s, es, hl⟩
  obtain ⟨su, suo, sit, -, -⟩ := solveInit_spec es
  obtain ⟨q0, p0⟩ := evalAt_inv hinv (s := { mach := cfg.start user mem errors ax du, u := clampVec cfg.pb.bounds u, uo := clampVec cfg.pb.bounds u, iterations := 0, history := history.init, trace := [] })
    (start_reach cfg user mem errors ax du) es
  rw [clampVec_of_inBounds hin] at su suo
  rw [← su] at hin h0 h1
  obtain ⟨s1, a0, a1, a2, a3, a4, -, sm, un, a6, a7⟩ := X.step o q0 p0 (suo.trans su.symm) hin
  obtain ⟨B, P⟩ := X.spec p0
  have hH : ∀ v : MVec ℝ 2 0 (1 + 0), v.x 1 = 1 → ∀ i, ¬ incline.Held cfg.pb B v i := by
    rw [hpb]
    intro v hv i h
    have hne : ∀ i, halfPlank.xlower i ≠ some (v.x i) := by
      rw [Fin.forall_fin_two]
      exact ⟨(by intro h; cases h), by norm_num [halfPlank, hv]⟩
    rcases h.2.2 with ⟨h, -⟩ | ⟨h, -⟩
    · exact hne i h
    · cases h
  have hH := hH s.u h1
  have hn := P.newton (by have := seesaw_nonsingular _ (hH 0) s.u.x s.u.p; rw [← hpb] at this; exact this) _ _ a6
  have hw : ∀ (U : Fin 2 → Prop) (v w : MVec ℝ 2 0 (1 + 0)), (∀ i, ¬ U i) → v.x 0 = 0 → v.x 1 = 1 → incline.NewtonOn cfg.pb U v.x v.p w.x w.p w.w → w.x 0 = 2 ∧ w.x 1 = -1 ∧ w.w 0 = -2 := by
    rw [hpb]
    intro U v w hU e0 e1 h
    have b3 : ∑ j, (![1, 1] : Fin 2 → ℝ) j * w.x j + ∑ q : Fin 0, stack halfPlank.Ap incline.hp 0 q * w.p q = 1 := by
      have := h.con 0
      rw [show stack halfPlank.Ax incline.hx 0 = ![1, 1] from seesaw_stack.1 0, show incline.rhs halfPlank 0 = 1 from seesaw_stack.2 0] at this
      exact this
    have hs : ∀ l, stack halfPlank.Ax incline.hx l = ![1, 1] := seesaw_stack.1
    have b0 := h.grad 0 (hU 0)
    have b1 := h.grad 1 (hU 1)
    simp only [hs] at b0 b1
    simp [Fin.sum_univ_two] at b3
    simp [incline, seesaw, Fin.sum_univ_two, Matrix.one_apply, e0, e1] at b0 b1
    exact ⟨by linarith, by linarith, by linarith⟩
  obtain ⟨k0, k1, k2⟩ := hw _ s.u un hH h0 h1 hn
  have hcut : ∀ v w : MVec ℝ 2 0 (1 + 0), InBounds cfg.pb.bounds v → v.x 0 = 0 → v.x 1 = 1 → w.x 0 = 2 → w.x 1 = -1 → ∃ z, backtrack o.debug false cfg.pb.bounds v w = some z ∧ z.x 0 = 1 ∧ z.x 1 = 0 ∧ z.w 0 = v.w 0 / 2 + w.w 0 / 2 := by
    intro v w hi e0 e1 f0 f1
    simp only [backtrack, (insideB_iff cfg.pb.bounds v).2 hi, Bool.not_true, Bool.and_false, Bool.false_eq_true, if_false]
    have hbeta : betaMin cfg.pb.bounds v w = 1 / 2 := by
      rw [hpb]
      simp [betaMin, List.finRange_succ, betaStep, halfPlank, MProblem.bounds, e0, e1, f0, f1, above, below, ltUpper, gtLower, betaTo]
      norm_num
    rw [hbeta]
    refine ⟨_, rfl, ?_, ?_, ?_⟩
    · rw [hpb]
      simp [clampVec, halfPlank, MProblem.bounds, clamp, e0, f0]
    · rw [hpb]
      simp [clampVec, halfPlank, MProblem.bounds, clamp, e1, f1]
      norm_num
    · simp only [clampVec]
      ring
  obtain ⟨z, z1, z2, z3, z4⟩ := hcut s.u un hin h0 h1 k0 k1
  rw [hmm, z1] at a7
  have hz := Option.some.inj a7
  rw [hz] at z2 z3 z4
  exact ⟨t, s, s1, ht, hl, a0, a2, by omega, z2, z3, by rw [z4, k2, su]; ring⟩

/-- **C90 is false where the first step is shortened**, in the default mode of the line search: for `x0²/2 + x1²/2 + 3 x1` with `x0 + x1 = 1` and `x1 ≥ 0`, started at `(0, 1)`, half of the Newton step leads to the solution `(1, 0)`, with the mean of the initial multiplier and
    that of the Newton step.  With the multiplier 0 the solve ends there; with another multiplier above the tolerance it does not. -/
theorem multipliers_matter_shortened (hpb : cfg.pb = halfPlank) (X : BoundedSolve incline cfg) (o : SolveOptions ℝ) (hmm : o.minmax = false) (hpos : 0 < o.tolerance) (hmax : 1 ≤ o.maxiters) (user mem errors ax du) (history : History ℝ) {u u' : MVec ℝ 2 0 (1 + 0)} (h0 : u.x 0 = 0)
    (h1 : u.x 1 = 1) (hw : u.w 0 = 0) (hx : u'.x = u.x) (hw' : 2 * o.tolerance ≤ |u'.w 0|) :
    ∃ t t', Solve (cfg.machine none) o cfg.pb.bounds (cfg.start user mem errors ax du) history u (some t) ∧ Solve (cfg.machine none) o cfg.pb.bounds (cfg.start user mem errors ax du) history u' (some t') ∧
      t.u.x 0 = 1 ∧ t.u.x 1 = 0 ∧ t.iterations = 1 ∧ (solveResult o t).succeeded = true ∧ 2 ≤ t'.iterations ∧ (o.maxiters = 1 → (solveResult o t').succeeded = false) := by
  obtain ⟨t, s, s1, a1, a2, a3, a4, a5, c1, c2, c3⟩ := incline_first hpb X o hmm user mem errors ax du history h0 h1
  obtain ⟨t', s', s1', b1, b2, b3, b4, b5, d1, d2, d3⟩ := incline_first hpb X o hmm user mem errors ax du history (u := u') (by rw [hx]; exact h0) (by rw [hx]; exact h1)
  have hlag : ∀ (v : MVec ℝ 2 0 (1 + 0)) i, incline.lag cfg.pb v i = ![v.x 0, v.x 1 + 3] i + v.w 0 := by
    rw [hpb]
    intro v i
    have hs : ∀ l, stack halfPlank.Ax incline.hx l = ![1, 1] := seesaw_stack.1
    unfold Smooth.lag
    simp only [hs]
    revert i
    rw [Fin.forall_fin_two]
    simp [incline]
  have hdef : ∀ (v : MVec ℝ 2 0 (1 + 0)) l, incline.defect cfg.pb v l = 1 - (v.x 0 + v.x 1) := by
    rw [hpb]
    intro v l
    have hs : ∀ l, stack halfPlank.Ax incline.hx l = ![1, 1] := seesaw_stack.1
    unfold Smooth.defect
    rw [show incline.rhs halfPlank l = 1 from seesaw_stack.2 l]
    simp only [hs]
    simp [Fin.sum_univ_two]
  have hxl : cfg.pb.xlower = ![none, some 0] ∧ cfg.pb.xupper = fun _ => none := by rw [hpb]; exact ⟨rfl, rfl⟩
  have herr : s1.mach.errors.error ≤ 0 := by
    obtain ⟨B, P⟩ := X.spec a4
    have hB : B 0 ∧ ¬ B 1 := seesaw_basis c1 c2 (by rw [← hpb]; exact P.basis)
    rw [P.error 0 le_rfl]
    refine ⟨fun i hh _ => ?_, fun q => q.elim0, 0, fun _ _ => rfl, fun l => ?_, fun j => by simp⟩
    · rcases Fin.exists_fin_two.1 ⟨i, rfl⟩ with rfl | rfl
      · rw [hlag]
        simp [c1, c3, hw]
      · refine absurd ⟨⟨0, hB.1⟩, hB.2, .inl ⟨by rw [hxl.1, c2]; rfl, ?_⟩⟩ hh
        rw [hlag]
        simp [c2, c3, hw]
    · rw [hdef]
      simp [c1, c2]
  have herr' : o.tolerance ≤ s1'.mach.errors.error := by
    by_contra hc
    obtain ⟨B, P⟩ := X.spec b4
    have hB : B 0 ∧ ¬ B 1 := seesaw_basis d1 d2 (by rw [← hpb]; exact P.basis)
    have := ((P.error (max s1'.mach.errors.error 0) (le_max_right _ _)).1 (le_max_left _ _)).1 0 (fun h => h.2.1 hB.1) (fun h => by rcases h.2 with h | h <;> simp [hxl.1, hxl.2] at h)
    rw [hlag] at this
    simp only [Matrix.cons_val_zero, d1, d3] at this
    rw [show (1 : ℝ) + (u'.w 0 / 2 - 1) = u'.w 0 / 2 by ring, abs_div, abs_two] at this
    have hlt : max s1'.mach.errors.error 0 < o.tolerance := max_lt (not_le.1 hc) hpos
    linarith
  obtain ⟨s2, hs2⟩ : ∃ s2, stepping (cfg.machine none) o s1 = some (s2, false) := by
    rw [stepping_cases, if_neg (by omega), if_pos (show (cfg.machine none).error s1.mach < o.tolerance from lt_of_le_of_lt herr hpos)]
    exact ⟨_, rfl⟩
  obtain ⟨r0, -, huq⟩ := loop_terminates (cfg.machine none) o cfg.pb.bounds s
  cases (huq _ a2).trans (huq _ (.stop s s1 s2 a3 hs2)).symm
  obtain ⟨g1, g2, -⟩ := stepping_spec hs2
  have hit : 2 ≤ t'.iterations := by
    cases b2 with
    | stop _ s1c _ e1 e2 =>
      cases b3.symm.trans e1
      rw [stepping_cases, if_neg (by omega), if_neg (show ¬ (cfg.machine none).error s1'.mach < o.tolerance from not_lt.2 herr')] at e2
      simp [askCheck, Config.machine] at e2
    | again _ s1c s2' _ e1 e2 e3 =>
      cases b3.symm.trans e1
      have := loop_iterations e3
      have := (stepping_spec e2).2.1
      omega
  refine ⟨t, t', a1, b1, by rw [g1, c1], by rw [g1, c2], by omega, ?_, hit, fun hm => ?_⟩
  · unfold solveResult
    simp only [decide_eq_true_eq]
    omega
  · unfold solveResult
    simp only [decide_eq_false_iff_not]
    omega

end cut

/-- `multipliers_matter_shortened`: multipliers 0 and 1, with the default tolerance and one iteration. -/
example : ∃ (cfg : Config ℝ 2 0 1 0 Unit) (t t' : _), Solve (cfg.machine none) { exactOptions with tolerance := 1 / 10 ^ 8, maxiters := 1, minmax := false } cfg.pb.bounds (cfg.start () 0 ⟨0, 0, 0, 0, 0, 0, 0, 0⟩ 0 ⟨0, 0, 0⟩) (History.init default) ⟨![0, 1], 0, fun _ => 0⟩ (some t) ∧
    Solve (cfg.machine none) { exactOptions with tolerance := 1 / 10 ^ 8, maxiters := 1, minmax := false } cfg.pb.bounds (cfg.start () 0 ⟨0, 0, 0, 0, 0, 0, 0, 0⟩ 0 ⟨0, 0, 0⟩) (History.init default) ⟨![0, 1], 0, fun _ => 1⟩ (some t') ∧
    (solveResult ({ exactOptions with tolerance := 1 / 10 ^ 8, maxiters := 1, minmax := false } : SolveOptions ℝ) t).succeeded = true ∧ (solveResult ({ exactOptions with tolerance := 1 / 10 ^ 8, maxiters := 1, minmax := false } : SolveOptions ℝ) t').succeeded = false := by
  let f : (Fin 2 → ℝ) → Evals ℝ 2 0 0 := fun x =>
    { f := x 0 ^ 2 / 2 + x 1 ^ 2 / 2 + 3 * x 1, fx := ![x 0, x 1 + 3], fxx := 1, fxp := 0, diagfxx := true, h := 0, hx := 0, hp := 0, v := 0, vx := 0, vp := 0, succeeded := true }
  let cfg : Config ℝ 2 0 1 0 Unit := { env := exactEnv, pb := halfPlank, method := .nullspace, inners := exactInners, user := fun t x _ _ => some (t, f x), userJac := fun t x _ _ => some (t, f x), phi := none }
  have hb : ConsistentBounds halfPlank.bounds := inBounds_consistent (u := ⟨![1, 0], 0, (0 : Fin 0 → ℝ)⟩) ⟨by rw [Fin.forall_fin_two]; simp [halfPlank, MProblem.bounds, Between], fun q => q.elim0⟩
  have hst : ∀ l, stack halfPlank.Ax incline.hx l = ![1, 1] := seesaw_stack.1
  have X : BoundedSolve incline cfg := ⟨hb, rfl, rfl, rfl, exactEnv_oracle, by norm_num, rfl, fun c => exactInners_lu c, (by intro h; cases h),
    fun t x p q => ⟨t, f x, rfl, ⟨rfl, rfl, rfl, funext fun l => l.elim0, rfl, rfl, rfl, rfl, rfl⟩⟩, by
      intro y hy
      have := hy 0
      simp only [cfg, hst] at this
      funext l
      obtain rfl : l = 0 := Fin.ext (by omega)
      simpa using this⟩
  obtain ⟨t, t', h1, h2, -, -, -, h3, -, h4⟩ := multipliers_matter_shortened rfl X { exactOptions with tolerance := 1 / 10 ^ 8, maxiters := 1, minmax := false } rfl (by norm_num) le_rfl () 0 ⟨0, 0, 0, 0, 0, 0, 0, 0⟩ 0 ⟨0, 0, 0⟩ (History.init default)
    (u := ⟨![0, 1], 0, fun _ => 0⟩) (u' := ⟨![0, 1], 0, fun _ => 1⟩) rfl rfl rfl rfl (by norm_num)
  exact ⟨cfg, t, t', h1, h2, h3, h4 rfl⟩

end Optima
