import Verif.Props.EquivalentBounded
import Verif.Props.Stopping

/-!
# C89: a solve that runs out of iterations can be continued

A solve with the budget `k` that fails, followed by a solve with the budget `l` from the state returned, against one solve with the budget `k + 1 + l` (a solve that fails makes one iteration more than its budget).
-/

namespace Optima
open Matrix

section shift
variable {K : Type*} [Zero K] [One K] [Add K] [Sub K] [Mul K] [Div K] [LT K] [DecidableLT K] [LE K] [DecidableLE K] [DecidableEq K] [Max K] [Min K] {nx np nw : ℕ} {σ : Type*}
  {m : Machine σ K nx np nw} {o o' : SolveOptions K} {B : Bounds K nx np}

/-- The same state after `c` more iterations, with `base` evaluated before. -/
def SolveState.shift (c : ℕ) (base : List (MVec K nx np nw)) (s : SolveState σ K nx np nw) : SolveState σ K nx np nw := { s with iterations := s.iterations + c, trace := s.trace ++ base }

theorem step_shift (hphi : m.phi = none) (h : SameSteps o o') (c : ℕ) (base : List (MVec K nx np nw)) (s : SolveState σ K nx np nw) : step m o' B (s.shift c base) = (step m o B s).map (SolveState.shift c base) := by
  rw [h.step]
  have ht : ∀ s : SolveState σ K nx np nw, transform m B s = some (s, false) := fun s => by unfold transform; rw [hphi]
  unfold Optima.step
  dsimp only [SolveState.shift]
  rcases m.newton s.mach s.uo with _ | ⟨t, u⟩
  · rfl
  dsimp only
  rw [ht, ht]
  dsimp only
  unfold errorControl
  dsimp only
  rcases backtrack o.debug o.minmax B s.uo u with _ | v
  · rfl
  dsimp only
  unfold evalAt
  dsimp only
  rcases m.eval t v with _ | t'
  · rfl
  · simp only [Option.map_some, SolveState.shift, List.cons_append]
    congr 2
    omega

theorem stepping_shift (hcheck : m.check = none) (htol : o'.tolerance = o.tolerance) {c : ℕ} (hm : o'.maxiters = o.maxiters + c) (base : List (MVec K nx np nw)) (s : SolveState σ K nx np nw) :
    stepping m o' (s.shift c base) = (stepping m o s).map fun r => (r.1.shift c base, r.2) := by
  rw [stepping_cases, stepping_cases, htol]
  unfold askCheck
  rw [hcheck]
  have hs : (s.shift c base).iterations = s.iterations + c := rfl
  by_cases h1 : o.maxiters < s.iterations
  · rw [if_pos h1, if_pos (by omega)]
    rfl
  · rw [if_neg h1, if_neg (by omega)]
    have hm' : (s.shift c base).mach = s.mach := rfl
    dsimp only
    rw [hm']
    split_ifs <;> rfl

theorem loop_shift (hphi : m.phi = none) (hcheck : m.check = none) (h : SameSteps o o') (htol : o'.tolerance = o.tolerance) {c : ℕ} (hm : o'.maxiters = o.maxiters + c) (base : List (MVec K nx np nw)) {s : SolveState σ K nx np nw} {r}
    (hl : Loop m o B s r) : Loop m o' B (s.shift c base) (r.map (SolveState.shift c base)) := by
  induction hl with
  | stepFails s h1 => exact .stepFails _ (by rw [step_shift hphi h, h1]; rfl)
  | checkFails s s1 h1 h2 => exact .checkFails _ (s1.shift c base) (by rw [step_shift hphi h, h1]; rfl) (by rw [stepping_shift hcheck htol hm, h2]; rfl)
  | stop s s1 s2 h1 h2 => exact .stop _ (s1.shift c base) (s2.shift c base) (by rw [step_shift hphi h, h1]; rfl) (by rw [stepping_shift hcheck htol hm, h2]; rfl)
  | again s s1 s2 r h1 h2 h3 ih => exact .again _ (s1.shift c base) (s2.shift c base) _ (by rw [step_shift hphi h, h1]; rfl) (by rw [stepping_shift hcheck htol hm, h2]; rfl) ih

theorem step_head {s s' : SolveState σ K nx np nw} (h : step m o B s = some s') : ∃ rest, s'.trace = s'.u :: rest := by
  unfold Optima.step at h
  dsimp only at h
  split at h
  · cases h
  · split at h
    · cases h
    · split at h
      · cases h
      · obtain ⟨e1, -, -, -, e5, -⟩ := evalAt_u h
        rw [e1, e5]
        exact ⟨_, rfl⟩

theorem steps_same (h : SameSteps o o') {n : ℕ} {s a b : SolveState σ K nx np nw} (ha : Steps m o B n s a) (hb : Steps m o' B n s b) : a = b := by
  induction ha with
  | zero s => cases hb; rfl
  | succ n s s1 s2 t h1 h2 h3 ih =>
    cases hb with
    | succ _ _ s1' s2' _ g1 g2 g3 =>
      rw [h.step, h1] at g1
      cases g1
      cases continue_same h2 g2
      exact ih g3

/-- A loop that makes more than `n + 1` iterations, after the first `n + 1` of them. -/
theorem loop_split {s t : SolveState σ K nx np nw} {r} (hl : Loop m o B s r) (hr : r = some t) : ∀ n, s.iterations + (n + 1) < t.iterations →
    ∃ t0 s1 s2, Steps m o B n s t0 ∧ step m o B t0 = some s1 ∧ stepping m o s1 = some (s2, true) ∧ Loop m o B s2 (some t) := by
  induction hl with
  | stepFails => cases hr
  | checkFails => cases hr
  | stop s s1 s2 h1 h2 =>
    cases hr
    intro n hn
    have := (step_frame h1).2.1
    have := (stepping_spec h2).2.1
    omega
  | again s s1 s2 r h1 h2 h3 ih =>
    subst hr
    intro n hn
    cases n with
    | zero => exact ⟨s, s1, s2, .zero s, h1, h2, h3⟩
    | succ n =>
      have := (step_frame h1).2.1
      have := (stepping_spec h2).2.1
      obtain ⟨t0, a1, a2, e1, e2⟩ := ih rfl n (by omega)
      exact ⟨t0, a1, a2, .succ n s s1 s2 t0 h1 h2 e1, e2⟩

end shift

section free
variable {K : Type*} [Field K] [LinearOrder K] [IsStrictOrderedRing K] {nx np ny nz : ℕ} {τ : Type*} {F : Smooth K nx np nz} {cfg : Config K nx np ny nz τ}

theorem Smooth.SameFunctions.refl (F : Smooth K nx np nz) : F.SameFunctions F (Equiv.refl _) := ⟨fun _ _ _ => rfl, fun _ _ _ _ => rfl, fun _ _ _ _ => rfl, fun _ _ => rfl, fun _ _ _ _ => rfl, fun _ _ => rfl⟩

theorem Smooth.Rewrites.refl (F : Smooth K nx np nz) (pb : MProblem K nx np ny nz) : F.Rewrites pb F pb (Equiv.refl _) :=
  ⟨1, fun l j => by simp [Matrix.one_apply], fun l q => by simp [Matrix.one_apply], fun l => by simp [Matrix.one_apply]⟩

/-- With independent constraints, multipliers of the same effect are the same. -/
theorem SamePoint.eq {pb : MProblem K nx np ny nz} (hr : ∀ y : Fin (ny + nz) → K, (∀ i, ∑ l, stack pb.Ax F.hx l i * y l = 0) → y = 0) {u u' : MVec K nx np (ny + nz)} (h : SamePoint F pb F pb (Equiv.refl _) u u') : u = u' := by
  obtain ⟨x, p, w⟩ := u
  obtain ⟨x', p', w'⟩ := u'
  obtain ⟨h1, h2, h3⟩ := h
  have := hr (fun l => w l - w' l) fun i => by
    have := h3 i
    simp only [Equiv.refl_apply] at this
    simp only [mul_sub, Finset.sum_sub_distrib, this, sub_self]
  have hw : w = w' := funext fun l => sub_eq_zero.1 (congrFun this l)
  simp only at h1 h2
  subst h1 h2 hw
  rfl

/-- **C89 in part**: without bounds, with independent constraints and regular linearised conditions at the points visited (exact arithmetic), a solve that ran out of iterations can be continued, by any solver object: the second solve returns the point, the
    multipliers, the error and the verdict of the uninterrupted solve, and together the two solves make as many iterations.  Required is that the uninterrupted solve does not end at the iterate at which the first one is interrupted. -/
theorem resume_partial (X : FreeSolve F cfg) (o : SolveOptions K) (k l : ℕ) (user mem errors ax du) (history : History K) (u : MVec K nx np (ny + nz)) {t t1}
    (ht : Solve (cfg.machine none) { o with maxiters := k + 1 + l } cfg.pb.bounds (cfg.start user mem errors ax du) history u (some t)) (hns : ∀ v ∈ t.trace, F.Nonsingular cfg.pb v.x v.p) (hlt : k + 1 < t.iterations)
    (ht1 : Solve (cfg.machine none) { o with maxiters := k } cfg.pb.bounds (cfg.start user mem errors ax du) history u (some t1)) (user' mem' errors' ax' du') (history' : History K) :
    (solveResult { o with maxiters := k } t1).succeeded = false ∧
    ∃ t2, Solve (cfg.machine none) { o with maxiters := l } cfg.pb.bounds (cfg.start user' mem' errors' ax' du') history' t1.u (some t2) ∧ t2.u = t.u ∧
      t2.mach.errors.error = t.mach.errors.error ∧ t1.iterations + t2.iterations = t.iterations ∧
      (solveResult { o with maxiters := l } t2).succeeded = (solveResult { o with maxiters := k + 1 + l } t).succeeded := by
  have hinv := machine_inv X.thr X.eps.ge X.nx_pos (cfg := cfg) none
  obtain ⟨q1, p1⟩ := solve_inv hinv _ _ (start_reach cfg user mem errors ax du) history u t1 ht1
  have hphi : (cfg.machine none).phi = none := by change Option.map _ cfg.phi = none; rw [X.phi]; rfl
  have hsame : SameSteps { o with maxiters := k + 1 + l } { o with maxiters := k } := ⟨rfl, rfl⟩
  cases ht with
  | run s r es hl =>
    cases ht1 with
    | run s' r' es' hl' =>
      rw [es] at es'
      cases es'
      have sit := (solveInit_spec es).2.2.1
      obtain ⟨t0, s1, s2, a1, a2, a3, a4⟩ := loop_split hl rfl k (by omega)
      have a1i := (steps_spec a1).1
      have a2i := (step_frame a2).2.1
      obtain ⟨n, b0, b1, c1, c2, c3⟩ := loop_steps hl' t1 rfl
      have c1i := (steps_spec c1).1
      have c2i := (step_frame c2).2.1
      have c3i := (stepping_spec c3).2.1
      -- the first solve is interrupted in the iteration `k + 1`
      have hn : n = k := by
        have hn1 : n ≤ k := by
          by_contra hc
          have := (steps_spec c1).2.1 (by omega)
          simp only at this
          omega
        by_contra hne
        obtain ⟨v0, v1, v2, d1, d2, d3, -⟩ := loop_split hl rfl n (by omega)
        cases steps_same hsame d1 c1
        rw [hsame.step, d2] at c2
        cases c2
        have hsee : stepping (cfg.machine none) { o with maxiters := k } b1 = stepping (cfg.machine none) { o with maxiters := k + 1 + l } b1 := by
          have e1 : ¬ k < b1.iterations := by omega
          have e2 : ¬ k + 1 + l < b1.iterations := by omega
          rw [stepping_cases, stepping_cases, if_neg e1, if_neg e2]
        rw [hsee, d3] at c3
        simp at c3
      subst hn
      cases steps_same hsame a1 c1
      rw [hsame.step, a2] at c2
      cases c2
      obtain ⟨g1, g2, -, -, g5, -, g7⟩ := stepping_spec a3
      obtain ⟨i1, i2, -, -, i5, -, -⟩ := stepping_spec c3
      have hle := continue_le a3
      have hmach : s2.mach = t1.mach := (machine_stepping a3).trans (machine_stepping c3).symm
      have hu : s2.u = t1.u := g1.trans i1.symm
      refine ⟨decide_eq_false (by simp only; omega), ?_⟩
      -- the second solve
      obtain ⟨t2, ht2⟩ := solve_returns X.thr X.eps.ge X.debug X.nx_pos none (noPhi X.phi) (fun t x p q => by obtain ⟨a, b, c, -⟩ := X.user t x p q; exact ⟨_, c⟩) (fun f hf => by cases hf) { o with maxiters := l }
        (inBounds_consistent (X.unbounded.inBounds t1.u)) user' mem' errors' ax' du' history' t1.u
      refine ⟨t2, ht2, ?_⟩
      cases ht2 with
      | run z r' ez hz =>
        obtain ⟨su, suo, sit', -, str⟩ := solveInit_spec ez
        obtain ⟨q0, p0⟩ := evalAt_inv hinv (s := { mach := cfg.start user' mem' errors' ax' du', u := clampVec cfg.pb.bounds t1.u, uo := clampVec cfg.pb.bounds t1.u, iterations := 0, history := history'.init, trace := [] })
          (start_reach cfg user' mem' errors' ax' du') ez
        rw [clampVec_of_inBounds (X.unbounded.inBounds t1.u)] at su suo str
        have hz' := loop_shift (o := { o with maxiters := l }) (o' := { o with maxiters := n + 1 + l }) hphi rfl ⟨rfl, rfl⟩ rfl (c := n + 1) (by simp only; omega) (s2.trace.tail) hz
        have hhead : s2.trace = s2.u :: s2.trace.tail := by
          rw [g5, g1]
          obtain ⟨rest, e⟩ := step_head a2
          rw [e]; rfl
        have hrefl : ∀ L : List (MVec K nx np (ny + nz)), List.Forall₂ (SameXP (Equiv.refl (Fin nx))) L L := fun L => List.forall₂_same.2 fun v _ => ⟨rfl, rfl⟩
        obtain ⟨t', l1, l2⟩ := loop_same X X (.refl F) (.refl F cfg.pb) (.refl F cfg.pb) a4 t rfl hns (z.shift (n + 1) s2.trace.tail) (by rw [hmach]; exact q1) (by rw [hmach, hu]; exact p1) ((g7 hle).1.trans g1.symm) q0 p0 (suo.trans su.symm)
          ⟨by change s2.u.x = z.u.x; rw [hu, su], by change s2.u.p = z.u.p; rw [hu, su]⟩ (by change s2.iterations = z.iterations + (n + 1); omega) (by rw [hhead]; simp)
          (by change List.Forall₂ _ s2.trace (z.trace ++ s2.trace.tail); rw [str, ← hu, List.singleton_append, ← hhead]; exact hrefl _)
        obtain ⟨r0, -, h1⟩ := loop_terminates (cfg.machine none) { o with maxiters := n + 1 + l } cfg.pb.bounds (z.shift (n + 1) s2.trace.tail)
        have := (h1 _ l1).trans (h1 _ hz').symm
        cases this
        have hit : t.iterations = t2.iterations + (n + 1) := l2.iterations
        refine ⟨(l2.point.eq X.rows).symm, l2.error.symm, by omega, ?_⟩
        unfold solveResult
        simp only [decide_eq_decide]
        omega

/-- **C89 in part**: the same with bounds, when at the points visited the weights determine the basic variables and the linearised conditions with the held variables are regular. -/
theorem resume_with_bounds_partial (X : BoundedSolve F cfg) (o : SolveOptions K) (k l : ℕ) (user mem errors ax du) (history : History K) (u : MVec K nx np (ny + nz)) {t t1}
    (ht : Solve (cfg.machine none) { o with maxiters := k + 1 + l } cfg.pb.bounds (cfg.start user mem errors ax du) history u (some t)) (hns : ∀ v ∈ t.trace, F.RegularAt cfg.pb v) (hlt : k + 1 < t.iterations)
    (ht1 : Solve (cfg.machine none) { o with maxiters := k } cfg.pb.bounds (cfg.start user mem errors ax du) history u (some t1)) (user' mem' errors' ax' du') (history' : History K) :
    (solveResult { o with maxiters := k } t1).succeeded = false ∧
    ∃ t2, Solve (cfg.machine none) { o with maxiters := l } cfg.pb.bounds (cfg.start user' mem' errors' ax' du') history' t1.u (some t2) ∧ t2.u = t.u ∧
      t2.mach.errors.error = t.mach.errors.error ∧ t1.iterations + t2.iterations = t.iterations ∧
      (solveResult { o with maxiters := l } t2).succeeded = (solveResult { o with maxiters := k + 1 + l } t).succeeded := by
  have hinv := machine_inv X.thr.ge X.eps.ge X.nx_pos (cfg := cfg) none
  obtain ⟨q1, p1⟩ := solve_inv hinv _ _ (start_reach cfg user mem errors ax du) history u t1 ht1
  have hin := (solve_inBounds_partial _ _ X.bounds _ _ _).2 t1 ht1
  have hphi : (cfg.machine none).phi = none := by change Option.map _ cfg.phi = none; rw [X.phi]; rfl
  have hsame : SameSteps { o with maxiters := k + 1 + l } { o with maxiters := k } := ⟨rfl, rfl⟩
  cases ht with
  | run s r es hl =>
    cases ht1 with
    | run s' r' es' hl' =>
      rw [es] at es'
      cases es'
      have sit := (solveInit_spec es).2.2.1
      obtain ⟨t0, s1, s2, a1, a2, a3, a4⟩ := loop_split hl rfl k (by omega)
      have a1i := (steps_spec a1).1
      have a2i := (step_frame a2).2.1
      obtain ⟨n, b0, b1, c1, c2, c3⟩ := loop_steps hl' t1 rfl
      have c1i := (steps_spec c1).1
      have c2i := (step_frame c2).2.1
      have c3i := (stepping_spec c3).2.1
      -- the first solve is interrupted in the iteration `k + 1`
      have hn : n = k := by
        have hn1 : n ≤ k := by
          by_contra hc
          have := (steps_spec c1).2.1 (by omega)
          simp only at this
          omega
        by_contra hne
        obtain ⟨v0, v1, v2, d1, d2, d3, -⟩ := loop_split hl rfl n (by omega)
        cases steps_same hsame d1 c1
        rw [hsame.step, d2] at c2
        cases c2
        have hsee : stepping (cfg.machine none) { o with maxiters := k } b1 = stepping (cfg.machine none) { o with maxiters := k + 1 + l } b1 := by
          have e1 : ¬ k < b1.iterations := by omega
          have e2 : ¬ k + 1 + l < b1.iterations := by omega
          rw [stepping_cases, stepping_cases, if_neg e1, if_neg e2]
        rw [hsee, d3] at c3
        simp at c3
      subst hn
      cases steps_same hsame a1 c1
      rw [hsame.step, a2] at c2
      cases c2
      obtain ⟨g1, g2, -, -, g5, -, g7⟩ := stepping_spec a3
      obtain ⟨i1, i2, -, -, i5, -, -⟩ := stepping_spec c3
      have hle := continue_le a3
      have hmach : s2.mach = t1.mach := (machine_stepping a3).trans (machine_stepping c3).symm
      have hu : s2.u = t1.u := g1.trans i1.symm
      refine ⟨decide_eq_false (by simp only; omega), ?_⟩
      -- the second solve
      obtain ⟨t2, ht2⟩ := solve_returns X.thr.ge X.eps.ge X.debug X.nx_pos none (noPhi X.phi) (fun t x p q => by obtain ⟨a, b, c, -⟩ := X.user t x p q; exact ⟨_, c⟩) (fun f hf => by cases hf) { o with maxiters := l }
        X.bounds user' mem' errors' ax' du' history' t1.u
      refine ⟨t2, ht2, ?_⟩
      cases ht2 with
      | run z r' ez hz =>
        obtain ⟨su, suo, sit', -, str⟩ := solveInit_spec ez
        obtain ⟨q0, p0⟩ := evalAt_inv hinv (s := { mach := cfg.start user' mem' errors' ax' du', u := clampVec cfg.pb.bounds t1.u, uo := clampVec cfg.pb.bounds t1.u, iterations := 0, history := history'.init, trace := [] })
          (start_reach cfg user' mem' errors' ax' du') ez
        rw [clampVec_of_inBounds (hin)] at su suo str
        have hz' := loop_shift (o := { o with maxiters := l }) (o' := { o with maxiters := n + 1 + l }) hphi rfl ⟨rfl, rfl⟩ rfl (c := n + 1) (by simp only; omega) (s2.trace.tail) hz
        have hhead : s2.trace = s2.u :: s2.trace.tail := by
          rw [g5, g1]
          obtain ⟨rest, e⟩ := step_head a2
          rw [e]; rfl
        have hrefl : ∀ L : List (MVec K nx np (ny + nz)), List.Forall₂ (SameXP (Equiv.refl (Fin nx))) L L := fun L => List.forall₂_same.2 fun v _ => ⟨rfl, rfl⟩
        obtain ⟨t', l1, l2⟩ := loop_same_bounds X X (.refl F) (.refl F cfg.pb) (.refl F cfg.pb) ⟨fun _ => rfl, fun _ => rfl, rfl, rfl⟩ a4 t rfl hns (z.shift (n + 1) s2.trace.tail) (by rw [hmach]; exact q1) (by rw [hmach, hu]; exact p1) ((g7 hle).1.trans g1.symm) (by rw [hu]; exact hin) q0 p0 (suo.trans su.symm) (by change InBounds _ z.u; rw [su]; exact hin)
          ⟨by change s2.u.x = z.u.x; rw [hu, su], by change s2.u.p = z.u.p; rw [hu, su], fun i => by change ∑ l, _ * s2.u.w l = ∑ l, _ * z.u.w l; rw [hu, su]; rfl⟩ (by change s2.iterations = z.iterations + (n + 1); omega) (by rw [hhead]; simp)
          (by change List.Forall₂ _ s2.trace (z.trace ++ s2.trace.tail); rw [str, ← hu, List.singleton_append, ← hhead]; exact hrefl _)
        obtain ⟨r0, -, h1⟩ := loop_terminates (cfg.machine none) { o with maxiters := n + 1 + l } cfg.pb.bounds (z.shift (n + 1) s2.trace.tail)
        have := (h1 _ l1).trans (h1 _ hz').symm
        cases this
        have hit : t.iterations = t2.iterations + (n + 1) := l2.iterations
        refine ⟨(l2.point.eq X.rows).symm, l2.error.symm, by omega, ?_⟩
        unfold solveResult
        simp only [decide_eq_decide]
        omega

end free

/-- With a tolerance that no error is below, a solve uses up its iterations. -/
theorem zero_tolerance {K : Type*} [Field K] [LinearOrder K] [IsStrictOrderedRing K] {nx np ny nz : ℕ} {τ : Type*} {cfg : Config K nx np ny nz τ} (hthr : 0 ≤ cfg.env.thr) (heps : 0 ≤ cfg.env.eps) (hnx : 0 < nx) {o : SolveOptions K} (htol : o.tolerance ≤ 0)
    {user mem errors ax du} {history : History K} {u : MVec K nx np (ny + nz)} {t} (ht : Solve (cfg.machine none) o cfg.pb.bounds (cfg.start user mem errors ax du) history u (some t)) : o.maxiters < t.iterations := by
  have h0 := FreeSolve.error_nonneg (solve_inv (machine_inv hthr heps hnx (cfg := cfg) none) _ _ (start_reach cfg user mem errors ax du) history u t ht).2
  obtain ⟨s, n, t0, t1, -, -, -, h1, -⟩ := (solve_budget _ _ _ _ _ _).2 t ht
  have h2 := machine_stepping h1
  rw [(stepping_spec h1).2.1]
  by_contra hc
  rw [stepping_cases, if_neg hc] at h1
  have : ¬ (cfg.machine none).error t1.mach < o.tolerance := by
    rw [h2] at h0
    exact not_lt.2 (htol.trans h0)
  rw [if_neg this] at h1
  simp [askCheck, show (cfg.machine none).check = none from rfl] at h1

/-! ## The iterate at which a solve is interrupted -/

/-- The objective `√(1 + x²)` of `convex_diverges`, in another unit. -/
noncomputable def hyper (c : ℝ) : Smooth ℝ 1 0 0 := ⟨fun x _ _ => c * (x 0 / √(1 + x 0 ^ 2)), fun x _ _ _ => c * (1 / √(1 + x 0 ^ 2) ^ 3), 0, 0, 0, 0, 0, 0, 0⟩

theorem hyper_nonsingular {c : ℝ} (hc : 0 < c) (pb : MProblem ℝ 1 0 0 0) (x : Fin 1 → ℝ) (p : Fin 0 → ℝ) : (hyper c).Nonsingular pb x p := by
  intro dx dp w h1 _ _
  have e := h1 0
  have hp := hyperbola_pos (x 0)
  simp [hyper, hp.ne', hc.ne'] at e
  exact ⟨funext fun i => by rw [Subsingleton.elim i 0]; exact e, funext fun q => q.elim0⟩

theorem hyper_newton {c : ℝ} (hc : 0 < c) {pb : MProblem ℝ 1 0 0 0} {x p x1 p1 w1} (h : (hyper c).NewtonPoint pb x p x1 p1 w1) : x1 0 = - x 0 ^ 3 := by
  have e := h.grad 0
  have hp := hyperbola_pos (x 0)
  have hs : √(1 + x 0 ^ 2) ^ 2 = 1 + x 0 ^ 2 := Real.sq_sqrt (by positivity)
  simp [hyper] at e
  field_simp at e
  have e' : c * (x1 0 + x 0 ^ 3) = 0 := by
    rw [hs] at e
    linear_combination e
  have := (mul_eq_zero.1 e').resolve_left hc.ne'
  linarith

/-- **C89, negation**: in general an interrupted solve cannot be continued.  For `c √(1 + x²)` from `x = 2`, with the tolerance `199/200 c` (for the default tolerance `10⁻⁸`, take `c = 200/199 · 10⁻⁸`): the solve that may make more than one iteration stops at `x = -8` and succeeds; the one with the budget `0` returns the
    same state `-8` without success (its iterate is not compared with the tolerance); and the solve from `-8` fails for every budget, because it makes a step before the first comparison. -/
theorem not_resume {τ : Type*} {cfg : Config ℝ 1 0 0 0 τ} {c : ℝ} (hc : 0 < c) (X : FreeSolve (hyper c) cfg) (o : SolveOptions ℝ) (htol : o.tolerance = c * (199 / 200)) (user mem errors ax du) (history : History ℝ) (u : MVec ℝ 1 0 (0 + 0)) (hu : u.x 0 = 2) :
    (∀ n, ∃ t, Solve (cfg.machine none) { o with maxiters := n } cfg.pb.bounds (cfg.start user mem errors ax du) history u (some t) ∧ t.u.x 0 = -8 ∧ t.iterations = 1 ∧ ((solveResult { o with maxiters := n } t).succeeded = true ↔ 1 ≤ n)) ∧
    ∀ l user' mem' errors' ax' du' (history' : History ℝ) (v : MVec ℝ 1 0 (0 + 0)), v.x 0 = -8 →
      ∃ t2, Solve (cfg.machine none) { o with maxiters := l } cfg.pb.bounds (cfg.start user' mem' errors' ax' du') history' v (some t2) ∧ (solveResult { o with maxiters := l } t2).succeeded = false := by
  have hns : ∀ v : MVec ℝ 1 0 (0 + 0), (hyper c).Nonsingular cfg.pb v.x v.p := fun v => hyper_nonsingular hc _ _ _
  have hinv := machine_inv X.thr X.eps.ge X.nx_pos (cfg := cfg) none
  refine ⟨fun n => ?_, fun l user' mem' errors' ax' du' history' v hv => ?_⟩
  · obtain ⟨t, ht⟩ := solve_returns X.thr X.eps.ge X.debug X.nx_pos none (noPhi X.phi) (fun t x p q => by obtain ⟨a, b, c, -⟩ := X.user t x p q; exact ⟨_, c⟩) (fun f hf => by cases hf) { o with maxiters := n }
      (inBounds_consistent (X.unbounded.inBounds u)) user mem errors ax du history u
    cases ht with
    | run s r es hl =>
      obtain ⟨su, suo, sit, -, str⟩ := solveInit_spec es
      obtain ⟨q0, p0⟩ := evalAt_inv hinv (s := { mach := cfg.start user mem errors ax du, u := clampVec cfg.pb.bounds u, uo := clampVec cfg.pb.bounds u, iterations := 0, history := history.init, trace := [] })
        (start_reach cfg user mem errors ax du) es
      rw [clampVec_of_inBounds (X.unbounded.inBounds u)] at su suo
      obtain ⟨s1, h1, h2, h3, h4, -, h6⟩ := X.step { o with maxiters := n } q0 p0 (suo.trans su.symm)
      have h6 := h6 (hns _)
      have hx : s1.u.x 0 = -8 := by
        rw [hyper_newton hc h6, su, hu]
        norm_num
      have herr : s1.mach.errors.error < c * (199 / 200) := by
        refine lt_of_le_of_lt (X.error_le h3 (c := c * (8 / √65)) (by positivity) (fun i => ?_) (fun q => q.elim0) h6.con) ?_
        · rw [Subsingleton.elim i 0]
          simp only [hyper, hx]
          norm_num [abs_div, abs_mul, abs_of_pos hc]
          rw [abs_of_nonneg (Real.sqrt_nonneg _)]
        · refine mul_lt_mul_of_pos_left ?_ hc
          rw [div_lt_iff₀ (by positivity)]
          have : (8.05 : ℝ) < √65 := (Real.lt_sqrt (by norm_num)).2 (by norm_num)
          linarith
      obtain ⟨s2, hs2⟩ : ∃ s2, stepping (cfg.machine none) { o with maxiters := n } s1 = some (s2, false) := by
        rw [stepping_cases]
        split_ifs with e1 e2
        · exact ⟨_, rfl⟩
        · exact ⟨_, rfl⟩
        · exact absurd (by rw [htol]; exact herr) e2
      obtain ⟨g1, g2, -⟩ := stepping_spec hs2
      refine ⟨s2, .run s _ es (.stop s s1 s2 h1 hs2), by rw [g1, hx], by omega, ?_⟩
      unfold solveResult
      simp only [decide_eq_true_eq]
      omega
  · obtain ⟨t, a1, a2, -⟩ := solve_never X.thr X.eps X.debug X.nx_pos X.phi (fun t x p q => by obtain ⟨a, b, c, -⟩ := X.user t x p q; exact ⟨_, c⟩) { o with maxiters := l } (fun k v => if k = 0 then v.x 0 = -8 else 64 ≤ |v.x 0|)
      (fun v => X.unbounded.inBounds v)
      (by
        intro k s w sm un hs hw hn
        have h6 := X.newton hs (hns _) hn
        rw [if_neg (Nat.succ_ne_zero k), hyper_newton hc h6, abs_neg, abs_pow]
        have : 8 ≤ |w.x 0| := by
          split_ifs at hw
          · rw [hw]; norm_num
          · linarith
        nlinarith [mul_self_nonneg (|w.x 0|)])
      (by
        intro k s w hs hw
        rw [if_neg (Nat.succ_ne_zero k)] at hw
        have := Smooth.free_error_ge X.unbounded X.user hs 0
        refine le_trans ?_ this
        rw [FreeSolve.mult_eq]
        have hp := hyperbola_pos (w.x 0)
        have he : (hyper c).g w.x w.p 0 + ∑ j : Fin (0 + 0), stack cfg.pb.Ax (hyper c).hx j 0 * w.w j = c * (w.x 0 / √(1 + w.x 0 ^ 2)) := by simp [hyper]
        rw [he, abs_mul, abs_of_pos hc]
        simp only [htol]
        refine mul_le_mul_of_nonneg_left ?_ hc.le
        rw [abs_div, abs_of_pos hp, le_div_iff₀ hp]
        have h2 : √(1 + w.x 0 ^ 2) ≤ 200 / 199 * |w.x 0| := by
          rw [Real.sqrt_le_left (by positivity), mul_pow, sq_abs]
          have : 64 ^ 2 ≤ w.x 0 ^ 2 := by rw [← sq_abs (w.x 0)]; exact pow_le_pow_left₀ (by norm_num) hw 2
          nlinarith
        linarith)
      user' mem' errors' ax' du' history' v (by simpa using hv)
    exact ⟨t, (a1 _).2 rfl, a2⟩

/-- A solver for `hyper`. -/
theorem exists_hyper (c : ℝ) : ∃ cfg : Config ℝ 1 0 0 0 Unit, FreeSolve (hyper c) cfg ∧ cfg.pb = freeLine ∧ (c = 1 → ∀ t x p q, ∃ t' ev, cfg.user t x p q = some (t', ev) ∧ HyperbolaReturns x ev) := by
  obtain ⟨cfg, h1, h2, h3, h4, h5, h6, h7, h8, h9⟩ := exists_exact_config freeLine fun x _ =>
    { f := c * √(1 + x 0 ^ 2), fx := fun _ => c * (x 0 / √(1 + x 0 ^ 2)), fxx := fun _ _ => c * (1 / √(1 + x 0 ^ 2) ^ 3), fxp := 0, diagfxx := true, h := 0, hx := 0, hp := 0, v := 0, vx := 0, vp := 0, succeeded := true }
  exact ⟨cfg, ⟨by rw [h1]; exact ⟨fun i => ⟨rfl, rfl⟩, fun q => q.elim0⟩, h2, h3, h4, h5, by norm_num, h6, h7, h8,
    fun t x p q => ⟨t, _, h9 t x p q, ⟨rfl, rfl, rfl, funext fun l => l.elim0, rfl, rfl, funext fun l => l.elim0, rfl, rfl⟩⟩, fun y _ => funext fun l => (l : Fin 0).elim0⟩, h1, fun hc t x p q => ⟨t, _, h9 t x p q, ⟨by simp only [hc, one_mul], by simp only [hc, one_mul], by simp only [hc, one_mul]; rfl⟩⟩⟩

/-- `not_resume` with the default tolerance. -/
example : ∃ cfg : Config ℝ 1 0 0 0 Unit, ∃ t t1, Solve (cfg.machine none) { exactOptions with tolerance := 1 / 10 ^ 8 } cfg.pb.bounds (cfg.start () 0 ⟨0, 0, 0, 0, 0, 0, 0, 0⟩ 0 ⟨0, 0, 0⟩) (History.init default) ⟨fun _ => 2, 0, 0⟩ (some t) ∧ t.u.x 0 = -8 ∧
    (solveResult ({ exactOptions with tolerance := 1 / 10 ^ 8 } : SolveOptions ℝ) t).succeeded = true ∧
    Solve (cfg.machine none) { exactOptions with tolerance := 1 / 10 ^ 8 } cfg.pb.bounds (cfg.start () 0 ⟨0, 0, 0, 0, 0, 0, 0, 0⟩ 0 ⟨0, 0, 0⟩) (History.init default) t.u (some t1) ∧ (solveResult ({ exactOptions with tolerance := 1 / 10 ^ 8 } : SolveOptions ℝ) t1).succeeded = false := by
  obtain ⟨cfg, X, -⟩ := exists_hyper (200 / 199 / 10 ^ 8)
  have hn := not_resume (by norm_num) X { exactOptions with tolerance := 1 / 10 ^ 8 } (by norm_num) () 0 ⟨0, 0, 0, 0, 0, 0, 0, 0⟩ 0 ⟨0, 0, 0⟩ (History.init default) ⟨fun _ => 2, 0, 0⟩ rfl
  obtain ⟨t, h1, h2, -, h4⟩ := hn.1 exactOptions.maxiters
  obtain ⟨t1, k1, k2⟩ := hn.2 exactOptions.maxiters () 0 ⟨0, 0, 0, 0, 0, 0, 0, 0⟩ 0 ⟨0, 0, 0⟩ (History.init default) t.u h2
  exact ⟨cfg, t, t1, h1, h2, h4.2 (by norm_num [exactOptions]), k1, k2⟩

/-- `resume_partial`: from `x = 2`, interrupted after 4 iterations and continued with 7 more, against 11 iterations at once. -/
example : ∃ (cfg : Config ℝ 1 0 0 0 Unit) (t t1 t2 : _), Solve (cfg.machine none) { exactOptions with maxiters := 10 } cfg.pb.bounds (cfg.start () 0 ⟨0, 0, 0, 0, 0, 0, 0, 0⟩ 0 ⟨0, 0, 0⟩) (History.init default) ⟨fun _ => 2, 0, 0⟩ (some t) ∧
    Solve (cfg.machine none) { exactOptions with maxiters := 3 } cfg.pb.bounds (cfg.start () 0 ⟨0, 0, 0, 0, 0, 0, 0, 0⟩ 0 ⟨0, 0, 0⟩) (History.init default) ⟨fun _ => 2, 0, 0⟩ (some t1) ∧
    Solve (cfg.machine none) { exactOptions with maxiters := 6 } cfg.pb.bounds (cfg.start () 0 ⟨0, 0, 0, 0, 0, 0, 0, 0⟩ 0 ⟨0, 0, 0⟩) (History.init default) t1.u (some t2) ∧ t2.u = t.u ∧ |t.u.x 0| = 2 ^ 3 ^ 11 := by
  obtain ⟨cfg, X, hpb, hev⟩ := exists_hyper 1
  have hd : ∀ n, ∃ t, Solve (cfg.machine none) { exactOptions with maxiters := n } cfg.pb.bounds (cfg.start () 0 ⟨0, 0, 0, 0, 0, 0, 0, 0⟩ 0 ⟨0, 0, 0⟩) (History.init default) ⟨fun _ => 2, 0, 0⟩ (some t) ∧ t.iterations = n + 1 ∧ |t.u.x 0| = 2 ^ 3 ^ (n + 1) := by
    intro n
    obtain ⟨t, a1, -, a3, a4⟩ := convex_diverges hpb X.thr X.eps X.debug X.oracle X.phi X.lu X.method (hev rfl) { exactOptions with maxiters := n } (by norm_num [exactOptions]) () 0 ⟨0, 0, 0, 0, 0, 0, 0, 0⟩ 0 ⟨0, 0, 0⟩ (History.init default) ⟨fun _ => 2, 0, 0⟩
      (by norm_num)
    exact ⟨t, (a1 _).2 rfl, a3, by rw [a4]; norm_num⟩
  obtain ⟨t, h1, h2, h3⟩ := hd 10
  obtain ⟨t1, k1, -, -⟩ := hd 3
  obtain ⟨-, t2, l1, l2, -⟩ := resume_partial X exactOptions 3 6 _ _ _ _ _ _ _ h1 (fun v _ => hyper_nonsingular one_pos _ _ _) (by omega) k1 () 0 ⟨0, 0, 0, 0, 0, 0, 0, 0⟩ 0 ⟨0, 0, 0⟩ (History.init default)
  exact ⟨cfg, t, t1, t2, h1, k1, l1, l2, h3⟩

/-- `resume_with_bounds_partial`: the problem `slope` on `edge`, whose solution is on a bound, from `(5, 3)` with tolerance zero, interrupted after 3 iterations and continued with 5 more. -/
example : ∃ (cfg : Config ℝ 2 0 1 0 Unit) (t t1 t2 : _), cfg.pb = edge ∧ Solve (cfg.machine none) { exactOptions with tolerance := 0, maxiters := 7 } cfg.pb.bounds (cfg.start () 0 ⟨0, 0, 0, 0, 0, 0, 0, 0⟩ 0 ⟨0, 0, 0⟩) (History.init default) ⟨![5, 3], 0, fun _ => 6⟩ (some t) ∧
    Solve (cfg.machine none) { exactOptions with tolerance := 0, maxiters := 2 } cfg.pb.bounds (cfg.start () 0 ⟨0, 0, 0, 0, 0, 0, 0, 0⟩ 0 ⟨0, 0, 0⟩) (History.init default) ⟨![5, 3], 0, fun _ => 6⟩ (some t1) ∧
    Solve (cfg.machine none) { exactOptions with tolerance := 0, maxiters := 4 } cfg.pb.bounds (cfg.start () 0 ⟨0, 0, 0, 0, 0, 0, 0, 0⟩ 0 ⟨0, 0, 0⟩) (History.init default) t1.u (some t2) ∧ t2.u = t.u := by
  let f : (Fin 2 → ℝ) → Evals ℝ 2 0 0 := fun x =>
    { f := x 0 ^ 2 / 2 + x 1 + x 1 ^ 2 / 2 - Real.cos (x 1) / 4, fx := ![x 0, 1 + x 1 + Real.sin (x 1) / 4], fxx := !![1, 0; 0, 1 + Real.cos (x 1) / 4], fxp := 0, diagfxx := true, h := 0, hx := 0, hp := 0, v := 0, vx := 0, vp := 0, succeeded := true }
  let cfg : Config ℝ 2 0 1 0 Unit := { env := exactEnv, pb := edge, method := .nullspace, inners := exactInners, user := fun t x _ _ => some (t, f x), userJac := fun t x _ _ => some (t, f x), phi := none }
  have hb : ConsistentBounds edge.bounds := inBounds_consistent (u := ⟨![0, 0], 0, (0 : Fin 0 → ℝ)⟩) ⟨by rw [Fin.forall_fin_two]; simp [edge, MProblem.bounds, Between], fun q => q.elim0⟩
  have X : BoundedSolve slope cfg := ⟨hb, rfl, rfl, rfl, exactEnv_oracle, by norm_num, rfl, fun c => exactInners_lu c, (by intro h; cases h),
    fun t x p q => ⟨t, f x, rfl, ⟨rfl, rfl, rfl, funext fun l => l.elim0, rfl, rfl, rfl, rfl, rfl⟩⟩, by
      intro y hy
      have := hy 0
      simp only [cfg, slope_stack.1] at this
      funext l
      obtain rfl : l = 0 := Fin.ext (by omega)
      simpa using this⟩
  have hd : ∀ n, ∃ t, Solve (cfg.machine none) { ({ exactOptions with tolerance := 0 } : SolveOptions ℝ) with maxiters := n } cfg.pb.bounds (cfg.start () 0 ⟨0, 0, 0, 0, 0, 0, 0, 0⟩ 0 ⟨0, 0, 0⟩) (History.init default) ⟨![5, 3], 0, fun _ => 6⟩ (some t) :=
    fun n => solve_returns X.thr.ge X.eps.ge X.debug X.nx_pos none (noPhi X.phi) (fun t x p q => ⟨_, rfl⟩) (fun f hf => by cases hf) _ X.bounds () 0 ⟨0, 0, 0, 0, 0, 0, 0, 0⟩ 0 ⟨0, 0, 0⟩ (History.init default) ⟨![5, 3], 0, fun _ => 6⟩
  obtain ⟨t, h1⟩ := hd 7
  obtain ⟨t1, k1⟩ := hd 2
  have h2 := zero_tolerance X.thr.ge X.eps.ge X.nx_pos le_rfl h1
  obtain ⟨-, t2, l1, l2, -⟩ := resume_with_bounds_partial X { exactOptions with tolerance := 0 } 2 4 _ _ _ _ _ _ _ h1 (fun v _ => slope_regular v) (by simp only at h2; omega) k1 () 0 ⟨0, 0, 0, 0, 0, 0, 0, 0⟩ 0 ⟨0, 0, 0⟩ (History.init default)
  exact ⟨cfg, t, t1, t2, rfl, h1, k1, l1, l2⟩

end Optima
