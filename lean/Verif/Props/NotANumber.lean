import Verif.Model.NotANumber
import Verif.Props.Infeasible
import Verif.Props.SolverLoop
import Verif.Props.SensitivityWitness
import Mathlib.Analysis.SpecialFunctions.Log.Basic

/-!
# C60: values that are not numbers
-/

set_option linter.unusedSectionVars false

namespace Optima

open Matrix

variable {K : Type*} [Field K] [LinearOrder K] [IsStrictOrderedRing K] {nx np ny nz : ℕ} {τ : Type*}

namespace Dbl

theorem num_add (a b : K) : num a + num b = num (a + b) := rfl
theorem num_sub (a b : K) : num a - num b = num (a - b) := rfl
theorem num_mul (a b : K) : num a * num b = num (a * b) := rfl
theorem zero_eq : (0 : Dbl K) = num 0 := rfl
theorem one_eq : (1 : Dbl K) = num 1 := rfl
theorem add_nan (a : Dbl K) : a + nan = nan := by cases a <;> rfl
theorem nan_add (a : Dbl K) : nan + a = nan := by cases a <;> rfl
theorem sub_nan (a : Dbl K) : a - nan = nan := by cases a <;> rfl
theorem nan_sub (a : Dbl K) : nan - a = nan := by cases a <;> rfl
theorem mul_nan (a : Dbl K) : a * nan = nan := by cases a <;> rfl
theorem nan_mul (a : Dbl K) : nan * a = nan := by cases a <;> rfl
theorem num_lt (a b : K) : num a < num b ↔ a < b := Iff.rfl
theorem not_nan_lt (a : Dbl K) : ¬ nan < a := by cases a <;> exact id
theorem not_lt_nan (a : Dbl K) : ¬ a < nan := by cases a <;> exact id
theorem num_le (a b : K) : num a ≤ num b ↔ a ≤ b := Iff.rfl
theorem not_nan_le (a : Dbl K) : ¬ nan ≤ a := by cases a <;> exact id

theorem max_nan (a : Dbl K) : max nan a = nan := if_neg (not_nan_lt a)
theorem min_nan (a : Dbl K) : min nan a = nan := if_neg (not_lt_nan a)

theorem dot_num {n : ℕ} (a b : Fin n → K) : dot (fun j => num (a j)) (fun j => num (b j)) = num (∑ j, a j * b j) := by
  unfold dot
  simp only [num_mul]
  have : ∀ (l : List (Fin n)) (s : K), l.foldl (fun (s : Dbl K) j => s + num (a j * b j)) (num s) = num (s + (l.map fun j => a j * b j).sum) := by
    intro l
    induction l with
    | nil => intro s; simp
    | cons i l ih => intro s; rw [List.foldl_cons, num_add, ih, List.map_cons, List.sum_cons, add_assoc]
  rw [zero_eq, this, zero_add, ← List.ofFn_eq_map, List.sum_ofFn]

theorem dot_nan {n : ℕ} (a b : Fin n → Dbl K) (h : ∃ j, b j = nan) : dot a b = nan := by
  unfold dot
  have : ∀ (l : List (Fin n)) (s : Dbl K), (s = nan ∨ ∃ j ∈ l, b j = nan) → l.foldl (fun (s : Dbl K) j => s + a j * b j) s = nan := by
    intro l
    induction l with
    | nil => rintro s (h | ⟨j, h, -⟩); exacts [h, by cases h]
    | cons i l ih =>
      intro s hs
      rw [List.foldl_cons]
      refine ih _ ?_
      rcases hs with h | ⟨j, hj, hb⟩
      · exact Or.inl (by rw [h, nan_add])
      · rcases List.mem_cons.1 hj with rfl | hj
        · exact Or.inl (by rw [hb, mul_nan, add_nan])
        · exact Or.inr ⟨j, hj, hb⟩
  obtain ⟨j, hj⟩ := h
  exact this _ _ (Or.inr ⟨j, List.mem_finRange j, hj⟩)

theorem multiplyClean_num {n : ℕ} {ι : Type*} (eps : K) (A : ι → Fin n → K) (x : Fin n → K) (i : ι) : multiplyClean eps A (fun j => num (x j)) i = num (Utils.multiplyClean eps A x i) := by
  unfold multiplyClean Utils.multiplyClean
  simp only [abs, dot_num, num_mul, num_lt]
  split_ifs <;> rfl

theorem multiplyClean_nan {n : ℕ} {ι : Type*} (eps : K) (A : ι → Fin n → K) (x : Fin n → Dbl K) (h : ∃ j, x j = nan) (i : ι) : multiplyClean eps A x i = nan := by
  unfold multiplyClean
  simp only
  rw [dot_nan _ _ h]
  exact if_neg (not_nan_lt _)

/-- `std::max({a, b, c}) < tol`: NaN in the first place makes the test fail, NaN in another place has no influence. -/
theorem stdMax_lt_iff (a b c : Dbl K) (tol : K) : stdMax a [b, c] < num tol ↔ a < num tol ∧ (b < num tol ∨ b = nan) ∧ (c < num tol ∨ c = nan) := by
  simp only [stdMax, List.foldl_cons, List.foldl_nil]
  rcases a with a | _
  · rcases b with b | _
    · rcases c with c | _
      · simp only [num_lt, reduceCtorEq, or_false]
        split_ifs with h1 h2 h2 <;> simp only [num_lt] at * <;> constructor <;> intro h <;> (try refine ⟨?_, ?_, ?_⟩) <;> (try obtain ⟨h3, h4, h5⟩ := h) <;> (try push Not at *) <;>
          first | assumption | linarith | exact lt_of_le_of_lt (by assumption) h | skip
      · simp only [not_lt_nan, if_false, or_true, and_true, reduceCtorEq, or_false, num_lt]
        split_ifs with h1 <;> simp only [num_lt] <;> constructor <;> intro h
        · exact ⟨h1.trans h, h⟩
        · exact h.2
        · exact ⟨h, (not_lt.1 h1).trans_lt h⟩
        · exact h.1
    · rw [if_neg (not_lt_nan _)]
      simp only [or_true, true_and]
      rcases c with c | _
      · simp only [num_lt, reduceCtorEq, or_false]
        split_ifs with h1 <;> simp only [num_lt] <;> constructor <;> intro h
        · exact ⟨h1.trans h, h⟩
        · exact h.2
        · exact ⟨h, (not_lt.1 h1).trans_lt h⟩
        · exact h.1
      · rw [if_neg (not_lt_nan _)]
        simp
  · rw [if_neg (not_nan_lt _), if_neg (not_nan_lt _)]
    simp [not_nan_lt]

/-- With a number in the first place the result is a number. -/
theorem stdMax_num (a : K) (l : List (Dbl K)) : ∃ e, stdMax (num a) l = num e := by
  unfold stdMax
  induction l generalizing a with
  | nil => exact ⟨a, rfl⟩
  | cons b l ih =>
    rw [List.foldl_cons]
    rcases b with b | _
    · split_ifs
      · exact ih b
      · exact ih a
    · rw [if_neg (not_lt_nan _)]
      exact ih a

/-- On numbers it is the maximum. -/
theorem stdMax_nums (a b c : K) : stdMax (num a) [num b, num c] = num (max (max a b) c) := by
  simp only [stdMax, List.foldl_cons, List.foldl_nil, num_lt]
  split_ifs with h1 h2 h2 <;> simp only [num_lt] at h2 <;> congr 1
  · rw [max_eq_right h1.le, max_eq_right h2.le]
  · rw [max_eq_right h1.le, max_eq_left (not_lt.1 h2)]
  · rw [max_eq_left (not_lt.1 h1), max_eq_right h2.le]
  · rw [max_eq_left (not_lt.1 h1), max_eq_left (not_lt.1 h2)]

end Dbl

/-! ## One evaluation -/

section
variable {nbe nbi nne nni nnu : ℕ}

/-- Without NaN, `wbs` is that of the model with numbers. -/
theorem residualWbs_num (eps : K) (C : Canon K nx np (ny + nz) (Fin nbe) (Fin nbi) (Fin nne) (Fin nni) (Fin nnu)) (a : ResidualArgs K nx np ny nz) (ax0) (k) :
    residualWbs eps C a (fun l => .num (a.h l)) k = .num ((residualUpdate eps C ax0 a).canonical.wbs k) := by
  have key : ∀ x y z : Dbl K, x = y → x - z = y - z := fun x y z e => by rw [e]
  refine key _ (Dbl.num _) (Dbl.num _) ((congrFun (congrArg (Dbl.multiplyClean eps C.Rbs) (funext fun j => ?_)) k).trans (Dbl.multiplyClean_num eps C.Rbs _ k))
  refine Fin.addCases (fun l => ?_) (fun l => ?_) j
  · rw [Fin.addCases_left, Fin.addCases_left]
  · rw [Fin.addCases_right, Fin.addCases_right]; rfl

/-- One NaN in `h` makes every entry of `wbs` NaN. -/
theorem residualWbs_nan (eps : K) (C : Canon K nx np (ny + nz) (Fin nbe) (Fin nbi) (Fin nne) (Fin nni) (Fin nnu)) (a : ResidualArgs K nx np ny nz) (h : Fin nz → Dbl K) (hn : ∃ l, h l = .nan) (k) :
    residualWbs eps C a h k = .nan := by
  obtain ⟨l, hl⟩ := hn
  refine (congrArg (fun x : Dbl K => x - Dbl.num _) (Dbl.multiplyClean_nan eps C.Rbs _ ⟨Fin.natAdd ny l, ?_⟩ k)).trans (Dbl.nan_sub _)
  rw [Fin.addCases_right, hl, Dbl.sub_nan]

variable (N : NormImpl K) {nw : ℕ} (ex : Fin nx → Dbl K) (v : Fin np → Dbl K) (wbs : Fin nbe ⊕ Fin nbi → Dbl K) (ewbar0 : Fin nw → K)

/-- Without NaN the errors are those of the model with numbers. -/
theorem nanErrors_num (C : Canon K nx np nw (Fin nbe) (Fin nbi) (Fin nne) (Fin nni) (Fin nnu)) (xlower xupper : Fin nx → Option K) (x : Fin nx → K) (r : ResidualOut K nx np nw nbe nbi nne nni) :
    (nanErrors N (fun i => .num ((residualErrors C xlower xupper x r ewbar0).ex i)) (fun q => .num (-r.master.p q)) (fun k => .num (r.canonical.wbs k)) ewbar0).error =
      .num (residualErrors C xlower xupper x r ewbar0).error := by
  unfold nanErrors residualErrors
  simp only
  rw [N.norm_num, show (fun i => (0 - Dbl.num (-r.master.p i)).abs) = fun i => Dbl.num |r.master.p i| from funext fun i => by rw [Dbl.zero_eq, Dbl.num_sub]; simp [Dbl.abs], N.norm_num,
    show (fun i : Fin nw => if nw - (nw - (nbe + nbi)) ≤ i then (0 : Dbl K) else if h : i < nbe + nbi then (Dbl.num (r.canonical.wbs (finSumFinEquiv.symm ⟨i, h⟩))).abs else .num (ewbar0 i)) =
      fun i => .num (if nw - (nw - (nbe + nbi)) ≤ i then 0 else if h : i < nbe + nbi then |r.canonical.wbs (finSumFinEquiv.symm ⟨i, h⟩)| else ewbar0 i) from funext fun i => by split_ifs <;> rfl, N.norm_num,
    Dbl.stdMax_nums]

/-- **C60 (the test for convergence)**: an evaluation passes the test of `Convergence` exactly if the optimality error is below the tolerance, and each of the two other errors is below the tolerance or NaN. -/
theorem converged_iff (tol : K) :
    let E := nanErrors N ex v wbs ewbar0
    E.error < .num tol ↔ E.errorx < .num tol ∧ (E.errorp < .num tol ∨ E.errorp = .nan) ∧ (E.errorw < .num tol ∨ E.errorw = .nan) :=
  Dbl.stdMax_lt_iff _ _ _ _

/-- **C60, part**: if the optimality errors are all NaN, or one of them is and the norm passes NaN on, the test fails, whatever the other errors. -/
theorem nan_gradient_rejected_partial (tol : K) (h : (0 < nx ∧ ∀ i, ex i = .nan) ∨ (∃ i, ex i = .nan) ∧ ∀ w : Fin nx → Dbl K, (∃ i, w i = .nan) → N.norm w = .nan) : ¬ (nanErrors N ex v wbs ewbar0).error < .num tol := by
  intro hc
  have h1 := ((converged_iff N ex v wbs ewbar0 tol).1 hc).1
  have h2 : (nanErrors N ex v wbs ewbar0).errorx = .nan := by
    rcases h with ⟨h0, h⟩ | ⟨h, hN⟩
    · exact N.norm_nan _ h0 h
    · exact hN _ h
  rw [h2] at h1
  exact Dbl.not_nan_lt _ h1

/-- **C60, negation**: if there are as many basic variables as constraints (at least one) and one entry of `h` is NaN, the constraints are not tested: the evaluation passes if the optimality errors and those of `v` do. -/
theorem nan_constraint_ignored (eps : K) (C : Canon K nx np (ny + nz) (Fin nbe) (Fin nbi) (Fin nne) (Fin nni) (Fin nnu)) (a : ResidualArgs K nx np ny nz) (h : Fin nz → Dbl K) (hn : ∃ l, h l = .nan) (hfull : nbe + nbi = ny + nz)
    (ewbar0 : Fin (ny + nz) → K) (tol : K) :
    let E := nanErrors N ex v (residualWbs eps C a h) ewbar0
    E.errorw = .nan ∧ (E.error < .num tol ↔ E.errorx < .num tol ∧ (E.errorp < .num tol ∨ E.errorp = .nan)) := by
  intro E
  have hw : E.errorw = .nan := by
    refine N.norm_nan _ (by obtain ⟨l, -⟩ := hn; have := l.2; omega) fun i => ?_
    have hi := i.2
    rw [if_neg (by omega)]
    dsimp only
    rw [dif_pos (by omega), residualWbs_nan eps C a h hn]
    rfl
  refine ⟨hw, ?_⟩
  refine (converged_iff N ex v _ ewbar0 tol).trans ?_
  change _ ∧ _ ∧ (E.errorw < _ ∨ E.errorw = _) ↔ _
  simp [hw, E]

/-- **C60, negation**: if all entries of `v` are NaN, `v` is not tested. -/
theorem nan_v_ignored (hn : 0 < np) (hv : ∀ q, v q = .nan) (tol : K) :
    let E := nanErrors N ex v wbs ewbar0
    E.errorp = .nan ∧ (E.error < .num tol ↔ E.errorx < .num tol ∧ (E.errorw < .num tol ∨ E.errorw = .nan)) := by
  intro E
  have hp : E.errorp = .nan := N.norm_nan _ hn fun q => by rw [hv, Dbl.sub_nan]; rfl
  refine ⟨hp, ?_⟩
  refine (converged_iff N ex v wbs ewbar0 tol).trans ?_
  change _ ∧ (E.errorp < _ ∨ E.errorp = _) ∧ _ ↔ _
  simp [hp, E]

end

/-! ## The loop with numbers that may be NaN -/

section
variable {nw : ℕ} {σ : Type*}

/-- **C60**: if the error is NaN after every step (and there is no user check), the solve fails, after the whole budget of iterations. -/
theorem nan_error_fails (m : Machine σ (Dbl K) nx np nw) (hc : m.check = none) (o : SolveOptions (Dbl K)) (B : Bounds (Dbl K) nx np) (mach : σ) (history : History (Dbl K)) (u : MVec (Dbl K) nx np nw)
    (hn : ∀ s v, solveInit m B mach history u = some s → Visits m o B s v → m.error v.mach = .nan) (t) (h : Solve m o B mach history u (some t)) :
    (solveResult o t).succeeded = false ∧ (solveResult o t).iterations = o.maxiters + 1 := by
  obtain ⟨s, n, t0, t1, e1, e2, e3, e4, e5, e6, e7, -⟩ := (solve_budget m o B mach history u).2 t h
  have hf : (solveResult o t).succeeded = false := by
    by_contra hs
    obtain ⟨v, hv, -, ha | ⟨f, -, hf, -⟩⟩ := e7.1 (by simpa using hs)
    · rw [hn s v e1 hv] at ha
      exact Dbl.not_nan_lt _ ha
    · rw [hc] at hf; cases hf
  refine ⟨hf, ?_⟩
  have : ¬ t.iterations ≤ o.maxiters := by simpa [solveResult] using hf
  have : t.iterations = n + 1 := e5
  change t.iterations = _
  omega

theorem clamp_nan (lower upper : Option (Dbl K)) : clamp lower upper (.nan : Dbl K) = .nan := by
  unfold clamp
  cases lower <;> cases upper <;> simp [Dbl.max_nan, Dbl.min_nan]

/-- **C29 with NaN**: the bounds do not keep NaN out.  Whatever the bounds, a variable that is NaN after the Newton step is NaN in the iterate, and the user functions are evaluated there (no transformation function). -/
theorem nan_passes_bounds (m : Machine σ (Dbl K) nx np nw) (hphi : m.phi = none) (o : SolveOptions (Dbl K)) (B : Bounds (Dbl K) nx np) (s s' : SolveState σ (Dbl K) nx np nw) (h : step m o B s = some s') (i : Fin nx)
    (hi : ∀ t u, m.newton s.mach s.uo = some (t, u) → u.x i = .nan) : s'.u.x i = .nan ∧ s'.trace.head? = some s'.u := by
  unfold step at h
  dsimp only at h
  split at h
  · cases h
  · rename_i t u hn
    have hu := hi t u hn
    have ht : ∀ s, transform m B s = some (s, false) := fun s => by unfold transform; rw [hphi]
    rw [ht] at h
    dsimp only at h
    split at h
    · cases h
    · rename_i s2 h2
      obtain ⟨e1, -, -, -, e5, -⟩ := evalAt_u h
      refine ⟨?_, by rw [e5, e1]; rfl⟩
      rw [e1]
      unfold errorControl at h2
      split at h2
      · cases h2
      · rename_i v hv
        cases h2
        unfold backtrack at hv
        dsimp only at hv ⊢
        split_ifs at hv <;> cases hv
        · change clamp _ _ (u.x i) = _
          rw [hu, clamp_nan]
        · change clamp _ _ (_ + _ * u.x i) = _
          rw [hu, Dbl.mul_nan, Dbl.add_nan, clamp_nan]

end

/-- A machine whose Newton step is NaN: one variable in `[0, 5]`, error `|x - 4|`. -/
def exNanMachine : Machine (Dbl ℚ) (Dbl ℚ) 1 0 0 where
  eval _ u := some (u.x 0 - .num 4).abs
  evalJac s _ := some s
  newton s uo := some (s, { uo with x := fun _ => .nan })
  error s := s
  phi := none
  check := none
  phi_error := by intro f hf; cases hf
  check_error := by intro f hf; cases hf

/-- Its solve from 1 evaluates at 1 and at NaN (four times), and fails; in a debug build an assertion fails in the second iteration. -/
example : let B : Bounds (Dbl ℚ) 1 0 := { xlower := fun _ => some (.num 0), xupper := fun _ => some (.num 5), plower := fun _ => none, pupper := fun _ => none }
    let o : SolveOptions (Dbl ℚ) := { maxiters := 3, tolerance := .num 1, minmax := false, debug := false }
    let u : MVec (Dbl ℚ) 1 0 0 := { x := fun _ => .num 1, p := fun i => i.elim0, w := fun i => i.elim0 }
    ((runSolve exNanMachine o B .nan [] u 9).map fun t => ((solveResult o t).iterations, (solveResult o t).succeeded, t.trace.map fun v => v.x 0)) = some (4, false, [.nan, .nan, .nan, .nan, .num 1]) ∧
    (runSolve exNanMachine { o with debug := true } B .nan [] u 9).isNone = true := by
  decide +kernel

/-! ## A solve that ends at NaN with success -/

theorem NanConfig.errors_num (cfg : NanConfig K nx np ny nz τ) (rf u E ewbar0) : ∃ e, (cfg.errors rf u E ewbar0).error = .num e := by
  unfold NanConfig.errors nanErrors
  simp only
  rw [cfg.N.norm_num]
  exact Dbl.stdMax_num _ _

/-- At a point without NaN the error is that of the model with numbers. -/
theorem NanConfig.errors_without_nan (cfg : NanConfig K nx np ny nz τ) {ev : Evals K nx np nz} {u : MVec K nx np (ny + nz)} {rf : RFState K nx np ny nz cfg.pb.Ax} (hs : RFSpec cfg.env cfg.pb ev u rf) (hev : rf.evals = ev)
    (hn : cfg.hasNaN u = false) (ew0 : Fin (ny + nz) → K) :
    (∀ l, cfg.nanh u.x u.p l = false) ∧ (∀ q, cfg.nanv u.x u.p q = false) ∧
    (cfg.errors rf u (residualErrors rf.C.mat cfg.pb.xlower cfg.pb.xupper u.x rf.res ew0) ew0).error = .num (residualErrors rf.C.mat cfg.pb.xlower cfg.pb.xupper u.x rf.res ew0).error := by
  have h1 : ∀ l, cfg.nanh u.x u.p l = false := fun l => by
    simp only [NanConfig.hasNaN, Bool.or_eq_false_iff, List.any_eq_false, List.mem_finRange, forall_true_left, Bool.not_eq_true] at hn
    exact hn.1 l
  have h2 : ∀ q, cfg.nanv u.x u.p q = false := fun l => by
    simp only [NanConfig.hasNaN, Bool.or_eq_false_iff, List.any_eq_false, List.mem_finRange, forall_true_left, Bool.not_eq_true] at hn
    exact hn.2 l
  refine ⟨h1, h2, ?_⟩
  obtain ⟨ax0, hr⟩ := hs.res
  have hv : cfg.v u rf.evals.v = fun q => .num (-rf.res.master.p q) := by
    funext q
    unfold NanConfig.v
    rw [h2 q, hr, hev]
    simp [residualUpdate, rfArgs]
  have hh : cfg.h u rf.evals.h = fun l => .num (rf.evals.h l) := by
    funext l
    unfold NanConfig.h
    rw [h1 l]
    simp
  refine Eq.trans ?_ (nanErrors_num cfg.N ew0 rf.C.mat cfg.pb.xlower cfg.pb.xupper u.x rf.res)
  unfold NanConfig.errors
  rw [hv, hh]
  congr 2
  funext k
  rw [hr, ← residualWbs_num cfg.env.eps rf.C.mat (rfArgs cfg.pb rf.M ev u) ax0 k]
  subst hev
  rfl

theorem rfUpdate_evals {env : Env K} {pb : MProblem K nx np ny nz} {e : Ech.WState K nx np ny nz pb.Ax} {ax0 ev u rf} (h : rfUpdate env pb e ax0 ev u = .ok rf) : rf.evals = ev := by
  unfold rfUpdate at h
  split at h
  · cases h
  · cases h
  · split at h
    · cases h
    · dsimp only at h
      split_ifs at h
      split at h
      · cases h
      · cases h
      · cases h
        rfl

/-- An evaluation of the machine, in release builds. -/
theorem nanEval_ok {cfg : NanConfig K nx np ny nz τ} (hthr : 0 ≤ cfg.env.thr) (heps : 0 ≤ cfg.env.eps) (hd : cfg.env.debug = false) (hnx : 0 < nx) {s : Parts K nx np ny nz τ cfg.pb.Ax × Bool} (hq : Reach cfg.toConfig s.1)
    (u : MVec K nx np (ny + nz)) {t ev} (hu : cfg.user s.1.user u.x u.p s.1.ech.rwq = some (t, ev)) :
    ∃ s' rf, cfg.machine.eval s u = some s' ∧ s'.1.rf = some rf ∧ Reach cfg.toConfig s'.1 ∧ RFSpec cfg.env cfg.pb ev u rf ∧ s'.2 = cfg.hasNaN u ∧ rf.evals = ev ∧
      .num s'.1.errors.error = (cfg.errors rf u (residualErrors rf.C.mat cfg.pb.xlower cfg.pb.xupper u.x rf.res s.1.errors.ewbar) s.1.errors.ewbar).error := by
  rcases rfUpdate_spec hthr heps cfg.pb hq hnx s.1.ax ev u with ⟨rf, hrf, hspec⟩ | ⟨hf, h⟩
  · obtain ⟨e, he⟩ := cfg.errors_num rf u (residualErrors rf.C.mat cfg.pb.xlower cfg.pb.xupper u.x rf.res s.1.errors.ewbar) s.1.errors.ewbar
    refine ⟨({ s.1 with user := t, ech := rf.ech, rf := some rf, ax := rf.res.master.x, errors := { residualErrors rf.C.mat cfg.pb.xlower cfg.pb.xupper u.x rf.res s.1.errors.ewbar with error := e } }, cfg.hasNaN u), rf, ?_, rfl,
      hspec.reach, hspec, rfl, rfUpdate_evals hrf, he.symm⟩
    unfold NanConfig.machine Config.updateF
    dsimp only
    rw [hu]
    dsimp only
    rw [hrf]
    dsimp only [Option.map_some, Config.updateE]
    rw [he]
  · rw [hd] at h; cases h

/-- `min 0` subject to `log x + 2 = 0`, as computed in C++: for `x < 0` the value of the constraint is NaN and its derivative `1/x` is a number. -/
structure IsLog (cfg : NanConfig ℝ 1 0 0 1 τ) : Prop where
  xlower : ∀ i, cfg.pb.xlower i = none
  xupper : ∀ i, cfg.pb.xupper i = none
  user : ∀ t x p q, ∃ t' ev, cfg.user t x p q = some (t', ev) ∧ ev.fx = 0 ∧ ev.fxx = 0 ∧ (∀ l j, ev.hx l j = 1 / x 0) ∧ (0 < x 0 → ∀ l, ev.h l = Real.log (x 0) + 2)
  nanh : ∀ x p l, cfg.nanh x p l = true ↔ x 0 < 0

section
variable {cfg : NanConfig ℝ 1 0 0 1 τ} {ev : Evals ℝ 1 0 1} {u : MVec ℝ 1 0 (0 + 1)} {rf : RFState ℝ 1 0 0 1 cfg.pb.Ax}

theorem IsLog.Wx (hs : RFSpec cfg.env cfg.pb ev u rf) (hx : ∀ l j, ev.hx l j = 1 / u.x 0) (l j) : rf.M.Wx l j = 1 / u.x 0 := by
  rw [hs.Wx]
  have : l = Fin.natAdd 0 0 := Subsingleton.elim (α := Fin 1) _ _
  rw [this]
  simp only [stack, Fin.addCases_right, hx]

theorem IsLog.full (ho : ∀ M, (cfg.env.o M).lu.Z = 0) (hs : RFSpec cfg.env cfg.pb ev u rf) (hx : ∀ l j, ev.hx l j = 1 / u.x 0) (h0 : u.x 0 ≠ 0) : rf.C.nbe + rf.C.nbi = 0 + 1 := by
  have hb : rf.M.RWQ.nb = 0 + 1 := by
    refine rf_full_rank ho hs fun y hy => ?_
    have := hy 0
    simp only [IsLog.Wx hs hx, Fin.sum_univ_add, Finset.univ_eq_empty, Finset.sum_empty, zero_add, Finset.univ_unique, Finset.sum_singleton] at this
    have h1 : y (Fin.natAdd 0 default) = 0 := (mul_eq_zero.1 this).resolve_left (one_div_ne_zero h0)
    funext l
    rw [show l = Fin.natAdd 0 default from Subsingleton.elim (α := Fin 1) _ _, h1]
    rfl
  obtain ⟨σ, τ, hσ, -⟩ := hs.canon.ech
  have e := Fintype.card_of_bijective hσ
  simp only [Fintype.card_sum, Fintype.card_fin] at e
  rw [e, hb]

/-- The Newton step from `x = 1` leads to `x = -1`. -/
theorem IsLog.newton (h : IsLog cfg) (heps : cfg.env.eps = 0) (ho : ∀ M, (cfg.env.o M).lu.Z = 0) (hlu : LUInners cfg.toConfig) (hm : cfg.method ≠ .rangespace) {s : Parts ℝ 1 0 0 1 τ cfg.pb.Ax}
    (hrf : s.rf = some rf) (hs : RFSpec cfg.env cfg.pb ev u rf) (hx : u.x 0 = 1) (hw : u.w = 0) (hfx : ev.fx = 0) (hfxx : ev.fxx = 0) (hhx : ∀ l j, ev.hx l j = 1 / u.x 0) (hh : ∀ l, ev.h l = Real.log (u.x 0) + 2) :
    ∃ s' un, cfg.toConfig.newton s u = some (s', un) ∧ s'.ech = s.ech ∧ un.x 0 = -1 ∧ un.w = 0 := by
  have hW := IsLog.Wx hs hhx
  have hnot : ∀ i, i ∉ rf.M.ju := by
    intro i hi
    rcases (hs.unstable i hi).2 with ⟨h1, -⟩ | ⟨h1, -⟩
    · rw [h.xlower] at h1; cases h1
    · rw [h.xupper] at h1; cases h1
  have hR : RowsSpanned rf.M := rf_rowsSpanned ho hs fun q => q.elim0
  have hE := rf_echelon heps hs
  have hM : ∀ d, SolvesMaster rf.M ⟨0, 0, 0⟩ d → d.x = 0 ∧ d.p = 0 := by
    intro d hd
    have e2 := hd.constr 0
    simp [hnot, hW, hx] at e2
    exact ⟨funext fun i => by rw [Subsingleton.elim i 0]; exact e2, funext fun i => i.elim0⟩
  obtain ⟨ax0, hres⟩ := hs.res
  obtain ⟨m1, m2, m3, m4, m5, m6⟩ := residual_master cfg.env.eps hs.canon ax0 (rfArgs cfg.pb rf.M ev u)
  rw [← hres] at m1 m4
  have hf : ∀ l, feasRes (rfArgs cfg.pb rf.M ev u) l = -2 := by
    intro l
    have : l = Fin.natAdd 0 0 := Subsingleton.elim (α := Fin 1) _ _
    rw [this]
    unfold feasRes
    rw [Fin.addCases_right]
    change -ev.h 0 = -2
    rw [hh, hx]
    simp
  obtain ⟨s', un, hn⟩ : ∃ s' un, cfg.toConfig.newton s u = some (s', un) := by
    unfold Config.newton
    rw [hrf]
    exact ⟨_, _, rfl⟩
  obtain ⟨du, hdu, d1, -, d3⟩ := newton_solves heps hrf hs hR ⟨fun _ => -2, 0, fun l => by rw [m4, hf]; simp [hW, hx]⟩ (luInners_ok_dep hlu hm hs.canon hE hR hM _) (fun e => absurd e hm) hn
  have g : ∀ i, lagGrad (rfArgs cfg.pb rf.M ev u) i = 0 := fun i => by simp [lagGrad, rfArgs, hw, hfx]
  have e0 := hdu.stable 0 (hnot 0)
  have e2 := hdu.constr 0
  rw [m1 0 (hnot 0), g] at e0
  rw [m4, hf] at e2
  simp [hnot, hs.Hxx, hfxx, hW, hx] at e0 e2
  refine ⟨s', un, hn, ?_, ?_, ?_⟩
  · unfold Config.newton at hn
    rw [hrf] at hn
    cases hn
    rfl
  · rw [d1, hx, e2]; norm_num
  · funext l
    have : l = 0 := Subsingleton.elim (α := Fin 1) _ _
    rw [this, d3, hw]
    simpa using e0

theorem assignFn_cases {K : Type*} {m n : ℕ} (v : Fin m → K) (idx : Fin n → Fin m) (b : Fin n → K) (i : Fin m) : assignFn v idx b i = v i ∨ ∃ k, idx k = i ∧ assignFn v idx b i = b k := by
  unfold assignFn
  refine foldl_finRange_inv (n := n) (P := fun _ (w : Fin m → K) => w i = v i ∨ ∃ k, idx k = i ∧ w i = b k) (Or.inl rfl) ?_
  intro l w a ih
  by_cases e : idx a = i
  · exact Or.inr ⟨a, e, by subst e; simp⟩
  · rw [Function.update_of_ne (Ne.symm e)]
    exact ih

/-- The entries of the error of `x` are zero where the gradient is. -/
theorem residualErrors_ex_zero {K : Type*} [Field K] [LinearOrder K] [IsStrictOrderedRing K] {nx np nw nbe nbi nne nni nnu : ℕ} (C : Canon K nx np nw (Fin nbe) (Fin nbi) (Fin nne) (Fin nni) (Fin nnu)) (xlower xupper : Fin nx → Option K) (x : Fin nx → K)
    (r : ResidualOut K nx np nw nbe nbi nne nni) (ew0 : Fin nw → K) (h : r.master.x = 0) (i : Fin nx) : (residualErrors C xlower xupper x r ew0).ex i = 0 := by
  have h0 : ∀ i, assignFn (fun i => |r.master.x i|) C.ju 0 i = 0 := fun i => by
    rcases assignFn_cases (fun i => |r.master.x i|) C.ju 0 i with e | ⟨k, -, e⟩ <;> rw [e] <;> simp [h]
  unfold residualErrors
  dsimp only
  rcases assignFn_cases (assignFn (assignFn (fun i => |r.master.x i|) C.ju 0) (fun k => C.js (.inl (finSumFinEquiv.symm k))) _) (fun k => C.js (.inl (finSumFinEquiv.symm k))) _ i with e | ⟨k, -, e⟩ <;> rw [e]
  · rcases assignFn_cases (assignFn (fun i => |r.master.x i|) C.ju 0) (fun k => C.js (.inl (finSumFinEquiv.symm k))) _ i with e | ⟨k, -, e⟩ <;> rw [e]
    · exact h0 i
    · split_ifs
      · rfl
      · exact h0 _
  · split_ifs
    · rfl
    · rcases assignFn_cases (assignFn (fun i => |r.master.x i|) C.ju 0) (fun k => C.js (.inl (finSumFinEquiv.symm k))) _ (C.js (.inl (finSumFinEquiv.symm k))) with e | ⟨k, -, e⟩ <;> rw [e]
      · exact h0 _
      · split_ifs
        · rfl
        · exact h0 _

/-- At `x = -1` with zero multiplier the error is zero. -/
theorem IsLog.error (h : IsLog cfg) (ho : ∀ M, (cfg.env.o M).lu.Z = 0) (hs : RFSpec cfg.env cfg.pb ev u rf) (hev : rf.evals = ev) (hx : u.x 0 = -1) (hw : u.w = 0) (hfx : ev.fx = 0) (hhx : ∀ l j, ev.hx l j = 1 / u.x 0) (ew0 : Fin (0 + 1) → ℝ) {tol : ℝ} (htol : 0 < tol) :
    (cfg.errors rf u (residualErrors rf.C.mat cfg.pb.xlower cfg.pb.xupper u.x rf.res ew0) ew0).error < .num tol := by
  unfold NanConfig.errors
  refine (nan_constraint_ignored cfg.N _ _ cfg.env.eps rf.C.mat _ _ ⟨0, ?_⟩ (IsLog.full ho hs hhx (by rw [hx]; norm_num)) ew0 tol).2.2 ⟨?_, Or.inl ?_⟩
  · unfold NanConfig.h
    rw [if_pos ((h.nanh _ _ _).2 (by rw [hx]; norm_num))]
  · change cfg.N.norm _ < _
    rw [cfg.N.norm_num, Dbl.num_lt]
    refine lt_of_le_of_lt ((normInf_le_iff _ le_rfl).2 fun i => ?_) htol
    have g : ∀ i, lagGrad (rfArgs cfg.pb rf.M ev u) i = 0 := fun i => by simp [lagGrad, rfArgs, hw, hfx]
    have hnot : ∀ i, i ∉ rf.M.ju := fun i hi => by
      rcases (hs.unstable i hi).2 with ⟨e, -⟩ | ⟨e, -⟩
      · rw [h.xlower] at e; cases e
      · rw [h.xupper] at e; cases e
    obtain ⟨ax0, hres⟩ := hs.res
    obtain ⟨m1, -⟩ := residual_master cfg.env.eps hs.canon ax0 (rfArgs cfg.pb rf.M ev u)
    rw [← hres] at m1
    rw [residualErrors_ex_zero _ _ _ _ _ _ (funext fun i => by rw [m1 i (hnot i), g]; simp), abs_zero]
  · change cfg.N.norm _ < _
    rw [show (fun i : Fin 0 => (0 - cfg.v u rf.evals.v i).abs) = fun i : Fin 0 => Dbl.num (0 : ℝ) from funext fun i => i.elim0, cfg.N.norm_num, Dbl.num_lt]
    exact lt_of_le_of_lt ((normInf_le_iff _ le_rfl).2 fun i => i.elim0) htol

/-- **C60 is false**: the solve of `log x + 2 = 0` from `x = 1` reports success after one iteration at `x = -1`, where the constraint is NaN: in exact arithmetic, for every tolerance, history of the solver object, memory content, both step modes
    and all linear solvers but the range-space one. -/
theorem IsLog.solve (h : IsLog cfg) (hthr : 0 ≤ cfg.env.thr) (heps : cfg.env.eps = 0) (hd : cfg.env.debug = false) (ho : ∀ M, (cfg.env.o M).lu.Z = 0) (hlu : LUInners cfg.toConfig) (hm : cfg.method ≠ .rangespace) (o : SolveOptions ℝ)
    (hmax : 1 ≤ o.maxiters) (htol : 0 < o.tolerance) (user : τ) (mem errors ax du) (history : History ℝ) (u : MVec ℝ 1 0 (0 + 1)) (hx : u.x 0 = 1) (hw : u.w = 0) (b : Bool) :
    ∃ t, (∀ r, Solve cfg.machine o cfg.pb.bounds (cfg.toConfig.start user mem errors ax du, b) history u r ↔ r = some t) ∧
      (solveResult o t).succeeded = true ∧ (solveResult o t).iterations = 1 ∧ t.u.x 0 = -1 ∧ cfg.nanh t.u.x t.u.p 0 = true := by
  have hl : ∀ i, cfg.pb.bounds.xlower i = none := h.xlower
  have hu : ∀ i, cfg.pb.bounds.xupper i = none := h.xupper
  have hin : ∀ u : MVec ℝ 1 0 (0 + 1), InBounds cfg.pb.bounds u := fun u => ⟨fun i => ⟨fun l e => (by rw [hl] at e; cases e), fun l e => (by rw [hu] at e; cases e)⟩, fun i => i.elim0⟩
  have hcl : clampVec cfg.pb.bounds u = u := clampVec_of_inBounds (hin u)
  -- the first evaluation
  obtain ⟨t1, ev1, hu1, a1, a2, a3, a4⟩ := h.user (cfg.toConfig.start user mem errors ax du).user u.x u.p (cfg.toConfig.start user mem errors ax du).ech.rwq
  obtain ⟨s1, rf1, e1, hrf1, hq1, hs1, hn1, -, -⟩ := nanEval_ok hthr heps.ge hd (by norm_num) (s := (cfg.toConfig.start user mem errors ax du, b)) (start_reach cfg.toConfig user mem errors ax du) u hu1
  have hinit : solveInit cfg.machine cfg.pb.bounds (cfg.toConfig.start user mem errors ax du, b) history u = some { mach := s1, u := u, uo := u, iterations := 0, history := history, trace := [u] } := by
    unfold solveInit evalAt
    dsimp only
    rw [hcl, e1]
    rfl
  have hnn : s1.2 = false := by
    rw [hn1]
    unfold NanConfig.hasNaN
    simp [h.nanh, hx]
  -- the step
  obtain ⟨s2, un, hn, hech, n1, n2⟩ := h.newton heps ho hlu hm hrf1 hs1 hx hw a1 a2 a3 (a4 (by rw [hx]; norm_num))
  have hv := backtrack_accepts o.debug o.minmax (hin u) (hin un)
  obtain ⟨t3, ev3, hu3, c1, c2, c3, c4⟩ := h.user s2.user un.x un.p s2.ech.rwq
  obtain ⟨s3, rf3, e3, hrf3, hq3, hs3, hn3, hev3, herr⟩ := nanEval_ok hthr heps.ge hd (by norm_num) (s := (s2, false)) (by unfold Reach; rw [hech]; exact hq1) un hu3
  have hlt : s3.1.errors.error < o.tolerance := by
    have := h.error ho hs3 hev3 n1 n2 c1 c3 s2.errors.ewbar htol
    rw [← herr] at this
    exact this
  have hstep : step cfg.machine o cfg.pb.bounds { mach := s1, u := u, uo := u, iterations := 0, history := history, trace := [u] } = some { mach := s3, u := un, uo := u, iterations := 1, history := history, trace := [un, u] } := by
    unfold step
    dsimp only
    have : cfg.machine.newton s1 u = some ((s2, false), un) := by
      change (if s1.2 = true then none else _) = _
      rw [hnn, if_neg (by simp), hn]
      rfl
    rw [this]
    dsimp only
    have ht : ∀ s, transform cfg.machine cfg.pb.bounds s = some (s, false) := fun s => rfl
    rw [ht]
    dsimp only
    unfold errorControl
    dsimp only
    rw [hv]
    dsimp only
    unfold evalAt
    dsimp only
    rw [e3]
  have hstop : stepping cfg.machine o { mach := s3, u := un, uo := u, iterations := 1, history := history, trace := [un, u] } =
      some ({ mach := s3, u := un, uo := un, iterations := 1, history := history ++ [s3.1.errors.error], trace := [un, u] }, false) := by
    have hc : (history.update (cfg.machine.error s3)).converged o.tolerance = some true := by
      change (history ++ [s3.1.errors.error] : History ℝ).converged o.tolerance = _
      simp [History.converged, hlt]
    unfold stepping
    dsimp only
    rw [if_neg (by omega), hc]
    rfl
  have hsolve : Solve cfg.machine o cfg.pb.bounds (cfg.toConfig.start user mem errors ax du, b) history u (some { mach := s3, u := un, uo := un, iterations := 1, history := history ++ [s3.1.errors.error], trace := [un, u] }) :=
    .run _ _ hinit (.stop _ _ _ hstep hstop)
  refine ⟨_, fun r => ⟨fun hr => ?_, fun e => e ▸ hsolve⟩, ?_, rfl, n1, (h.nanh _ _ _).2 (by change un.x 0 < 0; rw [n1]; norm_num)⟩
  · obtain ⟨⟨r0, -, h1⟩, -⟩ := solve_budget cfg.machine o cfg.pb.bounds (cfg.toConfig.start user mem errors ax du, b) history u
    rw [h1 r hr, h1 _ hsolve]
  · simpa [solveResult] using hmax

end

/-- The largest absolute value, NaN if all entries are. -/
noncomputable def exNorm : NormImpl ℝ where
  norm := fun {n} v => if 0 < n ∧ ∀ i, v i = .nan then .nan else .num (normInf fun i => match v i with | .num a => a | .nan => 0)
  norm_num := fun {n} v => if_neg (by rintro ⟨h, e⟩; cases e ⟨0, h⟩)
  norm_nan := fun {n} v h e => if_pos ⟨h, e⟩

/-- `log x + 2 = 0`. -/
noncomputable def exLog : NanConfig ℝ 1 0 0 1 Unit :=
  { env := exactEnv
    pb := { Ax := 0, Ap := 0, b := 0, xlower := fun _ => none, xupper := fun _ => none, plower := fun _ => none, pupper := fun _ => none }
    method := .nullspace
    inners := exactInners
    user := fun _ x _ _ => some ((), { f := 0, fx := 0, fxx := 0, fxp := 0, diagfxx := false, h := fun _ => Real.log (x 0) + 2, hx := fun _ _ => 1 / x 0, hp := 0, v := 0, vx := 0, vp := 0, succeeded := true })
    userJac := fun _ _ _ _ => none
    phi := none
    N := exNorm
    nanh := fun x _ _ => decide (x 0 < 0)
    nanv := fun _ _ _ => false }

/-- There is such a problem. -/
example : IsLog exLog ∧ LUInners exLog.toConfig :=
  ⟨⟨fun _ => rfl, fun _ => rfl, fun _ x _ _ => ⟨_, _, rfl, rfl, rfl, fun _ _ => rfl, fun _ _ => rfl⟩, fun x _ _ => by simp [exLog]⟩, fun c => exactInners_lu c⟩

end Optima
