import Verif.Props.Equivalent
import Verif.Props.Convex

/-!
# C71 with bounds: the order of the variables changes a solve in exact arithmetic

`x0 + x1 = 1`, `x ≥ 0`, quadratic objective, started at `(0, 0)`, where both variables are on their bounds and weigh the same: the basic variable is the one that the rank-revealing factorisation of `[1 1]` takes. The other one is held on its bound by its multiplier.
If it vanishes in the solution, one step leads to the solution; otherwise it is released only after that step.
-/

set_option linter.unusedSectionVars false

namespace Optima

open Matrix

section
variable {K : Type*} [Field K] [LinearOrder K] [IsStrictOrderedRing K] {nx np ny nz : ℕ}

/-- Without non-linear constraints, if all variables weigh the same, the first update keeps the basic variables that the factorisation of `Ax` chose. -/
theorem Ech.first_basics {debug : Bool} {o : LUOracle K} {sort : SortImpl K} {thr eps : K} (hthr : 0 ≤ thr) (hz : nz = 0) {Ax : Matrix (Fin ny) (Fin nx) K} {Ap : Matrix (Fin ny) (Fin np) K} {mem} {s' : WState K nx np ny nz Ax}
    {Jx : Matrix (Fin nz) (Fin nx) K} {Jp : Matrix (Fin nz) (Fin np) K} {w : Fin nx → K} (hu : wUpdate debug o sort thr eps (wInit o mem Ax Ap) Jx Jp w = .ok s') {q'} (hq' : s'.rwq = some q') (hw : ∀ i j, w i = w j) (i : Fin nx) :
    (∃ b, q'.jb b = i) ↔ ∃ b, (o ⟨ny, nx, Ax⟩).lu.q (Sum.inl b) = i := by
  obtain ⟨e1, Rb1, Sbp1, f1⟩ := wUpdate_form hz hu
  have hi := (extReach_inv hthr (wReach_ext (WReach.init (debug := debug) (o := o) (sort := sort) (thr := thr) (eps := eps) (Ax := Ax) (Ap := Ap) (nz := nz) mem)).1).a
  rw [f1] at hq'
  cases hq'
  dsimp only
  rw [e1]
  have e0 : (wInit (nz := nz) o mem Ax Ap).ext.eA = ⟨_, _, _, Ech.compute (o ⟨ny, nx, Ax⟩).lu⟩ := rfl
  rw [e0] at hi ⊢
  have hl := loop_kept (thr := thr) w (Ech.compute (o ⟨ny, nx, Ax⟩).lu) (fun i k => (hw _ _).le)
  have key : ∀ b, (EchFor.priority sort thr (⟨_, _, _, Ech.compute (o ⟨ny, nx, Ax⟩).lu⟩ : EchFor (⟨ny, nx, Ax⟩ : Mat K)) w).e.Q (Sum.inl b) =
      (Ech.compute (o ⟨ny, nx, Ax⟩).lu).Q (Sum.inl (sort.run (fun l => w ((Ech.compute (o ⟨ny, nx, Ax⟩).lu).Q (Sum.inl l))) (Ech.compute (o ⟨ny, nx, Ax⟩).lu).Kb b)) := by
    intro b
    simp only [EchFor.priority, updateWithPriorityWeights, hl, reorder]
  constructor
  · rintro ⟨b, rfl⟩
    exact ⟨_, (key b).symm⟩
  · rintro ⟨b, rfl⟩
    obtain ⟨c, rfl⟩ := (sort_bij sort (fun l => w ((Ech.compute (o ⟨ny, nx, Ax⟩).lu).Q (Sum.inl l))) hi.kb).2 b
    exact ⟨c, key c⟩

/-- Every pass of the loop counts. -/
theorem loop_iterations {σ : Type*} {nw : ℕ} {m : Machine σ K nx np nw} {o : SolveOptions K} {B : Bounds K nx np} {s t : SolveState σ K nx np nw} (h : Loop m o B s (some t)) : s.iterations + 1 ≤ t.iterations := by
  generalize hr : some t = r at h
  induction h with
  | stepFails => cases hr
  | checkFails => cases hr
  | stop s s1 s2 h1 h2 =>
    cases hr
    rw [(stepping_spec h2).2.1, (step_frame h1).2.1]
  | again s s1 s2 r h1 h2 _ ih =>
    have := ih hr
    rw [(stepping_spec h2).2.1, (step_frame h1).2.1] at this
    omega

end

variable {τ τ' : Type*}

/-- `y0 + y1 = 1`, `y ≥ 0`, objective with gradient `g + y/2`, in the variables `x` with `yi = ai xi`. -/
structure IsTied (cfg : Config ℝ 2 0 1 0 τ) (a g : Fin 2 → ℝ) : Prop where
  pos : ∀ i, 0 < a i
  Ax : ∀ l, cfg.pb.Ax l = a
  b : ∀ l, cfg.pb.b l = 1
  xlower : ∀ i, cfg.pb.xlower i = some 0
  xupper : ∀ i, cfg.pb.xupper i = none
  user : ∀ t x p q, ∃ t' ev, cfg.user t x p q = some (t', ev) ∧ (∀ i, ev.fx i = a i * (g i + a i * x i / 2)) ∧ ev.fxx = Matrix.diagonal fun i => a i ^ 2 / 2

section
variable {cfg : Config ℝ 2 0 1 0 τ} {a g : Fin 2 → ℝ} {ev : Evals ℝ 2 0 0} {u : MVec ℝ 2 0 (1 + 0)} {rf : RFState ℝ 2 0 1 0 cfg.pb.Ax} {j k : Fin 2}

theorem sum_pair (hjk : j ≠ k) (f : Fin 2 → ℝ) : ∑ i, f i = f j + f k := by
  rw [Fin.sum_univ_two]
  revert hjk
  fin_cases j <;> fin_cases k <;> simp [add_comm]

theorem pair_cases (hjk : j ≠ k) (i : Fin 2) : i = j ∨ i = k := by
  revert hjk
  fin_cases j <;> fin_cases k <;> fin_cases i <;> simp

theorem IsTied.Wx (h : IsTied cfg a g) (hs : RFSpec cfg.env cfg.pb ev u rf) (l i) : rf.M.Wx l i = a i := by
  rw [hs.Wx]
  have : l = Fin.castAdd 0 0 := Subsingleton.elim (α := Fin 1) _ _
  rw [this]
  simp only [stack, Fin.addCases_left, h.Ax]

/-- At most one variable is basic. -/
theorem IsTied.unique (h : IsTied cfg a g) (hs : RFSpec cfg.env cfg.pb ev u rf) (hjk : j ≠ k) (hb : ∃ b, rf.M.RWQ.jb b = j) (b) : rf.M.RWQ.jb b ≠ k := by
  intro hb1
  obtain ⟨b0, hb0⟩ := hb
  have e : ∀ b b', rf.M.RWQ.Rb b 0 * a (rf.M.RWQ.jb b') = if b = b' then 1 else 0 := by
    intro b b'
    have := congrFun (congrFun hs.b b) b'
    simpa [mul_apply, one_apply, h.Wx hs] using this
  have hne : b ≠ b0 := fun e => by rw [e, hb0] at hb1; exact hjk hb1
  have e1 := e b b
  have e2 := e b b0
  rw [if_neg hne] at e2
  rw [if_pos rfl, (mul_eq_zero.1 e2).resolve_right (h.pos _).ne', zero_mul] at e1
  norm_num at e1

/-- At least one variable is basic. -/
theorem IsTied.exists_basic (h : IsTied cfg a g) (ho : ∀ M, (cfg.env.o M).lu.Z = 0) (hs : RFSpec cfg.env cfg.pb ev u rf) (hjk : j ≠ k) : (∃ b, rf.M.RWQ.jb b = j) ∨ ∃ b, rf.M.RWQ.jb b = k := by
  by_contra hn
  push Not at hn
  obtain ⟨v, hv⟩ := hs.perm.2 j
  rcases v with b | c
  · exact hn.1 b hv
  · have := hs.spans ho 0 c
    rw [h.Wx hs, Finset.sum_eq_zero fun b _ => ?_] at this
    · exact absurd this (h.pos _).ne'
    · rcases pair_cases hjk (rf.M.RWQ.jb b) with e | e
      · exact absurd e (hn.1 b)
      · exact absurd e (hn.2 b)

theorem IsTied.feasRes (h : IsTied cfg a g) (hs : RFSpec cfg.env cfg.pb ev u rf) (hjk : j ≠ k) (l) : feasRes (rfArgs cfg.pb rf.M ev u) l = 1 - (a j * u.x j + a k * u.x k) := by
  have : l = Fin.castAdd 0 0 := Subsingleton.elim (α := Fin 1) _ _
  rw [this]
  simp only [Optima.feasRes, rfArgs, Fin.addCases_left, h.b, h.Wx hs, sum_pair hjk]
  simp

theorem IsTied.lagGrad (h : IsTied cfg a g) (hs : RFSpec cfg.env cfg.pb ev u rf) (hfx : ∀ i, ev.fx i = a i * (g i + a i * u.x i / 2)) (i) : lagGrad (rfArgs cfg.pb rf.M ev u) i = a i * (g i + a i * u.x i / 2 + u.w 0) := by
  have hl : ∀ f : Fin (1 + 0) → ℝ, ∑ l, f l = f 0 := fun f => Fin.sum_univ_one f
  simp only [Optima.lagGrad, rfArgs, hl, h.Wx hs, hfx]
  simp
  ring

theorem IsTied.mult (h : IsTied cfg a g) (hs : RFSpec cfg.env cfg.pb ev u rf) (hfx : ∀ i, ev.fx i = a i * (g i + a i * u.x i / 2)) (i) : rf.status.s i = a i * (g i + a i * u.x i / 2 + u.w 0) := by
  have hl : ∀ f : Fin (1 + 0) → ℝ, ∑ l, f l = f 0 := fun f => Fin.sum_univ_one f
  rw [hs.mult]
  simp only [hl, h.Wx hs, hfx]
  ring

theorem IsTied.nb_pos (hb : ∃ b, rf.M.RWQ.jb b = j) : 0 < rf.M.RWQ.nb := by
  obtain ⟨b, -⟩ := hb
  exact b.pos

/-- From `(0, 0)` with `xj` basic, while `xk` is held on its bound, Newton's step leads to `aj xj = 1`. -/
theorem IsTied.newton (h : IsTied cfg a g) (heps : cfg.env.eps = 0) (ho : ∀ M, (cfg.env.o M).lu.Z = 0) (hlu : LUInners cfg) (hm : cfg.method ≠ .rangespace) {s s' : Parts ℝ 2 0 1 0 τ cfg.pb.Ax} {un : MVec ℝ 2 0 (1 + 0)}
    (hrf : s.rf = some rf) (hs : RFSpec cfg.env cfg.pb ev u rf) (hx : ∀ i, u.x i = 0) (hw : ∀ l, u.w l = 0) (hfx : ∀ i, ev.fx i = a i * (g i + a i * u.x i / 2)) (hfxx : ev.fxx = Matrix.diagonal fun i => a i ^ 2 / 2) (hjk : j ≠ k) (hb : ∃ b, rf.M.RWQ.jb b = j) (hg : 0 < g k)
    (hn : cfg.newton s u = some (s', un)) : un.x j = (a j)⁻¹ ∧ un.x k = 0 ∧ un.w 0 = -(g j + 1/2) := by
  have hW := h.Wx hs
  have hk : k ∈ rf.M.ju := hs.unstable_all (IsTied.nb_pos hb) k (h.unique hs hjk hb) (Or.inl ⟨by rw [h.xlower, hx], by rw [h.mult hs hfx, hx, hw]; simpa using mul_pos (h.pos k) hg⟩)
  have hj : j ∉ rf.M.ju := fun e => (hs.unstable j e).1 hb.choose hb.choose_spec
  have hR : RowsSpanned rf.M := rf_rowsSpanned ho hs fun q => q.elim0
  have hE := rf_echelon heps hs
  have hl : ∀ f : Fin (1 + 0) → ℝ, ∑ l, f l = f 0 := fun f => Fin.sum_univ_one f
  have hH : ∀ i, rf.M.Hxx i i = a i ^ 2 / 2 := by
    rw [hs.Hxx, hfxx]
    exact fun i => diagonal_apply_eq _ _
  have hH' : rf.M.Hxx j k = 0 := by
    rw [hs.Hxx, hfxx]
    exact diagonal_apply_ne _ hjk
  have haj := (h.pos j).ne'
  have hM : ∀ d, SolvesMaster rf.M ⟨0, 0, 0⟩ d → d.x = 0 ∧ d.p = 0 := by
    intro d hd
    have e0 := hd.unstable k hk
    have e2 := hd.constr 0
    simp [sum_pair hjk, hj, hk, hW, haj] at e0 e2
    refine ⟨?_, funext fun i => i.elim0⟩
    funext i
    rcases pair_cases hjk i with rfl | rfl
    · exact e2
    · exact e0
  obtain ⟨ax0, hres⟩ := hs.res
  obtain ⟨m1, m2, m3, m4, m5, m6⟩ := residual_master cfg.env.eps hs.canon ax0 (rfArgs cfg.pb rf.M ev u)
  rw [← hres] at m1 m2 m4
  have hf : ∀ l, Optima.feasRes (rfArgs cfg.pb rf.M ev u) l = 1 := fun l => by rw [h.feasRes hs hjk, hx, hx]; norm_num
  obtain ⟨du, hdu, d1, -, d3⟩ := newton_solves heps hrf hs hR ⟨Function.update 0 j (a j)⁻¹, 0, fun l => by rw [m4, hf, sum_pair hjk]; simp [hW, hjk.symm, haj]⟩ (luInners_ok_dep hlu hm hs.canon hE hR hM _) (fun e => absurd e hm) hn
  have e0 := hdu.stable j hj
  have e1 := hdu.unstable k hk
  have e2 := hdu.constr 0
  rw [m1 j hj, h.lagGrad hs hfx, hx, hw] at e0
  rw [m2 k hk] at e1
  rw [m4, hf] at e2
  simp only [sum_pair hjk, hl, if_pos hk, if_neg hj, hW, hH, hH'] at e0 e2
  simp at e0 e2
  have e2 : du.x j = (a j)⁻¹ := eq_inv_of_mul_eq_one_right e2
  refine ⟨by rw [d1, hx, e2, zero_add], by rw [d1, hx, e1]; norm_num, ?_⟩
  rw [d3, hw]
  rw [e2] at e0
  field_simp at e0
  linarith

/-- After that step: zero error if the multiplier of `xk` is positive. -/
theorem IsTied.error_zero (h : IsTied cfg a g) (heps : cfg.env.eps = 0) (hs : RFSpec cfg.env cfg.pb ev u rf) (hjk : j ≠ k) (hxj : u.x j = (a j)⁻¹) (hxk : u.x k = 0) (hw : u.w 0 = -(g j + 1/2)) (hfx : ∀ i, ev.fx i = a i * (g i + a i * u.x i / 2))
    (hb : ∃ b, rf.M.RWQ.jb b = j) (hg : g j + 1/2 < g k) (ew0) : (residualErrors rf.C.mat cfg.pb.xlower cfg.pb.xupper u.x rf.res ew0).error = 0 := by
  have hE := rf_echelon heps hs
  obtain ⟨ax0, hres⟩ := hs.res
  obtain ⟨m1, m2, m3, m4, m5, m6⟩ := residual_master cfg.env.eps hs.canon ax0 (rfArgs cfg.pb rf.M ev u)
  rw [← hres] at m1
  have hk : k ∈ rf.M.ju := hs.unstable_all (IsTied.nb_pos hb) k (h.unique hs hjk hb) (Or.inl ⟨by rw [h.xlower, hxk], by rw [h.mult hs hfx, hxk, hw]; exact mul_pos (h.pos k) (by linarith)⟩)
  refine le_antisymm ?_ (le_trans (normInf_nonneg _) (le_max_right _ _))
  rw [error_le_iff hs.canon (basics_le_rows hs.canon hs.b) _ _ _ _ _ _ le_rfl]
  refine ⟨fun i hi hn => ?_, fun q => q.elim0, fun b => ?_⟩
  · rcases pair_cases hjk i with rfl | rfl
    · rw [m1 i hi, h.lagGrad hs hfx, hxj, hw, mul_inv_cancel₀ (h.pos _).ne']
      simp
    · exact absurd hk hi
  · rw [hres, heps, residual_canonical_exact hs.canon hE ax0 (rfArgs cfg.pb rf.M ev u) rfl rfl b]
    simp only [h.feasRes hs hjk, hxj, hxk, mul_inv_cancel₀ (h.pos _).ne']
    simp

/-- After that step: an error if the multiplier of `xk` is negative. -/
theorem IsTied.error_pos (h : IsTied cfg a g) (hs : RFSpec cfg.env cfg.pb ev u rf) (hjk : j ≠ k) (hxj : u.x j = (a j)⁻¹) (hxk : u.x k = 0) (hw : u.w 0 = -(g j + 1/2)) (hfx : ∀ i, ev.fx i = a i * (g i + a i * u.x i / 2))
    (hb : ∃ b, rf.M.RWQ.jb b = j) (hg : g k < g j + 1/2) (ew0) : a k * (g j + 1/2 - g k) ≤ (residualErrors rf.C.mat cfg.pb.xlower cfg.pb.xupper u.x rf.res ew0).error := by
  obtain ⟨ax0, hres⟩ := hs.res
  obtain ⟨m1, m2, m3, m4, m5, m6⟩ := residual_master cfg.env.eps hs.canon ax0 (rfArgs cfg.pb rf.M ev u)
  rw [← hres] at m1
  have hk : k ∉ rf.M.ju := by
    intro e
    rcases (hs.unstable k e).2 with ⟨-, e2⟩ | ⟨e1, -⟩
    · rw [h.mult hs hfx, hxk, hw] at e2
      have := pos_of_mul_pos_right e2 (h.pos k).le
      linarith
    · rw [h.xupper] at e1; cases e1
  have := ((error_le_iff hs.canon (basics_le_rows hs.canon hs.b) cfg.pb.xlower cfg.pb.xupper u.x rf.res ew0 _ (le_trans (normInf_nonneg _) (le_max_right _ _))).1 le_rfl).1 k hk (fun e => h.unique hs hjk hb _ e.1.choose_spec)
  rw [m1 k hk, h.lagGrad hs hfx, hxk, hw, abs_of_pos (by rw [← mul_neg]; exact mul_pos (h.pos k) (by linarith))] at this
  refine le_trans (le_of_eq ?_) this
  ring

end

/-- The first iteration: for every solver history and memory content the solve started at `(0, 0)` goes to `aj xj = 1` if the factorisation of `[a0 a1]` takes `xj`, and ends there if and only if the multiplier of the other variable is positive. -/
theorem IsTied.solve {cfg : Config ℝ 2 0 1 0 τ} {a g : Fin 2 → ℝ} {j k : Fin 2} (h : IsTied cfg a g) (hthr : 0 ≤ cfg.env.thr) (heps : cfg.env.eps = 0) (hd : cfg.env.debug = false) (ho : ∀ M, (cfg.env.o M).lu.Z = 0) (hphi : cfg.phi = none)
    (hlu : LUInners cfg) (hm : cfg.method ≠ .rangespace) (hjk : j ≠ k) (hj : ∃ b, (cfg.env.o ⟨1, 2, cfg.pb.Ax⟩).lu.q (Sum.inl b) = j) (hg : 0 < g k)
    (o : SolveOptions ℝ) (hmax : 1 ≤ o.maxiters) (htol : 0 < o.tolerance) (user : τ) (mem errors ax du) (history : History ℝ) (u : MVec ℝ 2 0 (1 + 0)) (hx : ∀ i, u.x i = 0) (hw : ∀ l, u.w l = 0) :
    ∃ t, (∀ r, Solve (cfg.machine none) o cfg.pb.bounds (cfg.start user mem errors ax du) history u r ↔ r = some t) ∧
      (g j + 1/2 < g k → t.u.x j = (a j)⁻¹ ∧ t.u.x k = 0 ∧ t.mach.errors.error = 0 ∧ (solveResult o t).iterations = 1) ∧
      (g k < g j + 1/2 → o.tolerance ≤ a k * (g j + 1/2 - g k) → 2 ≤ (solveResult o t).iterations) := by
  have hl : ∀ i, cfg.pb.bounds.xlower i = some 0 := h.xlower
  have hu : ∀ i, cfg.pb.bounds.xupper i = none := h.xupper
  have hB : ConsistentBounds cfg.pb.bounds := ⟨fun i l r e1 e2 => (by rw [hu] at e2; cases e2), fun i => i.elim0⟩
  obtain ⟨t, ht⟩ := solve_returns hthr heps.ge hd (by norm_num) none (noPhi hphi) (fun t x p q => let ⟨t', ev, e, _⟩ := h.user t x p q; ⟨_, e⟩) (fun f hf => by cases hf) o hB user mem errors ax du history u
  have huq : ∀ r, Solve (cfg.machine none) o cfg.pb.bounds (cfg.start user mem errors ax du) history u r ↔ r = some t := by
    intro r
    obtain ⟨⟨r0, h0, h1⟩, -⟩ := solve_budget (cfg.machine none) o cfg.pb.bounds (cfg.start user mem errors ax du) history u
    constructor
    · intro hr; rw [h1 r hr, h1 _ ht]
    · rintro rfl; exact ht
  refine ⟨t, huq, ?_⟩
  have hcl : ∀ i, (clampVec cfg.pb.bounds u).x i = 0 := by
    intro i
    change clamp _ _ (u.x i) = _
    rw [hl, hu, hx]
    simp [clamp]
  cases ht with
  | run s r es hlp =>
    obtain ⟨su, suo, sit, -, -⟩ := solveInit_spec es
    have hr0 := start_reach cfg user mem errors ax du
    obtain ⟨e1, -, -, -, -, e6⟩ := evalAt_u (s := { mach := cfg.start user mem errors ax du, u := clampVec cfg.pb.bounds u, uo := clampVec cfg.pb.bounds u, iterations := 0, history := history.init, trace := [] }) es
    obtain ⟨t', ev, rf, ew0, hu1, hrf, hs1, hs2, hspec, herr⟩ := eval_full hthr heps.ge (by norm_num) hr0 e6
    dsimp only at hspec hrf hu1 e1
    rw [← su] at hspec hrf hu1 hcl
    have hsw : ∀ l, s.u.w l = 0 := by rw [su]; exact hw
    obtain ⟨t1, ev1, hu2, f1, f2⟩ := h.user (cfg.start user mem errors ax du).user s.u.x s.u.p (cfg.start user mem errors ax du).ech.rwq
    rw [hu1] at hu2
    cases hu2
    obtain ⟨w1, w2⟩ := rfUpdate_wUpdate hrf
    have hwt : ∀ i, weights cfg.pb s.u.x i = -1 := by
      intro i
      unfold weights
      rw [h.xlower, hcl]
      simp
    have hbas : ∃ b, rf.M.RWQ.jb b = j := (Ech.first_basics hthr rfl w1 w2 (fun i i' => by rw [hwt, hwt]) j).2 hj
    have hstep : ∀ s1, step (cfg.machine none) o cfg.pb.bounds s = some s1 → s1.u.x j = (a j)⁻¹ ∧ s1.u.x k = 0 ∧ s1.iterations = 1 ∧ (g j + 1/2 < g k → s1.mach.errors.error = 0) ∧ (g k < g j + 1/2 → a k * (g j + 1/2 - g k) ≤ s1.mach.errors.error) := by
      intro s1 h1
      unfold step at h1
      dsimp only at h1
      split at h1
      · cases h1
      · rename_i tm un hn
        change cfg.newton s.mach s.uo = some (tm, un) at hn
        rw [suo, ← su] at hn
        obtain ⟨nxj, nxk, nw⟩ := h.newton heps ho hlu hm hs1 hspec hcl hsw f1 f2 hjk hbas hg hn
        rw [transform_no_phi (by change Option.map _ cfg.phi = none; rw [hphi]; rfl)] at h1
        dsimp only at h1
        unfold errorControl at h1
        dsimp only at h1
        rw [backtrack_accepts o.debug o.minmax ⟨fun i => ⟨fun l e => ?_, fun l e => ?_⟩, fun i => i.elim0⟩ ⟨fun i => ⟨fun l e => ?_, fun l e => ?_⟩, fun i => i.elim0⟩] at h1
        · dsimp only at h1
          have hech : tm.ech = rf.ech := by
            unfold Config.newton at hn
            rw [hs1] at hn
            cases hn
            exact hs2
          have hq : Reach cfg tm := by
            unfold Reach
            rw [hech]
            exact hspec.reach
          obtain ⟨e1, e2, e3, e4, e5, e6⟩ := evalAt_u h1
          obtain ⟨t2, ev', rf', ew0', hu1', hrf', hs1', hs2', hspec', herr'⟩ := eval_full hthr heps.ge (by norm_num) hq e6
          dsimp only at hspec' hrf' hu1' e1 herr'
          obtain ⟨t3, ev2, hu2', g1, g2⟩ := h.user tm.user un.x un.p tm.ech.rwq
          rw [hu1'] at hu2'
          cases hu2'
          have hbas' : ∃ b, rf'.M.RWQ.jb b = j := by
            obtain ⟨w1', w2'⟩ := rfUpdate_wUpdate hrf'
            rw [hech] at w1'
            refine (Ech.wUpdate_basics_kept hthr rfl hr0 w1 w1' w2 w2' (fun b c => ?_) j).2 hbas
            have hb : rf.M.RWQ.jb b = j := (pair_cases hjk _).resolve_right (h.unique hspec hjk hbas b)
            have hv : weights cfg.pb un.x j = (a j)⁻¹ := by
              unfold weights
              rw [h.xlower, h.xupper, nxj]
              simp [(h.pos j).ne', abs_of_pos (h.pos j)]
            rw [hb, hv]
            rcases pair_cases hjk (rf.M.RWQ.jn c) with e | e
            · rw [e, hv]
            · rw [e]
              unfold weights
              rw [h.xlower, nxk]
              have := inv_pos.2 (h.pos j)
              simp
              linarith
          refine ⟨by rw [e1]; exact nxj, by rw [e1]; exact nxk, ?_, fun hgk => ?_, fun hgk => ?_⟩
          · rw [e3]; change s.iterations + 1 = 1; rw [sit]
          · rw [herr']
            exact h.error_zero heps hspec' hjk nxj nxk nw g1 hbas' hgk ew0'
          · rw [herr']
            exact h.error_pos hspec' hjk nxj nxk nw g1 hbas' hgk ew0'
        · rw [hl] at e
          cases e
          rw [suo, ← su, hcl]
        · rw [hu] at e; cases e
        · rw [hl] at e
          cases e
          rcases pair_cases hjk i with rfl | rfl
          · rw [nxj]; exact (inv_pos.2 (h.pos _)).le
          · rw [nxk]
        · rw [hu] at e; cases e
    cases hlp with
    | stop _ s1 _ h1 h2 =>
      obtain ⟨a1, a2, a3, a4, a5⟩ := hstep s1 h1
      obtain ⟨b1, b2, -, b4, -, -, b7⟩ := stepping_spec h2
      refine ⟨fun hgk => ⟨by rw [b1]; exact a1, by rw [b1]; exact a2, b4.trans (a4 hgk), ?_⟩, fun hgk ht => ?_⟩
      · change t.iterations = 1; rw [b2, a3]
      · exfalso
        rcases (b7 (by rw [a3]; exact hmax)).2.1 rfl with e | ⟨-, f, t2, hf, -⟩
        · exact absurd (lt_of_lt_of_le (show s1.mach.errors.error < o.tolerance from e) ht) (not_lt.2 (a5 hgk))
        · cases hf
    | again _ s1 s2 _ h1 h2 h3 =>
      obtain ⟨a1, a2, a3, a4, a5⟩ := hstep s1 h1
      obtain ⟨-, b2, -, -, -, -, b7⟩ := stepping_spec h2
      refine ⟨fun hgk => ?_, fun _ _ => ?_⟩
      · have := (b7 (by rw [a3]; exact hmax)).2.2 (Or.inl (by change s1.mach.errors.error < _; rw [a4 hgk]; exact htol))
        cases this
      · have := loop_iterations h3
        rw [b2, a3] at this
        exact this

/-- **C71 is false with bounds**: `x0 + x1 = 1`, `x ≥ 0`, objective `x0 + 2*x1 + (x0² + x1²)/4` from `(0, 0)`, and the same problem with the variables exchanged. In exact arithmetic, with the full-space or null-space method, whichever column of `[1 1]` the factorisation
    takes, one of the two solves ends after one iteration and the other does not; with `maxiters = 1` one succeeds and the other fails. -/
theorem order_changes_solve {cfg : Config ℝ 2 0 1 0 τ} {cfg' : Config ℝ 2 0 1 0 τ'} (h : IsTied cfg ![1, 1] ![1, 2]) (h' : IsTied cfg' ![1, 1] ![2, 1]) (henv : cfg'.env = cfg.env) (hthr : 0 ≤ cfg.env.thr) (heps : cfg.env.eps = 0) (hd : cfg.env.debug = false)
    (ho : ∀ M, (cfg.env.o M).lu.Z = 0) (hphi : cfg.phi = none) (hphi' : cfg'.phi = none) (hlu : LUInners cfg) (hlu' : LUInners cfg') (hm : cfg.method ≠ .rangespace) (hm' : cfg'.method ≠ .rangespace)
    (o : SolveOptions ℝ) (hmax : 1 ≤ o.maxiters) (htol : 0 < o.tolerance) (htol2 : o.tolerance ≤ 3/2) (user : τ) (mem errors ax du) (history : History ℝ) (user' : τ') (mem' errors' ax' du') (history' : History ℝ) (u : MVec ℝ 2 0 (1 + 0))
    (hx : ∀ i, u.x i = 0) (hw : ∀ l, u.w l = 0) :
    ∃ t t', (∀ r, Solve (cfg.machine none) o cfg.pb.bounds (cfg.start user mem errors ax du) history u r ↔ r = some t) ∧ (∀ r, Solve (cfg'.machine none) o cfg'.pb.bounds (cfg'.start user' mem' errors' ax' du') history' u r ↔ r = some t') ∧
      (solveResult o t).iterations ≠ (solveResult o t').iterations ∧ (o.maxiters = 1 → (solveResult o t).succeeded ≠ (solveResult o t').succeeded) := by
  have hA : cfg.pb.Ax = fun _ => ![1, 1] := funext h.Ax
  have hA' : cfg'.pb.Ax = fun _ => ![1, 1] := funext h'.Ax
  have hthr' : 0 ≤ cfg'.env.thr := by rw [henv]; exact hthr
  have heps' : cfg'.env.eps = 0 := by rw [henv]; exact heps
  have hd' : cfg'.env.debug = false := by rw [henv]; exact hd
  have ho' : ∀ M, (cfg'.env.o M).lu.Z = 0 := by rw [henv]; exact ho
  have hs := fun j k => h.solve (j := j) (k := k) hthr heps hd ho hphi hlu hm
  have hs' := fun j k => h'.solve (j := j) (k := k) hthr' heps' hd' ho' hphi' hlu' hm'
  have hb : ∃ j b, (cfg.env.o ⟨1, 2, fun _ => ![1, 1]⟩).lu.q (Sum.inl b) = j := by
    by_contra hn
    push Not at hn
    have hz := ho ⟨1, 2, fun _ => ![1, 1]⟩
    generalize cfg.env.o ⟨1, 2, fun _ => ![1, 1]⟩ = L at hn hz
    obtain ⟨nb, nn, nl, lu⟩ := L
    obtain ⟨r, hr⟩ := lu.pbij.2 0
    obtain ⟨c, hc⟩ := lu.qbij.2 0
    rcases c with b | c
    · exact hn _ b rfl
    · have hnb : IsEmpty (Fin nb) := ⟨fun b => hn _ b rfl⟩
      have := congrFun (congrFun lu.factor r) (Sum.inr c)
      rw [submatrix_apply, hr, hc] at this
      dsimp only at hz
      rcases r with b | r
      · exact hnb.elim b
      · rw [fromBlocks_apply₂₂, hz] at this
        simp [mul_apply] at this
  obtain ⟨j, hj⟩ := hb
  have hj' : ∃ b, (cfg'.env.o ⟨1, 2, cfg'.pb.Ax⟩).lu.q (Sum.inl b) = j := by rw [hA', henv]; exact hj
  rw [← hA] at hj
  have hfin : ∀ n n' : ℕ, n = 1 → 2 ≤ n' → n ≠ n' ∧ (o.maxiters = 1 → decide (n ≤ o.maxiters) ≠ decide (n' ≤ o.maxiters)) := by
    intro n n' e1 e2
    refine ⟨by omega, fun e => ?_⟩
    rw [decide_eq_true (by omega), decide_eq_false (by omega)]
    decide
  rcases (show j = 0 ∨ j = 1 by fin_cases j <;> simp) with rfl | rfl
  · obtain ⟨t, a1, a2, -⟩ := hs 0 1 (by decide) hj (by simp) o hmax htol user mem errors ax du history u hx hw
    obtain ⟨t', b1, -, b2⟩ := hs' 0 1 (by decide) hj' (by simp) o hmax htol user' mem' errors' ax' du' history' u hx hw
    exact ⟨t, t', a1, b1, hfin _ _ (a2 (by norm_num)).2.2.2 (b2 (by norm_num) (by norm_num; linarith))⟩
  · obtain ⟨t, a1, -, a2⟩ := hs 1 0 (by decide) hj (by simp) o hmax htol user mem errors ax du history u hx hw
    obtain ⟨t', b1, b2, -⟩ := hs' 1 0 (by decide) hj' (by simp) o hmax htol user' mem' errors' ax' du' history' u hx hw
    have := hfin _ _ (b2 (by norm_num)).2.2.2 (a2 (by norm_num) (by norm_num; linarith))
    exact ⟨t, t', a1, b1, this.1.symm, fun e => (this.2 e).symm⟩

/-- A pair of configurations with these problems. -/
example : ∃ cfg cfg' : Config ℝ 2 0 1 0 Unit, IsTied cfg ![1, 1] ![1, 2] ∧ IsTied cfg' ![1, 1] ![2, 1] ∧ cfg'.env = cfg.env ∧ 0 ≤ cfg.env.thr ∧ cfg.env.eps = 0 ∧ cfg.env.debug = false ∧ (∀ M, (cfg.env.o M).lu.Z = 0) ∧ cfg.phi = none ∧ cfg'.phi = none ∧
    LUInners cfg ∧ LUInners cfg' ∧ cfg.method ≠ .rangespace ∧ cfg'.method ≠ .rangespace := by
  let pb : MProblem ℝ 2 0 1 0 := { plane with b := fun _ => 1, xlower := fun _ => some 0, xupper := fun _ => none, Ax := fun _ => ![1, 1] }
  let f : (Fin 2 → ℝ) → (Fin 2 → ℝ) → Evals ℝ 2 0 0 := fun g x =>
    { f := g 0 * x 0 + g 1 * x 1 + (x 0 ^ 2 + x 1 ^ 2) / 4, fx := fun i => g i + x i / 2, fxx := Matrix.diagonal fun _ => 1/2, fxp := 0, diagfxx := true, h := 0, hx := 0, hp := 0, v := 0, vx := 0, vp := 0, succeeded := true }
  let c : (Fin 2 → ℝ) → Config ℝ 2 0 1 0 Unit := fun g =>
    { env := exactEnv, pb := pb, method := .nullspace, inners := exactInners, user := fun t x _ _ => some (t, f g x), userJac := fun t x _ _ => some (t, f g x), phi := none }
  have hc : ∀ g, IsTied (c g) ![1, 1] g := fun g => ⟨fun i => by fin_cases i <;> norm_num, fun _ => rfl, fun _ => rfl, fun _ => rfl, fun _ => rfl, fun t x p q => ⟨t, f g x, rfl, fun i => by fin_cases i <;> simp [f], by ext i j; fin_cases i <;> fin_cases j <;> simp [f]⟩⟩
  exact ⟨c ![1, 2], c ![2, 1], hc _, hc _, rfl, le_rfl, rfl, rfl, exactEnv_oracle, rfl, rfl, fun p => exactInners_lu p, fun p => exactInners_lu p, (by intro h; cases h), (by intro h; cases h)⟩

end Optima
