import Verif.Props.Divergence
import Verif.Props.Infeasible

/-!
# C74: the linear constraints along the iterations

A Newton step satisfies the linear constraints `Ax*x + Ap*p = b` exactly, but the point at which the next iteration starts is the trial point after the backtracking of `BacktrackSearch`, which shortens the step and projects `x` and `p` on
their bounds.
-/

set_option linter.unusedSectionVars false

namespace Optima

open Matrix

variable {K : Type*} [Field K] [LinearOrder K] [IsStrictOrderedRing K] {nx np ny nz : ℕ} {τ : Type*}

/-- By how much the point `u` violates the linear constraint `l`. -/
def violation (pb : MProblem K nx np ny nz) (u : MVec K nx np (ny + nz)) (l : Fin ny) : K := ∑ j, pb.Ax l j * u.x j + ∑ q, pb.Ap l q * u.p q - pb.b l

/-- The component leaves the bound on which it sits: it is `vo` on a bound and `v` is outside. -/
def Leaves (lower upper : Option K) (vo v : K) : Prop := (upper = some vo ∧ vo < v) ∨ (lower = some vo ∧ v < vo)

open Classical in
/-- **C74 (one step)**: from every point within the bounds and for every trial point that satisfies the linear constraints, backtracking returns a point whose violation of every linear constraint is `1 - β` times the one before plus `β` times
    what the variables and parameters contribute that sit on a bound and would leave it. -/
theorem backtrack_violation (debug : Bool) {pb : MProblem K nx np ny nz} {uo u : MVec K nx np (ny + nz)} (h : InBounds pb.bounds uo) (hu : ∀ l, violation pb u l = 0) :
    ∃ v β, backtrack debug false pb.bounds uo u = some v ∧ 0 < β ∧ β ≤ 1 ∧ IsFactor pb.bounds uo u β ∧ ∀ l, violation pb v l = (1 - β) * violation pb uo l +
      β * (∑ j, (if Leaves (pb.xlower j) (pb.xupper j) (uo.x j) (u.x j) then pb.Ax l j * (uo.x j - u.x j) else 0) +
        ∑ q, if Leaves (pb.plower q) (pb.pupper q) (uo.p q) (u.p q) then pb.Ap l q * (uo.p q - u.p q) else 0) := by
  obtain ⟨v, β, hv, hβ, hin, -, -, -, hx, hp⟩ := backtrack_spec debug h u
  refine ⟨v, β, hv, hβ.pos, hβ.le_one, hβ, fun l => ?_⟩
  have key : ∀ {lower upper : Option K} {vo a w : K}, Between lower upper w →
      (w = blend β vo a ∨ (upper = some vo ∧ vo < a ∧ w = vo) ∨ (lower = some vo ∧ a < vo ∧ w = vo)) → w = (1 - β) * vo + β * a + β * (if Leaves lower upper vo a then vo - a else 0) := by
    intro lower upper vo a w hw hc
    have hblend : blend β vo a = (1 - β) * vo + β * a := by unfold blend; ring
    rcases hc with e | ⟨e1, e2, e3⟩ | ⟨e1, e2, e3⟩
    · have hn : ¬ Leaves lower upper vo a := by
        rintro (⟨k1, k2⟩ | ⟨k1, k2⟩)
        · have := hw.2 _ k1
          rw [e, hblend] at this
          nlinarith [mul_pos hβ.pos (sub_pos.2 k2)]
        · have := hw.1 _ k1
          rw [e, hblend] at this
          nlinarith [mul_pos hβ.pos (sub_pos.2 k2)]
      rw [if_neg hn, e, hblend]; ring
    · rw [if_pos (show Leaves lower upper vo a from Or.inl ⟨e1, e2⟩), e3]; ring
    · rw [if_pos (show Leaves lower upper vo a from Or.inr ⟨e1, e2⟩), e3]; ring
  have ex : ∀ j, pb.Ax l j * v.x j = (1 - β) * (pb.Ax l j * uo.x j) + β * (pb.Ax l j * u.x j) +
      β * (if Leaves (pb.xlower j) (pb.xupper j) (uo.x j) (u.x j) then pb.Ax l j * (uo.x j - u.x j) else 0) := by
    intro j
    have e : v.x j = (1 - β) * uo.x j + β * u.x j + β * (if Leaves (pb.xlower j) (pb.xupper j) (uo.x j) (u.x j) then uo.x j - u.x j else 0) := key (hin.1 j) (hx j)
    rw [e]
    split_ifs <;> ring
  have ep : ∀ j, pb.Ap l j * v.p j = (1 - β) * (pb.Ap l j * uo.p j) + β * (pb.Ap l j * u.p j) +
      β * (if Leaves (pb.plower j) (pb.pupper j) (uo.p j) (u.p j) then pb.Ap l j * (uo.p j - u.p j) else 0) := by
    intro j
    have e : v.p j = (1 - β) * uo.p j + β * u.p j + β * (if Leaves (pb.plower j) (pb.pupper j) (uo.p j) (u.p j) then uo.p j - u.p j else 0) := key (hin.2 j) (hp j)
    rw [e]
    split_ifs <;> ring
  have h0 := hu l
  unfold violation at h0 ⊢
  simp only [ex, ep, Finset.sum_add_distrib, ← Finset.mul_sum]
  linear_combination β * h0

/-- A solution of the Newton system leads to a point that satisfies the linear constraints, whichever variables are held at their bounds. -/
theorem newton_violation {env : Env K} {pb : MProblem K nx np ny nz} {ev : Evals K nx np nz} {uo u du : MVec K nx np (ny + nz)} {rf : RFState K nx np ny nz pb.Ax} (h : RFSpec env pb ev uo rf)
    (hdu : SolvesMaster rf.M rf.res.master du) (hx : ∀ i, u.x i = uo.x i + du.x i) (hp : ∀ q, u.p q = uo.p q + du.p q) (l : Fin ny) : violation pb u l = 0 := by
  obtain ⟨ax0, hres⟩ := h.res
  obtain ⟨m1, m2, m3, m4, m5, m6⟩ := residual_master env.eps h.canon ax0 (rfArgs pb rf.M ev uo)
  rw [← hres] at m1 m2 m3 m4 m5 m6
  have hz : ∀ i, i ∈ rf.M.ju → du.x i = 0 := fun i hi => by rw [hdu.unstable i hi, m2 i hi]
  have e := hdu.constr (Fin.castAdd nz l)
  have e' : ∑ j, (if j ∈ rf.M.ju then 0 else rf.M.Wx (Fin.castAdd nz l) j * du.x j) = ∑ j, rf.M.Wx (Fin.castAdd nz l) j * du.x j := by
    refine Finset.sum_congr rfl fun j _ => ?_
    split_ifs with hj
    · rw [hz j hj, mul_zero]
    · rfl
  rw [m4, e'] at e
  simp only [feasRes, Fin.addCases_left] at e
  change _ = pb.b l - ∑ j, rf.M.Wx (Fin.castAdd nz l) j * uo.x j - ∑ q, rf.M.Wp (Fin.castAdd nz l) q * uo.p q at e
  rw [h.Wx, h.Wp] at e
  simp only [stack, Fin.addCases_left] at e
  unfold violation
  simp only [hx, hp, mul_add, Finset.sum_add_distrib]
  linear_combination e

section solve

variable {cfg : Config K nx np ny nz τ}

/-- The systems the iterations can meet determine the step (in `x` and `p`), and their constraints can be satisfied. -/
structure Regular (cfg : Config K nx np ny nz τ) : Prop where
  spanned : ∀ s u rf, EvaluatedAt cfg s u → s.rf = some rf → RowsSpanned rf.M
  consistent : ∀ s u rf, EvaluatedAt cfg s u → s.rf = some rf → Consistent rf.M rf.res.master
  injective : ∀ s u rf, EvaluatedAt cfg s u → s.rf = some rf → ∀ d, SolvesMaster rf.M ⟨0, 0, 0⟩ d → d.x = 0 ∧ d.p = 0

theorem Regular.newton (hreg : Regular cfg) (heps : cfg.env.eps = 0) (hlu : LUInners cfg) (hm : cfg.method ≠ .rangespace) {s sm : Parts K nx np ny nz τ cfg.pb.Ax} {u un} (hs : EvaluatedAt cfg s u)
    (hn : cfg.newton s u = some (sm, un)) (l) : violation cfg.pb un l = 0 := by
  have hs' := hs
  obtain ⟨ev, rf, ew0, h1, h2, h3, t0, t1, q, h4⟩ := hs
  have hR := hreg.spanned _ _ _ hs' h1
  obtain ⟨dn, hdn, hx, hp, -⟩ := newton_solves heps h1 h2 hR (hreg.consistent _ _ _ hs' h1) (luInners_ok_dep hlu hm h2.canon (rf_echelon heps h2) hR (hreg.injective _ _ _ hs' h1) _) (fun e => absurd e hm) hn
  exact newton_violation h2 hdn hx hp l

/-- No variable or parameter occurring in the linear constraints has bounds. -/
structure UnboundedInRows (pb : MProblem K nx np ny nz) : Prop where
  x : ∀ l j, pb.Ax l j ≠ 0 → pb.xlower j = none ∧ pb.xupper j = none
  p : ∀ l q, pb.Ap l q ≠ 0 → pb.plower q = none ∧ pb.pupper q = none

/-- The linear constraints do not see the projection on the bounds. -/
theorem UnboundedInRows.clamp {pb : MProblem K nx np ny nz} (h : UnboundedInRows pb) (u : MVec K nx np (ny + nz)) (l) : violation pb (clampVec pb.bounds u) l = violation pb u l := by
  unfold violation
  congr 2
  · refine Finset.sum_congr rfl fun j _ => ?_
    by_cases h0 : pb.Ax l j = 0
    · simp [h0]
    · obtain ⟨k1, k2⟩ := h.x l j h0
      simp [clampVec, MProblem.bounds, k1, k2, Optima.clamp]
  · refine Finset.sum_congr rfl fun j _ => ?_
    by_cases h0 : pb.Ap l j = 0
    · simp [h0]
    · obtain ⟨k1, k2⟩ := h.p l j h0
      simp [clampVec, MProblem.bounds, k1, k2, Optima.clamp]

open Classical in
/-- What an iteration does to the violation, if the variables in the linear constraints have no bounds: it is multiplied with a factor in `[0, 1)`, which is zero if there are no bounds. -/
theorem backtrack_shrinks (debug minmax : Bool) {pb : MProblem K nx np ny nz} (hu : UnboundedInRows pb) {uo u v : MVec K nx np (ny + nz)} (h : InBounds pb.bounds uo) (hv : ∀ l, violation pb u l = 0)
    (hb : backtrack debug minmax pb.bounds uo u = some v) : ∃ c, 0 ≤ c ∧ c < 1 ∧ (∀ l, violation pb v l = c * violation pb uo l) ∧ ((∀ w : MVec K nx np (ny + nz), InBounds pb.bounds w) → c = 0) := by
  cases minmax with
  | true =>
    obtain ⟨v', h1, -, -, h2, h3⟩ := backtrack_minmax debug h u
    rw [hb] at h1
    cases h1
    refine ⟨0, le_rfl, zero_lt_one, fun l => ?_, fun _ => rfl⟩
    rw [zero_mul, ← hv l, ← hu.clamp u l]
    unfold violation
    simp only [h2, h3]
    rfl
  | false =>
    obtain ⟨v', β, h1, h2, h3, h4, h5⟩ := backtrack_violation debug h hv
    rw [hb] at h1
    cases h1
    by_cases hfree : ∀ w : MVec K nx np (ny + nz), InBounds pb.bounds w
    · rw [backtrack_accepts debug false h (hfree u)] at hb
      cases hb
      exact ⟨0, le_rfl, zero_lt_one, fun l => by rw [hv l, zero_mul], fun _ => rfl⟩
    · refine ⟨1 - β, by linarith, by linarith, fun l => ?_, fun hf => absurd hf hfree⟩
      rw [h5 l]
      have e1 : ∑ j, (if Leaves (pb.xlower j) (pb.xupper j) (uo.x j) (u.x j) then pb.Ax l j * (uo.x j - u.x j) else 0) = 0 := by
        refine Finset.sum_eq_zero fun j _ => ?_
        by_cases h0 : pb.Ax l j = 0
        · simp [h0]
        · obtain ⟨k1, k2⟩ := hu.x l j h0
          simp [Leaves, k1, k2]
      have e2 : ∑ q, (if Leaves (pb.plower q) (pb.pupper q) (uo.p q) (u.p q) then pb.Ap l q * (uo.p q - u.p q) else 0) = 0 := by
        refine Finset.sum_eq_zero fun j _ => ?_
        by_cases h0 : pb.Ap l j = 0
        · simp [h0]
        · obtain ⟨k1, k2⟩ := hu.p l j h0
          simp [Leaves, k1, k2]
      rw [e1, e2]; ring

/-- Later points violate a linear constraint less than earlier ones, and not at all once it holds. -/
def Improves (pb : MProblem K nx np ny nz) (v u : MVec K nx np (ny + nz)) : Prop := ∀ l, |violation pb v l| ≤ |violation pb u l| ∧ (violation pb u l ≠ 0 → |violation pb v l| < |violation pb u l|)

theorem Improves.of_factor {pb : MProblem K nx np ny nz} {v u : MVec K nx np (ny + nz)} {c : K} (h0 : 0 ≤ c) (h1 : c < 1) (h : ∀ l, violation pb v l = c * violation pb u l) : Improves pb v u := by
  intro l
  rw [h l, abs_mul, abs_of_nonneg h0]
  refine ⟨mul_le_of_le_one_left (abs_nonneg _) h1.le, fun hne => ?_⟩
  exact mul_lt_of_lt_one_left (abs_pos.2 hne) h1

theorem Improves.trans {pb : MProblem K nx np ny nz} {w v u : MVec K nx np (ny + nz)} (h : Improves pb w v) (h' : Improves pb v u) : Improves pb w u :=
  fun l => ⟨(h l).1.trans (h' l).1, fun hne => lt_of_le_of_lt (h l).1 ((h' l).2 hne)⟩

/-- **C74, part**: in exact arithmetic, for regular systems and if no variable in the linear constraints has bounds: of all the points at which a solve evaluates the user functions, later ones violate every linear constraint less than earlier
    ones, strictly so unless it holds already; hence a constraint that holds at one point holds at all later ones.  If there are no bounds at all, the linear constraints hold at every point but the first.
    For every objective, non-linear constraint and convergence check, solves that succeed and solves that fail, and both step modes. -/
theorem solve_linear_partial (hthr : 0 ≤ cfg.env.thr) (heps : cfg.env.eps = 0) (hnx : 0 < nx) (hphi : cfg.phi = none) (hlu : LUInners cfg) (hm : cfg.method ≠ .rangespace) (hreg : Regular cfg)
    (hu : UnboundedInRows cfg.pb) (hB : ConsistentBounds cfg.pb.bounds) (check) (o : SolveOptions K) (user : τ) (mem errors ax du) (history : History K) (u : MVec K nx np (ny + nz)) (t)
    (ht : Solve (cfg.machine check) o cfg.pb.bounds (cfg.start user mem errors ax du) history u (some t)) :
    t.trace.Pairwise (Improves cfg.pb) ∧ t.trace.head? = some t.u ∧ t.trace.getLast? = some (clampVec cfg.pb.bounds u) ∧ t.trace.length = t.iterations + 1 ∧
      Improves cfg.pb t.u (clampVec cfg.pb.bounds u) ∧ ((∀ w : MVec K nx np (ny + nz), InBounds cfg.pb.bounds w) → (∀ v ∈ t.trace.dropLast, ∀ l, violation cfg.pb v l = 0) ∧ ∀ l, violation cfg.pb t.u l = 0) := by
  have hinv := machine_inv hthr heps.ge hnx (cfg := cfg) check
  let Inv : SolveState (Parts K nx np ny nz τ cfg.pb.Ax) K nx np (ny + nz) → Prop := fun s =>
    s.trace.Pairwise (Improves cfg.pb) ∧ s.trace.head? = some s.u ∧ s.trace.getLast? = some (clampVec cfg.pb.bounds u) ∧ s.trace.length = s.iterations + 1 ∧
      ((∀ w : MVec K nx np (ny + nz), InBounds cfg.pb.bounds w) → ∀ v ∈ s.trace.dropLast, ∀ l, violation cfg.pb v l = 0)
  have hstep : ∀ s s1, Reach cfg s.mach → EvaluatedAt cfg s.mach s.u → InBounds cfg.pb.bounds s.u → s.uo = s.u → Inv s → step (cfg.machine check) o cfg.pb.bounds s = some s1 →
      Reach cfg s1.mach ∧ EvaluatedAt cfg s1.mach s1.u ∧ InBounds cfg.pb.bounds s1.u ∧ Inv s1 ∧ 0 < s1.iterations := by
    rintro s s1 h1 h2 hin h3 ⟨i1, i2, i3, i4, i5⟩ h5
    unfold step at h5
    dsimp only at h5
    split at h5
    · cases h5
    · rename_i tm un hn
      change cfg.newton s.mach s.uo = some (tm, un) at hn
      rw [h3] at hn
      rw [transform_no_phi (by change Option.map _ cfg.phi = none; rw [hphi]; rfl)] at h5
      dsimp only at h5
      unfold errorControl at h5
      dsimp only at h5
      split at h5
      · cases h5
      · rename_i s2 h6
        split at h6
        · cases h6
        · rename_i v hb
          cases h6
          rw [h3] at hb
          obtain ⟨e1, e2, e3, e4, e5, e6⟩ := evalAt_u h5
          obtain ⟨f1, f2⟩ := evalAt_inv hinv (by exact hinv.newton _ _ _ _ h1 hn) h5
          obtain ⟨c, c0, c1, c2, c3⟩ := backtrack_shrinks o.debug o.minmax hu hin (hreg.newton heps hlu hm h2 hn) hb
          have himp : Improves cfg.pb v s.u := Improves.of_factor c0 c1 c2
          obtain ⟨rest, htr⟩ : ∃ rest, s.trace = s.u :: rest := by
            cases hs : s.trace with
            | nil => rw [hs] at i2; cases i2
            | cons a rest =>
              rw [hs] at i2
              cases i2
              exact ⟨rest, rfl⟩
          change s1.trace = v :: s.trace at e5
          change s1.u = v at e1
          change s1.iterations = s.iterations + 1 at e3
          refine ⟨f1, f2, ?_, ⟨?_, ?_, ?_, ?_, ?_⟩, by omega⟩
          · rw [e1]
            have := backtrack_inBounds o.debug o.minmax hin un
            obtain ⟨v', hv', hin'⟩ := this
            rw [hb] at hv'
            cases hv'
            exact hin'
          · rw [e5, List.pairwise_cons]
            refine ⟨fun w hw => ?_, i1⟩
            rw [htr] at hw i1
            rcases List.mem_cons.1 hw with rfl | hw
            · exact himp
            · exact himp.trans ((List.pairwise_cons.1 i1).1 w hw)
          · rw [e5, e1]; rfl
          · rw [e5, htr, List.getLast?_cons_cons, ← htr, i3]
          · rw [e5, e3, List.length_cons, i4]
          · intro hfree w hw l
            rw [e5, htr, List.dropLast_cons₂, ← htr] at hw
            rcases List.mem_cons.1 hw with rfl | hw
            · rw [c2 l, c3 hfree, zero_mul]
            · exact i5 hfree w hw l
  have hstepping : ∀ s s1 b, Reach cfg s.mach → EvaluatedAt cfg s.mach s.u → Inv s → stepping (cfg.machine check) o s = some (s1, b) → Reach cfg s1.mach ∧ EvaluatedAt cfg s1.mach s1.u ∧ s1.u = s.u ∧ Inv s1 ∧ s1.iterations = s.iterations ∧ (b = true → s1.uo = s1.u) := by
    intro s s1 b h1 h2 h3 h4
    have h5 := stepping_inv hinv ⟨h1, h2⟩ h4
    obtain ⟨b1, b2, -, b4, -, b6, b7⟩ := stepping_spec h4
    have htr : s1.trace = s.trace := by
      unfold stepping at h4
      dsimp only at h4
      split_ifs at h4
      · cases h4; rfl
      · split at h4
        · cases h4; rfl
        · split at h4
          · cases h4; rfl
          · split at h4
            · cases h4
            · cases h4; rfl
    refine ⟨h5.1, h5.2, b1, ?_, b2, fun e => ?_⟩
    · change _ ∧ _ ∧ _ ∧ _ ∧ _
      rw [htr, b1, b2]
      exact h3
    · by_cases hle : s.iterations ≤ o.maxiters
      · exact (b7 hle).1.trans b1.symm
      · have := (b6 (not_le.1 hle)).1
        rw [e] at this; cases this
  have hloop : ∀ s r, Loop (cfg.machine check) o cfg.pb.bounds s r → ∀ t, r = some t → Reach cfg s.mach → EvaluatedAt cfg s.mach s.u → InBounds cfg.pb.bounds s.u → s.uo = s.u → Inv s → Inv t ∧ 0 < t.iterations := by
    intro s r h
    induction h with
    | stepFails s h => intro t e; cases e
    | checkFails s s1 h h' => intro t e; cases e
    | stop s s1 s2 h h' =>
      rintro t ⟨⟩ h1 h2 h3 h4 h5
      obtain ⟨a1, a2, a3, a4, a5⟩ := hstep s s1 h1 h2 h3 h4 h5 h
      obtain ⟨b1, b2, b3, b4, b5, -⟩ := hstepping _ _ _ a1 a2 a4 h'
      exact ⟨b4, by omega⟩
    | again s s1 s2 r h h' _ ih =>
      intro t e h1 h2 h3 h4 h5
      obtain ⟨a1, a2, a3, a4, a5⟩ := hstep s s1 h1 h2 h3 h4 h5 h
      obtain ⟨b1, b2, b3, b4, b5, b6⟩ := hstepping _ _ _ a1 a2 a4 h'
      exact ih t e b1 b2 (by rw [b3]; exact a3) (b6 rfl) b4
  cases ht with
  | run s r es hl =>
    obtain ⟨su, suo, sit, -, -⟩ := solveInit_spec es
    obtain ⟨q0, p0⟩ := evalAt_inv hinv (s := { mach := cfg.start user mem errors ax du, u := clampVec cfg.pb.bounds u, uo := clampVec cfg.pb.bounds u, iterations := 0, history := history.init, trace := [] })
        (start_reach cfg user mem errors ax du) es
    have htr : s.trace = [clampVec cfg.pb.bounds u] := (evalAt_u es).2.2.2.2.1
    obtain ⟨⟨i1, i2, i3, i4, i5⟩, hit⟩ := hloop s _ hl t rfl q0 p0 (by rw [su]; exact clampVec_inBounds hB u) (suo.trans su.symm)
      ⟨by rw [htr]; exact List.pairwise_singleton _ _, by rw [htr, su]; rfl, by rw [htr]; rfl, by rw [htr, sit]; rfl, by rw [htr]; intro _ v hv; cases hv⟩
    have hmem : t.u ∈ t.trace.dropLast ∧ Improves cfg.pb t.u (clampVec cfg.pb.bounds u) := by
      cases hs : t.trace with
      | nil => rw [hs] at i2; cases i2
      | cons a rest =>
        rw [hs] at i1 i2 i3
        cases i2
        cases rest with
        | nil => rw [hs] at i4; simp at i4; omega
        | cons b rest =>
          rw [List.dropLast_cons₂]
          rw [List.getLast?_cons_cons] at i3
          exact ⟨List.mem_cons_self, (List.pairwise_cons.1 i1).1 _ (List.mem_of_getLast? i3)⟩
    exact ⟨i1, i2, i3, i4, hmem.2, fun hfree => ⟨i5 hfree, fun l => i5 hfree t.u hmem.1 l⟩⟩

/-- Strictly convex objectives (in the sense of the second derivatives the user code returns) with independent constraints, or without non-linear constraints and with linear constraints that have a solution. -/
theorem regular_of_convex {cfg : Config K nx 0 ny nz τ} (heps : cfg.env.eps = 0) (ho : ∀ M, (cfg.env.o M).lu.Z = 0)
    (hconv : ∀ t x p q t' ev, cfg.user t x p q = some (t', ev) → ∀ d : Fin nx → K, d ≠ 0 → 0 < ∑ i, d i * ∑ j, ev.fxx i j * d j)
    (hrows : (nz = 0 ∧ ∃ x : Fin nx → K, ∀ l, ∑ j, cfg.pb.Ax l j * x j = cfg.pb.b l) ∨
      ∀ t x p q t' ev, cfg.user t x p q = some (t', ev) → ∀ (y : Fin ny → K) (z : Fin nz → K), (∀ i, ∑ l, cfg.pb.Ax l i * y l + ∑ l, ev.hx l i * z l = 0) → y = 0 ∧ z = 0) : Regular cfg := by
  have hspan : ∀ s u rf, EvaluatedAt cfg s u → s.rf = some rf → RowsSpanned rf.M := by
    rintro s u rf ⟨ev, rf', ew0, h1, h2, h3, t0, t1, q, h4⟩ hrf
    rw [h1] at hrf
    cases hrf
    exact rf_rowsSpanned ho h2 fun q => q.elim0
  refine ⟨hspan, ?_, ?_⟩
  · rintro s u rf ⟨ev, rf', ew0, h1, h2, h3, t0, t1, q, h4⟩ hrf
    rw [h1] at hrf
    cases hrf
    rcases hrows with ⟨rfl, x, hx⟩ | hind
    · obtain ⟨ax0, hres⟩ := h2.res
      obtain ⟨m1, m2, m3, m4, m5, m6⟩ := residual_master cfg.env.eps h2.canon ax0 (rfArgs cfg.pb rf.M ev u)
      rw [← hres] at m4
      refine ⟨fun j => x j - u.x j, fun q => q.elim0, fun l => ?_⟩
      rw [m4]
      obtain ⟨l', rfl⟩ : ∃ l' : Fin ny, Fin.castAdd 0 l' = l := ⟨l, rfl⟩
      simp only [feasRes, Fin.addCases_left]
      change cfg.pb.b l' - ∑ j, rf.M.Wx (Fin.castAdd 0 l') j * u.x j - _ = _
      rw [h2.Wx]
      simp only [stack, Fin.addCases_left, Finset.univ_eq_empty, Finset.sum_empty, mul_sub, Finset.sum_sub_distrib, hx]
      ring
    · refine (full_row_rank (rf_echelon heps h2) (rf_full_rank ho h2 fun y hy => ?_)).2 _
      obtain ⟨a1, a2⟩ := hind _ _ _ _ _ _ h4 (fun l => y (Fin.castAdd nz l)) (fun l => y (Fin.natAdd ny l)) (fun i => by
        have e := hy i
        rw [h2.Wx, Fin.sum_univ_add] at e
        simpa only [stack, Fin.addCases_left, Fin.addCases_right] using e)
      funext l
      refine Fin.addCases (fun l => ?_) (fun l => ?_) l
      · exact congrFun a1 l
      · exact congrFun a2 l
  · rintro s u rf ⟨ev, rf', ew0, h1, h2, h3, t0, t1, q, h4⟩ hrf d hd
    rw [h1] at hrf
    cases hrf
    refine ⟨?_, funext fun q => q.elim0⟩
    by_contra hne
    have hz : ∀ i, i ∈ rf.M.ju → d.x i = 0 := fun i hi => hd.unstable i hi
    have drop : ∀ f : Fin nx → K, ∑ j, (if j ∈ rf.M.ju then 0 else f j * d.x j) = ∑ j, f j * d.x j := fun f => Finset.sum_congr rfl fun j _ => by
      by_cases hj : j ∈ rf.M.ju
      · simp [hj, hz j hj]
      · simp [hj]
    have hcon : ∀ l, ∑ j, rf.M.Wx l j * d.x j = 0 := fun l => by
      have e := hd.constr l
      rw [drop] at e
      simpa using e
    have hst : ∀ i, d.x i * ∑ j, ev.fxx i j * d.x j + ∑ l, (rf.M.Wx l i * d.x i) * d.w l = 0 := by
      intro i
      by_cases hi : i ∈ rf.M.ju
      · simp [hz i hi]
      · have e := hd.stable i hi
        rw [drop, h2.Hxx] at e
        simp only [Finset.univ_eq_empty, Finset.sum_empty, add_zero, Pi.zero_apply] at e
        have e2 : ∑ l, (rf.M.Wx l i * d.x i) * d.w l = d.x i * ∑ l, rf.M.Wx l i * d.w l := by
          rw [Finset.mul_sum]
          exact Finset.sum_congr rfl fun l _ => by ring
        rw [e2, ← mul_add, e, mul_zero]
    have hsum : ∑ i, d.x i * ∑ j, ev.fxx i j * d.x j = 0 := by
      have e := Finset.sum_congr (rfl : (Finset.univ : Finset (Fin nx)) = Finset.univ) fun i _ => hst i
      rw [Finset.sum_add_distrib, Finset.sum_comm (f := fun i l => rf.M.Wx l i * d.x i * d.w l)] at e
      simp only [← Finset.sum_mul, hcon, zero_mul, Finset.sum_const_zero, add_zero] at e
      exact e
    exact absurd hsum (ne_of_gt (hconv _ _ _ _ _ _ h4 d.x hne))

end solve

/-! ## A feasible start that is left -/

/-- `min (x0 + 3)²/2 + x1²/2` subject to `x0 + x1 = 1` and `x ≥ 0`. -/
def corner (K : Type*) [Field K] : MProblem K 2 0 1 0 where
  Ax := fun _ _ => 1
  Ap := 0
  b := fun _ => 1
  xlower := fun _ => some 0
  xupper := fun _ => none
  plower := fun _ => none
  pupper := fun _ => none

/-- The first and second derivatives of the objective. -/
structure CornerReturns (x : Fin 2 → K) (ev : Evals K 2 0 0) : Prop where
  fx : ev.fx = ![x 0 + 3, x 1]
  fxx : ev.fxx = 1

/-- The start: the minimiser, with a multiplier that is off. -/
def cornerStart (K : Type*) [Field K] : MVec K 2 0 (1 + 0) := ⟨![0, 1], 0, fun _ => -4⟩

/-- The start satisfies the constraints and minimises the objective. -/
theorem cornerStart_minimum : InBounds (corner K).bounds (cornerStart K) ∧ (∀ l, violation (corner K) (cornerStart K) l = 0) ∧
    ∀ x : Fin 2 → K, 0 ≤ x 0 → 0 ≤ x 1 → x 0 + x 1 = 1 → (0 + 3) ^ 2 / 2 + (1 : K) ^ 2 / 2 ≤ (x 0 + 3) ^ 2 / 2 + x 1 ^ 2 / 2 := by
  refine ⟨⟨fun i => ⟨fun l e => ?_, fun h e => by cases e⟩, fun i => i.elim0⟩, fun l => ?_, fun x h0 h1 h => ?_⟩
  · cases e
    fin_cases i <;> simp [cornerStart]
  · simp [violation, corner, cornerStart, Fin.sum_univ_two]
  · have : x 1 = 1 - x 0 := by linarith
    rw [this]
    nlinarith [sq_nonneg (x 0)]

section corner

variable {env : Env K} {ev : Evals K 2 0 0} {u un du : MVec K 2 0 (1 + 0)} {rf : RFState K 2 0 1 0 (corner K).Ax}

theorem corner_Wx (h : RFSpec env (corner K) ev u rf) (l j) : rf.M.Wx l j = 1 := by
  rw [h.Wx]
  have : l = Fin.castAdd 0 0 := Subsingleton.elim (α := Fin 1) _ _
  rw [this]
  simp only [stack, Fin.addCases_left, corner]

/-- At the start no variable is held at its bound. -/
theorem corner_ju (h : RFSpec env (corner K) ev (cornerStart K) rf) (hev : CornerReturns (cornerStart K).x ev) : rf.M.ju = [] := by
  refine List.eq_nil_iff_forall_not_mem.2 fun i hi => ?_
  rcases (h.unstable i hi).2 with ⟨-, h2⟩ | ⟨h1, -⟩
  · rw [h.mult, hev.fx] at h2
    dsimp only at h2
    simp only [corner_Wx h, one_mul] at h2
    have e : ∑ l : Fin (1 + 0), (cornerStart K).w l = -4 := (Fin.sum_univ_one (M := K) _).trans rfl
    rw [e] at h2
    fin_cases i
    · norm_num [cornerStart] at h2
    · norm_num [cornerStart] at h2
  · cases h1

theorem corner_step (h : RFSpec env (corner K) ev (cornerStart K) rf) (hev : CornerReturns (cornerStart K).x ev) (hdu : SolvesMaster rf.M rf.res.master du) (hx : ∀ i, un.x i = (cornerStart K).x i + du.x i) :
    un.x 0 = -1 ∧ un.x 1 = 2 := by
  obtain ⟨ax0, hres⟩ := h.res
  obtain ⟨m1, m2, m3, m4, m5, m6⟩ := residual_master env.eps h.canon ax0 (rfArgs (corner K) rf.M ev (cornerStart K))
  rw [← hres] at m1
  have hju := corner_ju h hev
  have hnot : ∀ i, i ∉ rf.M.ju := by rw [hju]; simp
  have key : ∀ i, du.x i + du.w 0 = - (ev.fx i + -4) := by
    intro i
    have e := hdu.stable i (hnot i)
    rw [m1 i (hnot i)] at e
    simp only [hnot, if_false, lagGrad, rfArgs, corner_Wx h, one_mul, h.Hxx, hev.fxx, one_apply, ite_mul, zero_mul, Finset.sum_ite_eq, Finset.mem_univ, if_true, Finset.univ_eq_empty, Finset.sum_empty, add_zero] at e
    have e1 : ∑ l : Fin 1, (cornerStart K).w (Fin.castAdd 0 l) = -4 := (Fin.sum_univ_one (M := K) _).trans rfl
    have e2 : ∑ l : Fin (1 + 0), du.w l = du.w 0 := (Fin.sum_univ_one (M := K) _).trans rfl
    rw [e1, e2] at e
    exact e
  have k0 := key 0
  have k1 := key 1
  rw [hev.fx] at k0 k1
  have hv := newton_violation h hdu hx (fun q => q.elim0) (u := ⟨un.x, fun q => q.elim0, 0⟩) 0
  simp only [violation, corner, one_mul, Fin.sum_univ_two, Finset.univ_eq_empty, Finset.sum_empty, add_zero] at hv
  have hx0 := hx 0
  have hx1 := hx 1
  simp only [cornerStart, Matrix.cons_val_zero, Matrix.cons_val_one] at k0 k1 hx0 hx1
  constructor <;> linarith

/-- The variable on its bound is projected back, the other one takes the whole step. -/
theorem corner_backtrack {v : MVec K 2 0 (1 + 0)} (debug minmax : Bool) (h0 : un.x 0 = -1) (h1 : un.x 1 = 2) (hb : backtrack debug minmax (corner K).bounds (cornerStart K) un = some v) : v.x = ![0, 2] := by
  have hin := (cornerStart_minimum (K := K)).1
  have hv : ∀ i, v.x i = clamp ((corner K).xlower i) ((corner K).xupper i) (un.x i) := by
    cases minmax with
    | true =>
      obtain ⟨v', e1, -, -, e2, -⟩ := backtrack_minmax debug hin un
      rw [hb] at e1; cases e1
      exact e2
    | false =>
      obtain ⟨v', β, e1, e2, -, -, e3, -⟩ := backtrack_spec debug hin un
      rw [hb] at e1; cases e1
      have hβ : β = 1 := by
        rcases e2.tight with h | ⟨i, h, k, -⟩ | ⟨i, l, k1, k2, k3⟩ | ⟨i, -⟩ | ⟨i, -⟩
        · exact h
        · cases k
        · exfalso
          cases k1
          have := e2.pos
          fin_cases i
          · simp only [Fin.zero_eta, h0, cornerStart, blend, Matrix.cons_val_zero] at k3
            linarith
          · simp only [Fin.mk_one, h1] at k2
            linarith
        · exact i.elim0
        · exact i.elim0
      intro i
      rw [e3 i, hβ]
      unfold blend
      rw [sub_self, mul_zero, zero_add, one_mul]
      rfl
  funext i
  rw [hv i]
  fin_cases i
  · simp [corner, clamp, h0]
  · simp [corner, clamp, h1]

end corner

/-- The points evaluated before are kept in the trace. -/
theorem step_trace_cons {σ : Type*} {nw : ℕ} {m : Machine σ K nx np nw} (hphi : m.phi = none) {o : SolveOptions K} {B : Bounds K nx np} {s s1 : SolveState σ K nx np nw} (h : step m o B s = some s1) : s1.trace = s1.u :: s.trace := by
  unfold step at h
  dsimp only at h
  split at h
  · cases h
  · rw [transform_no_phi hphi] at h
    dsimp only at h
    unfold errorControl at h
    dsimp only at h
    split at h
    · cases h
    · rename_i s2 h6
      split at h6
      · cases h6
      · cases h6
        obtain ⟨e1, -, -, -, e5, -⟩ := evalAt_u h
        rw [e5, e1]

theorem stepping_trace {σ : Type*} {nw : ℕ} {m : Machine σ K nx np nw} {o : SolveOptions K} {s s1 : SolveState σ K nx np nw} {b} (h4 : stepping m o s = some (s1, b)) : s1.trace = s.trace := by
  unfold stepping at h4
  dsimp only at h4
  split_ifs at h4
  · cases h4; rfl
  · split at h4
    · cases h4; rfl
    · split at h4
      · cases h4; rfl
      · split at h4
        · cases h4
        · cases h4; rfl

theorem loop_trace_subset {σ : Type*} {nw : ℕ} {m : Machine σ K nx np nw} (hphi : m.phi = none) {o : SolveOptions K} {B : Bounds K nx np} {s : SolveState σ K nx np nw} {r} (h : Loop m o B s r) : ∀ t, r = some t → s.trace ⊆ t.trace := by
  induction h with
  | stepFails s h => intro t e; cases e
  | checkFails s s1 h h' => intro t e; cases e
  | stop s s1 s2 h h' =>
    rintro t ⟨⟩
    rw [stepping_trace h', step_trace_cons hphi h]
    exact List.subset_cons_self _ _
  | again s s1 s2 r h h' _ ih =>
    intro t e
    refine List.Subset.trans ?_ (ih t e)
    rw [stepping_trace h', step_trace_cons hphi h]
    exact List.subset_cons_self _ _

/-- **C74, negation**: linear constraints that hold at an iterate need not hold at the next one.  The problem `min (x0 + 3)²/2 + x1²/2` subject to `x0 + x1 = 1`, `x ≥ 0`, started at its minimiser `(0, 1)` (where constraint and bounds hold)
    with the multiplier `-4`: the first iteration moves to `(0, 2)`, where the user functions are evaluated, and a solve whose iterations are used up by then returns that point.  Exact arithmetic, full-space or null-space method,
    both step modes, every history of the solver. -/
theorem feasibility_lost {cfg : Config K 2 0 1 0 τ} (hpb : cfg.pb = corner K) (hthr : 0 ≤ cfg.env.thr) (heps : cfg.env.eps = 0) (hd : cfg.env.debug = false) (ho : ∀ M, (cfg.env.o M).lu.Z = 0) (hphi : cfg.phi = none)
    (hlu : LUInners cfg) (hm : cfg.method ≠ .rangespace) (huser : ∀ t x p q, ∃ t' ev, cfg.user t x p q = some (t', ev) ∧ CornerReturns x ev)
    (o : SolveOptions K) (user : τ) (mem errors ax du) (history : History K) :
    ∃ t, (∀ r, Solve (cfg.machine none) o cfg.pb.bounds (cfg.start user mem errors ax du) history (cornerStart K) r ↔ r = some t) ∧
      (∃ v ∈ t.trace, v.x = ![0, 2] ∧ violation cfg.pb v 0 = 1) ∧ (o.maxiters = 0 → t.u.x = ![0, 2] ∧ (solveResult o t).succeeded = false) := by
  obtain ⟨hin, hfeas, -⟩ := cornerStart_minimum (K := K)
  have hB : ConsistentBounds cfg.pb.bounds := by rw [hpb]; exact inBounds_consistent hin
  have hinv := machine_inv hthr heps.ge (by norm_num) (cfg := cfg) none
  have hreg : Regular cfg := by
    refine regular_of_convex heps ho ?_ (Or.inl ⟨rfl, ![0, 1], fun l => by rw [hpb]; simp [corner, Fin.sum_univ_two]⟩)
    intro t x p q t' ev e d hd0
    obtain ⟨t1, ev1, e1, hr⟩ := huser t x p q
    rw [e] at e1; cases e1
    rw [hr.fxx]
    simp only [one_apply, ite_mul, one_mul, zero_mul, Finset.sum_ite_eq, Finset.mem_univ, if_true, Fin.sum_univ_two]
    have : d 0 ≠ 0 ∨ d 1 ≠ 0 := by
      by_contra hc
      push Not at hc
      refine hd0 (funext fun i => ?_)
      fin_cases i
      · exact hc.1
      · exact hc.2
    rcases this with h | h
    · nlinarith [mul_self_pos.2 h, mul_self_nonneg (d 1)]
    · nlinarith [mul_self_pos.2 h, mul_self_nonneg (d 0)]
  have hphi' : (cfg.machine none).phi = none := by change Option.map _ cfg.phi = none; rw [hphi]; rfl
  obtain ⟨t, ht⟩ := solve_returns hthr heps.ge hd (by norm_num) none (noPhi hphi) (fun t x p q => let ⟨t', ev, e, _⟩ := huser t x p q; ⟨_, e⟩) (fun f hf => by cases hf) o hB user mem errors ax du history (cornerStart K)
  have huq : ∀ r, Solve (cfg.machine none) o cfg.pb.bounds (cfg.start user mem errors ax du) history (cornerStart K) r ↔ r = some t := by
    intro r
    obtain ⟨⟨r0, h0, h1⟩, -⟩ := solve_budget (cfg.machine none) o cfg.pb.bounds (cfg.start user mem errors ax du) history (cornerStart K)
    constructor
    · intro hr; rw [h1 r hr, h1 _ ht]
    · rintro rfl; exact ht
  refine ⟨t, huq, ?_⟩
  have hclamp : clampVec cfg.pb.bounds (cornerStart K) = cornerStart K := by rw [hpb]; exact clampVec_of_inBounds hin
  cases ht with
  | run s r es hl =>
    obtain ⟨su, suo, sit, -, -⟩ := solveInit_spec es
    obtain ⟨q0, p0⟩ := evalAt_inv hinv (s := { mach := cfg.start user mem errors ax du, u := clampVec cfg.pb.bounds (cornerStart K), uo := clampVec cfg.pb.bounds (cornerStart K), iterations := 0, history := history.init, trace := [] })
        (start_reach cfg user mem errors ax du) es
    rw [hclamp] at su suo
    rw [su] at p0
    have hstep : ∀ s1, step (cfg.machine none) o cfg.pb.bounds s = some s1 → s1.u.x = ![0, 2] ∧ s1.iterations = 1 ∧ s1.u ∈ s1.trace := by
      intro s1 h1
      refine ⟨?_, by rw [(step_frame h1).2.1, sit], by rw [step_trace_cons hphi' h1]; exact List.mem_cons_self⟩
      unfold step at h1
      dsimp only at h1
      split at h1
      · cases h1
      · rename_i tm un hn
        change cfg.newton s.mach s.uo = some (tm, un) at hn
        rw [suo] at hn
        rw [transform_no_phi hphi'] at h1
        dsimp only at h1
        unfold errorControl at h1
        dsimp only at h1
        split at h1
        · cases h1
        · rename_i s2 h6
          split at h6
          · cases h6
          · rename_i v hb
            cases h6
            rw [suo, hpb] at hb
            obtain ⟨e1, -⟩ := evalAt_u h1
            rw [e1]
            change v.x = _
            have p0' := p0
            obtain ⟨ev, rf, ew0, k1, k2, k3, t0, t1, q, k4⟩ := p0
            have hR := hreg.spanned _ _ _ p0' k1
            obtain ⟨dn, hdn, hx, hp, -⟩ := newton_solves heps k1 k2 hR (hreg.consistent _ _ _ p0' k1) (luInners_ok_dep hlu hm k2.canon (rf_echelon heps k2) hR (hreg.injective _ _ _ p0' k1) _) (fun e => absurd e hm) hn
            obtain ⟨t', ev', e, hr⟩ := huser t0 (cornerStart K).x (cornerStart K).p q
            rw [k4] at e; cases e
            have : un.x 0 = -1 ∧ un.x 1 = 2 := by
              clear hl es huq h1 hb e1 hn k1 k4 hreg hinv
              obtain ⟨env, pb, method, inners, cuser, userJac, phi⟩ := cfg
              dsimp only at hpb
              subst hpb
              exact corner_step k2 hr hdn hx
            exact corner_backtrack o.debug o.minmax this.1 this.2 hb
    have hviol : ∀ v : MVec K 2 0 (1 + 0), v.x = ![0, 2] → violation cfg.pb v 0 = 1 := by
      intro v hv
      rw [hpb]
      simp only [violation, corner, hv, Fin.sum_univ_two]
      norm_num
    cases hl with
    | stop _ s1 _ h1 h2 =>
      obtain ⟨a1, a2, a3⟩ := hstep s1 h1
      obtain ⟨b1, b2, -⟩ := stepping_spec h2
      refine ⟨⟨s1.u, by rw [stepping_trace h2]; exact a3, a1, hviol _ a1⟩, fun hmax => ⟨by rw [b1]; exact a1, ?_⟩⟩
      change decide (t.iterations ≤ o.maxiters) = false
      rw [b2, a2, hmax]; rfl
    | again _ s1 s2 _ h1 h2 h3 =>
      obtain ⟨a1, a2, a3⟩ := hstep s1 h1
      obtain ⟨-, -, -, -, -, b6, -⟩ := stepping_spec h2
      refine ⟨⟨s1.u, loop_trace_subset hphi' h3 _ rfl (by rw [stepping_trace h2]; exact a3), a1, hviol _ a1⟩, fun hmax => ?_⟩
      have := (b6 (by rw [a2, hmax]; exact Nat.zero_lt_one)).1
      cases this

/-! ### Non-vacuity -/

/-- `x0 + x1 = 1`, `x2 ≥ 0` (or `x2` free). -/
def exRow (lower : Option ℝ) : MProblem ℝ 3 0 1 0 where
  Ax := fun _ => ![1, 1, 0]
  Ap := 0
  b := fun _ => 1
  xlower := ![none, none, lower]
  xupper := fun _ => none
  plower := fun _ => none
  pupper := fun _ => none

/-- Minimising `∑ (xi⁴/4 + xi²/2)` from `(5, 5, 1)`, where the constraint is violated by 9, with and without a lower bound for `x2`. -/
example (lower : Option ℝ) : ∃ (cfg : Config ℝ 3 0 1 0 Unit) (t : _), cfg.pb = exRow lower ∧
    Solve (cfg.machine none) exactOptions cfg.pb.bounds (cfg.start () 0 ⟨0, 0, 0, 0, 0, 0, 0, 0⟩ 0 ⟨0, 0, 0⟩) (History.init default) ⟨![5, 5, 1], 0, 0⟩ (some t) ∧
    t.trace.Pairwise (Improves cfg.pb) ∧ |violation cfg.pb t.u 0| < 9 ∧ (lower = none → violation cfg.pb t.u 0 = 0) := by
  obtain ⟨cfg, h1, h2, h3, h4, h5, h6, h7, h8, h9⟩ := exists_exact_config (exRow lower) fun x _ =>
    { f := ∑ i, (x i ^ 4 / 4 + x i ^ 2 / 2), fx := fun i => x i ^ 3 + x i, fxx := diagonal fun i => 3 * x i ^ 2 + 1, fxp := 0, diagfxx := true, h := 0, hx := 0, hp := 0, v := 0, vx := 0, vp := 0, succeeded := true }
  have hB : ConsistentBounds cfg.pb.bounds := by
    rw [h1]
    exact ⟨fun _ _ _ _ e => absurd e (by simp [exRow, MProblem.bounds]), fun i => i.elim0⟩
  have hreg : Regular cfg := by
    refine regular_of_convex h3 h5 ?_ (Or.inl ⟨rfl, ![1, 0, 0], fun l => by rw [h1]; simp [exRow, Fin.sum_univ_three]⟩)
    intro t x p q t' ev e d hd0
    rw [h9] at e
    cases e
    have hterm : ∀ i, d i * ∑ j, (diagonal fun i => 3 * x i ^ 2 + 1) i j * d j = (3 * x i ^ 2 + 1) * d i ^ 2 := by
      intro i
      simp only [diagonal_apply, ite_mul, zero_mul, Finset.sum_ite_eq, Finset.mem_univ, if_true]
      ring
    simp only [hterm]
    obtain ⟨i, hi⟩ : ∃ i, d i ≠ 0 := by
      by_contra hc
      push Not at hc
      exact hd0 (funext hc)
    exact Finset.sum_pos' (fun j _ => by positivity) ⟨i, Finset.mem_univ _, by positivity⟩
  have hu : UnboundedInRows cfg.pb := by
    rw [h1]
    refine ⟨fun l j hj => ?_, fun l q => q.elim0⟩
    fin_cases j
    · exact ⟨rfl, rfl⟩
    · exact ⟨rfl, rfl⟩
    · exact absurd rfl hj
  obtain ⟨t, ht⟩ := solve_returns h2 h3.ge h4 (by norm_num) none (noPhi h6) (fun t x p q => ⟨_, h9 t x p q⟩) (fun f hf => by cases hf) exactOptions hB () 0 ⟨0, 0, 0, 0, 0, 0, 0, 0⟩ 0 ⟨0, 0, 0⟩ (History.init default) ⟨![5, 5, 1], 0, 0⟩
  obtain ⟨a1, a2, a3, a4, a5, a6⟩ := solve_linear_partial h2 h3 (by norm_num) h6 h7 h8 hreg hu hB none exactOptions () 0 ⟨0, 0, 0, 0, 0, 0, 0, 0⟩ 0 ⟨0, 0, 0⟩ (History.init default) ⟨![5, 5, 1], 0, 0⟩ t ht
  have hstart : violation cfg.pb (clampVec cfg.pb.bounds (⟨![5, 5, 1], 0, 0⟩ : MVec ℝ 3 0 (1 + 0))) 0 = 9 := by
    rw [hu.clamp, h1]
    simp only [violation, exRow, Fin.sum_univ_three, Finset.univ_eq_empty, Finset.sum_empty]
    change (1 : ℝ) * 5 + 1 * 5 + 0 * 1 + 0 - 1 = 9
    norm_num
  refine ⟨cfg, t, h1, ht, a1, ?_, fun hl => ?_⟩
  · have := (a5 0).2
    rw [hstart] at this
    have := this (by norm_num)
    rwa [abs_of_pos (by norm_num : (0 : ℝ) < 9)] at this
  · have hfree : ∀ w : MVec ℝ 3 0 (1 + 0), InBounds cfg.pb.bounds w := by
      intro w
      rw [h1]
      refine ⟨fun i => ⟨fun l e => ?_, fun _ e => absurd e (by simp [exRow, MProblem.bounds])⟩, fun i => i.elim0⟩
      subst hl
      fin_cases i <;> cases e
    exact (a6 hfree).2 0

example : ∃ (cfg : Config ℝ 2 0 1 0 Unit) (t : _), cfg.pb = corner ℝ ∧ Solve (cfg.machine none) { exactOptions with maxiters := 0 } cfg.pb.bounds (cfg.start () 0 ⟨0, 0, 0, 0, 0, 0, 0, 0⟩ 0 ⟨0, 0, 0⟩) (History.init default) (cornerStart ℝ) (some t) ∧
    t.u.x = ![0, 2] := by
  obtain ⟨cfg, h1, h2, h3, h4, h5, h6, h7, h8, h9⟩ := exists_exact_config (corner ℝ) fun x _ =>
    { f := (x 0 + 3) ^ 2 / 2 + x 1 ^ 2 / 2, fx := ![x 0 + 3, x 1], fxx := 1, fxp := 0, diagfxx := true, h := 0, hx := 0, hp := 0, v := 0, vx := 0, vp := 0, succeeded := true }
  obtain ⟨t, a1, -, a3⟩ := feasibility_lost h1 h2 h3 h4 h5 h6 h7 h8 (fun t x p q => ⟨t, _, h9 t x p q, ⟨rfl, rfl⟩⟩) { exactOptions with maxiters := 0 } () 0 ⟨0, 0, 0, 0, 0, 0, 0, 0⟩ 0 ⟨0, 0, 0⟩ (History.init default)
  exact ⟨cfg, t, h1, (a1 _).2 rfl, (a3 rfl).1⟩

end Optima
