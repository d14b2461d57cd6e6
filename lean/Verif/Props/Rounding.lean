import Verif.Props.MasterSolver
import Verif.Lemmas.Float
import Mathlib.Tactic.FinCases

/-!
# C63: the variable that cuts a step, in exact and in rounded arithmetic

`BacktrackSearch` shortens the step so that the first variable to cross a bound ends on it.  The rest of the solver decides whether a variable is on a bound by comparing for equality.  In exact arithmetic the variable is on its bound; in
`double` arithmetic it may stay next to it, at each of all iterations, and the solve fails.
-/

set_option linter.unusedSectionVars false

namespace Optima

/-! ## Any numbers: the variable that cuts the step -/

section generic

variable {K : Type*} [Zero K] [One K] [Add K] [Sub K] [Mul K] [Div K] [LinearOrder K] {nx np nw : ℕ} {σ : Type*}

/-- The trial value `x` leaves the bounds through `b`, strictly from inside. -/
def Crosses (lower upper : Option K) (xo x b : K) : Prop := (upper = some b ∧ b < x ∧ xo < b) ∨ (lower = some b ∧ x < b ∧ b < xo)

theorem betaStep_cases (lower upper : Option K) (xo x β : K) :
    betaStep lower upper xo x β = β ∨ ∃ b, Crosses lower upper xo x b ∧ betaStep lower upper xo x β = (b - xo) / (x - xo) := by
  unfold betaStep Crosses
  split_ifs with h1 h2 h3
  · exact Or.inl rfl
  · rcases min_choice β (betaTo upper xo x) with e | e
    · exact Or.inl e
    · cases upper with
      | none => simp [above] at h2
      | some u =>
        simp only [above, ltUpper, Bool.and_eq_true, decide_eq_true_eq] at h2
        exact Or.inr ⟨u, Or.inl ⟨rfl, h2⟩, e⟩
  · rcases min_choice β (betaTo lower xo x) with e | e
    · exact Or.inl e
    · cases lower with
      | none => simp [below] at h3
      | some l =>
        simp only [below, gtLower, Bool.and_eq_true, decide_eq_true_eq] at h3
        exact Or.inr ⟨l, Or.inr ⟨rfl, h3⟩, e⟩
  · exact Or.inl rfl

/-- If the step is cut, the factor is the one of a variable that crosses a bound. -/
theorem betaMin_cases (B : Bounds K nx np) (uo u : MVec K nx np nw) :
    betaMin B uo u = 1 ∨ (∃ i b, Crosses (B.xlower i) (B.xupper i) (uo.x i) (u.x i) b ∧ betaMin B uo u = (b - uo.x i) / (u.x i - uo.x i)) ∨
      ∃ i b, Crosses (B.plower i) (B.pupper i) (uo.p i) (u.p i) b ∧ betaMin B uo u = (b - uo.p i) / (u.p i - uo.p i) := by
  unfold betaMin
  dsimp only
  refine foldl_finRange_inv (P := fun _ r => r = 1 ∨ (∃ i b, Crosses (B.xlower i) (B.xupper i) (uo.x i) (u.x i) b ∧ r = (b - uo.x i) / (u.x i - uo.x i)) ∨
      ∃ i b, Crosses (B.plower i) (B.pupper i) (uo.p i) (u.p i) b ∧ r = (b - uo.p i) / (u.p i - uo.p i)) ?_ ?_
  · refine foldl_finRange_inv (P := fun _ r => r = 1 ∨ (∃ i b, Crosses (B.xlower i) (B.xupper i) (uo.x i) (u.x i) b ∧ r = (b - uo.x i) / (u.x i - uo.x i)) ∨
      ∃ i b, Crosses (B.plower i) (B.pupper i) (uo.p i) (u.p i) b ∧ r = (b - uo.p i) / (u.p i - uo.p i)) (Or.inl rfl) ?_
    intro l r a h
    rcases betaStep_cases (B.xlower a) (B.xupper a) (uo.x a) (u.x a) r with e | ⟨b, hb, e⟩
    · rw [e]; exact h
    · exact Or.inr (Or.inl ⟨a, b, hb, e⟩)
  · intro l r a h
    rcases betaStep_cases (B.plower a) (B.pupper a) (uo.p a) (u.p a) r with e | ⟨b, hb, e⟩
    · rw [e]; exact h
    · exact Or.inr (Or.inr ⟨a, b, hb, e⟩)

/-- If the iterates keep a property that excludes small errors, the solve uses up its iterations and fails. -/
theorem machine_never {m : Machine σ K nx np nw} {o : SolveOptions K} {B : Bounds K nx np} (hphi : m.phi = none) (hcheck : m.check = none) (P Q : MVec K nx np nw → Prop)
    (hPQ : ∀ u, Q u → P u) (hnewton : ∀ s uo, P uo → ∃ t u v, m.newton s uo = some (t, u) ∧ backtrack o.debug o.minmax B uo u = some v ∧ Q v)
    (heval : ∀ s u, Q u → ∃ t, m.eval s u = some t ∧ o.tolerance ≤ m.error t) (mach : σ) (history : History K) (u : MVec K nx np nw) (hu : P (clampVec B u))
    (hu' : ∃ t, m.eval mach (clampVec B u) = some t) :
    ∃ t, (∀ r, Solve m o B mach history u r ↔ r = some t) ∧ (solveResult o t).succeeded = false ∧ (solveResult o t).iterations = o.maxiters + 1 ∧ Q t.u := by
  have hstep : ∀ s : SolveState σ K nx np nw, P s.uo → ∃ s1, step m o B s = some s1 ∧ s1.iterations = s.iterations + 1 ∧ Q s1.u ∧ o.tolerance ≤ m.error s1.mach := by
    intro s hs
    obtain ⟨t, un, v, h1, h2, h3⟩ := hnewton s.mach s.uo hs
    obtain ⟨t2, h4, h5⟩ := heval t v h3
    refine ⟨{ s with mach := t2, u := v, iterations := s.iterations + 1, trace := v :: s.trace }, ?_, rfl, h3, h5⟩
    unfold step
    dsimp only
    rw [h1]
    dsimp only
    unfold transform
    rw [hphi]
    dsimp only
    unfold errorControl
    dsimp only
    rw [h2]
    dsimp only
    unfold evalAt
    dsimp only
    rw [h4]
  have hloop : ∀ n (s : SolveState σ K nx np nw), P s.uo → s.iterations + n = o.maxiters → ∃ t, Loop m o B s (some t) ∧ t.iterations = o.maxiters + 1 ∧ Q t.u := by
    intro n
    induction n with
    | zero =>
      intro s hs hn
      obtain ⟨s1, h1, h2, h3, h4⟩ := hstep s hs
      refine ⟨{ s1 with history := s1.history.update (m.error s1.mach) }, .stop _ _ _ h1 ?_, by change s1.iterations = _; omega, h3⟩
      unfold stepping
      dsimp only
      rw [if_pos (by omega)]
    | succ n ih =>
      intro s hs hn
      obtain ⟨s1, h1, h2, h3, h4⟩ := hstep s hs
      have h5 : stepping m o s1 = some ({ s1 with history := s1.history.update (m.error s1.mach), uo := s1.u }, true) := by
        unfold stepping
        dsimp only
        rw [if_neg (by omega)]
        have : (History.update s1.history (m.error s1.mach)).converged o.tolerance = none := by simp [History.converged, History.update, not_lt.2 h4]
        rw [this, hcheck]
      obtain ⟨t, g1, g2, g3⟩ := ih { s1 with history := s1.history.update (m.error s1.mach), uo := s1.u } (hPQ _ h3) (by change s1.iterations + n = _; omega)
      exact ⟨t, .again _ _ _ _ h1 h5 g1, g2, g3⟩
  obtain ⟨t0, ht0⟩ := hu'
  have hinit : solveInit m B mach history u = some { mach := t0, u := clampVec B u, uo := clampVec B u, iterations := 0, history := history.init, trace := [clampVec B u] } := by
    unfold solveInit evalAt
    dsimp only
    rw [ht0]
  obtain ⟨t, h1, h2, h3⟩ := hloop o.maxiters { mach := t0, u := clampVec B u, uo := clampVec B u, iterations := 0, history := history.init, trace := [clampVec B u] } hu (by simp)
  have hsolve : Solve m o B mach history u (some t) := .run _ _ hinit h1
  refine ⟨t, fun r => ⟨fun hr => ?_, fun e => e ▸ hsolve⟩, ?_, h2, h3⟩
  · obtain ⟨⟨r0, -, h1⟩, -⟩ := solve_budget m o B mach history u
    rw [h1 r hr, h1 _ hsolve]
  · simp [solveResult, h2]

end generic

/-! ## Exact arithmetic -/

section exact

variable {K : Type*} [Field K] [LinearOrder K] [IsStrictOrderedRing K] {nx np nw : ℕ}

theorem blend_at {xo x b : K} (h : x ≠ xo) : blend ((b - xo) / (x - xo)) xo x = b := by
  have : x - xo ≠ 0 := sub_ne_zero.2 h
  unfold blend
  field_simp
  ring

theorem Crosses.ne {lower upper : Option K} {xo x b : K} (h : Crosses lower upper xo x b) : x ≠ xo := by
  rcases h with ⟨-, h1, h2⟩ | ⟨-, h1, h2⟩
  · exact (h2.trans h1).ne'
  · exact (h1.trans h2).ne

theorem Crosses.between {lower upper : Option K} {xo x b : K} (h : Crosses lower upper xo x b) (hb : Between lower upper xo) : Between lower upper b := by
  rcases h with ⟨rfl, h1, h2⟩ | ⟨rfl, h1, h2⟩
  · exact ⟨fun l e => (hb.1 l e).trans h2.le, fun u e => by cases e; exact le_rfl⟩
  · exact ⟨fun l e => by cases e; exact le_rfl, fun u e => h2.le.trans (hb.2 u e)⟩

/-- **C63, exact arithmetic only**: from every point within the bounds and for every trial point, if the step is cut (the factor is not `1`), some variable or parameter that crosses a bound is put on that bound exactly.
    Missing for the full statement: it is false in `double` arithmetic, see `backtrack_misses_bound`. -/
theorem backtrack_on_bound_partial (debug : Bool) {B : Bounds K nx np} {uo : MVec K nx np nw} (h : InBounds B uo) (u : MVec K nx np nw) (hcut : betaMin B uo u ≠ 1) :
    ∃ v, backtrack debug false B uo u = some v ∧
      ((∃ i b, Crosses (B.xlower i) (B.xupper i) (uo.x i) (u.x i) b ∧ v.x i = b) ∨ ∃ i b, Crosses (B.plower i) (B.pupper i) (uo.p i) (u.p i) b ∧ v.p i = b) := by
  refine ⟨clampVec B ⟨fun i => blend (betaMin B uo u) (uo.x i) (u.x i), fun i => blend (betaMin B uo u) (uo.p i) (u.p i), fun i => blend (betaMin B uo u) (uo.w i) (u.w i)⟩, ?_, ?_⟩
  · simp only [backtrack, (insideB_iff B uo).2 h, Bool.not_true, Bool.and_false, Bool.false_eq_true, if_false]
    rfl
  · rcases betaMin_cases B uo u with e | ⟨i, b, hb, e⟩ | ⟨i, b, hb, e⟩
    · exact absurd e hcut
    · refine Or.inl ⟨i, b, hb, ?_⟩
      change clamp _ _ (blend (betaMin B uo u) _ _) = b
      rw [e, blend_at hb.ne]
      exact clamp_of_between (hb.between (h.1 i))
    · refine Or.inr ⟨i, b, hb, ?_⟩
      change clamp _ _ (blend (betaMin B uo u) _ _) = b
      rw [e, blend_at hb.ne]
      exact clamp_of_between (hb.between (h.2 i))

end exact

/-! ## Rounded arithmetic -/

section rounded

variable {p nx np nw : ℕ} {σ : Type*}

/-- The distance to a number between the bounds does not grow. -/
theorem clamp_dist {lower upper : Option (FNum p)} {b : FNum p} (hb : Between lower upper b) (v : FNum p) : |(clamp lower upper v).val - b.val| ≤ |v.val - b.val| := by
  obtain ⟨h1, h2⟩ := hb
  have hmax : ∀ v l : FNum p, l ≤ b → |(max v l).val - b.val| ≤ |v.val - b.val| := by
    intro v l hl
    rcases le_total l v with h | h
    · rw [max_eq_left h]
    · rw [max_eq_right h]
      have e1 := (FNum.le_iff _ _).1 h
      have e2 := (FNum.le_iff _ _).1 hl
      rw [abs_of_nonpos (by linarith), abs_of_nonpos (by linarith)]
      linarith
  have hmin : ∀ v l : FNum p, b ≤ l → |(min v l).val - b.val| ≤ |v.val - b.val| := by
    intro v l hl
    rcases le_total v l with h | h
    · rw [min_eq_left h]
    · rw [min_eq_right h]
      have e1 := (FNum.le_iff _ _).1 h
      have e2 := (FNum.le_iff _ _).1 hl
      rw [abs_of_nonneg (by linarith), abs_of_nonneg (by linarith)]
      linarith
  unfold clamp
  cases lower with
  | none => cases upper with
    | none => exact le_rfl
    | some u => exact hmin _ _ (h2 u rfl)
  | some l => cases upper with
    | none => exact hmax _ _ (h1 l rfl)
    | some u => exact (hmin _ _ (h2 u rfl)).trans (hmax _ _ (h1 l rfl))

/-- The roundings of the sum. -/
theorem blend_sum {η xo x b t q c m1 m2 v S : ℚ} (hη0 : 0 ≤ η) (hη : η ≤ 1 / 16) (hS : S = |xo| + |x|) (ht0 : 0 ≤ t ∧ t ≤ 1) (hbt : b = xo * (1 - t) + t * x) (hqt : |q - t| ≤ 7 / 2 * η * t)
    (hq01 : |q| ≤ 5 / 4 * t) (hq1 : |1 - q| ≤ (1 - t) + 7 / 2 * η * t) (hc : |c - (1 - q)| ≤ η * |1 - q|) (hm1 : |m1 - xo * c| ≤ η * |xo * c|) (hm2 : |m2 - q * x| ≤ η * |q * x|)
    (hv : |v - (m1 + m2)| ≤ η * |m1 + m2|) : |v - b| ≤ 8 * η * S := by
  have hS0 : 0 ≤ S := by rw [hS]; positivity
  have hc' : |c| ≤ (1 + η) * |1 - q| := by
    have : c = (1 - q) + (c - (1 - q)) := by ring
    rw [this]; refine (abs_add_le _ _).trans ?_; linarith
  have e1 : |m1 - xo * (1 - q)| ≤ (2 * η + η * η) * (|xo| * |1 - q|) := by
    have : m1 - xo * (1 - q) = (m1 - xo * c) + xo * (c - (1 - q)) := by ring
    rw [this]
    refine (abs_add_le _ _).trans ?_
    rw [abs_mul xo]
    rw [abs_mul] at hm1
    have k1 := mul_le_mul_of_nonneg_left hc (abs_nonneg xo)
    have k2 : η * (|xo| * |c|) ≤ η * (|xo| * ((1 + η) * |1 - q|)) := mul_le_mul_of_nonneg_left (mul_le_mul_of_nonneg_left hc' (abs_nonneg xo)) hη0
    nlinarith
  have e2 : |m2 - q * x| ≤ η * (|q| * |x|) := by rw [abs_mul] at hm2; exact hm2
  -- with bounds on the factors
  have hx0 := abs_nonneg xo
  have hx1 := abs_nonneg x
  have f1 : |xo| * |1 - q| + |q| * |x| ≤ 5 / 4 * S := by
    have k1 : |xo| * |1 - q| ≤ |xo| * (5 / 4) := by
      refine mul_le_mul_of_nonneg_left (hq1.trans ?_) hx0
      have : 7 / 2 * η * t ≤ 7 / 2 * (1 / 16) * t := mul_le_mul_of_nonneg_right (by linarith) ht0.1
      linarith [ht0.1, ht0.2]
    have k2 : |q| * |x| ≤ 5 / 4 * |x| := mul_le_mul_of_nonneg_right (hq01.trans (by linarith [ht0.2])) hx1
    rw [hS]; linarith
  have f2 : |m1 + m2 - (xo * (1 - q) + q * x)| ≤ (2 * η + η * η) * (5 / 4 * S) := by
    have : m1 + m2 - (xo * (1 - q) + q * x) = (m1 - xo * (1 - q)) + (m2 - q * x) := by ring
    rw [this]
    refine (abs_add_le _ _).trans ((add_le_add e1 e2).trans ?_)
    have k1 : η * (|q| * |x|) ≤ (2 * η + η * η) * (|q| * |x|) := mul_le_mul_of_nonneg_right (by nlinarith) (by positivity)
    have k2 := mul_le_mul_of_nonneg_left f1 (by positivity : 0 ≤ 2 * η + η * η)
    linarith
  have f3 : |xo * (1 - q) + q * x - b| ≤ 7 / 2 * η * S := by
    have e : xo * (1 - q) + q * x - b = (q - t) * (x - xo) := by rw [hbt]; ring
    rw [e, abs_mul]
    have k1 : |x - xo| ≤ S := (abs_sub _ _).trans (by rw [hS]; linarith)
    have k2 : |q - t| ≤ 7 / 2 * η := hqt.trans (by have := mul_le_mul_of_nonneg_left ht0.2 (by positivity : 0 ≤ 7 / 2 * η); linarith)
    exact mul_le_mul k2 k1 (abs_nonneg _) (by positivity)
  have hbS : |b| ≤ S := by
    rw [hbt]
    refine (abs_add_le _ _).trans ?_
    rw [abs_mul, abs_mul, abs_of_nonneg ht0.1, abs_of_nonneg (by linarith [ht0.2] : 0 ≤ 1 - t), hS]
    have k1 := mul_le_mul_of_nonneg_left (by linarith [ht0.1] : 1 - t ≤ 1) hx0
    have k2 := mul_le_mul_of_nonneg_right ht0.2 hx1
    linarith
  have f4 : |m1 + m2 - b| ≤ (2 * η + η * η) * (5 / 4 * S) + 7 / 2 * η * S := by
    have : m1 + m2 - b = (m1 + m2 - (xo * (1 - q) + q * x)) + (xo * (1 - q) + q * x - b) := by ring
    rw [this]
    exact (abs_add_le _ _).trans (add_le_add f2 f3)
  have f5 : |m1 + m2| ≤ 3 / 2 * S := by
    have : m1 + m2 = (m1 + m2 - b) + b := by ring
    rw [this]
    refine (abs_add_le _ _).trans ((add_le_add f4 hbS).trans ?_)
    have k1 : η * S ≤ 1 / 16 * S := mul_le_mul_of_nonneg_right hη hS0
    have k2 : η * η * S ≤ 1 / 16 * (1 / 16) * S := mul_le_mul_of_nonneg_right (mul_le_mul hη hη hη0 (by norm_num)) hS0
    linarith
  have : v - b = (v - (m1 + m2)) + (m1 + m2 - b) := by ring
  rw [this]
  refine (abs_add_le _ _).trans ((add_le_add (hv.trans (mul_le_mul_of_nonneg_left f5 hη0)) f4).trans ?_)
  have k2 : η * η * S ≤ η * (1 / 16) * S := mul_le_mul_of_nonneg_right (mul_le_mul_of_nonneg_left hη hη0) hS0
  linarith [mul_nonneg hη0 hS0]

/-- Rounding of `xo*(1 - β) + β*x` with `β = (b - xo)/(x - xo)`. -/
theorem blend_rounded {η : ℚ} {r : ℚ → ℚ} (hη0 : 0 ≤ η) (hη : η ≤ 1 / 16) (hr : ∀ z, |r z - z| ≤ η * |z|) {b xo x : ℚ} (h : (xo < b ∧ b < x) ∨ (x < b ∧ b < xo)) :
    |r (r (xo * r (1 - r (r (b - xo) / r (x - xo)))) + r (r (r (b - xo) / r (x - xo)) * x)) - b| ≤ 8 * η * (|xo| + |x|) := by
  -- relative errors
  have rel : ∀ z, ∃ δ, |δ| ≤ η ∧ r z = z * (1 + δ) := by
    intro z
    by_cases hz : z = 0
    · refine ⟨0, by simpa using hη0, ?_⟩
      have := hr z
      rw [hz] at this ⊢
      simpa using this
    · refine ⟨(r z - z) / z, ?_, by field_simp; ring⟩
      rw [abs_div, div_le_iff₀ (abs_pos.2 hz)]
      exact hr z
  obtain ⟨δa, ha, ea⟩ := rel (b - xo)
  obtain ⟨δd, hd, ed⟩ := rel (x - xo)
  have hxx : x - xo ≠ 0 := by rcases h with h | h <;> [exact (by linarith [h.1, h.2] : 0 < x - xo).ne'; exact (by linarith [h.1, h.2] : x - xo < 0).ne]
  rw [abs_le] at ha hd
  have hd1 : 0 < 1 + δd := by linarith
  set t := (b - xo) / (x - xo) with ht
  have ht0 : 0 ≤ t ∧ t ≤ 1 := by
    rcases h with ⟨h1, h2⟩ | ⟨h1, h2⟩
    · exact ⟨div_nonneg (by linarith) (by linarith), (div_le_one (by linarith)).2 (by linarith)⟩
    · exact ⟨div_nonneg_of_nonpos (by linarith) (by linarith), (div_le_one_of_neg (by linarith)).2 (by linarith)⟩
  have hbt : b = xo * (1 - t) + t * x := by rw [ht]; field_simp; ring
  have eq1 : r (b - xo) / r (x - xo) = t * ((1 + δa) / (1 + δd)) := by rw [ea, ed, ht]; field_simp
  obtain ⟨δq, hq, eq⟩ := rel (r (b - xo) / r (x - xo))
  rw [abs_le] at hq
  set q := r (r (b - xo) / r (x - xo)) with hqd
  rw [eq1] at eq
  -- the factor
  have hqt : |q - t| ≤ 7 / 2 * η * t := by
    have e : q - t = t * (((1 + δa) * (1 + δq) - (1 + δd)) / (1 + δd)) := by rw [eq]; field_simp
    rw [e, abs_mul, abs_of_nonneg ht0.1, mul_comm]
    refine mul_le_mul_of_nonneg_right ?_ ht0.1
    rw [abs_div, abs_of_pos hd1, div_le_iff₀ hd1, abs_le]
    have m1 : |δa * δq| ≤ η * η := by rw [abs_mul]; exact mul_le_mul (abs_le.2 ha) (abs_le.2 hq) (abs_nonneg _) hη0
    rw [abs_le] at m1
    have m2 : η * η ≤ η * (1 / 16) := mul_le_mul_of_nonneg_left hη hη0
    have m3 : η * (15 / 16) ≤ η * (1 + δd) := mul_le_mul_of_nonneg_left (by linarith) hη0
    constructor <;> nlinarith
  have hq01 : |q| ≤ 5 / 4 * t := by
    rw [abs_le] at hqt ⊢
    have : 7 / 2 * η * t ≤ 7 / 2 * (1 / 16) * t := mul_le_mul_of_nonneg_right (by linarith) ht0.1
    constructor <;> linarith [ht0.1]
  have hq1 : |1 - q| ≤ (1 - t) + 7 / 2 * η * t := by
    have : 1 - q = (1 - t) - (q - t) := by ring
    rw [this]
    refine (abs_sub _ _).trans ?_
    rw [abs_of_nonneg (by linarith [ht0.2] : 0 ≤ 1 - t)]
    linarith
  exact blend_sum hη0 hη rfl ht0 hbt hqt hq01 hq1 (hr _) (hr _) (hr _) (hr _)

/-- **C63, rounded arithmetic**: with `p ≥ 4` significant bits (53 for `double`), if the step is cut, some variable or parameter that crosses a bound ends within `8·2⁻ᵖ(|xo| + |x|)` of that bound, and within the bounds. -/
theorem backtrack_near_bound (hp : 4 ≤ p) (debug : Bool) {B : Bounds (FNum p) nx np} {uo : MVec (FNum p) nx np nw} (h : InBounds B uo) (u : MVec (FNum p) nx np nw) (hcut : betaMin B uo u ≠ 1) :
    ∃ v, backtrack debug false B uo u = some v ∧ InBounds B v ∧
      ((∃ i b, Crosses (B.xlower i) (B.xupper i) (uo.x i) (u.x i) b ∧ |(v.x i).val - b.val| ≤ 8 * (1 / 2 ^ p) * (|(uo.x i).val| + |(u.x i).val|)) ∨
        ∃ i b, Crosses (B.plower i) (B.pupper i) (uo.p i) (u.p i) b ∧ |(v.p i).val - b.val| ≤ 8 * (1 / 2 ^ p) * (|(uo.p i).val| + |(u.p i).val|)) := by
  have hp0 : 0 < p := by omega
  have hη : (1 : ℚ) / 2 ^ p ≤ 1 / 16 := by
    rw [div_le_div_iff₀ (by positivity) (by norm_num), one_mul, one_mul]
    exact_mod_cast Nat.pow_le_pow_right (n := 2) (by norm_num) hp
  have hr : ∀ z, |Fl.rnd p z - z| ≤ 1 / 2 ^ p * |z| := fun z => by
    have := Fl.rnd_error p z
    rwa [div_eq_mul_one_div, mul_comm] at this
  have one : ∀ {lower upper : Option (FNum p)} {xo x b β : FNum p}, Crosses lower upper xo x b → Between lower upper xo → β = (b - xo) / (x - xo) →
      |(clamp lower upper (xo * (1 - β) + β * x)).val - b.val| ≤ 8 * (1 / 2 ^ p) * (|xo.val| + |x.val|) := by
    intro lower upper xo x b β hx hb e
    have hbb : Between lower upper b := by
      rcases hx with ⟨rfl, h1, h2⟩ | ⟨rfl, h1, h2⟩
      · exact ⟨fun l e => (hb.1 l e).trans h2.le, fun u e => by cases e; exact le_rfl⟩
      · exact ⟨fun l e => by cases e; exact le_rfl, fun u e => h2.le.trans (hb.2 u e)⟩
    refine (clamp_dist hbb _).trans ?_
    have hb3 : (xo.val < b.val ∧ b.val < x.val) ∨ (x.val < b.val ∧ b.val < xo.val) := by
      rcases hx with ⟨-, h1, h2⟩ | ⟨-, h1, h2⟩
      · exact Or.inl ⟨(FNum.lt_iff _ _).1 h2, (FNum.lt_iff _ _).1 h1⟩
      · exact Or.inr ⟨(FNum.lt_iff _ _).1 h1, (FNum.lt_iff _ _).1 h2⟩
    have := blend_rounded (r := Fl.rnd p) (by positivity) hη hr hb3
    rw [e, FNum.val_add, FNum.val_mul, FNum.val_mul, FNum.val_sub, FNum.val_one hp0, FNum.val_div, FNum.val_sub, FNum.val_sub]
    exact this
  obtain ⟨v, hv, hin⟩ := backtrack_inBounds debug false h u
  refine ⟨v, hv, hin, ?_⟩
  simp only [backtrack, (insideB_iff B uo).2 h, Bool.not_true, Bool.and_false, Bool.false_eq_true, if_false, Option.some.injEq] at hv
  subst hv
  rcases betaMin_cases B uo u with e | ⟨i, b, hb, e⟩ | ⟨i, b, hb, e⟩
  · exact absurd e hcut
  · exact Or.inl ⟨i, b, hb, one hb (h.1 i) e⟩
  · exact Or.inr ⟨i, b, hb, one hb (h.2 i) e⟩

end rounded

/-! ## `double` -/

section double

variable {nw : ℕ} {σ : Type*}

/-- One variable, `x ≥ 13`. -/
def stuckBounds : Bounds Double 1 0 := { xlower := fun _ => some (.fl 13), xupper := fun _ => none, plower := fun _ => none, pupper := fun _ => none }

/-- `13 + 2⁻⁴⁹`, the next `double` above `13`. -/
def stuckAt : Double := .fl (13 + 1 / 2 ^ 49)

theorem stuckAt_val : stuckAt.val = 13 + 1 / 2 ^ 49 := by decide +kernel

theorem stuck_between {v : Double} (h : v = .fl 14 ∨ v = stuckAt) : Between (some (.fl 13)) none v := by
  refine ⟨fun l e => ?_, fun u e => by cases e⟩
  cases e
  rcases h with rfl | rfl <;> decide +kernel

theorem stuck_betaMin (uo u : MVec Double 1 0 nw) : betaMin stuckBounds uo u = betaStep (some (.fl 13)) none (uo.x 0) (u.x 0) 1 := rfl

/-- The search from `14` and from `13 + 2⁻⁴⁹`, towards `8`. -/
theorem stuck_backtrack (debug : Bool) (uo u : MVec Double 1 0 nw) (hxo : uo.x 0 = .fl 14 ∨ uo.x 0 = stuckAt) (hx : u.x 0 = .fl 8) :
    InBounds stuckBounds uo ∧ betaMin stuckBounds uo u ≠ 1 ∧ ∃ v, backtrack debug false stuckBounds uo u = some v ∧ v.x 0 = stuckAt := by
  have hin : InBounds stuckBounds uo := ⟨fun i => by rw [Subsingleton.elim i 0]; exact stuck_between hxo, fun i => i.elim0⟩
  refine ⟨hin, ?_, ?_⟩
  · rw [stuck_betaMin, hx]
    rcases hxo with e | e <;> rw [e] <;> decide +kernel
  · obtain ⟨v, hv, -⟩ := backtrack_inBounds debug false hin u
    refine ⟨v, hv, ?_⟩
    simp only [backtrack, (insideB_iff stuckBounds uo).2 hin, Bool.not_true, Bool.and_false, Bool.false_eq_true, if_false, Option.some.injEq] at hv
    subst hv
    change clamp (some (.fl 13)) none (uo.x 0 * (1 - betaMin stuckBounds uo u) + betaMin stuckBounds uo u * u.x 0) = stuckAt
    rw [stuck_betaMin, hx]
    rcases hxo with e | e <;> rw [e] <;> decide +kernel

/-- **C63 is false**: in `double` arithmetic, with the bound `x ≥ 13`, the step from `14` to `8` is cut by the variable, which is not put on the bound but on the next `double` above it, `13 + 2⁻⁴⁹`. -/
theorem backtrack_misses_bound (debug : Bool) (uo u : MVec Double 1 0 nw) (hxo : uo.x 0 = .fl 14) (hx : u.x 0 = .fl 8) :
    InBounds stuckBounds uo ∧ betaMin stuckBounds uo u ≠ 1 ∧ ∃ v, backtrack debug false stuckBounds uo u = some v ∧ (v.x 0).val = 13 + 1 / 2 ^ 49 ∧ (v.x 0).val ≠ 13 := by
  obtain ⟨h1, h2, v, h3, h4⟩ := stuck_backtrack debug uo u (Or.inl hxo) hx
  refine ⟨h1, h2, v, h3, by rw [h4, stuckAt_val], ?_⟩
  rw [h4, stuckAt_val]
  norm_num

/-- A solver for `min (x - 8)²/2` with `x ≥ 13` in `double` arithmetic: the Newton step goes from `x` to `x - (x - 8)`, both differences rounded, and the error at a point that is not on the bound is not below that of the
    gradient `x - 8` at the bound.  Whatever else is computed is arbitrary. -/
structure IsStuckMachine (m : Machine σ Double 1 0 nw) (tol : Double) : Prop where
  phi : m.phi = none
  check : m.check = none
  newton : ∀ s uo, ∃ t u, m.newton s uo = some (t, u) ∧ u.x 0 = uo.x 0 - (uo.x 0 - .fl 8)
  eval : ∀ s u, ∃ t, m.eval s u = some t ∧ (u.x 0 ≠ .fl 13 → .fl 5 ≤ m.error t)
  tol : tol ≤ .fl 5

/-- **C63, consequence**: such a solve from `x = 14` stays at `13 + 2⁻⁴⁹` and fails, for every limit of iterations and every tolerance up to `5`.  The solution is `13`. -/
theorem double_stuck {m : Machine σ Double 1 0 nw} {o : SolveOptions Double} (hm : IsStuckMachine m o.tolerance) (ho : o.minmax = false) (mach : σ) (history : History Double) (u : MVec Double 1 0 nw) (hu : u.x 0 = .fl 14) :
    ∃ t, (∀ r, Solve m o stuckBounds mach history u r ↔ r = some t) ∧ (solveResult o t).succeeded = false ∧ (solveResult o t).iterations = o.maxiters + 1 ∧ (t.u.x 0).val = 13 + 1 / 2 ^ 49 := by
  have hcl : (clampVec stuckBounds u).x 0 = .fl 14 := by
    change clamp (some (.fl 13)) none (u.x 0) = _
    rw [hu]
    exact clamp_of_between (stuck_between (Or.inl rfl))
  obtain ⟨t, h1, h2, h3, h4⟩ := machine_never (m := m) (o := o) (B := stuckBounds) hm.phi hm.check (fun v => v.x 0 = .fl 14 ∨ v.x 0 = stuckAt) (fun v => v.x 0 = stuckAt) (fun _ h => Or.inr h)
    (fun s uo h => by
      obtain ⟨t, un, e1, e2⟩ := hm.newton s uo
      have e3 : un.x 0 = .fl 8 := by
        rw [e2]
        rcases h with e | e <;> rw [e] <;> decide +kernel
      obtain ⟨-, -, v, e4, e5⟩ := stuck_backtrack o.debug uo un h e3
      exact ⟨t, un, v, e1, by rw [ho]; exact e4, e5⟩)
    (fun s v h => by
      obtain ⟨t, e1, e2⟩ := hm.eval s v
      exact ⟨t, e1, hm.tol.trans (e2 (by rw [h]; decide +kernel))⟩)
    mach history u (Or.inl hcl) (by obtain ⟨t, e1, -⟩ := hm.eval mach (clampVec stuckBounds u); exact ⟨t, e1⟩)
  exact ⟨t, h1, h2, h3, by rw [h4, stuckAt_val]⟩

/-- There is such a solver: the error is the gradient, and zero on the bound. -/
def exStuck : Machine Double Double 1 0 0 where
  eval := fun _ u => some (if u.x 0 = .fl 13 then 0 else if u.x 0 - .fl 8 < .fl 5 then .fl 5 else u.x 0 - .fl 8)
  evalJac := fun s _ => some s
  newton := fun s u => some (s, { u with x := fun i => u.x i - (u.x i - .fl 8) })
  error := fun s => s
  phi := none
  check := none
  phi_error := fun _ h => by cases h
  check_error := fun _ h => by cases h

example : IsStuckMachine exStuck (.fl (1 / 10 ^ 8)) where
  phi := rfl
  check := rfl
  newton := fun _ _ => ⟨_, _, rfl, rfl⟩
  eval := fun _ u => ⟨_, rfl, fun h => by
    change FNum.fl 5 ≤ ite _ _ _
    rw [if_neg h]
    split_ifs with h1
    · exact le_rfl
    · exact not_lt.1 h1⟩
  tol := by decide +kernel

/-- The bounds are respected in `double` arithmetic (C29), for every machine. -/
example {nx np : ℕ} {m : Machine σ Double nx np nw} {o : SolveOptions Double} {B : Bounds Double nx np} {s : SolveState σ Double nx np nw} (ho : InBounds B s.uo) {t} (h : Loop m o B s (some t)) : InBounds B t.u :=
  (loop_inBounds ho h t rfl).1

/-- In exact arithmetic the same step from `14` ends on the bound. -/
example : ∃ v, backtrack (K := ℚ) (nw := 0) false false ⟨fun _ => some 13, fun _ => none, fun _ => none, fun _ => none⟩ (⟨![14], ![], ![]⟩ : MVec ℚ 1 0 0) ⟨![8], ![], ![]⟩ = some v ∧ v.x 0 = 13 :=
  ⟨_, rfl, by decide +kernel⟩

/-- The bound on the distance is met with a difference that is not zero: `2⁻⁴⁹ ≤ 8·2⁻⁵³·(14 + 8)`. -/
example : (0 : ℚ) < 1 / 2 ^ 49 ∧ (1 : ℚ) / 2 ^ 49 ≤ 8 * (1 / 2 ^ 53) * (14 + 8) := by norm_num

/-- The hypotheses of the bound on the distance: the point `14` with a cut step to `8`. -/
example (u : MVec Double 1 0 nw) (hx : u.x 0 = .fl 8) (uo : MVec Double 1 0 nw) (hxo : uo.x 0 = .fl 14) : InBounds stuckBounds uo ∧ betaMin stuckBounds uo u ≠ 1 :=
  ⟨(stuck_backtrack false uo u (Or.inl hxo) hx).1, (stuck_backtrack false uo u (Or.inl hxo) hx).2.1⟩

end double

end Optima
