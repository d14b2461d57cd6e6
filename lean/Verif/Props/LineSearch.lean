import Verif.Model.LineSearch
import Verif.Model.Residual
import Verif.Props.Brent
import Verif.Props.Backtrack
import Verif.Props.Residual

/-!
# C34: the line search
-/

set_option linter.unusedSectionVars false

namespace Optima

variable {K : Type*} [Field K] [LinearOrder K] [IsStrictOrderedRing K] {nx np nw : ℕ}

theorem mix_one (uo u : MVec K nx np nw) : MVec.mix 1 uo u = u := by
  unfold MVec.mix; ext i <;> simp

theorem mix_zero (uo u : MVec K nx np nw) : MVec.mix 0 uo u = uo := by
  unfold MVec.mix; ext i <;> simp

/-- `v` is on the segment between `uo` and `u`, at fraction `alpha`. -/
def OnSegment (alpha : K) (uo u v : MVec K nx np nw) : Prop :=
  0 ≤ alpha ∧ alpha ≤ 1 ∧ (∀ i, v.x i = uo.x i + alpha * (u.x i - uo.x i)) ∧ (∀ i, v.p i = uo.p i + alpha * (u.p i - uo.p i)) ∧ ∀ i, v.w i = uo.w i + alpha * (u.w i - uo.w i)

/-- **C34**: for every error function, point and trial point the line search returns a point of the segment from `uo` to the trial point, with one common factor for `x`, `p` and `w`, whose error is not larger than that of
    the trial point; with both end points within the bounds so is the result. -/
theorem lineSearch_spec (debug : Bool) {golden tol : K} (hg0 : 0 < golden) (hg1 : golden ≤ 1) (ht : 0 ≤ tol) {maxiters : ℕ} (hm : maxiters ≠ 0) (B : Bounds K nx np) (error : MVec K nx np nw → K)
    (uo u v : MVec K nx np nw) (h : lineSearch debug golden tol maxiters B error uo u = some v) :
    (∃ alpha, OnSegment alpha uo u v) ∧ error v ≤ error u ∧ (InBounds B uo → InBounds B u → InBounds B v) := by
  unfold lineSearch at h
  split_ifs at h
  simp only [Option.some.injEq] at h
  obtain ⟨b1, b2, b3, -⟩ := Brent.brent_safe (fun alpha => error (MVec.mix alpha uo u)) hg0 hg1 ht (zero_le_one (α := K)) maxiters hm
  generalize (Brent.minimizeBrent (fun alpha => error (MVec.mix alpha uo u)) golden 0 1 tol maxiters).1.x = a at *
  subst h
  rw [mix_one] at b3
  refine ⟨⟨a, b1, b2, fun i => ?_, fun i => ?_, fun i => ?_⟩, b3, ?_⟩
  · simp only [MVec.mix]; ring
  · simp only [MVec.mix]; ring
  · simp only [MVec.mix]; ring
  · have key : ∀ {l h : Option K} {y z : K}, Between l h y → Between l h z → Between l h (y * (1 - a) + a * z) := by
      intro l h y z hy hz
      have h1 : 0 ≤ 1 - a := by linarith
      refine ⟨fun l' hl => ?_, fun h' hh => ?_⟩
      · have := mul_le_mul_of_nonneg_right (hy.1 l' hl) h1
        have := mul_le_mul_of_nonneg_left (hz.1 l' hl) b1
        linarith
      · have := mul_le_mul_of_nonneg_right (hy.2 h' hh) h1
        have := mul_le_mul_of_nonneg_left (hz.2 h' hh) b1
        linarith
    intro h1 h2
    exact ⟨fun i => key (h1.1 i) (h2.1 i), fun i => key (h1.2 i) (h2.2 i)⟩

/-- The assertion of `execute` fails exactly if `x` of the trial point is outside the bounds. -/
theorem lineSearch_assert (golden tol : K) (maxiters : ℕ) (B : Bounds K nx np) (error : MVec K nx np nw → K) (uo u : MVec K nx np nw) :
    lineSearch true golden tol maxiters B error uo u = none ↔ ¬ ∀ i, Between (B.xlower i) (B.xupper i) (u.x i) := by
  have hin : insideX B u = true ↔ ∀ i, Between (B.xlower i) (B.xupper i) (u.x i) := by
    unfold insideX Between above below
    simp only [Bool.and_eq_true, List.all_eq_true, List.mem_finRange, true_implies, Bool.not_eq_true']
    constructor
    · intro h i
      refine ⟨fun l hl => ?_, fun b hb => ?_⟩
      · have := h.2 i; rw [hl] at this; simpa using this
      · have := h.1 i; rw [hb] at this; simpa using this
    · intro h
      refine ⟨fun i => ?_, fun i => ?_⟩
      · rcases hb : B.xupper i with _ | b
        · rfl
        · simpa using (h i).2 b hb
      · rcases hl : B.xlower i with _ | l
        · rfl
        · simpa using (h i).1 l hl
  rw [← hin]
  unfold lineSearch
  cases insideX B u <;> simp

/-! ## The descent test -/

/-- Sum of squares. -/
def sqNorm (v : MVec K nx np nw) : K := v.dot v

/-- `r + alpha d`. -/
def along (r d : MVec K nx np nw) (alpha : K) : MVec K nx np nw := { x := fun i => r.x i + alpha * d.x i, p := fun i => r.p i + alpha * d.p i, w := fun i => r.w i + alpha * d.w i }

/-- `-r`. -/
def opp (r : MVec K nx np nw) : MVec K nx np nw := { x := fun i => -r.x i, p := fun i => -r.p i, w := fun i => -r.w i }

/-- The squared norm of the linearised residual `r + alpha J du` decreases for small `alpha > 0`. -/
def IsDescent (r d : MVec K nx np nw) : Prop := ∃ eps, 0 < eps ∧ ∀ alpha, 0 < alpha → alpha < eps → sqNorm (along r d alpha) < sqNorm r

theorem sqNorm_along (r d : MVec K nx np nw) (alpha : K) : sqNorm (along r d alpha) = sqNorm r + 2 * alpha * r.dot d + alpha ^ 2 * sqNorm d := by
  have key : ∀ {n : ℕ} (a b : Fin n → K), ∑ i, (a i + alpha * b i) * (a i + alpha * b i) = (∑ i, a i * a i) + 2 * alpha * (∑ i, a i * b i) + alpha ^ 2 * ∑ i, b i * b i := by
    intro n a b
    rw [Finset.mul_sum, Finset.mul_sum, ← Finset.sum_add_distrib, ← Finset.sum_add_distrib]
    exact Finset.sum_congr rfl fun i _ => by ring
  unfold sqNorm along MVec.dot
  dsimp only
  rw [key, key, key]
  ring

theorem sqNorm_nonneg (d : MVec K nx np nw) : 0 ≤ sqNorm d := by
  unfold sqNorm MVec.dot
  have : ∀ {n : ℕ} (a : Fin n → K), 0 ≤ ∑ i, a i * a i := fun a => Finset.sum_nonneg fun i _ => mul_self_nonneg _
  linarith [this d.x, this d.p, this d.w]

theorem isDescent_iff (r d : MVec K nx np nw) : IsDescent r d ↔ r.dot d < 0 := by
  have hd := sqNorm_nonneg d
  constructor
  · rintro ⟨eps, he, h⟩
    have := h (eps / 2) (by linarith) (by linarith)
    rw [sqNorm_along] at this
    have h1 : 0 ≤ (eps / 2) ^ 2 * sqNorm d := by positivity
    by_contra hc
    have : 0 ≤ 2 * (eps / 2) * r.dot d := by
      have := not_lt.1 hc
      positivity
    linarith
  · intro h
    refine ⟨-(2 * r.dot d) / (sqNorm d + 1), by apply div_pos <;> linarith, fun alpha h1 h2 => ?_⟩
    rw [sqNorm_along]
    rw [lt_div_iff₀ (by linarith)] at h2
    have h3 : alpha * (alpha * (sqNorm d + 1)) < alpha * -(2 * r.dot d) := mul_lt_mul_of_pos_left h2 h1
    nlinarith [mul_pos h1 h1]

/-- **C34, negation**: `result().Fm` is minus the residual `r` (`residual_master`), so the test accepts `u` exactly if moving in the *opposite* direction decreases the squared residual. -/
theorem descent_test_inverted (Jm : MasterMatrix K nx np nw) (r uo u : MVec K nx np nw) :
    isDescentDirection Jm (opp r) uo u = true ↔ IsDescent r (opp (Jm.mul { x := fun i => u.x i - uo.x i, p := fun q => u.p q - uo.p q, w := fun l => u.w l - uo.w l })) := by
  rw [isDescent_iff]
  unfold isDescentDirection opp MVec.dot MVec.minus
  simp only [decide_eq_true_eq, neg_mul, mul_neg, Finset.sum_neg_distrib]

/-- **C34, negation**: exact Newton steps, which solve `J du = -r`, decrease the squared residual unless it is zero already, and the test rejects all of them. -/
theorem newton_rejected (Jm : MasterMatrix K nx np nw) (r uo u : MVec K nx np nw) (h : Jm.mul { x := fun i => u.x i - uo.x i, p := fun q => u.p q - uo.p q, w := fun l => u.w l - uo.w l } = opp r) :
    isDescentDirection Jm (opp r) uo u = false ∧ (sqNorm r ≠ 0 → IsDescent r (Jm.mul { x := fun i => u.x i - uo.x i, p := fun q => u.p q - uo.p q, w := fun l => u.w l - uo.w l })) := by
  have hr := sqNorm_nonneg r
  have e : r.dot (opp r) = -sqNorm r := by
    unfold sqNorm opp MVec.dot
    simp only [mul_neg, Finset.sum_neg_distrib]; ring
  constructor
  · rw [Bool.eq_false_iff]
    intro hc
    rw [descent_test_inverted, isDescent_iff, h] at hc
    have : r.dot (opp (opp r)) = sqNorm r := by
      unfold sqNorm opp MVec.dot
      simp only [neg_neg]
    linarith
  · intro hne
    rw [isDescent_iff, h, e]
    have := lt_of_le_of_ne hr (Ne.symm hne)
    linarith

/-- A one-variable example: residual 2, derivative 1, Newton step -2. -/
def exLine : MasterMatrix ℚ 1 0 0 :=
  { Hxx := fun _ _ => 1, Hxp := fun _ i => i.elim0, isHxxDiag := false, Vpx := fun i => i.elim0, Vpp := fun i => i.elim0, Wx := fun i => i.elim0, Wp := fun i => i.elim0
    RWQ := { nb := 0, nn := 1, Rb := fun i => i.elim0, Sbn := fun i => i.elim0, Sbp := fun i => i.elim0, jb := fun i => i.elim0, jn := fun _ => 0 }, js := [0], ju := [] }

/-- A vector of the example. -/
def exPoint (x : ℚ) : MVec ℚ 1 0 0 := { x := fun _ => x, p := fun i => i.elim0, w := fun i => i.elim0 }

/-- The hypothesis of `newton_rejected` holds in the example: residual 2 at `uo = 5`, Newton point 3; the test rejects this step and accepts the step to 7. -/
example : exLine.mul ((exPoint 3).minus (exPoint 5)) = opp (exPoint 2) ∧ isDescentDirection exLine (opp (exPoint 2)) (exPoint 5) (exPoint 3) = false ∧
    isDescentDirection exLine (opp (exPoint 2)) (exPoint 5) (exPoint 7) = true := by
  refine ⟨?_, by decide +kernel, by decide +kernel⟩
  ext i
  · have : i = 0 := Subsingleton.elim _ _
    subst this
    decide +kernel
  · exact i.elim0
  · exact i.elim0

/-- The line search from 5 to 3 for the error `|x - 4|` gives a point with error less than 1/100. -/
example : ((lineSearch (K := ℚ) true (382 / 1000) (1 / 100000) 20 { xlower := fun _ => some 0, xupper := fun _ => none, plower := fun _ => none, pupper := fun _ => none } (fun u => |u.x 0 - 4|) (exPoint 5)
    (exPoint 3)).map fun v => decide (|v.x 0 - 4| < 1 / 100)) = some true := by
  decide +kernel

end Optima
