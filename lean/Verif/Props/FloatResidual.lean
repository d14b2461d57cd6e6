import Verif.Model.FloatResidual
import Verif.Props.FloatEchelon
import Verif.Props.RoundOff
import Mathlib.Algebra.BigOperators.Fin
import Mathlib.Algebra.Order.BigOperators.Group.Finset

/-!
# What success means in double arithmetic (C72)

C32 says that a successful solve without user check has a reported error below the tolerance, and C28 what the error is in exact arithmetic.  In `double` the error is computed from rounded residuals.  Here the exact residuals at the
returned point are bounded by the tolerance and by the rounding errors, whatever the order in which the sums are evaluated.
-/

set_option linter.unusedSectionVars false

namespace Optima

variable {p : ℕ}

/-- The largest relative error of a result of `n` rounded operations: `(1 + 2^-p)^n - 1`, about `n·2^-p`. -/
def roundings (p n : ℕ) : ℚ := (1 + 1 / 2 ^ p) ^ n - 1

theorem roundings_nonneg (p n : ℕ) : 0 ≤ roundings p n := sub_nonneg.2 (one_le_pow₀ (by simp))

theorem roundings_mono (p : ℕ) {n k : ℕ} (h : n ≤ k) : roundings p n ≤ roundings p k := sub_le_sub_right (pow_le_pow_right₀ (by simp) h) 1

/-- One more rounding. -/
theorem rnd_step (p : ℕ) {s X M c : ℚ} (h : |s - X| ≤ (c - 1) * M) (hX : |X| ≤ M) : |Fl.rnd p s - X| ≤ (c * (1 + 1 / 2 ^ p) - 1) * M := by
  have h1 := Fl.rnd_error p s
  have h2 : |s| ≤ c * M := by
    have : s = (s - X) + X := by ring
    rw [this]
    exact (abs_add_le _ _).trans (by linarith)
  have h3 : |s| / 2 ^ p ≤ c * M * (1 / 2 ^ p) := by
    rw [div_eq_mul_one_div]
    exact mul_le_mul_of_nonneg_right h2 (by positivity)
  have : Fl.rnd p s - X = (Fl.rnd p s - s) + (s - X) := by ring
  rw [this]
  refine (abs_add_le _ _).trans ?_
  have e : (c * (1 + 1 / 2 ^ p) - 1) * M = c * M * (1 / 2 ^ p) + (c - 1) * M := by ring
  rw [e]
  exact add_le_add (h1.trans h3) h

namespace Terms

/-- The exact sum of the products. -/
def exact (l : Terms p) : ℚ := (l.map fun t => t.1.val * t.2.val).sum

/-- The exact sum of the absolute values of the products. -/
def mag (l : Terms p) : ℚ := (l.map fun t => |t.1.val * t.2.val|).sum

theorem exact_cons (t : FNum p × FNum p) (l : Terms p) : exact (t :: l) = t.1.val * t.2.val + exact l := by simp [exact]
theorem mag_cons (t : FNum p × FNum p) (l : Terms p) : mag (t :: l) = |t.1.val * t.2.val| + mag l := by simp [mag]
theorem exact_append (l l' : Terms p) : exact (l ++ l') = exact l + exact l' := by simp [exact]
theorem mag_append (l l' : Terms p) : mag (l ++ l') = mag l + mag l' := by simp [mag]
theorem length_neg (l : Terms p) : (neg l).length = l.length := by simp [neg]

theorem exact_neg (hp : 0 < p) (l : Terms p) : exact (neg l) = -exact l := by
  induction l with
  | nil => simp [exact, neg]
  | cons t l ih =>
    have : neg (t :: l) = (-t.1, t.2) :: neg l := rfl
    rw [this, exact_cons, exact_cons, ih, FNum.val_neg hp]
    ring

theorem mag_neg (hp : 0 < p) (l : Terms p) : mag (neg l) = mag l := by
  induction l with
  | nil => simp [mag, neg]
  | cons t l ih =>
    have : neg (t :: l) = (-t.1, t.2) :: neg l := rfl
    rw [this, mag_cons, mag_cons, ih, FNum.val_neg hp, neg_mul, abs_neg]

theorem mag_nonneg (l : Terms p) : 0 ≤ mag l := List.sum_nonneg (by simp only [List.mem_map]; rintro _ ⟨t, -, rfl⟩; exact abs_nonneg _)

theorem abs_exact (l : Terms p) : |exact l| ≤ mag l := by
  induction l with
  | nil => simp [exact, mag]
  | cons t l ih => rw [exact_cons, mag_cons]; exact (abs_add_le _ _).trans (by linarith)

theorem exact_dot {n : ℕ} (a b : Fin n → FNum p) : exact (dot a b) = ∑ j, (a j).val * (b j).val := by
  rw [exact, dot, List.map_map]; exact (Fin.sum_univ_def _).symm

theorem mag_dot {n : ℕ} (a b : Fin n → FNum p) : mag (dot a b) = ∑ j, |(a j).val * (b j).val| := by
  rw [mag, dot, List.map_map]; exact (Fin.sum_univ_def _).symm

theorem length_dot {n : ℕ} (a b : Fin n → FNum p) : (dot a b).length = n := by simp [dot]

/-- **C72, summation**: however the sum of `n` products is evaluated, with or without fused operations, its error is at most `(1 + 2^-p)^n - 1` times the sum of the absolute values of the products. -/
theorem sums_error (hp : 0 < p) {l : Terms p} {s : FNum p} (h : Sums l s) : |s.val - exact l| ≤ roundings p l.length * mag l := by
  suffices key : |s.val - exact l| ≤ roundings p l.length * mag l ∧ (l = [] → s.val = 0) from key.1
  have hq : (1 : ℚ) ≤ 1 + 1 / 2 ^ p := by simp
  have comb : ∀ {l l' : Terms p} {a b : ℚ}, |a - exact l| ≤ roundings p l.length * mag l → (l = [] → a = 0) → Fl.rnd p a = a → |b - exact l'| ≤ roundings p l'.length * mag l' → (l' = [] → b = 0) → Fl.rnd p b = b →
      |Fl.rnd p (a + b) - (exact l + exact l')| ≤ roundings p (l.length + l'.length) * (mag l + mag l') := by
    intro l l' a b h1 h2 h3 h4 h5 h6
    rcases l with _ | ⟨t, l⟩
    · rw [h2 rfl]; simpa [exact, mag, h6] using h4
    rcases l' with _ | ⟨t', l'⟩
    · rw [h5 rfl]; simpa [exact, mag, h3] using h1
    set L := t :: l
    set L' := t' :: l'
    set N := l.length + l'.length + 1
    have g1 : roundings p L.length ≤ roundings p N := roundings_mono p (by simp only [L, N, List.length_cons]; omega)
    have g2 : roundings p L'.length ≤ roundings p N := roundings_mono p (by simp only [L', N, List.length_cons]; omega)
    have g3 : |a + b - (exact L + exact L')| ≤ ((1 + 1 / 2 ^ p) ^ N - 1) * (mag L + mag L') := by
      have : a + b - (exact L + exact L') = (a - exact L) + (b - exact L') := by ring
      rw [this, mul_add]
      exact (abs_add_le _ _).trans (add_le_add (h1.trans (mul_le_mul_of_nonneg_right g1 (mag_nonneg _))) (h4.trans (mul_le_mul_of_nonneg_right g2 (mag_nonneg _))))
    have g4 := rnd_step p g3 ((abs_add_le _ _).trans (add_le_add (abs_exact L) (abs_exact L')))
    rw [← pow_succ] at g4
    have : L.length + L'.length = N + 1 := by simp only [L, L', N, List.length_cons]; omega
    rw [this]
    exact g4
  induction h with
  | nil => refine ⟨?_, fun _ => FNum.val_zero⟩; simp [exact, mag, FNum.val_zero]
  | entry a =>
    refine ⟨?_, fun e => by cases e⟩
    rw [exact_cons]
    simp only [FNum.val_one hp, mul_one, exact, List.map_nil, List.sum_nil, add_zero, sub_self, abs_zero]
    exact mul_nonneg (roundings_nonneg _ _) (mag_nonneg _)
  | mul a b =>
    refine ⟨?_, fun e => by cases e⟩
    rw [exact_cons, mag_cons, FNum.val_mul]
    have := Fl.rnd_error p (a.val * b.val)
    simp only [exact, mag, List.map_nil, List.sum_nil, add_zero, List.length_cons, List.length_nil, zero_add, roundings, pow_one]
    refine this.trans (le_of_eq ?_)
    ring
  | neg _ ih =>
    rw [FNum.val_neg hp, exact_neg hp, mag_neg hp, length_neg]
    refine ⟨?_, fun e => ?_⟩
    · rw [← abs_neg]
      have : ∀ a b : ℚ, -(-a - -b) = a - b := fun a b => by ring
      rw [this]; exact ih.1
    · rw [ih.2 (List.map_eq_nil_iff.1 e), neg_zero]
  | add _ _ ih ih' =>
    rw [FNum.val_add, exact_append, mag_append, List.length_append]
    refine ⟨comb ih.1 ih.2 (FNum.rnd_val hp _) ih'.1 ih'.2 (FNum.rnd_val hp _), fun e => ?_⟩
    obtain ⟨e1, e2⟩ := List.append_eq_nil_iff.1 e
    rw [ih.2 e1, ih'.2 e2, add_zero, Fl.rnd_zero]
  | @sub l l' s s' _ _ ih ih' =>
    rw [FNum.val_sub, exact_append, mag_append, List.length_append, sub_eq_add_neg s.val]
    have j1 : |-s'.val - exact (Terms.neg l')| ≤ roundings p (Terms.neg l').length * mag (Terms.neg l') := by
      rw [exact_neg hp, mag_neg hp, length_neg, ← abs_neg]
      have : ∀ a b : ℚ, -(-a - -b) = a - b := fun a b => by ring
      rw [this]; exact ih'.1
    have j2 : Terms.neg l' = [] → -s'.val = 0 := fun e => by rw [ih'.2 (List.map_eq_nil_iff.1 e), neg_zero]
    refine ⟨comb ih.1 ih.2 (FNum.rnd_val hp _) j1 j2 (by rw [Fl.rnd_neg, FNum.rnd_val hp]), fun e => ?_⟩
    obtain ⟨e1, e2⟩ := List.append_eq_nil_iff.1 e
    rw [ih.2 e1, j2 e2, add_zero, Fl.rnd_zero]
  | @fma a b l s _ ih =>
    refine ⟨?_, fun e => by cases e⟩
    rw [FNum.val_fl, exact_cons, mag_cons, List.length_cons]
    have g3 : |a.val * b.val + s.val - (a.val * b.val + exact l)| ≤ ((1 + 1 / 2 ^ p) ^ l.length - 1) * (|a.val * b.val| + mag l) := by
      have : a.val * b.val + s.val - (a.val * b.val + exact l) = s.val - exact l := by ring
      rw [this]
      refine ih.1.trans ?_
      rw [mul_add]
      exact le_add_of_nonneg_left (mul_nonneg (roundings_nonneg p l.length) (abs_nonneg _))
    have g4 := rnd_step p g3 ((abs_add_le _ _).trans (add_le_add le_rfl (abs_exact l)))
    rw [← pow_succ] at g4
    exact g4
  | perm hl _ ih =>
    have e1 := (hl.map fun t => t.1.val * t.2.val).sum_eq
    have e2 := (hl.map fun t => |t.1.val * t.2.val|).sum_eq
    unfold exact mag
    unfold exact mag at ih
    rw [← e1, ← e2, ← hl.length_eq]
    exact ⟨ih.1, fun e => ih.2 (by subst e; exact List.perm_nil.1 hl)⟩

/-- The order of the kernel of `FNum.dot` is one of them. -/
theorem sums_dot {n : ℕ} (a b : Fin n → FNum p) : Sums (dot a b) (FNum.dot a b) := by
  unfold dot FNum.dot
  have key : ∀ (l : List (Fin n)) (acc : Terms p) (s : FNum p), Sums acc s → Sums (acc ++ l.map fun j => (a j, b j)) (l.foldl (fun s j => s + a j * b j) s) := by
    intro l
    induction l with
    | nil => intro acc s h; simpa using h
    | cons j l ih =>
      intro acc s h
      have := ih (acc ++ [(a j, b j)]) (s + a j * b j) (h.add (.mul _ _))
      simpa using this
  simpa using key (List.finRange n) [] 0 .nil

theorem dot_zero (a b : Fin 0 → FNum p) : dot a b = [] := rfl

theorem dot_one (a b : Fin 1 → FNum p) : dot a b = [(a 0, b 0)] := by simp [dot, List.finRange_succ]

/-- The bound holds for sums in any order: three products added from the right with fused operations. -/
example (a b c d e f : Double) : |(FNum.fl (a.val * b.val + (FNum.fl (c.val * d.val + (e * f).val) : Double).val) : Double).val - (a.val * b.val + c.val * d.val + e.val * f.val)| ≤
    ((1 + 1 / 2 ^ 53) ^ 3 - 1) * (|a.val * b.val| + |c.val * d.val| + |e.val * f.val|) := by
  have := sums_error (by norm_num) (Sums.fma a b (Sums.fma c d (Sums.mul e f)))
  simpa [exact, mag, roundings, add_assoc] using this

end Terms

namespace FloatView

variable {nx np ny nz : ℕ} (r : FloatView p nx np ny nz) (P : FloatProblem p nx np ny) (u : MVec (FNum p) nx np (ny + nz))

/-! ## The exact residuals -/

/-- The exact gradient of the Lagrange function with respect to `x_i`, from the results of the user functions. -/
def gradient (i : Fin nx) : ℚ := (r.g i).val + ∑ l, (P.Ax l i).val * (u.w (.castAdd nz l)).val + ∑ l, (r.Jx l i).val * (u.w (.natAdd ny l)).val

/-- The size of the terms of the gradient. -/
def gradientSize (i : Fin nx) : ℚ := |(r.g i).val| + ∑ l, |(P.Ax l i).val * (u.w (.castAdd nz l)).val| + ∑ l, |(r.Jx l i).val * (u.w (.natAdd ny l)).val|

/-- The exact residuals of the equality constraints, `b - Ax*x - Ap*p` and `-h`. -/
def feasibility : Fin (ny + nz) → ℚ :=
  Fin.addCases (fun l => (P.b l).val - ∑ i, (P.Ax l i).val * (u.x i).val - ∑ k, (P.Ap l k).val * (u.p k).val) (fun l => -(r.h l).val)

/-- The matrix `W = [Ax; Jx]`. -/
def Wx : Fin (ny + nz) → Fin nx → ℚ := Fin.addCases (fun l i => (P.Ax l i).val) (fun l i => (r.Jx l i).val)

/-- The matrix `[Ap; Jp]`. -/
def Wp : Fin (ny + nz) → Fin np → ℚ := Fin.addCases (fun l i => (P.Ap l i).val) (fun l i => (r.Jp l i).val)

/-- What is missing for `R*W = [I S]`, applied to `x` and `p`: how much the canonical form held by the solver differs from that of `W`. -/
def defect (i : Fin r.nb) : ℚ :=
  ∑ k, ((∑ l, (r.R i l).val * r.Wx P l (r.jb k)) - if i = k then 1 else 0) * (u.x (r.jb k)).val + ∑ k, ((∑ l, (r.R i l).val * r.Wx P l (r.jn k)) - (r.S i k).val) * (u.x (r.jn k)).val +
    ∑ k, ((∑ l, (r.R i l).val * r.Wp P l k) - (r.Sp i k).val) * (u.p k).val

/-- The size of the terms of `awstar`. -/
def rhsSize : Fin (ny + nz) → ℚ :=
  Fin.addCases (fun l => |(P.b l).val| + ∑ i, |(P.Ax l (r.ju i)).val * (u.x (r.ju i)).val|)
    (fun l => ∑ i, |(r.Jx l (r.jb i)).val * (u.x (r.jb i)).val| + ∑ i, |(r.Jx l (r.jn i)).val * (u.x (r.jn i)).val| + ∑ i, |(r.Jp l i).val * (u.p i).val| + |(r.h l).val|)

/-- The size of the terms of `awbs`. -/
def canonicalSize (i : Fin r.nb) : ℚ :=
  ∑ l, |(r.R i l).val| * r.rhsSize P u l + (|(u.x (r.jb i)).val| + ∑ k, |(r.S i k).val * (u.x (r.jn k)).val| + ∑ k, |(r.Sp i k).val * (u.p k).val|)

/-! ## The errors -/

theorem foldl_max (l : List (FNum p)) (s : FNum p) : s ≤ l.foldl max s ∧ ∀ a ∈ l, a ≤ l.foldl max s := by
  induction l generalizing s with
  | nil => exact ⟨le_rfl, fun _ h => by cases h⟩
  | cons b l ih =>
    refine ⟨(le_max_left _ _).trans (ih (max s b)).1, fun a ha => ?_⟩
    rcases List.mem_cons.1 ha with rfl | ha
    · exact (le_max_right _ _).trans (ih _).1
    · exact (ih _).2 a ha

theorem le_norminf {n : ℕ} (f : Fin n → FNum p) (i : Fin n) : f i ≤ norminf f := by
  have := (foldl_max ((List.finRange n).map f) 0).2 (f i) (List.mem_map_of_mem (List.mem_finRange i))
  rwa [List.foldl_map] at this

theorem norminf_zero (f : Fin 0 → FNum p) : norminf f = 0 := rfl

theorem norminf_one (f : Fin 1 → FNum p) : norminf f = max 0 (f 0) := by simp [norminf, List.finRange_succ]

variable {r P u}

theorem ax_error (hp : 0 < p) (h : r.Computes P u) (i : Fin nx) (hi : ∀ k, i ≠ r.ju k) : |(r.ax i).val + r.gradient P u i| ≤ roundings p (1 + ny + nz) * r.gradientSize P u i := by
  have h1 := Terms.sums_error hp (h.ax i hi)
  rw [Terms.exact_neg hp, Terms.mag_neg hp, Terms.length_neg, sub_neg_eq_add] at h1
  have e1 : (r.gradientTerms P u i).exact = r.gradient P u i := by
    rw [gradientTerms, Terms.exact_cons, Terms.exact_append, Terms.exact_dot, Terms.exact_dot, FNum.val_one hp, mul_one, gradient, add_assoc]
  have e2 : (r.gradientTerms P u i).mag = r.gradientSize P u i := by
    rw [gradientTerms, Terms.mag_cons, Terms.mag_append, Terms.mag_dot, Terms.mag_dot, FNum.val_one hp, mul_one, gradientSize, add_assoc]
  have e3 : (r.gradientTerms P u i).length = 1 + ny + nz := by
    rw [gradientTerms, List.length_cons, List.length_append, Terms.length_dot, Terms.length_dot]; omega
  rwa [e1, e2, e3] at h1

/-- The exact value of `awstar`. -/
def rhs (r : FloatView p nx np ny nz) (P : FloatProblem p nx np ny) (u : MVec (FNum p) nx np (ny + nz)) : Fin (ny + nz) → ℚ :=
  Fin.addCases (fun l => (P.b l).val - ∑ i, (P.Ax l (r.ju i)).val * (u.x (r.ju i)).val)
    (fun l => ∑ i, (r.Jx l (r.jb i)).val * (u.x (r.jb i)).val + ∑ i, (r.Jx l (r.jn i)).val * (u.x (r.jn i)).val + ∑ i, (r.Jp l i).val * (u.p i).val - (r.h l).val)

theorem sizes (r : FloatView p nx np ny nz) : r.nb + r.nn + r.nu = nx := by
  have := Fintype.card_congr r.j
  simp only [Fintype.card_sum, Fintype.card_fin] at this
  omega

theorem awstar_error (hp : 0 < p) (h : r.Computes P u) (l : Fin (ny + nz)) : |(r.awstar l).val - r.rhs P u l| ≤ roundings p (1 + nx + np) * r.rhsSize P u l ∧ |r.rhs P u l| ≤ r.rhsSize P u l ∧ 0 ≤ r.rhsSize P u l := by
  have hs := r.sizes
  refine Fin.addCases (fun l => ?_) (fun l => ?_) l
  · have h1 := Terms.sums_error hp (h.linear l)
    have e1 : (r.linearTerms P u l).exact = r.rhs P u (.castAdd nz l) := by
      rw [linearTerms, Terms.exact_cons, Terms.exact_neg hp, Terms.exact_dot, FNum.val_one hp, mul_one, rhs, Fin.addCases_left, sub_eq_add_neg]
    have e2 : (r.linearTerms P u l).mag = r.rhsSize P u (.castAdd nz l) := by
      rw [linearTerms, Terms.mag_cons, Terms.mag_neg hp, Terms.mag_dot, FNum.val_one hp, mul_one, rhsSize, Fin.addCases_left]
    have e3 : (r.linearTerms P u l).length ≤ 1 + nx + np := by
      rw [linearTerms, List.length_cons, Terms.length_neg, Terms.length_dot]; omega
    rw [← e1, ← e2]
    exact ⟨h1.trans (mul_le_mul_of_nonneg_right (roundings_mono p e3) (Terms.mag_nonneg _)), Terms.abs_exact _, Terms.mag_nonneg _⟩
  · have h1 := Terms.sums_error hp (h.nonlinear l)
    have e1 : (r.nonlinearTerms u l).exact = r.rhs P u (.natAdd ny l) := by
      rw [nonlinearTerms, Terms.exact_append, Terms.exact_append, Terms.exact_append, Terms.exact_neg hp, Terms.exact_dot, Terms.exact_dot, Terms.exact_dot, Terms.exact_cons, FNum.val_one hp, mul_one, rhs, Fin.addCases_right]
      simp [Terms.exact, sub_eq_add_neg]
    have e2 : (r.nonlinearTerms u l).mag = r.rhsSize P u (.natAdd ny l) := by
      rw [nonlinearTerms, Terms.mag_append, Terms.mag_append, Terms.mag_append, Terms.mag_neg hp, Terms.mag_dot, Terms.mag_dot, Terms.mag_dot, Terms.mag_cons, FNum.val_one hp, mul_one, rhsSize, Fin.addCases_right]
      simp [Terms.mag]
    have e3 : (r.nonlinearTerms u l).length ≤ 1 + nx + np := by
      rw [nonlinearTerms, List.length_append, List.length_append, List.length_append, Terms.length_neg, Terms.length_dot, Terms.length_dot, Terms.length_dot, List.length_singleton]; omega
    rw [← e1, ← e2]
    exact ⟨h1.trans (mul_le_mul_of_nonneg_right (roundings_mono p e3) (Terms.mag_nonneg _)), Terms.abs_exact _, Terms.mag_nonneg _⟩

theorem sum_split (r : FloatView p nx np ny nz) (f : Fin nx → ℚ) : ∑ i, f i = ∑ i, f (r.jb i) + ∑ i, f (r.jn i) + ∑ i, f (r.ju i) := by
  rw [← r.j.sum_comp, Fintype.sum_sum_type, Fintype.sum_sum_type, add_assoc]
  rfl

/-- The exact canonical residual is the product of `R` and the exact residuals, and the defect of the canonical form. -/
theorem canonical_exact (r : FloatView p nx np ny nz) (P : FloatProblem p nx np ny) (u : MVec (FNum p) nx np (ny + nz)) (i : Fin r.nb) :
    ∑ l, (r.R i l).val * r.rhs P u l - ((u.x (r.jb i)).val + ∑ k, (r.S i k).val * (u.x (r.jn k)).val + ∑ k, (r.Sp i k).val * (u.p k).val) = ∑ l, (r.R i l).val * r.feasibility P u l + r.defect P u i := by
  have h1 : ∀ l, r.rhs P u l = r.feasibility P u l + (∑ k, r.Wx P l (r.jb k) * (u.x (r.jb k)).val + ∑ k, r.Wx P l (r.jn k) * (u.x (r.jn k)).val + ∑ k, r.Wp P l k * (u.p k).val) := by
    intro l
    refine Fin.addCases (fun l => ?_) (fun l => ?_) l
    · simp only [rhs, feasibility, Wx, Wp, Fin.addCases_left]
      rw [r.sum_split fun i => (P.Ax l i).val * (u.x i).val]
      ring
    · simp only [rhs, feasibility, Wx, Wp, Fin.addCases_right]
      ring
  have h2 : ∀ {n : ℕ} (W : Fin (ny + nz) → Fin n → ℚ) (x : Fin n → ℚ), ∑ l, (r.R i l).val * ∑ k, W l k * x k = ∑ k, (∑ l, (r.R i l).val * W l k) * x k := by
    intro n W x
    simp only [Finset.mul_sum, Finset.sum_mul]
    rw [Finset.sum_comm]
    simp only [mul_assoc]
  have h3 : ∑ k, (if i = k then (1 : ℚ) else 0) * (u.x (r.jb k)).val = (u.x (r.jb i)).val := by simp
  simp only [h1, mul_add, Finset.sum_add_distrib, h2, defect, sub_mul, Finset.sum_sub_distrib, h3]
  ring

theorem awbs_error (hp : 0 < p) (h : r.Computes P u) (i : Fin r.nb) :
    |(r.awbs i).val - (∑ l, (r.R i l).val * r.feasibility P u l + r.defect P u i)| ≤ roundings p (ny + nz + 2 * nx + 2 * np + 6) * r.canonicalSize P u i := by
  obtain ⟨raw, ref, h1, h2, h3⟩ := h.awbs i
  rw [← canonical_exact]
  set q : ℚ := 1 / 2 ^ p with hq
  have hq0 : 0 < q := by positivity
  set n1 := 1 + nx + np
  set M : ℚ := ∑ l, |(r.R i l).val| * r.rhsSize P u l with hM
  set X : ℚ := ∑ l, (r.R i l).val * r.rhs P u l with hX
  set T : ℚ := (u.x (r.jb i)).val + ∑ k, (r.S i k).val * (u.x (r.jn k)).val + ∑ k, (r.Sp i k).val * (u.p k).val with hT
  set A : ℚ := ∑ l, |(r.R i l).val * (r.awstar l).val| with hA
  have hs := fun l => awstar_error hp h l
  have hM0 : 0 ≤ M := Finset.sum_nonneg fun l _ => mul_nonneg (abs_nonneg _) (hs l).2.2
  have hXM : |X| ≤ M := by
    refine (Finset.abs_sum_le_sum_abs _ _).trans (Finset.sum_le_sum fun l _ => ?_)
    rw [abs_mul]
    exact mul_le_mul_of_nonneg_left (hs l).2.1 (abs_nonneg _)
  have hAM : A ≤ (1 + q) ^ n1 * M := by
    rw [hM, Finset.mul_sum]
    refine Finset.sum_le_sum fun l _ => ?_
    rw [abs_mul, mul_left_comm]
    refine mul_le_mul_of_nonneg_left ?_ (abs_nonneg _)
    have : (r.awstar l).val = ((r.awstar l).val - r.rhs P u l) + r.rhs P u l := by ring
    rw [this]
    refine (abs_add_le _ _).trans ((add_le_add (hs l).1 (hs l).2.1).trans (le_of_eq ?_))
    simp only [roundings, n1, q]
    ring
  have hpow : ∀ n, (1 : ℚ) ≤ (1 + q) ^ n := fun n => one_le_pow₀ (by linarith)
  -- the product
  have g1 : |raw.val - X| ≤ ((1 + q) ^ ((ny + nz) + n1) - 1) * M := by
    have e1 := Terms.sums_error hp h1
    rw [Terms.exact_dot, Terms.mag_dot, Terms.length_dot] at e1
    have e2 : |∑ l, (r.R i l).val * (r.awstar l).val - X| ≤ ((1 + q) ^ n1 - 1) * M := by
      rw [hX, ← Finset.sum_sub_distrib, hM, Finset.mul_sum]
      refine (Finset.abs_sum_le_sum_abs _ _).trans (Finset.sum_le_sum fun l _ => ?_)
      rw [← mul_sub, abs_mul, mul_left_comm]
      exact mul_le_mul_of_nonneg_left (hs l).1 (abs_nonneg _)
    have e3 : raw.val - X = (raw.val - ∑ l, (r.R i l).val * (r.awstar l).val) + (∑ l, (r.R i l).val * (r.awstar l).val - X) := by ring
    rw [e3]
    refine (abs_add_le _ _).trans ((add_le_add (e1.trans (mul_le_mul_of_nonneg_left hAM (roundings_nonneg _ _))) e2).trans (le_of_eq ?_))
    simp only [roundings, pow_add]
    ring
  -- the reference
  have g2 : |ref.val| ≤ (1 + q) ^ ((ny + nz) + n1) * M := by
    have e1 := Terms.sums_error hp h2
    rw [Terms.exact_dot, Terms.mag_dot, Terms.length_dot] at e1
    simp only [FNum.val_abs hp, ← abs_mul, abs_abs] at e1
    have e3 : ref.val = (ref.val - A) + A := by ring
    have hA0 : 0 ≤ A := Finset.sum_nonneg fun l _ => abs_nonneg _
    rw [e3]
    refine (abs_add_le _ _).trans ?_
    rw [abs_of_nonneg hA0]
    have : roundings p (ny + nz) * A + A = (1 + q) ^ (ny + nz) * A := by simp only [roundings, q]; ring
    calc _ ≤ roundings p (ny + nz) * A + A := add_le_add e1 le_rfl
      _ = (1 + q) ^ (ny + nz) * A := this
      _ ≤ (1 + q) ^ (ny + nz) * ((1 + q) ^ n1 * M) := mul_le_mul_of_nonneg_left hAM (by linarith [hpow (ny + nz)])
      _ = _ := by rw [pow_add]; ring
  -- the entry without round-off
  set c : FNum p := if raw.abs < ref * FNum.epsilon then 0 else raw with hc
  have g3 : |c.val - X| ≤ ((1 + q) ^ ((ny + nz) + n1 + 3) - 1) * M := by
    have e0 : (1 + q) ^ ((ny + nz) + n1) * (2 * q) * M + ((1 + q) ^ ((ny + nz) + n1) - 1) * M ≤ ((1 + q) ^ ((ny + nz) + n1 + 3) - 1) * M := by
      rw [← add_mul]
      refine mul_le_mul_of_nonneg_right ?_ hM0
      have : (1 + q) ^ ((ny + nz) + n1 + 3) = (1 + q) ^ ((ny + nz) + n1) * (1 + q) ^ 3 := pow_add _ _ _
      rw [this]
      have : 0 ≤ (1 + q) ^ ((ny + nz) + n1) * (q + 3 * q ^ 2 + q ^ 3) := by positivity
      nlinarith
    by_cases hlt : raw.abs < ref * FNum.epsilon
    · rw [hc, if_pos hlt, FNum.val_zero]
      rw [FNum.lt_iff, FNum.val_abs hp, FNum.val_mul_epsilon hp] at hlt
      have e1 : |raw.val| ≤ (1 + q) ^ ((ny + nz) + n1) * (2 * q) * M := by
        have := mul_le_mul_of_nonneg_right ((le_abs_self ref.val).trans g2) (by positivity : (0 : ℚ) ≤ 2 * q)
        have e : FNum.unit p = q := rfl
        rw [e] at hlt
        linarith
      have e2 : (0 : ℚ) - X = -raw.val + (raw.val - X) := by ring
      rw [e2]
      refine (abs_add_le _ _).trans ?_
      rw [abs_neg]
      linarith
    · rw [hc, if_neg hlt]
      have : 0 ≤ (1 + q) ^ ((ny + nz) + n1) * (2 * q) * M := by positivity
      linarith
  -- the difference
  have g4 := Terms.sums_error hp h3
  have e1 : Terms.exact ((c, 1) :: (r.canonicalTerms u i).neg) = c.val - T := by
    rw [Terms.exact_cons, Terms.exact_neg hp, FNum.val_one hp, mul_one, canonicalTerms, Terms.exact_cons, Terms.exact_append, Terms.exact_dot, Terms.exact_dot, FNum.val_one hp, mul_one, hT]
    ring
  set U : ℚ := |(u.x (r.jb i)).val| + ∑ k, |(r.S i k).val * (u.x (r.jn k)).val| + ∑ k, |(r.Sp i k).val * (u.p k).val| with hU
  have e2 : Terms.mag ((c, 1) :: (r.canonicalTerms u i).neg) = |c.val| + U := by
    rw [Terms.mag_cons, Terms.mag_neg hp, FNum.val_one hp, mul_one, canonicalTerms, Terms.mag_cons, Terms.mag_append, Terms.mag_dot, Terms.mag_dot, FNum.val_one hp, mul_one, hU]
    ring
  have e3 : ((c, (1 : FNum p)) :: (r.canonicalTerms u i).neg).length ≤ 2 + nx + np := by
    have := r.sizes
    rw [List.length_cons, Terms.length_neg, canonicalTerms, List.length_cons, List.length_append, Terms.length_dot, Terms.length_dot]
    omega
  rw [e1, e2] at g4
  have hU0 : 0 ≤ U := by positivity
  have g5 : |c.val| ≤ (1 + q) ^ ((ny + nz) + n1 + 3) * M := by
    have : c.val = (c.val - X) + X := by ring
    rw [this]
    exact (abs_add_le _ _).trans (by linarith)
  have g6 : |(r.awbs i).val - (c.val - T)| ≤ ((1 + q) ^ (2 + nx + np) - 1) * ((1 + q) ^ ((ny + nz) + n1 + 3) * M + U) := by
    refine g4.trans ((mul_le_mul_of_nonneg_right (roundings_mono p e3) (by positivity)).trans ?_)
    exact mul_le_mul_of_nonneg_left (by linarith) (roundings_nonneg p (2 + nx + np))
  have e4 : (r.awbs i).val - (X - T) = ((r.awbs i).val - (c.val - T)) + (c.val - X) := by ring
  rw [e4]
  refine (abs_add_le _ _).trans ((add_le_add g6 g3).trans ?_)
  have e5 : ny + nz + 2 * nx + 2 * np + 6 = (2 + nx + np) + ((ny + nz) + n1 + 3) := by simp only [n1]; ring
  have e6 : r.canonicalSize P u i = M + U := rfl
  have e7 : roundings p ((2 + nx + np) + (ny + nz + n1 + 3)) = (1 + q) ^ (2 + nx + np) * (1 + q) ^ (ny + nz + n1 + 3) - 1 := by rw [roundings, pow_add _ (2 + nx + np)]
  rw [e5, e6, e7]
  have h7 := hpow (2 + nx + np)
  have h8 := hpow ((ny + nz) + n1 + 3)
  set a := (1 + q) ^ (2 + nx + np)
  set b := (1 + q) ^ ((ny + nz) + n1 + 3)
  have h9 : 0 ≤ (a * b - a) * U := mul_nonneg (by nlinarith) hU0
  change (a - 1) * (b * M + U) + (b - 1) * M ≤ (a * b - 1) * (M + U)
  nlinarith

/-- **C72 (a reported error in floating-point arithmetic)**: if the computed error is below the tolerance then, up to the rounding errors of the sums, in whichever order they are evaluated,
    (a) every component of the exact gradient of the Lagrange function, except those of unstable variables and of basic variables on a bound, is below the tolerance;
    (b) every component of `v` is below the tolerance, without rounding errors;
    (c) the product of `R` and the exact residuals of the constraints is below the tolerance, up to the defect of the canonical form, which C68 shows not to be small in general. -/
theorem error_double (hp : 0 < p) (h : r.Computes P u) {tol : ℚ} (he : (r.error P u).val < tol) :
    (∀ i, (∀ k, i ≠ r.ju k) → (∀ k, i = r.jb k → some (u.x i) ≠ P.xlower i ∧ some (u.x i) ≠ P.xupper i) → |r.gradient P u i| < tol + roundings p (1 + ny + nz) * r.gradientSize P u i) ∧
    (∀ l, |(r.v l).val| < tol) ∧
    (∀ i, |∑ l, (r.R i l).val * r.feasibility P u l| < tol + |r.defect P u i| + roundings p (ny + nz + 2 * nx + 2 * np + 6) * r.canonicalSize P u i) := by
  have hle : ∀ a, a ≤ r.error P u → a.val < tol := fun a ha => lt_of_le_of_lt ha he
  refine ⟨fun i h1 h2 => ?_, fun l => ?_, fun i => ?_⟩
  · have h3 : |(r.ax i).val| < tol := by
      have e : r.ex P u i = (r.ax i).abs := by
        unfold ex
        rcases hj : r.j.symm i with k | k | k
        · have : i = r.jb k := by rw [jb, ← hj, Equiv.apply_symm_apply]
          have := h2 k this
          simp only
          rw [if_neg (by push Not; exact this)]
        · rfl
        · exact absurd (show i = r.ju k by rw [ju, ← hj, Equiv.apply_symm_apply]) (h1 k)
      have := hle _ ((le_norminf (r.ex P u) i).trans ((le_max_left _ _).trans (le_max_left _ _)))
      rwa [e, FNum.val_abs hp] at this
    have h4 := ax_error hp h i h1
    have : r.gradient P u i = ((r.ax i).val + r.gradient P u i) - (r.ax i).val := by ring
    rw [this]
    exact lt_of_le_of_lt (abs_sub _ _) (by linarith)
  · have := hle _ ((le_norminf (fun l => (r.ap l).abs) l).trans ((le_max_right _ _).trans (le_max_left _ _)))
    rwa [FNum.val_abs hp, h.ap, FNum.val_neg hp, abs_neg] at this
  · have h3 := hle _ ((le_norminf (fun l => (r.awbs l).abs) i).trans ((le_max_left _ _).trans (le_max_right _ _)))
    rw [FNum.val_abs hp] at h3
    have h4 := awbs_error hp h i
    set F := ∑ l, (r.R i l).val * r.feasibility P u l
    have : F = ((r.awbs i).val - ((r.awbs i).val - (F + r.defect P u i))) - r.defect P u i := by ring
    rw [this]
    refine lt_of_le_of_lt ((abs_sub _ _).trans (add_le_add (abs_sub _ _) le_rfl)) (by linarith)

/-- `norminf` is one of the entries or zero. -/
theorem norminf_lt {n : ℕ} (f : Fin n → FNum p) {tol : ℚ} (h0 : 0 < tol) (h : ∀ i, (f i).val < tol) : (norminf f).val < tol := by
  have key : ∀ (l : List (Fin n)) (s : FNum p), s.val < tol → (l.foldl (fun s i => max s (f i)) s).val < tol := by
    intro l
    induction l with
    | nil => exact fun s hs => hs
    | cons i l ih =>
      intro s hs
      refine ih _ ?_
      change (max s (f i)).val < tol
      rcases max_choice s (f i) with e | e
      · rw [e]; exact hs
      · rw [e]; exact h i
  exact key _ 0 (by rw [FNum.val_zero]; exact h0)

/-- **C72, converse (small residuals are recognised)**: if the exact residuals, enlarged by the bounds for the rounding errors and by the defect of the canonical form, are below the tolerance then so is the computed error.  The gradients of unstable variables and of basic
    variables on a bound do not matter, nor do rows of `W` without a basic variable. -/
theorem error_double_small (hp : 0 < p) (h : r.Computes P u) {tol : ℚ} (h0 : 0 < tol) (hrest : r.rest.val < tol)
    (hg : ∀ i, (∀ k, i ≠ r.ju k) → (∀ k, i = r.jb k → some (u.x i) ≠ P.xlower i ∧ some (u.x i) ≠ P.xupper i) → |r.gradient P u i| + roundings p (1 + ny + nz) * r.gradientSize P u i < tol)
    (hv : ∀ l, |(r.v l).val| < tol)
    (hw : ∀ i, |∑ l, (r.R i l).val * r.feasibility P u l| + |r.defect P u i| + roundings p (ny + nz + 2 * nx + 2 * np + 6) * r.canonicalSize P u i < tol) : (r.error P u).val < tol := by
  have hmax : ∀ a b : FNum p, a.val < tol → b.val < tol → (max a b).val < tol := fun a b ha hb => by
    rcases max_choice a b with e | e <;> rw [e] <;> assumption
  have key : ∀ i, (∀ k, i ≠ r.ju k) → (∀ k, i = r.jb k → some (u.x i) ≠ P.xlower i ∧ some (u.x i) ≠ P.xupper i) → ((r.ax i).abs).val < tol := by
    intro i h1 h2
    rw [FNum.val_abs hp]
    have h4 := ax_error hp h i h1
    have e : (r.ax i).val = ((r.ax i).val + r.gradient P u i) - r.gradient P u i := by ring
    rw [e]
    exact lt_of_le_of_lt (abs_sub _ _) (lt_of_le_of_lt (add_le_add h4 le_rfl) (by linarith [hg i h1 h2]))
  refine hmax _ _ (hmax _ _ (norminf_lt _ h0 fun i => ?_) (norminf_lt _ h0 fun l => ?_)) (hmax _ _ (norminf_lt _ h0 fun i => ?_) hrest)
  · unfold ex
    rcases hj : r.j.symm i with k | k | k
    · have hi : i = r.jb k := by rw [jb, ← hj, Equiv.apply_symm_apply]
      have hne : ∀ k', i ≠ r.ju k' := fun k' e => by
        rw [e, ju, Equiv.symm_apply_apply] at hj; cases hj
      dsimp only
      split_ifs with hb
      · rw [FNum.val_zero]; exact h0
      · push Not at hb
        exact key i hne fun _ _ => hb
    · refine key i (fun k' e => ?_) (fun k' e => ?_)
      · rw [e, ju, Equiv.symm_apply_apply] at hj; cases hj
      · rw [e, jb, Equiv.symm_apply_apply] at hj; cases hj
    · change (0 : FNum p).val < tol
      rw [FNum.val_zero]; exact h0
  · rw [FNum.val_abs hp, h.ap, FNum.val_neg hp, abs_neg]; exact hv l
  · rw [FNum.val_abs hp]
    have h4 := awbs_error hp h i
    set F := ∑ l, (r.R i l).val * r.feasibility P u l
    have e : (r.awbs i).val = ((r.awbs i).val - (F + r.defect P u i)) + (F + r.defect P u i) := by ring
    rw [e]
    refine lt_of_le_of_lt ((abs_add_le _ _).trans (add_le_add h4 (abs_add_le _ _))) ?_
    linarith [hw i]

/-- **C72, feasibility**: where `R` has a left inverse `L`, the exact residuals of the constraints themselves. -/
theorem feasibility_double (hp : 0 < p) (h : r.Computes P u) {tol : ℚ} (he : (r.error P u).val < tol) (L : Fin (ny + nz) → Fin r.nb → ℚ) (hL : ∀ l k, ∑ i, L l i * (r.R i k).val = if l = k then 1 else 0) (l : Fin (ny + nz)) :
    |r.feasibility P u l| ≤ ∑ i, |L l i| * (tol + |r.defect P u i| + roundings p (ny + nz + 2 * nx + 2 * np + 6) * r.canonicalSize P u i) := by
  have h1 := (error_double hp h he).2.2
  have h2 : r.feasibility P u l = ∑ i, L l i * ∑ k, (r.R i k).val * r.feasibility P u k := by
    calc r.feasibility P u l = ∑ k, (if l = k then 1 else 0) * r.feasibility P u k := by simp
      _ = ∑ k, ∑ i, L l i * (r.R i k).val * r.feasibility P u k := by simp only [← hL, Finset.sum_mul]
      _ = _ := by rw [Finset.sum_comm]; simp only [Finset.mul_sum, mul_assoc]
  rw [h2]
  refine (Finset.abs_sum_le_sum_abs _ _).trans (Finset.sum_le_sum fun i _ => ?_)
  rw [abs_mul]
  exact mul_le_mul_of_nonneg_left (h1 i).le (abs_nonneg _)

end FloatView

/-! ## The solver -/

section solve
variable {nx np ny nz : ℕ} {σ : Type*} {m : Machine σ (FNum p) nx np (ny + nz)} {P : FloatProblem p nx np ny} {View : σ → MVec (FNum p) nx np (ny + nz) → FloatView p nx np ny nz → Prop}

/-- The final state of a solve holds results of an evaluation at the final point. -/
theorem FloatMachine.final (h : FloatMachine m P View) (o : SolveOptions (FNum p)) (B : Bounds (FNum p) nx np) (mach : σ) (history : History (FNum p)) (u : MVec (FNum p) nx np (ny + nz))
    {t : SolveState σ (FNum p) nx np (ny + nz)} (hs : Solve m o B mach history u (some t)) : ∃ r, View t.mach t.u r := by
  obtain ⟨s, n, t0, t1, -, -, g2, g3, -⟩ := (solve_budget m o B mach history u).2 t hs
  have h1 : ∃ r, View t1.mach t1.u r := by
    unfold step at g2
    dsimp only at g2
    split at g2
    · cases g2
    · split at g2
      · cases g2
      · split at g2
        · cases g2
        · rename_i s2 _
          obtain ⟨e1, -, -, -, -, e6⟩ := evalAt_u g2
          rw [e1]
          exact h.eval _ _ _ e6
  obtain ⟨r, hr⟩ := h1
  refine ⟨r, ?_⟩
  revert g3
  generalize false = b
  intro g3
  unfold stepping at g3
  dsimp only at g3
  split_ifs at g3
  · cases g3; exact hr
  · split at g3
    · cases g3; exact hr
    · split at g3
      · cases g3; exact hr
      · rename_i f hf
        split at g3
        · cases g3
        · rename_i t' c hc
          cases g3
          exact h.check _ hf _ _ _ _ _ _ hc r hr

/-- **C72 (success in floating-point arithmetic)**: whatever the user functions, the echelon forms, the Newton steps and their rounding, the options, the history and the start, if a solve succeeds and not because of the user check then the results of the
    user functions at the returned point satisfy the optimality conditions, the external constraints and the canonical equality constraints up to the tolerance and the rounding errors of one evaluation of the residuals. -/
theorem success_double (hp : 0 < p) (h : FloatMachine m P View) (o : SolveOptions (FNum p)) (B : Bounds (FNum p) nx np) (mach : σ) (history : History (FNum p)) (u : MVec (FNum p) nx np (ny + nz))
    {t : SolveState σ (FNum p) nx np (ny + nz)} (hs : Solve m o B mach history u (some t)) (hsucc : (solveResult o t).succeeded = true) (hc : ∀ t1, t1.u = t.u → ¬ CheckAccepts m t1) :
    ∃ r, View t.mach t.u r ∧
      (∀ i, (∀ k, i ≠ r.ju k) → (∀ k, i = r.jb k → some (t.u.x i) ≠ P.xlower i ∧ some (t.u.x i) ≠ P.xupper i) → |r.gradient P t.u i| < o.tolerance.val + roundings p (1 + ny + nz) * r.gradientSize P t.u i) ∧
      (∀ l, |(r.v l).val| < o.tolerance.val) ∧
      (∀ i, |∑ l, (r.R i l).val * r.feasibility P t.u l| < o.tolerance.val + |r.defect P t.u i| + roundings p (ny + nz + 2 * nx + 2 * np + 6) * r.canonicalSize P t.u i) ∧
      (∀ L : Fin (ny + nz) → Fin r.nb → ℚ, (∀ l k, ∑ i, L l i * (r.R i k).val = if l = k then 1 else 0) → ∀ l,
        |r.feasibility P t.u l| ≤ ∑ i, |L l i| * (o.tolerance.val + |r.defect P t.u i| + roundings p (ny + nz + 2 * nx + 2 * np + 6) * r.canonicalSize P t.u i)) := by
  obtain ⟨r, hr⟩ := h.final o B mach history u hs
  obtain ⟨h1, h2⟩ := h.computes _ _ _ hr
  have he : (r.error P t.u).val < o.tolerance.val := by
    rcases success_converged m o B mach history u t hs hsucc with e | ⟨t1, e1, -, e3⟩
    · rwa [h2] at e
    · exact absurd e3 (hc t1 e1)
  exact ⟨r, hr, (FloatView.error_double hp h1 he).1, (FloatView.error_double hp h1 he).2.1, (FloatView.error_double hp h1 he).2.2, fun L hL l => FloatView.feasibility_double hp h1 he L hL l⟩

/-- The state after a step holds results of an evaluation at its point. -/
theorem FloatMachine.visited (h : FloatMachine m P View) {o : SolveOptions (FNum p)} {B : Bounds (FNum p) nx np} {s t : SolveState σ (FNum p) nx np (ny + nz)} (hv : Visits m o B s t) : ∃ r, View t.mach t.u r := by
  induction hv with
  | here s s1 g =>
    unfold step at g
    dsimp only at g
    split at g
    · cases g
    · split at g
      · cases g
      · split at g
        · cases g
        · obtain ⟨e1, -, -, -, -, e6⟩ := evalAt_u g
          rw [e1]
          exact h.eval _ _ _ e6
  | later s s1 s2 t _ _ _ ih => exact ih

/-- **C72, converse**: a solve that reaches, within the allowed number of iterations, a point where the exact residuals are below the tolerance by more than the rounding errors and the defect of the canonical form stops there and succeeds. -/
theorem success_double_small (hp : 0 < p) (h : FloatMachine m P View) (o : SolveOptions (FNum p)) (B : Bounds (FNum p) nx np) (mach : σ) (history : History (FNum p)) (u : MVec (FNum p) nx np (ny + nz)) (h0 : 0 < o.tolerance.val)
    {s t v : SolveState σ (FNum p) nx np (ny + nz)} (hs : Solve m o B mach history u (some t)) (hi : solveInit m B mach history u = some s) (hv : Visits m o B s v) (hn : v.iterations ≤ o.maxiters)
    (hsmall : ∀ r, View v.mach v.u r → r.rest.val < o.tolerance.val ∧
      (∀ i, (∀ k, i ≠ r.ju k) → (∀ k, i = r.jb k → some (v.u.x i) ≠ P.xlower i ∧ some (v.u.x i) ≠ P.xupper i) → |r.gradient P v.u i| + roundings p (1 + ny + nz) * r.gradientSize P v.u i < o.tolerance.val) ∧
      (∀ l, |(r.v l).val| < o.tolerance.val) ∧
      (∀ i, |∑ l, (r.R i l).val * r.feasibility P v.u l| + |r.defect P v.u i| + roundings p (ny + nz + 2 * nx + 2 * np + 6) * r.canonicalSize P v.u i < o.tolerance.val)) :
    (solveResult o t).succeeded = true ∧ (solveResult o t).iterations = v.iterations := by
  obtain ⟨r, hr⟩ := h.visited hv
  obtain ⟨h1, h2⟩ := h.computes _ _ _ hr
  obtain ⟨a1, a2, a3, a4⟩ := hsmall r hr
  have ha : Accepted m o v := Or.inl (by
    rw [h2, FNum.lt_iff]
    exact FloatView.error_double_small hp h1 h0 a1 a2 a3 a4)
  obtain ⟨s', n, t0, t1, g1, -, -, -, -, -, g5, -⟩ := (solve_budget m o B mach history u).2 t hs
  rw [hi] at g1
  cases g1
  refine ⟨g5.2 ⟨v, hv, hn, ha⟩, ?_⟩
  cases hs with
  | run s' r e hl =>
    rw [hi] at e
    cases e
    exact visits_accepted_last hv hn ha t hl

end solve

/-! ## The hypotheses are met

The machine of the solver for one variable and one constraint, for every objective function, computes its error in this way. -/

namespace OneProblem

variable (P : OneProblem p)

/-- The constants of the problem. -/
def data : FloatProblem p 1 0 1 := { Ax := fun _ _ => P.a, Ap := fun _ k => k.elim0, b := fun _ => P.b, xlower := fun _ => none, xupper := fun _ => none }

/-- What an evaluation at `u` computes. -/
def view (u : MVec (FNum p) 1 0 1) : FloatView p 1 0 1 0 where
  g := fun _ => P.g (u.x 0)
  v := fun k => k.elim0
  h := fun k => k.elim0
  Jx := fun k => k.elim0
  Jp := fun k => k.elim0
  nb := 1
  nn := 0
  nu := 0
  j := { toFun := fun _ => 0, invFun := fun _ => .inl 0, left_inv := fun i => by obtain i | i | i := i; exacts [congrArg _ (Subsingleton.elim _ _), i.elim0, i.elim0], right_inv := fun _ => Subsingleton.elim _ _ }
  R := P.R
  S := fun _ k => k.elim0
  Sp := fun _ k => k.elim0
  ax := fun _ => (P.eval u).ax
  ap := fun k => k.elim0
  awstar := fun _ => P.b
  awbs := fun _ => (P.eval u).awbs
  rest := 0

theorem floatMachine (hp : 0 < p) : FloatMachine (ny := 1) (nz := 0) P.machine P.data (fun s u r => s = P.eval u ∧ r = P.view u) where
  eval := fun s u s' e => ⟨P.view u, by cases e; rfl, rfl⟩
  computes := by
    rintro s u r ⟨rfl, rfl⟩
    refine ⟨⟨fun i _ => ?_, fun l => l.elim0, fun l => ?_, fun l => l.elim0, fun i => ?_⟩, ?_⟩
    · have e : (P.view u).gradientTerms P.data u i = [(P.g (u.x 0), 1), (P.a, u.w 0)] := by
        unfold FloatView.gradientTerms
        rw [Terms.dot_one, Terms.dot_zero]
        rfl
      rw [e]
      exact .neg (.add (.entry _) (.mul _ _))
    · have e : (P.view u).linearTerms P.data u l = [(P.b, 1)] := by
        unfold FloatView.linearTerms
        exact congrArg (List.cons _) (congrArg Terms.neg (Terms.dot_zero _ _))
      rw [e]
      exact .entry _
    · refine ⟨_, _, Terms.sums_dot _ _, Terms.sums_dot _ _, ?_⟩
      have e : (P.view u).canonicalTerms u i = [(u.x 0, 1)] := by
        unfold FloatView.canonicalTerms
        exact congrArg (List.cons _) (congrArg₂ List.append (Terms.dot_zero _ _) (Terms.dot_zero _ _))
      rw [e]
      have h : Terms.Sums [(FNum.multiplyClean P.R (fun _ => P.b) 0, 1)] (FNum.multiplyClean P.R (fun _ => P.b) 0) := .entry _
      have hi : i = (0 : Fin 1) := Subsingleton.elim (α := Fin 1) _ _
      rw [hi]
      exact h.sub (.entry (u.x 0))
    · have h0 : ∀ a : FNum p, 0 ≤ a.abs := fun a => by rw [FNum.le_iff, FNum.val_zero, FNum.val_abs hp]; exact abs_nonneg _
      have e1 : FloatView.norminf ((P.view u).ex P.data u) = (P.eval u).ax.abs := by
        rw [FloatView.norminf_one]
        exact max_eq_right (h0 _)
      have e2 : FloatView.norminf (fun l => ((P.view u).ap l).abs) = 0 := FloatView.norminf_zero _
      have e3 : FloatView.norminf (fun i => ((P.view u).awbs i).abs) = (P.eval u).awbs.abs := (FloatView.norminf_one _).trans (max_eq_right (h0 _))
      unfold FloatView.error
      rw [e1, e2, e3, max_eq_left (h0 _)]
      exact (congrArg (max _) (max_eq_left (h0 _))).symm
  check := fun _ h => by cases h

theorem view_gradient (v : MVec (FNum p) 1 0 1) : (P.view v).gradient P.data v 0 = (P.g (v.x 0)).val + P.a.val * (v.w 0).val := by
  unfold FloatView.gradient
  rw [Fin.sum_univ_one, Fin.sum_univ_zero, add_zero]
  rfl

theorem view_gradientSize (v : MVec (FNum p) 1 0 1) : (P.view v).gradientSize P.data v 0 = |(P.g (v.x 0)).val| + |P.a.val * (v.w 0).val| := by
  unfold FloatView.gradientSize
  rw [Fin.sum_univ_one, Fin.sum_univ_zero, add_zero]
  rfl

theorem view_feasibility (v : MVec (FNum p) 1 0 1) : ∑ l, ((P.view v).R (0 : Fin 1) l).val * (P.view v).feasibility P.data v l = (P.R 0 0).val * (P.b.val - P.a.val * (v.x 0).val) := by
  refine (Fin.sum_univ_one (M := ℚ) _).trans (congrArg (_ * ·) ?_)
  change (P.data.b 0).val - ∑ i, (P.data.Ax 0 i).val * (v.x i).val - ∑ k, (P.data.Ap 0 k).val * (v.p k).val = _
  rw [Fin.sum_univ_one, Fin.sum_univ_zero, sub_zero]
  rfl

theorem view_defect (v : MVec (FNum p) 1 0 1) : (P.view v).defect P.data v (0 : Fin 1) = ((P.R 0 0).val * P.a.val - 1) * (v.x 0).val := by
  unfold FloatView.defect
  refine (congrArg₂ (· + ·) (congrArg₂ (· + ·) (Fin.sum_univ_one (M := ℚ) _) (Fin.sum_univ_zero (M := ℚ) _)) (Fin.sum_univ_zero (M := ℚ) _)).trans ?_
  rw [add_zero, add_zero]
  refine congrArg (· * (v.x 0).val) (congrArg₂ (· - ·) (Fin.sum_univ_one (M := ℚ) _) (if_pos rfl))

theorem view_canonicalSize (v : MVec (FNum p) 1 0 1) : (P.view v).canonicalSize P.data v (0 : Fin 1) = |(P.R 0 0).val| * |P.b.val| + |(v.x 0).val| := by
  unfold FloatView.canonicalSize
  refine congrArg₂ (· + ·) ((Fin.sum_univ_one (M := ℚ) _).trans (congrArg (|(P.R 0 0).val| * ·) ?_)) ?_
  · change |(P.data.b 0).val| + _ = _
    refine (congrArg (_ + ·) (Fin.sum_univ_zero (M := ℚ) _)).trans ?_
    rw [add_zero]
    rfl
  · refine (congrArg₂ (· + ·) (congrArg (_ + ·) (Fin.sum_univ_zero (M := ℚ) _)) (Fin.sum_univ_zero (M := ℚ) _)).trans ?_
    rw [add_zero, add_zero]
    rfl

/-- **C72 for one variable and one constraint**: if the solve succeeds then the gradient of the Lagrange function is below the tolerance up to two roundings, and so is the constraint times `R`, up to nine roundings and the defect `R·a - 1` of the
    canonical form. -/
theorem success_double (hp : 0 < p) (o : SolveOptions (FNum p)) (mach : OneState p) (history : History (FNum p)) (u : MVec (FNum p) 1 0 1) {t} (h : Solve P.machine o bounds mach history u (some t))
    (hsucc : (solveResult o t).succeeded = true) :
    |(P.g (t.u.x 0)).val + P.a.val * (t.u.w 0).val| < o.tolerance.val + ((1 + 1 / 2 ^ p) ^ 2 - 1) * (|(P.g (t.u.x 0)).val| + |P.a.val * (t.u.w 0).val|) ∧
    |(P.R 0 0).val * (P.b.val - P.a.val * (t.u.x 0).val)| < o.tolerance.val + |((P.R 0 0).val * P.a.val - 1) * (t.u.x 0).val| + ((1 + 1 / 2 ^ p) ^ 9 - 1) * (|(P.R 0 0).val| * |P.b.val| + |(t.u.x 0).val|) := by
  obtain ⟨r, ⟨-, rfl⟩, h1, -, h3, -⟩ := Optima.success_double (ny := 1) (nz := 0) hp (P.floatMachine hp) o bounds mach history u h hsucc (fun _ _ ⟨f, _, hf, _⟩ => by cases hf)
  constructor
  · have := h1 0 (fun k => k.elim0) (fun k _ => ⟨fun e => (by cases e), fun e => (by cases e)⟩)
    rwa [P.view_gradient, P.view_gradientSize] at this
  · have := h3 (0 : Fin 1)
    rwa [P.view_feasibility, P.view_defect, P.view_canonicalSize] at this

/-- **C72, converse, for one variable and one constraint**: a solve that reaches in time a point where the two residuals, enlarged by the rounding errors and the defect of the canonical form, are below the tolerance succeeds there. -/
theorem success_double_small (hp : 0 < p) (o : SolveOptions (FNum p)) (mach : OneState p) (history : History (FNum p)) (u : MVec (FNum p) 1 0 1) (h0 : 0 < o.tolerance.val) {s t v : SolveState (OneState p) (FNum p) 1 0 1}
    (h : Solve P.machine o bounds mach history u (some t)) (hi : solveInit P.machine bounds mach history u = some s) (hv : Visits P.machine o bounds s v) (hn : v.iterations ≤ o.maxiters)
    (hg : |(P.g (v.u.x 0)).val + P.a.val * (v.u.w 0).val| + ((1 + 1 / 2 ^ p) ^ 2 - 1) * (|(P.g (v.u.x 0)).val| + |P.a.val * (v.u.w 0).val|) < o.tolerance.val)
    (hw : |(P.R 0 0).val * (P.b.val - P.a.val * (v.u.x 0).val)| + |((P.R 0 0).val * P.a.val - 1) * (v.u.x 0).val| + ((1 + 1 / 2 ^ p) ^ 9 - 1) * (|(P.R 0 0).val| * |P.b.val| + |(v.u.x 0).val|) < o.tolerance.val) :
    (solveResult o t).succeeded = true ∧ (solveResult o t).iterations = v.iterations := by
  refine Optima.success_double_small (ny := 1) (nz := 0) hp (P.floatMachine hp) o bounds mach history u h0 h hi hv hn ?_
  rintro r ⟨-, rfl⟩
  refine ⟨?_, fun i _ _ => ?_, fun l => l.elim0, fun i => ?_⟩
  · change (0 : FNum p).val < _
    rw [FNum.val_zero]
    exact h0
  · have : i = 0 := Subsingleton.elim _ _
    rw [this, P.view_gradient, P.view_gradientSize]
    exact hg
  · have hi : i = (0 : Fin 1) := Subsingleton.elim (α := Fin 1) _ _
    rw [hi, P.view_feasibility, P.view_defect, P.view_canonicalSize]
    exact hw

/-- The defect of the canonical form, C68, for `A = [a]`: it grows with the square of `a`. -/
theorem defect_bound (hp : 3 ≤ p) (ha : P.a.val ≠ 0) : |(P.R 0 0).val * P.a.val - 1| ≤ (4 + 127 * P.a.val ^ 2) / 2 ^ p := by
  have hp0 : 0 < p := by omega
  set q : ℚ := 1 / 2 ^ p with hq
  have hq0 : 0 < q := by positivity
  have hq1 : q ≤ 1 / 8 := by
    rw [hq, show (8 : ℚ) = 2 ^ 3 by norm_num]
    exact one_div_le_one_div_of_le (by positivity) (pow_le_pow_right₀ (by norm_num) hp)
  have h1 := FNum.echelon_kept_partial hp0 (fun (_ : Fin 1) (_ : Fin 1) => P.a) P.R0 0 0
  rw [Fin.sum_univ_one, Fin.sum_univ_one, Fin.sum_univ_one, maxAbs_one_val hp0] at h1
  have h2 : |(P.R0 0 0).val * P.a.val - 1| ≤ q := by
    change |Fl.rnd p ((1 : FNum p).val / P.a.val) * P.a.val - 1| ≤ q
    rw [FNum.val_one hp0]
    have := Fl.rnd_error p (1 / P.a.val)
    have e : Fl.rnd p (1 / P.a.val) * P.a.val - 1 = (Fl.rnd p (1 / P.a.val) - 1 / P.a.val) * P.a.val := by field_simp
    rw [e, abs_mul]
    refine (mul_le_mul_of_nonneg_right this (abs_nonneg _)).trans (le_of_eq ?_)
    rw [div_mul_eq_mul_div, ← abs_mul, div_mul_cancel₀ _ ha, abs_one]
  have h3 : |(P.R0 0 0).val| * |P.a.val| ≤ 1 + q := by
    rw [← abs_mul]
    have : (P.R0 0 0).val * P.a.val = ((P.R0 0 0).val * P.a.val - 1) + 1 := by ring
    rw [this]
    refine (abs_add_le _ _).trans ?_
    rw [abs_one]
    linarith
  have h4 : |(P.R 0 0).val * P.a.val - 1| ≤ |(P.R 0 0).val * P.a.val - (P.R0 0 0).val * P.a.val| + |(P.R0 0 0).val * P.a.val - 1| := by
    have : (P.R 0 0).val * P.a.val - 1 = ((P.R 0 0).val * P.a.val - (P.R0 0 0).val * P.a.val) + ((P.R0 0 0).val * P.a.val - 1) := by ring
    rw [this]
    exact abs_add_le _ _
  have h5 : |(P.R 0 0).val * P.a.val - (P.R0 0 0).val * P.a.val| ≤ q * (1 + q) * (((1 + q) * (100 * |P.a.val|) + 2 * |(P.R0 0 0).val|) * |P.a.val|) := h1
  have h6 : ((1 + q) * (100 * |P.a.val|) + 2 * |(P.R0 0 0).val|) * |P.a.val| ≤ (1 + q) * (100 * P.a.val ^ 2 + 2) := by
    rw [← sq_abs]
    nlinarith
  have h7 : q * (1 + q) * (((1 + q) * (100 * |P.a.val|) + 2 * |(P.R0 0 0).val|) * |P.a.val|) ≤ q * (1 + q) * ((1 + q) * (100 * P.a.val ^ 2 + 2)) := mul_le_mul_of_nonneg_left h6 (by positivity)
  have h8 : (1 + q) * (1 + q) ≤ 81 / 64 := by nlinarith
  have h9 : q * (1 + q) * ((1 + q) * (100 * P.a.val ^ 2 + 2)) ≤ q * (81 / 64 * (100 * P.a.val ^ 2 + 2)) := by
    have e : q * (1 + q) * ((1 + q) * (100 * P.a.val ^ 2 + 2)) = q * ((1 + q) * (1 + q) * (100 * P.a.val ^ 2 + 2)) := by ring
    rw [e]
    exact mul_le_mul_of_nonneg_left (mul_le_mul_of_nonneg_right h8 (by positivity)) hq0.le
  have h10 : (4 + 127 * P.a.val ^ 2) / 2 ^ p = q * (4 + 127 * P.a.val ^ 2) := by rw [hq]; ring
  rw [h10]
  have h11 : 0 ≤ q * P.a.val ^ 2 := by positivity
  linarith

/-- **C72, feasibility in `double`**: for every constraint `a·x = b` with `0 < |a| ≤ 5·10⁶` and every objective function, a successful solve satisfies the constraint up to the tolerance, the defect of the canonical form, which is at most
    `(4 + 127·a²)·2⁻⁵³`, and nine roundings.  For `a = 1.1·10⁷` this is no longer so (`double_wrong_solution`, C68). -/
theorem feasible_double (P : OneProblem 53) (ha : P.a.val ≠ 0) (ha' : |P.a.val| ≤ 5 * 10 ^ 6) (o : SolveOptions Double) (mach : OneState 53) (history : History Double) (u : MVec Double 1 0 1) {t}
    (h : Solve P.machine o bounds mach history u (some t)) (hsucc : (solveResult o t).succeeded = true) :
    |P.b.val - P.a.val * (t.u.x 0).val| ≤ 2 * |P.a.val| * (o.tolerance.val + (4 + 127 * P.a.val ^ 2) / 2 ^ 53 * |(t.u.x 0).val| + ((1 + 1 / 2 ^ 53) ^ 9 - 1) * (2 * |P.b.val| / |P.a.val| + |(t.u.x 0).val|)) := by
  have h1 := (P.success_double (by norm_num) o mach history u h hsucc).2
  have h2 := P.defect_bound (by norm_num) ha
  set d : ℚ := (4 + 127 * P.a.val ^ 2) / 2 ^ 53 with hd
  set G : ℚ := (1 + 1 / 2 ^ 53) ^ 9 - 1 with hG
  have hG0 : 0 ≤ G := roundings_nonneg 53 9
  have hd2 : d ≤ 1 / 2 := by
    have : P.a.val ^ 2 ≤ (5 * 10 ^ 6) ^ 2 := by rw [← sq_abs]; exact pow_le_pow_left₀ (abs_nonneg _) ha' 2
    rw [hd, div_le_iff₀ (by positivity)]
    norm_num at this ⊢
    linarith
  set R := (P.R 0 0).val
  have hapos : 0 < |P.a.val| := abs_pos.2 ha
  obtain ⟨h3, h4⟩ := abs_le.1 (h2.trans hd2)
  have h5 : 1 / 2 ≤ |R| * |P.a.val| := by rw [← abs_mul]; exact le_trans (by linarith) (le_abs_self _)
  have h6 : |R| ≤ 2 / |P.a.val| := by
    rw [le_div_iff₀ hapos, ← abs_mul, abs_le]
    constructor <;> linarith
  have h7 : |R| * |P.b.val| ≤ 2 * |P.b.val| / |P.a.val| := by
    rw [mul_div_right_comm]
    exact mul_le_mul_of_nonneg_right h6 (abs_nonneg _)
  have h8 : |(R * P.a.val - 1) * (t.u.x 0).val| ≤ d * |(t.u.x 0).val| := by rw [abs_mul]; exact mul_le_mul_of_nonneg_right h2 (abs_nonneg _)
  have h9 : |R| * |P.b.val - P.a.val * (t.u.x 0).val| ≤ o.tolerance.val + d * |(t.u.x 0).val| + G * (2 * |P.b.val| / |P.a.val| + |(t.u.x 0).val|) := by
    rw [← abs_mul]
    refine h1.le.trans (add_le_add (add_le_add le_rfl h8) (mul_le_mul_of_nonneg_left (add_le_add h7 le_rfl) hG0))
  set E := |P.b.val - P.a.val * (t.u.x 0).val|
  have hE : 0 ≤ E := abs_nonneg _
  calc E ≤ 2 * (|R| * |P.a.val|) * E := by nlinarith
    _ = 2 * |P.a.val| * (|R| * E) := by ring
    _ ≤ _ := mul_le_mul_of_nonneg_left h9 (by positivity)

end OneProblem

/-- The solve of `3·x = 1` (`f = 0`) from `x = 0` succeeds for every positive tolerance, and `R·3 - 1` is `-2^-46`. -/
example {o : SolveOptions Double} (hm : 1 ≤ o.maxiters) (htol : 0 < o.tolerance.val) (mach : OneState 53) (history : History Double) (u : MVec Double 1 0 1) (hx : u.x 0 = 0) (hw : u.w 0 = 0) :
    ∃ t, Solve (feasibility (.fl 3) 1).machine o OneProblem.bounds mach history u (some t) ∧ (solveResult o t).succeeded = true ∧ ((feasibility (.fl 3) 1).R 0 0).val * 3 - 1 = -1 / 2 ^ 46 := by
  have hn : ((feasibility (.fl 3) 1).newton ((feasibility (.fl 3) 1).eval u) u).x 0 = (feasibility (.fl 3) 1).R 0 0 ∧ ((feasibility (.fl 3) 1).newton ((feasibility (.fl 3) 1).eval u) u).w 0 = 0 := by
    dsimp only [OneProblem.newton, OneProblem.eval]
    rw [hx, hw]
    constructor <;> decide +kernel
  obtain ⟨t, g1, g2, -, -, -⟩ := (feasibility (.fl 3) 1).one_step_solve (by norm_num) hm mach history u (fun v hvx hvw => by
    have e : OneProblem.error ((feasibility (.fl 3) 1).eval v) = 0 := by
      dsimp only [OneProblem.error, OneProblem.eval]
      rw [hvx, hvw, hn.1, hn.2]
      decide +kernel
    rw [e, FNum.lt_iff, FNum.val_zero]
    exact htol)
  exact ⟨t, (g1 _).2 rfl, g2, by decide +kernel⟩

/-- Non-vacuity of the converse: the solve of `3·x = 1` visits such a point, for tolerances above `2⁻⁴⁰`. -/
example {o : SolveOptions Double} (hm : 1 ≤ o.maxiters) (htol : 1 / 2 ^ 40 < o.tolerance.val) (mach : OneState 53) (history : History Double) (u : MVec Double 1 0 1) (hx : u.x 0 = 0) (hw : u.w 0 = 0) :
    ∃ s v : SolveState (OneState 53) Double 1 0 1, solveInit (feasibility (.fl 3) 1).machine OneProblem.bounds mach history u = some s ∧ Visits (feasibility (.fl 3) 1).machine o OneProblem.bounds s v ∧ v.iterations ≤ o.maxiters ∧
      |((feasibility (.fl 3) 1).g (v.u.x 0)).val + (feasibility (.fl 3) 1).a.val * (v.u.w 0).val| + ((1 + 1 / 2 ^ 53) ^ 2 - 1) * (|((feasibility (.fl 3) 1).g (v.u.x 0)).val| + |(feasibility (.fl 3) 1).a.val * (v.u.w 0).val|) < o.tolerance.val ∧
      |((feasibility (.fl 3) 1).R 0 0).val * ((feasibility (.fl 3) 1).b.val - (feasibility (.fl 3) 1).a.val * (v.u.x 0).val)| + |(((feasibility (.fl 3) 1).R 0 0).val * (feasibility (.fl 3) 1).a.val - 1) * (v.u.x 0).val| +
        ((1 + 1 / 2 ^ 53) ^ 9 - 1) * (|((feasibility (.fl 3) 1).R 0 0).val| * |(feasibility (.fl 3) 1).b.val| + |(v.u.x 0).val|) < o.tolerance.val := by
  have h0 : 0 < o.tolerance.val := lt_trans (by norm_num) htol
  have hn : ((feasibility (.fl 3) 1).newton ((feasibility (.fl 3) 1).eval u) u).x 0 = (feasibility (.fl 3) 1).R 0 0 ∧ ((feasibility (.fl 3) 1).newton ((feasibility (.fl 3) 1).eval u) u).w 0 = 0 := by
    dsimp only [OneProblem.newton, OneProblem.eval]
    rw [hx, hw]
    constructor <;> decide +kernel
  obtain ⟨t, g1, g2, -, g3, g4⟩ := (feasibility (.fl 3) 1).one_step_solve (by norm_num) hm mach history u (fun v hvx hvw => by
    have e : OneProblem.error ((feasibility (.fl 3) 1).eval v) = 0 := by
      dsimp only [OneProblem.error, OneProblem.eval]
      rw [hvx, hvw, hn.1, hn.2]
      decide +kernel
    rw [e, FNum.lt_iff, FNum.val_zero]
    exact h0)
  obtain ⟨s, n, t0, t1, e1, e2, e3, e4, -, -, -, e7⟩ := (solve_budget _ o _ mach history u).2 t ((g1 _).2 rfl)
  have ht : t.u = t1.u := (stepping_spec e4).1
  rw [ht, hn.1] at g3
  rw [ht, hn.2] at g4
  refine ⟨s, t1, e1, steps_visits e2 e3, (e7.1 g2).1, ?_, ?_⟩
  · rw [g3, g4]
    refine lt_of_le_of_lt ?_ htol
    decide +kernel
  · rw [g3]
    refine lt_of_le_of_lt ?_ htol
    decide +kernel

end Optima
