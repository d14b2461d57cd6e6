import Verif.Lemmas.Float
import Verif.Lemmas.Fold
import Mathlib.Data.Matrix.Mul
import Mathlib.Data.Fin.VecNotation
import Mathlib.Tactic.FinCases
import Mathlib.Algebra.BigOperators.Fin
import Mathlib.Algebra.Order.BigOperators.Group.Finset

/-!
# C64: removal of round-off errors from matrix-vector products

`multiplyMatrixVectorWithoutResidualRoundOffError` replaces entries of `A*x` by zero if they are below `eps*|A|*|x|`.  In exact arithmetic an exactly zero entry is of course zero; here the arithmetic is rounded.
-/

set_option linter.unusedSectionVars false

namespace Optima.FNum

variable {p n : ℕ} {ι : Type*}

/-- The unit round-off, `2⁻ᵖ`. -/
abbrev unit (p : ℕ) : ℚ := 1 / 2 ^ p

theorem rnd_unit (p : ℕ) (z : ℚ) : |Fl.rnd p z - z| ≤ unit p * |z| := by
  have := Fl.rnd_error p z
  rwa [div_eq_mul_one_div, mul_comm] at this

theorem finRange_sum_prefix (f : Fin n → ℚ) : ((List.finRange n).map f).sum = ∑ j, f j := by
  rw [← List.ofFn_eq_map, List.sum_ofFn]

/-- **Error of a rounded scalar product**: at most `((1 + 2⁻ᵖ)ⁿ⁺¹ - 1) ∑ |aⱼ||bⱼ|`. -/
theorem dot_error (a b : Fin n → FNum p) :
    |(dot a b).val - ∑ j, (a j).val * (b j).val| ≤ ((1 + unit p) ^ (n + 1) - 1) * ∑ j, |(a j).val| * |(b j).val| := by
  have hη : 0 ≤ unit p := by positivity
  have key := foldl_finRange_inv (n := n) (f := fun (s : FNum p) j => s + a j * b j) (b := 0)
    (P := fun l s => |(s : FNum p).val - (l.map fun j => (a j).val * (b j).val).sum| ≤ ((1 + unit p) ^ (l.length + 1) - 1) * (l.map fun j => |(a j).val| * |(b j).val|).sum ∧
      |(l.map fun j => (a j).val * (b j).val).sum| ≤ (l.map fun j => |(a j).val| * |(b j).val|).sum) (by simp [val_zero]) ?_
  · have := key.1
    rw [finRange_sum_prefix, finRange_sum_prefix, List.length_finRange] at this
    exact this
  · rintro l s j ⟨h, h0⟩
    simp only [List.map_append, List.map_cons, List.map_nil, List.sum_append, List.sum_singleton, List.length_append, List.length_singleton]
    set S := (l.map fun j => (a j).val * (b j).val).sum
    set R := (l.map fun j => |(a j).val| * |(b j).val|).sum
    have hR : 0 ≤ R := (abs_nonneg _).trans h0
    rw [val_add, val_mul]
    set t := (a j).val * (b j).val with ht
    have htt : |(a j).val| * |(b j).val| = |t| := (abs_mul _ _).symm
    rw [htt]
    have h1 := rnd_unit p t
    set m := Fl.rnd p t
    have h2 := rnd_unit p (s.val + m)
    set η := unit p
    set v := Fl.rnd p (s.val + m)
    set g := (1 + η) ^ (l.length + 1) with hg
    have hg1 : 1 + η ≤ g := by
      rw [hg]
      exact le_self_pow₀ (by linarith) (by omega)
    have h3 : |s.val + m - (S + t)| ≤ (g - 1) * R + η * |t| := by
      have : s.val + m - (S + t) = (s.val - S) + (m - t) := by ring
      rw [this]; exact (abs_add_le _ _).trans (add_le_add h h1)
    have h4 : |S + t| ≤ R + |t| := (abs_add_le _ _).trans (by linarith)
    refine ⟨?_, h4⟩
    have h5 : |s.val + m| ≤ (g - 1) * R + η * |t| + (R + |t|) := by
      have : s.val + m = (s.val + m - (S + t)) + (S + t) := by ring
      rw [this]; exact (abs_add_le _ _).trans (add_le_add h3 h4)
    have h6 : v - (S + t) = (v - (s.val + m)) + (s.val + m - (S + t)) := by ring
    rw [h6]
    refine (abs_add_le _ _).trans ((add_le_add (h2.trans (mul_le_mul_of_nonneg_left h5 hη)) h3).trans ?_)
    have h7 : (1 + η) ^ (l.length + 1 + 1) = g * (1 + η) := pow_succ _ _
    rw [h7]
    have h8 : 0 ≤ (g - (1 + η)) * ((1 + η) * |t|) := mul_nonneg (by linarith) (mul_nonneg (by linarith) (abs_nonneg _))
    nlinarith

theorem repr_scale {x : ℚ} (h : Fl.Repr p x) (k : ℤ) : Fl.Repr p (x * 2 ^ k) := by
  obtain ⟨m, l, hm, rfl⟩ := h
  exact ⟨m, l + k, hm, by rw [zpow_add₀ (by norm_num), mul_assoc]⟩

theorem val_epsilon (hp : 0 < p) : (epsilon : FNum p).val = 2 * unit p := by
  change Fl.rnd p (2 / 2 ^ p) = _
  rw [Fl.rnd_of_repr hp]
  · rw [mul_one_div]
  · refine ⟨1, 1 - p, by rw [abs_one]; exact one_le_pow₀ (by norm_num), ?_⟩
    rw [zpow_sub₀ (by norm_num), zpow_one, zpow_natCast, Int.cast_one, one_mul]

/-- The product with `epsilon` is exact. -/
theorem val_mul_epsilon (hp : 0 < p) (a : FNum p) : (a * epsilon).val = a.val * (2 * unit p) := by
  rw [val_mul, val_epsilon hp]
  apply Fl.rnd_of_repr hp
  have : a.val * (2 * unit p) = a.val * 2 ^ ((1 : ℤ) - p) := by
    rw [zpow_sub₀ (by norm_num), zpow_one, zpow_natCast, mul_one_div]
  rw [this]
  exact repr_scale (repr_val hp a) _

/-- The exact value of an entry of `|A|*|x|`. -/
def magnitude (A : ι → Fin n → FNum p) (x : Fin n → FNum p) (i : ι) : ℚ := ∑ j, |(A i j).val| * |(x j).val|

theorem magnitude_nonneg (A : ι → Fin n → FNum p) (x : Fin n → FNum p) (i : ι) : 0 ≤ magnitude A x i := Finset.sum_nonneg fun j _ => by positivity

/-- The computed reference. -/
theorem ref_error (hp : 0 < p) (A : ι → Fin n → FNum p) (x : Fin n → FNum p) (i : ι) :
    |(dot (fun j => (A i j).abs) (fun j => (x j).abs)).val - magnitude A x i| ≤ ((1 + unit p) ^ (n + 1) - 1) * magnitude A x i := by
  have := dot_error (fun j => (A i j).abs) (fun j => (x j).abs)
  simp only [val_abs hp, abs_abs] at this
  exact this

theorem clean_cases (A : ι → Fin n → FNum p) (x : Fin n → FNum p) (i : ι) :
    (multiplyClean A x i = 0 ∧ (dot (A i) x).abs < dot (fun j => (A i j).abs) (fun j => (x j).abs) * epsilon) ∨ multiplyClean A x i = dot (A i) x := by
  unfold multiplyClean
  dsimp only
  split_ifs with h
  · exact Or.inl ⟨rfl, h⟩
  · exact Or.inr rfl

/-- **C64, what holds for all sizes**: every entry returned differs from the exact one by at most `((1+η)ⁿ⁺¹ - 1 + 2η(1+η)ⁿ⁺¹)·∑ |Aᵢⱼ||xⱼ|` with `η = 2⁻ᵖ`: the removal of small entries adds
    no more than the second term to the error of the product. -/
theorem clean_error (hp : 0 < p) (A : ι → Fin n → FNum p) (x : Fin n → FNum p) (i : ι) :
    |(multiplyClean A x i).val - ∑ j, (A i j).val * (x j).val| ≤ ((1 + unit p) ^ (n + 1) - 1 + 2 * unit p * (1 + unit p) ^ (n + 1)) * magnitude A x i := by
  have hη : 0 ≤ unit p := by positivity
  have h1 := dot_error (A i) x
  have h2 := ref_error hp A x i
  have hM := magnitude_nonneg A x i
  have hg : 0 ≤ 2 * unit p * (1 + unit p) ^ (n + 1) * magnitude A x i := by positivity
  change _ ≤ _ * magnitude A x i at h1
  rcases clean_cases A x i with ⟨e, h⟩ | e
  · rw [e, val_zero, zero_sub, abs_neg]
    rw [lt_iff, val_abs hp, val_mul_epsilon hp] at h
    set b := (dot (A i) x).val
    set S := ∑ j, (A i j).val * (x j).val
    have h3 : |S| ≤ |b| + |b - S| := by
      have : S = b - (b - S) := by ring
      conv_lhs => rw [this]
      exact abs_sub _ _
    rw [abs_le] at h2
    have h4 := mul_le_mul_of_nonneg_right (by linarith [h2.2] : (dot (fun j => (A i j).abs) (fun j => (x j).abs)).val ≤ (1 + unit p) ^ (n + 1) * magnitude A x i) (by positivity : 0 ≤ 2 * unit p)
    nlinarith
  · rw [e]
    nlinarith

/-- Entries that are exactly zero, three columns: the computed value is below the threshold. -/
theorem three_terms {η a b c fa fb fc s2 s3 R : ℚ} (hη0 : 0 < η) (hη : η ≤ 1 / 64) (hz : a + b + c = 0) (hR : R = |a| + |b| + |c|) (hR0 : 0 < R) (ha : |fa - a| ≤ η * |a|) (hb : |fb - b| ≤ η * |b|)
    (hc : |fc - c| ≤ η * |c|) (h2 : |s2 - (fa + fb)| ≤ η * |fa + fb|) (h3 : |s3 - (s2 + fc)| ≤ η * |s2 + fc|) : |s3| < 7 / 4 * η * R := by
  have hcR : |c| ≤ R / 2 := by
    have : |c| ≤ |a| + |b| := by
      have : c = -(a + b) := by linarith
      rw [this, abs_neg]; exact abs_add_le _ _
    linarith
  have k1 : |fa + fb + fc| ≤ η * R := by
    have : fa + fb + fc = (fa - a) + (fb - b) + (fc - c) := by linarith
    rw [this]
    refine (abs_add_three _ _ _).trans ?_
    rw [hR]; linarith
  have k2 : |fa + fb| ≤ R / 2 + η * R := by
    have : fa + fb = (fa - a) + (fb - b) - c := by linarith
    rw [this]
    refine (abs_sub _ _).trans ?_
    have k := abs_add_le (fa - a) (fb - b)
    have : η * |a| + η * |b| ≤ η * R := by rw [hR]; nlinarith [abs_nonneg c]
    linarith
  have k3 : |s2 + fc| ≤ η * R + η * (R / 2 + η * R) := by
    have : s2 + fc = (s2 - (fa + fb)) + (fa + fb + fc) := by ring
    rw [this]
    refine (abs_add_le _ _).trans ?_
    have := mul_le_mul_of_nonneg_left k2 hη0.le
    linarith
  have k4 : |s3| ≤ (1 + η) * |s2 + fc| := by
    have e : |s3| = |(s3 - (s2 + fc)) + (s2 + fc)| := by congr 1; ring
    rw [e]
    have := abs_add_le (s3 - (s2 + fc)) (s2 + fc)
    linarith
  have k5 := mul_le_mul_of_nonneg_left k3 (by linarith : 0 ≤ 1 + η)
  have k6 : 0 < η * R := mul_pos hη0 hR0
  have k7 : η * (η * R) ≤ 1 / 64 * (η * R) := mul_le_mul_of_nonneg_right hη k6.le
  have k8 : η * (η * (η * R)) ≤ 1 / 64 * (1 / 64 * (η * R)) := by
    have := mul_le_mul_of_nonneg_left k7 hη0.le
    nlinarith
  nlinarith

section fourTerms
open Fl

/-- Rounding is symmetric. -/
theorem abs_rnd (hp : 0 < p) (z : ℚ) : |rnd p z| = rnd p |z| := by
  rcases le_total 0 z with h | h
  · rw [abs_of_nonneg h, abs_of_nonneg (rnd_nonneg h)]
  · have := rnd_nonneg (p := p) (neg_nonneg.2 h)
    rw [abs_of_nonpos h, rnd_neg, abs_of_nonpos]
    rw [rnd_neg] at this; linarith

theorem repr_pow (k : ℤ) : Repr p ((2 : ℚ) ^ k) := ⟨1, k, by rw [abs_one]; exact one_le_pow₀ (by norm_num), by simp⟩

/-- A rounded number is at least as large as the power of two below the number. -/
theorem pow_le_rnd (hp : 0 < p) {z : ℚ} {k : ℤ} (h : (2 : ℚ) ^ k ≤ |z|) : (2 : ℚ) ^ k ≤ |rnd p z| := by
  rw [abs_rnd hp, ← rnd_of_repr hp (repr_pow (p := p) k)]
  exact rnd_mono hp h

/-- The error of a rounding, in terms of a power of two above the result. -/
theorem rnd_half (hp : 0 < p) {z : ℚ} {k : ℤ} (h : |rnd p z| < 2 ^ (k + p)) : |rnd p z - z| ≤ 2 ^ k / 2 := by
  by_cases hz : z = 0
  · rw [hz, rnd_zero, sub_zero, abs_zero]; positivity
  refine (rnd_ulp p z).trans ?_
  have h1 := (pow_le_rnd hp (expo_spec hz).1).trans_lt h
  have h2 := (zpow_lt_zpow_iff_right₀ (by norm_num : (1 : ℚ) < 2)).1 h1
  unfold ulp
  have : (2 : ℚ) ^ (expo z - p + 1) ≤ 2 ^ k := zpow_le_zpow_right₀ (by norm_num) (by omega)
  linarith

/-- The same in terms of the exact number. -/
theorem rnd_half' {z : ℚ} {k : ℤ} (h : |z| < 2 ^ (k + p)) : |rnd p z - z| ≤ 2 ^ k / 2 := by
  by_cases hz : z = 0
  · rw [hz, rnd_zero, sub_zero, abs_zero]; positivity
  refine (rnd_ulp p z).trans ?_
  have h2 := (zpow_lt_zpow_iff_right₀ (by norm_num : (1 : ℚ) < 2)).1 ((expo_spec hz).1.trans_lt h)
  unfold ulp
  have : (2 : ℚ) ^ (expo z - p + 1) ≤ 2 ^ k := zpow_le_zpow_right₀ (by norm_num) (by omega)
  linarith

/-- First-order bounds for four terms. -/
theorem four_bounds {η a b c d fa fb fc fd s2 s3 R : ℚ} (hη0 : 0 < η) (hη : η ≤ 1 / 4096) (hz : a + b + c + d = 0) (hR : R = |a| + |b| + |c| + |d|)
    (ha : |fa - a| ≤ η * |a|) (hb : |fb - b| ≤ η * |b|) (hc : |fc - c| ≤ η * |c|) (hd : |fd - d| ≤ η * |d|) :
    |s3 + fd| ≤ |fa - a| + |fb - b| + |fc - c| + |fd - d| + |s2 - (fa + fb)| + |s3 - (s2 + fc)| ∧
    |fa - a| + |fb - b| + |fc - c| + |fd - d| ≤ η * R ∧ |fa - a| + |fb - b| + |fc - c| ≤ η * (R - |d|) ∧ |fa + fb| ≤ R / 2 + η * R ∧ 2 * |d| ≤ R := by
  have n1 := abs_nonneg a
  have n2 := abs_nonneg b
  have n3 := abs_nonneg c
  have n4 := abs_nonneg d
  refine ⟨?_, ?_, ?_, ?_, ?_⟩
  · have : s3 + fd = (fa - a) + (fb - b) + (fc - c) + (fd - d) + (s2 - (fa + fb)) + (s3 - (s2 + fc)) := by linarith
    rw [this]
    refine (abs_add_le _ _).trans (add_le_add ((abs_add_le _ _).trans (add_le_add ((abs_add_le _ _).trans (add_le_add ((abs_add_three _ _ _)) le_rfl)) le_rfl)) le_rfl)
  · rw [hR]; linarith
  · rw [hR]; linarith
  · have : fa + fb = (fa - a) + (fb - b) + (a + b) := by ring
    rw [this]
    have h1 : |a + b| ≤ R / 2 := by
      have e1 := abs_add_le a b
      have e2 : |a + b| ≤ |c| + |d| := by
        have : a + b = -(c + d) := by linarith
        rw [this, abs_neg]; exact abs_add_le _ _
      linarith
    have h2 := abs_add_three (fa - a) (fb - b) (a + b)
    have h3 : η * |a| + η * |b| ≤ η * R := by rw [hR]; nlinarith
    linarith
  · have : |d| ≤ |a| + |b| + |c| := by
      have : d = -(a + b + c) := by linarith
      rw [this, abs_neg]; exact abs_add_three _ _ _
    linarith

theorem expo_half {x : ℚ} (h : x ≠ 0) : expo (x / 2) = expo x - 1 := by
  obtain ⟨h1, h2⟩ := expo_spec h
  apply expo_unique
  · rw [abs_div, abs_two, le_div_iff₀ (by norm_num), zpow_sub₀ (by norm_num), zpow_one, div_mul_cancel₀ _ (by norm_num)]
    exact h1
  · rw [abs_div, abs_two, div_lt_iff₀ (by norm_num), sub_add_cancel, ← zpow_add_one₀ (by norm_num)]
    exact h2

/-- **Four terms**: the computed sum is below the threshold. -/
theorem four_terms (hp : 12 ≤ p) {a b c d s2 s3 R t : ℚ} (hz : a + b + c + d = 0) (hR : R = |a| + |b| + |c| + |d|) (hR0 : 0 < R)
    (h2 : s2 = rnd p (rnd p a + rnd p b)) (h3 : s3 = rnd p (s2 + rnd p c)) (ht : |t - R| ≤ 6 * unit p * R) (ht' : rnd p (|s3| + |rnd p d|) ≤ t) :
    |rnd p (s3 + rnd p d)| < 2 * unit p * t := by
  have hp0 : 0 < p := by omega
  set η := unit p with hηd
  have hη0 : 0 < η := by positivity
  have hη : η ≤ 1 / 4096 := by
    rw [hηd, div_le_div_iff₀ (by positivity) (by norm_num), one_mul, one_mul]
    have := Nat.pow_le_pow_right (n := 2) (by norm_num) hp
    exact_mod_cast this
  obtain ⟨b1, b2, b3, b4, b5⟩ := four_bounds (s2 := s2) (s3 := s3) hη0 hη hz hR (rnd_unit p a) (rnd_unit p b) (rnd_unit p c) (rnd_unit p d)
  have hdu := rnd_unit p d
  have hdrep := rnd_repr hp0 d
  have hdh := fun k => rnd_half hp0 (z := d) (k := k)
  generalize rnd p a = fa at *
  generalize rnd p b = fb at *
  generalize rnd p c = fc at *
  generalize rnd p d = fd at *
  have q2 : |s2 - (fa + fb)| ≤ η * |fa + fb| := by rw [h2]; exact rnd_unit p _
  have q3 : |s3 - (s2 + fc)| ≤ η * |s2 + fc| := by rw [h3]; exact rnd_unit p _
  set r := η * R with hr
  have hr0 : 0 < r := mul_pos hη0 hR0
  have hηr : η * r ≤ 1 / 4096 * r := mul_le_mul_of_nonneg_right hη hr0.le
  have hηr0 : 0 < η * r := mul_pos hη0 hr0
  have q2' : |s2 - (fa + fb)| ≤ r / 2 + η * r := by
    refine q2.trans ((mul_le_mul_of_nonneg_left b4 hη0.le).trans (le_of_eq ?_))
    rw [hr]; ring
  have htl : r - 6 * (η * r) ≤ η * t := by
    have := mul_le_mul_of_nonneg_left (by linarith [(abs_le.1 ht).1] : R - 6 * η * R ≤ t) hη0.le
    calc r - 6 * (η * r) = η * (R - 6 * η * R) := by rw [hr]; ring
      _ ≤ _ := this
  have hfin : |rnd p (s3 + fd)| ≤ (1 + η) * |s3 + fd| := by
    have := rnd_unit p (s3 + fd)
    have e : |rnd p (s3 + fd)| = |(rnd p (s3 + fd) - (s3 + fd)) + (s3 + fd)| := by congr 1; ring
    rw [e]
    have := abs_add_le (rnd p (s3 + fd) - (s3 + fd)) (s3 + fd)
    linarith
  have hE0 := abs_nonneg (s3 + fd)
  rcases le_or_gt |s3| (R / 8) with hs | hs
  · -- the last partial sum is small
    have hz1 : |s2 + fc| ≤ R / 7 := by
      have e : |s2 + fc| ≤ |s3| + |s3 - (s2 + fc)| := by
        have : s2 + fc = s3 - (s3 - (s2 + fc)) := by ring
        conv_lhs => rw [this]
        exact abs_sub _ _
      have : η * |s2 + fc| ≤ 1 / 4096 * |s2 + fc| := mul_le_mul_of_nonneg_right hη (abs_nonneg _)
      linarith
    have q3' : |s3 - (s2 + fc)| ≤ r / 7 := by
      refine q3.trans ((mul_le_mul_of_nonneg_left hz1 hη0.le).trans (le_of_eq ?_))
      rw [hr]; ring
    have hE : |s3 + fd| ≤ 17 / 10 * r := by linarith
    have : η * |s3 + fd| ≤ 1 / 4096 * |s3 + fd| := mul_le_mul_of_nonneg_right hη hE0
    linarith
  · have hs0 : s3 ≠ 0 := by
      rintro h
      rw [h, abs_zero] at hs
      linarith
    obtain ⟨x1, x2⟩ := expo_spec hs0
    set k := expo s3 - p + 1 with hk
    set u : ℚ := 2 ^ k with hu
    have hu0 : 0 < u := pow_pos' k
    have hηu : η * 2 ^ (expo s3 + 1) = u := by
      change 1 / 2 ^ p * _ = _
      rw [hu, one_div, ← zpow_natCast, ← zpow_neg, ← zpow_add₀ (by norm_num)]
      congr 1; omega
    have hηu' : η * 2 ^ (expo s3) = u / 2 := by
      rw [zpow_add_one₀ (by norm_num)] at hηu; linarith
    have v1 : u / 2 ≤ η * |s3| := by rw [← hηu']; exact mul_le_mul_of_nonneg_left x1 hη0.le
    have v2 : η * |s3| < u := by rw [← hηu]; exact mul_lt_mul_of_pos_left x2 hη0
    have hru : r < 8 * u := by
      have := mul_lt_mul_of_pos_left hs hη0
      have e : η * (R / 8) = r / 8 := by rw [hr]; ring
      linarith
    -- the error of the last partial sum
    have q3u : |s3 - (s2 + fc)| ≤ u / 2 := by
      rw [h3]
      apply rnd_half hp0
      rw [← h3, show k + p = expo s3 + 1 by omega]
      exact x2
    have hE17 : |s3 + fd| ≤ 17 * u := by linarith
    have hηuu : η * u ≤ 1 / 4096 * u := mul_le_mul_of_nonneg_right hη hu0.le
    have hu3 : 2048 * u ≤ |s3| := by
      have : 1 / 4096 * |s3| ≥ η * |s3| := mul_le_mul_of_nonneg_right hη (abs_nonneg _)
      linarith
    -- the signs of the two last terms are opposite
    have hop : |s3 + fd| = |(|s3| - |fd|)| := by
      rcases le_total 0 s3 with h | h
      · have : fd ≤ 0 := by
          rw [abs_of_nonneg h] at hu3
          have := (abs_le.1 hE17).2
          linarith
        rw [abs_of_nonneg h, abs_of_nonpos this, sub_neg_eq_add]
      · have : 0 ≤ fd := by
          rw [abs_of_nonpos h] at hu3
          have := (abs_le.1 hE17).1
          linarith
        rw [abs_of_nonpos h, abs_of_nonneg this, ← abs_neg]
        congr 1; ring
    obtain ⟨o1, o2⟩ := abs_le.1 hop.ge
    -- all is a multiple of `u / 2`
    obtain ⟨m3, hm3⟩ := repr_multiple hp0 (h3 ▸ rnd_repr hp0 _ : Repr p s3) hs0 le_rfl
    have hul : ulp p s3 = u := rfl
    have hul2 : ulp p (s3 / 2) = u / 2 := by
      unfold ulp
      rw [expo_half hs0, hu, hk, show expo s3 - p + 1 = expo s3 - 1 - p + 1 + 1 by ring, zpow_add_one₀ (by norm_num) (expo s3 - 1 - p + 1)]
      ring
    obtain ⟨m4, hm4⟩ := repr_multiple hp0 hdrep (x := s3 / 2) (div_ne_zero hs0 (by norm_num)) (by
      rw [abs_div, abs_two]
      linarith)
    rw [hul] at hm3
    rw [hul2] at hm4
    have hsum : s3 + fd = ((2 * m3 + m4 : ℤ) : ℚ) * (u / 2) := by rw [hm3, hm4]; push_cast; ring
    set m := 2 * m3 + m4
    have hmE : |s3 + fd| = ((|m| : ℤ) : ℚ) * (u / 2) := by rw [hsum, abs_mul, abs_of_pos (half_pos hu0), Int.cast_abs]
    have hm34 : |m| ≤ 34 := by
      rw [hmE] at hE17
      have : ((|m| : ℤ) : ℚ) ≤ 34 := by
        by_contra hcon
        push Not at hcon
        have := mul_lt_mul_of_pos_right hcon (half_pos hu0)
        linarith
      exact_mod_cast this
    have hexact : rnd p (s3 + fd) = s3 + fd := by
      apply rnd_of_repr hp0
      refine ⟨m, k - 1, hm34.trans ?_, ?_⟩
      · have := Nat.pow_le_pow_right (n := 2) (by norm_num) hp
        have : (2 ^ 12 : ℤ) ≤ 2 ^ p := by exact_mod_cast this
        linarith
      · rw [hsum, hu, zpow_sub_one₀ (by norm_num)]; ring
    rw [hexact]
    by_contra hcon
    push Not at hcon
    -- the last term is about as large as the last partial sum
    have hfd : η * |s3| - η * |s3 + fd| ≤ η * |fd| := by
      have := mul_le_mul_of_nonneg_left (by linarith : |s3| - |s3 + fd| ≤ |fd|) hη0.le
      linarith
    have hηE : η * |s3 + fd| ≤ 17 / 4096 * u := by
      have := mul_le_mul_of_nonneg_left hE17 hη0.le
      linarith
    have hdd : η * |fd| - η * (η * |d|) ≤ η * |d| := by
      have e : |fd| ≤ |d| + |fd - d| := by
        have : fd = d + (fd - d) := by ring
        conv_lhs => rw [this]
        exact abs_add_le _ _
      have := mul_le_mul_of_nonneg_left (by linarith : |fd| - η * |d| ≤ |d|) hη0.le
      linarith
    have hdr : η * (2 * |d|) ≤ r := mul_le_mul_of_nonneg_left b5 hη0.le
    have hdη : η * (η * |d|) ≤ 1 / 4096 * (η * |d|) := mul_le_mul_of_nonneg_right hη (by positivity)
    have hrl : (1 - 1 / 50) * u ≤ r := by linarith
    rcases le_or_gt |m| 3 with hm | hm
    · have : |s3 + fd| ≤ 3 * (u / 2) := by
        rw [hmE]
        exact mul_le_mul_of_nonneg_right (by exact_mod_cast hm) (by linarith)
      linarith
    · rcases lt_or_ge |fa + fb| (2 ^ (expo s3 + 1)) with hab | hab
      · have q2u : |s2 - (fa + fb)| ≤ u / 2 := by
          rw [h2]
          apply rnd_half'
          rw [show k + p = expo s3 + 1 by omega]
          exact hab
        have hr1 : r ≤ (1 + 14 / 4096) * u := by linarith
        have hm4' : |m| = 4 := by
          have : ((|m| : ℤ) : ℚ) < 5 := by
            by_contra hc5
            push Not at hc5
            have : 5 * (u / 2) ≤ |s3 + fd| := by rw [hmE]; exact mul_le_mul_of_nonneg_right hc5 (by linarith)
            linarith
          have : |m| < 5 := by exact_mod_cast this
          omega
        have hE2 : |s3 + fd| = 2 * u := by rw [hmE, hm4']; push_cast; ring
        have htN : η * t ≤ u := by linarith
        rcases le_or_gt (2 ^ expo s3) |fd| with hN | hN
        · -- the reference is too large
          have hsum2 : 2 ^ (expo s3 + 1) + 2 * u ≤ |s3| + |fd| := by
            rw [zpow_add_one₀ (by norm_num)]
            rcases le_total |s3| |fd| with hle | hle
            · rw [hE2, abs_of_nonpos (by linarith)] at hop
              linarith
            · rw [hE2, abs_of_nonneg (by linarith)] at hop
              linarith
          have hrep : Repr p ((2 : ℚ) ^ (expo s3 + 1) + 2 * u) := by
            refine ⟨2 ^ (p - 1) + 1, k + 1, ?_, ?_⟩
            · obtain ⟨q, rfl⟩ : ∃ q, p = q + 1 := ⟨p - 1, by omega⟩
              rw [Nat.add_sub_cancel, abs_of_pos (by positivity), pow_succ]
              have : (1 : ℤ) ≤ 2 ^ q := one_le_pow₀ (by norm_num)
              linarith
            · have : (2 : ℚ) ^ (expo s3 + 1) = 2 ^ (p - 1) * 2 ^ (k + 1) := by
                rw [← zpow_natCast, ← zpow_add₀ (by norm_num)]
                congr 1; omega
              rw [this, hu, zpow_add_one₀ (by norm_num)]
              push_cast
              ring
          have h5 := (rnd_mono hp0 hsum2).trans ht'
          rw [rnd_of_repr hp0 hrep] at h5
          have h6 := mul_le_mul_of_nonneg_left h5 hη0.le
          rw [mul_add, hηu] at h6
          have : 0 < η * (2 * u) := by positivity
          linarith
        · -- the errors are too small
          have e4 : |fd - d| ≤ u / 2 / 2 := by
            have := hdh (k - 1) (by
              rw [show k - 1 + p = expo s3 by omega]
              exact hN)
            rwa [zpow_sub_one₀ (by norm_num), ← div_eq_mul_inv] at this
          have e3 : η * (R - |d|) = r - η * |d| := by rw [hr]; ring
          linarith
      · have : η * 2 ^ (expo s3 + 1) ≤ η * (R / 2 + η * R) := mul_le_mul_of_nonneg_left (hab.trans b4) hη0.le
        have e : η * (R / 2 + η * R) = r / 2 + η * r := by rw [hr]; ring
        linarith

end fourTerms

/-- **C64, up to four columns**: with at least 12 significant bits, an entry of `A*x` whose exact value is zero is returned as zero.
    Missing for the full statement: more columns, for which it is false, see `clean_zero_false`. -/
theorem clean_zero_partial (hp : 12 ≤ p) (hn : n ≤ 4) (A : ι → Fin n → FNum p) (x : Fin n → FNum p) (i : ι) (h : ∑ j, (A i j).val * (x j).val = 0) : (multiplyClean A x i).val = 0 := by
  have hp0 : 0 < p := by omega
  have hη0 : 0 < unit p := by positivity
  have hη : unit p ≤ 1 / 64 := by
    rw [div_le_div_iff₀ (by positivity) (by norm_num), one_mul, one_mul]
    exact_mod_cast Nat.pow_le_pow_right (n := 2) (by norm_num) (by omega : 6 ≤ p)
  suffices hs : (dot (A i) x).val = 0 ∨ (dot (A i) x).abs < dot (fun j => (A i j).abs) (fun j => (x j).abs) * epsilon by
    unfold multiplyClean
    dsimp only
    rcases hs with hs | hs
    · split_ifs
      · exact val_zero
      · exact hs
    · rw [if_pos hs, val_zero]
  have hM := magnitude_nonneg A x i
  rcases hM.lt_or_eq with hM0 | hM0
  swap
  · have h1 := dot_error (A i) x
    change _ ≤ _ * magnitude A x i at h1
    rw [h, ← hM0, mul_zero, sub_zero] at h1
    exact Or.inl (abs_eq_zero.1 (le_antisymm h1 (abs_nonneg _)))
  have zero_fl : ∀ a : ℚ, Fl.rnd p (0 + Fl.rnd p a) = Fl.rnd p a := fun a => by rw [zero_add, Fl.rnd_rnd hp0]
  match n, hn with
  | 0, _ => exact Or.inl val_zero
  | 1, _ =>
    rw [Fin.sum_univ_one] at h
    left
    change Fl.rnd p ((0 : FNum p).val + Fl.rnd p ((A i 0).val * (x 0).val)) = 0
    rw [val_zero, zero_fl, h, Fl.rnd_zero]
  | 2, _ =>
    rw [Fin.sum_univ_two] at h
    left
    change Fl.rnd p (Fl.rnd p ((0 : FNum p).val + Fl.rnd p ((A i 0).val * (x 0).val)) + Fl.rnd p ((A i 1).val * (x 1).val)) = 0
    rw [val_zero, zero_fl, show (A i 1).val * (x 1).val = -((A i 0).val * (x 0).val) by linarith, Fl.rnd_neg, add_neg_cancel, Fl.rnd_zero]
  | 3, _ =>
    right
    have hmag : magnitude A x i = |(A i 0).val * (x 0).val| + |(A i 1).val * (x 1).val| + |(A i 2).val * (x 2).val| := by
      unfold magnitude
      rw [Fin.sum_univ_three, abs_mul, abs_mul, abs_mul]
    rw [Fin.sum_univ_three] at h
    have hdot : (dot (A i) x).val = Fl.rnd p (Fl.rnd p (Fl.rnd p ((A i 0).val * (x 0).val) + Fl.rnd p ((A i 1).val * (x 1).val)) + Fl.rnd p ((A i 2).val * (x 2).val)) := by
      change Fl.rnd p (Fl.rnd p (Fl.rnd p ((0 : FNum p).val + Fl.rnd p ((A i 0).val * (x 0).val)) + Fl.rnd p ((A i 1).val * (x 1).val)) + Fl.rnd p ((A i 2).val * (x 2).val)) = _
      rw [val_zero, zero_fl]
    have hs := three_terms hη0 hη h hmag hM0 (rnd_unit p _) (rnd_unit p _) (rnd_unit p _) (rnd_unit p _) (rnd_unit p _)
    rw [← hdot] at hs
    have hr := ref_error hp0 A x i
    rw [lt_iff, val_abs hp0, val_mul_epsilon hp0]
    rw [abs_le] at hr
    have h4 : (1 + unit p) ^ (3 + 1) ≤ 9 / 8 := (pow_le_pow_left₀ (by linarith) (by linarith : 1 + unit p ≤ 65 / 64) 4).trans (by norm_num)
    have h5 : ((1 + unit p) ^ (3 + 1) - 1) * magnitude A x i ≤ 1 / 8 * magnitude A x i := mul_le_mul_of_nonneg_right (by linarith) hM
    have hr1 := (neg_le_neg h5).trans hr.1
    have h6 := mul_le_mul_of_nonneg_right (by linarith : 7 / 8 * magnitude A x i ≤ (dot (fun j => (A i j).abs) (fun j => (x j).abs)).val) (by positivity : 0 ≤ 2 * unit p)
    linarith
  | 4, _ =>
    right
    have hmag : magnitude A x i = |(A i 0).val * (x 0).val| + |(A i 1).val * (x 1).val| + |(A i 2).val * (x 2).val| + |(A i 3).val * (x 3).val| := by
      unfold magnitude
      rw [Fin.sum_univ_four, abs_mul, abs_mul, abs_mul, abs_mul]
    rw [Fin.sum_univ_four] at h
    set a := (A i 0).val * (x 0).val with ha
    set b := (A i 1).val * (x 1).val with hb
    set c := (A i 2).val * (x 2).val with hc
    set d := (A i 3).val * (x 3).val with hd
    have hdot : (dot (A i) x).val = Fl.rnd p (Fl.rnd p (Fl.rnd p (Fl.rnd p a + Fl.rnd p b) + Fl.rnd p c) + Fl.rnd p d) := by
      change Fl.rnd p (Fl.rnd p (Fl.rnd p (Fl.rnd p ((0 : FNum p).val + Fl.rnd p a) + Fl.rnd p b) + Fl.rnd p c) + Fl.rnd p d) = _
      rw [val_zero, zero_fl]
    have hr := ref_error hp0 A x i
    have hM12 : unit p ≤ 1 / 4096 := by
      rw [div_le_div_iff₀ (by positivity) (by norm_num), one_mul, one_mul]
      have := Nat.pow_le_pow_right (n := 2) (by norm_num) hp
      exact_mod_cast this
    have h4 : (1 + unit p) ^ (4 + 1) - 1 ≤ 6 * unit p := by
      have e : (1 + unit p) ^ (4 + 1) - 1 = unit p * (5 + 10 * unit p + 10 * unit p ^ 2 + 5 * unit p ^ 3 + unit p ^ 4) := by ring
      rw [e, mul_comm 6]
      have l2 : unit p ^ 2 ≤ 1 / 100 := (pow_le_pow_left₀ hη0.le hM12 2).trans (by norm_num)
      have l3 : unit p ^ 3 ≤ 1 / 100 := (pow_le_pow_left₀ hη0.le hM12 3).trans (by norm_num)
      have l4 : unit p ^ 4 ≤ 1 / 100 := (pow_le_pow_left₀ hη0.le hM12 4).trans (by norm_num)
      refine mul_le_mul_of_nonneg_left ?_ hη0.le
      linarith
    have hlow : Fl.rnd p (|Fl.rnd p (Fl.rnd p (Fl.rnd p a + Fl.rnd p b) + Fl.rnd p c)| + |Fl.rnd p d|) ≤ (dot (fun j => (A i j).abs) (fun j => (x j).abs)).val := by
      change _ ≤ Fl.rnd p (Fl.rnd p (Fl.rnd p (Fl.rnd p ((0 : FNum p).val + Fl.rnd p ((A i 0).abs.val * (x 0).abs.val)) + Fl.rnd p ((A i 1).abs.val * (x 1).abs.val)) +
        Fl.rnd p ((A i 2).abs.val * (x 2).abs.val)) + Fl.rnd p ((A i 3).abs.val * (x 3).abs.val))
      rw [val_zero, zero_fl]
      simp only [val_abs hp0, ← abs_mul, ← abs_rnd hp0]
      rw [← ha, ← hb, ← hc, ← hd]
      have m2 : |Fl.rnd p (Fl.rnd p a + Fl.rnd p b)| ≤ Fl.rnd p (|Fl.rnd p a| + |Fl.rnd p b|) := by
        rw [abs_rnd hp0]; exact Fl.rnd_mono hp0 (abs_add_le _ _)
      have m3 : |Fl.rnd p (Fl.rnd p (Fl.rnd p a + Fl.rnd p b) + Fl.rnd p c)| ≤ Fl.rnd p (Fl.rnd p (|Fl.rnd p a| + |Fl.rnd p b|) + |Fl.rnd p c|) := by
        rw [abs_rnd hp0]; exact Fl.rnd_mono hp0 ((abs_add_le _ _).trans (by linarith))
      exact Fl.rnd_mono hp0 (by linarith)
    have hs := four_terms hp h hmag hM0 rfl rfl (hr.trans (mul_le_mul_of_nonneg_right h4 hM)) hlow
    rw [lt_iff, val_abs hp0, val_mul_epsilon hp0, hdot]
    linarith

/-- The counterexample with five columns: the first product is rounded up by nearly half a unit in the last place, each of the three small terms is lost in the sum, and the last product is rounded down. -/
def lostRow : Fin 5 → Double :=
  ![.fl (4508283370982961 / 2 ^ 52), .fl (-31 / 64), .fl (-31 / 64), .fl (-3623800073707669 / 2 ^ 53), .fl (-2254051613498933 / 2 ^ 51)]

def lostVec : Fin 5 → Double := ![.fl (8997841499581429 / 2 ^ 53), .fl (1 / 2 ^ 52), .fl (1 / 2 ^ 52), .fl (1 / 2 ^ 52), .fl (4499100526843652 / 2 ^ 52)]

/-- Columns of zeros change nothing. -/
theorem dot_snoc_zero (hp : 0 < p) (a b : Fin n → FNum p) (y : FNum p) : dot (Fin.snoc (α := fun _ => FNum p) a 0) (Fin.snoc (α := fun _ => FNum p) b y) = dot a b := by
  unfold dot
  rw [List.finRange_succ_last, List.foldl_append, List.foldl_map]
  simp only [Fin.snoc_castSucc, List.foldl_cons, List.foldl_nil, Fin.snoc_last]
  apply val_injective
  rw [val_add, val_mul, val_zero, zero_mul, Fl.rnd_zero, add_zero, rnd_val hp]

/-- **C64 is false** for every number of columns from five on, in `double` arithmetic: an entry that is exactly zero is returned as `2⁻⁵¹`, for a row and a vector with entries below one. -/
theorem clean_zero_false (hn : 5 ≤ n) : ∃ (A : Fin 1 → Fin n → Double) (x : Fin n → Double), ∑ j, (A 0 j).val * (x j).val = 0 ∧ (multiplyClean A x 0).val = 2 / 2 ^ 52 := by
  induction n, hn using Nat.le_induction with
  | base =>
    refine ⟨fun _ => lostRow, lostVec, ?_, by decide +kernel⟩
    rw [Fin.sum_univ_five]
    decide +kernel
  | succ n hn ih =>
    obtain ⟨A, x, h0, h1⟩ := ih
    have e1 : (fun j => ((Fin.snoc (α := fun _ => Double) (A 0) 0 : Fin (n + 1) → Double) j).abs) = Fin.snoc (α := fun _ => Double) (fun j => (A 0 j).abs) 0 := by
      funext j
      refine Fin.lastCases ?_ (fun j => ?_) j
      · rw [Fin.snoc_last, Fin.snoc_last]
        decide +kernel
      · rw [Fin.snoc_castSucc, Fin.snoc_castSucc]
    have e2 : (fun j => ((Fin.snoc (α := fun _ => Double) x 0 : Fin (n + 1) → Double) j).abs) = Fin.snoc (α := fun _ => Double) (fun j => (x j).abs) ((0 : Double).abs) := by
      funext j
      refine Fin.lastCases ?_ (fun j => ?_) j
      · rw [Fin.snoc_last, Fin.snoc_last]
      · rw [Fin.snoc_castSucc, Fin.snoc_castSucc]
    refine ⟨fun _ => Fin.snoc (A 0) 0, Fin.snoc x 0, ?_, ?_⟩
    · rw [Fin.sum_univ_castSucc]
      simp only [Fin.snoc_castSucc, Fin.snoc_last]
      rw [h0, val_zero, zero_mul, add_zero]
    · unfold multiplyClean at h1 ⊢
      dsimp only at h1 ⊢
      rw [e1, e2, dot_snoc_zero (by norm_num), dot_snoc_zero (by norm_num)]
      exact h1

/-- **C64, exactly when it is true**: in `double` arithmetic, exact zeros are returned as zero for all matrices and vectors iff there are at most four columns. -/
theorem clean_zero_iff : (∀ (A : Fin 1 → Fin n → Double) (x : Fin n → Double), ∑ j, (A 0 j).val * (x j).val = 0 → (multiplyClean A x 0).val = 0) ↔ n ≤ 4 := by
  constructor
  · intro h
    by_contra hn
    obtain ⟨A, x, h0, h1⟩ := clean_zero_false (n := n) (by omega)
    rw [h A x h0] at h1
    norm_num at h1
  · exact fun hn A x h => clean_zero_partial (by norm_num) hn A x 0 h

/-- Four columns whose exact sum is zero although the products and sums are rounded. -/
example : ∑ j, ((![.fl (1 / 3), .fl (1 / 7), .fl (1 / 3), .fl (1 / 7)] : Fin 4 → Double) j).val * ((![.fl (1 / 10), .fl (1 / 9), .fl (-1 / 10), .fl (-1 / 9)] : Fin 4 → Double) j).val = 0 := by
  rw [Fin.sum_univ_four]
  decide +kernel

/-- A zero entry with rounded products: `1/3 + 1/3 - 2/3` in terms of the rounded numbers `fl (1/3)` and `fl (2/3)`, scaled by `fl (1/10)`; the entry `1/10 + 1/10 - 1/5 - 2⁻⁶⁰` is not zero and is removed as well. -/
example : (∑ j, ((![.fl (1 / 3), .fl (1 / 3), .fl (-2 / 3)] : Fin 3 → Double) j).val * ((fun _ => .fl (1 / 10) : Fin 3 → Double) j).val = 0) ∧
    (multiplyClean (fun (_ : Fin 1) => (![.fl (1 / 10), .fl (1 / 10), .fl (-1 / 5 - 1 / 2 ^ 60)] : Fin 3 → Double)) (fun _ => .fl 1) 0).val = 0 := by
  constructor
  · rw [Fin.sum_univ_three]
    decide +kernel
  · decide +kernel

end Optima.FNum
