import Verif.Lemmas.Float
import Mathlib.Tactic.LinearCombination

/-! # Distances of numbers with `p` significant bits -/

namespace Optima.Fl

theorem repr_neg {p : ℕ} {x : ℚ} (h : Repr p x) : Repr p (-x) := by
  obtain ⟨m, k, hm, rfl⟩ := h
  exact ⟨-m, k, by rwa [abs_neg], by push_cast; ring⟩

theorem repr_double {p : ℕ} {x : ℚ} (h : Repr p x) : Repr p (2 * x) := by
  obtain ⟨m, k, hm, rfl⟩ := h
  exact ⟨m, k + 1, hm, by rw [zpow_add_one₀ (by norm_num)]; ring⟩

theorem repr_half {p : ℕ} {x : ℚ} (h : Repr p x) : Repr p (x / 2) := by
  obtain ⟨m, k, hm, rfl⟩ := h
  exact ⟨m, k - 1, hm, by rw [zpow_sub_one₀ (by norm_num)]; ring⟩

theorem ulp_mul (p : ℕ) (x : ℚ) : ulp p x * 2 ^ p = 2 ^ (expo x + 1) := by
  unfold ulp
  rw [← zpow_natCast, ← zpow_add₀ (by norm_num)]
  congr 1
  ring

/-- The distance of two numbers with `p` significant bits. -/
theorem gap {p : ℕ} (hp : 0 < p) {a m : ℚ} (ha : Repr p a) (hm : Repr p m) (h : a ≠ m) (h0 : m ≠ 0) : |m| / 2 ^ p ≤ |a - m| ∧ ulp p m / 2 ≤ |a - m| := by
  have hP : (1 : ℚ) ≤ 2 ^ p := one_le_pow₀ (by norm_num)
  have hP0 : (0 : ℚ) < 2 ^ p := by positivity
  have um := ulp_mul p m
  obtain ⟨e1, e2⟩ := expo_spec h0
  have hs : (2 : ℚ) ^ (expo m + 1) = 2 ^ expo m * 2 := zpow_add_one₀ (by norm_num) _
  have hum := ulp_pos p m
  have whole : ulp p m ≤ |a - m| → |m| / 2 ^ p ≤ |a - m| ∧ ulp p m / 2 ≤ |a - m| := by
    intro hh
    refine ⟨le_trans ?_ hh, by linarith⟩
    rw [div_le_iff₀ hP0, um]
    exact e2.le
  have mult : ∀ (U : ℚ), 0 < U → (∃ n : ℤ, a = n * U) → (∃ n : ℤ, m = n * U) → U ≤ |a - m| := by
    rintro U hU ⟨i, rfl⟩ ⟨j, rfl⟩
    rw [← sub_mul, abs_mul, abs_of_pos hU]
    have hij : i - j ≠ 0 := fun e => h (by rw [sub_eq_zero.1 e])
    have : (1 : ℚ) ≤ |(i : ℚ) - j| := by exact_mod_cast Int.one_le_abs hij
    nlinarith
  rcases le_or_gt |m| |a| with hc | hc
  · exact whole (mult _ hum (repr_multiple hp ha h0 hc) (repr_multiple hp hm h0 le_rfl))
  · by_cases ha0 : a = 0
    · subst ha0
      rw [zero_sub, abs_neg]
      refine ⟨div_le_self (abs_nonneg _) hP, ?_⟩
      have : ulp p m ≤ 2 ^ (expo m + 1) := by rw [← um]; nlinarith
      linarith
    · have hle := expo_mono ha0 hc.le
      rcases hle.lt_or_eq with hlt | heq
      · obtain ⟨f1, f2⟩ := expo_spec ha0
        obtain ⟨n, hn⟩ := repr_multiple hp ha ha0 le_rfl
        have ua := ulp_mul p a
        have hua := ulp_pos p a
        have hna : |(n : ℚ)| ≤ 2 ^ p - 1 := by
          have : |(n : ℚ)| * ulp p a < 2 ^ p * ulp p a := by
            have e : |a| = |(n : ℚ)| * ulp p a := by conv_lhs => rw [hn, abs_mul, abs_of_pos hua]
            rw [← e, mul_comm, ua]; exact f2
          have := lt_of_mul_lt_mul_right this hua.le
          have h' : |n| < 2 ^ p := by exact_mod_cast this
          have : |n| + 1 ≤ 2 ^ p := h'
          have : |(n : ℚ)| + 1 ≤ 2 ^ p := by exact_mod_cast this
          linarith
        have hE : (2 : ℚ) ^ (expo a + 1) ≤ 2 ^ expo m := zpow_le_zpow_right₀ (by norm_num) (by omega)
        have hB : |a| ≤ 2 ^ expo m - ulp p m / 2 := by
          have e : |a| = |(n : ℚ)| * ulp p a := by conv_lhs => rw [hn, abs_mul, abs_of_pos hua]
          have h1 : |a| ≤ (2 ^ p - 1) * ulp p a := by rw [e]; nlinarith
          have h2 : ulp p a ≤ ulp p m / 2 := by
            rw [← mul_le_mul_iff_left₀ hP0, ua, div_mul_eq_mul_div, um, hs]
            linarith
          have h3 : (2 ^ p - 1) * ulp p a ≤ (2 ^ p - 1) * (ulp p m / 2) := mul_le_mul_of_nonneg_left h2 (by linarith)
          have h4 : (2 ^ p - 1) * (ulp p m / 2) = 2 ^ expo m - ulp p m / 2 := by
            have : ulp p m * 2 ^ p = 2 ^ expo m * 2 := um.trans hs
            linarith
          linarith
        have htri : |m| - |a| ≤ |a - m| := by rw [abs_sub_comm]; exact abs_sub_abs_le_abs_sub m a
        refine ⟨?_, by linarith⟩
        have : |m| / 2 ^ p = (|m| - 2 ^ expo m) / 2 ^ p + ulp p m / 2 := by
          have e : ulp p m / 2 = 2 ^ expo m / 2 ^ p := by
            rw [eq_div_iff hP0.ne', div_mul_eq_mul_div, um, hs]; ring
          rw [e]; ring
        have h5 : (|m| - 2 ^ expo m) / 2 ^ p ≤ |m| - 2 ^ expo m := div_le_self (by linarith) hP
        linarith
      · have hu : ulp p a = ulp p m := by unfold ulp; rw [heq]
        exact whole (mult _ hum (by rw [← hu]; exact repr_multiple hp ha ha0 le_rfl) (repr_multiple hp hm h0 le_rfl))

/-- The next number. -/
theorem repr_succ {p : ℕ} (hp : 0 < p) {m : ℚ} (hm : Repr p m) (h0 : m ≠ 0) : Repr p (m + ulp p m) := by
  obtain ⟨n, hn⟩ := repr_multiple hp hm h0 le_rfl
  refine ⟨n + 1, expo m - p + 1, ?_, ?_⟩
  swap
  · conv_lhs => enter [1]; rw [hn]
    unfold ulp
    push_cast
    ring
  have hu := ulp_pos p m
  have : |(n : ℚ)| * ulp p m < 2 ^ p * ulp p m := by
    have e : |m| = |(n : ℚ)| * ulp p m := by conv_lhs => rw [hn, abs_mul, abs_of_pos hu]
    rw [← e, mul_comm, ulp_mul]; exact (expo_spec h0).2
  have := lt_of_mul_lt_mul_right this hu.le
  have h' : |n| < 2 ^ p := by exact_mod_cast this
  have := abs_add_le n 1
  rw [abs_one] at this
  omega

end Optima.Fl
