import Verif.Model.Rational
import Verif.Lemmas.Tactics
import Mathlib.Algebra.Order.Archimedean.Basic

/-! # Property C05: rational approximation -/

set_option linter.unusedSectionVars false

namespace Optima.Rational

variable {K : Type*} [Field K] [LinearOrder K] [IsStrictOrderedRing K]

/-- Loop invariant of `farey`: `a/b ≤ x ≤ c/d` are neighbours (`bc - ad = 1`) within `[0,1]`, and at most one denominator
    has passed `n`. -/
structure Inv (x : K) (n a b c d : ℕ) : Prop where
  hb : 1 ≤ b
  hd : 1 ≤ d
  hab : a ≤ b
  hcd : c ≤ d
  lo : (a : K) ≤ x * b
  hi : x * d ≤ c
  det : b * c = a * d + 1
  one : b ≤ n ∨ d ≤ n

/-- What the result must satisfy. -/
structure Good (x : K) (n a b : ℕ) : Prop where
  den_pos : 1 ≤ b
  den_le : b ≤ n
  num_le : a ≤ b
  close : |x - (a : K) / b| ≤ 1 / ((b : K) * ((n : K) + 1))

theorem close_right {x : K} {n a b c d : ℕ} (h : Inv x n a b c d) (hb : n < b) :
    |x - (c : K) / d| ≤ 1 / ((d : K) * ((n : K) + 1)) := by
  have hdpos : (0 : K) < d := by exact_mod_cast h.hd
  have hbpos : (0 : K) < b := by exact_mod_cast h.hb
  have hn : ((n : K) + 1) ≤ b := by exact_mod_cast hb
  have hn0 : (0 : K) < (n : K) + 1 := by positivity
  have hdet : (b : K) * c = a * d + 1 := by exact_mod_cast h.det
  have h1 : x - (c : K) / d ≤ 0 := by
    rw [sub_nonpos, le_div_iff₀ hdpos]; exact h.hi
  rw [abs_of_nonpos h1, neg_sub]
  have h2 : (a : K) / b ≤ x := by rw [div_le_iff₀ hbpos]; exact h.lo
  have h3 : (c : K) / d - a / b = 1 / ((d : K) * b) := by
    field_simp; linarith
  have h4 : 1 / ((d : K) * b) ≤ 1 / ((d : K) * ((n : K) + 1)) :=
    one_div_le_one_div_of_le (by positivity) (by nlinarith)
  linarith

theorem close_left {x : K} {n a b c d : ℕ} (h : Inv x n a b c d) (hd : n < d) :
    |x - (a : K) / b| ≤ 1 / ((b : K) * ((n : K) + 1)) := by
  have hdpos : (0 : K) < d := by exact_mod_cast h.hd
  have hbpos : (0 : K) < b := by exact_mod_cast h.hb
  have hn : ((n : K) + 1) ≤ d := by exact_mod_cast hd
  have hn0 : (0 : K) < (n : K) + 1 := by positivity
  have hdet : (b : K) * c = a * d + 1 := by exact_mod_cast h.det
  have h1 : 0 ≤ x - (a : K) / b := by
    rw [sub_nonneg, div_le_iff₀ hbpos]; exact h.lo
  rw [abs_of_nonneg h1]
  have h2 : x ≤ (c : K) / d := by rw [le_div_iff₀ hdpos]; exact h.hi
  have h3 : (c : K) / d - a / b = 1 / ((b : K) * d) := by
    field_simp; linarith
  have h4 : 1 / ((b : K) * d) ≤ 1 / ((b : K) * ((n : K) + 1)) :=
    one_div_le_one_div_of_le (by positivity) (by nlinarith)
  linarith

theorem fareyLoop_spec (x : K) (n : ℕ) (fuel a b c d : ℕ) (h : Inv x n a b c d)
    (hf : (n + 1 - b) + (n + 1 - d) < fuel) :
    ∃ r, fareyLoop x n fuel a b c d = some r ∧ Good x n r.1 r.2 := by
  induction fuel generalizing a b c d with
  | zero => omega
  | succ fuel ih =>
    have hdpos : (0 : K) < d := by exact_mod_cast h.hd
    have hbpos : (0 : K) < b := by exact_mod_cast h.hb
    have hb := h.hb; have hd := h.hd; have hab := h.hab; have hcd := h.hcd
    have hdet : (b : K) * c = a * d + 1 := by exact_mod_cast h.det
    have hbd : (0 : K) < ((b + d : ℕ) : K) := by exact_mod_cast (by omega : 0 < b + d)
    unfold fareyLoop
    dsimp only
    split_ifs with h1 h2 h3 h4 h5 h6
    · refine ⟨_, rfl, by simp; omega, h3, by simp; omega, ?_⟩
      rw [h2]; simp; positivity
    · refine ⟨_, rfl, h.hd, h1.2, h.hcd, ?_⟩
      have hlo : ((a + c : ℕ) : K) ≤ x * ((b + d : ℕ) : K) := by
        rw [h2, div_mul_cancel₀ _ hbd.ne']
      have hinv : Inv x (b + d - 1) (a + c) (b + d) c d :=
        ⟨by omega, h.hd, by omega, h.hcd, hlo, h.hi, by have := h.det; nlinarith, Or.inr (by omega)⟩
      have := close_right hinv (by omega)
      refine le_trans this (one_div_le_one_div_of_le (by positivity) ?_)
      have : (n : K) ≤ ((b + d - 1 : ℕ) : K) := by exact_mod_cast (by omega)
      simp only; nlinarith
    · refine ⟨_, rfl, h.hb, h1.1, h.hab, ?_⟩
      have hhi : x * ((b + d : ℕ) : K) ≤ ((a + c : ℕ) : K) := by
        rw [h2, div_mul_cancel₀ _ hbd.ne']
      have hinv : Inv x (b + d - 1) a b (a + c) (b + d) :=
        ⟨h.hb, by omega, h.hab, by omega, h.lo, hhi, by have := h.det; nlinarith, Or.inl (by omega)⟩
      have := close_left hinv (by omega)
      refine le_trans this (one_div_le_one_div_of_le (by positivity) ?_)
      have : (n : K) ≤ ((b + d - 1 : ℕ) : K) := by exact_mod_cast (by omega)
      simp only; nlinarith
    · refine ih (a + c) (b + d) c d
        ⟨by omega, h.hd, by omega, h.hcd, ?_, h.hi, by have := h.det; nlinarith, Or.inr h1.2⟩ (by omega)
      rw [div_lt_iff₀ hbd] at h5; exact h5.le
    · refine ih a b (a + c) (b + d)
        ⟨h.hb, by omega, h.hab, by omega, h.lo, ?_, by have := h.det; nlinarith, Or.inl h1.1⟩ (by omega)
      have h5' := not_lt.1 h5
      rwa [le_div_iff₀ hbd] at h5'
    · exact ⟨_, rfl, h.hd, h.one.resolve_left (by omega), h.hcd, close_right h h6⟩
    · exact ⟨_, rfl, h.hb, by simp; omega, h.hab, close_left h (by omega)⟩

/-- **C05 (termination and legality)** For `0 ≤ x ≤ 1` and `n ≥ 1`, `farey` terminates and returns `a/b` with `1 ≤ b ≤ n`, `a ≤ b`, which
    approximates `x` with the Dirichlet quality `|x - a/b| ≤ 1/(b(n+1))`. -/
theorem farey_spec (x : K) (n : ℕ) (hx0 : 0 ≤ x) (hx1 : x ≤ 1) (hn : 1 ≤ n) :
    ∃ a b, farey x n = some (a, b) ∧ 1 ≤ b ∧ b ≤ n ∧ a ≤ b ∧
      |x - (a : K) / b| ≤ 1 / ((b : K) * ((n : K) + 1)) := by
  obtain ⟨⟨a, b⟩, h, hg⟩ := fareyLoop_spec x n (2 * n + 2) 0 1 1 1
    ⟨le_rfl, le_rfl, by omega, le_rfl, by simpa using hx0, by simpa using hx1, by norm_num, Or.inl hn⟩ (by omega)
  exact ⟨a, b, h, hg.den_pos, hg.den_le, hg.num_le, hg.close⟩

/-- A fraction with small denominator that is Dirichlet close to a fraction with denominator at most `n` is equal to it. -/
theorem eq_of_close {n a b p q : ℕ} (hb : 1 ≤ b) (hq : 1 ≤ q) (hqn : q ≤ n)
    (h : |(p : K) / q - (a : K) / b| ≤ 1 / ((b : K) * ((n : K) + 1))) : (p : K) / q = (a : K) / b := by
  have hbpos : (0 : K) < b := by exact_mod_cast hb
  have hqpos : (0 : K) < q := by exact_mod_cast hq
  have hn0 : (0 : K) < (n : K) + 1 := by positivity
  have hqn' : (q : K) < (n : K) + 1 := by exact_mod_cast Nat.lt_succ_of_le hqn
  have e : (p : K) / q - (a : K) / b = (((p * b : ℤ) - (a * q : ℤ) : ℤ) : K) / (q * b) := by
    push_cast; field_simp
  rw [e, abs_div, abs_of_pos (by positivity : (0:K) < q * b), div_le_div_iff₀ (by positivity) (by positivity)] at h
  rw [← Int.cast_abs] at h
  have h2 : ((|((p * b : ℤ) - (a * q : ℤ))| : ℤ) : K) < 1 := by
    by_contra hc
    push Not at hc
    have : (b : K) * ((n : K) + 1) ≤ ((|((p * b : ℤ) - (a * q : ℤ))| : ℤ) : K) * ((b : K) * ((n : K) + 1)) := by
      have : 0 < (b : K) * ((n : K) + 1) := by positivity
      nlinarith
    nlinarith
  have h3 : |((p * b : ℤ) - (a * q : ℤ))| < 1 := by exact_mod_cast h2
  have h4 : (p * b : ℤ) - (a * q : ℤ) = 0 := Int.abs_lt_one_iff.1 h3
  have : (p : K) / q - (a : K) / b = 0 := by rw [e, h4]; simp
  linarith

/-- **C05 (exact recovery)** A rational of `[0,1]` with denominator at most `n` is returned exactly. -/
theorem farey_exact (p q n : ℕ) (hq : 1 ≤ q) (hqn : q ≤ n) (hpq : p ≤ q) :
    ∃ a b, farey ((p : K) / q) n = some (a, b) ∧ 1 ≤ b ∧ b ≤ n ∧ (a : K) / b = (p : K) / q := by
  have hqpos : (0 : K) < q := by exact_mod_cast hq
  obtain ⟨a, b, h, hb, hbn, -, hc⟩ := farey_spec ((p : K) / q) n (by positivity)
    ((div_le_one hqpos).2 (by exact_mod_cast hpq)) (by omega)
  exact ⟨a, b, h, hb, hbn, (eq_of_close hb hq hqn hc).symm⟩

example : farey (K := ℚ) (3/7) 10 = some (3, 7) ∧ (1 ≤ 7 ∧ 7 ≤ 10 ∧ 3 ≤ 7) := by decide +kernel

/-- **C05 is false as documented (closest)**: for `x = 3/10` and maximum denominator 2, `farey` returns 0 although 1/2 is closer. -/
theorem farey_not_closest :
    farey (3/10 : ℚ) 2 = some (0, 1) ∧ |(3/10 : ℚ) - 1/2| < |(3/10 : ℚ) - 0/1| := by
  constructor
  · decide +kernel
  · norm_num [abs_lt, abs_of_neg, abs_of_pos]

/-- The sign of a number as used by `rational`. -/
def sgn (x : K) : ℤ := if 0 ≤ x then 1 else -1

theorem sgn_mul_abs (x : K) : ((sgn x : ℤ) : K) * |x| = x := by
  unfold sgn
  split_ifs with h
  · simp [abs_of_nonneg h]
  · simp [abs_of_neg (not_le.1 h)]

theorem sgn_sq (x : K) : ((sgn x : ℤ) : K) * ((sgn x : ℤ) : K) = 1 := by
  unfold sgn; split_ifs <;> simp

theorem abs_sgn (x : K) : |((sgn x : ℤ) : K)| = 1 := by
  unfold sgn; split_ifs <;> simp

/-- **C05 (partial: magnitude at most 1)** The returned denominator is in `[1,n]` and the approximation is Dirichlet close. -/
theorem rational_small_partial (x : K) (n : ℕ) (hn : 1 ≤ n) (hx : |x| ≤ 1) :
    ∃ p q : ℤ, rational x n = some (p, q) ∧ 1 ≤ q ∧ q ≤ n ∧
      |x - (p : K) / q| ≤ 1 / ((q : K) * ((n : K) + 1)) := by
  obtain ⟨a, b, h, hb, hbn, hab, hc⟩ := farey_spec |x| n (abs_nonneg x) hx hn
  refine ⟨sgn x * a, b, ?_, by exact_mod_cast hb, by exact_mod_cast hbn, ?_⟩
  · unfold rational; rw [if_neg (not_lt.2 hx), h]; rfl
  · have e : x - ((sgn x * (a : ℤ) : ℤ) : K) / ((b : ℤ) : K) = ((sgn x : ℤ) : K) * (|x| - (a : K) / b) := by
      have := sgn_mul_abs x
      push_cast; rw [mul_sub, this]; ring
    rw [e, abs_mul, abs_sgn, one_mul]
    simpa using hc

/-- **C05 (partial: magnitude above 1)** If `1 < |x| < n+1` the denominator is in `[1,n]`, and so is the numerator's magnitude. -/
theorem rational_large_partial (x : K) (n : ℕ) (hn : 1 ≤ n) (hx : 1 < |x|) (hxn : |x| < n + 1) :
    ∃ p q : ℤ, rational x n = some (p, q) ∧ 1 ≤ q ∧ q ≤ n ∧ |p| ≤ n ∧
      |x - (p : K) / q| * ((q : K) * ((n : K) + 1)) ≤ |x| := by
  have hxpos : 0 < |x| := lt_trans zero_lt_one hx
  obtain ⟨a, b, h, hb, hbn, hab, hc⟩ := farey_spec (1 / |x|) n (by positivity)
    ((div_le_one hxpos).2 hx.le) hn
  have hbpos : (0 : K) < b := by exact_mod_cast hb
  have ha : 1 ≤ a := by
    by_contra h0
    have h0 : a = 0 := by omega
    rw [h0] at hc
    simp only [Nat.cast_zero, zero_div, sub_zero] at hc
    rw [abs_of_pos (by positivity), div_le_div_iff₀ hxpos (by positivity)] at hc
    have hb1 : (1 : K) ≤ b := by exact_mod_cast hb
    nlinarith
  have hapos : (0 : K) < a := by exact_mod_cast ha
  refine ⟨sgn x * b, a, ?_, by exact_mod_cast ha, by exact_mod_cast le_trans hab hbn, ?_, ?_⟩
  · unfold rational; rw [if_pos hx, h]; rfl
  · unfold sgn; split_ifs <;> simp [hbn]
  · have e : x - ((sgn x * (b : ℤ) : ℤ) : K) / ((a : ℤ) : K) = ((sgn x : ℤ) : K) * (|x| - (b : K) / a) := by
      have := sgn_mul_abs x
      push_cast; rw [mul_sub, this]; ring
    rw [e, abs_mul, abs_sgn, one_mul]
    have e2 : |x| - (b : K) / a = -(1 / |x| - (a : K) / b) * (|x| * b / a) := by
      field_simp; ring
    rw [e2, abs_mul, abs_neg, abs_of_pos (by positivity : 0 < |x| * (b : K) / a)]
    have h3 : |1 / |x| - (a : K) / b| * ((b : K) * ((n : K) + 1)) ≤ 1 := by
      rwa [le_div_iff₀ (by positivity)] at hc
    calc |1 / |x| - (a : K) / b| * (|x| * b / a) * (((a : ℤ) : K) * ((n : K) + 1))
        = (|1 / |x| - (a : K) / b| * ((b : K) * ((n : K) + 1))) * |x| := by push_cast; field_simp
      _ ≤ 1 * |x| := by gcongr
      _ = |x| := one_mul _

theorem fareyLoop_zero (x : K) (n fuel d : ℕ) (hd : 1 ≤ d) (hdn : d ≤ n + 1) (h : x * ((n : K) + 1) < 1) (hx : 0 < x)
    (hf : n + 1 - d < fuel) (hn : 1 ≤ n) : fareyLoop x n fuel 0 1 1 d = some (0, 1) := by
  induction fuel generalizing d with
  | zero => omega
  | succ fuel ih =>
    unfold fareyLoop
    by_cases hd' : d ≤ n
    · rw [if_pos ⟨hn, hd'⟩]
      have hpos : (0 : K) < ((1 + d : ℕ) : K) := by positivity
      have hlt : x < ((0 + 1 : ℕ) : K) / ((1 + d : ℕ) : K) := by
        rw [lt_div_iff₀ hpos]
        have : ((1 + d : ℕ) : K) ≤ (n : K) + 1 := by exact_mod_cast (by omega : 1 + d ≤ n + 1)
        have : x * ((1 + d : ℕ) : K) ≤ x * ((n : K) + 1) := by gcongr
        simp; simp at this; linarith
      rw [if_neg hlt.ne, if_neg (not_lt.2 hlt.le)]
      have : (1 + d) = d + 1 := by omega
      rw [this]
      exact ih (d + 1) (by omega) (by omega) (by omega)
    · rw [if_neg (by omega), if_neg (by omega)]

/-- **C05 is false for large magnitudes**: whenever `x > n + 1`, `rational(x, n)` returns a zero denominator, hence
    `rationalize` replaces a finite entry (even an integer) by a non-finite value. -/
theorem rational_zero_denominator (x : K) (n : ℕ) (hn : 1 ≤ n) (hx : (n : K) + 1 < x) :
    rational x n = some (1, 0) ∧ ratio x n = none := by
  have hn' : (0 : K) < (n : K) + 1 := by positivity
  have hxpos : 0 < x := lt_trans hn' hx
  have h1 : 1 < |x| := by
    rw [abs_of_pos hxpos]
    have : (1 : K) ≤ n := by exact_mod_cast hn
    linarith
  have hf : farey (1 / |x|) n = some (0, 1) := by
    apply fareyLoop_zero _ _ _ _ le_rfl (by omega) _ (by positivity) (by omega) hn
    rw [abs_of_pos hxpos, div_mul_eq_mul_div, one_mul, div_lt_one hxpos]; exact hx
  have hr : rational x n = some (1, 0) := by
    unfold rational; rw [if_pos h1, hf, if_pos hxpos.le]; rfl
  exact ⟨hr, by unfold ratio; rw [hr]; rfl⟩

/-- The integer 1000 is turned into `1/0` when the maximum denominator is 100. -/
example : rational (1000 : ℚ) 100 = some (1, 0) := (rational_zero_denominator (K := ℚ) 1000 100 (by norm_num) (by norm_num)).1

/-- **C05 (exact recovery, partial: |x| ≤ 1)**. -/
theorem ratio_exact_small_partial (p q : ℕ) (n : ℕ) (hq : 1 ≤ q) (hqn : q ≤ n) (hpq : p ≤ q) (s : K) (hs : s = 1 ∨ s = -1) :
    ratio (s * ((p : K) / q)) n = some (s * ((p : K) / q)) := by
  have hqpos : (0 : K) < q := by exact_mod_cast hq
  have habs : |s * ((p : K) / q)| = (p : K) / q := by
    rw [abs_mul, abs_of_nonneg (by positivity : 0 ≤ (p : K) / q)]
    rcases hs with rfl | rfl <;> simp
  have hle : |s * ((p : K) / q)| ≤ 1 := by
    rw [habs, div_le_one hqpos]; exact_mod_cast hpq
  obtain ⟨a, b, h, hb, hbn, he⟩ := farey_exact (K := K) p q n hq hqn hpq
  have hr : rational (s * ((p : K) / q)) n = some (sgn (s * ((p : K) / q)) * a, (b : ℤ)) := by
    unfold rational; rw [if_neg (not_lt.2 hle), habs, h]; rfl
  unfold ratio
  rw [hr]
  have hb0 : (b : ℤ) ≠ 0 := by omega
  simp only [hb0, if_false]
  congr 1
  generalize hy : s * ((p : K) / q) = y at *
  have := sgn_mul_abs y
  rw [habs, ← he] at this
  push_cast
  rw [mul_div_assoc]; exact this

/-- **C05 (exact recovery, partial: |x| > 1)** requires the *numerator* to be at most `n`. -/
theorem ratio_exact_large_partial (p q : ℕ) (n : ℕ) (hq : 1 ≤ q) (hpn : p ≤ n) (hpq : q < p) :
    ratio ((p : K) / q) n = some ((p : K) / q) := by
  have hqpos : (0 : K) < q := by exact_mod_cast hq
  have hppos : (0 : K) < p := by exact_mod_cast (by omega : 0 < p)
  have hpos : 0 < (p : K) / q := by positivity
  have h1 : 1 < |(p : K) / q| := by
    rw [abs_of_pos hpos, lt_div_iff₀ hqpos, one_mul]; exact_mod_cast hpq
  have hinv : 1 / |(p : K) / q| = (q : K) / p := by rw [abs_of_pos hpos]; field_simp
  obtain ⟨a, b, h, hb, hbn, he⟩ := farey_exact (K := K) q p n (by omega) hpn hpq.le
  have hr : rational ((p : K) / q) n = some (1 * (b : ℤ), (a : ℤ)) := by
    unfold rational; rw [if_pos h1, hinv, h, if_pos hpos.le]; rfl
  have hbpos : (0 : K) < b := by exact_mod_cast hb
  have ha0 : (a : ℤ) ≠ 0 := by
    intro h0
    have : a = 0 := by exact_mod_cast h0
    rw [this] at he
    simp only [Nat.cast_zero, zero_div] at he
    have : (q : K) / p > 0 := by positivity
    linarith
  unfold ratio
  rw [hr]
  simp only [ha0, if_false]
  congr 1
  have ha : (a : K) ≠ 0 := by exact_mod_cast ha0
  have h2 : (a : K) * p = q * b := by
    field_simp at he; linarith
  push_cast
  rw [one_mul, div_eq_div_iff ha hqpos.ne']; linarith

/-- **C05 is false for |x| > 1 (recovery)**: `7/2` has denominator `2 ≤ 5` but is not returned for maximum denominator 5. -/
theorem ratio_not_exact_large : ratio (7/2 : ℚ) 5 ≠ some (7/2) := by decide +kernel

/-- `rationalize` leaves a vector of representable fractions of `[0,1]` unchanged, whatever its length. -/
theorem rationalize_fixes (n : ℕ) (data : List (ℕ × ℕ)) (h : ∀ pq ∈ data, 1 ≤ pq.2 ∧ pq.2 ≤ n ∧ pq.1 ≤ pq.2) :
    rationalize (data.map fun pq => (pq.1 : K) / pq.2) n = data.map fun pq => some ((pq.1 : K) / pq.2) := by
  unfold rationalize
  rw [List.map_map]
  apply List.map_congr_left
  intro pq hpq
  obtain ⟨h1, h2, h3⟩ := h pq hpq
  have := ratio_exact_small_partial (K := K) pq.1 pq.2 n h1 h2 h3 1 (Or.inl rfl)
  simpa using this

example : ∀ pq ∈ [(1, 2), (2, 3), (0, 1)], 1 ≤ pq.2 ∧ pq.2 ≤ 3 ∧ pq.1 ≤ pq.2 := by decide

end Optima.Rational
