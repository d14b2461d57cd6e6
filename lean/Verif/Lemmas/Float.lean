import Verif.Model.Float

/-!
# Properties of rounding
-/

namespace Optima.Fl

theorem pow_pos' (z : ℤ) : (0 : ℚ) < 2 ^ z := zpow_pos (by norm_num) z

theorem log2_bounds {n : ℕ} (h : n ≠ 0) : 2 ^ n.log2 ≤ n ∧ n < 2 ^ (n.log2 + 1) := ⟨Nat.log2_self_le h, Nat.lt_log2_self⟩

theorem expo_spec {x : ℚ} (h : x ≠ 0) : (2 : ℚ) ^ expo x ≤ |x| ∧ |x| < (2 : ℚ) ^ (expo x + 1) := by
  have hn : x.num.natAbs ≠ 0 := by simpa using h
  obtain ⟨n1, n2⟩ := log2_bounds hn
  obtain ⟨d1, d2⟩ := log2_bounds x.den_nz
  have hd : (0 : ℚ) < x.den := by exact_mod_cast Nat.pos_of_ne_zero x.den_nz
  have hx : |x| = (x.num.natAbs : ℚ) / x.den := by
    conv_lhs => rw [← Rat.num_div_den x]
    rw [abs_div, abs_of_pos hd]
    congr 1
    rw [Nat.cast_natAbs]
    push_cast
    rfl
  have n1' : (2 : ℚ) ^ x.num.natAbs.log2 ≤ x.num.natAbs := by exact_mod_cast n1
  have n2' : (x.num.natAbs : ℚ) < 2 ^ (x.num.natAbs.log2 + 1) := by exact_mod_cast n2
  have d1' : (2 : ℚ) ^ x.den.log2 ≤ x.den := by exact_mod_cast d1
  have d2' : (x.den : ℚ) < 2 ^ (x.den.log2 + 1) := by exact_mod_cast d2
  set a := x.num.natAbs.log2
  set b := x.den.log2
  have up : |x| < (2 : ℚ) ^ ((a : ℤ) - b + 1) := by
    rw [hx, div_lt_iff₀ hd]
    calc (x.num.natAbs : ℚ) < 2 ^ (a + 1) := n2'
      _ = (2 : ℚ) ^ ((a : ℤ) - b + 1) * 2 ^ b := by rw [← zpow_natCast, ← zpow_natCast, ← zpow_add₀ (by norm_num)]; congr 1; push_cast; ring
      _ ≤ _ := mul_le_mul_of_nonneg_left d1' (pow_pos' _).le
  have lo : (2 : ℚ) ^ ((a : ℤ) - b - 1) ≤ |x| := by
    rw [hx, le_div_iff₀ hd]
    calc (2 : ℚ) ^ ((a : ℤ) - b - 1) * x.den ≤ (2 : ℚ) ^ ((a : ℤ) - b - 1) * 2 ^ (b + 1) := mul_le_mul_of_nonneg_left d2'.le (pow_pos' _).le
      _ = 2 ^ a := by rw [← zpow_natCast, ← zpow_natCast, ← zpow_add₀ (by norm_num)]; congr 1; push_cast; ring
      _ ≤ _ := n1'
  unfold expo
  dsimp only
  split_ifs with hc
  · exact ⟨hc, up⟩
  · exact ⟨lo, by rw [sub_add_cancel]; exact not_le.1 hc⟩

theorem expo_unique {x : ℚ} {e : ℤ} (h1 : (2 : ℚ) ^ e ≤ |x|) (h2 : |x| < (2 : ℚ) ^ (e + 1)) : expo x = e := by
  have hx : x ≠ 0 := by rintro rfl; rw [abs_zero] at h1; exact absurd h1 (not_le.2 (pow_pos' e))
  obtain ⟨k1, k2⟩ := expo_spec hx
  have a1 := (zpow_lt_zpow_iff_right₀ (by norm_num : (1 : ℚ) < 2)).1 (k1.trans_lt h2)
  have a2 := (zpow_lt_zpow_iff_right₀ (by norm_num : (1 : ℚ) < 2)).1 (h1.trans_lt k2)
  omega

theorem expo_neg (x : ℚ) : expo (-x) = expo x := by
  unfold expo
  simp

theorem expo_mono {x y : ℚ} (hx : x ≠ 0) (h : |x| ≤ |y|) : expo x ≤ expo y := by
  have hy : y ≠ 0 := by rintro rfl; rw [abs_zero] at h; exact hx (abs_eq_zero.1 (le_antisymm h (abs_nonneg x)))
  have := (zpow_lt_zpow_iff_right₀ (by norm_num : (1 : ℚ) < 2)).1 (((expo_spec hx).1.trans h).trans_lt (expo_spec hy).2)
  omega

theorem ulp_pos (p : ℕ) (x : ℚ) : 0 < ulp p x := pow_pos' _

theorem roundEven_spec (q : ℚ) : |(roundEven q : ℚ) - q| ≤ 1 / 2 := by
  have h1 := Int.floor_le q
  have h2 := Int.lt_floor_add_one q
  unfold roundEven
  dsimp only
  rw [abs_le]
  split_ifs <;> push_cast <;> constructor <;> linarith

theorem roundEven_int (n : ℤ) : roundEven n = n := by
  unfold roundEven
  simp

theorem roundEven_mono {q r : ℚ} (h : q ≤ r) : roundEven q ≤ roundEven r := by
  rcases (Int.floor_le_floor h).lt_or_eq with hlt | heq
  · have a1 : roundEven q ≤ ⌊q⌋ + 1 := by unfold roundEven; dsimp only; split_ifs <;> omega
    have a2 : ⌊r⌋ ≤ roundEven r := by unfold roundEven; dsimp only; split_ifs <;> omega
    omega
  · unfold roundEven
    dsimp only
    rw [heq]
    split_ifs <;> first | omega | (exfalso; linarith)

theorem roundEven_neg (q : ℚ) : roundEven (-q) = - roundEven q := by
  by_cases hq : q = ⌊q⌋
  · rw [hq, roundEven_int, ← Int.cast_neg, roundEven_int]
  · have hf : ⌊-q⌋ = -⌊q⌋ - 1 := by
      rw [Int.floor_eq_iff]
      push_cast
      have h1 := lt_of_le_of_ne (Int.floor_le q) (Ne.symm hq)
      have h2 := Int.lt_floor_add_one q
      constructor <;> linarith
    unfold roundEven
    dsimp only
    rw [hf]
    push_cast
    split_ifs <;> first | omega | (exfalso; linarith)

/-- The factor of the rounded number. -/
theorem rnd_mantissa {p : ℕ} (hp : 0 < p) {x : ℚ} (hx : x ≠ 0) : (2 : ℤ) ^ (p - 1) ≤ |roundEven (x / ulp p x)| ∧ |roundEven (x / ulp p x)| ≤ 2 ^ p := by
  have hu := ulp_pos p x
  obtain ⟨h1, h2⟩ := expo_spec hx
  have hq1 : ((2 : ℤ) ^ (p - 1) : ℤ) ≤ |x / ulp p x| := by
    rw [abs_div, abs_of_pos hu, le_div_iff₀ hu]
    refine le_trans (le_of_eq ?_) h1
    unfold ulp
    push_cast
    rw [← zpow_natCast, ← zpow_add₀ (by norm_num)]
    congr 1
    push_cast [Nat.cast_sub hp]
    ring
  have hq2 : |x / ulp p x| ≤ ((2 : ℤ) ^ p : ℤ) := by
    rw [abs_div, abs_of_pos hu, div_le_iff₀ hu]
    refine le_trans h2.le (le_of_eq ?_)
    unfold ulp
    push_cast
    rw [← zpow_natCast, ← zpow_add₀ (by norm_num)]
    congr 1
    ring
  have key : ∀ q : ℚ, 0 ≤ q → ((2 : ℤ) ^ (p - 1) : ℤ) ≤ q → q ≤ ((2 : ℤ) ^ p : ℤ) → (2 : ℤ) ^ (p - 1) ≤ roundEven q ∧ roundEven q ≤ 2 ^ p := fun q _ a b => by
    have e1 := roundEven_mono a
    have e2 := roundEven_mono b
    rw [roundEven_int] at e1 e2
    exact ⟨e1, e2⟩
  have pos : (0 : ℤ) < 2 ^ (p - 1) := by positivity
  rcases le_or_gt 0 (x / ulp p x) with hs | hs
  · rw [abs_of_nonneg hs] at hq1 hq2
    obtain ⟨a, b⟩ := key _ hs hq1 hq2
    rw [abs_of_pos (by omega)]
    exact ⟨a, b⟩
  · rw [abs_of_neg hs] at hq1 hq2
    obtain ⟨a, b⟩ := key _ (by linarith) hq1 hq2
    rw [roundEven_neg] at a b
    rw [abs_of_neg (by omega)]
    exact ⟨a, b⟩

/-- Rounded numbers have `p` significant bits. -/
theorem rnd_repr {p : ℕ} (hp : 0 < p) (x : ℚ) : Repr p (rnd p x) := by
  unfold rnd
  split_ifs with hx
  · exact ⟨0, 0, by positivity, by simp⟩
  · exact ⟨_, _, (rnd_mantissa hp hx).2, rfl⟩

/-- A number with `p` significant bits is a multiple of the spacing of numbers that are not larger. -/
theorem repr_multiple {p : ℕ} (hp : 0 < p) {x y : ℚ} (hy : Repr p y) (hx : x ≠ 0) (h : |x| ≤ |y|) : ∃ n : ℤ, y = n * ulp p x := by
  obtain ⟨m, k, hm, rfl⟩ := hy
  have h1 := (expo_spec hx).1.trans h
  rw [abs_mul, abs_of_pos (pow_pos' k)] at h1
  have hm' : |(m : ℚ)| ≤ 2 ^ p := by exact_mod_cast hm
  have h2 : (2 : ℚ) ^ expo x ≤ 2 ^ ((p : ℤ) + k) := by
    rw [zpow_add₀ (by norm_num), zpow_natCast]
    exact h1.trans (mul_le_mul_of_nonneg_right hm' (pow_pos' k).le)
  have h3 := (zpow_le_zpow_iff_right₀ (by norm_num : (1 : ℚ) < 2)).1 h2
  by_cases hk : expo x - p + 1 ≤ k
  · refine ⟨m * 2 ^ (k - (expo x - p + 1)).toNat, ?_⟩
    unfold ulp
    push_cast
    rw [mul_assoc, ← zpow_natCast, ← zpow_add₀ (by norm_num), Int.toNat_of_nonneg (by omega)]
    congr 2
    ring
  · have he : expo x = p + k := by omega
    rw [he, zpow_add₀ (by norm_num), zpow_natCast] at h1
    have h4 : (2 : ℚ) ^ p ≤ |(m : ℚ)| := le_of_mul_le_mul_right h1 (pow_pos' k)
    have h5 : |m| = 2 ^ p := by
      apply le_antisymm hm
      exact_mod_cast h4
    obtain ⟨r, rfl⟩ : ∃ r, p = r + 1 := ⟨p - 1, by omega⟩
    have hulp : ulp (r + 1) x = 2 ^ k * 2 := by
      unfold ulp
      rw [he, ← zpow_add_one₀ (by norm_num)]
      congr 1
      push_cast
      ring
    rw [hulp]
    rcases abs_eq (by positivity : (0 : ℤ) ≤ 2 ^ (r + 1)) |>.1 h5 with e | e
    · exact ⟨2 ^ r, by rw [e]; push_cast; ring⟩
    · exact ⟨-2 ^ r, by rw [e]; push_cast; ring⟩

/-- Such numbers are not changed by rounding. -/
theorem rnd_of_repr {p : ℕ} (hp : 0 < p) {x : ℚ} (h : Repr p x) : rnd p x = x := by
  unfold rnd
  split_ifs with hx
  · exact hx.symm
  · obtain ⟨n, hn⟩ := repr_multiple hp h hx le_rfl
    have : x / ulp p x = n := by rw [div_eq_iff (ulp_pos p x).ne']; exact hn
    rw [this, roundEven_int]
    exact hn.symm

theorem rnd_rnd {p : ℕ} (hp : 0 < p) (x : ℚ) : rnd p (rnd p x) = rnd p x := rnd_of_repr hp (rnd_repr hp x)

theorem rnd_neg (p : ℕ) (x : ℚ) : rnd p (-x) = - rnd p x := by
  unfold rnd
  have hu : ulp p (-x) = ulp p x := by unfold ulp; rw [expo_neg]
  rw [hu, neg_div, roundEven_neg]
  by_cases hx : x = 0
  · simp [hx]
  · simp [hx]

theorem rnd_zero (p : ℕ) : rnd p 0 = 0 := by simp [rnd]

/-- The error is at most half a unit in the last place. -/
theorem rnd_ulp (p : ℕ) (x : ℚ) : |rnd p x - x| ≤ ulp p x / 2 := by
  have hu := ulp_pos p x
  unfold rnd
  split_ifs with hx
  · rw [hx, sub_zero, abs_zero]; exact (half_pos (ulp_pos p 0)).le
  · have := roundEven_spec (x / ulp p x)
    have e : (roundEven (x / ulp p x) : ℚ) * ulp p x - x = (roundEven (x / ulp p x) - x / ulp p x) * ulp p x := by field_simp
    rw [e, abs_mul, abs_of_pos hu]
    nlinarith

/-- The relative error is at most `2 ^ (-p)`. -/
theorem rnd_error (p : ℕ) (x : ℚ) : |rnd p x - x| ≤ |x| / 2 ^ p := by
  by_cases hx : x = 0
  · simp [hx, rnd]
  · refine (rnd_ulp p x).trans ?_
    rw [le_div_iff₀ (by positivity)]
    refine le_trans (le_of_eq ?_) (expo_spec hx).1
    unfold ulp
    have : (2 : ℚ) ^ (expo x - p + 1) = 2 ^ expo x / 2 ^ p * 2 := by
      rw [zpow_add_one₀ (by norm_num), zpow_sub₀ (by norm_num), zpow_natCast]
    rw [this]
    field_simp

theorem rnd_nonneg {p : ℕ} {x : ℚ} (h : 0 ≤ x) : 0 ≤ rnd p x := by
  unfold rnd
  split_ifs with hx
  · exact le_rfl
  · have hu := ulp_pos p x
    have : (0 : ℤ) ≤ roundEven (x / ulp p x) := by
      have := roundEven_mono (q := ((0 : ℤ) : ℚ)) (r := x / ulp p x) (by push_cast; positivity)
      rwa [roundEven_int] at this
    have : (0 : ℚ) ≤ roundEven (x / ulp p x) := by exact_mod_cast this
    positivity

theorem rnd_mono_pos {p : ℕ} (hp : 0 < p) {x y : ℚ} (hx : 0 < x) (h : x ≤ y) : rnd p x ≤ rnd p y := by
  have hy := hx.trans_le h
  have he : expo x ≤ expo y := expo_mono hx.ne' (by rwa [abs_of_pos hx, abs_of_pos hy])
  rcases he.lt_or_eq with hlt | heq
  · have mx := (rnd_mantissa hp hx.ne').2
    have my := (rnd_mantissa hp hy.ne').1
    have nx : 0 ≤ roundEven (x / ulp p x) := by
      have := roundEven_mono (q := ((0 : ℤ) : ℚ)) (r := x / ulp p x) (by have := ulp_pos p x; push_cast; positivity)
      rwa [roundEven_int] at this
    have ny : 0 ≤ roundEven (y / ulp p y) := by
      have := roundEven_mono (q := ((0 : ℤ) : ℚ)) (r := y / ulp p y) (by have := ulp_pos p y; push_cast; positivity)
      rwa [roundEven_int] at this
    rw [abs_of_nonneg nx] at mx
    rw [abs_of_nonneg ny] at my
    have mx' : (roundEven (x / ulp p x) : ℚ) ≤ 2 ^ p := by exact_mod_cast mx
    have my' : (2 : ℚ) ^ (p - 1) ≤ roundEven (y / ulp p y) := by exact_mod_cast my
    unfold rnd
    rw [if_neg hx.ne', if_neg hy.ne']
    have a1 : (roundEven (x / ulp p x) : ℚ) * ulp p x ≤ 2 ^ (expo x + 1) := by
      refine (mul_le_mul_of_nonneg_right mx' (ulp_pos p x).le).trans (le_of_eq ?_)
      unfold ulp
      rw [← zpow_natCast, ← zpow_add₀ (by norm_num)]
      congr 1; ring
    have a2 : (2 : ℚ) ^ expo y ≤ roundEven (y / ulp p y) * ulp p y := by
      refine le_trans (le_of_eq ?_) (mul_le_mul_of_nonneg_right my' (ulp_pos p y).le)
      unfold ulp
      rw [← zpow_natCast, ← zpow_add₀ (by norm_num)]
      congr 1
      push_cast [Nat.cast_sub hp]
      ring
    exact a1.trans (((zpow_le_zpow_iff_right₀ (by norm_num : (1 : ℚ) < 2)).2 (by omega)).trans a2)
  · have hu : ulp p x = ulp p y := by unfold ulp; rw [heq]
    unfold rnd
    rw [if_neg hx.ne', if_neg hy.ne', hu]
    have hp' := ulp_pos p y
    refine mul_le_mul_of_nonneg_right ?_ hp'.le
    exact_mod_cast roundEven_mono (div_le_div_of_nonneg_right h hp'.le)

/-- Rounding is monotone. -/
theorem rnd_mono {p : ℕ} (hp : 0 < p) {x y : ℚ} (h : x ≤ y) : rnd p x ≤ rnd p y := by
  rcases lt_or_ge 0 x with hx | hx
  · exact rnd_mono_pos hp hx h
  · rcases lt_or_ge y 0 with hy | hy
    · have := rnd_mono_pos hp (x := -y) (y := -x) (by linarith) (by linarith)
      rw [rnd_neg, rnd_neg] at this
      linarith
    · have h1 := rnd_nonneg (p := p) hy
      have h2 := rnd_nonneg (p := p) (x := -x) (by linarith)
      rw [rnd_neg] at h2
      linarith

/-- **Correct rounding**: no number with `p` significant bits is closer. -/
theorem rnd_nearest {p : ℕ} (hp : 0 < p) (x : ℚ) {y : ℚ} (hy : Repr p y) : |rnd p x - x| ≤ |y - x| := by
  have key : ∀ x y : ℚ, 0 < x → Repr p y → |rnd p x - x| ≤ |y - x| := by
    intro x y hx hy
    have hfix := rnd_of_repr hp hy
    rcases le_total x y with hxy | hyx
    · have h1 := rnd_mono hp hxy
      rw [hfix] at h1
      rcases le_total x (rnd p x) with a | a
      · rw [abs_of_nonneg (by linarith), abs_of_nonneg (by linarith)]; linarith
      · rw [abs_of_nonpos (by linarith), abs_of_nonneg (by linarith)]
        -- rounded down: the next number above is at least as far
        have hu := rnd_ulp p x
        rw [abs_of_nonpos (by linarith)] at hu
        obtain ⟨n, hn⟩ := repr_multiple hp hy hx.ne' (by rw [abs_of_pos hx, abs_of_pos (hx.trans_le hxy)]; exact hxy)
        have hr : rnd p x = roundEven (x / ulp p x) * ulp p x := by unfold rnd; rw [if_neg hx.ne']
        have hup := ulp_pos p x
        by_contra hlt
        push Not at hlt
        have hne : rnd p x ≠ y := by intro e; rw [← e] at hxy hlt; have : rnd p x = x := le_antisymm a hxy; rw [this] at hlt; linarith
        have hlt2 : rnd p x < y := lt_of_le_of_ne (a.trans hxy) hne
        rw [hr, hn] at hlt2
        have h3 : roundEven (x / ulp p x) < n := by exact_mod_cast (lt_of_mul_lt_mul_right hlt2 hup.le)
        have h4 : ((roundEven (x / ulp p x) : ℚ) + 1) * ulp p x ≤ n * ulp p x := mul_le_mul_of_nonneg_right (by exact_mod_cast h3) hup.le
        rw [← hn, add_mul, ← hr, one_mul] at h4
        linarith
    · have h1 := rnd_mono hp hyx
      rw [hfix] at h1
      rcases le_total (rnd p x) x with a | a
      · rw [abs_of_nonpos (by linarith), abs_of_nonpos (by linarith)]; linarith
      · rw [abs_of_nonneg (by linarith), abs_of_nonpos (by linarith)]
        have hu := rnd_ulp p x
        rw [abs_of_nonneg (by linarith)] at hu
        have hr : rnd p x = roundEven (x / ulp p x) * ulp p x := by unfold rnd; rw [if_neg hx.ne']
        have hup := ulp_pos p x
        by_contra hlt
        push Not at hlt
        -- `y` is above the multiple of the spacing below `x`, which is at least `2 ^ expo x`
        have hfl := Int.floor_le (x / ulp p x)
        have hz : ((2 : ℤ) ^ (p - 1) : ℤ) ≤ ⌊x / ulp p x⌋ := by
          rw [Int.le_floor, le_div_iff₀ hup]
          have hes := (expo_spec hx.ne').1
          rw [abs_of_pos hx] at hes
          refine le_trans (le_of_eq ?_) hes
          unfold ulp
          push_cast
          rw [← zpow_natCast, ← zpow_add₀ (by norm_num)]
          congr 1
          push_cast [Nat.cast_sub hp]
          ring
        have hpow : (2 : ℚ) ^ expo x ≤ ⌊x / ulp p x⌋ * ulp p x := by
          have hz' : ((2 : ℤ) ^ (p - 1) : ℚ) ≤ (⌊x / ulp p x⌋ : ℚ) := by exact_mod_cast hz
          refine le_trans (le_of_eq ?_) (mul_le_mul_of_nonneg_right hz' hup.le)
          unfold ulp
          push_cast
          rw [← zpow_natCast, ← zpow_add₀ (by norm_num)]
          congr 1
          push_cast [Nat.cast_sub hp]
          ring
        have hlow : (⌊x / ulp p x⌋ : ℚ) * ulp p x ≤ x := by
          have := mul_le_mul_of_nonneg_right hfl hup.le
          rwa [div_mul_cancel₀ _ hup.ne'] at this
        have hdiff : rnd p x ≤ ⌊x / ulp p x⌋ * ulp p x + ulp p x := by
          rw [hr]
          have : roundEven (x / ulp p x) ≤ ⌊x / ulp p x⌋ + 1 := by unfold roundEven; dsimp only; split_ifs <;> omega
          have : (roundEven (x / ulp p x) : ℚ) ≤ (⌊x / ulp p x⌋ : ℚ) + 1 := by exact_mod_cast this
          nlinarith
        have hy1 : ⌊x / ulp p x⌋ * ulp p x < y := by
          by_contra hc
          push Not at hc
          have hcase : roundEven (x / ulp p x) = ⌊x / ulp p x⌋ ∨ roundEven (x / ulp p x) = ⌊x / ulp p x⌋ + 1 := by
            unfold roundEven; dsimp only; split_ifs <;> omega
          rcases hcase with e | e
          · rw [e] at hr; linarith
          · rw [e] at hr; push_cast at hr; linarith
        have hpos : 0 < y := (pow_pos' (expo x)).trans_le (hpow.trans hy1.le)
        obtain ⟨n, hn⟩ : ∃ n : ℤ, y = n * ulp p x := by
          have he : expo y = expo x := by
            apply expo_unique
            · rw [abs_of_pos hpos]; exact hpow.trans hy1.le
            · rw [abs_of_pos hpos]; have := (expo_spec hx.ne').2; rw [abs_of_pos hx] at this; exact hyx.trans_lt this
          obtain ⟨n, hn⟩ := repr_multiple hp hy hpos.ne' le_rfl
          exact ⟨n, by rw [hn]; unfold ulp; rw [he]⟩
        rw [hn] at hy1
        have h3 : ⌊x / ulp p x⌋ < n := by exact_mod_cast (lt_of_mul_lt_mul_right hy1 hup.le)
        have h4 : ((⌊x / ulp p x⌋ : ℚ) + 1) * ulp p x ≤ n * ulp p x := mul_le_mul_of_nonneg_right (by exact_mod_cast h3) hup.le
        rw [← hn] at h4
        have h5 := Int.lt_floor_add_one (x / ulp p x)
        have h6 := mul_lt_mul_of_pos_right h5 hup
        rw [div_mul_cancel₀ _ hup.ne'] at h6
        linarith
  rcases lt_trichotomy x 0 with hx | hx | hx
  · have h := key (-x) (-y) (by linarith) (by obtain ⟨m, k, hm, rfl⟩ := hy; exact ⟨-m, k, by rwa [abs_neg], by push_cast; ring⟩)
    rw [rnd_neg] at h
    have e1 : |-rnd p x - -x| = |rnd p x - x| := by rw [← abs_neg]; congr 1; ring
    have e2 : |-y - -x| = |y - x| := by rw [← abs_neg]; congr 1; ring
    rwa [e1, e2] at h
  · subst hx; rw [rnd_zero]; simp
  · exact key x y hx hy

end Optima.Fl

namespace Optima.FNum

variable {p : ℕ}

theorem le_iff (a b : FNum p) : a ≤ b ↔ a.val ≤ b.val := Iff.rfl
theorem lt_iff (a b : FNum p) : a < b ↔ a.val < b.val := Iff.rfl
theorem val_fl (x : ℚ) : (fl x : FNum p).val = Fl.rnd p x := rfl
theorem val_neg' (a : FNum p) : (-a).val = Fl.rnd p (-a.val) := rfl
theorem val_add (a b : FNum p) : (a + b).val = Fl.rnd p (a.val + b.val) := rfl
theorem val_sub (a b : FNum p) : (a - b).val = Fl.rnd p (a.val - b.val) := rfl
theorem val_mul (a b : FNum p) : (a * b).val = Fl.rnd p (a.val * b.val) := rfl
theorem val_div (a b : FNum p) : (a / b).val = Fl.rnd p (a.val / b.val) := rfl
theorem val_zero : (0 : FNum p).val = 0 := Fl.rnd_zero p

theorem rnd_val (hp : 0 < p) (a : FNum p) : Fl.rnd p a.val = a.val := by
  obtain ⟨y, hy⟩ := a.isRnd
  rw [← hy, Fl.rnd_rnd hp]

theorem repr_val (hp : 0 < p) (a : FNum p) : Fl.Repr p a.val := by
  obtain ⟨y, hy⟩ := a.isRnd
  rw [← hy]
  exact Fl.rnd_repr hp y

theorem val_one (hp : 0 < p) : (1 : FNum p).val = 1 := by
  change Fl.rnd p 1 = 1
  exact Fl.rnd_of_repr hp ⟨1, 0, by rw [abs_one]; exact one_le_pow₀ (by norm_num), by simp⟩

theorem val_neg (hp : 0 < p) (a : FNum p) : (-a).val = -a.val := by rw [val_neg', Fl.rnd_neg, rnd_val hp]

theorem val_abs (hp : 0 < p) (a : FNum p) : a.abs.val = |a.val| := by
  unfold abs
  split_ifs with h
  · rw [val_sub, val_zero, zero_sub, Fl.rnd_neg, rnd_val hp, abs_of_neg h]
  · rw [abs_of_nonneg (not_lt.1 h)]

end Optima.FNum
