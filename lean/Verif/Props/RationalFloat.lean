import Verif.Model.RationalFloat
import Verif.Props.Rational
import Verif.Props.BrentFloat

/-! # C79: rational approximation in double arithmetic -/

set_option linter.unusedSectionVars false

namespace Optima.Rational.Num

open Optima.Brent.Num (fabs val_fabs rnd_pos)

/-- Integers up to 2⁵³ are doubles. -/
theorem val_toDouble {z : ℤ} (h : |z| ≤ 2 ^ 53) : (toDouble z).val = z :=
  Fl.rnd_of_repr (by norm_num) ⟨z, 0, h, by simp⟩

theorem val_nat {m : ℕ} (h : m ≤ 2 ^ 53) : (toDouble m).val = m := by
  rw [val_toDouble (by rw [abs_of_nonneg (by positivity)]; exact_mod_cast h)]
  simp

/-- The mediant is rounded once. -/
theorem val_mediant {m k : ℕ} (hm : m ≤ 2 ^ 53) (hk : k ≤ 2 ^ 53) : (toDouble m / toDouble k).val = Fl.rnd 53 ((m : ℚ) / k) := by
  rw [FNum.val_div, val_nat hm, val_nat hk]

/-- What is known in each iteration: the two fractions are neighbours and `x` is between them up to the rounding of the mediants. -/
structure Inv (x : ℚ) (n a b c d : ℕ) : Prop where
  hb : 1 ≤ b
  hd : 1 ≤ d
  hab : a ≤ b
  hcd : c ≤ d
  lo : (a : ℚ) / b ≤ x + 1 / 2 ^ 53
  hi : x - 1 / 2 ^ 53 ≤ (c : ℚ) / d
  det : b * c = a * d + 1
  one : b ≤ n ∨ d ≤ n
  hbn : b ≤ 2 * n
  hdn : d ≤ 2 * n

theorem width {a b c d : ℕ} (hb : 1 ≤ b) (hd : 1 ≤ d) (det : b * c = a * d + 1) : (c : ℚ) / d - a / b = 1 / ((d : ℚ) * b) := by
  have hdpos : (0 : ℚ) < d := by exact_mod_cast hd
  have hbpos : (0 : ℚ) < b := by exact_mod_cast hb
  have hdet : (b : ℚ) * c = a * d + 1 := by exact_mod_cast det
  field_simp
  linarith

theorem inv_le {k m n : ℕ} (hk : 1 ≤ k) (h : n < m) : 1 / ((k : ℚ) * m) ≤ 1 / ((k : ℚ) * (n + 1)) := by
  have hk : (0 : ℚ) < k := by exact_mod_cast hk
  have : (n : ℚ) + 1 ≤ m := by exact_mod_cast h
  exact one_div_le_one_div_of_le (by positivity) (by nlinarith)

theorem close_right {x : ℚ} {n a b c d : ℕ} (hb : 1 ≤ b) (hd : 1 ≤ d) (det : b * c = a * d + 1) (lo : (a : ℚ) / b ≤ x + 1 / 2 ^ 53) (hi : x - 1 / 2 ^ 53 ≤ (c : ℚ) / d) (h : n < b) :
    |x - (c : ℚ) / d| ≤ 1 / ((d : ℚ) * (n + 1)) + 1 / 2 ^ 53 := by
  have h1 := width hb hd det
  have h2 := inv_le hd h
  have h3 : (0 : ℚ) ≤ 1 / ((d : ℚ) * (n + 1)) := by positivity
  rw [abs_le]
  constructor <;> linarith

theorem close_left {x : ℚ} {n a b c d : ℕ} (hb : 1 ≤ b) (hd : 1 ≤ d) (det : b * c = a * d + 1) (lo : (a : ℚ) / b ≤ x + 1 / 2 ^ 53) (hi : x - 1 / 2 ^ 53 ≤ (c : ℚ) / d) (h : n < d) :
    |x - (a : ℚ) / b| ≤ 1 / ((b : ℚ) * (n + 1)) + 1 / 2 ^ 53 := by
  have h1 := width hb hd det
  have h2 := inv_le hb h
  have h3 : (0 : ℚ) ≤ 1 / ((b : ℚ) * (n + 1)) := by positivity
  rw [mul_comm] at h1
  rw [abs_le]
  constructor <;> linarith

/-- What the result satisfies. -/
structure Good (x : ℚ) (n a b : ℕ) : Prop where
  den_pos : 1 ≤ b
  den_le : b ≤ n
  num_le : a ≤ b
  reduced : Nat.Coprime a b
  close : |x - (a : ℚ) / b| ≤ 1 / ((b : ℚ) * (n + 1)) + 1 / 2 ^ 53

theorem coprime_left {a b c d : ℕ} (det : b * c = a * d + 1) : Nat.Coprime a b := by
  have h1 : Nat.gcd a b ∣ a * d + 1 := det ▸ Dvd.dvd.mul_right (Nat.gcd_dvd_right a b) c
  have h2 : Nat.gcd a b ∣ a * d := Dvd.dvd.mul_right (Nat.gcd_dvd_left a b) d
  exact Nat.dvd_one.1 ((Nat.dvd_add_right h2).1 h1)

theorem coprime_right {a b c d : ℕ} (det : b * c = a * d + 1) : Nat.Coprime c d := by
  have h1 : Nat.gcd c d ∣ a * d + 1 := det ▸ Dvd.dvd.mul_left (Nat.gcd_dvd_left c d) b
  have h2 : Nat.gcd c d ∣ a * d := Dvd.dvd.mul_left (Nat.gcd_dvd_right c d) a
  exact Nat.dvd_one.1 ((Nat.dvd_add_right h2).1 h1)

theorem mediant_error {m k : ℕ} (hk : 1 ≤ k) (h : m ≤ k) : |Fl.rnd 53 ((m : ℚ) / k) - (m : ℚ) / k| ≤ 1 / 2 ^ 53 := by
  have hk : (0 : ℚ) < k := by exact_mod_cast hk
  have h1 : (m : ℚ) / k ≤ 1 := (div_le_one hk).2 (by exact_mod_cast h)
  refine (Fl.rnd_error 53 _).trans ?_
  rw [abs_of_nonneg (by positivity)]
  exact div_le_div_of_nonneg_right h1 (by positivity)

theorem fareyLoop_good (x : Double) (n : ℕ) (hn : n < 2 ^ 32) (fuel a b c d : ℕ) (h : Inv x.val n a b c d) (hf : (n + 1 - b) + (n + 1 - d) < fuel) :
    ∃ r, fareyLoop toDouble x n fuel a b c d = some r ∧ Good x.val n r.1 r.2 := by
  induction fuel generalizing a b c d with
  | zero => omega
  | succ fuel ih =>
    have hb := h.hb; have hd := h.hd; have hab := h.hab; have hcd := h.hcd; have det := h.det
    have hbn := h.hbn; have hdn := h.hdn
    have vm : (toDouble (a + c : ℕ) / toDouble (b + d : ℕ)).val = Fl.rnd 53 (((a + c : ℕ) : ℚ) / (b + d : ℕ)) := val_mediant (by omega) (by omega)
    have em := mediant_error (m := a + c) (k := b + d) (by omega) (by omega)
    have detl : (b + d) * c = (a + c) * d + 1 := by nlinarith
    have detr : b * (a + c) = a * (b + d) + 1 := by nlinarith
    rw [abs_le] at em
    unfold fareyLoop
    split_ifs with h1 h2 h3 h4 h5 h6
    · rw [h2, vm]
      refine ⟨_, rfl, by simp; omega, h3, by simp; omega, coprime_left detl, ?_⟩
      have : (0 : ℚ) ≤ 1 / (((b + d : ℕ) : ℚ) * (n + 1)) := by positivity
      rw [abs_le]
      constructor <;> simp only <;> linarith
    · refine ⟨_, rfl, hd, h1.2, hcd, coprime_right det, close_right (by omega) hd detl ?_ h.hi (by omega)⟩
      rw [h2, vm]; linarith
    · refine ⟨_, rfl, hb, h1.1, hab, coprime_left det, close_left hb (by omega) detr h.lo ?_ (by omega)⟩
      rw [h2, vm]; linarith
    · rw [FNum.lt_iff, vm] at h5
      exact ih (a + c) (b + d) c d ⟨by omega, hd, by omega, hcd, by linarith, h.hi, detl, Or.inr h1.2, by omega, hdn⟩ (by omega)
    · rw [FNum.lt_iff, vm, not_lt] at h5
      exact ih a b (a + c) (b + d) ⟨hb, by omega, hab, by omega, h.lo, by linarith, detr, Or.inl h1.1, hbn, by omega⟩ (by omega)
    · exact ⟨_, rfl, hd, h.one.resolve_left (by omega), hcd, coprime_right det, close_right hb hd det h.lo h.hi h6⟩
    · exact ⟨_, rfl, hb, by simp; omega, hab, coprime_left det, close_left hb hd det h.lo h.hi (by omega)⟩

/-- **C79 (every double)** For every double in [0,1] and every maximum denominator `1 ≤ n < 2³²`, `farey` ends with a reduced fraction `a/b` in [0,1] with `b ≤ n` and within `1/(b(n+1)) + 2⁻⁵³` of `x`. -/
theorem farey_double (x : Double) (n : ℕ) (hx0 : 0 ≤ x.val) (hx1 : x.val ≤ 1) (hn : 1 ≤ n) (hn2 : n < 2 ^ 32) :
    ∃ a b, farey toDouble x n = some (a, b) ∧ 1 ≤ b ∧ b ≤ n ∧ a ≤ b ∧ Nat.Coprime a b ∧ |x.val - (a : ℚ) / b| ≤ 1 / ((b : ℚ) * (n + 1)) + 1 / 2 ^ 53 := by
  obtain ⟨⟨a, b⟩, h, hg⟩ := fareyLoop_good x n hn2 (2 * n + 2) 0 1 1 1
    ⟨le_rfl, le_rfl, by omega, le_rfl, by norm_num; linarith, by norm_num; linarith, by norm_num, Or.inl hn, by omega, by omega⟩ (by omega)
  exact ⟨a, b, h, hg.den_pos, hg.den_le, hg.num_le, hg.reduced, hg.close⟩

/-- `farey_double` for the double nearest to 1/π. -/
example : ∃ x : Double, 0 ≤ x.val ∧ x.val ≤ 1 ∧ farey toDouble x 400 = some (113, 355) := ⟨.fl (318309886184 / 1000000000000), by decide +kernel⟩

/-! ### Recovery of a fraction from a perturbed value -/

theorem gap_le {P Q m k n : ℕ} (hQ : 1 ≤ Q) (hk : 1 ≤ k) (hQn : Q ≤ n) (hkn : k ≤ 2 * n) (h : P * k < m * Q) {δ : ℚ} (hδ : 2 * (n : ℚ) ^ 2 * δ < 1) : (P : ℚ) / Q + δ < (m : ℚ) / k := by
  have hQ0 : (0 : ℚ) < Q := by exact_mod_cast hQ
  have hk0 : (0 : ℚ) < k := by exact_mod_cast hk
  have h1 : (P : ℚ) * k + 1 ≤ m * Q := by exact_mod_cast h
  have h2 : (Q : ℚ) ≤ n := by exact_mod_cast hQn
  have h3 : (k : ℚ) ≤ 2 * n := by exact_mod_cast hkn
  have e : (m : ℚ) / k - P / Q = (m * Q - P * k) / (Q * k) := by field_simp
  have h4 : 1 / ((Q : ℚ) * k) ≤ (m : ℚ) / k - P / Q := by
    rw [e]; exact div_le_div_of_nonneg_right (by linarith) (by positivity)
  have h5 : δ < 1 / ((Q : ℚ) * k) := by
    rw [lt_div_iff₀ (by positivity)]
    by_cases hd : 0 ≤ δ
    · have : (Q : ℚ) * k ≤ n * (2 * n) := mul_le_mul h2 h3 hk0.le (by linarith)
      nlinarith
    · have : 0 < (Q : ℚ) * k := by positivity
      nlinarith
  linarith

theorem gap_ge {P Q m k n : ℕ} (hQ : 1 ≤ Q) (hk : 1 ≤ k) (hQn : Q ≤ n) (hkn : k ≤ 2 * n) (h : m * Q < P * k) {δ : ℚ} (hδ : 2 * (n : ℚ) ^ 2 * δ < 1) : (m : ℚ) / k + δ < (P : ℚ) / Q := by
  have hQ0 : (0 : ℚ) < Q := by exact_mod_cast hQ
  have hk0 : (0 : ℚ) < k := by exact_mod_cast hk
  have h1 : (m : ℚ) * Q + 1 ≤ P * k := by exact_mod_cast h
  have h2 : (Q : ℚ) ≤ n := by exact_mod_cast hQn
  have h3 : (k : ℚ) ≤ 2 * n := by exact_mod_cast hkn
  have e : (P : ℚ) / Q - m / k = (P * k - m * Q) / (Q * k) := by field_simp
  have h4 : 1 / ((Q : ℚ) * k) ≤ (P : ℚ) / Q - m / k := by
    rw [e]; exact div_le_div_of_nonneg_right (by linarith) (by positivity)
  have h5 : δ < 1 / ((Q : ℚ) * k) := by
    rw [lt_div_iff₀ (by positivity)]
    by_cases hd : 0 ≤ δ
    · have : (Q : ℚ) * k ≤ n * (2 * n) := mul_le_mul h2 h3 hk0.le (by linarith)
      nlinarith
    · have : 0 < (Q : ℚ) * k := by positivity
      nlinarith
  linarith

/-- Two reduced fractions of the same value are the same. -/
theorem eq_of_reduced {P Q m k : ℕ} (h1 : Nat.Coprime P Q) (h2 : Nat.Coprime m k) (h : P * k = m * Q) : P = m ∧ Q = k := by
  have a1 : P ∣ m := h1.dvd_of_dvd_mul_right ⟨k, h.symm⟩
  have a2 : m ∣ P := h2.dvd_of_dvd_mul_right ⟨Q, h⟩
  have a3 : Q ∣ k := h1.symm.dvd_of_dvd_mul_left ⟨m, by rw [h, mul_comm]⟩
  have a4 : k ∣ Q := h2.symm.dvd_of_dvd_mul_left ⟨P, by rw [← h, mul_comm]⟩
  exact ⟨Nat.dvd_antisymm a1 a2, Nat.dvd_antisymm a3 a4⟩

/-- A fraction strictly between two neighbours has a large denominator. -/
theorem between {P Q a b c d : ℕ} (det : b * c = a * d + 1) (h1 : a * Q < P * b) (h2 : P * d < c * Q) : b + d ≤ Q := by
  have e1 : b * (P * d) + b ≤ b * (c * Q) := by nlinarith
  have e2 : d * (a * Q) + d ≤ d * (P * b) := by nlinarith
  have e3 : b * (c * Q) = d * (a * Q) + Q := by
    calc b * (c * Q) = (b * c) * Q := by ring
      _ = d * (a * Q) + Q := by rw [det]; ring
  have e4 : d * (P * b) = b * (P * d) := by ring
  omega

theorem fareyLoop_recovers (x : Double) {n P Q : ℕ} (hn : n < 2 ^ 32) (hPQ : Nat.Coprime P Q) (hQ : 1 ≤ Q) (hQn : Q ≤ n) {δ : ℚ} (hx : |x.val - (P : ℚ) / Q| ≤ δ) (hδ : 2 * (n : ℚ) ^ 2 * (δ + 1 / 2 ^ 53) < 1)
    (fuel a b c d : ℕ) (hb : 1 ≤ b) (hd : 1 ≤ d) (hab : a ≤ b) (hcd : c ≤ d) (det : b * c = a * d + 1) (lo : a * Q ≤ P * b) (hi : P * d ≤ c * Q) (hf : (n + 1 - b) + (n + 1 - d) < fuel) :
    fareyLoop toDouble x n fuel a b c d = some (P, Q) := by
  induction fuel generalizing a b c d with
  | zero => omega
  | succ fuel ih =>
    have detl : (b + d) * c = (a + c) * d + 1 := by nlinarith
    have detr : b * (a + c) = a * (b + d) + 1 := by nlinarith
    have hx := abs_le.1 hx
    unfold fareyLoop
    by_cases h1 : b ≤ n ∧ d ≤ n
    · rw [if_pos h1]
      have vm : (toDouble (a + c : ℕ) / toDouble (b + d : ℕ)).val = Fl.rnd 53 (((a + c : ℕ) : ℚ) / (b + d : ℕ)) := val_mediant (by omega) (by omega)
      have em := mediant_error (m := a + c) (k := b + d) (by omega) (by omega)
      rw [abs_le] at em
      rcases lt_trichotomy (P * (b + d)) ((a + c) * Q) with h2 | h2 | h2
      · have g := gap_le hQ (by omega) hQn (by omega) h2 hδ
        have hlt : x < toDouble (a + c : ℕ) / toDouble (b + d : ℕ) := by rw [FNum.lt_iff, vm]; linarith
        rw [if_neg hlt.ne, if_neg (not_lt.2 hlt.le)]
        exact ih a b (a + c) (b + d) hb (by omega) hab (by omega) detr lo h2.le (by omega)
      · obtain ⟨rfl, rfl⟩ := eq_of_reduced hPQ (coprime_left detl) h2
        by_cases h3 : x = toDouble (a + c : ℕ) / toDouble (b + d : ℕ)
        · rw [if_pos h3, if_pos hQn]
        · rw [if_neg h3]
          split_ifs
          · exact ih (a + c) (b + d) c d (by omega) hd (by omega) hcd detl le_rfl hi (by omega)
          · exact ih a b (a + c) (b + d) hb (by omega) hab (by omega) detr lo le_rfl (by omega)
      · have g := gap_ge hQ (by omega) hQn (by omega) h2 hδ
        have hlt : toDouble (a + c : ℕ) / toDouble (b + d : ℕ) < x := by rw [FNum.lt_iff, vm]; linarith
        rw [if_neg hlt.ne', if_pos hlt]
        exact ih (a + c) (b + d) c d (by omega) hd (by omega) hcd detl h2.le hi (by omega)
    · rw [if_neg h1]
      rcases lo.lt_or_eq with l1 | l1
      · rcases hi.lt_or_eq with l2 | l2
        · have := between det l1 l2; omega
        · obtain ⟨rfl, rfl⟩ := eq_of_reduced hPQ (coprime_right det) l2
          rw [if_pos (by omega)]
      · obtain ⟨rfl, rfl⟩ := eq_of_reduced hPQ (coprime_left det) l1.symm
        rw [if_neg (by omega)]

/-- `farey` finds the fraction of which `x` is a perturbed value. -/
theorem farey_recovers (x : Double) {n P Q : ℕ} (hn : n < 2 ^ 32) (hPQ : Nat.Coprime P Q) (hQ : 1 ≤ Q) (hQn : Q ≤ n) (hP : P ≤ Q) {δ : ℚ} (hx : |x.val - (P : ℚ) / Q| ≤ δ) (hδ : 2 * (n : ℚ) ^ 2 * (δ + 1 / 2 ^ 53) < 1) :
    farey toDouble x n = some (P, Q) :=
  fareyLoop_recovers x hn hPQ hQ hQn hx hδ _ 0 1 1 1 le_rfl le_rfl (by omega) le_rfl (by norm_num) (by omega) (by omega) (by omega)

theorem large_of {n P Q : ℕ} (hQ : 1 ≤ Q) (hQn : Q ≤ n) {z ε : ℚ} (he0 : 0 ≤ ε) (hz : z - (P : ℚ) / Q ≤ ε * ((P : ℚ) / Q)) (hεn : 4 * (n : ℚ) ^ 2 * ε < 1) (h1 : 1 < z) : Q ≤ P := by
  have hQ0 : (0 : ℚ) < Q := by exact_mod_cast hQ
  have hn1 : (1 : ℚ) ≤ n := by exact_mod_cast (hQ.trans hQn)
  have hQn' : (Q : ℚ) ≤ n := by exact_mod_cast hQn
  by_contra hc
  have hc : (P : ℚ) + 1 ≤ Q := by exact_mod_cast Nat.lt_of_not_le hc
  have g1 : (P : ℚ) / Q ≤ 1 - 1 / Q := by rw [div_le_iff₀ hQ0]; field_simp; linarith
  have g2 : 1 / (n : ℚ) ≤ 1 / Q := one_div_le_one_div_of_le hQ0 hQn'
  have g3 : ε * ((P : ℚ) / Q) < 1 / n := by
    rw [lt_div_iff₀ (by linarith)]
    have h0 : (0 : ℚ) ≤ (P : ℚ) / Q := by positivity
    have hle : (P : ℚ) / Q ≤ 1 := g1.trans (by linarith [show (0 : ℚ) ≤ 1 / Q by positivity])
    have a1 : ε * ((P : ℚ) / Q) ≤ ε := by nlinarith
    nlinarith
  linarith

theorem small_of {n P Q : ℕ} (hQ : 1 ≤ Q) (hQn : Q ≤ n) {z ε : ℚ} (hz : -(ε * ((P : ℚ) / Q)) ≤ z - (P : ℚ) / Q) (hε1 : ε < 1 / 4) (hεn : 4 * (n : ℚ) ^ 2 * ε < 1) (h1 : z ≤ 1) : P ≤ Q := by
  have hQ0 : (0 : ℚ) < Q := by exact_mod_cast hQ
  have hn1 : (1 : ℚ) ≤ n := by exact_mod_cast (hQ.trans hQn)
  have hQn' : (Q : ℚ) ≤ n := by exact_mod_cast hQn
  by_contra hc
  have hc : (Q : ℚ) + 1 ≤ P := by exact_mod_cast Nat.lt_of_not_le hc
  have g1 : 1 + 1 / (Q : ℚ) ≤ (P : ℚ) / Q := by rw [le_div_iff₀ hQ0]; field_simp; linarith
  have g2 : 1 / (n : ℚ) ≤ 1 / Q := one_div_le_one_div_of_le hQ0 hQn'
  have g4 : (P : ℚ) / Q * (1 - ε) ≤ 1 := by linarith
  have g5 : (1 + 1 / (n : ℚ)) * (1 - ε) ≤ 1 := le_trans (mul_le_mul_of_nonneg_right (by linarith) (by linarith)) g4
  have g6 : (n : ℚ) * (1 / n) = 1 := by field_simp
  have g7 : ((n : ℚ) + 1) * (1 - ε) ≤ n := by
    calc ((n : ℚ) + 1) * (1 - ε) = n * ((1 + 1 / (n : ℚ)) * (1 - ε)) := by field_simp
      _ ≤ n * 1 := mul_le_mul_of_nonneg_left g5 (by linarith)
      _ = n := mul_one _
  have g8 : ε * n ≤ 1 / 4 := by nlinarith
  nlinarith

theorem recip_close {P Q : ℕ} (hQ : 1 ≤ Q) (hP : 1 ≤ P) {z ε : ℚ} (he0 : 0 ≤ ε) (h1 : 1 < z) (hz : |z - (P : ℚ) / Q| ≤ ε * ((P : ℚ) / Q)) : |Fl.rnd 53 (1 / z) - (Q : ℚ) / P| ≤ 2 * ε + 1 / 2 ^ 53 := by
  have hQ0 : (0 : ℚ) < Q := by exact_mod_cast hQ
  have hP0 : (0 : ℚ) < P := by exact_mod_cast hP
  have e1 := Fl.rnd_error 53 (1 / z)
  have hpos : 0 < z := by linarith
  have hle : 1 / z ≤ 1 := by rw [div_le_one hpos]; exact h1.le
  have hzp : 0 < 1 / z := by positivity
  rw [abs_of_pos hzp] at e1
  have e2 : 1 / z / 2 ^ 53 ≤ 1 / 2 ^ 53 := div_le_div_of_nonneg_right hle (by positivity)
  have e3 : |1 / z - (Q : ℚ) / P| ≤ ε := by
    have : 1 / z - (Q : ℚ) / P = (P / Q - z) * ((Q / P) * (1 / z)) := by field_simp
    rw [this, abs_mul, abs_of_pos (show 0 < ((Q : ℚ) / P) * (1 / z) by positivity), abs_sub_comm]
    have k2 : |z - (P : ℚ) / Q| * ((Q / P) * (1 / z)) ≤ ε * (P / Q) * ((Q / P) * (1 / z)) := mul_le_mul_of_nonneg_right hz (by positivity)
    have k3 : ε * ((P : ℚ) / Q) * ((Q / P) * (1 / z)) = ε * (1 / z) := by field_simp
    have k4 : ε * (1 / z) ≤ ε := by nlinarith
    linarith
  calc |Fl.rnd 53 (1 / z) - (Q : ℚ) / P| ≤ |Fl.rnd 53 (1 / z) - 1 / z| + |1 / z - (Q : ℚ) / P| := abs_sub_le _ _ _
    _ ≤ 2 * ε + 1 / 2 ^ 53 := by linarith

/-- The sign of a perturbed fraction. -/
theorem sign_of (x : Double) {P Q : ℕ} (hQ : 1 ≤ Q) (s : ℤ) (hs : s = 1 ∨ s = -1) {ε : ℚ} (hε1 : ε < 1 / 4) (hx : |x.val - s * ((P : ℚ) / Q)| ≤ ε * ((P : ℚ) / Q)) : (if 0 ≤ x then (1 : ℤ) else -1) * P = s * P := by
  by_cases hP : P = 0
  · simp [hP]
  · have hQ0 : (0 : ℚ) < Q := by exact_mod_cast hQ
    have hP0 : (0 : ℚ) < P := by exact_mod_cast Nat.pos_of_ne_zero hP
    have h0 : (0 : ℚ) < (P : ℚ) / Q := by positivity
    rw [abs_le] at hx
    rcases hs with rfl | rfl
    · rw [if_pos]
      rw [FNum.le_iff, FNum.val_zero]
      push_cast at hx
      nlinarith
    · rw [if_neg]
      rw [FNum.le_iff, FNum.val_zero, not_le]
      push_cast at hx
      nlinarith

/-- **C79 (recovery)** The fraction, not only its value, is found: if `P/Q` is reduced with `P, Q ≤ n`, and `x` is any double with a relative distance of at most `ε` from `±P/Q`, where `4n²(ε + 2⁻⁵³) < 1`, then the result is `(±P, Q)`. -/
theorem rational_double (x : Double) {n P Q : ℕ} (hPQ : Nat.Coprime P Q) (hQ : 1 ≤ Q) (hQn : Q ≤ n) (hPn : P ≤ n) (hn : n < 2 ^ 32) (s : ℤ) (hs : s = 1 ∨ s = -1) {ε : ℚ} (he0 : 0 ≤ ε)
    (hx : |x.val - s * ((P : ℚ) / Q)| ≤ ε * ((P : ℚ) / Q)) (hε : 4 * (n : ℚ) ^ 2 * (ε + 1 / 2 ^ 53) < 1) : rational toDouble x n = some (s * P, (Q : ℤ)) := by
  have hQ0 : (0 : ℚ) < Q := by exact_mod_cast hQ
  have hn1 : (1 : ℚ) ≤ n := by exact_mod_cast (hQ.trans hQn)
  have hn2 : (1 : ℚ) ≤ (n : ℚ) ^ 2 := one_le_pow₀ hn1
  have hεn : 4 * (n : ℚ) ^ 2 * ε < 1 := by
    have : (0 : ℚ) < 4 * (n : ℚ) ^ 2 * (1 / 2 ^ 53) := by positivity
    linarith
  have hε1 : ε < 1 / 4 := by nlinarith
  have hδ : 2 * (n : ℚ) ^ 2 * (2 * ε + 1 / 2 ^ 53 + 1 / 2 ^ 53) < 1 := by linarith
  obtain ⟨z, hz⟩ : ∃ z, z = |x.val| := ⟨_, rfl⟩
  have vx : (fabs x).val = z := hz ▸ val_fabs (by norm_num) x
  have h0 : (0 : ℚ) ≤ (P : ℚ) / Q := by positivity
  have habs : |z - (P : ℚ) / Q| ≤ ε * ((P : ℚ) / Q) := by
    have : |z - abs (s * ((P : ℚ) / Q))| ≤ ε * ((P : ℚ) / Q) := hz ▸ (abs_abs_sub_abs_le _ _).trans hx
    rcases hs with rfl | rfl <;> simpa [abs_of_nonneg h0] using this
  have hsign := sign_of x hQ s hs hε1 hx
  have hab := abs_le.1 habs
  unfold rational
  dsimp only
  by_cases h1 : 1 < fabs x
  · rw [if_pos h1]
    rw [FNum.lt_iff, FNum.val_one (by norm_num), vx] at h1
    have hQP := large_of hQ hQn he0 hab.2 hεn h1
    have hy : |(1 / fabs x : Double).val - (Q : ℚ) / P| ≤ 2 * ε + 1 / 2 ^ 53 := by
      rw [FNum.val_div, FNum.val_one (by norm_num), vx]
      exact recip_close hQ (hQ.trans hQP) he0 h1 habs
    rw [farey_recovers (1 / fabs x) hn hPQ.symm (hQ.trans hQP) hPn hQP hy hδ]
    simp only [Option.map_some]
    rw [hsign]
  · rw [if_neg h1]
    rw [FNum.lt_iff, FNum.val_one (by norm_num), vx, not_lt] at h1
    have hPQ' := small_of hQ hQn hab.1 hε1 hεn h1
    have hle : (P : ℚ) / Q ≤ 1 := (div_le_one hQ0).2 (by exact_mod_cast hPQ')
    have hd : |(fabs x).val - (P : ℚ) / Q| ≤ 2 * ε + 1 / 2 ^ 53 := by
      rw [vx]
      refine habs.trans ?_
      have : (0 : ℚ) < 1 / 2 ^ 53 := by positivity
      nlinarith
    rw [farey_recovers (fabs x) hn hPQ hQ hQn hPQ' hd hδ]
    simp only [Option.map_some]
    rw [hsign]

theorem ratio_of_rational {x : Double} {n P Q : ℕ} (hQ : 1 ≤ Q) (hQn : Q ≤ 2 ^ 53) (hPn : P ≤ 2 ^ 53) {s : ℤ} (hs : s = 1 ∨ s = -1) (h : rational toDouble x n = some (s * P, (Q : ℤ))) : ratio toDouble x n = some (.fl (s * ((P : ℚ) / Q))) := by
  unfold ratio
  rw [h]
  dsimp only
  rw [if_neg (by omega)]
  congr 1
  apply FNum.val_injective
  have hP' : |s * (P : ℤ)| ≤ 2 ^ 53 := by
    have : |(P : ℤ)| ≤ 2 ^ 53 := by rw [abs_of_nonneg (by positivity)]; exact_mod_cast hPn
    rcases hs with rfl | rfl <;> simpa using this
  rw [FNum.val_div, val_toDouble hP', val_nat hQn, FNum.val_fl]
  push_cast
  rw [mul_div_assoc]

/-- **C79 (repair)** `rationalize` replaces a perturbed fraction by the double nearest to the fraction. -/
theorem ratio_double (x : Double) {n P Q : ℕ} (hPQ : Nat.Coprime P Q) (hQ : 1 ≤ Q) (hQn : Q ≤ n) (hPn : P ≤ n) (hn : n < 2 ^ 32) (s : ℤ) (hs : s = 1 ∨ s = -1) {ε : ℚ} (he0 : 0 ≤ ε)
    (hx : |x.val - s * ((P : ℚ) / Q)| ≤ ε * ((P : ℚ) / Q)) (hε : 4 * (n : ℚ) ^ 2 * (ε + 1 / 2 ^ 53) < 1) : ratio toDouble x n = some (.fl (s * ((P : ℚ) / Q))) :=
  ratio_of_rational hQ (by omega) (by omega) hs (rational_double x hPQ hQ hQn hPn hn s hs he0 hx hε)

/-- 0.1 + 0.2 in double arithmetic, which is not the double 0.3. -/
def sum12 : Double := .fl (1 / 10) + .fl (2 / 10)

example : sum12 ≠ .fl (3 / 10) := by decide +kernel

/-- `ratio_double` for the sum above and the denominators up to 1000: the sum is repaired. -/
example : ratio toDouble sum12 1000 = some (.fl (3 / 10)) := by
  have h : |sum12.val - 3 / 10| ≤ 1 / 2 ^ 53 := by decide +kernel
  have := ratio_double sum12 (n := 1000) (P := 3) (Q := 10) (by decide) (by omega) (by omega) (by omega) (by norm_num) 1 (Or.inl rfl) (ε := 1 / 2 ^ 51) (by positivity)
    (by push_cast; rw [one_mul]; refine h.trans (by norm_num)) (by norm_num)
  simpa using this

/-- A value next to -7/3, with errors as large as 10⁻⁸, and the denominators up to 1000. -/
def perturbed : Double := .fl (-7 / 3 + 1 / 10 ^ 8)

example : rational toDouble perturbed 1000 = some (-7, 3) := by
  have h : |perturbed.val + 7 / 3| ≤ 2 / 10 ^ 8 := by decide +kernel
  exact rational_double perturbed (n := 1000) (P := 7) (Q := 3) (by decide) (by omega) (by omega) (by omega) (by norm_num) (-1) (Or.inr rfl) (ε := 1 / 10 ^ 8) (by positivity)
    (by push_cast; rw [show perturbed.val - -1 * ((7 : ℚ) / 3) = perturbed.val + 7 / 3 by ring]; refine h.trans (by norm_num)) (by norm_num)

/-- **C79 (repair of arrays)** The same for all entries of an array, each with its own fraction. -/
theorem rationalize_double {n : ℕ} (hn : n < 2 ^ 32) {ε : ℚ} (he0 : 0 ≤ ε) (hε : 4 * (n : ℚ) ^ 2 * (ε + 1 / 2 ^ 53) < 1) (data : List Double) (frac : Double → ℤ × ℕ × ℕ)
    (h : ∀ x ∈ data, ((frac x).1 = 1 ∨ (frac x).1 = -1) ∧ Nat.Coprime (frac x).2.1 (frac x).2.2 ∧ 1 ≤ (frac x).2.2 ∧ (frac x).2.2 ≤ n ∧ (frac x).2.1 ≤ n ∧
      |x.val - (frac x).1 * (((frac x).2.1 : ℚ) / (frac x).2.2)| ≤ ε * (((frac x).2.1 : ℚ) / (frac x).2.2)) :
    rationalize toDouble data n = data.map fun x => some (.fl ((frac x).1 * (((frac x).2.1 : ℚ) / (frac x).2.2))) := by
  unfold rationalize
  refine List.map_congr_left fun x hx => ?_
  obtain ⟨h1, h2, h3, h4, h5, h6⟩ := h x hx
  exact ratio_double x h2 h3 h4 h5 hn _ h1 he0 h6 hε

example : rationalize toDouble [sum12, perturbed] 1000 = [some (.fl (3 / 10)), some (.fl (-7 / 3))] := by decide +kernel

/-! ### Rounded fractions in [-1,1], for every maximum denominator -/

theorem fareyLoop_fixes {n P Q : ℕ} (hn : n < 2 ^ 32) (hQ : 1 ≤ Q) (hQn : Q ≤ n) (fuel a b c d : ℕ) (hb : 1 ≤ b) (hd : 1 ≤ d) (hab : a ≤ b) (hcd : c ≤ d) (det : b * c = a * d + 1)
    (lo : a * Q < P * b) (hi : P * d < c * Q) (hf : (n + 1 - b) + (n + 1 - d) < fuel) :
    ∃ p q, fareyLoop toDouble (.fl ((P : ℚ) / Q)) n fuel a b c d = some (p, q) ∧ 1 ≤ q ∧ q ≤ n ∧ p ≤ q ∧ Fl.rnd 53 ((p : ℚ) / q) = Fl.rnd 53 ((P : ℚ) / Q) := by
  have hQ0 : (0 : ℚ) < Q := by exact_mod_cast hQ
  induction fuel generalizing a b c d with
  | zero => omega
  | succ fuel ih =>
    have detl : (b + d) * c = (a + c) * d + 1 := by nlinarith
    have detr : b * (a + c) = a * (b + d) + 1 := by nlinarith
    have hbd := between det lo hi
    have hbd0 : (0 : ℚ) < (b + d : ℕ) := by exact_mod_cast (by omega : 0 < b + d)
    have vm : (toDouble (a + c : ℕ) / toDouble (b + d : ℕ)).val = Fl.rnd 53 (((a + c : ℕ) : ℚ) / (b + d : ℕ)) := val_mediant (by omega) (by omega)
    unfold fareyLoop
    rw [if_pos ⟨by omega, by omega⟩]
    by_cases h2 : (.fl ((P : ℚ) / Q)) = toDouble (a + c : ℕ) / toDouble (b + d : ℕ)
    · rw [if_pos h2, if_pos (by omega)]
      refine ⟨_, _, rfl, by omega, by omega, by omega, ?_⟩
      rw [← vm, ← h2]; rfl
    · rw [if_neg h2]
      by_cases h3 : toDouble (a + c : ℕ) / toDouble (b + d : ℕ) < .fl ((P : ℚ) / Q)
      · rw [if_pos h3]
        refine ih (a + c) (b + d) c d (by omega) hd (by omega) hcd detl ?_ hi (by omega)
        rw [FNum.lt_iff, vm, FNum.val_fl] at h3
        by_contra hc
        push Not at hc
        refine absurd (Fl.rnd_mono (p := 53) (by norm_num) ?_) (not_le.2 h3)
        rw [div_le_div_iff₀ hQ0 hbd0]
        exact_mod_cast hc
      · rw [if_neg h3]
        refine ih a b (a + c) (b + d) hb (by omega) hab (by omega) detr lo ?_ (by omega)
        by_contra hc
        push Not at hc
        apply h2
        apply FNum.val_injective
        rw [FNum.lt_iff, vm, FNum.val_fl, not_lt] at h3
        rw [vm, FNum.val_fl]
        refine le_antisymm h3 (Fl.rnd_mono (by norm_num) ?_)
        rw [div_le_div_iff₀ hbd0 hQ0]
        exact_mod_cast hc

theorem fareyLoop_zero {n : ℕ} (hn : n < 2 ^ 32) (h1 : 1 ≤ n) (x : Double) (hx : x.val = 0) (fuel d : ℕ) (hd : 1 ≤ d) (hdn : d ≤ n + 1) (hf : n + 1 - d < fuel) : fareyLoop toDouble x n fuel 0 1 1 d = some (0, 1) := by
  induction fuel generalizing d with
  | zero => omega
  | succ fuel ih =>
    have vm : (toDouble (0 + 1 : ℕ) / toDouble (1 + d : ℕ)).val = Fl.rnd 53 (((0 + 1 : ℕ) : ℚ) / (1 + d : ℕ)) := val_mediant (by omega) (by omega)
    have hlt : x < toDouble (0 + 1 : ℕ) / toDouble (1 + d : ℕ) := by
      rw [FNum.lt_iff, vm, hx]
      exact rnd_pos (by norm_num) (by positivity)
    unfold fareyLoop
    by_cases h : 1 ≤ n ∧ d ≤ n
    · rw [if_pos h, if_neg hlt.ne, if_neg (not_lt.2 hlt.le)]
      exact ih (1 + d) (by omega) (by omega) (by omega)
    · rw [if_neg h, if_neg (by omega)]

theorem fareyLoop_one {n : ℕ} (hn : n < 2 ^ 32) (h1 : 1 ≤ n) (x : Double) (hx : x.val = 1) (fuel a : ℕ) (han : a ≤ n) (hf : n - a < fuel) : fareyLoop toDouble x n fuel a (a + 1) 1 1 = some (1, 1) := by
  induction fuel generalizing a with
  | zero => omega
  | succ fuel ih =>
    have vm : (toDouble (a + 1 : ℕ) / toDouble (a + 1 + 1 : ℕ)).val = Fl.rnd 53 (((a + 1 : ℕ) : ℚ) / (a + 1 + 1 : ℕ)) := val_mediant (by omega) (by omega)
    have hlt : toDouble (a + 1 : ℕ) / toDouble (a + 1 + 1 : ℕ) < x := by
      rw [FNum.lt_iff, vm, hx]
      have e : Fl.rnd 53 (1 - 1 / 2 ^ 53) < 1 := by decide +kernel
      refine lt_of_le_of_lt (Fl.rnd_mono (by norm_num) ?_) e
      have h2 : ((a + 1 + 1 : ℕ) : ℚ) ≤ 2 ^ 53 := by exact_mod_cast (by omega : a + 1 + 1 ≤ 2 ^ 53)
      have h3 : (0 : ℚ) < (a + 1 + 1 : ℕ) := by positivity
      rw [div_le_iff₀ h3]
      push_cast at h2 ⊢
      linarith
    unfold fareyLoop
    by_cases h : a + 1 ≤ n ∧ 1 ≤ n
    · rw [if_pos h, if_neg hlt.ne', if_pos hlt]
      exact ih (a + 1) (by omega) (by omega)
    · rw [if_neg h, if_pos (by omega)]

/-- **C79 (rounded fractions are fixed points)** For every maximum denominator `n < 2³²`, `rationalize` does not change a double nearest to a fraction of [-1,1] with a denominator of at most `n`. -/
theorem ratio_fixes_partial {n P Q : ℕ} (hn : n < 2 ^ 32) (hQ : 1 ≤ Q) (hQn : Q ≤ n) (hPQ : P ≤ Q) (s : ℤ) (hs : s = 1 ∨ s = -1) : ratio toDouble (.fl (s * ((P : ℚ) / Q))) n = some (.fl (s * ((P : ℚ) / Q))) := by
  have hQ0 : (0 : ℚ) < Q := by exact_mod_cast hQ
  have h0 : (0 : ℚ) ≤ (P : ℚ) / Q := by positivity
  have h1 : (P : ℚ) / Q ≤ 1 := (div_le_one hQ0).2 (by exact_mod_cast hPQ)
  have r0 : 0 ≤ Fl.rnd 53 ((P : ℚ) / Q) := Fl.rnd_nonneg h0
  have r1 : Fl.rnd 53 ((P : ℚ) / Q) ≤ 1 := by
    have := Fl.rnd_mono (p := 53) (by norm_num) h1
    rwa [show Fl.rnd 53 1 = 1 by decide +kernel] at this
  have vx : (fabs (.fl (s * ((P : ℚ) / Q)) : Double)) = .fl ((P : ℚ) / Q) := by
    apply FNum.val_injective
    rw [val_fabs (by norm_num), FNum.val_fl, FNum.val_fl]
    rcases hs with rfl | rfl
    · simp [abs_of_nonneg r0]
    · simp [Fl.rnd_neg, abs_of_nonneg r0]
  have hf : ∃ p q, farey toDouble (.fl ((P : ℚ) / Q)) n = some (p, q) ∧ 1 ≤ q ∧ q ≤ n ∧ p ≤ q ∧ Fl.rnd 53 ((p : ℚ) / q) = Fl.rnd 53 ((P : ℚ) / Q) := by
    unfold farey
    rcases Nat.eq_zero_or_pos P with rfl | hP
    · exact ⟨0, 1, fareyLoop_zero hn (by omega) _ (by rw [FNum.val_fl]; simp [Fl.rnd_zero]) _ 1 le_rfl (by omega) (by omega), le_rfl, by omega, by omega, by simp⟩
    · rcases hPQ.lt_or_eq with hlt | rfl
      · exact fareyLoop_fixes hn hQ hQn _ 0 1 1 1 le_rfl le_rfl (by omega) le_rfl (by norm_num) (by omega) (by omega) (by omega)
      · have e : (P : ℚ) / P = 1 := div_self hQ0.ne'
        rw [e]
        exact ⟨1, 1, fareyLoop_one hn (by omega) _ (by rw [FNum.val_fl]; decide +kernel) _ 0 (by omega) (by omega), le_rfl, by omega, le_rfl, by simp⟩
  obtain ⟨p, q, e, q1, q2, q3, er⟩ := hf
  have q0 : (0 : ℚ) < q := by exact_mod_cast q1
  have hr : rational toDouble (.fl (s * ((P : ℚ) / Q))) n = some ((if (0 : Double) ≤ .fl (s * ((P : ℚ) / Q)) then (1 : ℤ) else -1) * p, (q : ℤ)) := by
    unfold rational
    dsimp only
    rw [vx, if_neg, e, Option.map_some]
    rw [not_lt, FNum.le_iff, FNum.val_one (by norm_num), FNum.val_fl]
    exact r1
  rw [ratio_of_rational q1 (by omega) (by omega) (by split_ifs <;> simp) hr]
  congr 1
  apply FNum.val_injective
  rw [FNum.val_fl, FNum.val_fl]
  have hle : (0 : Double) ≤ .fl (s * ((P : ℚ) / Q)) ↔ 0 ≤ Fl.rnd 53 (s * ((P : ℚ) / Q)) := by rw [FNum.le_iff, FNum.val_zero, FNum.val_fl]
  rcases hs with rfl | rfl
  · rw [if_pos (by rw [hle]; simpa using r0)]
    simpa using er
  · by_cases hz : Fl.rnd 53 ((P : ℚ) / Q) = 0
    · rw [if_pos (by rw [hle]; simp [Fl.rnd_neg, hz])]
      simp [Fl.rnd_neg, er, hz]
    · rw [if_neg (by rw [hle]; simpa [Fl.rnd_neg] using lt_of_le_of_ne r0 (Ne.symm hz))]
      simp [Fl.rnd_neg, er]

/-- `ratio_fixes_partial` for the largest `unsigned` and a fraction with a denominator of more than 4·10⁹. -/
example : ratio toDouble (.fl (-1 * ((3141592653 : ℚ) / 4294967291))) 4294967295 = some (.fl (-1 * ((3141592653 : ℚ) / 4294967291))) := by
  have := ratio_fixes_partial (n := 4294967295) (P := 3141592653) (Q := 4294967291) (by norm_num) (by norm_num) (by norm_num) (by norm_num) (-1) (Or.inr rfl)
  simpa using this

/-! ### Larger than one and large denominators -/

/-- A fraction whose numerator and denominator are below 2²⁶. -/
def lost : Double := .fl (55785428 / 51987165)

/-- **C79 (large denominators)** Above one the reciprocal is rounded, and with a maximum denominator of 2²⁶ - 1 a rounded fraction is replaced by another double, although its numerator and denominator are smaller than the maximum.
    (For `n < 2²⁵` this cannot happen: `ratio_double` with `ε = 2⁻⁵³`.) -/
theorem ratio_double_changes : ratio toDouble lost 67108863 ≠ some lost ∧ rational toDouble lost 67108863 = some (60772297, 56634493) := by decide +kernel

section exact

variable {K : Type*} [Field K] [LinearOrder K] [IsStrictOrderedRing K]

theorem fareyLoop_field (x : K) (n fuel a b c d : ℕ) : fareyLoop (fun z : ℤ => (z : K)) x n fuel a b c d = Rational.fareyLoop x n fuel a b c d := by
  induction fuel generalizing a b c d with
  | zero => rfl
  | succ fuel ih =>
    unfold fareyLoop Rational.fareyLoop
    simp only [ih, Int.cast_natCast]

theorem fabs_field (x : K) : fabs x = |x| := by
  unfold fabs
  split_ifs with h
  · rw [abs_of_neg h]
  · rw [abs_of_nonneg (not_lt.1 h)]

/-- In exact arithmetic this is the program of C05. -/
theorem ratio_field (x : K) (n : ℕ) : ratio (fun z : ℤ => (z : K)) x n = Rational.ratio x n ∧ rational (fun z : ℤ => (z : K)) x n = Rational.rational x n := by
  have h : rational (fun z : ℤ => (z : K)) x n = Rational.rational x n := by
    unfold rational Rational.rational farey Rational.farey
    simp only [fareyLoop_field, fabs_field]
  refine ⟨?_, h⟩
  unfold ratio Rational.ratio
  rw [h]
  cases Rational.rational x n <;> rfl

end exact

end Optima.Rational.Num
