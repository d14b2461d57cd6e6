import Verif.Model.EchelonFloat
import Verif.Props.NullFloat

/-!
# C83: `Echelonizer` in double arithmetic
-/

set_option linter.unusedSectionVars false

namespace Optima.FLU

open Terms

variable {p n : ℕ} {A : Fin n → Fin n → FNum p} (F : Factors A)

/-! ## Triangular systems -/

theorem lower_error (hp : 0 < p) {b y : Fin n → FNum p} (hy : ∀ i, Terms.Sums (minus (b i) (· < i) (F.M i) y) (y i)) (i : Fin n) : |(b i).val - ∑ k, F.L i k * (y k).val| ≤ roundings p n * (|(b i).val| + ∑ k, |F.L i k| * |(y k).val|) := by
  have hs := sums_error hp (hy i)
  rw [exact_minus hp, mag_minus hp, length_lt] at hs
  have e1 : ∑ k, F.L i k * (y k).val = (∑ k, if k < i then (F.M i k).val * (y k).val else 0) + (y i).val := by
    have : ∀ k, F.L i k * (y k).val = (if k < i then (F.M i k).val * (y k).val else 0) + (if k = i then (y i).val else 0) := by
      intro k
      unfold Factors.L
      rcases lt_trichotomy k i with hk | hk | hk
      · simp [hk, hk.ne]
      · subst hk; simp
      · simp [hk.asymm, hk.ne']
    rw [Finset.sum_congr rfl fun k _ => this k, Finset.sum_add_distrib, Finset.sum_ite_eq' Finset.univ i]
    simp
  have e2 : ∑ k, |F.L i k| * |(y k).val| = (∑ k, if k < i then |(F.M i k).val * (y k).val| else 0) + |(y i).val| := by
    have : ∀ k, |F.L i k| * |(y k).val| = (if k < i then |(F.M i k).val * (y k).val| else 0) + (if k = i then |(y i).val| else 0) := by
      intro k
      unfold Factors.L
      rcases lt_trichotomy k i with hk | hk | hk
      · simp [hk, hk.ne, abs_mul]
      · subst hk; simp
      · simp [hk.asymm, hk.ne']
    rw [Finset.sum_congr rfl fun k _ => this k, Finset.sum_add_distrib, Finset.sum_ite_eq' Finset.univ i]
    simp
  rw [e1, e2]
  have hmono := roundings_mono p (show 1 + i.val ≤ n by have := i.isLt; omega)
  have hm : 0 ≤ |(b i).val| + ∑ k, (if k < i then |(F.M i k).val * (y k).val| else 0) := add_nonneg (abs_nonneg _) (Finset.sum_nonneg fun k _ => by split_ifs <;> positivity)
  have e : (b i).val - ((∑ k, if k < i then (F.M i k).val * (y k).val else 0) + (y i).val) = -((y i).val - ((b i).val - ∑ k, if k < i then (F.M i k).val * (y k).val else 0)) := by ring
  rw [e, abs_neg]
  calc _ ≤ _ := hs
    _ ≤ roundings p n * (|(b i).val| + ∑ k, (if k < i then |(F.M i k).val * (y k).val| else 0)) := mul_le_mul_of_nonneg_right hmono hm
    _ ≤ _ := mul_le_mul_of_nonneg_left (by have := abs_nonneg (y i).val; linarith) (roundings_nonneg p n)

theorem upper_error (hp : 0 < p) (hd : ∀ i, (F.M i i).val ≠ 0) {y z : Fin n → FNum p} (hz : ∀ i, ∃ s, Terms.Sums (minus (y i) (i < ·) (F.M i) z) s ∧ z i = s / F.M i i) (i : Fin n) : |(y i).val - ∑ k, F.U i k * (z k).val| ≤ roundings p (n + 1) * (|(y i).val| + ∑ k, |F.U i k| * |(z k).val|) := by
  obtain ⟨s, h1, h2⟩ := hz i
  have hs := sums_error hp h1
  rw [exact_minus hp, mag_minus hp, length_gt] at hs
  have hX := abs_minus_le hp (y i) (i < ·) (F.M i) z
  have hst := step_rel (p := p) (c := (1 + 1 / 2 ^ p) ^ (1 + (n - 1 - i.val))) hs hX (div_rel (hd i) h2)
  rw [← roundings_succ] at hst
  have e1 : ∑ k, F.U i k * (z k).val = (∑ k, if i < k then (F.M i k).val * (z k).val else 0) + (z i).val * (F.M i i).val := by
    have : ∀ k, F.U i k * (z k).val = (if i < k then (F.M i k).val * (z k).val else 0) + (if k = i then (z i).val * (F.M i i).val else 0) := by
      intro k
      unfold Factors.U
      rcases lt_trichotomy k i with hk | hk | hk
      · simp [hk, hk.asymm, hk.ne]
      · subst hk; simp [mul_comm]
      · simp [hk, hk.le, hk.ne']
    rw [Finset.sum_congr rfl fun k _ => this k, Finset.sum_add_distrib, Finset.sum_ite_eq' Finset.univ i]
    simp
  have e2 : ∑ k, |F.U i k| * |(z k).val| = (∑ k, if i < k then |(F.M i k).val * (z k).val| else 0) + |(z i).val * (F.M i i).val| := by
    have : ∀ k, |F.U i k| * |(z k).val| = (if i < k then |(F.M i k).val * (z k).val| else 0) + (if k = i then |(z i).val * (F.M i i).val| else 0) := by
      intro k
      unfold Factors.U
      rcases lt_trichotomy k i with hk | hk | hk
      · simp [hk, hk.asymm, hk.ne]
      · subst hk; simp [mul_comm, abs_mul]
      · simp [hk, hk.le, hk.ne', abs_mul]
    rw [Finset.sum_congr rfl fun k _ => this k, Finset.sum_add_distrib, Finset.sum_ite_eq' Finset.univ i]
    simp
  rw [e1, e2]
  have hmono := roundings_mono p (show 1 + (n - 1 - i.val) + 1 ≤ n + 1 by have := i.isLt; omega)
  have hm : 0 ≤ |(y i).val| + ∑ k, (if i < k then |(F.M i k).val * (z k).val| else 0) := add_nonneg (abs_nonneg _) (Finset.sum_nonneg fun k _ => by split_ifs <;> positivity)
  have e : (y i).val - ((∑ k, if i < k then (F.M i k).val * (z k).val else 0) + (z i).val * (F.M i i).val) = -((z i).val * (F.M i i).val - ((y i).val - ∑ k, if i < k then (F.M i k).val * (z k).val else 0)) := by ring
  rw [e, abs_neg]
  calc _ ≤ _ := hst
    _ ≤ roundings p (n + 1) * (|(y i).val| + ∑ k, (if i < k then |(F.M i k).val * (z k).val| else 0)) := mul_le_mul_of_nonneg_right hmono hm
    _ ≤ _ := mul_le_mul_of_nonneg_left (by have := abs_nonneg ((z i).val * (F.M i i).val); linarith) (roundings_nonneg p _)

theorem triangular_error (hp : 0 < p) (hr : F.rowPerm = 1) (hc : F.colPerm = 1) (hd : ∀ i, (F.M i i).val ≠ 0) {b y z : Fin n → FNum p} (hy : ∀ i, Terms.Sums (minus (b i) (· < i) (F.M i) y) (y i))
    (hz : ∀ i, ∃ s, Terms.Sums (minus (y i) (i < ·) (F.M i) z) s ∧ z i = s / F.M i i) (hγ : roundings p (n + 1) < 1) (i : Fin n) (g : ℚ) (hg : g = 2 * roundings p (n + 1) / (1 - roundings p (n + 1))) :
    |(b i).val - ∑ j, (A i j).val * (z j).val| ≤ (3 * g + g ^ 2) * ∑ j, F.size i j * |(z j).val| := by
  have h0 := roundings_nonneg p (n + 1)
  have hmono := roundings_mono p (Nat.le_succ n)
  set γ := roundings p (n + 1)
  have hg0 : 0 ≤ g := by rw [hg]; exact div_nonneg (by linarith) (by linarith)
  -- the three errors
  have hF : ∀ j, |(A i j).val - ∑ k, F.L i k * F.U k j| ≤ g * F.size i j := by
    intro j
    rw [hg]
    refine rel_terms h0 hγ (abs_sum_mul_le _ _) ((by simpa [hr, hc] using factor_error F hp i j : |(A i j).val - ∑ k, F.L i k * F.U k j| ≤ roundings p n * (|(A i j).val| + F.size i j)).trans (mul_le_mul_of_nonneg_right hmono ?_))
    exact add_nonneg (abs_nonneg _) (F.size_nonneg i j)
  have hY : |(b i).val - ∑ k, F.L i k * (y k).val| ≤ g * ∑ k, |F.L i k| * |(y k).val| := by
    rw [hg]
    refine rel_terms h0 hγ (abs_sum_mul_le _ _) ((lower_error F hp hy i).trans (mul_le_mul_of_nonneg_right hmono ?_))
    exact add_nonneg (abs_nonneg _) (Finset.sum_nonneg fun k _ => by positivity)
  have hZ : ∀ k, k ≤ i → |(y k).val - ∑ j, F.U k j * (z j).val| ≤ g * ∑ j, |F.U k j| * |(z j).val| := by
    intro k hk
    rw [hg]
    exact rel_terms h0 hγ (abs_sum_mul_le _ _) (upper_error F hp hd hz k)
  have hL : ∀ k, ¬ k ≤ i → F.L i k = 0 := by
    intro k hk
    unfold Factors.L
    rw [if_neg (fun h => hk h.le), if_neg (fun h => hk h.le)]
  have hyb : ∀ k, k ≤ i → |(y k).val| ≤ (1 + g) * ∑ j, |F.U k j| * |(z j).val| := by
    intro k hk
    have e : (y k).val = ((y k).val - ∑ j, F.U k j * (z j).val) + ∑ j, F.U k j * (z j).val := by ring
    rw [e]
    refine (abs_add_le _ _).trans ?_
    have := abs_sum_mul_le (F.U k) (fun j => (z j).val)
    have := hZ k hk
    linarith
  set W := ∑ j, F.size i j * |(z j).val| with hW
  have hWe : ∑ k, |F.L i k| * ∑ j, |F.U k j| * |(z j).val| = W := by
    rw [hW]
    unfold Factors.size
    simp only [Finset.mul_sum, Finset.sum_mul]
    rw [Finset.sum_comm]
    simp only [mul_assoc]
  have e : (b i).val - ∑ j, (A i j).val * (z j).val =
      ((b i).val - ∑ k, F.L i k * (y k).val) + (∑ k, F.L i k * ((y k).val - ∑ j, F.U k j * (z j).val)) -
        ∑ j, ((A i j).val - ∑ k, F.L i k * F.U k j) * (z j).val := by
    have e1 : ∑ k, F.L i k * ∑ j, F.U k j * (z j).val = ∑ j, (∑ k, F.L i k * F.U k j) * (z j).val := by
      simp only [Finset.mul_sum, Finset.sum_mul]
      rw [Finset.sum_comm]
      simp only [mul_assoc]
    simp only [mul_sub, sub_mul, Finset.sum_sub_distrib]
    rw [e1]
    ring
  rw [e]
  have b1 : |(b i).val - ∑ k, F.L i k * (y k).val| ≤ g * (1 + g) * W := by
    refine hY.trans ?_
    rw [mul_assoc]
    refine mul_le_mul_of_nonneg_left ?_ hg0
    rw [← hWe, Finset.mul_sum]
    refine Finset.sum_le_sum fun k _ => ?_
    by_cases hk : k ≤ i
    · calc |F.L i k| * |(y k).val| ≤ |F.L i k| * ((1 + g) * ∑ j, |F.U k j| * |(z j).val|) := mul_le_mul_of_nonneg_left (hyb k hk) (abs_nonneg _)
        _ = _ := by ring
    · simp [hL k hk]
  have b2 : |∑ k, F.L i k * ((y k).val - ∑ j, F.U k j * (z j).val)| ≤ g * W := by
    refine (abs_sum_mul_le _ _).trans ?_
    rw [← hWe, Finset.mul_sum]
    refine Finset.sum_le_sum fun k _ => ?_
    by_cases hk : k ≤ i
    · calc |F.L i k| * |(y k).val - ∑ j, F.U k j * (z j).val| ≤ |F.L i k| * (g * ∑ j, |F.U k j| * |(z j).val|) := mul_le_mul_of_nonneg_left (hZ k hk) (abs_nonneg _)
        _ = _ := by ring
    · simp [hL k hk]
  have b3 : |∑ j, ((A i j).val - ∑ k, F.L i k * F.U k j) * (z j).val| ≤ g * W := by
    refine (abs_sum_mul_le _ _).trans ?_
    rw [hW, Finset.mul_sum]
    refine Finset.sum_le_sum fun j _ => ?_
    calc _ ≤ (g * F.size i j) * |(z j).val| := mul_le_mul_of_nonneg_right (hF j) (abs_nonneg _)
      _ = _ := by ring
  refine (abs_sub _ _).trans ?_
  have := abs_add_le ((b i).val - ∑ k, F.L i k * (y k).val) (∑ k, F.L i k * ((y k).val - ∑ j, F.U k j * (z j).val))
  nlinarith

/-- Forward and backward substitution with the computed factors. -/
theorem triangular_double (hp : 0 < p) (hr : F.rowPerm = 1) (hc : F.colPerm = 1) (hd : ∀ i, (F.M i i).val ≠ 0) {b y z : Fin n → FNum p} (hy : ∀ i, Terms.Sums (minus (b i) (· < i) (F.M i) y) (y i))
    (hz : ∀ i, ∃ s, Terms.Sums (minus (y i) (i < ·) (F.M i) z) s ∧ z i = s / F.M i i) (hn : 16 * (n + 1) ≤ 2 ^ p) (i : Fin n) : |(b i).val - ∑ j, (A i j).val * (z j).val| ≤ 8 * (n + 1) / 2 ^ p * ∑ j, F.size i j * |(z j).val| := by
  obtain ⟨h1, h2⟩ := roundings_small p (n + 1) hn
  have h0 := roundings_nonneg p (n + 1)
  set γ := roundings p (n + 1) with hγ
  refine (triangular_error F hp hr hc hd hy hz (by linarith) i (2 * γ / (1 - γ)) rfl).trans (mul_le_mul_of_nonneg_right ?_ (Finset.sum_nonneg fun _ _ => mul_nonneg (F.size_nonneg _ _) (abs_nonneg _)))
  have hg : 2 * γ / (1 - γ) ≤ 15 / 7 * γ := by
    rw [div_le_iff₀ (by linarith)]
    nlinarith
  have hg0 : 0 ≤ 2 * γ / (1 - γ) := div_nonneg (by linarith) (by linarith)
  set g := 2 * γ / (1 - γ)
  have hg1 : g ≤ 1 / 7 := by linarith
  have h3 : 3 * g + g ^ 2 ≤ 22 / 7 * g := by nlinarith
  have h4 : 15 * γ ≤ 16 * ((n + 1) / 2 ^ p) := by
    have : ((n + 1 : ℕ) : ℚ) = n + 1 := by push_cast; rfl
    rw [this] at h1
    exact h1
  have e : 8 * ((n : ℚ) + 1) / 2 ^ p = 8 * ((n + 1) / 2 ^ p) := by ring
  rw [e]
  have h5 : (0 : ℚ) ≤ (n + 1) / 2 ^ p := by positivity
  linarith


end Optima.FLU

namespace Optima.FEch

open Ech FNull Terms

variable {p m n nb nn nl : ℕ}

/-! ## After `compute` -/

/-- **C83** After `compute` the rows of the pivots satisfy `A(:,ibasic)*R = I` and `A(:,ibasic)*S = A(:,inonbasic)` up to the rounding errors of the factorisation and the triangular systems. -/
theorem compute_double (hp : 0 < p) {A : Fin m → Fin n → FNum p} (C : Computed A nb nn nl) (hn : 16 * (nb + 1) ≤ 2 ^ p) (i : Fin nb) :
    (∀ c, |(if C.pr (.inl i) = c then 1 else 0) - ∑ j, (A (C.pr (.inl i)) (C.state.Q (.inl j))).val * (C.state.R (.inl j) c).val| ≤ 8 * (nb + 1) / 2 ^ p * ∑ j, C.F.size i j * |(C.state.R (.inl j) c).val|) ∧
    (∀ k, |(A (C.pr (.inl i)) (C.state.Q (.inr k))).val - ∑ j, (A (C.pr (.inl i)) (C.state.Q (.inl j))).val * (C.state.S j k).val| ≤ 8 * (nb + 1) / 2 ^ p * ∑ j, C.F.size i j * |(C.state.S j k).val|) := by
  constructor
  · intro c
    have h := FLU.triangular_double C.F hp C.rowPerm C.colPerm C.pivots (b := fun i => if C.pr (.inl i) = c then 1 else 0) (fun i => C.Y_sums i c) (fun i => C.Rt_sums i c) hn i
    have e : (if C.pr (.inl i) = c then (1 : FNum p) else 0).val = if C.pr (.inl i) = c then 1 else 0 := by
      split_ifs
      · exact FNum.val_one hp
      · exact FNum.val_zero
    simp only [e] at h
    exact h
  · intro k
    exact FLU.triangular_double C.F hp C.rowPerm C.colPerm C.pivots (b := fun i => A (C.pr (.inl i)) (C.q (.inr k))) (fun i => C.Ubn_sums i k) (fun i => C.S_sums i k) hn i

/-! ## After a swap -/

/-- The error of `A(:,ibasic)*R = T` in one row: `a` is the row of `A`, `t` that of `T`. -/
def errR (a : Fin n → ℚ) (t : Fin m → ℚ) (e : State (FNum p) m n nb nn nl) (c : Fin m) : ℚ := ∑ i, a (e.Q (.inl i)) * (e.R (.inl i) c).val - t c

/-- The error of `A(:,ibasic)*S = A(:,inonbasic)` in the row `a`. -/
def errS (a : Fin n → ℚ) (e : State (FNum p) m n nb nn nl) (k : Fin nn) : ℚ := ∑ i, a (e.Q (.inl i)) * (e.S i k).val - a (e.Q (.inr k))

/-- A column `r` of `R` or `S` and the pivot column `s`. -/
theorem pivot_error {γ : ℚ} (hγ : 0 ≤ γ) (α : Fin nb → ℚ) (an t : ℚ) (s r r' : Fin nb → ℚ) (ib : Fin nb) (h1 : |s ib * r' ib - r ib| ≤ γ * |r ib|) (h2 : ∀ i, i ≠ ib → |r' i - (r i - s i * r' ib)| ≤ γ * (|r i| + |s i * r' ib|)) :
    |∑ i, Function.update α ib an i * r' i - t| ≤ |∑ i, α i * r i - t| + |∑ i, α i * s i - an| * |r' ib| + γ * ∑ i, |α i| * (|r i| + |s i| * |r' ib|) := by
  let δ : Fin nb → ℚ := fun i => if i = ib then s ib * r' ib - r ib else r' i - (r i - s i * r' ib)
  have hδ : ∀ i, |δ i| ≤ γ * (|r i| + |s i| * |r' ib|) := by
    intro i
    by_cases hi : i = ib
    · subst hi
      simp only [δ, if_true]
      exact h1.trans (mul_le_mul_of_nonneg_left (le_add_of_nonneg_right (by positivity)) hγ)
    · simp only [δ, if_neg hi]
      rw [← abs_mul]
      exact h2 i hi
  have e : ∑ i, Function.update α ib an i * r' i - t = (∑ i, α i * r i - t) - (∑ i, α i * s i - an) * r' ib + ∑ i, α i * δ i := by
    have hs : ∀ i, Function.update α ib an i * r' i = α i * r i - α i * s i * r' ib + α i * δ i + (if i = ib then an * r' ib else 0) := by
      intro i
      by_cases hi : i = ib
      · subst hi
        simp only [δ, Function.update_self, if_true]
        ring
      · simp only [δ, Function.update_of_ne hi, if_neg hi]
        ring
    rw [Finset.sum_congr rfl fun i _ => hs i]
    simp only [Finset.sum_add_distrib, Finset.sum_sub_distrib, Finset.sum_ite_eq', Finset.mem_univ, if_true, Finset.sum_mul, sub_mul]
    ring
  rw [e]
  have b1 := abs_add_le ((∑ i, α i * r i - t) - (∑ i, α i * s i - an) * r' ib) (∑ i, α i * δ i)
  have b2 := abs_sub (∑ i, α i * r i - t) ((∑ i, α i * s i - an) * r' ib)
  rw [abs_mul] at b2
  have b3 : |∑ i, α i * δ i| ≤ γ * ∑ i, |α i| * (|r i| + |s i| * |r' ib|) := by
    refine (Finset.abs_sum_le_sum_abs _ _).trans ?_
    rw [Finset.mul_sum]
    refine Finset.sum_le_sum fun i _ => ?_
    rw [abs_mul]
    calc |α i| * |δ i| ≤ |α i| * (γ * (|r i| + |s i| * |r' ib|)) := mul_le_mul_of_nonneg_left (hδ i) (abs_nonneg _)
      _ = _ := by ring
  linarith

/-- The product with the reciprocal of the pivot. -/
theorem reciprocal_error {s r : FNum p} (hs : s.val ≠ 0) (hp : 0 < p) : |s.val * (r * (1 / s)).val - r.val| ≤ roundings p 2 * |r.val| := by
  rw [FNum.val_mul]
  have h1 : |(1 / s).val * s.val - 1| ≤ 1 / 2 ^ p := by
    have := FLU.div_rel hs (rfl : (1 / s : FNum p) = 1 / s)
    rw [FNum.val_one hp, abs_one] at this
    exact this
  set q := (1 / s : FNum p).val
  have h2 := Fl.rnd_error p (r.val * q)
  have h3 : |r.val * q * s.val - r.val| ≤ |r.val| * (1 / 2 ^ p) := by
    have : r.val * q * s.val - r.val = r.val * (q * s.val - 1) := by ring
    rw [this, abs_mul]
    exact mul_le_mul_of_nonneg_left h1 (abs_nonneg _)
  have h4 : |r.val * q * s.val| ≤ |r.val| * (1 + 1 / 2 ^ p) := by
    have : r.val * q * s.val = (r.val * q * s.val - r.val) + r.val := by ring
    rw [this]
    refine (abs_add_le _ _).trans ?_
    linarith
  have e : s.val * Fl.rnd p (r.val * q) - r.val = (Fl.rnd p (r.val * q) - r.val * q) * s.val + (r.val * q * s.val - r.val) := by ring
  rw [e]
  refine (abs_add_le _ _).trans ?_
  rw [abs_mul]
  have h5 : |Fl.rnd p (r.val * q) - r.val * q| * |s.val| ≤ |r.val * q * s.val| * (1 / 2 ^ p) := by
    rw [abs_mul (r.val * q) s.val]
    have := mul_le_mul_of_nonneg_right h2 (abs_nonneg s.val)
    calc _ ≤ _ := this
      _ = _ := by ring
  have h6 : |r.val * q * s.val| * (1 / 2 ^ p) ≤ |r.val| * (1 + 1 / 2 ^ p) * (1 / 2 ^ p) := mul_le_mul_of_nonneg_right h4 (by positivity)
  have e2 : roundings p 2 = (1 + 1 / 2 ^ p) * (1 / 2 ^ p) + 1 / 2 ^ p := by unfold roundings; ring
  rw [e2]
  linarith

theorem one_product (hp : 0 < p) {a c f g : FNum p} (h : IsSub a (fun _ : Unit => f) (fun _ => g) c) : |c.val - (a.val - f.val * g.val)| ≤ roundings p 2 * (|a.val| + |f.val * g.val|) := by
  have := isSub_error hp h (m := 2) (by simp)
  simpa using this

section swap
variable {e e' : State (FNum p) m n nb nn nl} {ib : Fin nb} {jn : Fin nn}

theorem Swapped.row (h : Swapped e e' ib jn) (a : Fin n → ℚ) : (fun i => a (e'.Q (.inl i))) = Function.update (fun i => a (e.Q (.inl i))) ib (a (e.Q (.inr jn))) := by
  funext i
  rw [h.Q]
  by_cases hi : i = ib
  · subst hi; simp
  · rw [Function.update_of_ne hi, Function.comp_apply, Equiv.swap_apply_of_ne_of_ne (by simpa using hi) (by simp)]

/-- **C83** A swap of a basic and a non-basic variable: the errors of the pivot column are multiplied by the entries of the new row of `R` and `S` and added to those of the other columns, with two roundings of the terms. -/
theorem swap_double (hp : 0 < p) (h : Swapped e e' ib jn) (hs : (e.S ib jn).val ≠ 0) (a : Fin n → ℚ) (t : Fin m → ℚ) :
    (∀ c, |errR a t e' c| ≤ |errR a t e c| + |errS a e jn| * |(e'.R (.inl ib) c).val| + roundings p 2 * ∑ i, |a (e.Q (.inl i))| * (|(e.R (.inl i) c).val| + |(e.S i jn).val| * |(e'.R (.inl ib) c).val|)) ∧
    (∀ k, k ≠ jn → |errS a e' k| ≤ |errS a e k| + |errS a e jn| * |(e'.S ib k).val| + roundings p 2 * ∑ i, |a (e.Q (.inl i))| * (|(e.S i k).val| + |(e.S i jn).val| * |(e'.S ib k).val|)) ∧
    |errS a e' jn| ≤ |errS a e jn| * |(e'.S ib jn).val| + roundings p 2 * ∑ i, |a (e.Q (.inl i))| * ((if i = ib then 1 else 0) + |(e.S i jn).val| * |(e'.S ib jn).val|) := by
  have hrow := fun i => congrFun (h.row a) i
  have hγ := roundings_nonneg p 2
  have key := pivot_error hγ (fun i => a (e.Q (.inl i))) (a (e.Q (.inr jn))) 
  refine ⟨fun c => ?_, fun k hk => ?_, ?_⟩
  · unfold errR errS
    rw [Finset.sum_congr rfl fun i _ => by rw [hrow i]]
    refine key (t c) (fun i => (e.S i jn).val) (fun i => (e.R (.inl i) c).val) (fun i => (e'.R (.inl i) c).val) ib ?_ fun i hi => one_product hp (h.R i hi c)
    simp only [h.Rib]
    exact reciprocal_error hs hp
  · unfold errS
    have hQ : e'.Q (.inr k) = e.Q (.inr k) := by rw [h.Q, Function.comp_apply, Equiv.swap_apply_of_ne_of_ne (by simp) (by simpa using hk)]
    rw [Finset.sum_congr rfl fun i _ => by rw [hrow i], hQ]
    refine key (a (e.Q (.inr k))) (fun i => (e.S i jn).val) (fun i => (e.S i k).val) (fun i => (e'.S i k).val) ib ?_ fun i hi => one_product hp (h.S i hi k hk)
    simp only [h.Sib k hk]
    exact reciprocal_error hs hp
  · unfold errS
    have hQ : e'.Q (.inr jn) = e.Q (.inl ib) := by rw [h.Q, Function.comp_apply, Equiv.swap_apply_right]
    have h1p : 1 / 2 ^ p ≤ roundings p 2 := by
      have : (0 : ℚ) ≤ 1 / 2 ^ p := by positivity
      unfold roundings
      nlinarith
    rw [Finset.sum_congr rfl fun i _ => by rw [hrow i], hQ]
    have := key (a (e.Q (.inl ib))) (fun i => (e.S i jn).val) (fun i => if i = ib then 1 else 0) (fun i => (e'.S i jn).val) ib ?_ ?_
    · have e1 : ∀ i, |(if i = ib then (1 : ℚ) else 0)| = if i = ib then 1 else 0 := by intro i; split_ifs <;> simp
      simp only [e1, mul_ite, mul_one, mul_zero, Finset.sum_ite_eq', Finset.mem_univ, if_true, sub_self, abs_zero, zero_add] at this
      exact this
    · have := FLU.div_rel hs h.pivot
      rw [FNum.val_one hp, abs_one] at this
      simp only [if_true, abs_one, mul_one]
      rw [mul_comm]
      exact this.trans h1p
    · intro i hi
      simp only [if_neg hi, abs_zero, zero_sub, zero_add]
      rw [h.Sjn i hi, ← h.pivot, FNum.val_mul, FNum.val_neg hp]
      have h2 := Fl.rnd_error p (-(e.S i jn).val * (e'.S ib jn).val)
      have e2 : |-(e.S i jn).val * (e'.S ib jn).val| = |(e.S i jn).val * (e'.S ib jn).val| := by rw [neg_mul, abs_neg]
      rw [e2] at h2
      rw [← neg_mul]
      refine h2.trans ?_
      rw [div_eq_mul_one_div, mul_comm]
      exact mul_le_mul_of_nonneg_right h1p (abs_nonneg _)

end swap

/-! ## After any number of updates -/

/-- All entries of the top rows of `R` and of `S` are at most `μ`. -/
def Bounded (μ : ℚ) (e : State (FNum p) m n nb nn nl) : Prop := (∀ i c, |(e.R (.inl i) c).val| ≤ μ) ∧ ∀ i k, |(e.S i k).val| ≤ μ

/-- All errors in the row `a` are at most `h`. -/
def Within (h : ℚ) (a : Fin n → ℚ) (t : Fin m → ℚ) (e : State (FNum p) m n nb nn nl) : Prop := (∀ c, |errR a t e c| ≤ h) ∧ ∀ k, |errS a e k| ≤ h

section drift
variable {μ α h : ℚ} {a : Fin n → ℚ} {t : Fin m → ℚ}

theorem sum_le_card {f : Fin nb → ℚ} {b : ℚ} (hf : ∀ i, f i ≤ b) : ∑ i, f i ≤ nb * b := by
  refine (Finset.sum_le_sum fun i _ => hf i).trans ?_
  simp

theorem swap_within (hp : 0 < p) (hμ : 1 ≤ μ) (ha : ∀ j, |a j| ≤ α) {e e' : State (FNum p) m n nb nn nl} {ib : Fin nb} {jn : Fin nn} (hsw : Swapped e e' ib jn) (hs : (e.S ib jn).val ≠ 0) (hB : Bounded μ e) (hB' : Bounded μ e') (hw : Within h a t e) :
    Within ((1 + μ) * (h + roundings p 2 * nb * α * μ)) a t e' := by
  have hγ := roundings_nonneg p 2
  obtain ⟨h1, h2, h3⟩ := swap_double hp hsw hs a t
  have hα : 0 ≤ α := (abs_nonneg _).trans (ha (e.Q (.inl ib)))
  have hh : 0 ≤ h := (abs_nonneg _).trans (hw.2 jn)
  have term : ∀ (r s r' : Fin nb → ℚ), (∀ i, 0 ≤ r i ∧ r i ≤ μ) → (∀ i, |s i| ≤ μ) → ∀ r', |r'| ≤ μ → ∑ i, |a (e.Q (.inl i))| * (r i + |s i| * |r'|) ≤ nb * (α * (μ + μ * μ)) := by
    intro r s _ hr hs r' hr'
    refine sum_le_card fun i => ?_
    refine mul_le_mul (ha _) ?_ (add_nonneg (hr i).1 (by positivity)) hα
    exact add_le_add (hr i).2 (mul_le_mul (hs i) hr' (abs_nonneg _) (by linarith))
  have bound : ∀ x y z T : ℚ, x ≤ h → |y| ≤ h → |z| ≤ μ → T ≤ nb * (α * (μ + μ * μ)) → x + |y| * |z| + roundings p 2 * T ≤ (1 + μ) * (h + roundings p 2 * nb * α * μ) := by
    intro x y z T hx hy hz hT
    have b1 : |y| * |z| ≤ h * μ := mul_le_mul hy hz (abs_nonneg _) hh
    have b2 := mul_le_mul_of_nonneg_left hT hγ
    calc _ ≤ h + h * μ + roundings p 2 * (nb * (α * (μ + μ * μ))) := by linarith
      _ = _ := by ring
  refine ⟨fun c => (h1 c).trans (bound _ _ _ _ (hw.1 c) (hw.2 jn) (hB'.1 ib c) ?_), fun k => ?_⟩
  · exact term (fun i => |(e.R (.inl i) c).val|) (fun i => (e.S i jn).val) 0 (fun i => ⟨abs_nonneg _, hB.1 i c⟩) (fun i => hB.2 i jn) _ (hB'.1 ib c)
  · by_cases hk : k = jn
    · subst hk
      have := bound 0 (errS a e k) (e'.S ib k).val _ hh (hw.2 k) (hB'.2 ib k) (term (fun i => if i = ib then 1 else 0) (fun i => (e.S i k).val) 0 (fun i => by split_ifs <;> constructor <;> linarith) (fun i => hB.2 i k) _ (hB'.2 ib k))
      rw [zero_add] at this
      exact h3.trans this
    · exact (h2 k hk).trans (bound _ _ _ _ (hw.2 k) (hw.2 jn) (hB'.2 ib k) (term (fun i => |(e.S i k).val|) (fun i => (e.S i jn).val) 0 (fun i => ⟨abs_nonneg _, hB.2 i k⟩) (fun i => hB.2 i jn) _ (hB'.2 ib k)))

theorem threshold_nonneg (hp : 0 < p) : 0 ≤ (threshold : FNum p).val := by
  have h : (1 / 2 : ℚ) * (1 / 10 ^ 8) ≤ (threshold : FNum p).val := by
    have h1 := Fl.rnd_error p (1 / 10 ^ 8)
    have h2 : (2 : ℚ) ≤ 2 ^ p := by
      calc (2 : ℚ) = 2 ^ 1 := by norm_num
        _ ≤ 2 ^ p := pow_le_pow_right₀ (by norm_num) hp
    have h3 : |(1 / 10 ^ 8 : ℚ)| / 2 ^ p ≤ (1 / 10 ^ 8) / 2 := by
      rw [abs_of_pos (by norm_num)]
      exact div_le_div_of_nonneg_left (by norm_num) (by norm_num) h2
    change _ ≤ Fl.rnd p (1 / 10 ^ 8)
    have := (abs_le.1 (h1.trans h3)).1
    linarith
  exact le_trans (by norm_num) h

/-- The candidate for a swap has an entry above the threshold. -/
theorem findCandidate_pivot (hp : 0 < p) (e : State (FNum p) m n nb nn nl) (w : Fin n → FNum p) (i : Fin nb) {wj : FNum p} {j : Fin nn} (h : findCandidate e w i = some (wj, j)) : threshold < (e.S i j).abs ∧ (e.S i j).val ≠ 0 ∧ wj = w (e.Q (.inr j)) := by
  have main : ∀ (l : List (Fin nn)) (acc : Option (FNum p × Fin nn)), (∀ x, acc = some x → threshold < (e.S i x.2).abs ∧ x.1 = w (e.Q (.inr x.2))) → ∀ x, l.foldl (fun acc k =>
      if (e.S i k).abs ≤ threshold then acc
      else
        let tmp := w (e.Q (.inr k))
        match acc with
        | none => some (tmp, k)
        | some (mx, j) => if tmp > mx then some (tmp, k) else some (mx, j)) acc = some x → threshold < (e.S i x.2).abs ∧ x.1 = w (e.Q (.inr x.2)) := by
    intro l
    induction l with
    | nil => intro acc ha x hx; exact ha x hx
    | cons k l ih =>
      intro acc ha x hx
      rw [List.foldl_cons] at hx
      refine ih _ ?_ x hx
      intro y hy
      split_ifs at hy with hk
      · exact ha y hy
      · rcases acc with _ | ⟨mx, j'⟩
        · simp only [Option.some.injEq] at hy
          subst hy
          exact ⟨not_le.1 hk, rfl⟩
        · simp only at hy
          split_ifs at hy
          · simp only [Option.some.injEq] at hy
            subst hy
            exact ⟨not_le.1 hk, rfl⟩
          · exact ha y hy
  obtain ⟨h1, h2⟩ := main _ none (by simp) _ h
  refine ⟨h1, ?_, h2⟩
  rw [FNum.lt_iff, FNum.val_abs hp] at h1
  have := threshold_nonneg (p := p) hp
  intro h0
  rw [h0, abs_zero] at h1
  linarith

/-- The candidate for a swap is the heaviest of the variables with an entry above the threshold; without one there is no candidate. -/
theorem findCandidate_heaviest (e : State (FNum p) m n nb nn nl) (w : Fin n → FNum p) (i : Fin nb) (k : Fin nn) (hk : threshold < (e.S i k).abs) : ∃ wj j, findCandidate e w i = some (wj, j) ∧ w (e.Q (.inr k)) ≤ wj := by
  have main : ∀ (l : List (Fin nn)) (acc : Option (FNum p × Fin nn)), (k ∈ l ∨ ∃ wj j, acc = some (wj, j) ∧ w (e.Q (.inr k)) ≤ wj) → ∃ wj j, l.foldl (fun acc k =>
      if (e.S i k).abs ≤ threshold then acc
      else
        let tmp := w (e.Q (.inr k))
        match acc with
        | none => some (tmp, k)
        | some (mx, j) => if tmp > mx then some (tmp, k) else some (mx, j)) acc = some (wj, j) ∧ w (e.Q (.inr k)) ≤ wj := by
    intro l
    induction l with
    | nil =>
      rintro acc (h | h)
      · exact absurd h (by simp)
      · exact h
    | cons k' l ih =>
      intro acc h
      rw [List.foldl_cons]
      refine ih _ ?_
      by_cases hkl : k ∈ l
      · exact .inl hkl
      right
      rcases h with h | ⟨wj, j, rfl, hw⟩
      · obtain rfl : k = k' := (List.mem_cons.1 h).resolve_right hkl
        rw [if_neg (not_le.2 hk)]
        rcases acc with _ | ⟨mx, j⟩
        · exact ⟨_, _, rfl, le_rfl⟩
        · dsimp only
          split_ifs with h1
          · exact ⟨_, _, rfl, le_rfl⟩
          · exact ⟨_, _, rfl, not_lt.1 h1⟩
      · split_ifs with h1
        · exact ⟨_, _, rfl, hw⟩
        · dsimp only
          split_ifs with h2
          · exact ⟨_, _, rfl, hw.trans h2.le⟩
          · exact ⟨_, _, rfl, hw⟩
  exact main _ none (.inl (List.mem_finRange k))

/-- The bound after `N` swaps. -/
def drift (p nb : ℕ) (μ α h : ℚ) (N : ℕ) : ℚ := (1 + μ) ^ N * (h + roundings p 2 * nb * α * (1 + μ))

/-- The bound without the term that is not needed. -/
def drift' (p nb : ℕ) (μ α h : ℚ) (N : ℕ) : ℚ := (1 + μ) ^ N * h + roundings p 2 * nb * α * (1 + μ) * ((1 + μ) ^ N - 1)

theorem drift'_succ (N : ℕ) : drift' p nb μ α h (N + 1) = (1 + μ) * (drift' p nb μ α h N + roundings p 2 * nb * α * μ) := by
  unfold drift'
  ring

theorem drift'_le (hμ : 1 ≤ μ) (hα : 0 ≤ α) (N : ℕ) : drift' p nb μ α h N ≤ drift p nb μ α h N := by
  unfold drift' drift
  have := roundings_nonneg p 2
  have h1 : 0 ≤ roundings p 2 * nb * α * (1 + μ) := by positivity
  nlinarith

theorem drift'_mono (hμ : 1 ≤ μ) (hα : 0 ≤ α) (hh : 0 ≤ h) (N : ℕ) : drift' p nb μ α h N ≤ drift' p nb μ α h (N + 1) := by
  unfold drift'
  have := roundings_nonneg p 2
  have h1 : 0 ≤ roundings p 2 * nb * α * (1 + μ) := by positivity
  have h2 : (1 + μ) ^ N ≤ (1 + μ) ^ (N + 1) := pow_le_pow_right₀ (by linarith) (Nat.le_succ N)
  have := mul_le_mul_of_nonneg_right h2 hh
  have := mul_le_mul_of_nonneg_left (sub_le_sub_right h2 1) h1
  linarith

theorem Within.mono {h h' : ℚ} (hh : h ≤ h') {e : State (FNum p) m n nb nn nl} (hw : Within h a t e) : Within h' a t e := ⟨fun c => (hw.1 c).trans hh, fun k => (hw.2 k).trans hh⟩

theorem reorder_within {e : State (FNum p) m n nb nn nl} (σ : Equiv.Perm (Fin nb)) (τ : Equiv.Perm (Fin nn)) (kb : Fin nb → Fin nb) (kn : Fin nn → Fin nn) (hw : Within h a t e) : Within h a t (reorder { e with Kb := kb, Kn := kn } σ τ) := by
  refine ⟨fun c => ?_, fun k => ?_⟩
  · have := hw.1 c
    unfold errR at this ⊢
    rw [← Equiv.sum_comp σ] at this
    exact this
  · have := hw.2 (τ k)
    unfold errS at this ⊢
    rw [← Equiv.sum_comp σ] at this
    exact this

theorem reorder_bounded {e : State (FNum p) m n nb nn nl} (σ : Fin nb → Fin nb) (τ : Fin nn → Fin nn) (kb : Fin nb → Fin nb) (kn : Fin nn → Fin nn) (hB : Bounded μ e) : Bounded μ (reorder { e with Kb := kb, Kn := kn } σ τ) :=
  ⟨fun i c => hB.1 (σ i) c, fun i k => hB.2 (σ i) (τ k)⟩

theorem step_within (hp : 0 < p) (hμ : 1 ≤ μ) (ha : ∀ j, |a j| ≤ α) (hα : 0 ≤ α) (hh : 0 ≤ h) {w : Fin n → FNum p} {e e' : State (FNum p) m n nb nn nl} {i : Fin nb} (hst : Step w e e' i) (hB : Bounded μ e) (hB' : Bounded μ e') {N : ℕ} (hw : Within (drift' p nb μ α h N) a t e) :
    Within (drift' p nb μ α h (N + 1)) a t e' ∧ e'.Kb = e.Kb ∧ e'.Kn = e.Kn := by
  have same : e' = e → Within (drift' p nb μ α h (N + 1)) a t e' ∧ e'.Kb = e.Kb ∧ e'.Kn = e.Kn := by
    rintro rfl
    exact ⟨hw.mono (drift'_mono hμ hα hh N), rfl, rfl⟩
  unfold Step at hst
  split at hst
  · exact same hst
  · rename_i wj j hc
    split_ifs at hst with hlt
    · refine ⟨?_, hst.2.1, hst.2.2.1⟩
      rw [drift'_succ]
      exact swap_within hp hμ ha hst.1 (findCandidate_pivot hp e w i hc).2.1 hB hB' hw
    · exact same hst

theorem steps_within (hp : 0 < p) (hμ : 1 ≤ μ) (ha : ∀ j, |a j| ≤ α) (hα : 0 ≤ α) (hh : 0 ≤ h) {w : Fin n → FNum p} {l : List (Fin nb)} {e e' : State (FNum p) m n nb nn nl} {tr : List (State (FNum p) m n nb nn nl)} (hst : Steps w l e tr e') :
    ∀ N, Bounded μ e → (∀ s ∈ tr, Bounded μ s) → Within (drift' p nb μ α h N) a t e → Within (drift' p nb μ α h (N + l.length)) a t e' ∧ Bounded μ e' ∧ e'.Kb = e.Kb ∧ e'.Kn = e.Kn := by
  induction hst with
  | nil e => intro N hB _ hw; exact ⟨hw, hB, rfl, rfl⟩
  | @cons i l e e' e'' tr h1 _ ih =>
    intro N hB htr hw
    have hB' := htr _ (List.mem_cons_self)
    obtain ⟨w1, k1, k2⟩ := step_within hp hμ ha hα hh h1 hB hB' hw
    obtain ⟨w2, b2, k3, k4⟩ := ih (N + 1) hB' (fun s hs => htr s (List.mem_cons_of_mem _ hs)) w1
    refine ⟨?_, b2, k3.trans k1, k4.trans k2⟩
    rw [List.length_cons, show N + (l.length + 1) = N + 1 + l.length by omega]
    exact w2

theorem updates_within (hp : 0 < p) (hμ : 1 ≤ μ) (ha : ∀ j, |a j| ≤ α) (hα : 0 ≤ α) (hh : 0 ≤ h) {sort : SortImpl (FNum p)} {l : List (Fin n → FNum p)} {e e' : State (FNum p) m n nb nn nl} {tr : List (State (FNum p) m n nb nn nl)} (hst : Updates sort l e tr e') :
    ∀ N, Bounded μ e → Function.Bijective e.Kb → Function.Bijective e.Kn → (∀ s ∈ tr, Bounded μ s) → Within (drift' p nb μ α h N) a t e → Within (drift' p nb μ α h (N + nb * l.length)) a t e' := by
  induction hst with
  | nil e => intro N _ _ _ _ hw; simpa using hw
  | @cons w l e e' e'' tr tr' h1 _ ih =>
    intro N hB hKb hKn htr hw
    obtain ⟨e1, hs, he⟩ := h1
    obtain ⟨w1, b1, k1, k2⟩ := steps_within hp hμ ha hα hh hs N hB (fun s hs => htr s (List.mem_append_left _ hs)) hw
    rw [List.length_finRange] at w1
    obtain ⟨π, hπ⟩ := sort.perm (fun l => w (e1.Q (.inl l))) e1.Kb
    obtain ⟨ρ, hρ⟩ := sort.perm (fun l => w (e1.Q (.inr l))) e1.Kn
    have bb : Function.Bijective (e1.Kb ∘ π) := by rw [k1]; exact hKb.comp π.bijective
    have bn : Function.Bijective (e1.Kn ∘ ρ) := by rw [k2]; exact hKn.comp ρ.bijective
    simp only [hπ, hρ] at he
    subst he
    have := ih (N + nb) (reorder_bounded _ _ _ _ b1) bb bn (fun s hs => htr s (List.mem_append_right _ hs)) (reorder_within (Equiv.ofBijective _ bb) (Equiv.ofBijective _ bn) _ _ w1)
    rw [List.length_cons, show N + nb * (l.length + 1) = N + nb + nb * l.length by ring]
    exact this

/-- **C83** The errors of `A(:,ibasic)*R = I` and `A(:,ibasic)*S = A(:,inonbasic)` in the row of a pivot after `compute` and any number of calls of `updateWithPriorityWeights`, for all matrices, weights and implementations of `std::sort`,
    if no entry of `R` and `S` was above `μ` on the way.  `α` bounds the entries of the row, `β` those of the product of the factors in the row. -/
theorem updates_double (hp : 0 < p) {A : Fin m → Fin n → FNum p} (C : Computed A nb nn nl) (hn : 16 * (nb + 1) ≤ 2 ^ p) (i : Fin nb) {β : ℚ} (hμ : 1 ≤ μ) (hα : ∀ j, |(A (C.pr (.inl i)) j).val| ≤ α) (hβ : ∀ j, C.F.size i j ≤ β)
    {sort : SortImpl (FNum p)} {ws : List (Fin n → FNum p)} {e : State (FNum p) m n nb nn nl} {tr : List (State (FNum p) m n nb nn nl)} (hu : Updates sort ws C.state tr e) (h0 : Bounded μ C.state) (htr : ∀ s ∈ tr, Bounded μ s) :
    let ε := (1 + μ) ^ (nb * ws.length) * (8 * (nb + 1) / 2 ^ p * (nb * (β * μ)) + roundings p 2 * nb * α * (1 + μ))
    (∀ c, |∑ j, (A (C.pr (.inl i)) (e.Q (.inl j))).val * (e.R (.inl j) c).val - (if C.pr (.inl i) = c then 1 else 0)| ≤ ε) ∧
    (∀ k, |∑ j, (A (C.pr (.inl i)) (e.Q (.inl j))).val * (e.S j k).val - (A (C.pr (.inl i)) (e.Q (.inr k))).val| ≤ ε) := by
  have hα0 : 0 ≤ α := (abs_nonneg _).trans (hα (C.q (.inl i)))
  have hβ0 : 0 ≤ β := (C.F.size_nonneg i i).trans (hβ i)
  have hsz : ∀ v : Fin nb → ℚ, (∀ j, |v j| ≤ μ) → 8 * ((nb : ℚ) + 1) / 2 ^ p * ∑ j, C.F.size i j * |v j| ≤ 8 * (nb + 1) / 2 ^ p * (nb * (β * μ)) := by
    intro v hv
    refine mul_le_mul_of_nonneg_left (sum_le_card fun j => ?_) (by positivity)
    exact mul_le_mul (hβ j) (hv j) (abs_nonneg _) hβ0
  have hw : Within (drift' p nb μ α (8 * (nb + 1) / 2 ^ p * (nb * (β * μ))) 0) (fun j => (A (C.pr (.inl i)) j).val) (fun c => if C.pr (.inl i) = c then 1 else 0) C.state := by
    obtain ⟨c1, c2⟩ := compute_double hp C hn i
    have e0 : drift' p nb μ α (8 * (nb + 1) / 2 ^ p * (nb * (β * μ))) 0 = 8 * (nb + 1) / 2 ^ p * (nb * (β * μ)) := by unfold drift'; ring
    rw [e0]
    refine ⟨fun c => ?_, fun k => ?_⟩
    · unfold errR
      rw [abs_sub_comm]
      exact (c1 c).trans (hsz _ fun j => h0.1 j c)
    · unfold errS
      rw [abs_sub_comm]
      exact (c2 k).trans (hsz _ fun j => h0.2 j k)
  have := updates_within hp hμ hα hα0 (by positivity) hu 0 h0 Function.bijective_id Function.bijective_id htr hw
  rw [zero_add] at this
  exact this.mono (drift'_le hμ hα0 _)

end drift

/-- **C83** The rows of `R` of the equations that are found dependent are rows of the permutation after `compute` and all updates: they carry no rounding errors and no combination of the equations. -/
theorem dependent_rows {A : Fin m → Fin n → FNum p} (C : Computed A nb nn nl) {sort : SortImpl (FNum p)} {ws : List (Fin n → FNum p)} {e : State (FNum p) m n nb nn nl} {tr : List (State (FNum p) m n nb nn nl)} (hu : Updates sort ws C.state tr e) (l : Fin nl) (c : Fin m) :
    e.R (.inr l) c = if C.pr (.inr l) = c then 1 else 0 := by
  have steps : ∀ {w : Fin n → FNum p} {li : List (Fin nb)} {e e' : State (FNum p) m n nb nn nl} {tr : List (State (FNum p) m n nb nn nl)}, Steps w li e tr e' → e'.R (.inr l) c = e.R (.inr l) c := by
    intro w li e e' tr h
    induction h with
    | nil => rfl
    | @cons i li e e' e'' tr h _ ih =>
      rw [ih]
      unfold Step at h
      split at h
      · rw [h]
      · split_ifs at h
        · exact h.1.Rl l c
        · rw [h]
  have main : ∀ {ws : List (Fin n → FNum p)} {e e' : State (FNum p) m n nb nn nl} {tr : List (State (FNum p) m n nb nn nl)}, Updates sort ws e tr e' → e'.R (.inr l) c = e.R (.inr l) c := by
    intro ws e e' tr h
    induction h with
    | nil => rfl
    | cons h _ ih =>
      obtain ⟨e1, h1, rfl⟩ := h
      rw [ih]
      change e1.R (.inr l) c = _
      exact steps h1
  rw [main hu]
  rfl

/-! ## The functions without fused multiply-adds -/

theorem isSub_one (a f g : FNum p) : IsSub a (fun _ : Unit => f) (fun _ => g) (a - f * g) := by
  refine ⟨[()], by simp, by simp, ?_⟩
  have := FLU.sums_subtract (n := 1) a (fun _ => True) (fun _ => f) (fun _ => g)
  simpa [FLU.minus, FLU.subtract, List.finRange_succ] using this

theorem swap_swapped (e : State (FNum p) m n nb nn nl) (ib : Fin nb) (jn : Fin nn) : Swapped e (swap e ib jn) ib jn where
  Rib c := by simp [swap]
  R i hi c := by simpa [swap, hi] using isSub_one (e.R (.inl i) c) (e.S i jn) (e.R (.inl ib) c * (1 / e.S ib jn))
  Rl l c := rfl
  Sib k hk := by simp [swap, hk]
  S i hi k hk := by simpa [swap, hi, hk] using isSub_one (e.S i k) (e.S i jn) (e.S ib k * (1 / e.S ib jn))
  Sjn i hi := by simp [swap, hi]
  pivot := by simp [swap]
  Q := rfl

theorem stepFn_step (w : Fin n → FNum p) (e : State (FNum p) m n nb nn nl) (i : Fin nb) : Step w e (stepFn w e i) i := by
  unfold Step stepFn
  rcases findCandidate e w i with _ | ⟨wj, j⟩
  · rfl
  · dsimp only
    split_ifs
    · exact ⟨swap_swapped _ _ _, rfl, rfl, rfl, rfl, rfl⟩
    · rfl

theorem steps_total (w : Fin n → FNum p) (l : List (Fin nb)) : ∀ e : State (FNum p) m n nb nn nl, ∃ tr e', Steps w l e tr e' := by
  induction l with
  | nil => exact fun e => ⟨[], e, .nil e⟩
  | cons i l ih =>
    intro e
    obtain ⟨tr, e', h⟩ := ih (stepFn w e i)
    exact ⟨_, _, .cons (stepFn_step w e i) h⟩

/-- **C83** The updates can be carried out from every state. -/
theorem updates_total (sort : SortImpl (FNum p)) (ws : List (Fin n → FNum p)) : ∀ e : State (FNum p) m n nb nn nl, ∃ tr e', Updates sort ws e tr e' := by
  induction ws with
  | nil => exact fun e => ⟨[], e, .nil e⟩
  | cons w ws ih =>
    intro e
    obtain ⟨tr, e1, h⟩ := steps_total w (List.finRange nb) e
    obtain ⟨tr', e', h'⟩ := ih (reorder { e1 with Kb := sort.run (fun l => w (e1.Q (.inl l))) e1.Kb, Kn := sort.run (fun l => w (e1.Q (.inr l))) e1.Kn } (sort.run (fun l => w (e1.Q (.inl l))) e1.Kb) (sort.run (fun l => w (e1.Q (.inr l))) e1.Kn))
    exact ⟨_, _, .cons ⟨e1, h, rfl⟩ h'⟩

/-- `compute` by substitution, for pivots found by complete pivoting. -/
def Computed.inOrder (A : Fin m → Fin n → FNum p) (pr : Fin nb ⊕ Fin nl → Fin m) (q : Fin nb ⊕ Fin nn → Fin n) (prbij : Function.Bijective pr) (qbij : Function.Bijective q) (F : FLU.Factors fun i j => A (pr (.inl i)) (q (.inl j))) (rowPerm : F.rowPerm = 1) (colPerm : F.colPerm = 1)
    (pivots : ∀ i, (F.M i i).val ≠ 0) (dom : ∀ i k, (FLU.forwardUpTo F.M (fun i => A (pr (.inl i)) (q (.inr k))) nb i).abs ≤ (F.M i i).abs) : Computed A nb nn nl where
  pr := pr
  q := q
  prbij := prbij
  qbij := qbij
  F := F
  rowPerm := rowPerm
  colPerm := colPerm
  pivots := pivots
  Ubn i k := FLU.forwardUpTo F.M (fun i => A (pr (.inl i)) (q (.inr k))) nb i
  Ubn_sums i k := FLU.forward_eq F.M (fun i => A (pr (.inl i)) (q (.inr k))) i
  Ubn_dominant := dom
  Y i c := FLU.forwardUpTo F.M (fun i => if pr (.inl i) = c then 1 else 0) nb i
  Y_sums i c := FLU.forward_eq F.M (fun i => if pr (.inl i) = c then 1 else 0) i
  Rt i c := FLU.backwardUpTo F.M (FLU.forwardUpTo F.M (fun i => if pr (.inl i) = c then 1 else 0) nb) nb i
  Rt_sums i c := ⟨_, FLU.backward_eq F.M (FLU.forwardUpTo F.M (fun i => if pr (.inl i) = c then 1 else 0) nb) i⟩
  S i k := FLU.backwardUpTo F.M (FLU.forwardUpTo F.M (fun i => A (pr (.inl i)) (q (.inr k))) nb) nb i
  S_sums i k := ⟨_, FLU.backward_eq F.M (FLU.forwardUpTo F.M (fun i => A (pr (.inl i)) (q (.inr k))) nb) i⟩

/-! ## Two updates that ruin the echelon form -/

namespace Ruin

/-- The matrix: the columns 0 and 2 are parallel, column 1 is nearly so. -/
def A : Fin 2 → Fin 4 → Double := ![![.fl 8, .fl 72, .fl 24, .fl 7], ![.fl 9, .fl (5699868281909221 / 2 ^ 46), .fl 27, .fl 8]]

example : A 1 1 = .fl (8100000005 / 10 ^ 8) := by decide +kernel

def pr : Fin 2 ⊕ Fin 0 → Fin 2 := Sum.elim ![1, 0] Fin.elim0
def q (v : Fin 4 → Fin 4) : Fin 2 ⊕ Fin 2 → Fin 4 := Sum.elim ![v 0, v 1] ![v 2, v 3]

/-- Both factors. -/
def M : Fin 2 → Fin 2 → Double := ![![.fl (5699868281909221 / 2 ^ 46), .fl 8], ![.fl (8006399332605327 / 2 ^ 53), .fl (-125099984706959 / 2 ^ 50)]]

def F : FLU.Factors fun i j => A (pr (.inl i)) (q ![1, 3, 2, 0] (.inl j)) := FLU.Factors.compute (by norm_num) _

theorem F_M : ∀ i j, F.M i j = M i j := by decide +kernel

theorem F_M' : F.M = M := funext fun i => funext fun j => F_M i j

def C : Computed A 2 2 0 := Computed.inOrder A pr (q ![1, 3, 2, 0]) (by decide) (by decide) F (by decide +kernel) (by decide +kernel) (by rw [F_M']; decide +kernel) (by rw [F_M']; decide +kernel)

/-- A state with the permutations at the beginning and the given matrices. -/
def st (R S : Fin 2 → Fin 2 → Double) (v : Fin 4 → Fin 4) (Kb Kn : Fin 2 → Fin 2) : State Double 2 4 2 2 0 :=
  { R := Sum.elim R Fin.elim0, S := S, Q := q v, Kb := Kb, Kn := Kn, R0 := C.state.R, S0 := C.state.S, Q0 := C.state.Q }

def R0 : Fin 2 → Fin 2 → Double := ![![.fl (8006399648907511 / 2 ^ 53), .fl (-875699961599259 / 2 ^ 50)], ![.fl (-633318722618973 / 2 ^ 46), .fl (4503599802510475 / 2 ^ 49)]]
def S0 : Fin 2 → Fin 2 → Double := ![![.fl (3002399868340307 / 2 ^ 53), .fl (8006399648907505 / 2 ^ 56)], ![.fl (-5037190322880545 / 2 ^ 75), .fl (-3358127083246963 / 2 ^ 76)]]
def R1 : Fin 2 → Fin 2 → Double := ![![.fl (-6039798342831329 / 2 ^ 28), .fl (5368709638072293 / 2 ^ 28)], ![.fl (3397386569939775 / 2 ^ 24), .fl (-3019899171415665 / 2 ^ 24)]]
def S1 : Fin 2 → Fin 2 → Double := ![![.fl (180000017 / 2 ^ 53), .fl (5368709638072289 / 2 ^ 31)], ![.fl (6755399036055705 / 2 ^ 51), .fl (-6039798107950301 / 2 ^ 28)]]
def S2 : Fin 2 → Fin 2 → Double := ![![.fl (5368709638072289 / 2 ^ 31), .fl (180000017 / 2 ^ 53)], ![.fl (-6039798107950301 / 2 ^ 28), .fl (6755399036055705 / 2 ^ 51)]]
def R3 : Fin 2 → Fin 2 → Double := ![![.fl (-1125899909155267), .fl (4003199676996505 / 2 ^ 2)], ![.fl (6755399454931601 / 2 ^ 1), .fl (-6004799515494757 / 2 ^ 1)]]
def S3 : Fin 2 → Fin 2 → Double := ![![.fl (2001599838498251 / 2 ^ 4), .fl (839531739887717 / 2 ^ 24)], ![.fl (-6004799515494739 / 2 ^ 4), .fl (-5037190137336413 / 2 ^ 25)]]
def R4 : Fin 2 → Fin 2 → Double := ![![.fl (5 / 2 ^ 1), .fl (-19 / 2 ^ 3)], ![.fl (-5066549580791823 / 2 ^ 49), .fl (2251799813685255 / 2 ^ 48)]]
def S4 : Fin 2 → Fin 2 → Double := ![![.fl (1501199875790169 / 2 ^ 52), .fl (402653169 / 2 ^ 27)], ![.fl (-6755399427179907 / 2 ^ 101), .fl (7555785190484761 / 2 ^ 74)]]
def S5 : Fin 2 → Fin 2 → Double := ![![.fl (402653169 / 2 ^ 27), .fl (1501199875790169 / 2 ^ 52)], ![.fl (7555785190484761 / 2 ^ 74), .fl (-6755399427179907 / 2 ^ 101)]]

theorem ext {e : State Double 2 4 2 2 0} {R S : Fin 2 → Fin 2 → Double} {v : Fin 4 → Fin 4} {Kb Kn : Fin 2 → Fin 2} (h1 : ∀ i c, e.R (.inl i) c = R i c) (h2 : ∀ i k, (e.S i k).val = (S i k).val) (h3 : e.Q = q v) (h4 : e.Kb = Kb) (h5 : e.Kn = Kn) (h6 : e.R0 = C.state.R) (h7 : e.S0 = C.state.S)
    (h8 : e.Q0 = C.state.Q) : e = st R S v Kb Kn := by
  cases e
  unfold st
  congr 1
  · funext r c
    rcases r with i | l
    · exact h1 i c
    · exact l.elim0
  · funext i k
    exact FNum.val_injective (h2 i k)

theorem state_eq : C.state = st R0 S0 ![1, 3, 2, 0] id id := by
  refine ext ?_ ?_ rfl rfl rfl rfl rfl rfl
  · change ∀ i c, FLU.backwardUpTo F.M (FLU.forwardUpTo F.M _ 2) 2 i = R0 i c
    rw [F_M']
    decide +kernel
  · change ∀ i k, (FLU.backwardUpTo F.M (FLU.forwardUpTo F.M _ 2) 2 i).val = (S0 i k).val
    rw [F_M']
    decide +kernel

def w1 : Fin 4 → Double := ![.fl 3, .fl 4, .fl 1, .fl 2]
def w2 : Fin 4 → Double := ![.fl 1, .fl 2, .fl 4, .fl 3]

theorem pass1 : stepFn w1 (st R0 S0 ![1, 3, 2, 0] id id) 0 = st R0 S0 ![1, 3, 2, 0] id id := by
  have : findCandidate (st R0 S0 ![1, 3, 2, 0] id id) w1 0 = some (.fl 3, 1) := by decide +kernel
  unfold stepFn
  rw [this]
  exact if_neg (by decide +kernel)

theorem pass2 : stepFn w1 (st R0 S0 ![1, 3, 2, 0] id id) 1 = st R1 S1 ![1, 0, 2, 3] id id := by
  have : findCandidate (st R0 S0 ![1, 3, 2, 0] id id) w1 1 = some (.fl 3, 1) := by decide +kernel
  unfold stepFn
  rw [this]
  refine (if_pos (by decide +kernel)).trans (ext ?_ ?_ ?_ rfl rfl rfl rfl rfl)
  · decide +kernel
  · change ∀ i k : Fin 2, ((swap (st R0 S0 ![1, 3, 2, 0] id id) 1 1).S i k).val = (S1 i k).val
    decide +kernel
  · decide +kernel

theorem pass3 (Kb Kn : Fin 2 → Fin 2) : stepFn w2 (st R1 S2 ![1, 0, 3, 2] Kb Kn) 0 = st R3 S3 ![2, 0, 3, 1] Kb Kn := by
  have : findCandidate (st R1 S2 ![1, 0, 3, 2] Kb Kn) w2 0 = some (.fl 4, 1) := by
    change findCandidate (st R1 S2 ![1, 0, 3, 2] id id) w2 0 = _
    decide +kernel
  unfold stepFn
  rw [this]
  refine (if_pos ?_).trans (ext ?_ ?_ ?_ rfl rfl rfl rfl rfl)
  · change w2 ((st R1 S2 ![1, 0, 3, 2] id id).Q (.inl 0)) < _
    decide +kernel
  · change ∀ i c, (swap (st R1 S2 ![1, 0, 3, 2] id id) 0 1).R (.inl i) c = R3 i c
    decide +kernel
  · change ∀ i c : Fin 2, ((swap (st R1 S2 ![1, 0, 3, 2] id id) 0 1).S i c).val = (S3 i c).val
    decide +kernel
  · change (swap (st R1 S2 ![1, 0, 3, 2] id id) 0 1).Q = _
    decide +kernel

theorem pass4 (Kb Kn : Fin 2 → Fin 2) : stepFn w2 (st R3 S3 ![2, 0, 3, 1] Kb Kn) 1 = st R4 S4 ![2, 3, 0, 1] Kb Kn := by
  have : findCandidate (st R3 S3 ![2, 0, 3, 1] Kb Kn) w2 1 = some (.fl 3, 0) := by
    change findCandidate (st R3 S3 ![2, 0, 3, 1] id id) w2 1 = _
    decide +kernel
  unfold stepFn
  rw [this]
  refine (if_pos ?_).trans (ext ?_ ?_ ?_ rfl rfl rfl rfl rfl)
  · change w2 ((st R3 S3 ![2, 0, 3, 1] id id).Q (.inl 1)) < _
    decide +kernel
  · change ∀ i c, (swap (st R3 S3 ![2, 0, 3, 1] id id) 1 0).R (.inl i) c = R4 i c
    decide +kernel
  · change ∀ i c : Fin 2, ((swap (st R3 S3 ![2, 0, 3, 1] id id) 1 0).S i c).val = (S4 i c).val
    decide +kernel
  · change (swap (st R3 S3 ![2, 0, 3, 1] id id) 1 0).Q = _
    decide +kernel

/-- Two indices sorted by different keys. -/
theorem sorted_two (sort : SortImpl Double) (key : Fin 2 → Double) (a : Fin 2 → Fin 2) (ha : Function.Bijective a) (i j : Fin 2) (hij : i ≠ j) (h : key j < key i) : sort.run key a = ![i, j] := by
  obtain ⟨π, hπ⟩ := sort.perm key a
  have hb : Function.Injective (sort.run key a) := by rw [hπ]; exact (ha.comp π.bijective).1
  have hs := sort.sorted key a 0 1 (by decide)
  set b := sort.run key a
  have h01 : b 0 ≠ b 1 := fun h => absurd (hb h) (by decide)
  have hv : ∀ x y : Fin 2, x ≠ y → (x = i ∧ y = j) ∨ (x = j ∧ y = i) := by clear h; revert hij; revert i j; decide
  rcases hv _ _ h01 with ⟨e0, e1⟩ | ⟨e0, e1⟩
  · funext k
    fin_cases k
    · exact e0
    · exact e1
  · rw [e0, e1] at hs
    exact absurd hs (not_le.2 h)

/-- The state at the end. -/
def final : State Double 2 4 2 2 0 := st R4 S5 ![2, 3, 1, 0] ![0, 1] ![1, 0]

theorem updates (sort : SortImpl Double) : ∃ tr, Updates sort [w1, w2] C.state tr final := by
  rw [state_eq]
  have u1 : Update sort w1 (st R0 S0 ![1, 3, 2, 0] id id) [st R0 S0 ![1, 3, 2, 0] id id, st R1 S1 ![1, 0, 2, 3] id id] (st R1 S2 ![1, 0, 3, 2] ![0, 1] ![1, 0]) := by
    refine ⟨st R1 S1 ![1, 0, 2, 3] id id, ?_, ?_⟩
    · refine .cons (i := 0) (l := [1]) ?_ (.cons ?_ (.nil _))
      · have := stepFn_step w1 (st R0 S0 ![1, 3, 2, 0] id id) 0
        rwa [pass1] at this
      · have := stepFn_step w1 (st R0 S0 ![1, 3, 2, 0] id id) 1
        rwa [pass2] at this
    · have k1 : sort.run (fun l => w1 ((st R1 S1 ![1, 0, 2, 3] id id).Q (.inl l))) id = ![0, 1] := sorted_two sort _ _ Function.bijective_id 0 1 (by decide) (by decide +kernel)
      have k2 : sort.run (fun l => w1 ((st R1 S1 ![1, 0, 2, 3] id id).Q (.inr l))) id = ![1, 0] := sorted_two sort _ _ Function.bijective_id 1 0 (by decide) (by decide +kernel)
      change _ = reorder { st R1 S1 ![1, 0, 2, 3] id id with Kb := sort.run (fun l => w1 ((st R1 S1 ![1, 0, 2, 3] id id).Q (.inl l))) id, Kn := sort.run (fun l => w1 ((st R1 S1 ![1, 0, 2, 3] id id).Q (.inr l))) id } (sort.run (fun l => w1 ((st R1 S1 ![1, 0, 2, 3] id id).Q (.inl l))) id) (sort.run (fun l => w1 ((st R1 S1 ![1, 0, 2, 3] id id).Q (.inr l))) id)
      rw [k1, k2]
      symm
      refine ext ?_ ?_ ?_ rfl rfl rfl rfl rfl
      · decide +kernel
      · decide +kernel
      · decide +kernel
  have u2 : Update sort w2 (st R1 S2 ![1, 0, 3, 2] ![0, 1] ![1, 0]) [st R3 S3 ![2, 0, 3, 1] ![0, 1] ![1, 0], st R4 S4 ![2, 3, 0, 1] ![0, 1] ![1, 0]] final := by
    refine ⟨st R4 S4 ![2, 3, 0, 1] ![0, 1] ![1, 0], ?_, ?_⟩
    · refine .cons (i := 0) (l := [1]) ?_ (.cons ?_ (.nil _))
      · have := stepFn_step w2 (st R1 S2 ![1, 0, 3, 2] ![0, 1] ![1, 0]) 0
        rwa [pass3] at this
      · have := stepFn_step w2 (st R3 S3 ![2, 0, 3, 1] ![0, 1] ![1, 0]) 1
        rwa [pass4] at this
    · have k1 : sort.run (fun l => w2 ((st R4 S4 ![2, 3, 0, 1] ![0, 1] ![1, 0]).Q (.inl l))) ![0, 1] = ![0, 1] := sorted_two sort _ _ (by decide) 0 1 (by decide) (by decide +kernel)
      have k2 : sort.run (fun l => w2 ((st R4 S4 ![2, 3, 0, 1] ![0, 1] ![1, 0]).Q (.inr l))) ![1, 0] = ![1, 0] := sorted_two sort _ _ (by decide) 1 0 (by decide) (by decide +kernel)
      change _ = reorder { st R4 S4 ![2, 3, 0, 1] ![0, 1] ![1, 0] with Kb := sort.run (fun l => w2 ((st R4 S4 ![2, 3, 0, 1] ![0, 1] ![1, 0]).Q (.inl l))) ![0, 1], Kn := sort.run (fun l => w2 ((st R4 S4 ![2, 3, 0, 1] ![0, 1] ![1, 0]).Q (.inr l))) ![1, 0] }
        (sort.run (fun l => w2 ((st R4 S4 ![2, 3, 0, 1] ![0, 1] ![1, 0]).Q (.inl l))) ![0, 1]) (sort.run (fun l => w2 ((st R4 S4 ![2, 3, 0, 1] ![0, 1] ![1, 0]).Q (.inr l))) ![1, 0])
      rw [k1, k2]
      symm
      refine ext ?_ ?_ ?_ rfl rfl rfl rfl rfl
      · decide +kernel
      · decide +kernel
      · decide +kernel
  exact ⟨_, .cons u1 (.cons u2 (.nil _))⟩

/-- `awbs` for a state of the echelonizer without parameters and non-linear equations whose variables are all stable, ResidualVector.cpp:125-130: `R` is the copy without round-off errors, EchelonizerExtended.cpp:236-243. -/
def awbs (A : Fin m → Fin n → Double) (e : State Double m n nb nn nl) (b : Fin m → Double) (x : Fin n → Double) (i : Fin nb) : Double :=
  FNum.multiplyClean (FNum.cleanSigma (FNum.sigma A) fun i => e.R (.inl i)) b i - (x (e.Q (.inl i)) + FNum.dot (fun k => FNum.cleanSigma (FNum.sigma A) e.S i k) fun k => x (e.Q (.inr k)))

/-- `compute` is accurate to twelve digits. -/
theorem initial : (∀ i c, |∑ j, (A i (C.state.Q (.inl j))).val * (C.state.R (.inl j) c).val - (if i = c then 1 else 0)| ≤ 1 / 10 ^ 12) ∧ ∀ i k, |∑ j, (A i (C.state.Q (.inl j))).val * (C.state.S j k).val - (A i (C.state.Q (.inr k))).val| ≤ 1 / 10 ^ 12 := by
  rw [state_eq]
  constructor
  · decide +kernel
  · decide +kernel

/-- **C83** The accuracy does not survive the updates.  There is a matrix for which `compute` is accurate to twelve digits, and after two calls of `updateWithPriorityWeights` no digit of `A(:,ibasic)*R = I` is right, although the basic columns are
    far from dependent (their determinant is 3) and the entries of `R` and `S` are small: a rounding error of the first swap is above the threshold and becomes the pivot of the second.
    The error stays to the end of the solve: `reset` is never called.  The residual of the linear equations is computed with this `R`: for `b = (1, 0)` it is zero at a point where the equations are violated by 4 and 4.5. -/
theorem echelon_ruined : ∃ (A : Fin 2 → Fin 4 → Double) (C : Computed A 2 2 0) (w₁ w₂ : Fin 4 → Double) (b : Fin 2 → Double) (x : Fin 4 → Double),
    ((∀ i c, |∑ j, (A i (C.state.Q (.inl j))).val * (C.state.R (.inl j) c).val - (if i = c then 1 else 0)| ≤ 1 / 10 ^ 12) ∧ ∀ i k, |∑ j, (A i (C.state.Q (.inl j))).val * (C.state.S j k).val - (A i (C.state.Q (.inr k))).val| ≤ 1 / 10 ^ 12) ∧
    ∀ sort : SortImpl Double, ∃ tr e, Updates sort [w₁, w₂] C.state tr e ∧
      (A 0 (e.Q (.inl 0))).val * (A 1 (e.Q (.inl 1))).val - (A 0 (e.Q (.inl 1))).val * (A 1 (e.Q (.inl 0))).val = 3 ∧ Bounded 10 e ∧
      (∀ i c, 9 / 10 ≤ |∑ j, (A i (e.Q (.inl j))).val * (e.R (.inl j) c).val - (if i = c then 1 else 0)|) ∧
      (∀ i, awbs A e b x i = 0) ∧ ∀ i, 4 ≤ |∑ j, (A i j).val * (x j).val - (b i).val| := by
  refine ⟨A, C, w1, w2, ![1, 0], ![0, 0, .fl (5 / 2), .fl (-9)], initial, fun sort => ?_⟩
  obtain ⟨tr, h⟩ := updates sort
  refine ⟨tr, final, h, ?_, ⟨?_, ?_⟩, ?_, ?_, ?_⟩
  · decide +kernel
  · decide +kernel
  · decide +kernel
  · decide +kernel
  · decide +kernel
  · decide +kernel

end Ruin

/-! ## An update whose error is bounded -/

namespace Small

def A : Fin 1 → Fin 2 → Double := ![![.fl (1 / 10), .fl (3 / 10)]]
def pr : Fin 1 ⊕ Fin 0 → Fin 1 := Sum.elim ![0] Fin.elim0
def q : Fin 1 ⊕ Fin 1 → Fin 2 := Sum.elim ![1] ![0]
def F : FLU.Factors fun i j => A (pr (.inl i)) (q (.inl j)) := FLU.Factors.compute (by norm_num) _
def C : Computed A 1 1 0 := Computed.inOrder A pr q (by decide) (by decide) F (by decide +kernel) (by decide +kernel) (by decide +kernel) (by decide +kernel)
def w : Fin 2 → Double := ![.fl 2, 1]

theorem step_eq : stepFn w C.state 0 = swap C.state 0 0 := by
  have : findCandidate C.state w 0 = some (.fl 2, 0) := by decide +kernel
  unfold stepFn
  rw [this]
  exact if_pos (by decide +kernel)

/-- `A = [0.1 0.3]`: after a swap the error is at most `10⁻¹³`. -/
example (sort : SortImpl Double) : ∃ tr e, Updates sort [w] C.state tr e ∧ e.Q (.inl 0) = 0 ∧ |(A 0 0).val * (e.R (.inl 0) 0).val - 1| ≤ 1 / 10 ^ 13 ∧ |(A 0 0).val * (e.S 0 0).val - (A 0 1).val| ≤ 1 / 10 ^ 13 := by
  have hu : Update sort w C.state [swap C.state 0 0] (reorder { swap C.state 0 0 with Kb := id, Kn := id } id id) := by
    refine ⟨swap C.state 0 0, .cons (l := []) (step_eq ▸ stepFn_step w C.state 0) (.nil _), ?_⟩
    have h1 : ∀ f g : Fin 1 → Fin 1, f = g := fun f g => Subsingleton.elim _ _
    dsimp only
    rw [h1 (sort.run _ _) id, h1 (sort.run _ _) id]
  have hus : Updates sort [w] C.state ([swap C.state 0 0] ++ []) (reorder { swap C.state 0 0 with Kb := id, Kn := id } id id) := .cons hu (.nil _)
  obtain ⟨h1, h2⟩ := updates_double (μ := 11) (α := 3 / 10) (β := 3 / 10) (by norm_num) C (by norm_num) 0 (by norm_num) (by decide +kernel) (by decide +kernel) hus (by unfold Bounded; decide +kernel) (by
    intro s hs
    rw [List.append_nil, List.mem_singleton] at hs
    subst hs
    unfold Bounded
    decide +kernel)
  have g1 := h1 0
  have g2 := h2 0
  rw [Fin.sum_univ_one] at g1 g2
  refine ⟨_, _, hus, rfl, g1.trans ?_, g2.trans ?_⟩ <;> · unfold roundings; norm_num

end Small

end Optima.FEch
