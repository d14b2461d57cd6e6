import Verif.Model.NullFloat
import Verif.Props.LUFloat

/-!
# C82: the null-space method in double arithmetic
-/

set_option linter.unusedSectionVars false

namespace Optima.FNull

open Terms

/-! ## Elimination with errors -/

section elimination
variable {J bi be : Type} [Fintype J] [Fintype bi] [Fintype be] {γ : ℚ}

theorem abs_sum_le {ι : Type} [Fintype ι] (f g b : ι → ℚ) (h : ∀ k, |f k| ≤ b k) : |∑ k, f k * g k| ≤ ∑ k, b k * |g k| :=
  (Finset.abs_sum_le_sum_abs _ _).trans (Finset.sum_le_sum fun k _ => by rw [abs_mul]; exact mul_le_mul_of_nonneg_right (h k) (abs_nonneg _))

/-- Eliminating the unknowns `xb ≈ -S x` from a row. -/
theorem eliminate (hγ : 0 ≤ γ) (x : J → ℚ) (S : bi → J → ℚ) (xb : bi → ℚ) (hx : ∀ k, |xb k + ∑ j, S k j * x j| ≤ γ * ∑ j, |S k j| * |x j|) (f f' : J → ℚ) (h : bi → ℚ)
    (hf : ∀ j, |f' j - (f j - ∑ k, h k * S k j)| ≤ γ * (|f j| + ∑ k, |h k * S k j|)) :
    |∑ j, f' j * x j - (∑ j, f j * x j + ∑ k, h k * xb k)| ≤ 2 * γ * (∑ j, |f j| * |x j| + ∑ k, |h k| * ∑ j, |S k j| * |x j|) ∧
      ∑ j, |f' j| * |x j| ≤ (1 + γ) * (∑ j, |f j| * |x j| + ∑ k, |h k| * ∑ j, |S k j| * |x j|) := by
  have eT : ∑ j, (|f j| + ∑ k, |h k * S k j|) * |x j| = ∑ j, |f j| * |x j| + ∑ k, |h k| * ∑ j, |S k j| * |x j| := by
    simp only [add_mul, Finset.sum_add_distrib, Finset.mul_sum, Finset.sum_mul, abs_mul]
    congr 1
    rw [Finset.sum_comm]
    simp only [mul_assoc]
  set T := ∑ j, |f j| * |x j| + ∑ k, |h k| * ∑ j, |S k j| * |x j| with hT
  constructor
  · have e : ∑ j, f' j * x j - (∑ j, f j * x j + ∑ k, h k * xb k) = ∑ j, (f' j - (f j - ∑ k, h k * S k j)) * x j - ∑ k, (xb k + ∑ j, S k j * x j) * h k := by
      have e1 : ∑ j, (∑ k, h k * S k j) * x j = ∑ k, (∑ j, S k j * x j) * h k := by
        simp only [Finset.sum_mul]
        rw [Finset.sum_comm]
        exact Finset.sum_congr rfl fun k _ => Finset.sum_congr rfl fun j _ => by ring
      have e2 : ∑ k, h k * xb k = ∑ k, xb k * h k := Finset.sum_congr rfl fun k _ => by ring
      simp only [sub_mul, add_mul, Finset.sum_sub_distrib, Finset.sum_add_distrib]
      rw [e1, e2]
      ring
    rw [e]
    have b1 := abs_sum_le (fun j => f' j - (f j - ∑ k, h k * S k j)) x _ hf
    have b2 := abs_sum_le (fun k => xb k + ∑ j, S k j * x j) h _ hx
    have c1 : ∑ j, γ * (|f j| + ∑ k, |h k * S k j|) * |x j| = γ * T := by
      rw [← eT, Finset.mul_sum]
      exact Finset.sum_congr rfl fun j _ => by ring
    have c2 : ∑ k, γ * (∑ j, |S k j| * |x j|) * |h k| ≤ γ * T := by
      have : ∑ k, γ * (∑ j, |S k j| * |x j|) * |h k| = γ * ∑ k, |h k| * ∑ j, |S k j| * |x j| := by
        rw [Finset.mul_sum]
        exact Finset.sum_congr rfl fun k _ => by ring
      rw [this]
      refine mul_le_mul_of_nonneg_left ?_ hγ
      rw [hT]
      have : 0 ≤ ∑ j, |f j| * |x j| := Finset.sum_nonneg fun j _ => by positivity
      linarith
    rw [c1] at b1
    have := abs_sub (∑ j, (f' j - (f j - ∑ k, h k * S k j)) * x j) (∑ k, (xb k + ∑ j, S k j * x j) * h k)
    linarith [b2.trans c2]
  · rw [← eT, Finset.mul_sum]
    refine Finset.sum_le_sum fun j _ => ?_
    rw [← mul_assoc]
    refine mul_le_mul_of_nonneg_right ?_ (abs_nonneg _)
    have h1 : |f j - ∑ k, h k * S k j| ≤ |f j| + ∑ k, |h k * S k j| := (abs_sub _ _).trans (add_le_add le_rfl (Finset.abs_sum_le_sum_abs _ _))
    have e : f' j = (f' j - (f j - ∑ k, h k * S k j)) + (f j - ∑ k, h k * S k j) := by ring
    rw [e]
    refine (abs_add_le _ _).trans ?_
    have := hf j
    linarith

/-- The row that gives `wb` from the eliminated row. -/
theorem recover (hγ : 0 ≤ γ) (hγ1 : γ ≤ 1) {T G R R' m w g : ℚ} (h1 : |R' - R| ≤ 2 * γ * T) (h2 : m ≤ (1 + γ) * T) (hG : 0 ≤ G) (hw : |w + R' + g| ≤ γ * (m + G)) (hT : 0 ≤ T) : |w + R + g| ≤ 4 * γ * (T + G) := by
  have e : w + R + g = (w + R' + g) - (R' - R) := by ring
  rw [e]
  refine (abs_sub _ _).trans ?_
  have h3 : γ * (m + G) ≤ γ * (2 * T + G) := mul_le_mul_of_nonneg_left (by nlinarith) hγ
  nlinarith [mul_nonneg hγ hG, mul_nonneg hγ hT]

/-- A second elimination: of `wb ≈ -(F x + H y)` with the coefficients `c`. -/
theorem eliminate₂ (hγ : 0 ≤ γ) (hγ1 : γ ≤ 1) (x : J → ℚ) (y : be → ℚ) (wb : bi → ℚ) (F : bi → J → ℚ) (H : bi → be → ℚ) (f' f'' : J → ℚ) (g g' : be → ℚ) (c : bi → ℚ)
    (hw : ∀ k, |wb k + ∑ j, F k j * x j + ∑ j, H k j * y j| ≤ γ * (∑ j, |F k j| * |x j| + ∑ j, |H k j| * |y j|))
    (hf : ∀ j, |f'' j - (f' j - ∑ k, c k * F k j)| ≤ γ * (|f' j| + ∑ k, |c k * F k j|)) (hg : ∀ j, |g' j - (g j - ∑ k, c k * H k j)| ≤ γ * (|g j| + ∑ k, |c k * H k j|))
    {T R : ℚ} (T₂ : bi → ℚ) (h1 : |∑ j, f' j * x j - R| ≤ 2 * γ * T) (h2 : ∑ j, |f' j| * |x j| ≤ (1 + γ) * T) (hT : 0 ≤ T) (h3 : ∀ k, ∑ j, |F k j| * |x j| ≤ (1 + γ) * T₂ k) (hT₂ : ∀ k, 0 ≤ T₂ k) :
    |(∑ j, f'' j * x j + ∑ j, g' j * y j) - (R + ∑ j, g j * y j + ∑ k, c k * wb k)| ≤ 4 * γ * (T + ∑ j, |g j| * |y j| + ∑ k, |c k| * (T₂ k + ∑ j, |H k j| * |y j|)) := by
  have e : (∑ j, f'' j * x j + ∑ j, g' j * y j) - (R + ∑ j, g j * y j + ∑ k, c k * wb k) =
      ∑ j, (f'' j - (f' j - ∑ k, c k * F k j)) * x j + ∑ j, (g' j - (g j - ∑ k, c k * H k j)) * y j + (∑ j, f' j * x j - R) - ∑ k, (wb k + ∑ j, F k j * x j + ∑ j, H k j * y j) * c k := by
    have e1 : ∑ j, (∑ k, c k * F k j) * x j = ∑ k, (∑ j, F k j * x j) * c k := by
      simp only [Finset.sum_mul]
      rw [Finset.sum_comm]
      exact Finset.sum_congr rfl fun k _ => Finset.sum_congr rfl fun j _ => by ring
    have e2 : ∑ j, (∑ k, c k * H k j) * y j = ∑ k, (∑ j, H k j * y j) * c k := by
      simp only [Finset.sum_mul]
      rw [Finset.sum_comm]
      exact Finset.sum_congr rfl fun k _ => Finset.sum_congr rfl fun j _ => by ring
    have e3 : ∑ k, c k * wb k = ∑ k, wb k * c k := Finset.sum_congr rfl fun k _ => by ring
    simp only [sub_mul, add_mul, Finset.sum_sub_distrib, Finset.sum_add_distrib]
    rw [e1, e2, e3]
    ring
  rw [e]
  have b1 := abs_sum_le (fun j => f'' j - (f' j - ∑ k, c k * F k j)) x _ hf
  have b2 := abs_sum_le (fun j => g' j - (g j - ∑ k, c k * H k j)) y _ hg
  have b3 := abs_sum_le (fun k => wb k + ∑ j, F k j * x j + ∑ j, H k j * y j) c _ hw
  have c1 : ∑ j, γ * (|f' j| + ∑ k, |c k * F k j|) * |x j| = γ * (∑ j, |f' j| * |x j| + ∑ k, |c k| * ∑ j, |F k j| * |x j|) := by
    have : ∑ k, |c k| * ∑ j, |F k j| * |x j| = ∑ j, (∑ k, |c k * F k j|) * |x j| := by
      simp only [Finset.mul_sum, Finset.sum_mul, abs_mul]
      rw [Finset.sum_comm]
      simp only [mul_assoc]
    rw [this, ← Finset.sum_add_distrib, Finset.mul_sum]
    exact Finset.sum_congr rfl fun j _ => by ring
  have c2 : ∑ j, γ * (|g j| + ∑ k, |c k * H k j|) * |y j| = γ * (∑ j, |g j| * |y j| + ∑ k, |c k| * ∑ j, |H k j| * |y j|) := by
    have : ∑ k, |c k| * ∑ j, |H k j| * |y j| = ∑ j, (∑ k, |c k * H k j|) * |y j| := by
      simp only [Finset.mul_sum, Finset.sum_mul, abs_mul]
      rw [Finset.sum_comm]
      simp only [mul_assoc]
    rw [this, ← Finset.sum_add_distrib, Finset.mul_sum]
    exact Finset.sum_congr rfl fun j _ => by ring
  have c3 : ∑ k, γ * (∑ j, |F k j| * |x j| + ∑ j, |H k j| * |y j|) * |c k| = γ * (∑ k, |c k| * ∑ j, |F k j| * |x j| + ∑ k, |c k| * ∑ j, |H k j| * |y j|) := by
    rw [← Finset.sum_add_distrib, Finset.mul_sum]
    exact Finset.sum_congr rfl fun k _ => by ring
  rw [c1] at b1
  rw [c2] at b2
  rw [c3] at b3
  have hc : ∑ k, |c k| * ∑ j, |F k j| * |x j| ≤ (1 + γ) * ∑ k, |c k| * T₂ k := by
    rw [Finset.mul_sum]
    refine Finset.sum_le_sum fun k _ => ?_
    calc |c k| * ∑ j, |F k j| * |x j| ≤ |c k| * ((1 + γ) * T₂ k) := mul_le_mul_of_nonneg_left (h3 k) (abs_nonneg _)
      _ = _ := by ring
  have e4 : ∑ k, |c k| * (T₂ k + ∑ j, |H k j| * |y j|) = ∑ k, |c k| * T₂ k + ∑ k, |c k| * ∑ j, |H k j| * |y j| := by
    rw [← Finset.sum_add_distrib]
    exact Finset.sum_congr rfl fun k _ => by ring
  rw [e4]
  have hU : 0 ≤ ∑ k, |c k| * T₂ k := Finset.sum_nonneg fun k _ => mul_nonneg (abs_nonneg _) (hT₂ k)
  have hV : 0 ≤ ∑ k, |c k| * ∑ j, |H k j| * |y j| := Finset.sum_nonneg fun k _ => mul_nonneg (abs_nonneg _) (Finset.sum_nonneg fun j _ => by positivity)
  have hW : 0 ≤ ∑ j, |g j| * |y j| := Finset.sum_nonneg fun j _ => by positivity
  set U := ∑ k, |c k| * T₂ k
  set V := ∑ k, |c k| * ∑ j, |H k j| * |y j|
  set W := ∑ j, |g j| * |y j|
  set P := ∑ k, |c k| * ∑ j, |F k j| * |x j|
  set Q := ∑ j, |f' j| * |x j|
  refine (abs_sub _ _).trans ?_
  refine (add_le_add_left (abs_add_le _ _) _).trans ?_
  refine (add_le_add_left (add_le_add_left (abs_add_le _ _) _) _).trans ?_
  have hP : P ≤ 2 * U := by nlinarith
  have hQ : Q ≤ 2 * T := by nlinarith
  have : γ * (Q + P) + γ * (W + V) + 2 * γ * T + γ * (P + V) ≤ 4 * γ * (T + W + (U + V)) := by
    have : γ * (Q + P + W + V + 2 * T + P + V) ≤ γ * (4 * (T + W + (U + V))) := mul_le_mul_of_nonneg_left (by linarith) hγ
    linarith
  linarith

end elimination

/-! ## Rounded entries -/

variable {p nx np nw N : ℕ} {be bi ne ni u : Type} [Fintype be] [Fintype bi] [Fintype ne] [Fintype ni] [DecidableEq be]

theorem sum_enum {ι : Type} [Fintype ι] {l : List ι} (h1 : l.Nodup) (h2 : ∀ k, k ∈ l) (F : ι → ℚ) : (l.map F).sum = ∑ k, F k := by
  have : (Finset.univ : Finset ι) = ⟨(l : Multiset ι), h1⟩ := by
    ext k
    exact ⟨fun _ => h2 k, fun _ => Finset.mem_univ k⟩
  rw [this]
  rfl

theorem length_enum {ι : Type} [Fintype ι] {l : List ι} (h1 : l.Nodup) (h2 : ∀ k, k ∈ l) : l.length = Fintype.card ι := by
  have : (Finset.univ : Finset ι) = ⟨(l : Multiset ι), h1⟩ := by
    ext k
    exact ⟨fun _ => h2 k, fun _ => Finset.mem_univ k⟩
  rw [Fintype.card, this]
  rfl

theorem isSub_error {ι : Type} [Fintype ι] (hp : 0 < p) {a c : FNum p} {f g : ι → FNum p} (h : IsSub a f g c) {m : ℕ} (hm : 1 + Fintype.card ι ≤ m) :
    |c.val - (a.val - ∑ k, (f k).val * (g k).val)| ≤ roundings p m * (|a.val| + ∑ k, |(f k).val * (g k).val|) := by
  obtain ⟨l, h1, h2, h3⟩ := h
  have he := sums_error hp h3
  have e1 : exact ((a, 1) :: Terms.neg (l.map fun k => (f k, g k))) = a.val - ∑ k, (f k).val * (g k).val := by
    rw [exact_cons, exact_neg hp, FNum.val_one hp, mul_one, ← sub_eq_add_neg, exact, List.map_map, ← sum_enum h1 h2]
    rfl
  have e2 : mag ((a, 1) :: Terms.neg (l.map fun k => (f k, g k))) = |a.val| + ∑ k, |(f k).val * (g k).val| := by
    rw [mag_cons, mag_neg hp, FNum.val_one hp, mul_one, mag, List.map_map, ← sum_enum h1 h2]
    rfl
  have e3 : ((a, 1) :: Terms.neg (l.map fun k => (f k, g k))).length = 1 + Fintype.card ι := by
    rw [List.length_cons, length_neg, List.length_map, length_enum h1 h2, add_comm]
  rw [e1, e2, e3] at he
  exact he.trans (mul_le_mul_of_nonneg_right (roundings_mono p hm) (add_nonneg (abs_nonneg _) (Finset.sum_nonneg fun k _ => abs_nonneg _)))

/-! ## The step -/

section step
variable (C : Canon (FNum p) nx np nw be bi ne ni u) (a d : CVec (FNum p) np be bi ne ni)

/-- The terms of the equation for the basic variable `k`. -/
def sizeE (k : bi) : ℚ := |(a.wbs (.inr k)).val| + (∑ j, |(C.Sbsns (.inr k) j).val| * |(d.xs (.inr j)).val| + ∑ q, |(C.Sbsp (.inr k) q).val| * |(d.p q).val|)

/-- The terms of the equation for the gradient entry `r`, where the terms of `sizeE` stand for the variables `xbi`. -/
def sizeX (r : (be ⊕ bi) ⊕ (ne ⊕ ni)) : ℚ :=
  |(a.xs r).val| + (∑ j, |(C.Hss r (.inr j)).val| * |(d.xs (.inr j)).val| + ∑ q, |(C.Hsp r q).val| * |(d.p q).val|) + ∑ k, |(C.Hss r (.inl (.inr k))).val| * sizeE C a d k + ∑ j, |(C.Hss r (.inl (.inl j))).val| * |(d.xs (.inl (.inl j))).val|

/-- The terms of the equation for `v`. -/
def sizeP (r : Fin np) : ℚ :=
  |(a.p r).val| + (∑ j, |(C.Vps r (.inr j)).val| * |(d.xs (.inr j)).val| + ∑ q, |(C.Vpp r q).val| * |(d.p q).val|) + ∑ k, |(C.Vps r (.inl (.inr k))).val| * sizeE C a d k + ∑ j, |(C.Vps r (.inl (.inl j))).val| * |(d.xs (.inl (.inl j))).val|

end step

variable {C : Canon (FNum p) nx np nw be bi ne ni u} {D : Decomposed C} {a : CVec (FNum p) np be bi ne ni} {e : NullT np be ne ni ≃ Fin N} {rank0 : ℕ}

/-- The right-hand side and the unknowns `xns`, `p`. -/
abbrev Col (np : ℕ) (ne ni : Type) := Unit ⊕ ((ne ⊕ ni) ⊕ Fin np)

/-- A row of such columns. -/
def row (r : FNum p) (f : ne ⊕ ni → FNum p) (g : Fin np → FNum p) : Col np ne ni → ℚ := Sum.elim (fun _ => r.val) (Sum.elim (fun j => (f j).val) fun q => (g q).val)

/-- The values, with `-1` for the right-hand side. -/
def col (d : CVec (FNum p) np be bi ne ni) : Col np ne ni → ℚ := Sum.elim (fun _ => -1) (Sum.elim (fun j => (d.xs (.inr j)).val) fun q => (d.p q).val)

theorem sum_row (r : FNum p) (f : ne ⊕ ni → FNum p) (g : Fin np → FNum p) (d : CVec (FNum p) np be bi ne ni) : ∑ j, row r f g j * col d j = -r.val + (∑ j, (f j).val * (d.xs (.inr j)).val + ∑ q, (g q).val * (d.p q).val) := by
  rw [Fintype.sum_sum_type, Fintype.sum_sum_type (α₁ := ne ⊕ ni)]
  simp [row, col]

theorem sum_abs_row (r : FNum p) (f : ne ⊕ ni → FNum p) (g : Fin np → FNum p) (d : CVec (FNum p) np be bi ne ni) : ∑ j, |row r f g j| * |col d j| = |r.val| + (∑ j, |(f j).val| * |(d.xs (.inr j)).val| + ∑ q, |(g q).val| * |(d.p q).val|) := by
  rw [Fintype.sum_sum_type, Fintype.sum_sum_type (α₁ := ne ⊕ ni)]
  simp [row, col]

/-- The number of roundings in an entry. -/
def count (np : ℕ) (be bi ne ni : Type) [Fintype be] [Fintype bi] [Fintype ne] [Fintype ni] : ℕ := 1 + (Fintype.card be + Fintype.card bi + (Fintype.card ne + Fintype.card ni) + np)

/-- A row after `r -= h*awbi`, `f -= h*Sbins`, `g -= h*Sbip`. -/
theorem row_sub (hp : 0 < p) {h : bi → FNum p} {r r' : FNum p} {f f' : ne ⊕ ni → FNum p} {g g' : Fin np → FNum p} {s : bi → FNum p} {t : bi → ne ⊕ ni → FNum p} {v : bi → Fin np → FNum p}
    (h1 : IsSub r h s r') (h2 : ∀ j, IsSub (f j) h (fun k => t k j) (f' j)) (h3 : ∀ q, IsSub (g q) h (fun k => v k q) (g' q)) (j : Col np ne ni) :
    |row r' f' g' j - (row r f g j - ∑ k, (h k).val * row (s k) (t k) (v k) j)| ≤ roundings p (count np be bi ne ni) * (|row r f g j| + ∑ k, |(h k).val * row (s k) (t k) (v k) j|) := by
  have hm : 1 + Fintype.card bi ≤ count np be bi ne ni := by unfold count; omega
  rcases j with _ | j | q
  · exact isSub_error hp h1 hm
  · exact isSub_error hp (h2 j) hm
  · exact isSub_error hp (h3 q) hm

variable (s : Solved D a e rank0)

theorem key (hp : 0 < p) (hk : s.S.Keeps N) (hN : 16 * (N + 1) ≤ 2 ^ p) (t : NullT np be ne ni) :
    |(Sum.elim s.abe (Sum.elim s.ans (Sum.elim s.ap fun k => a.wbs (.inl k))) t).val - ∑ c, (nullMatrix C D.B t c).val * (s.S.x (e c)).val| ≤ 8 * (N + 1) / 2 ^ p * s.S.terms (e t) := by
  have h := FLU.lu_solve_double hp s.S hk hN (e t)
  simp only [Equiv.symm_apply_apply] at h
  rw [← Equiv.sum_comp e] at h
  simp only [Equiv.symm_apply_apply] at h
  exact h

theorem sum_null (F : NullT np be ne ni → ℚ) : ∑ c, F c = ∑ j, F (.inl j) + (∑ j, F (.inr (.inl j)) + (∑ q, F (.inr (.inr (.inl q))) + ∑ k, F (.inr (.inr (.inr k))))) := by
  rw [Fintype.sum_sum_type, Fintype.sum_sum_type (α₁ := ne ⊕ ni), Fintype.sum_sum_type (α₁ := Fin np)]

theorem sum_one (hp : 0 < p) (k : be) (f : be → ℚ) : ∑ c, ((1 : Matrix be be (FNum p)) k c).val * f c = f k := by
  rw [Finset.sum_eq_single k]
  · rw [Matrix.one_apply_eq, FNum.val_one hp, one_mul]
  · intro c _ hc
    rw [Matrix.one_apply_ne hc.symm, FNum.val_zero, zero_mul]
  · simp

/-- The rows of `Sbi`. -/
abbrev rowS (C : Canon (FNum p) nx np nw be bi ne ni u) (a : CVec (FNum p) np be bi ne ni) (k : bi) : Col np ne ni → ℚ := row (a.wbs (.inr k)) (fun j => C.Sbsns (.inr k) j) (fun q => C.Sbsp (.inr k) q)

theorem sizeE_eq (d : CVec (FNum p) np be bi ne ni) (k : bi) : ∑ j, |rowS C a k j| * |col d j| = sizeE C a d k := sum_abs_row _ _ _ _

theorem xbi_error (hp : 0 < p) (k : bi) : |(s.step.xs (.inl (.inr k))).val + ∑ j, rowS C a k j * col s.step j| ≤ roundings p (count np be bi ne ni) * ∑ j, |rowS C a k j| * |col s.step j| := by
  have h := isSub_error hp (s.dxbi_sub k) (m := count np be bi ne ni) (by unfold count; rw [Fintype.card_sum, Fintype.card_sum, Fintype.card_fin]; omega)
  rw [sum_row, sum_abs_row]
  simp only [Fintype.sum_sum_type (α₁ := ne ⊕ ni) (α₂ := Fin np), Sum.elim_inl, Sum.elim_inr, abs_mul] at h
  refine le_trans (le_of_eq ?_) h
  congr 1
  change (s.dxbi k).val + _ = _
  ring_nf
  rfl

/-- A row of the canonical matrix with the eliminated variables. -/
theorem row_eliminated (hp : 0 < p) {h : bi → FNum p} {r r' : FNum p} {f f' : ne ⊕ ni → FNum p} {g g' : Fin np → FNum p}
    (h1 : IsSub r h (fun k => a.wbs (.inr k)) r') (h2 : ∀ j, IsSub (f j) h (fun k => C.Sbins k j) (f' j)) (h3 : ∀ q, IsSub (g q) h (fun k => C.Sbip k q) (g' q)) :
    |∑ j, row r' f' g' j * col s.step j - (∑ j, row r f g j * col s.step j + ∑ k, (h k).val * (s.step.xs (.inl (.inr k))).val)| ≤
        2 * roundings p (count np be bi ne ni) * (∑ j, |row r f g j| * |col s.step j| + ∑ k, |(h k).val| * sizeE C a s.step k) ∧
      ∑ j, |row r' f' g' j| * |col s.step j| ≤ (1 + roundings p (count np be bi ne ni)) * (∑ j, |row r f g j| * |col s.step j| + ∑ k, |(h k).val| * sizeE C a s.step k) := by
  have := eliminate (roundings_nonneg p (count np be bi ne ni)) (col s.step) (rowS C a) (fun k => (s.step.xs (.inl (.inr k))).val) (xbi_error s hp) (row r f g) (row r' f' g') (fun k => (h k).val) (row_sub hp h1 h2 h3)
  simp only [sizeE_eq] at this
  exact this

theorem sizeE_nonneg (d : CVec (FNum p) np be bi ne ni) (k : bi) : 0 ≤ sizeE C a d k := by
  rw [← sizeE_eq]
  exact Finset.sum_nonneg fun j _ => by positivity

theorem terms_nonneg (h : bi → FNum p) (r : FNum p) (f : ne ⊕ ni → FNum p) (g : Fin np → FNum p) (d : CVec (FNum p) np be bi ne ni) : 0 ≤ ∑ j, |row r f g j| * |col d j| + ∑ k, |(h k).val| * sizeE C a d k :=
  add_nonneg (Finset.sum_nonneg fun j _ => by positivity) (Finset.sum_nonneg fun k _ => mul_nonneg (abs_nonneg _) (sizeE_nonneg d k))

theorem sum_xs (F : (be ⊕ bi) ⊕ (ne ⊕ ni) → ℚ) : ∑ j, F j = ∑ j, F (.inl (.inl j)) + ∑ j, F (.inl (.inr j)) + ∑ j, F (.inr j) := by
  rw [Fintype.sum_sum_type (α₁ := be ⊕ bi) (α₂ := ne ⊕ ni), Fintype.sum_sum_type (α₁ := be) (α₂ := bi)]

theorem sizeX_eq (d : CVec (FNum p) np be bi ne ni) (r : (be ⊕ bi) ⊕ (ne ⊕ ni)) :
    sizeX C a d r = (∑ j, |row (a.xs r) (fun j => C.Hss r (.inr j)) (fun q => C.Hsp r q) j| * |col d j| + ∑ k, |(C.Hss r (.inl (.inr k))).val| * sizeE C a d k) + ∑ j, |(C.Hss r (.inl (.inl j))).val| * |(d.xs (.inl (.inl j))).val| := by
  rw [sum_abs_row]; rfl

theorem sizeP_eq (d : CVec (FNum p) np be bi ne ni) (r : Fin np) :
    sizeP C a d r = (∑ j, |row (a.p r) (fun j => C.Vps r (.inr j)) (fun q => C.Vpp r q) j| * |col d j| + ∑ k, |(C.Vps r (.inl (.inr k))).val| * sizeE C a d k) + ∑ j, |(C.Vps r (.inl (.inl j))).val| * |(d.xs (.inl (.inl j))).val| := by
  rw [sum_abs_row]; rfl

theorem combine {γ T G R R' g w ε : ℚ} (hγ : 0 ≤ γ) (hT : 0 ≤ T) (hG : 0 ≤ G) (h1 : |R' - R| ≤ 2 * γ * T) (h2 : |-(R' + g + w)| ≤ ε) : |-(R + g + w)| ≤ ε + 4 * γ * (T + G) := by
  have e : -(R + g + w) = -(R' + g + w) + (R' - R) := by ring
  rw [e]
  refine (abs_add_le _ _).trans ?_
  nlinarith [mul_nonneg hγ hT, mul_nonneg hγ hG]

theorem row_be (hp : 0 < p) (hk : s.S.Keeps N) (hN : 16 * (N + 1) ≤ 2 ^ p) (i : be) :
    |(a.xs (.inl (.inl i))).val - (∑ j, (C.Hss (.inl (.inl i)) j).val * (s.step.xs j).val + ∑ q, (C.Hsp (.inl (.inl i)) q).val * (s.step.p q).val + (s.step.wbs (.inl i)).val)| ≤
      8 * (N + 1) / 2 ^ p * s.S.terms (e (.inl i)) + 4 * roundings p (count np be bi ne ni) * sizeX C a s.step (.inl (.inl i)) := by
  have hkey := key s hp hk hN (.inl i)
  rw [sum_null] at hkey
  change |(s.abe i).val - (∑ j, (D.B.Hbebe i j).val * (s.step.xs (.inl (.inl j))).val + (∑ j, (D.B.Hbens i j).val * (s.step.xs (.inr j)).val + (∑ q, (D.B.Hbep i q).val * (s.step.p q).val + ∑ k, ((1 : Matrix be be (FNum p)) i k).val * (s.step.wbs (.inl k)).val)))| ≤ _ at hkey
  rw [sum_one hp i fun k => (s.step.wbs (.inl k)).val] at hkey
  obtain ⟨h1, -⟩ := row_eliminated s hp (s.abe_sub i) (D.Hbens i) (D.Hbep i)
  rw [sum_row, sum_row] at h1
  simp only [D.Hbebi] at h1
  simp only [D.Hbebe] at hkey
  rw [sum_xs, sizeX_eq]
  have hG : 0 ≤ ∑ j, |(C.Hss (.inl (.inl i)) (.inl (.inl j))).val| * |(s.step.xs (.inl (.inl j))).val| := Finset.sum_nonneg fun j _ => by positivity
  have := combine (g := ∑ j, (C.Hss (.inl (.inl i)) (.inl (.inl j))).val * (s.step.xs (.inl (.inl j))).val) (w := (s.step.wbs (.inl i)).val) (ε := 8 * (N + 1) / 2 ^ p * s.S.terms (e (.inl i)))
    (roundings_nonneg p (count np be bi ne ni)) (terms_nonneg _ _ _ _ s.step) hG h1 (by refine le_trans (le_of_eq ?_) hkey; congr 1; ring)
  refine le_trans (le_of_eq ?_) this
  congr 1
  ring

theorem row_p (hp : 0 < p) (hk : s.S.Keeps N) (hN : 16 * (N + 1) ≤ 2 ^ p) (i : Fin np) :
    |(a.p i).val - (∑ j, (C.Vps i j).val * (s.step.xs j).val + ∑ q, (C.Vpp i q).val * (s.step.p q).val)| ≤
      8 * (N + 1) / 2 ^ p * s.S.terms (e (.inr (.inr (.inl i)))) + 4 * roundings p (count np be bi ne ni) * sizeP C a s.step i := by
  have hkey := key s hp hk hN (.inr (.inr (.inl i)))
  rw [sum_null] at hkey
  change |(s.ap i).val - (∑ j, (D.B.Vpbe i j).val * (s.step.xs (.inl (.inl j))).val + (∑ j, (D.B.Vpns i j).val * (s.step.xs (.inr j)).val + (∑ q, (D.B.Vpp i q).val * (s.step.p q).val + ∑ k, (0 : FNum p).val * (s.step.wbs (.inl k)).val)))| ≤ _ at hkey
  simp only [FNum.val_zero, zero_mul, Finset.sum_const_zero, add_zero] at hkey
  obtain ⟨h1, -⟩ := row_eliminated s hp (s.ap_sub i) (D.Vpns i) (D.Vpp i)
  rw [sum_row, sum_row] at h1
  simp only [D.Vpbi] at h1
  simp only [D.Vpbe] at hkey
  rw [sum_xs, sizeP_eq]
  have hG : 0 ≤ ∑ j, |(C.Vps i (.inl (.inl j))).val| * |(s.step.xs (.inl (.inl j))).val| := Finset.sum_nonneg fun j _ => by positivity
  have := combine (g := ∑ j, (C.Vps i (.inl (.inl j))).val * (s.step.xs (.inl (.inl j))).val) (w := 0) (ε := 8 * (N + 1) / 2 ^ p * s.S.terms (e (.inr (.inr (.inl i)))))
    (roundings_nonneg p (count np be bi ne ni)) (terms_nonneg _ _ _ _ s.step) hG h1 (by refine le_trans (le_of_eq ?_) hkey; congr 1; ring)
  refine le_trans (le_of_eq ?_) this
  congr 1
  ring

/-- The values after the first elimination in the rows of `wbi`. -/
theorem wbi_error (hp : 0 < p) (k : bi) :
    |(s.step.wbs (.inr k)).val + ∑ j, row (s.abi k) (fun j => D.B.Hbins k j) (fun q => D.B.Hbip k q) j * col s.step j + ∑ j, (C.Hss (.inl (.inr k)) (.inl (.inl j))).val * (s.step.xs (.inl (.inl j))).val| ≤
      roundings p (count np be bi ne ni) * (∑ j, |row (s.abi k) (fun j => D.B.Hbins k j) (fun q => D.B.Hbip k q) j| * |col s.step j| + ∑ j, |(C.Hss (.inl (.inr k)) (.inl (.inl j))).val| * |(s.step.xs (.inl (.inl j))).val|) := by
  have h := isSub_error hp (s.dwbi_sub k) (m := count np be bi ne ni) (by unfold count; rw [Fintype.card_sum, Fintype.card_sum, Fintype.card_sum, Fintype.card_fin]; omega)
  rw [sum_row, sum_abs_row]
  simp only [Fintype.sum_sum_type (α₁ := be) (α₂ := (ne ⊕ ni) ⊕ Fin np), Fintype.sum_sum_type (α₁ := ne ⊕ ni) (α₂ := Fin np), Sum.elim_inl, Sum.elim_inr, abs_mul, D.Hbibe] at h
  change |(s.dwbi k).val - ((s.abi k).val - (∑ j, (C.Hss (.inl (.inr k)) (.inl (.inl j))).val * (s.step.xs (.inl (.inl j))).val + (∑ j, (D.B.Hbins k j).val * (s.step.xs (.inr j)).val + ∑ q, (D.B.Hbip k q).val * (s.step.p q).val)))| ≤
    _ * (|(s.abi k).val| + (∑ j, |(C.Hss (.inl (.inr k)) (.inl (.inl j))).val| * |(s.step.xs (.inl (.inl j))).val| + (∑ j, |(D.B.Hbins k j).val| * |(s.step.xs (.inr j)).val| + ∑ q, |(D.B.Hbip k q).val| * |(s.step.p q).val|))) at h
  change |(s.dwbi k).val + _ + _| ≤ _
  refine le_trans (le_of_eq ?_) (h.trans (le_of_eq ?_))
  · congr 1; ring
  · congr 1; ring

theorem row_bi (hp : 0 < p) (hγ : roundings p (count np be bi ne ni) ≤ 1) (i : bi) :
    |(a.xs (.inl (.inr i))).val - (∑ j, (C.Hss (.inl (.inr i)) j).val * (s.step.xs j).val + ∑ q, (C.Hsp (.inl (.inr i)) q).val * (s.step.p q).val + (s.step.wbs (.inr i)).val)| ≤
      4 * roundings p (count np be bi ne ni) * sizeX C a s.step (.inl (.inr i)) := by
  obtain ⟨h1, h2⟩ := row_eliminated s hp (s.abi_sub i) (D.Hbins i) (D.Hbip i)
  have hG : 0 ≤ ∑ j, |(C.Hss (.inl (.inr i)) (.inl (.inl j))).val| * |(s.step.xs (.inl (.inl j))).val| := Finset.sum_nonneg fun j _ => by positivity
  have := recover (roundings_nonneg p (count np be bi ne ni)) hγ h1 h2 hG (wbi_error s hp i) (terms_nonneg _ _ _ _ s.step)
  rw [sum_row] at this
  simp only [D.Hbibi] at this
  rw [sum_xs, sizeX_eq, ← abs_neg]
  refine le_trans (le_of_eq ?_) this
  congr 1
  ring

theorem row_ns (hp : 0 < p) (hk : s.S.Keeps N) (hN : 16 * (N + 1) ≤ 2 ^ p) (hγ : roundings p (count np be bi ne ni) ≤ 1) (i : ne ⊕ ni) :
    |(a.xs (.inr i)).val - (∑ j, (C.Hss (.inr i) j).val * (s.step.xs j).val + ∑ q, (C.Hsp (.inr i) q).val * (s.step.p q).val + ∑ k, (C.Sbsns k i).val * (s.step.wbs k).val)| ≤
      8 * (N + 1) / 2 ^ p * s.S.terms (e (.inr (.inl i))) + 4 * roundings p (count np be bi ne ni) * (sizeX C a s.step (.inr i) + ∑ k, |(C.Sbsns (.inr k) i).val| * sizeX C a s.step (.inl (.inr k))) := by
  have hkey := key s hp hk hN (.inr (.inl i))
  rw [sum_null] at hkey
  change |(s.ans i).val - (∑ j, (D.B.Hnsbe i j).val * (s.step.xs (.inl (.inl j))).val + (∑ j, (D.B.Hnsns i j).val * (s.step.xs (.inr j)).val + (∑ q, (D.B.Hnsp i q).val * (s.step.p q).val + ∑ k, (C.Sbsns (.inl k) i).val * (s.step.wbs (.inl k)).val)))| ≤ _ at hkey
  obtain ⟨h1, h2⟩ := row_eliminated s hp (s.ans_sub i) (D.Hnsns i) (D.Hnsp i)
  have hb := fun k => row_eliminated s hp (s.abi_sub k) (D.Hbins k) (D.Hbip k)
  have hm : 1 + Fintype.card bi ≤ count np be bi ne ni := by unfold count; omega
  have hg : ∀ j, |(D.B.Hnsbe i j).val - ((C.Hss (.inr i) (.inl (.inl j))).val - ∑ k, (C.Sbsns (.inr k) i).val * (C.Hss (.inl (.inr k)) (.inl (.inl j))).val)| ≤
      roundings p (count np be bi ne ni) * (|(C.Hss (.inr i) (.inl (.inl j))).val| + ∑ k, |(C.Sbsns (.inr k) i).val * (C.Hss (.inl (.inr k)) (.inl (.inl j))).val|) := by
    intro j
    have := isSub_error hp (D.Hnsbe i j) hm
    simp only [D.Hbibe] at this
    exact this
  have := eliminate₂ (roundings_nonneg p (count np be bi ne ni)) hγ (col s.step) (fun j => (s.step.xs (.inl (.inl j))).val) (fun k => (s.step.wbs (.inr k)).val)
    (fun k => row (s.abi k) (fun j => D.B.Hbins k j) (fun q => D.B.Hbip k q)) (fun k j => (C.Hss (.inl (.inr k)) (.inl (.inl j))).val)
    (row (s.ans₁ i) (D.Hnsns₁ i) (D.Hnsp₁ i)) (row (s.ans i) (fun j => D.B.Hnsns i j) (fun q => D.B.Hnsp i q)) (fun j => (C.Hss (.inr i) (.inl (.inl j))).val) (fun j => (D.B.Hnsbe i j).val) (fun k => (C.Sbsns (.inr k) i).val)
    (wbi_error s hp) (row_sub hp (s.ans_sub₂ i) (D.Hnsns₂ i) (D.Hnsp₂ i)) hg _ h1 h2 (terms_nonneg _ _ _ _ s.step) (fun k => (hb k).2) (fun k => terms_nonneg _ _ _ _ s.step)
  rw [sum_row, sum_row] at this
  simp only [D.Hbibi, D.Hnsbi] at this
  simp only [← sizeX_eq] at this
  rw [sum_xs, Fintype.sum_sum_type (α₁ := be) (α₂ := bi)]
  have e : ∀ A B : ℚ, |A| ≤ 8 * (N + 1) / 2 ^ p * s.S.terms (e (.inr (.inl i))) → |B| ≤ 4 * roundings p (count np be bi ne ni) * (sizeX C a s.step (.inr i) + ∑ k, |(C.Sbsns (.inr k) i).val| * sizeX C a s.step (.inl (.inr k))) → |A + B| ≤ _ := fun A B h h' => (abs_add_le A B).trans (add_le_add h h')
  refine le_trans (le_of_eq ?_) (e _ _ hkey this)
  congr 1
  ring

/-- **C82** The equations of the eliminated variables `xbi` and `wbi` are satisfied up to the rounding errors whatever `LU` does. -/
theorem eliminated_double (hp : 0 < p) (hm : 16 * count np be bi ne ni ≤ 2 ^ p) :
    let d := s.step
    let ε : ℚ := 5 * count np be bi ne ni / 2 ^ p
    (∀ i, |(a.xs (.inl (.inr i))).val - (∑ j, (C.Hss (.inl (.inr i)) j).val * (d.xs j).val + ∑ q, (C.Hsp (.inl (.inr i)) q).val * (d.p q).val + (d.wbs (.inr i)).val)| ≤ ε * sizeX C a d (.inl (.inr i))) ∧
    (∀ k, |(a.wbs (.inr k)).val - ((d.xs (.inl (.inr k))).val + ∑ j, (C.Sbsns (.inr k) j).val * (d.xs (.inr j)).val + ∑ q, (C.Sbsp (.inr k) q).val * (d.p q).val)| ≤ ε * sizeE C a d k) := by
  intro d ε
  obtain ⟨g1, g2⟩ := FLU.roundings_small p _ hm
  have hγ1 : roundings p (count np be bi ne ni) ≤ 1 := by linarith
  have hε : 4 * roundings p (count np be bi ne ni) ≤ ε := by
    have h5 : (0 : ℚ) ≤ (count np be bi ne ni : ℚ) / 2 ^ p := by positivity
    have : ε = 5 * ((count np be bi ne ni : ℚ) / 2 ^ p) := by change 5 * (count np be bi ne ni : ℚ) / 2 ^ p = _; ring
    rw [this]
    linarith
  have hX : ∀ r, 0 ≤ sizeX C a d r := fun r => by
    rw [sizeX_eq]
    exact add_nonneg (terms_nonneg (fun k => C.Hss r (.inl (.inr k))) _ _ _ d) (Finset.sum_nonneg fun j _ => by positivity)
  refine ⟨fun i => (row_bi s hp hγ1 i).trans (mul_le_mul_of_nonneg_right hε (hX _)), fun k => ?_⟩
  have h := xbi_error s hp k
  rw [sizeE_eq, sum_row] at h
  rw [← abs_neg]
  have hγ := roundings_nonneg p (count np be bi ne ni)
  refine le_trans (le_of_eq ?_) (h.trans (mul_le_mul_of_nonneg_right (by linarith) (sizeE_nonneg _ _)))
  congr 1
  ring

/-- **C82** The null-space method in double arithmetic: if `LU` discards no equation of the reduced system, the step computed from any canonical matrix and right-hand side satisfies the equations of the saddle point problem up to the rounding errors of `LU` (first terms) and of the elimination of the
    basic variables `xbi` and multipliers `wbi` (second terms). -/
theorem nullspace_double (hp : 0 < p) (hk : s.S.Keeps N) (hN : 16 * (N + 1) ≤ 2 ^ p) (hm : 16 * count np be bi ne ni ≤ 2 ^ p) :
    let d := s.step
    let lu : NullT np be ne ni → ℚ := fun t => 8 * (N + 1) / 2 ^ p * s.S.terms (e t)
    let ε : ℚ := 5 * count np be bi ne ni / 2 ^ p
    (∀ i, |(a.xs (.inl (.inl i))).val - (∑ j, (C.Hss (.inl (.inl i)) j).val * (d.xs j).val + ∑ q, (C.Hsp (.inl (.inl i)) q).val * (d.p q).val + (d.wbs (.inl i)).val)| ≤ lu (.inl i) + ε * sizeX C a d (.inl (.inl i))) ∧
    (∀ i, |(a.xs (.inl (.inr i))).val - (∑ j, (C.Hss (.inl (.inr i)) j).val * (d.xs j).val + ∑ q, (C.Hsp (.inl (.inr i)) q).val * (d.p q).val + (d.wbs (.inr i)).val)| ≤ ε * sizeX C a d (.inl (.inr i))) ∧
    (∀ i, |(a.xs (.inr i)).val - (∑ j, (C.Hss (.inr i) j).val * (d.xs j).val + ∑ q, (C.Hsp (.inr i) q).val * (d.p q).val + ∑ k, (C.Sbsns k i).val * (d.wbs k).val)| ≤
      lu (.inr (.inl i)) + ε * (sizeX C a d (.inr i) + ∑ k, |(C.Sbsns (.inr k) i).val| * sizeX C a d (.inl (.inr k)))) ∧
    (∀ q, |(a.p q).val - (∑ j, (C.Vps q j).val * (d.xs j).val + ∑ q', (C.Vpp q q').val * (d.p q').val)| ≤ lu (.inr (.inr (.inl q))) + ε * sizeP C a d q) ∧
    (∀ k, |(a.wbs (.inl k)).val - ((d.xs (.inl (.inl k))).val + ∑ j, (C.Sbsns (.inl k) j).val * (d.xs (.inr j)).val + ∑ q, (C.Sbsp (.inl k) q).val * (d.p q).val)| ≤ lu (.inr (.inr (.inr k)))) ∧
    (∀ k, |(a.wbs (.inr k)).val - ((d.xs (.inl (.inr k))).val + ∑ j, (C.Sbsns (.inr k) j).val * (d.xs (.inr j)).val + ∑ q, (C.Sbsp (.inr k) q).val * (d.p q).val)| ≤ ε * sizeE C a d k) := by
  intro d lu ε
  obtain ⟨g1, g2⟩ := FLU.roundings_small p _ hm
  have hγ1 : roundings p (count np be bi ne ni) ≤ 1 := by linarith
  have hε : 4 * roundings p (count np be bi ne ni) ≤ ε := by
    have h5 : (0 : ℚ) ≤ (count np be bi ne ni : ℚ) / 2 ^ p := by positivity
    have : ε = 5 * ((count np be bi ne ni : ℚ) / 2 ^ p) := by change 5 * (count np be bi ne ni : ℚ) / 2 ^ p = _; ring
    rw [this]
    linarith
  have hX : ∀ r, 0 ≤ sizeX C a d r := fun r => by
    rw [sizeX_eq]
    exact add_nonneg (terms_nonneg (fun k => C.Hss r (.inl (.inr k))) _ _ _ d) (Finset.sum_nonneg fun j _ => by positivity)
  have hP : ∀ r, 0 ≤ sizeP C a d r := fun r => by
    rw [sizeP_eq]
    exact add_nonneg (terms_nonneg (fun k => C.Vps r (.inl (.inr k))) _ _ _ d) (Finset.sum_nonneg fun j _ => by positivity)
  refine ⟨fun i => (row_be s hp hk hN i).trans (add_le_add le_rfl (mul_le_mul_of_nonneg_right hε (hX _))), (eliminated_double s hp hm).1,
    fun i => (row_ns s hp hk hN hγ1 i).trans (add_le_add le_rfl (mul_le_mul_of_nonneg_right hε (add_nonneg (hX _) (Finset.sum_nonneg fun k _ => mul_nonneg (abs_nonneg _) (hX _))))),
    fun q => (row_p s hp hk hN q).trans (add_le_add le_rfl (mul_le_mul_of_nonneg_right hε (hP _))), fun k => ?_, (eliminated_double s hp hm).2⟩
  have hkey := key s hp hk hN (.inr (.inr (.inr k)))
  rw [sum_null] at hkey
  change |(a.wbs (.inl k)).val - (∑ c, ((1 : Matrix be be (FNum p)) k c).val * (d.xs (.inl (.inl c))).val + (∑ j, (C.Sbsns (.inl k) j).val * (d.xs (.inr j)).val + (∑ q, (C.Sbsp (.inl k) q).val * (d.p q).val + ∑ c, (0 : FNum p).val * (d.wbs (.inl c)).val)))| ≤ _ at hkey
  rw [sum_one hp k fun c => (d.xs (.inl (.inl c))).val] at hkey
  simp only [FNum.val_zero, zero_mul, Finset.sum_const_zero, add_zero, ← add_assoc] at hkey
  exact hkey

/-! ## The computation exists -/

theorem sums_value (l : Terms p) : Sums l (value l) := by
  induction l with
  | nil => exact Sums.nil
  | cons t l ih => exact Sums.add (Sums.mul t.1 t.2) ih

theorem isSub_sub {ι : Type} {l : List ι} (h1 : l.Nodup) (h2 : ∀ k, k ∈ l) (a : FNum p) (f g : ι → FNum p) : IsSub a f g (sub l a f g) := ⟨l, h1, h2, sums_value _⟩

/-- The blocks computed in one order. -/
def Decomposed.compute {lb : List bi} (h1 : lb.Nodup) (h2 : ∀ k, k ∈ lb) (C : Canon (FNum p) nx np nw be bi ne ni u) : Decomposed C where
  B := blocks lb C
  Hnsns₁ := fun i j => sub lb (C.Hss (.inr i) (.inr j)) (fun k => C.Hss (.inr i) (.inl (.inr k))) (fun k => C.Sbins k j)
  Hnsp₁ := fun i q => sub lb (C.Hsp (.inr i) q) (fun k => C.Hss (.inr i) (.inl (.inr k))) (fun k => C.Sbip k q)
  Hbebe := fun _ _ => rfl
  Hbebi := fun _ _ => rfl
  Hbibe := fun _ _ => rfl
  Hbibi := fun _ _ => rfl
  Hnsbi := fun _ _ => rfl
  Vpbe := fun _ _ => rfl
  Vpbi := fun _ _ => rfl
  Hbins := fun _ _ => isSub_sub h1 h2 _ _ _
  Hbens := fun _ _ => isSub_sub h1 h2 _ _ _
  Hnsns := fun _ _ => isSub_sub h1 h2 _ _ _
  Vpns := fun _ _ => isSub_sub h1 h2 _ _ _
  Hbip := fun _ _ => isSub_sub h1 h2 _ _ _
  Hbep := fun _ _ => isSub_sub h1 h2 _ _ _
  Hnsp := fun _ _ => isSub_sub h1 h2 _ _ _
  Vpp := fun _ _ => isSub_sub h1 h2 _ _ _
  Hnsbe := fun _ _ => isSub_sub h1 h2 _ _ _
  Hnsns₂ := fun _ _ => isSub_sub h1 h2 _ _ _
  Hnsp₂ := fun _ _ => isSub_sub h1 h2 _ _ _

/-- The vectors computed in one order. -/
def Solved.compute (hp : 0 < p) {lb : List bi} (h1 : lb.Nodup) (h2 : ∀ k, k ∈ lb) {lj : List ((ne ⊕ ni) ⊕ Fin np)} (h3 : lj.Nodup) (h4 : ∀ k, k ∈ lj) {lk : List (be ⊕ (ne ⊕ ni) ⊕ Fin np)} (h5 : lk.Nodup) (h6 : ∀ k, k ∈ lk)
    (D : Decomposed C) (a : CVec (FNum p) np be bi ne ni) (e : NullT np be ne ni ≃ Fin N) (rank0 : ℕ) : Solved D a e rank0 where
  abi := fun i => sub lb (a.xs (.inl (.inr i))) (fun k => D.B.Hbibi i k) (fun k => a.wbs (.inr k))
  abe := fun i => sub lb (a.xs (.inl (.inl i))) (fun k => D.B.Hbebi i k) (fun k => a.wbs (.inr k))
  ans₁ := fun i => sub lb (a.xs (.inr i)) (fun k => D.B.Hnsbi i k) (fun k => a.wbs (.inr k))
  ans := fun i => sub lb (sub lb (a.xs (.inr i)) (fun k => D.B.Hnsbi i k) (fun k => a.wbs (.inr k))) (fun k => C.Sbins k i) (fun i => sub lb (a.xs (.inl (.inr i))) (fun k => D.B.Hbibi i k) (fun k => a.wbs (.inr k)))
  ap := fun q => sub lb (a.p q) (fun k => D.B.Vpbi q k) (fun k => a.wbs (.inr k))
  abi_sub := fun _ => isSub_sub h1 h2 _ _ _
  abe_sub := fun _ => isSub_sub h1 h2 _ _ _
  ans_sub := fun _ => isSub_sub h1 h2 _ _ _
  ap_sub := fun _ => isSub_sub h1 h2 _ _ _
  ans_sub₂ := fun _ => isSub_sub h1 h2 _ _ _
  F := FLU.Factors.compute hp _
  S := FLU.solveInOrder _ _ _
  dxbi := _
  dwbi := _
  dxbi_sub := fun _ => isSub_sub h3 h4 _ _ _
  dwbi_sub := fun _ => isSub_sub h5 h6 _ _ _

/-- **C82** Such a computation exists for all canonical matrices and right-hand sides. -/
theorem null_total (hp : 0 < p) (C : Canon (FNum p) nx np nw be bi ne ni u) (a : CVec (FNum p) np be bi ne ni) (e : NullT np be ne ni ≃ Fin N) (rank0 : ℕ) : ∃ D : Decomposed C, Nonempty (Solved D a e rank0) :=
  ⟨Decomposed.compute (Finset.nodup_toList Finset.univ) (fun k => Finset.mem_toList.2 (Finset.mem_univ k)) C,
    ⟨Solved.compute hp (Finset.nodup_toList Finset.univ) (fun k => Finset.mem_toList.2 (Finset.mem_univ k)) (Finset.nodup_toList Finset.univ) (fun k => Finset.mem_toList.2 (Finset.mem_univ k))
      (Finset.nodup_toList Finset.univ) (fun k => Finset.mem_toList.2 (Finset.mem_univ k)) _ a e rank0⟩⟩

/-! ## A case -/

/-- An explicit and an implicit basic variable, one non-basic variable, a full Hessian matrix and two constraints. -/
def exC : Canon Double 3 0 2 (Fin 1) (Fin 1) (Fin 1) (Fin 0) (Fin 0) where
  Hss := fun i j => if i.isLeft ∧ j.isLeft then .fl (1 / 10) else if i.isLeft ∨ j.isLeft then .fl (1 / 3) else .fl 3
  Hsp := fun _ q => q.elim0
  Vps := fun q => q.elim0
  Vpp := fun q => q.elim0
  Sbsns := fun k _ => if k.isLeft then .fl (1 / 10) else .fl (7 / 10)
  Sbsp := fun _ q => q.elim0
  Rbs := fun _ _ => 1
  jb := fun k => if k.isLeft then 0 else 1
  jn := fun _ => 2
  js := fun i => match i with
    | .inl (.inl _) => 0
    | .inl (.inr _) => 1
    | .inr _ => 2
  ju := fun j => j.elim0

def exa : CVec Double 0 (Fin 1) (Fin 1) (Fin 1) (Fin 0) where
  xs := fun i => if i.isLeft then 1 else .fl (2 / 3)
  p := fun q => q.elim0
  wbs := fun k => if k.isLeft then .fl (1 / 7) else .fl (1 / 9)

/-- The unknowns of the reduced system in the order of the code. -/
def exe : NullT 0 (Fin 1) (Fin 1) (Fin 0) ≃ Fin 3 where
  toFun := Sum.elim (fun _ => 0) (Sum.elim (fun _ => 1) (Sum.elim (fun q => q.elim0) (fun _ => 2)))
  invFun := fun i => if i = 0 then .inl 0 else if i = 1 then .inr (.inl (.inl 0)) else .inr (.inr (.inr 0))
  left_inv := by
    rintro (i | (i | i) | i | i)
    all_goals first | exact i.elim0 | (fin_cases i; rfl)
  right_inv := by
    intro i
    fin_cases i <;> rfl

def exD : Decomposed exC := Decomposed.compute (lb := [0]) (by simp) (fun k => by fin_cases k; simp) exC
def exs : Solved exD exa exe 3 := Solved.compute (by norm_num) (lb := [0]) (by simp) (fun k => by fin_cases k; simp) (lj := [.inl (.inl 0)]) (by simp) (by rintro ((k | k) | k) <;> first | exact k.elim0 | (fin_cases k; simp))
  (lk := [.inl 0, .inr (.inl (.inl 0))]) (by simp) (by rintro (k | (k | k) | k) <;> first | exact k.elim0 | (fin_cases k; simp)) exD exa exe 3

theorem exs_keeps : exs.S.Keeps 3 := by
  intro j
  rw [if_pos j.isLt, if_neg (by norm_num)]
  fin_cases j <;> decide +kernel

example := eliminated_double exs (by norm_num) (by simp [count])
example := nullspace_double exs (by norm_num) exs_keeps (by norm_num) (by simp [count])

/-- The rounding errors are there: the equation of `wbi` is not satisfied exactly. -/
example : (exa.wbs (.inr 0)).val - ((exs.step.xs (.inl (.inr 0))).val + (exC.Sbsns (.inr 0) (.inl 0)).val * (exs.step.xs (.inr (.inl 0))).val) ≠ 0 := by decide +kernel

end Optima.FNull
