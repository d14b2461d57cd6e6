import Verif.Model.Triangular
import Verif.Lemmas.Tactics
import Mathlib.LinearAlgebra.Matrix.Block
import Mathlib.LinearAlgebra.Matrix.NonsingularInverse

/-! Correctness of the triangular solvers. -/

set_option linter.unusedSectionVars false

namespace Optima.Tri

open Matrix

variable {K : Type*} [Field K] {n : ℕ}

theorem lowerUpTo_spec (L : Matrix (Fin n) (Fin n) K) (b : Fin n → K) (k : ℕ) (hk : k ≤ n) :
    ∀ i : Fin n, i.val < k → (∑ j, if j.val < i.val then L i j * lowerUpTo L b k j else 0) + lowerUpTo L b k i = b i := by
  induction k with
  | zero => intro i hi; omega
  | succ k ih =>
    have hk' : k < n := by omega
    specialize ih (by omega)
    intro i hi
    have hx : lowerUpTo L b (k+1) = Function.update (lowerUpTo L b k) ⟨k, hk'⟩
        (b ⟨k, hk'⟩ - ∑ j, if j.val < k then L ⟨k, hk'⟩ j * lowerUpTo L b k j else 0) := by
      conv_lhs => unfold lowerUpTo
      rw [dif_pos hk']
    have hold : ∀ j : Fin n, j.val < k → lowerUpTo L b (k+1) j = lowerUpTo L b k j := by
      intro j hj
      rw [hx, Function.update_of_ne]
      intro h; rw [h] at hj; simp at hj
    have hsum : ∀ i' : Fin n, i'.val ≤ k → (∑ j, if j.val < i'.val then L i' j * lowerUpTo L b (k+1) j else 0) =
        ∑ j, if j.val < i'.val then L i' j * lowerUpTo L b k j else 0 := by
      intro i' hi'
      apply Finset.sum_congr rfl
      intro j _
      split_ifs with h
      · rw [hold j (by omega)]
      · rfl
    rw [hsum i (by omega)]
    rcases Nat.lt_or_ge i.val k with hlt | hge
    · rw [hold i hlt]; exact ih i hlt
    · have : i = ⟨k, hk'⟩ := Fin.ext (by simp; omega)
      subst this
      rw [hx, Function.update_self]; simp

theorem lowerSolve_spec {L : Matrix (Fin n) (Fin n) K} (h1 : ∀ i, L i i = 1) (h2 : ∀ i j, i < j → L i j = 0) (b : Fin n → K) :
    L *ᵥ lowerSolve L b = b := by
  ext i
  have h := lowerUpTo_spec L b n le_rfl i i.isLt
  rw [← h]
  simp only [mulVec, dotProduct, lowerSolve]
  rw [← Finset.add_sum_erase _ _ (Finset.mem_univ i), h1, one_mul, add_comm]
  congr 1
  rw [← Finset.add_sum_erase Finset.univ (fun j : Fin n => if j.val < i.val then L i j * lowerUpTo L b n j else 0) (Finset.mem_univ i)]
  simp only [lt_irrefl, if_false, zero_add]
  apply Finset.sum_congr rfl
  intro j hj
  have hj := Finset.ne_of_mem_erase hj
  split_ifs with hlt
  · rfl
  · have : i < j := lt_of_le_of_ne (Fin.le_def.2 (not_lt.1 hlt)) (fun h => hj h.symm)
    rw [h2 i j this, zero_mul]

theorem upperUpTo_spec (U : Matrix (Fin n) (Fin n) K) (h0 : ∀ i, U i i ≠ 0) (b : Fin n → K) (k : ℕ) (hk : k ≤ n) :
    ∀ i : Fin n, n - k ≤ i.val → (∑ j, if i < j then U i j * upperUpTo U b k j else 0) + U i i * upperUpTo U b k i = b i := by
  induction k with
  | zero => intro i hi; omega
  | succ k ih =>
    have hk' : k < n := by omega
    specialize ih (by omega)
    intro i hi
    set i0 : Fin n := ⟨n - 1 - k, by omega⟩ with hi0
    have hx : upperUpTo U b (k+1) = Function.update (upperUpTo U b k) i0
        ((b i0 - ∑ j, if i0 < j then U i0 j * upperUpTo U b k j else 0) / U i0 i0) := by
      conv_lhs => unfold upperUpTo
      rw [dif_pos hk']
    have hold : ∀ j : Fin n, i0 < j → upperUpTo U b (k+1) j = upperUpTo U b k j := by
      intro j hj
      rw [hx, Function.update_of_ne]
      exact (ne_of_lt hj).symm
    have hsum : ∀ i' : Fin n, i0 ≤ i' → (∑ j, if i' < j then U i' j * upperUpTo U b (k+1) j else 0) =
        ∑ j, if i' < j then U i' j * upperUpTo U b k j else 0 := by
      intro i' hi'
      apply Finset.sum_congr rfl
      intro j _
      split_ifs with h
      · rw [hold j (lt_of_le_of_lt hi' h)]
      · rfl
    have hle : i0 ≤ i := by rw [Fin.le_def]; simp [hi0]; omega
    rw [hsum i hle]
    rcases lt_or_eq_of_le hle with hlt | heq
    · rw [hold i hlt]
      apply ih i
      rw [Fin.lt_def] at hlt; simp [hi0] at hlt; omega
    · rw [← heq, hx, Function.update_self, mul_div_cancel₀ _ (h0 i0)]; ring

theorem upperSolve_spec {U : Matrix (Fin n) (Fin n) K} (h1 : ∀ i, U i i ≠ 0) (h2 : ∀ i j, j < i → U i j = 0) (b : Fin n → K) :
    U *ᵥ upperSolve U b = b := by
  ext i
  have h := upperUpTo_spec U h1 b n le_rfl i (by omega)
  rw [← h]
  simp only [mulVec, dotProduct, upperSolve]
  rw [← Finset.add_sum_erase _ _ (Finset.mem_univ i), add_comm]
  congr 1
  rw [← Finset.add_sum_erase Finset.univ (fun j : Fin n => if i < j then U i j * upperUpTo U b n j else 0) (Finset.mem_univ i)]
  simp only [lt_irrefl, if_false, zero_add]
  apply Finset.sum_congr rfl
  intro j hj
  have hj := Finset.ne_of_mem_erase hj
  split_ifs with hlt
  · rfl
  · have : j < i := lt_of_le_of_ne (not_lt.1 hlt) hj
    rw [h2 i j this, zero_mul]

theorem det_lower {L : Matrix (Fin n) (Fin n) K} (h1 : ∀ i, L i i = 1) (h2 : ∀ i j, i < j → L i j = 0) : L.det = 1 := by
  rw [det_of_lowerTriangular L (fun i j h => h2 i j h)]
  simp [h1]

theorem det_upper {U : Matrix (Fin n) (Fin n) K} (h1 : ∀ i, U i i ≠ 0) (h2 : ∀ i j, j < i → U i j = 0) : IsUnit U.det := by
  rw [det_of_upperTriangular (fun i j h => h2 i j h)]
  exact IsUnit.mk0 _ (Finset.prod_ne_zero_iff.2 fun i _ => h1 i)

theorem lowerSolve_eq {L : Matrix (Fin n) (Fin n) K} (h1 : ∀ i, L i i = 1) (h2 : ∀ i j, i < j → L i j = 0) (b : Fin n → K) :
    lowerSolve L b = L⁻¹ *ᵥ b := by
  have hd : IsUnit L.det := by rw [det_lower h1 h2]; exact isUnit_one
  have h := lowerSolve_spec h1 h2 b
  conv_rhs => rw [← h, mulVec_mulVec, nonsing_inv_mul _ hd, one_mulVec]

theorem upperSolve_eq {U : Matrix (Fin n) (Fin n) K} (h1 : ∀ i, U i i ≠ 0) (h2 : ∀ i j, j < i → U i j = 0) (b : Fin n → K) :
    upperSolve U b = U⁻¹ *ᵥ b := by
  have hd := det_upper h1 h2
  have h := upperSolve_spec h1 h2 b
  conv_rhs => rw [← h, mulVec_mulVec, nonsing_inv_mul _ hd, one_mulVec]

theorem solveCols_lower {ι : Type*} {L : Matrix (Fin n) (Fin n) K} (h1 : ∀ i, L i i = 1) (h2 : ∀ i j, i < j → L i j = 0) (X : Matrix (Fin n) ι K) :
    solveCols (lowerSolve L) X = L⁻¹ * X := by
  ext i c
  simp only [solveCols, lowerSolve_eq h1 h2]
  rfl

theorem solveCols_upper {ι : Type*} {U : Matrix (Fin n) (Fin n) K} (h1 : ∀ i, U i i ≠ 0) (h2 : ∀ i j, j < i → U i j = 0) (X : Matrix (Fin n) ι K) :
    solveCols (upperSolve U) X = U⁻¹ * X := by
  ext i c
  simp only [solveCols, upperSolve_eq h1 h2]
  rfl

end Optima.Tri
