import Verif.Model.EchelonExt
import Verif.Lemmas.EchelonPriority

/-! Helper lemmas for the extended echelonizer. -/

set_option linter.unusedSectionVars false

namespace Optima.Ech

open Matrix

variable {K : Type*} [Field K] {n mA nbA nnA nlA mJ nbJ nnJ nlJ : ℕ}

/-- The canonical form in matrix notation over arbitrary index types. -/
structure CoreG {ρ γ β ν l : Type*} [Fintype ρ] [DecidableEq β] (A : Matrix ρ γ K) (Rt : Matrix β ρ K) (Rb : Matrix l ρ K) (S : Matrix β ν K)
    (qb : β → γ) (qn : ν → γ) : Prop where
  qbij : Function.Bijective (Sum.elim qb qn)
  topB : Rt * A.submatrix id qb = 1
  topN : Rt * A.submatrix id qn = S
  inj : ∀ y : ρ → K, Rt *ᵥ y = 0 → Rb *ᵥ y = 0 → y = 0

theorem Core.toG {m nb nn nl : ℕ} {A : Matrix (Fin m) (Fin n) K} {R : Matrix (Fin nb ⊕ Fin nl) (Fin m) K} {S : Matrix (Fin nb) (Fin nn) K}
    {Q : Fin nb ⊕ Fin nn → Fin n} (h : Core A R S Q) :
    CoreG A (R.submatrix Sum.inl id) (R.submatrix Sum.inr id) S (Q ∘ Sum.inl) (Q ∘ Sum.inr) := by
  refine ⟨?_, ?_, ?_, ?_⟩
  · rw [Sum.elim_comp_inl_inr]; exact h.qbij
  · ext i j; simpa [mul_apply, one_apply] using h.topB i j
  · ext i k; simpa [mul_apply] using h.topN i k
  · intro y h1 h2
    refine h.inj y ?_
    funext r
    rcases r with i | l
    · exact congrFun h1 i
    · exact congrFun h2 l

theorem CoreG.toCore {m nb nn nl : ℕ} {A : Matrix (Fin m) (Fin n) K} {R : Matrix (Fin nb ⊕ Fin nl) (Fin m) K} {S : Matrix (Fin nb) (Fin nn) K}
    {Q : Fin nb ⊕ Fin nn → Fin n}
    (h : CoreG A (R.submatrix Sum.inl id) (R.submatrix Sum.inr id) S (Q ∘ Sum.inl) (Q ∘ Sum.inr)) (hc : nb + nl = m) : Core A R S Q := by
  refine ⟨?_, ?_, ?_, ?_, hc⟩
  · have := h.qbij; rwa [Sum.elim_comp_inl_inr] at this
  · intro i j
    have := congrFun (congrFun h.topB i) j
    simpa [mul_apply, one_apply] using this
  · intro i k
    have := congrFun (congrFun h.topN i) k
    simpa [mul_apply] using this
  · intro y hy
    exact h.inj y (funext fun i => congrFun hy (Sum.inl i)) (funext fun l => congrFun hy (Sum.inr l))

theorem submatrix_cols_mul {α β γ δ : Type*} [Fintype β] (M : Matrix α β K) (N : Matrix β γ K) (f : δ → γ) :
    (M * N).submatrix id f = M * N.submatrix id f := by
  ext i j; simp [mul_apply]

/-- The blocks of the extended echelonizer are a canonical form of `[A; J]`. -/
theorem extend_core {A : Matrix (Fin mA) (Fin n) K} (J : Matrix (Fin mJ) (Fin n) K) {eA : State K mA n nbA nnA nlA}
    (hA : Core A eA.R eA.S eA.Q) {eJ : State K mJ nnA nbJ nnJ nlJ} (hJ : Core (reducedJ eA J) eJ.R eJ.S eJ.Q) :
    CoreG (fromRows A J) (extend eA J eJ).Rt (extend eA J eJ).Rb (extend eA J eJ).S (extend eA J eJ).qb (extend eA J eJ).qn := by
  have gA := hA.toG
  have gJ := hJ.toG
  -- names for the blocks
  set RAt := eA.R.submatrix Sum.inl id with hRAt
  set RAb := eA.R.submatrix Sum.inr id with hRAb
  set RJt := eJ.R.submatrix Sum.inl id with hRJt
  set RJb := eJ.R.submatrix Sum.inr id with hRJb
  set J1 := J.submatrix id (eA.Q ∘ Sum.inl) with hJ1
  set SA1 := eA.S.submatrix id (eJ.Q ∘ Sum.inl) with hSA1
  have eRt : (extend eA J eJ).Rt = fromBlocks (RAt + SA1 * RJt * J1 * RAt) (-SA1 * RJt) (-RJt * J1 * RAt) RJt := rfl
  have eRb : (extend eA J eJ).Rb = fromBlocks RAb 0 (-RJb * J1 * RAt) RJb := rfl
  have eS : (extend eA J eJ).S = fromRows (eA.S.submatrix id (eJ.Q ∘ Sum.inr) - SA1 * eJ.S) eJ.S := rfl
  have eJ2 : ∀ {δ : Type} (f : δ → Fin nnA), J.submatrix id (eA.Q ∘ Sum.inr ∘ f) = (reducedJ eA J).submatrix id f + J1 * eA.S.submatrix id f := by
    intro δ f
    ext i j
    simp [reducedJ, mul_apply, hJ1]
  have eA2 : ∀ {δ : Type} (f : δ → Fin nnA), RAt * A.submatrix id (eA.Q ∘ Sum.inr ∘ f) = eA.S.submatrix id f := by
    intro δ f
    have : A.submatrix id (eA.Q ∘ Sum.inr ∘ f) = (A.submatrix id (eA.Q ∘ Sum.inr)).submatrix id f := rfl
    rw [this, ← submatrix_cols_mul, gA.topN]
  -- columns of [A; J]
  have eqb : (fromRows A J).submatrix id (extend eA J eJ).qb =
      fromBlocks (A.submatrix id (eA.Q ∘ Sum.inl)) (A.submatrix id (eA.Q ∘ Sum.inr ∘ eJ.Q ∘ Sum.inl)) J1 (J.submatrix id (eA.Q ∘ Sum.inr ∘ eJ.Q ∘ Sum.inl)) := by
    ext r c
    rcases r with r | r <;> rcases c with c | c <;> rfl
  have eqn : (fromRows A J).submatrix id (extend eA J eJ).qn =
      fromRows (A.submatrix id (eA.Q ∘ Sum.inr ∘ eJ.Q ∘ Sum.inr)) (J.submatrix id (eA.Q ∘ Sum.inr ∘ eJ.Q ∘ Sum.inr)) := by
    ext r c
    rcases r with r | r <;> rfl
  have hb := gJ.topB
  have hn := gJ.topN
  refine ⟨?_, ?_, ?_, ?_⟩
  · -- permutation
    have : Sum.elim (extend eA J eJ).qb (extend eA J eJ).qn =
        eA.Q ∘ (Sum.map id eJ.Q) ∘ (Equiv.sumAssoc (Fin nbA) (Fin nbJ) (Fin nnJ)) := by
      funext v
      rcases v with (v | v) | v <;> rfl
    rw [this]
    exact hA.qbij.comp ((Sum.map_bijective.2 ⟨Function.bijective_id, hJ.qbij⟩).comp (Equiv.bijective _))
  · rw [eqb, eRt, fromBlocks_multiply, ← fromBlocks_one, eJ2]
    congr 1
    · rw [Matrix.add_mul, Matrix.mul_assoc _ RAt, gA.topB, Matrix.mul_one, Matrix.neg_mul, Matrix.neg_mul]; abel
    · rw [Matrix.add_mul, Matrix.mul_assoc _ RAt, eA2, Matrix.mul_add, Matrix.neg_mul, Matrix.neg_mul, Matrix.neg_mul, Matrix.mul_assoc SA1 RJt ((reducedJ eA J).submatrix id _), hb,
        Matrix.mul_one, ← Matrix.mul_assoc _ J1, ← hSA1]
      abel
    · rw [Matrix.mul_assoc _ RAt, gA.topB, Matrix.mul_one, Matrix.neg_mul]; abel
    · rw [Matrix.mul_assoc _ RAt, eA2, Matrix.mul_add, hb, Matrix.neg_mul, Matrix.neg_mul, ← Matrix.mul_assoc RJt J1]; abel
  · rw [eqn, eRt, fromBlocks_mul_fromRows, eS, eJ2]
    congr 1
    · rw [Matrix.add_mul, Matrix.mul_assoc _ RAt, eA2, Matrix.mul_add, Matrix.neg_mul, Matrix.neg_mul, Matrix.neg_mul, Matrix.mul_assoc SA1 RJt ((reducedJ eA J).submatrix id _), hn,
        ← Matrix.mul_assoc _ J1]
      abel
    · rw [Matrix.mul_assoc _ RAt, eA2, Matrix.mul_add, hn, Matrix.neg_mul, Matrix.neg_mul, ← Matrix.mul_assoc RJt J1]; abel
  · intro y ht hb'
    rw [eRt] at ht
    rw [eRb] at hb'
    obtain ⟨y1, y2, rfl⟩ : ∃ y1 y2, y = Sum.elim y1 y2 := ⟨y ∘ Sum.inl, y ∘ Sum.inr, (Sum.elim_comp_inl_inr y).symm⟩
    rw [fromBlocks_mulVec] at ht hb'
    have t1 : (RAt + SA1 * RJt * J1 * RAt) *ᵥ y1 + (-SA1 * RJt) *ᵥ y2 = 0 := funext fun i => congrFun ht (Sum.inl i)
    have t2 : (-RJt * J1 * RAt) *ᵥ y1 + RJt *ᵥ y2 = 0 := funext fun i => congrFun ht (Sum.inr i)
    have b1 : RAb *ᵥ y1 + (0 : Matrix (Fin nlA) (Fin mJ) K) *ᵥ y2 = 0 := funext fun i => congrFun hb' (Sum.inl i)
    have b2 : (-RJb * J1 * RAt) *ᵥ y1 + RJb *ᵥ y2 = 0 := funext fun i => congrFun hb' (Sum.inr i)
    have t1' : RAt *ᵥ y1 = 0 := by
      have e : (RAt + SA1 * RJt * J1 * RAt) *ᵥ y1 + (-SA1 * RJt) *ᵥ y2 = RAt *ᵥ y1 - SA1 *ᵥ ((-RJt * J1 * RAt) *ᵥ y1 + RJt *ᵥ y2) := by
        simp only [add_mulVec, mulVec_add, mulVec_mulVec, Matrix.neg_mul, neg_mulVec, Matrix.mul_neg, Matrix.mul_assoc, mulVec_neg]
        abel
      rw [e, t2, mulVec_zero, sub_zero] at t1
      exact t1
    have y1z : y1 = 0 := gA.inj y1 t1' (by simpa using b1)
    subst y1z
    have y2z : y2 = 0 := gJ.inj y2 (by simpa using t2) (by simpa using b2)
    subst y2z
    funext r
    rcases r with r | r <;> rfl

theorem extend_spans {A : Matrix (Fin mA) (Fin n) K} (J : Matrix (Fin mJ) (Fin n) K) {eA : State K mA n nbA nnA nlA}
    (hA : Spans A eA.S eA.Q) {eJ : State K mJ nnA nbJ nnJ nlJ} (hJ : Spans (reducedJ eA J) eJ.S eJ.Q) (r : Fin mA ⊕ Fin mJ) (k : Fin nnJ) :
    (fromRows A J) r ((extend eA J eJ).qn k) = ∑ v, (fromRows A J) r ((extend eA J eJ).qb v) * (extend eA J eJ).S v k := by
  rw [Fintype.sum_sum_type]
  have hS1 : ∀ i, (extend eA J eJ).S (Sum.inl i) k = eA.S i (eJ.Q (Sum.inr k)) - ∑ j, eA.S i (eJ.Q (Sum.inl j)) * eJ.S j k := fun i => rfl
  have hS2 : ∀ j, (extend eA J eJ).S (Sum.inr j) k = eJ.S j k := fun i => rfl
  have hq : (extend eA J eJ).qn k = eA.Q (Sum.inr (eJ.Q (Sum.inr k))) := rfl
  have hq1 : ∀ i, (extend eA J eJ).qb (Sum.inl i) = eA.Q (Sum.inl i) := fun i => rfl
  have hq2 : ∀ j, (extend eA J eJ).qb (Sum.inr j) = eA.Q (Sum.inr (eJ.Q (Sum.inl j))) := fun i => rfl
  simp only [hS1, hS2, hq, hq1, hq2]
  have swap : ∀ f : Fin nbA → K, ∑ i, f i * ∑ j, eA.S i (eJ.Q (Sum.inl j)) * eJ.S j k = ∑ j, (∑ i, f i * eA.S i (eJ.Q (Sum.inl j))) * eJ.S j k := by
    intro f
    simp_rw [Finset.mul_sum, Finset.sum_mul]
    rw [Finset.sum_comm]
    exact Finset.sum_congr rfl fun j _ => Finset.sum_congr rfl fun i _ => by ring
  simp_rw [mul_sub, Finset.sum_sub_distrib, swap]
  rcases r with r | r
  · simp only [fromRows_apply_inl]
    rw [hA r]
    simp_rw [hA r]
    ring
  · simp only [fromRows_apply_inr]
    have e : ∀ v, J r (eA.Q (Sum.inr v)) = reducedJ eA J r v + ∑ i, J r (eA.Q (Sum.inl i)) * eA.S i v := by
      intro v; simp [reducedJ, mul_apply]
    rw [e]
    simp_rw [e]
    rw [hJ r k]
    simp_rw [add_mul, Finset.sum_add_distrib]
    ring

end Optima.Ech
