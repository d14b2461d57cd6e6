import Verif.Model.Utils
import Verif.Lemmas.Fold
import Verif.Lemmas.Tactics
import Mathlib.LinearAlgebra.Matrix.ToLinearEquiv

/-! # Properties C08 - C11: Sherman-Morrison, BFGS, round-off removal, matrix structure -/

set_option linter.unusedSectionVars false

namespace Optima.Utils

open Matrix

/-! ## C08 -/
section Sherman
variable {K : Type*} [Field K] [DecidableEq K] {n : ℕ}

/-- The matrix `A + diag(D_0, ..., D_{k-1}, 0, ..., 0)`. -/
def partialSum (A : Matrix (Fin n) (Fin n) K) (D : Fin n → K) (k : ℕ) : Matrix (Fin n) (Fin n) K :=
  A + diagonal fun i => if i.val < k then D i else 0

theorem partialSum_zero (A : Matrix (Fin n) (Fin n) K) (D : Fin n → K) : partialSum A D 0 = A := by
  simp [partialSum]

theorem partialSum_full (A : Matrix (Fin n) (Fin n) K) (D : Fin n → K) : partialSum A D n = A + diagonal D := by
  simp [partialSum]

theorem partialSum_succ (A : Matrix (Fin n) (Fin n) K) (D : Fin n → K) (i : Fin n) :
    partialSum A D (i.val + 1) = partialSum A D i.val + D i • vecMulVec (Pi.single i 1) (Pi.single i 1) := by
  ext r c
  simp only [partialSum, Matrix.add_apply, diagonal_apply, Matrix.smul_apply, vecMulVec_apply, smul_eq_mul]
  by_cases hrc : r = c
  · subst hrc
    by_cases hr : r = i
    · subst hr; simp
    · have : r.val ≠ i.val := fun h => hr (Fin.ext h)
      have e : (r.val < i.val + 1) ↔ r.val < i.val := by omega
      simp [e, hr]
  · rw [if_neg hrc, if_neg hrc]
    by_cases hr : r = i
    · subst hr
      have : c ≠ r := fun h => hrc h.symm
      simp [this]
    · simp [hr]

/-- The rank-one update identity behind one pass of the loop. -/
theorem sherman_step {B X : Matrix (Fin n) (Fin n) K} (hBX : B * X = 1) (d : K) (i : Fin n) (hd : 1 + d * X i i ≠ 0) :
    (B + d • vecMulVec (Pi.single i 1) (Pi.single i 1)) *
      (X - (d / (1 + d * X i i)) • vecMulVec (fun r => X r i) (fun c => X i c)) = 1 := by
  have hcol : B *ᵥ (fun r => X r i) = Pi.single i 1 := by
    have : (fun r => X r i) = X *ᵥ Pi.single i 1 := by ext r; simp [mulVec_single]
    rw [this, mulVec_mulVec, hBX, one_mulVec]
  have hrow : (Pi.single i 1 : Fin n → K) ᵥ* X = fun c => X i c := by ext c; simp
  have hdot : (Pi.single i 1 : Fin n → K) ⬝ᵥ (fun r => X r i) = X i i := by simp
  rw [add_mul, mul_sub, hBX, Matrix.mul_smul, mul_vecMulVec, hcol, mul_sub, Matrix.smul_mul, vecMulVec_mul, hrow]
  rw [Matrix.mul_smul, Matrix.smul_mul, vecMulVec_mul_vecMulVec, hdot]
  ext r c
  simp only [Matrix.add_apply, Matrix.sub_apply, Matrix.smul_apply, vecMulVec_apply, smul_eq_mul, Pi.smul_apply]
  field_simp
  ring

/-- If the divisor of a pass is zero the next partial sum is singular. -/
theorem sherman_singular {B X : Matrix (Fin n) (Fin n) K} (hBX : B * X = 1) (d : K) (i : Fin n) (hd : 1 + d * X i i = 0) :
    (B + d • vecMulVec (Pi.single i 1) (Pi.single i 1)).det = 0 := by
  rw [← exists_mulVec_eq_zero_iff]
  have hcol : B *ᵥ (fun r => X r i) = Pi.single i 1 := by
    have : (fun r => X r i) = X *ᵥ Pi.single i 1 := by ext r; simp [mulVec_single]
    rw [this, mulVec_mulVec, hBX, one_mulVec]
  refine ⟨fun r => X r i, ?_, ?_⟩
  · intro h
    have := congrFun h i
    simp at this
    rw [this] at hd; simp at hd
  · rw [add_mulVec, hcol, smul_mulVec, vecMulVec_mulVec]
    have hdot : (Pi.single i 1 : Fin n → K) ⬝ᵥ (fun r => X r i) = X i i := by simp
    rw [hdot]
    ext r
    simp only [Pi.add_apply, Pi.smul_apply, smul_eq_mul, MulOpposite.smul_eq_mul_unop, MulOpposite.unop_op, Pi.zero_apply]
    linear_combination (Pi.single i (1:K) : Fin n → K) r * hd

theorem sherman_inv (A invA : Matrix (Fin n) (Fin n) K) (D : Fin n → K) (h : A * invA = 1) (k : ℕ) (hk : k ≤ n) :
    match ((List.finRange n).take k).foldl (shermanStep D) (some invA) with
    | some X => partialSum A D k * X = 1 ∧ ∀ j ≤ k, (partialSum A D j).det ≠ 0
    | none => ∃ j ≤ k, (partialSum A D j).det = 0 := by
  induction k with
  | zero =>
    simp only [List.take_zero, List.foldl_nil]
    refine ⟨by rw [partialSum_zero]; exact h, ?_⟩
    intro j hj
    obtain rfl : j = 0 := by omega
    rw [partialSum_zero]
    intro h0
    have := congrArg det h
    rw [det_mul, h0] at this; simp at this
  | succ k ih =>
    have hkn : k < n := by omega
    have htake : (List.finRange n).take (k+1) = (List.finRange n).take k ++ [⟨k, hkn⟩] := by
      rw [List.take_succ_eq_append_getElem (by simpa using hkn)]
      simp
    rw [htake, List.foldl_append, List.foldl_cons, List.foldl_nil]
    specialize ih (by omega)
    generalize ((List.finRange n).take k).foldl (shermanStep D) (some invA) = acc at *
    cases acc with
    | none =>
      obtain ⟨j, hj, h0⟩ := ih
      exact ⟨j, by omega, h0⟩
    | some X =>
      obtain ⟨hX, hdet⟩ := ih
      simp only [shermanStep, Option.bind_some]
      have hs := partialSum_succ A D ⟨k, hkn⟩
      dsimp only at hs
      split_ifs with hd
      · refine ⟨k+1, le_rfl, ?_⟩
        rw [hs]
        exact sherman_singular hX _ _ hd
      · have h1 := sherman_step hX (D ⟨k, hkn⟩) ⟨k, hkn⟩ hd
        rw [← hs] at h1
        refine ⟨h1, ?_⟩
        intro j hj
        rcases Nat.lt_or_ge j (k+1) with hlt | hge
        · exact hdet j (by omega)
        · obtain rfl : j = k+1 := by omega
          intro h0
          have := congrArg det h1
          rw [det_mul, h0] at this; simp at this

/-- **C08** For every `A` with inverse `invA` and every `D`: if all the partial sums `A + diag(D_0..D_{k-1},0..0)` are nonsingular the
    function returns the two-sided inverse of `A + diag(D)`; otherwise it divides by zero. -/
theorem inverseShermanMorrison_spec (A invA : Matrix (Fin n) (Fin n) K) (D : Fin n → K) (h : A * invA = 1) :
    ((∀ k ≤ n, (partialSum A D k).det ≠ 0) →
      ∃ X, inverseShermanMorrison invA D = some X ∧ (A + diagonal D) * X = 1 ∧ X * (A + diagonal D) = 1) ∧
    ((∃ k ≤ n, (partialSum A D k).det = 0) → inverseShermanMorrison invA D = none) := by
  have key := sherman_inv A invA D h n le_rfl
  rw [List.take_of_length_le (by simp)] at key
  unfold inverseShermanMorrison
  generalize (List.finRange n).foldl (shermanStep D) (some invA) = res at *
  cases res with
  | none =>
    obtain ⟨j, hj, h0⟩ := key
    exact ⟨fun hall => absurd h0 (hall j hj), fun _ => rfl⟩
  | some X =>
    obtain ⟨hX, hdet⟩ := key
    rw [partialSum_full] at hX
    refine ⟨fun _ => ⟨X, rfl, hX, mul_eq_one_comm.1 hX⟩, ?_⟩
    rintro ⟨k, hk, h0⟩
    exact absurd h0 (hdet k hk)

/-- Consequence for users: whenever a matrix is returned it is the inverse of `A + diag(D)`. -/
theorem inverseShermanMorrison_sound (A invA X : Matrix (Fin n) (Fin n) K) (D : Fin n → K) (h : A * invA = 1)
    (hX : inverseShermanMorrison invA D = some X) : X = (A + diagonal D)⁻¹ := by
  have key := sherman_inv A invA D h n le_rfl
  rw [List.take_of_length_le (by simp)] at key
  unfold inverseShermanMorrison at hX
  rw [hX] at key
  obtain ⟨hX, -⟩ := key
  rw [partialSum_full] at hX
  exact (Matrix.inv_eq_right_inv hX).symm

/-- A successful case. -/
example : inverseShermanMorrison (!![1, 0; 0, 1] : Matrix (Fin 2) (Fin 2) ℚ) ![1, 3] = some !![1/2, 0; 0, 1/4] := by
  decide +kernel

/-- **C08, limitation of the code**: `A + diag(D)` may be nonsingular while the function divides by zero. -/
theorem inverseShermanMorrison_breakdown : ∃ (A invA : Matrix (Fin 2) (Fin 2) ℚ) (D : Fin 2 → ℚ),
    A * invA = 1 ∧ (A + diagonal D).det ≠ 0 ∧ inverseShermanMorrison invA D = none := by
  refine ⟨!![1, 1; 1, 2], !![2, -1; -1, 1], ![-1/2, 1], ?_, ?_, ?_⟩ <;> decide +kernel

end Sherman

/-! ## C09 -/
section Bfgs
variable {K : Type*} [Field K] {n : ℕ}

theorem bfgsUpdate_secant (H : Matrix (Fin n) (Fin n) K) (dx dg : Fin n → K) (ha : dx ⬝ᵥ dg ≠ 0) :
    bfgsUpdate H dx dg *ᵥ dg = dx := by
  have ha' : dg ⬝ᵥ dx = dx ⬝ᵥ dg := dotProduct_comm _ _
  unfold bfgsUpdate
  dsimp only
  rw [add_mulVec, ← mulVec_mulVec, sub_mulVec, one_mulVec, smul_mulVec, vecMulVec_mulVec, smul_mulVec, vecMulVec_mulVec]
  have e : dg - (dx ⬝ᵥ dg)⁻¹ • MulOpposite.op (dx ⬝ᵥ dg) • dg = 0 := by
    ext i
    simp only [Pi.sub_apply, Pi.smul_apply, smul_eq_mul, MulOpposite.smul_eq_mul_unop, MulOpposite.unop_op, Pi.zero_apply]
    field_simp; ring
  rw [e, mulVec_zero, zero_add]
  ext i
  simp only [Pi.smul_apply, smul_eq_mul, MulOpposite.smul_eq_mul_unop, MulOpposite.unop_op]
  field_simp

theorem bfgsUpdate_symm {H : Matrix (Fin n) (Fin n) K} (hH : Hᵀ = H) (dx dg : Fin n → K) :
    (bfgsUpdate H dx dg)ᵀ = bfgsUpdate H dx dg := by
  unfold bfgsUpdate
  dsimp only
  simp only [transpose_add, transpose_mul, transpose_sub, transpose_smul, transpose_vecMulVec, transpose_one, hH, Matrix.mul_assoc]

/-- The quadratic form of the updated matrix. -/
theorem bfgsUpdate_quad (H : Matrix (Fin n) (Fin n) K) (dx dg v : Fin n → K) :
    v ⬝ᵥ bfgsUpdate H dx dg *ᵥ v =
      (v - ((dx ⬝ᵥ dg)⁻¹ * (dx ⬝ᵥ v)) • dg) ⬝ᵥ H *ᵥ (v - ((dx ⬝ᵥ dg)⁻¹ * (dx ⬝ᵥ v)) • dg)
        + (dx ⬝ᵥ dg)⁻¹ * (dx ⬝ᵥ v) ^ 2 := by
  unfold bfgsUpdate
  dsimp only
  have e1 : (1 - (dx ⬝ᵥ dg)⁻¹ • vecMulVec dg dx) *ᵥ v = v - ((dx ⬝ᵥ dg)⁻¹ * (dx ⬝ᵥ v)) • dg := by
    rw [sub_mulVec, one_mulVec, smul_mulVec, vecMulVec_mulVec]
    ext i
    simp only [Pi.sub_apply, Pi.smul_apply, smul_eq_mul, MulOpposite.smul_eq_mul_unop, MulOpposite.unop_op]
    ring
  have e2 : v ᵥ* (1 - (dx ⬝ᵥ dg)⁻¹ • vecMulVec dx dg) = v - ((dx ⬝ᵥ dg)⁻¹ * (dx ⬝ᵥ v)) • dg := by
    rw [← mulVec_transpose, transpose_sub, transpose_smul, transpose_vecMulVec, transpose_one, e1]
  rw [add_mulVec, dotProduct_add, Matrix.mul_assoc, ← mulVec_mulVec, ← mulVec_mulVec, dotProduct_mulVec, e2, e1]
  congr 1
  rw [smul_mulVec, vecMulVec_mulVec, dotProduct_smul]
  have : v ⬝ᵥ MulOpposite.op (dx ⬝ᵥ v) • dx = (dx ⬝ᵥ v) * (dx ⬝ᵥ v) := by
    rw [dotProduct_smul, dotProduct_comm v dx]; simp
  rw [this, smul_eq_mul]; ring

variable [LinearOrder K] [IsStrictOrderedRing K]

/-- Positive definiteness stated by the quadratic form. -/
def PosDefQ (H : Matrix (Fin n) (Fin n) K) : Prop := ∀ v : Fin n → K, v ≠ 0 → 0 < v ⬝ᵥ H *ᵥ v

theorem bfgsUpdate_posdef {H : Matrix (Fin n) (Fin n) K} (hH : PosDefQ H) (dx dg : Fin n → K) (ha : 0 < dx ⬝ᵥ dg) :
    PosDefQ (bfgsUpdate H dx dg) := by
  intro v hv
  rw [bfgsUpdate_quad]
  by_cases h0 : dx ⬝ᵥ v = 0
  · rw [h0]; simpa using hH v hv
  · have h2 : 0 < (dx ⬝ᵥ dg)⁻¹ * (dx ⬝ᵥ v) ^ 2 := by positivity
    generalize v - ((dx ⬝ᵥ dg)⁻¹ * (dx ⬝ᵥ v)) • dg = w at *
    by_cases hw : w = 0
    · rw [hw]; simpa using h2
    · linarith [hH w hw]

/-- The pairs (step, gradient change) between consecutive calls. -/
def increments (calls : List ((Fin n → K) × (Fin n → K))) : List ((Fin n → K) × (Fin n → K)) :=
  List.zipWith (fun c c' => (c'.1 - c.1, c'.2 - c.2)) calls calls.tail

theorem bfgsRun_append (l : List ((Fin n → K) × (Fin n → K))) (c : (Fin n → K) × (Fin n → K)) :
    bfgsRun (l ++ [c]) = some (bfgsCall (bfgsRun l) c.1 c.2) := by
  simp [bfgsRun, List.foldl_append]

theorem bfgsRun_last (l : List ((Fin n → K) × (Fin n → K))) (c : (Fin n → K) × (Fin n → K)) :
    ∃ s, bfgsRun (l ++ [c]) = some s ∧ s.x0 = c.1 ∧ s.g0 = c.2 := by
  rw [bfgsRun_append]
  refine ⟨_, rfl, ?_⟩
  cases bfgsRun l <;> exact ⟨rfl, rfl⟩

/-- **C09 (symmetry)** after any history of calls. -/
theorem bfgs_symmetric (calls : List ((Fin n → K) × (Fin n → K))) (s : BfgsState K n) (h : bfgsRun calls = some s) :
    s.Hᵀ = s.H := by
  induction calls using List.reverseRecOn generalizing s with
  | nil => simp [bfgsRun] at h
  | append_singleton l c ih =>
    rw [bfgsRun_append] at h
    cases h
    cases hl : bfgsRun l with
    | none => simp [bfgsCall]
    | some s' => exact bfgsUpdate_symm (ih s' hl) _ _

/-- **C09 (first call)** the first call returns `diag(x)`. -/
theorem bfgs_first (x g : Fin n → K) : ∃ s, bfgsRun [(x, g)] = some s ∧ s.H = diagonal x := ⟨_, rfl, rfl⟩

/-- **C09 (secant equation)** after any history, the matrix maps the last gradient change to the last step, provided that the curvature
    `dx·dg` is nonzero. -/
theorem bfgs_secant (l : List ((Fin n → K) × (Fin n → K))) (c c' : (Fin n → K) × (Fin n → K))
    (ha : (c'.1 - c.1) ⬝ᵥ (c'.2 - c.2) ≠ 0) :
    ∃ s, bfgsRun (l ++ [c] ++ [c']) = some s ∧ s.H *ᵥ (c'.2 - c.2) = c'.1 - c.1 := by
  rw [bfgsRun_append]
  obtain ⟨s, hs, hx, hg⟩ := bfgsRun_last l c
  rw [hs]
  refine ⟨_, rfl, ?_⟩
  simp only [bfgsCall, hx, hg]
  exact bfgsUpdate_secant _ _ _ ha

/-- **C09 (positive definiteness)** if the first point is positive and every pair of consecutive calls has positive curvature, the matrix is
    positive definite after every call. -/
theorem bfgs_posdef (calls : List ((Fin n → K) × (Fin n → K))) (s : BfgsState K n) (h : bfgsRun calls = some s)
    (hfirst : ∀ c ∈ calls.head?, ∀ i, 0 < c.1 i) (hcurv : ∀ d ∈ increments calls, 0 < d.1 ⬝ᵥ d.2) : PosDefQ s.H := by
  induction calls using List.reverseRecOn generalizing s with
  | nil => simp [bfgsRun] at h
  | append_singleton l c ih =>
    rw [bfgsRun_append] at h
    cases h
    rcases List.eq_nil_or_concat l with rfl | ⟨l', c0, rfl⟩
    · intro v hv
      simp only [bfgsRun, List.foldl_nil, bfgsCall, mulVec_diagonal, dotProduct]
      have hpos : ∀ i, 0 < c.1 i := hfirst c (by simp)
      obtain ⟨i, hi⟩ := Function.ne_iff.1 hv
      apply Finset.sum_pos' (fun j _ => by nlinarith [hpos j, mul_self_nonneg (v j), mul_nonneg (mul_self_nonneg (v j)) (hpos j).le])
      exact ⟨i, Finset.mem_univ _, by
        have h1 : 0 < v i * v i := mul_self_pos.2 hi
        nlinarith [mul_pos h1 (hpos i)]⟩
    · obtain ⟨s0, hs0, hx, hg⟩ := bfgsRun_last l' c0
      rw [List.concat_eq_append] at *
      rw [hs0]
      have hH0 : PosDefQ s0.H := by
        refine ih s0 hs0 ?_ ?_
        · intro d hd
          apply hfirst d
          cases l' <;> simpa using hd
        · intro d hd
          apply hcurv d
          unfold increments at hd ⊢
          obtain ⟨k, hk, rfl⟩ := List.getElem_of_mem hd
          simp only [List.length_zipWith, List.length_tail, List.length_append, List.length_singleton] at hk
          rw [List.mem_iff_getElem]
          refine ⟨k, by simp; omega, ?_⟩
          simp only [List.getElem_zipWith, List.getElem_tail]
          have e1 : (l' ++ [c0] ++ [c])[k]'(by simp; omega) = (l' ++ [c0])[k]'(by simp; omega) := List.getElem_append_left _
          have e2 : (l' ++ [c0] ++ [c])[k+1]'(by simp; omega) = (l' ++ [c0])[k+1]'(by simp; omega) := List.getElem_append_left _
          rw [e1, e2]
      simp only [bfgsCall, hx, hg]
      apply bfgsUpdate_posdef hH0
      apply hcurv (c.1 - c0.1, c.2 - c0.2)
      unfold increments
      rw [List.mem_iff_getElem]
      refine ⟨l'.length, by simp, ?_⟩
      simp [List.getElem_zipWith]

/-- A history with positive curvature: gradients of `x²/2`. -/
example : (∀ d ∈ increments [((![1] : Fin 1 → ℚ), (![1] : Fin 1 → ℚ)), (![2], ![2]), (![4], ![4])], 0 < d.1 ⬝ᵥ d.2) := by
  decide +kernel

end Bfgs

/-! ## C10 -/
section Clean
variable {K : Type*} [Field K] [LinearOrder K] [IsStrictOrderedRing K] {m n : ℕ}

theorem foldl_max_spec {α : Type*} (f : α → K) (l : List α) (b : K) :
    b ≤ l.foldl (fun acc i => max acc (f i)) b ∧ (∀ i ∈ l, f i ≤ l.foldl (fun acc i => max acc (f i)) b) ∧
    (l.foldl (fun acc i => max acc (f i)) b = b ∨ ∃ i ∈ l, l.foldl (fun acc i => max acc (f i)) b = f i) := by
  induction l generalizing b with
  | nil => simp
  | cons a l ih =>
    simp only [List.foldl_cons, List.mem_cons]
    obtain ⟨h1, h2, h3⟩ := ih (max b (f a))
    refine ⟨le_trans (le_max_left _ _) h1, ?_, ?_⟩
    · rintro i (rfl | hi)
      · exact le_trans (le_max_right _ _) h1
      · exact h2 i hi
    · rcases h3 with h3 | ⟨i, hi, h3⟩
      · rcases max_choice b (f a) with hm | hm
        · left; rw [h3, hm]
        · right; exact ⟨a, Or.inl rfl, by rw [h3, hm]⟩
      · right; exact ⟨i, Or.inr hi, h3⟩

theorem maxAbs_nonneg (v : Fin n → K) : 0 ≤ maxAbs v := (foldl_max_spec _ _ _).1
theorem le_maxAbs (v : Fin n → K) (i : Fin n) : |v i| ≤ maxAbs v := (foldl_max_spec (fun i => |v i|) _ _).2.1 i (List.mem_finRange i)
theorem maxAbs_attained (v : Fin n → K) (hn : 0 < n) : ∃ i, maxAbs v = |v i| := by
  rcases (foldl_max_spec (fun i => |v i|) (List.finRange n) 0).2.2 with h | ⟨i, -, h⟩
  · refine ⟨⟨0, hn⟩, ?_⟩
    have h1 := le_maxAbs v ⟨0, hn⟩
    have h2 : maxAbs v = 0 := h
    rw [h2] at h1 ⊢
    exact (le_antisymm h1 (abs_nonneg _)).symm
  · exact ⟨i, h⟩

theorem maxAbs_unique (v : Fin n → K) (hn : 0 < n) (M : K) (h1 : ∀ i, |v i| ≤ M) (h2 : ∃ i, M = |v i|) : maxAbs v = M := by
  obtain ⟨i, rfl⟩ := h2
  obtain ⟨j, hj⟩ := maxAbs_attained v hn
  exact le_antisymm (hj ▸ h1 j) (le_maxAbs v i)

/-- **C10 (vector)** For any vector and any `eps`: with `M` the largest magnitude, an entry is set to zero iff its magnitude is at most
    `eps*M*n`, all the others are unchanged, so no entry changes by more than that.  If `eps*n < 1` the largest entries survive and the
    operation is idempotent. -/
theorem cleanVec_spec (eps : K) (v : Fin n → K) (M : K) (hM1 : ∀ i, |v i| ≤ M) (hM2 : ∃ i, M = |v i|) :
    (∀ i, |v i| ≤ eps * M * n → cleanVec eps v i = 0) ∧
    (∀ i, ¬ |v i| ≤ eps * M * n → cleanVec eps v i = v i) ∧
    (0 ≤ eps → ∀ i, |cleanVec eps v i - v i| ≤ eps * M * n) ∧
    (eps * n < 1 → ∀ i, |v i| = M → cleanVec eps v i = v i) ∧
    (eps * n < 1 → cleanVec eps (cleanVec eps v) = cleanVec eps v) := by
  obtain ⟨i0, hi0⟩ := hM2
  have hn : 0 < n := Fin.pos i0
  have hmax := maxAbs_unique v hn M hM1 ⟨i0, hi0⟩
  have hdef : cleanVec eps v = fun i => if |v i| ≤ eps * M * n then 0 else v i := by
    unfold cleanVec; rw [if_neg (by omega)]; dsimp only; rw [hmax]
  have hM0 : 0 ≤ M := hi0 ▸ abs_nonneg _
  have hkeep : eps * n < 1 → ∀ i, |v i| = M → cleanVec eps v i = v i := by
    intro he i hi
    rw [hdef]; dsimp only
    split_ifs with h
    · rw [hi] at h
      have : M = 0 := by nlinarith
      rw [this] at hi; exact (abs_eq_zero.1 hi).symm
    · rfl
  refine ⟨fun i h => by rw [hdef]; simp [h], fun i h => by rw [hdef]; simp only [if_neg h], ?_, hkeep, ?_⟩
  · intro he i
    rw [hdef]; dsimp only
    split_ifs with h
    · simpa using h
    · simp; positivity
  · intro he
    have hmax' : maxAbs (cleanVec eps v) = M := by
      apply maxAbs_unique _ hn
      · intro i
        rw [hdef]; dsimp only
        split_ifs
        · simpa using hM0
        · exact hM1 i
      · exact ⟨i0, by rw [hkeep he i0 hi0.symm]; exact hi0⟩
    conv_lhs => unfold cleanVec
    rw [if_neg (by omega)]
    dsimp only
    change (fun i => if |cleanVec eps v i| ≤ eps * maxAbs (cleanVec eps v) * ↑n then 0 else cleanVec eps v i) = _
    rw [hmax']
    funext i
    split_ifs with h
    · rw [hdef] at h ⊢
      dsimp only at h ⊢
      by_cases h1 : |v i| ≤ eps * M * ↑n
      · rw [if_pos h1]
      · rw [if_neg h1] at h; exact absurd h h1
    · rfl

example : cleanVec (1/1000) (![1000000, 1, 5000] : Fin 3 → ℚ) = ![1000000, 0, 5000] := by decide +kernel

theorem maxAbsM_spec (A : Fin m → Fin n → K) (M : K) (h1 : ∀ i j, |A i j| ≤ M) (h2 : ∃ i j, M = |A i j|) : maxAbsM A = M := by
  obtain ⟨i, j, rfl⟩ := h2
  have hs := foldl_max_spec (fun i => maxAbs (A i)) (List.finRange m) 0
  apply le_antisymm
  · rcases hs.2.2 with h | ⟨k, -, h⟩
    · unfold maxAbsM; rw [h]; exact abs_nonneg _
    · unfold maxAbsM; rw [h]
      obtain ⟨l, hl⟩ := maxAbs_attained (A k) (Fin.pos j)
      rw [hl]; exact h1 k l
  · exact le_trans (le_maxAbs (A i) j) (hs.2.1 i (List.mem_finRange i))

/-- **C10 (matrix)** Same for matrices, with threshold `eps*M*max(rows, cols)`. -/
theorem cleanMat_spec (eps : K) (A : Fin m → Fin n → K) (M : K) (hM1 : ∀ i j, |A i j| ≤ M) (hM2 : ∃ i j, M = |A i j|) :
    (∀ i j, |A i j| ≤ eps * M * (max m n : ℕ) → cleanMat eps A i j = 0) ∧
    (∀ i j, ¬ |A i j| ≤ eps * M * (max m n : ℕ) → cleanMat eps A i j = A i j) ∧
    (0 ≤ eps → ∀ i j, |cleanMat eps A i j - A i j| ≤ eps * M * (max m n : ℕ)) ∧
    (eps * (max m n : ℕ) < 1 → ∀ i j, |A i j| = M → cleanMat eps A i j = A i j) ∧
    (eps * (max m n : ℕ) < 1 → cleanMat eps (cleanMat eps A) = cleanMat eps A) := by
  obtain ⟨i0, j0, hi0⟩ := hM2
  have hmn : ¬ m * n = 0 := by
    have := Fin.pos i0; have := Fin.pos j0; positivity
  have hmax := maxAbsM_spec A M hM1 ⟨i0, j0, hi0⟩
  have hdef : cleanMat eps A = fun i j => if |A i j| ≤ eps * M * (max m n : ℕ) then 0 else A i j := by
    unfold cleanMat; rw [if_neg hmn]; dsimp only; rw [hmax]
  have hM0 : 0 ≤ M := hi0 ▸ abs_nonneg _
  have hkeep : eps * (max m n : ℕ) < 1 → ∀ i j, |A i j| = M → cleanMat eps A i j = A i j := by
    intro he i j hi
    rw [hdef]; dsimp only
    split_ifs with h
    · rw [hi] at h
      have : M = 0 := by nlinarith
      rw [this] at hi; exact (abs_eq_zero.1 hi).symm
    · rfl
  refine ⟨fun i j h => by rw [hdef]; simp only [if_pos h], fun i j h => by rw [hdef]; simp only [if_neg h], ?_, hkeep, ?_⟩
  · intro he i j
    rw [hdef]; dsimp only
    split_ifs with h
    · simpa using h
    · rw [sub_self, abs_zero]; positivity
  · intro he
    have hmax' : maxAbsM (cleanMat eps A) = M := by
      apply maxAbsM_spec
      · intro i j
        rw [hdef]; dsimp only
        split_ifs
        · simpa using hM0
        · exact hM1 i j
      · exact ⟨i0, j0, by rw [hkeep he i0 j0 hi0.symm]; exact hi0⟩
    conv_lhs => unfold cleanMat
    rw [if_neg hmn]
    dsimp only
    change (fun i j => if |cleanMat eps A i j| ≤ eps * maxAbsM (cleanMat eps A) * ((max m n : ℕ):K) then 0 else cleanMat eps A i j) = _
    rw [hmax']
    funext i j
    split_ifs with h
    · rw [hdef] at h ⊢
      dsimp only at h ⊢
      by_cases h1 : |A i j| ≤ eps * M * ↑(max m n)
      · rw [if_pos h1]
      · rw [if_neg h1] at h; exact absurd h h1
    · rfl

example : cleanMat (1/1000) (![![1000000, 1], ![5000, 0]] : Fin 2 → Fin 2 → ℚ) = ![![1000000, 0], ![5000, 0]] := by decide +kernel

/-- **C10 (product)** Every entry of the filtered product is either the exact entry of `A x` or zero, zero exactly when the exact entry is
    below `eps * |A||x|`; hence the error is below that bound. -/
theorem multiplyClean_spec {ι : Type*} (eps : K) (heps : 0 ≤ eps) (A : Matrix ι (Fin n) K) (x : Fin n → K) (i : ι) :
    (|(A *ᵥ x) i| < (∑ j, |A i j| * |x j|) * eps → multiplyClean eps A x i = 0) ∧
    (¬ |(A *ᵥ x) i| < (∑ j, |A i j| * |x j|) * eps → multiplyClean eps A x i = (A *ᵥ x) i) ∧
    |multiplyClean eps A x i - (A *ᵥ x) i| ≤ (∑ j, |A i j| * |x j|) * eps := by
  have e : (A *ᵥ x) i = ∑ j, A i j * x j := rfl
  have hs : 0 ≤ ∑ j, |A i j| * |x j| := Finset.sum_nonneg fun j _ => by positivity
  unfold multiplyClean
  dsimp only
  rw [e]
  refine ⟨fun h => if_pos h, fun h => if_neg h, ?_⟩
  split_ifs with h
  · rw [zero_sub, abs_neg]; exact h.le
  · rw [sub_self, abs_zero]; positivity

example : multiplyClean (1/1000) (![![1, -1], ![1, 1]] : Fin 2 → Fin 2 → ℚ) ![1, 1 - 1/10000] = ![0, 2 - 1/10000] := by
  decide +kernel

end Clean

/-! ## C11 -/
section Structure
variable {K : Type*} [Zero K]

/-- Specification: the `n × n` matrix a source stands for (independent of `matrixStructure`): a nonempty square source is the matrix
    itself, a single column with `n ≠ 1` entries is a diagonal matrix, an empty source is the zero matrix. -/
inductive Denotes {n : ℕ} : DMat K → (Fin n → Fin n → K) → Prop
  | dense (A : Fin n → Fin n → K) (hn : 0 < n) : Denotes ⟨n, n, A⟩ A
  | diagonal (d : Fin n → K) (hn : 1 < n) : Denotes ⟨n, 1, fun i _ => d i⟩ (fun i j => if i = j then d i else 0)
  | zero (r c : ℕ) (v) (h : r * c = 0) : Denotes ⟨r, c, v⟩ (fun _ _ => 0)

/-- **C11 (partial)** A nonempty source is expanded to the matrix it stands for, whatever the previous contents of the target; an empty source gives the
    matrix it stands for only if the target was zero already. -/
theorem shiftAssign_expands_partial {n : ℕ} (src : DMat K) (A T : Fin n → Fin n → K) (h : Denotes src A)
    (hne : src.rows * src.cols = 0 → T = fun _ _ => 0) : shiftAssign ⟨n, n, T⟩ src = .ok ⟨n, n, A⟩ := by
  cases h with
  | dense _ hn =>
    have : n * n > 0 := by positivity
    simp [shiftAssign, matrixStructure, isDenseMatrix, assignRef, this]
  | diagonal d hn =>
    have h1 : ¬ n = 1 := by omega
    simp [shiftAssign, matrixStructure, isDenseMatrix, isDiagonalMatrix, assignRef, diagOfCol, h1, hn]
  | zero r c v h0 =>
    rw [hne h0]
    simp [shiftAssign, matrixStructure, isDenseMatrix, isDiagonalMatrix, h0]

/-- **C11, negation for empty sources**: an empty source stands for the zero matrix but leaves the target unchanged. -/
theorem shiftAssign_zero_keeps_target : ∃ (src : DMat ℚ) (T A : Fin 1 → Fin 1 → ℚ), Denotes src A ∧
    shiftAssign ⟨1, 1, T⟩ src = .ok ⟨1, 1, T⟩ ∧ T 0 0 ≠ A 0 0 :=
  ⟨⟨0, 0, fun i => i.elim0⟩, fun _ _ => 5, fun _ _ => 0, .zero 0 0 _ rfl, by simp [shiftAssign, matrixStructure, isDenseMatrix, isDiagonalMatrix], by norm_num⟩

/-- **C11, negation for rectangular sources**: a source with more than one column which is not square is silently ignored - its structure is reported
    as `Zero` although it may have nonzero entries. -/
theorem rectangular_reported_zero (r c : ℕ) (hrc : r ≠ c) (hc : c ≠ 1) (A : Fin r → Fin c → K) (T : DMat K) :
    matrixStructure ⟨r, c, A⟩ = .zero ∧ shiftAssign T ⟨r, c, A⟩ = .ok T := by
  simp [shiftAssign, matrixStructure, isDenseMatrix, isDiagonalMatrix, hrc, hc]

example : (2:ℕ) ≠ 3 ∧ (3:ℕ) ≠ 1 := by decide

/-- **C11 (sizes)**: a dense or diagonal source is accepted only by a target of the size of the matrix it stands for; each other target is a size mismatch. -/
theorem shiftAssign_size {n r c : ℕ} (src : DMat K) (A : Fin n → Fin n → K) (T : Fin r → Fin c → K) (h : Denotes src A) (hs : src.rows * src.cols ≠ 0) (hd : r ≠ n ∨ c ≠ n) :
    shiftAssign ⟨r, c, T⟩ src = .sizeMismatch := by
  have hd' : ¬ (r = n ∧ c = n) := by omega
  cases h with
  | dense _ hn =>
    have : n * n > 0 := by positivity
    simp [shiftAssign, matrixStructure, isDenseMatrix, assignRef, this, hd']
  | diagonal d hn =>
    have h1 : ¬ n = 1 := by omega
    simp [shiftAssign, matrixStructure, isDenseMatrix, isDiagonalMatrix, assignRef, diagOfCol, h1, hn, hd']
  | zero r c v h0 => exact absurd h0 hs

/-- A diagonal source with three entries and a target with three rows and two columns. -/
example : Denotes (⟨3, 1, fun _ _ => 7⟩ : DMat ℚ) (fun i j : Fin 3 => if i = j then 7 else 0) ∧ shiftAssign ⟨3, 2, fun _ _ => 0⟩ (⟨3, 1, fun _ _ => 7⟩ : DMat ℚ) = .sizeMismatch :=
  ⟨.diagonal _ (by norm_num), shiftAssign_size _ _ _ (.diagonal (fun _ => 7) (by norm_num)) (by norm_num) (Or.inr (by norm_num))⟩

/-- The four classifications are exhaustive and consistent: `Dense` iff square and nonempty, `Diagonal` iff a single column with at least two
    rows, otherwise `Zero`. -/
theorem matrixStructure_spec (A : DMat K) :
    (matrixStructure A = .dense ↔ A.rows = A.cols ∧ 0 < A.rows) ∧
    (matrixStructure A = .diagonal ↔ A.cols = 1 ∧ 1 < A.rows) ∧
    (isZeroMatrix A = true ↔ A.rows = 0 ∨ A.cols = 0) ∧
    (isZeroMatrix A = true → matrixStructure A = .zero) := by
  obtain ⟨r, c, v⟩ := A
  have hz : (r * c == 0) = true ↔ r = 0 ∨ c = 0 := by simp
  refine ⟨?_, ?_, hz, ?_⟩
  · by_cases hrc : r = c
    · subst hrc
      rcases Nat.eq_zero_or_pos r with h0 | h0
      · subst h0; simp [matrixStructure, isDenseMatrix, isDiagonalMatrix]
      · simp [matrixStructure, isDenseMatrix, h0]
    · have hd : isDenseMatrix ⟨r, c, v⟩ = false := by simp [isDenseMatrix, hrc]
      unfold matrixStructure
      rw [hd]
      cases isDiagonalMatrix ⟨r, c, v⟩ <;> simp [hrc]
  · simp only [matrixStructure, isDenseMatrix, isDiagonalMatrix]
    by_cases hc : c = 1
    · subst hc
      by_cases hr : r = 1
      · subst hr; simp
      · have : (r == 1) = false := by simpa using hr
        simp [this]
    · have : (c == 1) = false := by simpa using hc
      simp only [this, Bool.and_false, hc, false_and, iff_false, Bool.false_eq_true, if_false]
      split_ifs <;> simp
  · intro h
    rcases hz.1 h with h | h <;> subst h <;> simp [matrixStructure, isDenseMatrix, isDiagonalMatrix]

/-- `ensureMinimumDimension` never shrinks, reaches the requested size and keeps the contents only if it was already large enough. -/
theorem ensureMinimumDimension_spec (A : DMat K) (r c : ℕ) :
    let res := ensureMinimumDimension A r c
    A.rows ≤ res.1 ∧ r ≤ res.1 ∧ A.cols ≤ res.2.1 ∧ c ≤ res.2.1 ∧
    (res.2.2 = some A ↔ r ≤ A.rows ∧ c ≤ A.cols) := by
  dsimp only [ensureMinimumDimension]
  refine ⟨le_max_left _ _, le_max_right _ _, le_max_left _ _, le_max_right _ _, ?_⟩
  simp

end Structure

end Optima.Utils
