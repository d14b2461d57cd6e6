import Verif.Model.Echelon
import Verif.Lemmas.Tactics
import Verif.Lemmas.Fold
import Verif.Lemmas.Triangular
import Mathlib.Data.Matrix.ColumnRowPartitioned
import Mathlib.Algebra.BigOperators.Field

/-! Helper lemmas for the echelonizer. -/

set_option linter.unusedSectionVars false

namespace Optima.Ech

open Matrix Tri

variable {K : Type*} [Field K] {m n nb nn nl : ℕ}

/-- Core invariant of `(R, S, Q)` for the matrix `A`. -/
structure Core (A : Matrix (Fin m) (Fin n) K) (R : Matrix (Fin nb ⊕ Fin nl) (Fin m) K) (S : Matrix (Fin nb) (Fin nn) K)
    (Q : Fin nb ⊕ Fin nn → Fin n) : Prop where
  qbij : Function.Bijective Q
  topB : ∀ i j, ∑ r, R (Sum.inl i) r * A r (Q (Sum.inl j)) = if i = j then 1 else 0
  topN : ∀ i k, ∑ r, R (Sum.inl i) r * A r (Q (Sum.inr k)) = S i k
  inj : ∀ y : Fin m → K, R *ᵥ y = 0 → y = 0
  card : nb + nl = m

/-- The non-basic columns are the combinations of the basic columns given by `S`. -/
def Spans {ι : Type*} (A : Matrix ι (Fin n) K) (S : Matrix (Fin nb) (Fin nn) K) (Q : Fin nb ⊕ Fin nn → Fin n) : Prop :=
  ∀ r k, A r (Q (Sum.inr k)) = ∑ i, A r (Q (Sum.inl i)) * S i k

theorem compute_R_inl {A : Matrix (Fin m) (Fin n) K} (lu : FullPivLU A nb nn nl) (i : Fin nb) (c : Fin m) :
    (compute lu).R (Sum.inl i) c = (lu.Ubb⁻¹ * lu.Lbb⁻¹ * (permMat (K := K) lu.p).submatrix Sum.inl id) i c := by
  rw [Matrix.mul_assoc, ← solveCols_lower lu.unit_diag lu.lower, ← solveCols_upper lu.pivots lu.upper]
  rfl

theorem permMat_mul {A : Matrix (Fin m) (Fin n) K} {ι : Type*} (p : ι → Fin m) : permMat p * A = A.submatrix p id := by
  ext i c; simp [permMat, mul_apply]

theorem compute_S {A : Matrix (Fin m) (Fin n) K} (lu : FullPivLU A nb nn nl) : (compute lu).S = lu.Ubb⁻¹ * lu.Ubn := by
  rw [← solveCols_upper lu.pivots lu.upper]
  rfl

theorem compute_core {A : Matrix (Fin m) (Fin n) K} (lu : FullPivLU A nb nn nl) :
    Core A (compute lu).R (compute lu).S (compute lu).Q := by
  have hL : IsUnit lu.Lbb.det := by rw [det_lower lu.unit_diag lu.lower]; exact isUnit_one
  have hU := det_upper lu.pivots lu.upper
  have hcard : nb + nl = m := by
    have := Fintype.card_of_bijective lu.pbij
    simpa using this
  have hblock : A.submatrix (lu.p ∘ Sum.inl) lu.q = lu.Lbb * fromCols lu.Ubb lu.Ubn := by
    rw [mul_fromCols]
    have h := lu.factor
    ext i c
    have := congrFun (congrFun h (Sum.inl i)) c
    cases c <;> simpa using this
  have htop' : ∀ i c, ∑ r, (compute lu).R (Sum.inl i) r * A r (lu.q c) = (fromCols 1 (lu.Ubb⁻¹ * lu.Ubn)) i c := by
    intro i c
    have e1 : ∑ r, (compute lu).R (Sum.inl i) r * A r (lu.q c) =
        (lu.Ubb⁻¹ * lu.Lbb⁻¹ * (permMat (K := K) lu.p).submatrix Sum.inl id * A.submatrix id lu.q) i c := by
      rw [mul_apply]
      exact Finset.sum_congr rfl fun r _ => by rw [compute_R_inl]; rfl
    have e2 : (permMat (K := K) lu.p).submatrix Sum.inl id * A.submatrix id lu.q = A.submatrix (lu.p ∘ Sum.inl) lu.q := by
      ext i c; simp [permMat, mul_apply]
    rw [e1, Matrix.mul_assoc, e2, hblock, Matrix.mul_assoc, ← Matrix.mul_assoc lu.Lbb⁻¹, nonsing_inv_mul _ hL, Matrix.one_mul,
      mul_fromCols, nonsing_inv_mul _ hU]
  refine ⟨lu.qbij, ?_, ?_, ?_, hcard⟩
  · intro i j
    rw [show (compute lu).Q = lu.q from rfl, htop']; simp [one_apply]
  · intro i k
    rw [show (compute lu).Q = lu.q from rfl, htop', compute_S]; rfl
  · intro y hy
    -- P y = 0
    have h1 : ∀ l, y (lu.p (Sum.inr l)) = 0 := by
      intro l
      have := congrFun hy (Sum.inr l)
      simpa [mulVec, dotProduct, compute, permMat] using this
    have h2 : (lu.Ubb⁻¹ * lu.Lbb⁻¹) *ᵥ (fun i => y (lu.p (Sum.inl i))) = 0 := by
      have e : (fun i => y (lu.p (Sum.inl i))) = (permMat (K := K) lu.p).submatrix Sum.inl id *ᵥ y := by
        ext i; simp [mulVec, dotProduct, permMat]
      rw [e, mulVec_mulVec]
      ext i
      have := congrFun hy (Sum.inl i)
      rw [Pi.zero_apply, ← show (0 : Fin nb ⊕ Fin nl → K) (Sum.inl i) = 0 from rfl, ← this]
      simp only [mulVec, dotProduct, compute_R_inl]
    have h3 : (fun i => y (lu.p (Sum.inl i))) = 0 := by
      have h4 := congrArg (fun v => (lu.Lbb * lu.Ubb) *ᵥ v) h2
      simp only [mulVec_zero] at h4
      rw [mulVec_mulVec, Matrix.mul_assoc, ← Matrix.mul_assoc lu.Ubb, mul_nonsing_inv _ hU, Matrix.one_mul, mul_nonsing_inv _ hL, one_mulVec] at h4
      exact h4
    ext c
    obtain ⟨r, rfl⟩ := lu.pbij.2 c
    cases r with
    | inl i => exact congrFun h3 i
    | inr l => exact h1 l

theorem compute_spans {A : Matrix (Fin m) (Fin n) K} (lu : FullPivLU A nb nn nl) (hZ : lu.Z = 0) :
    Spans A (compute lu).S (compute lu).Q := by
  have hU := det_upper lu.pivots lu.upper
  intro r k
  rw [compute_S]
  obtain ⟨r, rfl⟩ := lu.pbij.2 r
  change (A.submatrix lu.p lu.q) r (Sum.inr k) = ∑ i, (A.submatrix lu.p lu.q) r (Sum.inl i) * (lu.Ubb⁻¹ * lu.Ubn) i k
  rw [lu.factor, hZ, add_zero]
  cases r with
  | inl j =>
    simp only [fromBlocks_apply₁₁, fromBlocks_apply₁₂]
    change _ = ((lu.Lbb * lu.Ubb) * (lu.Ubb⁻¹ * lu.Ubn)) j k
    rw [Matrix.mul_assoc, ← Matrix.mul_assoc lu.Ubb, mul_nonsing_inv _ hU, Matrix.one_mul]
  | inr l =>
    simp only [fromBlocks_apply₂₁, fromBlocks_apply₂₂]
    change _ = ((lu.Lnb * lu.Ubb) * (lu.Ubb⁻¹ * lu.Ubn)) l k
    rw [Matrix.mul_assoc, ← Matrix.mul_assoc lu.Ubb, mul_nonsing_inv _ hU, Matrix.one_mul]

/-! ### swap -/

theorem swap_S (e : State K m n nb nn nl) (ib : Fin nb) (jn : Fin nn) (i : Fin nb) (k : Fin nn) :
    (swap e ib jn).S i k =
      if i = ib then (if k = jn then 1 / e.S ib jn else e.S ib k / e.S ib jn)
      else (if k = jn then - e.S i jn / e.S ib jn else e.S i k - e.S i jn * e.S ib k / e.S ib jn) := by
  by_cases hi : i = ib <;> by_cases hk : k = jn <;> simp [swap, hi, hk] <;> ring

theorem swap_T (A : Matrix (Fin m) (Fin n) K) (e : State K m n nb nn nl) (ib : Fin nb) (jn : Fin nn) (i : Fin nb) (c : Fin n) :
    ∑ r, (swap e ib jn).R (Sum.inl i) r * A r c =
      if i = ib then (∑ r, e.R (Sum.inl ib) r * A r c) / e.S ib jn
      else (∑ r, e.R (Sum.inl i) r * A r c) - e.S i jn * (∑ r, e.R (Sum.inl ib) r * A r c) / e.S ib jn := by
  by_cases hi : i = ib
  · subst hi
    simp only [swap, if_true]
    rw [Finset.sum_div]
    exact Finset.sum_congr rfl fun r _ => by ring
  · simp only [swap, hi, if_false]
    rw [Finset.mul_sum, Finset.sum_div, ← Finset.sum_sub_distrib]
    exact Finset.sum_congr rfl fun r _ => by ring

theorem swap_Q (e : State K m n nb nn nl) (ib : Fin nb) (jn : Fin nn) :
    (swap e ib jn).Q = e.Q ∘ Equiv.swap (Sum.inl ib) (Sum.inr jn) := rfl

theorem swap_Q_inl (e : State K m n nb nn nl) (ib : Fin nb) (jn : Fin nn) (j : Fin nb) :
    (swap e ib jn).Q (Sum.inl j) = if j = ib then e.Q (Sum.inr jn) else e.Q (Sum.inl j) := by
  rw [swap_Q, Function.comp_apply]
  split_ifs with h
  · subst h; rw [Equiv.swap_apply_left]
  · rw [Equiv.swap_apply_of_ne_of_ne (by simpa using h) (by simp)]

theorem swap_Q_inr (e : State K m n nb nn nl) (ib : Fin nb) (jn : Fin nn) (k : Fin nn) :
    (swap e ib jn).Q (Sum.inr k) = if k = jn then e.Q (Sum.inl ib) else e.Q (Sum.inr k) := by
  rw [swap_Q, Function.comp_apply]
  split_ifs with h
  · subst h; rw [Equiv.swap_apply_right]
  · rw [Equiv.swap_apply_of_ne_of_ne (by simp) (by simpa using h)]

theorem swap_core {A : Matrix (Fin m) (Fin n) K} {e : State K m n nb nn nl} (h : Core A e.R e.S e.Q) (ib : Fin nb) (jn : Fin nn)
    (hp : e.S ib jn ≠ 0) : Core A (swap e ib jn).R (swap e ib jn).S (swap e ib jn).Q := by
  refine ⟨h.qbij.comp (Equiv.bijective _), ?_, ?_, ?_, h.card⟩
  · intro i j
    rw [swap_Q_inl, swap_T]
    by_cases hi : i = ib <;> by_cases hj : j = ib
    · subst hi; subst hj; simp [h.topN, hp]
    · subst hi
      have : ¬ i = j := fun hh => hj hh.symm
      simp [hj, h.topB, this]
    · subst hj
      simp [hi, h.topN]
      field_simp; ring
    · have : ¬ ib = j := fun hh => hj hh.symm
      simp [hi, hj, h.topB, this]
  · intro i k
    rw [swap_Q_inr, swap_T, swap_S]
    by_cases hi : i = ib <;> by_cases hk : k = jn
    · subst hi; subst hk; simp [h.topB]
    · subst hi; simp [hk, h.topN]
    · subst hk; simp [hi, h.topB]; ring
    · simp [hi, hk, h.topN]
  · intro y hy
    apply h.inj
    have hib : ∑ c, e.R (Sum.inl ib) c * y c = 0 := by
      have h1 := congrFun hy (Sum.inl ib)
      have h2 : ((swap e ib jn).R *ᵥ y) (Sum.inl ib) = (∑ c, e.R (Sum.inl ib) c * y c) / e.S ib jn := by
        simp only [mulVec, dotProduct, swap, if_true]
        rw [Finset.sum_div]
        exact Finset.sum_congr rfl fun r _ => by ring
      rw [h2, Pi.zero_apply] at h1
      exact (div_eq_zero_iff.1 h1).resolve_right hp
    ext r
    cases r with
    | inl i =>
      by_cases hi : i = ib
      · subst hi; exact hib
      · have h1 := congrFun hy (Sum.inl i)
        have h2 : ((swap e ib jn).R *ᵥ y) (Sum.inl i) =
            (∑ c, e.R (Sum.inl i) c * y c) - e.S i jn * (∑ c, e.R (Sum.inl ib) c * y c) / e.S ib jn := by
          simp only [mulVec, dotProduct, swap, hi, if_false]
          rw [Finset.mul_sum, Finset.sum_div, ← Finset.sum_sub_distrib]
          exact Finset.sum_congr rfl fun r _ => by ring
        rw [h2, hib] at h1
        simpa [mulVec, dotProduct] using h1
    | inr l => exact congrFun hy (Sum.inr l)

theorem swap_spans {A : Matrix (Fin m) (Fin n) K} {e : State K m n nb nn nl} (h : Spans A e.S e.Q) (ib : Fin nb) (jn : Fin nn)
    (hp : e.S ib jn ≠ 0) : Spans A (swap e ib jn).S (swap e ib jn).Q := by
  intro r k
  -- the basic sum, split at ib
  have split : ∀ (f : Fin nb → K), ∑ i, f i = f ib + ∑ i ∈ Finset.univ.erase ib, f i := by
    intro f; rw [Finset.add_sum_erase _ _ (Finset.mem_univ ib)]
  have hin := h r jn
  rw [split] at hin
  rw [swap_Q_inr, split]
  have e1 : ∑ i ∈ Finset.univ.erase ib, A r ((swap e ib jn).Q (Sum.inl i)) * (swap e ib jn).S i k =
      ∑ i ∈ Finset.univ.erase ib, A r (e.Q (Sum.inl i)) *
        (if k = jn then - e.S i jn / e.S ib jn else e.S i k - e.S i jn * e.S ib k / e.S ib jn) := by
    apply Finset.sum_congr rfl
    intro i hi
    have hi := Finset.ne_of_mem_erase hi
    rw [swap_Q_inl, swap_S]; simp [hi]
  rw [e1, swap_Q_inl, swap_S]
  simp only [if_true]
  by_cases hk : k = jn
  · simp only [hk, if_true]
    have e2 : ∑ i ∈ Finset.univ.erase ib, A r (e.Q (Sum.inl i)) * (- e.S i jn / e.S ib jn) =
        - (∑ i ∈ Finset.univ.erase ib, A r (e.Q (Sum.inl i)) * e.S i jn) / e.S ib jn := by
      rw [neg_div, Finset.sum_div, ← Finset.sum_neg_distrib]
      exact Finset.sum_congr rfl fun i _ => by ring
    rw [e2, hin]
    field_simp; ring
  · simp only [hk, if_false]
    have hk' := h r k
    rw [split] at hk'
    have e2 : ∑ i ∈ Finset.univ.erase ib, A r (e.Q (Sum.inl i)) * (e.S i k - e.S i jn * e.S ib k / e.S ib jn) =
        (∑ i ∈ Finset.univ.erase ib, A r (e.Q (Sum.inl i)) * e.S i k) -
        (∑ i ∈ Finset.univ.erase ib, A r (e.Q (Sum.inl i)) * e.S i jn) * (e.S ib k / e.S ib jn) := by
      rw [Finset.sum_mul, ← Finset.sum_sub_distrib]
      exact Finset.sum_congr rfl fun i _ => by ring
    rw [e2, hin, hk']
    field_simp; ring

/-! ### reorder -/

theorem reorder_core {A : Matrix (Fin m) (Fin n) K} {e : State K m n nb nn nl} (h : Core A e.R e.S e.Q) {Kb : Fin nb → Fin nb} {Kn : Fin nn → Fin nn}
    (hb : Function.Bijective Kb) (hn : Function.Bijective Kn) :
    Core A (reorder e Kb Kn).R (reorder e Kb Kn).S (reorder e Kb Kn).Q := by
  refine ⟨?_, ?_, ?_, ?_, h.card⟩
  · have : (reorder e Kb Kn).Q = e.Q ∘ Sum.map Kb Kn := by
      funext v; cases v <;> rfl
    rw [this]
    exact h.qbij.comp (Sum.map_bijective.2 ⟨hb, hn⟩)
  · intro i j
    have := h.topB (Kb i) (Kb j)
    rw [show (∑ r, (reorder e Kb Kn).R (Sum.inl i) r * A r ((reorder e Kb Kn).Q (Sum.inl j))) =
      ∑ r, e.R (Sum.inl (Kb i)) r * A r (e.Q (Sum.inl (Kb j))) from rfl, this]
    simp [hb.1.eq_iff]
  · intro i k; exact h.topN (Kb i) (Kn k)
  · intro y hy
    apply h.inj
    ext r
    cases r with
    | inl i =>
      obtain ⟨i', rfl⟩ := hb.2 i
      exact congrFun hy (Sum.inl i')
    | inr l => exact congrFun hy (Sum.inr l)

theorem reorder_spans {A : Matrix (Fin m) (Fin n) K} {e : State K m n nb nn nl} (h : Spans A e.S e.Q) {Kb : Fin nb → Fin nb} {Kn : Fin nn → Fin nn}
    (hb : Function.Bijective Kb) : Spans A (reorder e Kb Kn).S (reorder e Kb Kn).Q := by
  intro r k
  change A r (e.Q (Sum.inr (Kn k))) = ∑ i, A r (e.Q (Sum.inl (Kb i))) * e.S (Kb i) (Kn k)
  rw [h r (Kn k)]
  exact (Function.Bijective.sum_comp hb (fun i => A r (e.Q (Sum.inl i)) * e.S i (Kn k))).symm

/-! ### priority weights -/

section Priority
variable [LinearOrder K] [IsStrictOrderedRing K]

/-- Invariant of the candidate search. -/
def CandInv (thr : K) (e : State K m n nb nn nl) (w : Fin n → K) (i : Fin nb) (l : List (Fin nn)) : Option (K × Fin nn) → Prop
  | none => ∀ k ∈ l, |e.S i k| ≤ thr
  | some (mx, j) => thr < |e.S i j| ∧ mx = w (e.Q (Sum.inr j)) ∧ ∀ k ∈ l, thr < |e.S i k| → w (e.Q (Sum.inr k)) ≤ mx

/-- What the candidate search returns. -/
theorem findCandidate_spec (thr : K) (e : State K m n nb nn nl) (w : Fin n → K) (i : Fin nb) :
    match findCandidate thr e w i with
    | none => ∀ k, |e.S i k| ≤ thr
    | some (mx, j) => thr < |e.S i j| ∧ mx = w (e.Q (Sum.inr j)) ∧ ∀ k, thr < |e.S i k| → w (e.Q (Sum.inr k)) ≤ mx := by
  have key : CandInv thr e w i (List.finRange nn) (findCandidate thr e w i) := by
    apply foldl_finRange_inv (CandInv thr e w i)
    · simp [CandInv]
    · intro l acc a hacc
      dsimp only
      by_cases ha : |e.S i a| ≤ thr
      · rw [if_pos ha]
        cases acc with
        | none =>
          intro k hk
          rcases List.mem_append.1 hk with hk | hk
          · exact hacc k hk
          · simp at hk; subst hk; exact ha
        | some p =>
          obtain ⟨mx, j⟩ := p
          refine ⟨hacc.1, hacc.2.1, ?_⟩
          intro k hk hk'
          rcases List.mem_append.1 hk with hk | hk
          · exact hacc.2.2 k hk hk'
          · simp at hk; subst hk; exact absurd ha (not_le.2 hk')
      · rw [if_neg ha]
        push Not at ha
        cases acc with
        | none =>
          refine ⟨ha, rfl, ?_⟩
          intro k hk hk'
          rcases List.mem_append.1 hk with hk | hk
          · exact absurd hk' (not_lt.2 (hacc k hk))
          · simp at hk; subst hk; exact le_rfl
        | some p =>
          obtain ⟨mx, j⟩ := p
          by_cases hgt : w (e.Q (Sum.inr a)) > mx
          · simp only [hgt, if_true]
            refine ⟨ha, rfl, ?_⟩
            intro k hk hk'
            rcases List.mem_append.1 hk with hk | hk
            · exact le_trans (hacc.2.2 k hk hk') hgt.le
            · simp at hk; subst hk; exact le_rfl
          · simp only [hgt, if_false]
            refine ⟨hacc.1, hacc.2.1, ?_⟩
            intro k hk hk'
            rcases List.mem_append.1 hk with hk | hk
            · exact hacc.2.2 k hk hk'
            · simp at hk; subst hk; exact not_lt.1 hgt
  cases hc : findCandidate thr e w i with
  | none => rw [hc] at key; intro k; exact key k (List.mem_finRange k)
  | some p =>
    obtain ⟨mx, j⟩ := p
    rw [hc] at key
    exact ⟨key.1, key.2.1, fun k => key.2.2 k (List.mem_finRange k)⟩

/-- A pass either leaves the state alone or swaps at an admissible pivot. -/
theorem priorityStep_cases (thr : K) (w : Fin n → K) (e : State K m n nb nn nl) (i : Fin nb) :
    (priorityStep thr w e i = e ∧ ∀ k, thr < |e.S i k| → w (e.Q (Sum.inr k)) ≤ w (e.Q (Sum.inl i))) ∨
    (∃ j, priorityStep thr w e i = swap e i j ∧ thr < |e.S i j| ∧ w (e.Q (Sum.inl i)) < w (e.Q (Sum.inr j)) ∧
      ∀ k, thr < |e.S i k| → w (e.Q (Sum.inr k)) ≤ w (e.Q (Sum.inr j))) := by
  have h := findCandidate_spec thr e w i
  unfold priorityStep
  cases hc : findCandidate thr e w i with
  | none => rw [hc] at h; left; exact ⟨rfl, fun k hk => absurd hk (not_lt.2 (h k))⟩
  | some p =>
    obtain ⟨mx, j⟩ := p
    rw [hc] at h
    obtain ⟨h1, h2, h3⟩ := h
    dsimp only
    split_ifs with hlt
    · right; exact ⟨j, rfl, h1, h2 ▸ hlt, fun k hk => h2 ▸ h3 k hk⟩
    · left; exact ⟨rfl, fun k hk => le_trans (h3 k hk) (not_lt.1 hlt)⟩

end Priority

end Optima.Ech
