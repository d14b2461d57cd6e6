import Verif.Model.EchelonExt
import Mathlib.Data.Fintype.Sum
import Mathlib.Data.Fintype.EquivFin
import Mathlib.Algebra.BigOperators.Fin
import Mathlib.Tactic.FieldSimp
import Mathlib.Tactic.Ring

/-! Every matrix has a factorisation that meets the contract `FullPivLU` with an exact rank decision (Gaussian elimination). -/

set_option linter.unusedSectionVars false

namespace Optima.Ech

open Matrix

variable {K : Type*} [Field K]

/-- Extension of an index map by a pivot index. -/
def extIdx {m a b : ℕ} (i0 : Fin (m + 1)) (p : Fin a ⊕ Fin b → Fin m) : Fin (a + 1) ⊕ Fin b → Fin (m + 1)
  | Sum.inl i => Fin.cases i0 (fun i => i0.succAbove (p (Sum.inl i))) i
  | Sum.inr l => i0.succAbove (p (Sum.inr l))

theorem extIdx_bij {m a b : ℕ} (i0 : Fin (m + 1)) {p : Fin a ⊕ Fin b → Fin m} (hp : Function.Bijective p) : Function.Bijective (extIdx i0 p) := by
  rw [Fintype.bijective_iff_surjective_and_card]
  constructor
  · intro x
    by_cases hx : x = i0
    · exact ⟨Sum.inl 0, by simp [extIdx, hx]⟩
    · obtain ⟨y, rfl⟩ := Fin.exists_succAbove_eq hx
      obtain ⟨v, rfl⟩ := hp.2 y
      rcases v with i | l
      · exact ⟨Sum.inl i.succ, by simp [extIdx]⟩
      · exact ⟨Sum.inr l, rfl⟩
  · have := Fintype.card_of_bijective hp
    simp at this ⊢
    omega

theorem exists_fullPivLU (m : ℕ) : ∀ (n : ℕ) (A : Matrix (Fin m) (Fin n) K), ∃ nb nn nl, ∃ lu : FullPivLU A nb nn nl, lu.Z = 0 := by
  induction m with
  | zero =>
    intro n A
    refine ⟨0, n, 0, ⟨Sum.elim id Fin.elim0, Sum.elim Fin.elim0 id, ?_, ?_, 1, fun i => i.elim0, 1, fun i => i.elim0, fun i => i.elim0, fun i => i.elim0, fun i => i.elim0,
      fun i => i.elim0, fun i => i.elim0, ?_⟩, ?_⟩
    · exact ⟨fun a => by rcases a with a | a <;> exact a.elim0, fun a => a.elim0⟩
    · exact ⟨fun a b h => by rcases a with a | a <;> rcases b with b | b <;> first | exact a.elim0 | exact b.elim0 | (simp at h; rw [h]), fun a => ⟨Sum.inr a, rfl⟩⟩
    · ext i; rcases i with i | i <;> exact i.elim0
    · ext i; exact i.elim0
  | succ m ih =>
    intro n A
    by_cases hA : A = 0
    · refine ⟨0, n, m + 1, ⟨Sum.elim Fin.elim0 id, Sum.elim Fin.elim0 id, ?_, ?_, 1, 0, 1, 0, 0, fun i => i.elim0, fun i => i.elim0,
        fun i => i.elim0, fun i => i.elim0, ?_⟩, rfl⟩
      · exact ⟨fun a b h => by rcases a with a | a <;> rcases b with b | b <;> first | exact a.elim0 | exact b.elim0 | (simp at h; rw [h]), fun a => ⟨Sum.inr a, rfl⟩⟩
      · exact ⟨fun a b h => by rcases a with a | a <;> rcases b with b | b <;> first | exact a.elim0 | exact b.elim0 | (simp at h; rw [h]), fun a => ⟨Sum.inr a, rfl⟩⟩
      · subst hA
        ext i j
        rcases i with i | i <;> rcases j with j | j <;> first | exact i.elim0 | exact j.elim0 | simp
    · obtain ⟨i0, j0, h0⟩ : ∃ i0 j0, A i0 j0 ≠ 0 := by
        by_contra hc
        push Not at hc
        exact hA (by ext i j; exact hc i j)
      obtain ⟨n, rfl⟩ : ∃ n', n = n' + 1 := ⟨n - 1, by have := j0.2; omega⟩
      obtain ⟨nb, nn, nl, lu, hZ⟩ := ih n (Matrix.of fun i j => A (i0.succAbove i) (j0.succAbove j) - A (i0.succAbove i) j0 * A i0 (j0.succAbove j) / A i0 j0)
      have hf := lu.factor
      rw [hZ, add_zero] at hf
      have hf' : ∀ v c, A (i0.succAbove (lu.p v)) (j0.succAbove (lu.q c)) - A (i0.succAbove (lu.p v)) j0 * A i0 (j0.succAbove (lu.q c)) / A i0 j0 =
          fromBlocks (lu.Lbb * lu.Ubb) (lu.Lbb * lu.Ubn) (lu.Lnb * lu.Ubb) (lu.Lnb * lu.Ubn) v c := fun v c => congrFun (congrFun hf v) c
      refine ⟨nb + 1, nn, nl, ⟨extIdx i0 lu.p, extIdx j0 lu.q, extIdx_bij i0 lu.pbij, extIdx_bij j0 lu.qbij,
        Matrix.of fun i => Fin.cases (fun j => Fin.cases 1 (fun _ => 0) j) (fun i j => Fin.cases (A (i0.succAbove (lu.p (Sum.inl i))) j0 / A i0 j0) (fun j => lu.Lbb i j) j) i,
        Matrix.of fun l j => Fin.cases (A (i0.succAbove (lu.p (Sum.inr l))) j0 / A i0 j0) (fun j => lu.Lnb l j) j,
        Matrix.of fun i => Fin.cases (fun j => Fin.cases (A i0 j0) (fun j => A i0 (j0.succAbove (lu.q (Sum.inl j)))) j) (fun i j => Fin.cases 0 (fun j => lu.Ubb i j) j) i,
        Matrix.of fun i k => Fin.cases (A i0 (j0.succAbove (lu.q (Sum.inr k)))) (fun i => lu.Ubn i k) i,
        0, ?_, ?_, ?_, ?_, ?_⟩, rfl⟩
      · intro i; refine Fin.cases ?_ (fun i => ?_) i
        · simp
        · simpa using lu.unit_diag i
      · intro i j; refine Fin.cases ?_ (fun i => ?_) i <;> refine Fin.cases ?_ (fun j => ?_) j
        · simp
        · simp
        · simp
        · intro h; simpa using lu.lower i j (by simpa using h)
      · intro i; refine Fin.cases ?_ (fun i => ?_) i
        · simpa using h0
        · simpa using lu.pivots i
      · intro i j; refine Fin.cases ?_ (fun i => ?_) i <;> refine Fin.cases ?_ (fun j => ?_) j
        · simp
        · simp
        · simp
        · intro h; simpa using lu.upper i j (by simpa using h)
      · ext v c
        rcases v with v | v <;> rcases c with c | c
        · refine Fin.cases ?_ (fun i => ?_) v <;> refine Fin.cases ?_ (fun j => ?_) c
          · simp [mul_apply, Fin.sum_univ_succ, extIdx]
          · simp [mul_apply, Fin.sum_univ_succ, extIdx]
          · simp [mul_apply, Fin.sum_univ_succ, extIdx]; field_simp
          · have := hf' (Sum.inl i) (Sum.inl j)
            simp only [fromBlocks_apply₁₁, mul_apply] at this
            simp [mul_apply, Fin.sum_univ_succ, extIdx, ← this]; field_simp; ring
        · refine Fin.cases ?_ (fun i => ?_) v
          · simp [mul_apply, Fin.sum_univ_succ, extIdx]
          · have := hf' (Sum.inl i) (Sum.inr c)
            simp only [fromBlocks_apply₁₂, mul_apply] at this
            simp [mul_apply, Fin.sum_univ_succ, extIdx, ← this]; field_simp; ring
        · refine Fin.cases ?_ (fun j => ?_) c
          · simp [mul_apply, Fin.sum_univ_succ, extIdx]; field_simp
          · have := hf' (Sum.inr v) (Sum.inl j)
            simp only [fromBlocks_apply₂₁, mul_apply] at this
            simp [mul_apply, Fin.sum_univ_succ, extIdx, ← this]; field_simp; ring
        · have := hf' (Sum.inr v) (Sum.inr c)
          simp only [fromBlocks_apply₂₂, mul_apply] at this
          simp [mul_apply, Fin.sum_univ_succ, extIdx, ← this]; field_simp; ring

/-- An exact oracle exists. -/
theorem exists_exact_oracle : ∃ o : LUOracle K, ∀ M, (o M).lu.Z = 0 := by
  choose nb nn nl lu hZ using fun M : Mat K => exists_fullPivLU M.1 M.2.1 M.2.2
  exact ⟨fun M => ⟨nb M, nn M, nl M, lu M⟩, hZ⟩

end Optima.Ech
