import Verif.Model.LU
import Verif.Lemmas.Triangular
import Verif.Lemmas.Fold
import Mathlib.Data.Fintype.Card
import Mathlib.LinearAlgebra.Matrix.Notation

/-!
# C21: `LU`
-/

set_option linter.unusedSectionVars false

namespace Optima.LU

open Matrix

variable {K : Type*} [Field K] [LinearOrder K] [IsStrictOrderedRing K] {n : ℕ}

/-- `y` is the right-hand side after forward elimination: `L*y = P*b`. -/
def Forward {A : Matrix (Fin n) (Fin n) K} (lu : FullLU A) (b y : Fin n → K) : Prop := unitLower lu.matrixLU *ᵥ y = b ∘ lu.p

/-- The pivot of row `j` fails the degeneracy test. -/
def Degenerate (eps : K) {A : Matrix (Fin n) (Fin n) K} (lu : FullLU A) (y : Fin n → K) (j : Fin n) : Prop := |lu.matrixLU j j| ≤ eps * |y j|

instance (eps : K) {A : Matrix (Fin n) (Fin n) K} (lu : FullLU A) (y : Fin n → K) : DecidablePred (Degenerate eps lu y) := fun _ => inferInstanceAs (Decidable (_ ≤ _))

theorem lowerSolve_eq (M : Matrix (Fin n) (Fin n) K) (b : Fin n → K) : unitLower M *ᵥ Tri.lowerSolve M b = b := by
  ext i
  have h := Tri.lowerUpTo_spec M b n le_rfl i i.isLt
  rw [← h]
  simp only [mulVec, dotProduct, Tri.lowerSolve, unitLower]
  rw [← Finset.add_sum_erase _ _ (Finset.mem_univ i)]
  rw [← Finset.add_sum_erase Finset.univ (fun j : Fin n => if j.val < i.val then M i j * Tri.lowerUpTo M b n j else 0) (Finset.mem_univ i)]
  simp only [lt_irrefl, if_false, if_true, zero_add, one_mul]
  rw [add_comm]
  congr 1
  refine Finset.sum_congr rfl fun j hj => ?_
  have hj := Finset.ne_of_mem_erase hj
  rw [if_neg hj]
  by_cases hlt : j < i
  · rw [if_pos hlt, if_pos (Fin.lt_def.1 hlt)]
  · rw [if_neg hlt, if_neg (fun h => hlt (Fin.lt_def.2 h)), zero_mul]

theorem unitLower_injective (M : Matrix (Fin n) (Fin n) K) {y z : Fin n → K} (h : unitLower M *ᵥ y = unitLower M *ᵥ z) : y = z := by
  have key : ∀ k : ℕ, ∀ i : Fin n, i.val < k → y i = z i := by
    intro k
    induction k with
    | zero => intro i hi; omega
    | succ k ih =>
      intro i hi
      have e := congrFun h i
      simp only [mulVec, dotProduct, unitLower] at e
      rw [← Finset.add_sum_erase _ _ (Finset.mem_univ i), ← Finset.add_sum_erase Finset.univ (fun j => (if j < i then M i j else if j = i then 1 else 0) * z j) (Finset.mem_univ i)] at e
      simp only [lt_irrefl, if_false, if_true, one_mul] at e
      have : ∑ j ∈ Finset.univ.erase i, (if j < i then M i j else if j = i then 1 else 0) * y j = ∑ j ∈ Finset.univ.erase i, (if j < i then M i j else if j = i then 1 else 0) * z j := by
        refine Finset.sum_congr rfl fun j hj => ?_
        have hj := Finset.ne_of_mem_erase hj
        by_cases hlt : j < i
        · rw [ih j (by have := Fin.lt_def.1 hlt; omega)]
        · rw [if_neg hlt, if_neg hj]; simp
      rw [this] at e
      exact add_right_cancel e
  funext i
  exact key n i i.isLt

theorem upperSolve_eq (U : Matrix (Fin n) (Fin n) K) (h0 : ∀ i, U i i ≠ 0) (b : Fin n → K) : upper U *ᵥ Tri.upperSolve U b = b := by
  ext i
  have h := Tri.upperUpTo_spec U h0 b n le_rfl i (by omega)
  rw [← h]
  simp only [mulVec, dotProduct, Tri.upperSolve, upper]
  rw [← Finset.add_sum_erase _ _ (Finset.mem_univ i)]
  rw [← Finset.add_sum_erase Finset.univ (fun j : Fin n => if i < j then U i j * Tri.upperUpTo U b n j else 0) (Finset.mem_univ i)]
  simp only [lt_irrefl, if_false, le_refl, if_true, zero_add]
  rw [add_comm]
  congr 1
  refine Finset.sum_congr rfl fun j hj => ?_
  have hj := Finset.ne_of_mem_erase hj
  by_cases hlt : i < j
  · rw [if_pos hlt, if_pos (le_of_lt hlt)]
  · rw [if_neg hlt, if_neg, zero_mul]
    intro hle
    exact hlt (lt_of_le_of_ne hle (Ne.symm hj))

/-- Result of the loop of `assembleU`. -/
structure Assembled (eps : K) (M : Matrix (Fin n) (Fin n) K) (y : Fin n → K) (done : List (Fin n)) (s : Work K n) : Prop where
  diag : ∀ j, s.U j j = if j ∈ done ∧ |M j j| ≤ eps * |y j| then 1 else M j j
  upper : ∀ r c, r < c → s.U r c = if (r ∈ done ∧ |M r r| ≤ eps * |y r| ∧ n - r.val ≤ c.val) ∨ (c ∈ done ∧ |M c c| ≤ eps * |y c|) then 0 else M r c
  rhs : ∀ j, s.y j = if j ∈ done ∧ |M j j| ≤ eps * |y j| then 0 else y j
  li : ∀ j, s.isLi j = true ↔ ¬ (j ∈ done ∧ |M j j| ≤ eps * |y j|)

theorem assemble_loop (eps : K) (M : Matrix (Fin n) (Fin n) K) (y : Fin n → K) :
    Assembled eps M y (List.finRange n) ((List.finRange n).reverse.foldl (discard eps) { U := M, y := y, isLi := fun _ => true, rank := n }) ∧
    ((List.finRange n).reverse.foldl (discard eps) { U := M, y := y, isLi := fun _ => true, rank := n }).rank = n - (Finset.univ.filter fun j => |M j j| ≤ eps * |y j|).card := by
  have key : ∀ l : List (Fin n), l.Nodup → Assembled eps M y l (l.foldl (discard eps) { U := M, y := y, isLi := fun _ => true, rank := n }) ∧
      (l.foldl (discard eps) { U := M, y := y, isLi := fun _ => true, rank := n }).rank = n - (Finset.univ.filter fun j => j ∈ l ∧ |M j j| ≤ eps * |y j|).card := by
    intro l
    induction l using List.reverseRecOn with
    | nil => intro _; exact ⟨⟨by simp, by simp, by simp, by simp⟩, by simp⟩
    | append_singleton l a ih =>
      intro hnd
      have hnd' : l.Nodup := (List.nodup_append.1 hnd).1
      have hal : a ∉ l := fun h => (List.nodup_append.1 hnd).2.2 a h a (by simp) rfl
      obtain ⟨hs, hr⟩ := ih hnd'
      rw [List.foldl_append]
      generalize l.foldl (discard eps) _ = s at hs hr
      simp only [List.foldl_cons, List.foldl_nil]
      have hUa : s.U a a = M a a := by rw [hs.diag]; simp [hal]
      have hya : s.y a = y a := by rw [hs.rhs]; simp [hal]
      unfold discard
      rw [hUa, hya]
      split_ifs with hc
      · refine ⟨⟨?_, ?_, ?_, ?_⟩, ?_⟩
        · intro j
          by_cases hja : j = a
          · subst hja; simp [hc]
          · simp only [hja, false_and, if_false, hs.diag, List.mem_append, List.mem_singleton, or_false]
        · intro r c hrc
          have hrc' := Fin.lt_def.1 hrc
          dsimp only
          rw [if_neg (by rintro ⟨rfl, rfl⟩; exact lt_irrefl _ hrc)]
          by_cases hca : c = a
          · subst hca
            rw [if_pos ⟨rfl, hrc'⟩, if_pos (Or.inr ⟨by simp, hc⟩)]
          · rw [if_neg (by tauto)]
            by_cases hra : r = a
            · subst hra
              rw [hs.upper r c hrc]
              by_cases h1 : n - r.val ≤ c.val
              · rw [if_pos ⟨rfl, h1⟩, if_pos (Or.inl ⟨by simp, hc, h1⟩)]
              · rw [if_neg (by tauto)]
                simp only [h1, and_false, false_or, List.mem_append, List.mem_singleton, hca, or_false]
            · rw [if_neg (by tauto), hs.upper r c hrc]
              simp only [List.mem_append, List.mem_singleton, hca, hra, or_false]
        · intro j
          by_cases hja : j = a
          · subst hja; simp [hc]
          · simp only [Function.update_of_ne hja, hs.rhs, List.mem_append, List.mem_singleton, hja, or_false]
        · intro j
          by_cases hja : j = a
          · subst hja; simp [hc]
          · simp only [Function.update_of_ne hja, hs.li, List.mem_append, List.mem_singleton, hja, or_false]
        · have : (Finset.univ.filter fun j => j ∈ l ++ [a] ∧ |M j j| ≤ eps * |y j|) = insert a (Finset.univ.filter fun j => j ∈ l ∧ |M j j| ≤ eps * |y j|) := by
            ext j
            simp only [Finset.mem_filter, Finset.mem_univ, true_and, Finset.mem_insert, List.mem_append, List.mem_singleton]
            constructor
            · rintro ⟨h1 | h1, h2⟩
              · exact Or.inr ⟨h1, h2⟩
              · exact Or.inl h1
            · rintro (h1 | ⟨h1, h2⟩)
              · subst h1; exact ⟨Or.inr rfl, hc⟩
              · exact ⟨Or.inl h1, h2⟩
          rw [this, Finset.card_insert_of_notMem (by simp [hal])]
          dsimp only
          rw [hr]; omega
      · have hiff : ∀ j, (j ∈ l ++ [a] ∧ |M j j| ≤ eps * |y j|) ↔ (j ∈ l ∧ |M j j| ≤ eps * |y j|) := by
          intro j
          simp only [List.mem_append, List.mem_singleton]
          constructor
          · rintro ⟨h1 | h1, h2⟩
            · exact ⟨h1, h2⟩
            · subst h1; exact absurd h2 hc
          · rintro ⟨h1, h2⟩; exact ⟨Or.inl h1, h2⟩
        refine ⟨⟨?_, ?_, ?_, ?_⟩, ?_⟩
        · intro j; rw [hs.diag]; simp only [hiff]
        · intro r c hrc; rw [hs.upper r c hrc]; simp only [hiff, ← and_assoc]
        · intro j; rw [hs.rhs]; simp only [hiff]
        · intro j; rw [hs.li]; simp only [hiff]
        · rw [hr]; simp only [hiff]
  have := key (List.finRange n).reverse (List.nodup_reverse.2 (List.nodup_finRange n))
  obtain ⟨h1, h2⟩ := this
  refine ⟨⟨?_, ?_, ?_, ?_⟩, ?_⟩
  · intro j; rw [h1.diag]; simp
  · intro r c hrc; rw [h1.upper r c hrc]; simp
  · intro j; rw [h1.rhs]; simp
  · intro j; rw [h1.li]; simp
  · rw [h2]; simp

/-- The system solved by the backward substitution. -/
theorem solve_system (eps : K) (heps : 0 ≤ eps) (hn : n ≠ 1) {A : Matrix (Fin n) (Fin n) K} (lu : FullLU A) (rank0 : ℕ) (b y : Fin n → K) (hy : Forward lu b y) :
    ∃ x : Fin n → K, (∀ j, (solve eps lu rank0 b).1 (lu.q j) = x j) ∧
      (∀ j, Degenerate eps lu y j → x j + ∑ k, (if j < k ∧ k.val < n - j.val ∧ ¬ Degenerate eps lu y k then lu.matrixLU j k * x k else 0) = 0) ∧
      (∀ j, ¬ Degenerate eps lu y j → lu.matrixLU j j * x j + ∑ k, (if j < k ∧ ¬ Degenerate eps lu y k then lu.matrixLU j k * x k else 0) = y j) ∧
      (∀ j, (solve eps lu rank0 b).2.1 (lu.q j) = true ↔ ¬ Degenerate eps lu y j) ∧
      (solve eps lu rank0 b).2.2 = n - (Finset.univ.filter fun j => |lu.matrixLU j j| ≤ eps * |y j|).card := by
  have hyL : Tri.lowerSolve lu.matrixLU (b ∘ lu.p) = y := unitLower_injective lu.matrixLU ((lowerSolve_eq _ _).trans hy.symm)
  obtain ⟨hs, hr⟩ := assemble_loop eps lu.matrixLU y
  set s := (List.finRange n).reverse.foldl (discard eps) { U := lu.matrixLU, y := y, isLi := fun _ => true, rank := n } with hsdef
  have hsol : solve eps lu rank0 b = (Tri.upperSolve s.U s.y ∘ lu.q.symm, s.isLi ∘ lu.q.symm, s.rank) := by
    unfold solve assembleU
    dsimp only
    rw [if_neg hn, hyL]
  rw [hsol]
  have hd : ∀ i, s.U i i ≠ 0 := by
    intro i
    rw [hs.diag]
    split_ifs with h
    · exact one_ne_zero
    · intro h0
      apply h
      refine ⟨List.mem_finRange i, ?_⟩
      rw [h0, abs_zero]
      exact mul_nonneg heps (abs_nonneg _)
  have hspec := Tri.upperUpTo_spec s.U hd s.y n le_rfl
  refine ⟨Tri.upperSolve s.U s.y, by simp, ?_, ?_, ?_, hr⟩
  · intro j hj
    have e := hspec j (by omega)
    have hj' : |lu.matrixLU j j| ≤ eps * |y j| := hj
    rw [hs.diag, hs.rhs, if_pos ⟨List.mem_finRange j, hj'⟩, if_pos ⟨List.mem_finRange j, hj'⟩, one_mul, add_comm] at e
    refine Eq.trans ?_ e
    unfold Tri.upperSolve
    congr 1
    refine Finset.sum_congr rfl fun k _ => ?_
    by_cases hjk : j < k
    · rw [if_pos hjk, hs.upper j k hjk]
      simp only [List.mem_finRange, true_and, Degenerate, hj', hjk]
      by_cases h1 : n - j.val ≤ k.val
      · simp [h1, Nat.not_lt.2 h1]
      · by_cases h2 : |lu.matrixLU k k| ≤ eps * |y k|
        · simp [h2]
        · simp [h1, h2, Nat.lt_of_not_le h1]
    · rw [if_neg hjk, if_neg (by tauto)]
  · intro j hj
    have e := hspec j (by omega)
    have hj' : ¬ |lu.matrixLU j j| ≤ eps * |y j| := hj
    rw [hs.diag, hs.rhs, if_neg (by tauto), if_neg (by tauto), add_comm] at e
    refine Eq.trans ?_ e
    unfold Tri.upperSolve
    congr 1
    refine Finset.sum_congr rfl fun k _ => ?_
    by_cases hjk : j < k
    · rw [if_pos hjk, hs.upper j k hjk]
      simp only [List.mem_finRange, true_and, Degenerate, hj', hjk, false_and, false_or]
      by_cases h2 : |lu.matrixLU k k| ≤ eps * |y k|
      · simp [h2]
      · simp [h2]
    · rw [if_neg hjk, if_neg (by tauto)]
  · intro j
    simp only [Function.comp_apply, Equiv.symm_apply_apply]
    rw [hs.li]
    simp [Degenerate]

/-- What a retained equation says about the original system: with `x` zero at the discarded unknowns, `(U x)_j = y_j`. -/
theorem upper_row {A : Matrix (Fin n) (Fin n) K} (lu : FullLU A) (x : Fin n → K) (j : Fin n) :
    (upper lu.matrixLU *ᵥ x) j = lu.matrixLU j j * x j + ∑ k, (if j < k then lu.matrixLU j k * x k else 0) := by
  simp only [mulVec, dotProduct, upper]
  rw [← Finset.add_sum_erase _ _ (Finset.mem_univ j)]
  rw [← Finset.add_sum_erase Finset.univ (fun k : Fin n => if j < k then lu.matrixLU j k * x k else 0) (Finset.mem_univ j)]
  simp only [lt_irrefl, if_false, le_refl, if_true, zero_add]
  congr 1
  refine Finset.sum_congr rfl fun k hk => ?_
  have hk := Finset.ne_of_mem_erase hk
  by_cases hlt : j < k
  · rw [if_pos hlt, if_pos (le_of_lt hlt)]
  · rw [if_neg hlt, if_neg, zero_mul]
    intro hle
    exact hlt (lt_of_le_of_ne hle (Ne.symm hk))

theorem factor_mulVec {A : Matrix (Fin n) (Fin n) K} (lu : FullLU A) (x : Fin n → K) :
    A *ᵥ (x ∘ lu.q.symm) = (unitLower lu.matrixLU *ᵥ (upper lu.matrixLU *ᵥ x)) ∘ lu.p.symm := by
  rw [mulVec_mulVec, ← lu.factor]
  funext i
  simp only [mulVec, dotProduct, Function.comp_apply, submatrix_apply, Equiv.apply_symm_apply]
  rw [← Equiv.sum_comp lu.q]
  simp

/-- **C21** If no pivot fails the degeneracy test (for `n = 1`, where the test is skipped: if the pivot is not zero), `solve` returns a solution of `A*x = b`. -/
theorem lu_solve (eps : K) (heps : 0 ≤ eps) {A : Matrix (Fin n) (Fin n) K} (lu : FullLU A) (rank0 : ℕ) (b y : Fin n → K) (hy : Forward lu b y)
    (hreg : ∀ j, if n = 1 then lu.matrixLU j j ≠ 0 else eps * |y j| < |lu.matrixLU j j|) : A *ᵥ (solve eps lu rank0 b).1 = b := by
  have hyL : Tri.lowerSolve lu.matrixLU (b ∘ lu.p) = y := unitLower_injective lu.matrixLU ((lowerSolve_eq _ _).trans hy.symm)
  have main : ∃ x, (solve eps lu rank0 b).1 = x ∘ lu.q.symm ∧ upper lu.matrixLU *ᵥ x = y := by
    by_cases hn : n = 1
    · refine ⟨Tri.upperSolve lu.matrixLU y, ?_, ?_⟩
      · unfold solve assembleU
        dsimp only
        rw [if_pos hn, hyL]
      · exact upperSolve_eq _ (fun i => by have := hreg i; rwa [if_pos hn] at this) _
    · obtain ⟨x, h1, _, h3, _⟩ := solve_system eps heps hn lu rank0 b y hy
      refine ⟨x, ?_, ?_⟩
      · funext i
        rw [← lu.q.apply_symm_apply i, h1]; simp
      · have hno : ∀ j, ¬ Degenerate eps lu y j := fun j => by have := hreg j; rw [if_neg hn] at this; exact not_le.2 this
        funext j
        rw [upper_row, ← h3 j (hno j)]
        congr 1
        refine Finset.sum_congr rfl fun k _ => ?_
        simp [hno k]
  obtain ⟨x, hx, hU⟩ := main
  rw [hx, factor_mulVec, hU, hy]
  funext i; simp

/-- **C21** (partial) Some pivots fail the test. If each of them is exactly zero or lies in the second half of the diagonal, then the discarded unknowns are exactly zero and the retained
    eliminated equations `(U*x)_j = (L⁻¹*P*b)_j` hold; `rank()` is the number of retained equations and `is_li` flags them.
    (Without the condition on the position the first claim is false, see `lu_discarded_unknown_not_zero`.) -/
theorem lu_solve_degenerate_partial (eps : K) (heps : 0 ≤ eps) (hn : n ≠ 1) {A : Matrix (Fin n) (Fin n) K} (lu : FullLU A) (rank0 : ℕ) (b y : Fin n → K) (hy : Forward lu b y)
    (hpos : ∀ j, Degenerate eps lu y j → lu.matrixLU j j = 0 ∨ n ≤ 2 * j.val + 1) :
    ∃ x, (solve eps lu rank0 b).1 = x ∘ lu.q.symm ∧ (∀ j, Degenerate eps lu y j → x j = 0) ∧ (∀ j, ¬ Degenerate eps lu y j → (upper lu.matrixLU *ᵥ x) j = y j) ∧
      (∀ j, (solve eps lu rank0 b).2.1 (lu.q j) = true ↔ ¬ Degenerate eps lu y j) ∧
      (solve eps lu rank0 b).2.2 = n - (Finset.univ.filter fun j => |lu.matrixLU j j| ≤ eps * |y j|).card := by
  obtain ⟨x, h1, h2, h3, h4, h5⟩ := solve_system eps heps hn lu rank0 b y hy
  have hzero : ∀ j, Degenerate eps lu y j → x j = 0 := by
    intro j hj
    have e := h2 j hj
    rw [Finset.sum_eq_zero, add_zero] at e
    · exact e
    · intro k _
      rcases hpos j hj with h0 | h0
      · split_ifs with hk
        · have := lu.dominant j k (le_of_lt hk.1)
          rw [h0, abs_zero] at this
          rw [abs_nonpos_iff.1 this, zero_mul]
        · rfl
      · rw [if_neg]
        rintro ⟨a, b, _⟩
        rw [Fin.lt_def] at a
        omega
  refine ⟨x, ?_, hzero, ?_, h4, h5⟩
  · funext i
    rw [← lu.q.apply_symm_apply i, h1]; simp
  · intro j hj
    rw [upper_row, ← h3 j hj]
    congr 1
    refine Finset.sum_congr rfl fun k _ => ?_
    by_cases hk : Degenerate eps lu y k
    · simp [hk, hzero k hk]
    · simp [hk]

/-- **C21** For every right-hand side and every matrix, a discarded unknown is bounded by its (negligible) pivot times the other unknowns. -/
theorem lu_discarded_bound (eps : K) (heps : 0 ≤ eps) (hn : n ≠ 1) {A : Matrix (Fin n) (Fin n) K} (lu : FullLU A) (rank0 : ℕ) (b y : Fin n → K) (hy : Forward lu b y)
    (j : Fin n) (hj : Degenerate eps lu y j) :
    |(solve eps lu rank0 b).1 (lu.q j)| ≤ |lu.matrixLU j j| * ∑ k, |(solve eps lu rank0 b).1 (lu.q k)| := by
  obtain ⟨x, h1, h2, h3, h4, h5⟩ := solve_system eps heps hn lu rank0 b y hy
  simp only [h1]
  have e := h2 j hj
  rw [eq_neg_of_add_eq_zero_left e, abs_neg, Finset.mul_sum]
  refine (Finset.abs_sum_le_sum_abs _ _).trans (Finset.sum_le_sum fun k _ => ?_)
  split_ifs with hk
  · rw [abs_mul]
    exact mul_le_mul_of_nonneg_right (lu.dominant j k (le_of_lt hk.1)) (abs_nonneg _)
  · rw [abs_zero]; positivity

/-- The identity permutations and the matrix `[[1,1],[0,1]]`. -/
def exLU : FullLU (K := K) !![1, 1; 0, 1] where
  p := Equiv.refl _
  q := Equiv.refl _
  matrixLU := !![1, 1; 0, 1]
  factor := by
    ext i j
    fin_cases i <;> fin_cases j <;> simp [unitLower, upper, mul_apply, Fin.sum_univ_two]
  dominant := by
    intro i j
    fin_cases i <;> fin_cases j <;> simp

/-- **C21, negation** A discarded unknown need not be zero: `U.row(j).tail(j)` clears the last `j` entries of row `j` instead of the last `n-1-j`. For `A = [[1,1],[0,1]]` and `b = (2/eps, 1)` the
    first equation is discarded, yet `x0 = -1`. -/
theorem lu_discarded_unknown_not_zero (eps : K) (h0 : 0 < eps) (h1 : eps < 1) :
    ∃ b y : Fin 2 → K, Forward exLU b y ∧ Degenerate eps exLU y 0 ∧ ∀ r, (solve eps exLU r b).1 0 = -1 := by
  have hf : Forward (exLU (K := K)) ![2 / eps, 1] ![2 / eps, 1] := by
    unfold Forward
    ext i
    fin_cases i <;> simp [exLU, unitLower, mulVec, dotProduct, Fin.sum_univ_two]
  have hd0 : Degenerate eps (exLU (K := K)) ![2 / eps, 1] 0 := by
    simp only [Degenerate, exLU]
    simp only [of_apply, cons_val', cons_val_zero, abs_one]
    rw [abs_of_pos (by positivity)]
    field_simp
    norm_num
  have hd1 : ¬ Degenerate eps (exLU (K := K)) ![2 / eps, 1] 1 := by
    simp only [Degenerate, exLU]
    simpa using h1
  refine ⟨![2 / eps, 1], ![2 / eps, 1], hf, hd0, fun r => ?_⟩
  obtain ⟨x, e1, e2, e3, _⟩ := solve_system eps h0.le (by norm_num) exLU r _ _ hf
  have a := e2 0 hd0
  have c := e3 1 hd1
  rw [Fin.sum_univ_two, if_neg (by simp), if_pos ⟨by simp, by simp, hd1⟩] at a
  rw [Fin.sum_univ_two, if_neg (by simp), if_neg (by simp)] at c
  simp [exLU] at a c
  have := e1 0
  simp [exLU] at this
  rw [show (solve eps exLU r ![2 / eps, 1]).1 0 = x 0 from this]
  rw [c] at a
  linarith

/-- A right-hand side for which all pivots pass, and one with a discarded (zero) pivot, so that both theorems apply to non-trivial cases. -/
example : Forward (exLU (K := ℚ)) ![3, 1] ![3, 1] ∧ ∀ j, if 2 = 1 then (exLU (K := ℚ)).matrixLU j j ≠ 0 else (1/100) * |(![3, 1] : Fin 2 → ℚ) j| < |(exLU (K := ℚ)).matrixLU j j| := by
  refine ⟨?_, ?_⟩
  · unfold Forward
    ext i
    fin_cases i <;> simp [exLU, unitLower, mulVec, dotProduct, Fin.sum_univ_two]
  · intro j
    fin_cases j <;> simp [exLU] <;> norm_num

/-- **C21, negation** For one equation `rank()` is not updated: it returns whatever it was before (indeterminate for a new object). -/
theorem lu_rank_stale (eps : K) {A : Matrix (Fin 1) (Fin 1) K} (lu : FullLU A) (rank0 : ℕ) (b : Fin 1 → K) : (solve eps lu rank0 b).2.2 = rank0 := rfl

/-- A factorization that needs a row exchange: `A = [[1,1],[2,0]]`. -/
def exLUswap : FullLU (K := K) !![1, 1; 2, 0] where
  p := Equiv.swap 0 1
  q := Equiv.refl _
  matrixLU := !![2, 0; 1 / 2, 1]
  factor := by
    ext i j
    fin_cases i <;> fin_cases j <;> simp [unitLower, upper, mul_apply, Fin.sum_univ_two]
  dominant := by
    intro i j
    fin_cases i <;> fin_cases j <;> simp

/-- **C21** `P()` together with the column order used by `solve` describes the factorization. -/
theorem lu_factorization {A : Matrix (Fin n) (Fin n) K} (lu : FullLU A) : A.submatrix (reportedP lu) lu.q = unitLower lu.matrixLU * upper lu.matrixLU := lu.factor

/-- **C21, negation** `Q()` returns the row permutation, so `P()*A*Q() = L*U` fails. -/
theorem lu_reportedQ_wrong : (!![1, 1; 2, 0] : Matrix (Fin 2) (Fin 2) K).submatrix (reportedP (exLUswap (K := K))) (reportedQ (exLUswap (K := K))) ≠
    unitLower (exLUswap (K := K)).matrixLU * upper (exLUswap (K := K)).matrixLU := by
  rw [← lu_factorization]
  intro h
  have := congrFun (congrFun h 0) 0
  simp [reportedP, reportedQ, exLUswap] at this

/-- Non-vacuity of the contract: every square matrix has a factorization with complete pivoting. -/
theorem exists_fullLU : ∀ (n : ℕ) (A : Matrix (Fin n) (Fin n) K), Nonempty (FullLU A) := by
  intro n
  induction n with
  | zero => exact fun A => ⟨⟨Equiv.refl _, Equiv.refl _, A, by ext i; exact i.elim0, fun i => i.elim0⟩⟩
  | succ n ih =>
    intro A
    obtain ⟨⟨i0, j0⟩, _, hmax⟩ := Finset.exists_max_image (Finset.univ : Finset (Fin (n+1) × Fin (n+1))) (fun p => |A p.1 p.2|) ⟨(0, 0), Finset.mem_univ _⟩
    have hmax : ∀ i j, |A i j| ≤ |A i0 j0| := fun i j => hmax (i, j) (Finset.mem_univ _)
    by_cases h0 : A i0 j0 = 0
    · have hA : A = 0 := by
        ext i j
        have := hmax i j
        rw [h0, abs_zero] at this
        simpa using this
      subst hA
      refine ⟨⟨Equiv.refl _, Equiv.refl _, 0, ?_, by simp⟩⟩
      have : upper (0 : Matrix (Fin (n+1)) (Fin (n+1)) K) = 0 := by ext i j; simp [upper]
      rw [this, Matrix.mul_zero]; rfl
    · obtain ⟨lu⟩ := ih (fun i j => A (i0.succAbove i) (j0.succAbove j) - A (i0.succAbove i) j0 / A i0 j0 * A i0 (j0.succAbove j))
      have hbij : ∀ (a : Fin (n+1)) (f : Equiv.Perm (Fin n)), Function.Bijective (Fin.cons a (fun i => a.succAbove (f i)) : Fin (n+1) → Fin (n+1)) := by
        intro a f
        rw [← Finite.injective_iff_bijective]
        rw [Fin.cons_injective_iff]
        refine ⟨?_, Fin.succAbove_right_injective.comp f.injective⟩
        rintro ⟨i, hi⟩
        exact Fin.succAbove_ne _ _ hi
      let M : Matrix (Fin (n+1)) (Fin (n+1)) K := fun i j =>
        Fin.cases (Fin.cases (A i0 j0) (fun j => A i0 (j0.succAbove (lu.q j))) j) (fun i => Fin.cases (A (i0.succAbove (lu.p i)) j0 / A i0 j0) (fun j => lu.matrixLU i j) j) i
      refine ⟨⟨Equiv.ofBijective _ (hbij i0 lu.p), Equiv.ofBijective _ (hbij j0 lu.q), M, ?_, ?_⟩⟩
      · have hfac : ∀ i j, A (i0.succAbove (lu.p i)) (j0.succAbove (lu.q j)) - A (i0.succAbove (lu.p i)) j0 / A i0 j0 * A i0 (j0.succAbove (lu.q j))
            = ∑ k, unitLower lu.matrixLU i k * upper lu.matrixLU k j := fun i j => congrFun (congrFun lu.factor i) j
        ext i j
        simp only [submatrix_apply, Equiv.ofBijective_apply, mul_apply, Fin.sum_univ_succ]
        refine Fin.cases ?_ (fun i => ?_) i <;> refine Fin.cases ?_ (fun j => ?_) j
        · simp [unitLower, upper, M]
        · simp [unitLower, upper, M]
        · simp [unitLower, upper, M, h0]
        · have hL : ∀ k, unitLower M i.succ (Fin.succ k) = unitLower lu.matrixLU i k := by
            intro k; simp [unitLower, M]
          have hU : ∀ k, upper M (Fin.succ k) j.succ = upper lu.matrixLU k j := by
            intro k; simp [upper, M]
          simp only [hL, hU, ← hfac]
          simp [unitLower, upper, M]
      · intro i j
        refine Fin.cases ?_ (fun i => ?_) i <;> refine Fin.cases ?_ (fun j => ?_) j
        · simp [M]
        · intro _; simpa [M] using hmax _ _
        · intro h; exact absurd h (by simp)
        · intro h
          simpa [M] using lu.dominant i j (by simpa using h)

end Optima.LU
