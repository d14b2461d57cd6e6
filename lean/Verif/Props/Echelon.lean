import Verif.Lemmas.EchelonPriority
import Mathlib.LinearAlgebra.Matrix.ToLin
import Mathlib.LinearAlgebra.FiniteDimensional.Lemmas
import Mathlib.LinearAlgebra.Matrix.Notation
import Mathlib.Algebra.Order.Ring.Rat
import Mathlib.Data.Fintype.Sum

/-!
# C15, C16, C17: `Echelonizer`
-/

set_option linter.unusedSectionVars false

namespace Optima.Ech

open Matrix

section Field

variable {K : Type*} [Field K] [LinearOrder K] [IsStrictOrderedRing K] {m n nb nn nl : ℕ}

/-- Specification: `(R, S, Q)` is a canonical form of `A` — `Q` is a permutation of the variables, the first `nb` rows of `R*A*Q` are `[I S]`, `R` is invertible,
    and the columns of the basic variables are linearly independent. -/
structure Canonical (A : Matrix (Fin m) (Fin n) K) (R : Matrix (Fin nb ⊕ Fin nl) (Fin m) K) (S : Matrix (Fin nb) (Fin nn) K)
    (Q : Fin nb ⊕ Fin nn → Fin n) : Prop where
  permutation : Function.Bijective Q
  top : (R * A.submatrix id Q).submatrix Sum.inl id = fromCols 1 S
  invertible : Function.Bijective (fun y : Fin m → K => R *ᵥ y)
  independent : LinearIndependent K (fun i : Fin nb => fun r => A r (Q (Sum.inl i)))

theorem Core.canonical {A : Matrix (Fin m) (Fin n) K} {R : Matrix (Fin nb ⊕ Fin nl) (Fin m) K} {S : Matrix (Fin nb) (Fin nn) K}
    {Q : Fin nb ⊕ Fin nn → Fin n} (h : Core A R S Q) : Canonical A R S Q := by
  refine ⟨h.qbij, ?_, ?_, ?_⟩
  · ext i c
    rcases c with j | k
    · have := h.topB i j
      simpa [mul_apply, one_apply] using this
    · have := h.topN i k
      simpa [mul_apply] using this
  · have hinj : Function.Injective (R.mulVecLin) := by
      rw [← LinearMap.ker_eq_bot, LinearMap.ker_eq_bot']
      intro y hy
      exact h.inj y hy
    refine ⟨hinj, ?_⟩
    have hd : Module.finrank K (Fin m → K) = Module.finrank K (Fin nb ⊕ Fin nl → K) := by
      simp [h.card]
    exact (LinearMap.injective_iff_surjective_of_finrank_eq_finrank hd).1 hinj
  · rw [Fintype.linearIndependent_iff]
    intro g hg i
    have h1 : ∑ r, R (Sum.inl i) r * (∑ j, g j * A r (Q (Sum.inl j))) = g i := by
      have : ∀ r, R (Sum.inl i) r * (∑ j, g j * A r (Q (Sum.inl j))) = ∑ j, g j * (R (Sum.inl i) r * A r (Q (Sum.inl j))) := by
        intro r; rw [Finset.mul_sum]; exact Finset.sum_congr rfl fun j _ => by ring
      simp_rw [this]
      rw [Finset.sum_comm]
      simp_rw [← Finset.mul_sum, h.topB]
      simp
    have h2 : ∀ r, ∑ j, g j * A r (Q (Sum.inl j)) = 0 := by
      intro r
      have := congrFun hg r
      simpa [Finset.sum_apply] using this
    rw [← h1]
    simp [h2]

/-- Everything that a history preserves. -/
structure Inv (A : Matrix (Fin m) (Fin n) K) (e : State K m n nb nn nl) : Prop where
  cur : Core A e.R e.S e.Q
  bak : Core A e.R0 e.S0 e.Q0
  kb : Function.Bijective e.Kb
  kn : Function.Bijective e.Kn

structure InvSpan (A : Matrix (Fin m) (Fin n) K) (e : State K m n nb nn nl) : Prop where
  cur : Spans A e.S e.Q
  bak : Spans A e.S0 e.Q0

theorem priorityStep_inv {A : Matrix (Fin m) (Fin n) K} {thr : K} (hthr : 0 ≤ thr) (w : Fin n → K) {e : State K m n nb nn nl} (h : Inv A e) (i : Fin nb) :
    Inv A (priorityStep thr w e i) := by
  rcases priorityStep_cases thr w e i with ⟨h1, _⟩ | ⟨j, h1, h2, _, _⟩
  · rw [h1]; exact h
  · rw [h1]
    have hp : e.S i j ≠ 0 := fun h0 => by rw [h0, abs_zero] at h2; exact absurd h2 (not_lt.2 hthr)
    exact ⟨swap_core h.cur i j hp, h.bak, h.kb, h.kn⟩

theorem priorityStep_span {A : Matrix (Fin m) (Fin n) K} {thr : K} (hthr : 0 ≤ thr) (w : Fin n → K) {e : State K m n nb nn nl} (h : InvSpan A e) (i : Fin nb) :
    InvSpan A (priorityStep thr w e i) := by
  rcases priorityStep_cases thr w e i with ⟨h1, _⟩ | ⟨j, h1, h2, _, _⟩
  · rw [h1]; exact h
  · rw [h1]
    have hp : e.S i j ≠ 0 := fun h0 => by rw [h0, abs_zero] at h2; exact absurd h2 (not_lt.2 hthr)
    exact ⟨swap_spans h.cur i j hp, h.bak⟩

theorem sort_bij (sort : SortImpl K) {k : ℕ} (key : Fin k → K) {a : Fin k → Fin k} (ha : Function.Bijective a) : Function.Bijective (sort.run key a) := by
  obtain ⟨π, hπ⟩ := sort.perm key a
  rw [hπ]; exact ha.comp π.bijective

theorem loop_inv {A : Matrix (Fin m) (Fin n) K} {thr : K} (hthr : 0 ≤ thr) (w : Fin n → K) {e : State K m n nb nn nl} (h : Inv A e) :
    Inv A ((List.finRange nb).foldl (priorityStep thr w) e) :=
  foldl_finRange_inv (fun _ e => Inv A e) h fun _ _ i h => priorityStep_inv hthr w h i

theorem loop_span {A : Matrix (Fin m) (Fin n) K} {thr : K} (hthr : 0 ≤ thr) (w : Fin n → K) {e : State K m n nb nn nl} (h : InvSpan A e) :
    InvSpan A ((List.finRange nb).foldl (priorityStep thr w) e) :=
  foldl_finRange_inv (fun _ e => InvSpan A e) h fun _ _ i h => priorityStep_span hthr w h i

theorem priority_inv (sort : SortImpl K) {A : Matrix (Fin m) (Fin n) K} {thr : K} (hthr : 0 ≤ thr) (w : Fin n → K) {e : State K m n nb nn nl} (h : Inv A e) :
    Inv A (updateWithPriorityWeights sort thr e w) := by
  have h1 := loop_inv hthr w h
  have hb := sort_bij sort (fun l => w (((List.finRange nb).foldl (priorityStep thr w) e).Q (Sum.inl l))) h1.kb
  have hn := sort_bij sort (fun l => w (((List.finRange nb).foldl (priorityStep thr w) e).Q (Sum.inr l))) h1.kn
  exact ⟨reorder_core h1.cur hb hn, h1.bak, hb, hn⟩

theorem priority_span (sort : SortImpl K) {A : Matrix (Fin m) (Fin n) K} {thr : K} (hthr : 0 ≤ thr) (w : Fin n → K) {e : State K m n nb nn nl} (h : Inv A e)
    (hs : InvSpan A e) : InvSpan A (updateWithPriorityWeights sort thr e w) := by
  have h1 := loop_inv hthr w h
  have h2 := loop_span hthr w hs
  have hb := sort_bij sort (fun l => w (((List.finRange nb).foldl (priorityStep thr w) e).Q (Sum.inl l))) h1.kb
  exact ⟨reorder_spans h2.cur hb, h2.bak⟩

theorem clean_eq (sigma : K) (e : State K m n nb nn nl) : clean sigma e = e := by
  cases e; simp [clean]

theorem step_inv (sort : SortImpl K) {thr : K} (hthr : 0 ≤ thr) {A : Matrix (Fin m) (Fin n) K} {e : State K m n nb nn nl} (h : Inv A e)
    (o : Op K n nb nn) (ho : o.ok thr e) : Inv A (step sort thr e o) := by
  cases o with
  | swap ib jn =>
    have ho' : |e.S ib jn| > thr := by simpa [Op.ok, swapAllowed] using ho
    have hp : e.S ib jn ≠ 0 := fun h0 => by rw [h0, abs_zero] at ho'; exact absurd ho' (not_lt.2 hthr)
    exact ⟨swap_core h.cur ib jn hp, h.bak, h.kb, h.kn⟩
  | priority w => exact priority_inv sort hthr w h
  | ordering Kb Kn => exact ⟨reorder_core h.cur ho.1 ho.2, h.bak, h.kb, h.kn⟩
  | reset => exact ⟨h.bak, h.bak, h.kb, h.kn⟩
  | clean sigma => change Inv A (clean sigma e); rw [clean_eq]; exact h
  | recompute => exact h

theorem step_span (sort : SortImpl K) {thr : K} (hthr : 0 ≤ thr) {A : Matrix (Fin m) (Fin n) K} {e : State K m n nb nn nl} (hi : Inv A e) (h : InvSpan A e)
    (o : Op K n nb nn) (ho : o.ok thr e) : InvSpan A (step sort thr e o) := by
  cases o with
  | swap ib jn =>
    have ho' : |e.S ib jn| > thr := by simpa [Op.ok, swapAllowed] using ho
    have hp : e.S ib jn ≠ 0 := fun h0 => by rw [h0, abs_zero] at ho'; exact absurd ho' (not_lt.2 hthr)
    exact ⟨swap_spans h.cur ib jn hp, h.bak⟩
  | priority w => exact priority_span sort hthr w hi h
  | ordering Kb Kn => exact ⟨reorder_spans h.cur ho.1, h.bak⟩
  | reset => exact ⟨h.bak, h.bak⟩
  | clean sigma => change InvSpan A (clean sigma e); rw [clean_eq]; exact h
  | recompute => exact h

theorem reach_inv {sort : SortImpl K} {thr : K} (hthr : 0 ≤ thr) {A : Matrix (Fin m) (Fin n) K} {lu : FullPivLU A nb nn nl} {e : State K m n nb nn nl}
    (h : Reach sort thr lu e) : Inv A e := by
  induction h with
  | compute => exact ⟨compute_core lu, compute_core lu, Function.bijective_id, Function.bijective_id⟩
  | step e o _ ho ih => exact step_inv sort hthr ih o ho

theorem reach_span {sort : SortImpl K} {thr : K} (hthr : 0 ≤ thr) {A : Matrix (Fin m) (Fin n) K} {lu : FullPivLU A nb nn nl} (hZ : lu.Z = 0)
    {e : State K m n nb nn nl} (h : Reach sort thr lu e) : InvSpan A e := by
  induction h with
  | compute => exact ⟨compute_spans lu hZ, compute_spans lu hZ⟩
  | step e o h ho ih => exact step_span sort hthr (reach_inv hthr h) ih o ho

/-! ### C15 -/

/-- **C15 (partial)**: the full statement is `R*A*Q = [I S; 0 0]` (= `C()`), `Q` a permutation, `R` invertible, basic columns independent, after every history.
    Proved for every matrix, every rank decision and every history: all of it except the zero rows.  The last `m - nb` rows of `R*A*Q` are in fact *not* zero in
    general, see `bottom_rows_not_zero`; without dependent rows the full equation is `echelon_full_row_rank`. -/
theorem echelon_history_partial {sort : SortImpl K} {thr : K} (hthr : 0 ≤ thr) {A : Matrix (Fin m) (Fin n) K} {lu : FullPivLU A nb nn nl}
    {e : State K m n nb nn nl} (h : Reach sort thr lu e) : Canonical A e.R e.S e.Q := (reach_inv hthr h).cur.canonical

/-- **C15**, matrices without linearly dependent rows: `R*A*Q = C()` after every history. -/
theorem echelon_full_row_rank {sort : SortImpl K} {thr : K} (hthr : 0 ≤ thr) {A : Matrix (Fin m) (Fin n) K} {lu : FullPivLU A nb nn 0}
    {e : State K m n nb nn 0} (h : Reach sort thr lu e) : e.R * A.submatrix id e.Q = canonicalC e := by
  have hc := (echelon_history_partial hthr h).top
  ext r c
  rcases r with i | l
  · have := congrFun (congrFun hc i) c
    rcases c with j | k <;> simpa [canonicalC] using this
  · exact l.elim0

/-- **C15**, any rank, provided the rank decision of the factorisation is exact: the non-basic columns are the combinations of basic columns given by `S`, so that `[I S]`
    determines the same homogeneous system as `A`, after every history. -/
theorem echelon_same_kernel {sort : SortImpl K} {thr : K} (hthr : 0 ≤ thr) {A : Matrix (Fin m) (Fin n) K} {lu : FullPivLU A nb nn nl} (hZ : lu.Z = 0)
    {e : State K m n nb nn nl} (h : Reach sort thr lu e) (x : Fin n → K) :
    A *ᵥ x = 0 ↔ ∀ i, x (e.Q (Sum.inl i)) + ∑ k, e.S i k * x (e.Q (Sum.inr k)) = 0 := by
  have hi := (reach_inv hthr h).cur
  have hs := (reach_span hthr hZ h).cur
  have hsum : ∀ r, (A *ᵥ x) r = ∑ i, A r (e.Q (Sum.inl i)) * (x (e.Q (Sum.inl i)) + ∑ k, e.S i k * x (e.Q (Sum.inr k))) := by
    intro r
    have h1 : (A *ᵥ x) r = ∑ v, A r (e.Q v) * x (e.Q v) := (Function.Bijective.sum_comp hi.qbij fun c => A r c * x c).symm
    rw [h1, Fintype.sum_sum_type]
    simp_rw [mul_add, Finset.sum_add_distrib]
    congr 1
    simp_rw [hs r, Finset.sum_mul, Finset.mul_sum]
    rw [Finset.sum_comm]
    exact Finset.sum_congr rfl fun i _ => Finset.sum_congr rfl fun k _ => by ring
  constructor
  · intro h0
    have hind := hi.canonical.independent
    rw [Fintype.linearIndependent_iff] at hind
    refine hind (fun i => x (e.Q (Sum.inl i)) + ∑ k, e.S i k * x (e.Q (Sum.inr k))) ?_
    funext r
    have := hsum r
    rw [h0] at this
    simp only [Finset.sum_apply, Pi.smul_apply, smul_eq_mul, Pi.zero_apply] at this ⊢
    rw [this]
    exact Finset.sum_congr rfl fun i _ => mul_comm _ _
  · intro h0
    funext r
    rw [hsum r]
    simp [h0]

/-! ### C16 -/

/-- **C16**: a swap exchanges exactly the two variables in the ordering, changes nothing else in it, and swapping the same pair again restores `R`, `S` and `Q`; the pivot of the second
    swap is the reciprocal of that of the first. -/
theorem swap_exchanges (e : State K m n nb nn nl) (ib : Fin nb) (jn : Fin nn) (hp : e.S ib jn ≠ 0) :
    (swap e ib jn).Q (Sum.inl ib) = e.Q (Sum.inr jn) ∧ (swap e ib jn).Q (Sum.inr jn) = e.Q (Sum.inl ib) ∧
    (∀ v, v ≠ Sum.inl ib → v ≠ Sum.inr jn → (swap e ib jn).Q v = e.Q v) ∧
    (swap e ib jn).S ib jn = (e.S ib jn)⁻¹ ∧
    swap (swap e ib jn) ib jn = e := by
  refine ⟨by rw [swap_Q_inl, if_pos rfl], by rw [swap_Q_inr, if_pos rfl], ?_, ?_, ?_⟩
  · intro v h1 h2
    rw [swap_Q, Function.comp_apply, Equiv.swap_apply_of_ne_of_ne h1 h2]
  · rw [swap_S, if_pos rfl, if_pos rfl, one_div]
  · have hS : (swap (swap e ib jn) ib jn).S = e.S := by
      ext i k
      by_cases hi : i = ib <;> by_cases hk : k = jn
      · subst hi; subst hk; simp [swap_S]
      · subst hi; simp [swap_S, hk]; field_simp
      · subst hk; simp [swap_S, hi]; field_simp
      · simp only [swap_S, hi, hk, if_true, if_false]; field_simp; ring
    have hR : (swap (swap e ib jn) ib jn).R = e.R := by
      ext r c
      rcases r with i | l
      · by_cases hi : i = ib
        · subst hi
          simp [swap, hp]
        · simp [swap, hi]
          field_simp
          ring
      · rfl
    have hQ : (swap (swap e ib jn) ib jn).Q = e.Q := by
      funext v
      simp [swap_Q]
    calc swap (swap e ib jn) ib jn
        = { e with R := (swap (swap e ib jn) ib jn).R, S := (swap (swap e ib jn) ib jn).S, Q := (swap (swap e ib jn) ib jn).Q } := rfl
      _ = e := by rw [hS, hR, hQ]

/-- **C16**: the assertion of the code fails exactly for a pivot at or below the threshold; when it passes (threshold non-negative) the pivot is non-zero. -/
theorem swap_assertion {thr : K} (hthr : 0 ≤ thr) (e : State K m n nb nn nl) (ib : Fin nb) (jn : Fin nn) :
    (swapAllowed thr e ib jn = false ↔ |e.S ib jn| ≤ thr) ∧ (swapAllowed thr e ib jn = true → e.S ib jn ≠ 0) := by
  refine ⟨by simp [swapAllowed], fun h h0 => ?_⟩
  simp only [swapAllowed, decide_eq_true_eq, h0, abs_zero] at h
  exact absurd h (not_lt.2 hthr)

/-! ### C17 -/

/-- **C17**, order: for every state, weights and threshold, basic and non-basic variables are each listed in descending weight. -/
theorem priority_descending (sort : SortImpl K) (thr : K) (e : State K m n nb nn nl) (w : Fin n → K) :
    (∀ i j : Fin nb, i ≤ j → w ((updateWithPriorityWeights sort thr e w).Q (Sum.inl j)) ≤ w ((updateWithPriorityWeights sort thr e w).Q (Sum.inl i))) ∧
    (∀ i j : Fin nn, i ≤ j → w ((updateWithPriorityWeights sort thr e w).Q (Sum.inr j)) ≤ w ((updateWithPriorityWeights sort thr e w).Q (Sum.inr i))) := by
  constructor
  · intro i j hij
    exact sort.sorted (fun l => w (((List.finRange nb).foldl (priorityStep thr w) e).Q (Sum.inl l))) _ i j hij
  · intro i j hij
    exact sort.sorted (fun l => w (((List.finRange nb).foldl (priorityStep thr w) e).Q (Sum.inr l))) _ i j hij

/-- Final state is locally optimal. -/
theorem priority_localOpt (sort : SortImpl K) {thr : K} (e : State K m n nb nn nl) (w : Fin n → K) (hc : CleanTrace thr w e) :
    LocalOpt w (updateWithPriorityWeights sort thr e w).S (updateWithPriorityWeights sort thr e w).Q := by
  intro i k h
  exact loop_rowOpt w e hc _ _ h

/-- **C17 (partial)**: the full statement has no hypothesis on the entries of `S`; the code treats entries of magnitude `≤ thr` (1e-8) as zeros and the claim is then false
    (`priority_not_optimal_below_threshold`).  Proved: for every matrix with exact rank decision, every reachable state and all weights, if no entry met during the pass lies strictly between zero
    and the threshold, then after `updateWithPriorityWeights(w)`
    (1) no basic variable can be exchanged for a heavier non-basic one,
    (2) every linearly independent set of columns injects into the basis without losing weight,
    (3) the basis has the largest total weight of all bases, and
    (4) if some basis has only positive weights, so has the chosen one. -/
theorem priority_max_weight_partial {sort : SortImpl K} {thr : K} (hthr : 0 ≤ thr) {A : Matrix (Fin m) (Fin n) K} {lu : FullPivLU A nb nn nl} (hZ : lu.Z = 0)
    {e : State K m n nb nn nl} (h : Reach sort thr lu e) (w : Fin n → K) (hc : CleanTrace thr w e) :
    let e' := updateWithPriorityWeights sort thr e w
    (∀ i k, e'.S i k ≠ 0 → w (e'.Q (Sum.inr k)) ≤ w (e'.Q (Sum.inl i))) ∧
    (∀ J : Finset (Fin n), LinearIndependent K (fun j : J => fun r => A r j) →
      ∃ f : J → Fin nb, Function.Injective f ∧ ∀ j : J, w j ≤ w (e'.Q (Sum.inl (f j)))) ∧
    (∀ J : Finset (Fin n), LinearIndependent K (fun j : J => fun r => A r j) → J.card = nb → ∑ j ∈ J, w j ≤ ∑ i, w (e'.Q (Sum.inl i))) ∧
    (∀ J : Finset (Fin n), LinearIndependent K (fun j : J => fun r => A r j) → J.card = nb → (∀ j ∈ J, 0 < w j) → ∀ i, 0 < w (e'.Q (Sum.inl i))) := by
  intro e'
  have hi := reach_inv hthr h
  have hi' : Inv A e' := priority_inv sort hthr w hi
  have hs' : InvSpan A e' := priority_span sort hthr w hi (reach_span hthr hZ h)
  have hl : LocalOpt w e'.S e'.Q := priority_localOpt sort e w hc
  have hinj := localOpt_injection hi'.cur.qbij hs'.cur w hl
  have hbij : ∀ J : Finset (Fin n), J.card = nb → ∀ f : J → Fin nb, Function.Injective f → Function.Bijective f := by
    intro J hJ f hf
    rw [Fintype.bijective_iff_injective_and_card]
    exact ⟨hf, by simp [hJ]⟩
  refine ⟨hl, hinj, ?_, ?_⟩
  · intro J hJ hcard
    obtain ⟨f, hf, hw⟩ := hinj J hJ
    rw [← Finset.sum_coe_sort J, ← Function.Bijective.sum_comp (hbij J hcard f hf) fun i => w (e'.Q (Sum.inl i))]
    exact Finset.sum_le_sum fun j _ => hw j
  · intro J hJ hcard hpos i
    obtain ⟨f, hf, hw⟩ := hinj J hJ
    obtain ⟨j, rfl⟩ := (hbij J hcard f hf).2 i
    exact (hpos j j.2).trans_le (hw j)

/-- The hypothesis on the entries is void with threshold zero. -/
theorem priority_max_weight_threshold_zero {sort : SortImpl K} {A : Matrix (Fin m) (Fin n) K} {lu : FullPivLU A nb nn nl} (hZ : lu.Z = 0)
    {e : State K m n nb nn nl} (h : Reach sort 0 lu e) (w : Fin n → K) (J : Finset (Fin n))
    (hJ : LinearIndependent K (fun j : J => fun r => A r j)) (hcard : J.card = nb) :
    ∑ j ∈ J, w j ≤ ∑ i, w ((updateWithPriorityWeights sort 0 e w).Q (Sum.inl i)) :=
  (priority_max_weight_partial le_rfl hZ h w (cleanTrace_zero w e)).2.2.1 J hJ hcard

end Field

/-! ### Concrete cases and negations -/

/-- Two equal rows `A = [[1],[1]]`: rank 1, one dependent row. -/
def Adep : Matrix (Fin 2) (Fin 1) ℚ := !![1; 1]

def ludep : FullPivLU Adep 1 0 1 where
  p := fun v => match v with | Sum.inl _ => 0 | Sum.inr _ => 1
  q := fun v => match v with | Sum.inl _ => 0 | Sum.inr k => k.elim0
  pbij := by decide
  qbij := by decide
  Lbb := !![1]
  Lnb := !![1]
  Ubb := !![1]
  Ubn := fun _ k => k.elim0
  Z := 0
  unit_diag := by decide
  lower := by unfold Matrix.of; decide
  pivots := by decide
  upper := by unfold Matrix.of; decide
  factor := by decide +kernel

/-- **C15, negation** of the zero rows: with dependent rows `R*A*Q` is not `C()` (the reported canonical form): its last rows are rows of `A`, here `1 ≠ 0`. -/
theorem bottom_rows_not_zero :
    Reach (sortImpl (K := ℚ)) 0 ludep (compute ludep) ∧ (compute ludep).R * Adep.submatrix id (compute ludep).Q ≠ canonicalC (compute ludep) := by
  refine ⟨Reach.compute, fun h => ?_⟩
  have := congrFun (congrFun h (Sum.inr 0)) (Sum.inl 0)
  revert this
  decide +kernel

/-- `A = [1 2 3; 0 1 1]`, of rank 2. -/
def Aex : Matrix (Fin 2) (Fin 3) ℚ := !![1, 2, 3; 0, 1, 1]

def luex : FullPivLU Aex 2 1 0 where
  p := fun v => match v with | Sum.inl i => i | Sum.inr k => k.elim0
  q := fun v => match v with | Sum.inl 0 => 2 | Sum.inl 1 => 0 | Sum.inr _ => 1
  pbij := by decide
  qbij := by decide
  Lbb := !![1, 0; 1/3, 1]
  Lnb := fun k _ => k.elim0
  Ubb := !![3, 1; 0, -1/3]
  Ubn := !![2; 1/3]
  Z := 0
  unit_diag := by decide +kernel
  lower := by unfold Matrix.of; decide +kernel
  pivots := by decide +kernel
  upper := by unfold Matrix.of; decide +kernel
  factor := by decide +kernel

/-- The hypotheses of the C15-C17 theorems are met by a history with a swap and a priority update. -/
example : ∃ e, Reach (sortImpl (K := ℚ)) (1/100000000) luex e ∧ luex.Z = 0 ∧ (swap (compute luex) 0 0).S 0 0 ≠ 0 ∧
    e = updateWithPriorityWeights sortImpl (1/100000000) (swap (compute luex) 0 0) ![1, 2, 3] := by
  refine ⟨_, Reach.step _ (Op.priority ![1, 2, 3]) (Reach.step _ (Op.swap 0 0) Reach.compute ?_) trivial, rfl, ?_, rfl⟩
  · show swapAllowed _ _ _ _ = true; decide +kernel
  · decide +kernel

def cleanB {a b : ℕ} (thr : ℚ) (S : Fin a → Fin b → ℚ) : Bool := decide (∀ i k, |S i k| ≤ thr → S i k = 0)

theorem cleanB_spec {a b : ℕ} {thr : ℚ} {S : Fin a → Fin b → ℚ} (h : cleanB thr S = true) : ∀ i k, |S i k| ≤ thr → S i k = 0 :=
  of_decide_eq_true h

theorem cleanS_of_cleanB {a b : ℕ} {thr : ℚ} {S : Matrix (Fin a) (Fin b) ℚ} (h : cleanB thr S = true) : CleanS thr S := cleanB_spec h

/-- The hypothesis of `priority_max_weight_partial` on the entries is met with the threshold of the code. -/
example : CleanTrace (1/100000000) ![1, 2, 3] (compute luex) := by
  intro l r h
  have hl : l = [] ∨ l = [0] ∨ l = [0, 1] := by
    have : List.finRange 2 = [0, 1] := by decide
    rw [this] at h
    rcases l with _ | ⟨a, _ | ⟨b, _ | ⟨c, l⟩⟩⟩ <;> simp_all
  rcases hl with rfl | rfl | rfl <;> exact cleanS_of_cleanB (by decide +kernel)

/-- `A = [1, 1e-9]`: the entry of `S` is below the threshold of the code. -/
def Athr : Matrix (Fin 1) (Fin 2) ℚ := !![1, 1/1000000000]

def luthr : FullPivLU Athr 1 1 0 where
  p := fun v => match v with | Sum.inl i => i | Sum.inr k => k.elim0
  q := fun v => match v with | Sum.inl _ => 0 | Sum.inr _ => 1
  pbij := by decide
  qbij := by decide
  Lbb := !![1]
  Lnb := fun k _ => k.elim0
  Ubb := !![1]
  Ubn := !![1/1000000000]
  Z := 0
  unit_diag := by decide
  lower := by unfold Matrix.of; decide
  pivots := by decide
  upper := by unfold Matrix.of; decide
  factor := by decide +kernel

/-- **C17, negation** for the threshold 1e-8 of the code: the basis `{0}` of weight 1 is kept although `{1}` is a basis of weight 2. -/
theorem priority_not_optimal_below_threshold :
    Reach (sortImpl (K := ℚ)) (1/100000000) luthr (compute luthr) ∧ luthr.Z = 0 ∧
    LinearIndependent ℚ (fun j : ({1} : Finset (Fin 2)) => fun r => Athr r j) ∧
    ¬ (∑ j ∈ ({1} : Finset (Fin 2)), (![1, 2] : Fin 2 → ℚ) j ≤
        ∑ i, (![1, 2] : Fin 2 → ℚ) ((updateWithPriorityWeights sortImpl (1/100000000) (compute luthr) ![1, 2]).Q (Sum.inl i))) := by
  refine ⟨Reach.compute, rfl, ?_, by decide +kernel⟩
  rw [linearIndependent_unique_iff]
  intro h
  have := congrFun h 0
  revert this
  decide +kernel

/-- A swap with a proper pivot, C16. -/
example : (compute luex).S 0 0 ≠ 0 ∧ (swap (compute luex) 0 0).Q (Sum.inl 0) = 1 := by decide +kernel

end Optima.Ech
