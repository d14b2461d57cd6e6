import Verif.Lemmas.EchelonExt
import Verif.Lemmas.LUExists
import Verif.Props.Echelon

/-!
# C18: `EchelonizerExtended`
-/

set_option linter.unusedSectionVars false

namespace Optima.Ech

open Matrix

variable {K : Type*} [Field K] [LinearOrder K] [IsStrictOrderedRing K] {n mA nbA nnA nlA mJ nbJ nnJ nlJ : ℕ}

/-- The form is a canonical form of its matrix (helper predicate; the theorems state `Canonical`). -/
def Form.Good {W : Mat K} (f : Form W) : Prop := Core W.2.2 f.R f.S f.Q

def Form.Span {W : Mat K} (f : Form W) : Prop := Spans W.2.2 f.S f.Q

theorem Form.reorder_good {W : Mat K} {f : Form W} (h : f.Good) {Kb : Fin f.nb → Fin f.nb} {Kn : Fin f.nn → Fin f.nn} (hb : Function.Bijective Kb)
    (hn : Function.Bijective Kn) : (f.reorder Kb Kn).Good :=
  reorder_core (e := (State.mk f.R f.S f.Q id id f.R f.S f.Q)) h hb hn

theorem Form.reorder_span {W : Mat K} {f : Form W} (h : f.Span) {Kb : Fin f.nb → Fin f.nb} {Kn : Fin f.nn → Fin f.nn} (hb : Function.Bijective Kb) :
    (f.reorder Kb Kn).Span :=
  reorder_spans (e := (State.mk (nl := f.nl) f.R f.S f.Q id id f.R f.S f.Q)) h hb

theorem flat_core {A : Matrix (Fin mA) (Fin n) K} {J : Matrix (Fin mJ) (Fin n) K} {b : Blocks K n mA nbA nlA mJ nbJ nnJ nlJ}
    (h : CoreG (fromRows A J) b.Rt b.Rb b.S b.qb b.qn) (hc : nbA + nlA = mA) (hc' : nbJ + nlJ = mJ) :
    Core ((fromRows A J).submatrix (finSumFinEquiv (m := mA) (n := mJ)).symm id)
      (fromRows (b.Rt.submatrix (finSumFinEquiv (m := nbA) (n := nbJ)).symm (finSumFinEquiv (m := mA) (n := mJ)).symm)
        (b.Rb.submatrix (finSumFinEquiv (m := nlA) (n := nlJ)).symm (finSumFinEquiv (m := mA) (n := mJ)).symm))
      (b.S.submatrix (finSumFinEquiv (m := nbA) (n := nbJ)).symm id) (Sum.elim (b.qb ∘ (finSumFinEquiv (m := nbA) (n := nbJ)).symm) b.qn) := by
  refine ⟨?_, ?_, ?_, ?_, by omega⟩
  · have : Sum.elim (b.qb ∘ (finSumFinEquiv (m := nbA) (n := nbJ)).symm) b.qn =
        Sum.elim b.qb b.qn ∘ Sum.map (finSumFinEquiv (m := nbA) (n := nbJ)).symm id := by
      funext v; rcases v with v | v <;> rfl
    rw [this]
    exact h.qbij.comp (Sum.map_bijective.2 ⟨Equiv.bijective _, Function.bijective_id⟩)
  · intro i j
    have := congrFun (congrFun h.topB (finSumFinEquiv.symm i)) (finSumFinEquiv.symm j)
    simp only [mul_apply, submatrix_apply, id, one_apply, EmbeddingLike.apply_eq_iff_eq] at this
    simp only [submatrix_apply, fromRows_apply_inl, id, Sum.elim_inl, Function.comp_apply]
    rw [← this]
    exact (Equiv.sum_comp (finSumFinEquiv (m := mA) (n := mJ)).symm fun x => b.Rt (finSumFinEquiv.symm i) x * fromRows A J x (b.qb (finSumFinEquiv.symm j)))
  · intro i k
    have := congrFun (congrFun h.topN (finSumFinEquiv.symm i)) k
    simp only [mul_apply, submatrix_apply, id] at this
    simp only [submatrix_apply, fromRows_apply_inl, id, Sum.elim_inr]
    rw [← this]
    exact (Equiv.sum_comp (finSumFinEquiv (m := mA) (n := mJ)).symm fun x => b.Rt (finSumFinEquiv.symm i) x * fromRows A J x (b.qn k))
  · intro y hy
    have hz : y ∘ finSumFinEquiv (m := mA) (n := mJ) = 0 := by
      refine h.inj _ ?_ ?_
      · funext i
        have := congrFun hy (Sum.inl (finSumFinEquiv i))
        simp only [mulVec, dotProduct, submatrix_apply, fromRows_apply_inl, Equiv.symm_apply_apply] at this ⊢
        rw [← Equiv.sum_comp (finSumFinEquiv (m := mA) (n := mJ))] at this
        simpa using this
      · funext i
        have := congrFun hy (Sum.inr (finSumFinEquiv i))
        simp only [mulVec, dotProduct, submatrix_apply, fromRows_apply_inr, Equiv.symm_apply_apply] at this ⊢
        rw [← Equiv.sum_comp (finSumFinEquiv (m := mA) (n := mJ))] at this
        simpa using this
    funext i
    have := congrFun hz ((finSumFinEquiv (m := mA) (n := mJ)).symm i)
    simpa using this

theorem flat_good {A : Matrix (Fin mA) (Fin n) K} {J : Matrix (Fin mJ) (Fin n) K} {b : Blocks K n mA nbA nlA mJ nbJ nnJ nlJ}
    (h : CoreG (fromRows A J) b.Rt b.Rb b.S b.qb b.qn) (hc : nbA + nlA = mA) (hc' : nbJ + nlJ = mJ) : (b.flat A J).Good := flat_core h hc hc'

theorem flat_span {A : Matrix (Fin mA) (Fin n) K} {J : Matrix (Fin mJ) (Fin n) K} {b : Blocks K n mA nbA nlA mJ nbJ nnJ nlJ}
    (h : ∀ r k, (fromRows A J) r (b.qn k) = ∑ v, (fromRows A J) r (b.qb v) * b.S v k) : (b.flat A J).Span := by
  intro r k
  have := h (finSumFinEquiv.symm r) k
  exact this.trans (Equiv.sum_comp (finSumFinEquiv (m := nbA) (n := nbJ)).symm fun v => fromRows A J (finSumFinEquiv.symm r) (b.qb v) * b.S v k).symm

theorem machine_compute_cases (o : LUOracle K) (s : Machine K) (M : Mat K) :
    (∃ f, s = some ⟨M, f⟩ ∧ Machine.compute o s M = f) ∨ Machine.compute o s M = ⟨_, _, _, compute (o M).lu⟩ := by
  rcases s with _ | ⟨M', f⟩
  · right; rfl
  · by_cases hM : M' = M
    · subst hM; left; exact ⟨f, rfl, by simp [Machine.compute]⟩
    · right; simp [Machine.compute, hM]

theorem machine_compute_inv (o : LUOracle K) {s : Machine K} (h : ∀ M f, s = some ⟨M, f⟩ → Inv M.2.2 f.e) (M : Mat K) :
    Inv M.2.2 (Machine.compute o s M).e := by
  rcases machine_compute_cases o s M with ⟨f, hs, he⟩ | he
  · rw [he]; exact h M f hs
  · rw [he]; exact ⟨compute_core _, compute_core _, Function.bijective_id, Function.bijective_id⟩

theorem machine_compute_span {o : LUOracle K} (ho : ∀ M, (o M).lu.Z = 0) {s : Machine K} (h : ∀ M f, s = some ⟨M, f⟩ → InvSpan M.2.2 f.e) (M : Mat K) :
    InvSpan M.2.2 (Machine.compute o s M).e := by
  rcases machine_compute_cases o s M with ⟨f, hs, he⟩ | he
  · rw [he]; exact h M f hs
  · rw [he]; exact ⟨compute_spans _ (ho M), compute_spans _ (ho M)⟩

structure ExtInv {A : Matrix (Fin mA) (Fin n) K} (s : ExtState A) : Prop where
  a : Inv A s.eA.e
  j : ∀ M f, s.eJ = some ⟨M, f⟩ → Inv M.2.2 f.e
  w : s.form.Good

structure ExtInvSpan {A : Matrix (Fin mA) (Fin n) K} (s : ExtState A) : Prop where
  a : InvSpan A s.eA.e
  j : ∀ M f, s.eJ = some ⟨M, f⟩ → InvSpan M.2.2 f.e
  w : s.form.Span

theorem extUpdate_inv (o : LUOracle K) (sort : SortImpl K) {thr : K} (hthr : 0 ≤ thr) {A : Matrix (Fin mA) (Fin n) K} {s : ExtState A} (h : ExtInv s)
    (J : Matrix (Fin mJ) (Fin n) K) (w : Fin n → K) : ExtInv (extUpdate o sort thr s J w) := by
  have ha : Inv A (s.eA.priority sort thr w).e := priority_inv sort hthr w h.a
  unfold extUpdate
  dsimp only
  split_ifs with hJ
  · exact ⟨ha, h.j, ha.cur⟩
  · have hj := priority_inv sort hthr (fun k => w ((s.eA.priority sort thr w).e.Q (Sum.inr k)))
      (machine_compute_inv o h.j ⟨mJ, (s.eA.priority sort thr w).nn, reducedJ (s.eA.priority sort thr w).e J⟩)
    refine ⟨ha, ?_, ?_⟩
    · intro M f he
      obtain ⟨rfl, he⟩ := Sigma.mk.inj_iff.1 (Option.some.inj he)
      cases he
      exact hj
    · refine Form.reorder_good (flat_good (extend_core J ha.cur hj.cur) ha.cur.card hj.cur.card) ?_ ?_
      · exact sort_bij sort _ Function.bijective_id
      · exact sort_bij sort _ Function.bijective_id

theorem extUpdate_span {o : LUOracle K} (ho : ∀ M, (o M).lu.Z = 0) (sort : SortImpl K) {thr : K} (hthr : 0 ≤ thr) {A : Matrix (Fin mA) (Fin n) K} {s : ExtState A}
    (hi : ExtInv s) (h : ExtInvSpan s) (J : Matrix (Fin mJ) (Fin n) K) (w : Fin n → K) : ExtInvSpan (extUpdate o sort thr s J w) := by
  have ha : InvSpan A (s.eA.priority sort thr w).e := priority_span sort hthr w hi.a h.a
  unfold extUpdate
  dsimp only
  split_ifs with hJ
  · exact ⟨ha, h.j, ha.cur⟩
  · have hj := priority_span sort hthr (fun k => w ((s.eA.priority sort thr w).e.Q (Sum.inr k)))
      (machine_compute_inv o hi.j ⟨mJ, (s.eA.priority sort thr w).nn, reducedJ (s.eA.priority sort thr w).e J⟩)
      (machine_compute_span ho h.j ⟨mJ, (s.eA.priority sort thr w).nn, reducedJ (s.eA.priority sort thr w).e J⟩)
    refine ⟨ha, ?_, ?_⟩
    · intro M f he
      obtain ⟨rfl, he⟩ := Sigma.mk.inj_iff.1 (Option.some.inj he)
      cases he
      exact hj
    · exact Form.reorder_span (flat_span (extend_spans J ha.cur hj.cur)) (sort_bij sort _ Function.bijective_id)

theorem extReach_inv {o : LUOracle K} {sort : SortImpl K} {thr : K} (hthr : 0 ≤ thr) {A : Matrix (Fin mA) (Fin n) K} {s : ExtState A}
    (h : ExtReach o sort thr A s) : ExtInv s := by
  induction h with
  | init =>
    have := machine_compute_inv o (s := none) (fun _ _ h => by simp at h) ⟨mA, n, A⟩
    exact ⟨this, fun _ _ h => by simp [extInit] at h, this.cur⟩
  | step s op _ hop ih =>
    cases op with
    | update mJ J w => exact extUpdate_inv o sort hthr ih J w
    | ordering Kb Kn => exact ⟨ih.a, ih.j, Form.reorder_good ih.w hop.1 hop.2⟩
    | clean sigma =>
      refine ⟨ih.a, ih.j, ?_⟩
      have := ih.w
      simpa [Form.Good, extStep] using this

theorem extReach_span {o : LUOracle K} (ho : ∀ M, (o M).lu.Z = 0) {sort : SortImpl K} {thr : K} (hthr : 0 ≤ thr) {A : Matrix (Fin mA) (Fin n) K} {s : ExtState A}
    (h : ExtReach o sort thr A s) : ExtInvSpan s := by
  induction h with
  | init =>
    have := machine_compute_span ho (s := none) (fun _ _ h => by simp at h) ⟨mA, n, A⟩
    exact ⟨this, fun _ _ h => by simp [extInit] at h, this.cur⟩
  | step s op hr hop ih =>
    cases op with
    | update mJ J w => exact extUpdate_span ho sort hthr (extReach_inv hthr hr) ih J w
    | ordering Kb Kn => exact ⟨ih.a, ih.j, Form.reorder_span ih.w hop.1⟩
    | clean sigma =>
      refine ⟨ih.a, ih.j, ?_⟩
      have := ih.w
      simpa [Form.Span, extStep] using this

/-! ### C18 -/

/-- **C18 (partial)**: full statement: after every history, `R*[A;J]*Q = [I S; 0 0]`, `Q` a permutation, `R` invertible, and `numEquations()`/`C()` describe `[A;J]`.
    Proved for every `A`, every sequence of (possibly empty) `J` and weights, reorderings and clean-ups, dependent rows allowed and any factorisation meeting the contract: everything except
    the zero rows (see `bottom_rows_not_zero`) and `numEquations` after a return to an empty `J` (see `numEquations_stale`). `s.W` is the matrix of the last update, see `extended_matrix`. -/
theorem extended_history_partial {o : LUOracle K} {sort : SortImpl K} {thr : K} (hthr : 0 ≤ thr) {A : Matrix (Fin mA) (Fin n) K} {s : ExtState A}
    (h : ExtReach o sort thr A s) : Canonical s.W.2.2 s.form.R s.form.S s.form.Q := (extReach_inv hthr h).w.canonical

/-- The matrix meant is `A` for an empty `J` and else `[A; J]`, row for row. -/
theorem extended_matrix (o : LUOracle K) (sort : SortImpl K) (thr : K) {A : Matrix (Fin mA) (Fin n) K} (s : ExtState A)
    (J : Matrix (Fin mJ) (Fin n) K) (w : Fin n → K) :
    ((mJ = 0 ∨ n = 0) → (extUpdate o sort thr s J w).W = ⟨mA, n, A⟩) ∧
    (¬ (mJ = 0 ∨ n = 0) → ∃ W : Matrix (Fin (mA + mJ)) (Fin n) K, (extUpdate o sort thr s J w).W = ⟨mA + mJ, n, W⟩ ∧
      (∀ r c, W (Fin.castAdd mJ r) c = A r c) ∧ (∀ r c, W (Fin.natAdd mA r) c = J r c)) := by
  constructor
  · intro h; simp [extUpdate, h]
  · intro h
    refine ⟨(fromRows A J).submatrix finSumFinEquiv.symm id, by simp [extUpdate, h, stack], ?_, ?_⟩
    · intro r c; simp
    · intro r c; simp

/-- **C18**, same solutions: with an exact rank decision, `[I S]` describes the kernel of `[A;J]` (dependent rows included) after every history. -/
theorem extended_same_kernel {o : LUOracle K} (ho : ∀ M, (o M).lu.Z = 0) {sort : SortImpl K} {thr : K} (hthr : 0 ≤ thr) {A : Matrix (Fin mA) (Fin n) K} {s : ExtState A}
    (h : ExtReach o sort thr A s) (k : Fin s.form.nn) (r : Fin s.W.1) :
    s.W.2.2 r (s.form.Q (Sum.inr k)) = ∑ i, s.W.2.2 r (s.form.Q (Sum.inl i)) * s.form.S i k := (extReach_span ho hthr h).w r k

/-- **C18**: after an update with a non-empty `J`, `numEquations()` is the number of rows of `[A; J]`; after construction, and after updates with an empty `J` only, that of `A`. -/
theorem extended_numEquations (o : LUOracle K) (sort : SortImpl K) (thr : K) {A : Matrix (Fin mA) (Fin n) K} (s : ExtState A)
    (J : Matrix (Fin mJ) (Fin n) K) (w : Fin n → K) :
    (¬ (mJ = 0 ∨ n = 0) → (extUpdate o sort thr s J w).numEquations = mA + mJ) ∧ (extInit o A).numEquations = mA ∧
    ((mJ = 0 ∨ n = 0) → (extUpdate o sort thr s J w).numEquations = s.numEquations) := by
  refine ⟨fun hJ => ?_, rfl, fun hJ => ?_⟩ <;> simp [extUpdate, hJ, ExtState.numEquations]

/-- **C18, negation** for `numEquations()` (hence the size of `C()`): one update with a 1-row `J`, then one with an empty `J`: two equations are reported for the 1-row matrix `[A]`. -/
theorem numEquations_stale (o : LUOracle ℚ) (sort : SortImpl ℚ) (thr : ℚ) (w : Fin 1 → ℚ) :
    let A : Matrix (Fin 1) (Fin 1) ℚ := 1
    let s := extUpdate o sort thr (extUpdate o sort thr (extInit o A) (1 : Matrix (Fin 1) (Fin 1) ℚ) w) (0 : Matrix (Fin 0) (Fin 1) ℚ) w
    ExtReach o sort thr A s ∧ s.W = ⟨1, 1, A⟩ ∧ s.numEquations = 2 := by
  intro A s
  refine ⟨ExtReach.step _ (.update 0 0 w) (ExtReach.step _ (.update 1 1 w) ExtReach.init trivial) trivial, ?_, ?_⟩
  · simp [s, extUpdate]
  · simp [s, extUpdate, ExtState.numEquations]

/-- Non-vacuity: an exact oracle exists for every field, so reachable states with exact rank decisions exist for every `A`, `J` and weights. -/
example (A : Matrix (Fin 2) (Fin 3) ℚ) (J : Matrix (Fin 2) (Fin 3) ℚ) (w : Fin 3 → ℚ) :
    ∃ o : LUOracle ℚ, (∀ M, (o M).lu.Z = 0) ∧ ∃ s, ExtReach o sortImpl (1/100000000) A s ∧ s.W = stack A J := by
  obtain ⟨o, ho⟩ := exists_exact_oracle (K := ℚ)
  refine ⟨o, ho, _, ExtReach.step _ (.update 2 J w) ExtReach.init trivial, ?_⟩
  simp [extStep, extUpdate]

/-! ### The extended basis also has maximum weight -/

theorem extend_localOpt {w : Fin n → K} {eA : State K mA n nbA nnA nlA} (J : Matrix (Fin mJ) (Fin n) K) {eJ : State K mJ nnA nbJ nnJ nlJ}
    (hA : LocalOpt w eA.S eA.Q) (hJ : LocalOpt (fun k => w (eA.Q (Sum.inr k))) eJ.S eJ.Q) (v : Fin nbA ⊕ Fin nbJ) (k : Fin nnJ)
    (h : (extend eA J eJ).S v k ≠ 0) : w ((extend eA J eJ).qn k) ≤ w ((extend eA J eJ).qb v) := by
  rcases v with i | j
  · have hS1 : (extend eA J eJ).S (Sum.inl i) k = eA.S i (eJ.Q (Sum.inr k)) - ∑ j, eA.S i (eJ.Q (Sum.inl j)) * eJ.S j k := rfl
    rw [hS1] at h
    by_cases h1 : eA.S i (eJ.Q (Sum.inr k)) = 0
    · rw [h1, zero_sub, neg_ne_zero] at h
      obtain ⟨j, _, hj⟩ := Finset.exists_ne_zero_of_sum_ne_zero h
      have a := hA i _ (left_ne_zero_of_mul hj)
      have b := hJ j k (right_ne_zero_of_mul hj)
      exact le_trans b a
    · exact hA i _ h1
  · exact hJ j k h

theorem sum_le_of_injection {B : Finset (Fin n)} {nb : ℕ} {w : Fin n → K} (hcard : B.card = nb) (f : B → Fin nb) (hf : Function.Injective f) (g : Fin nb → K)
    (hw : ∀ j : B, w j ≤ g (f j)) : ∑ j ∈ B, w j ≤ ∑ i, g i := by
  have hb : Function.Bijective f := by
    rw [Fintype.bijective_iff_injective_and_card]
    exact ⟨hf, by simp [hcard]⟩
  rw [← Finset.sum_coe_sort B, ← Function.Bijective.sum_comp hb g]
  exact Finset.sum_le_sum fun j _ => hw j

/-- **C18, weights (partial, as C17)**: with an exact rank decision and no entry strictly between zero and the threshold in the two passes, the basis chosen for `[A; J]`
    has the largest total weight of all bases of `[A; J]` — although `A` is echelonised first and on its own. -/
theorem extended_max_weight_partial {o : LUOracle K} (ho : ∀ M, (o M).lu.Z = 0) {sort : SortImpl K} {thr : K} (hthr : 0 ≤ thr) {A : Matrix (Fin mA) (Fin n) K} {s : ExtState A}
    (h : ExtReach o sort thr A s) (J : Matrix (Fin mJ) (Fin n) K) (w : Fin n → K) (hJ : ¬ (mJ = 0 ∨ n = 0))
    (hcA : CleanTrace thr w s.eA.e)
    (hcJ : CleanTrace thr (fun k => w ((s.eA.priority sort thr w).e.Q (Sum.inr k)))
      (Machine.compute o s.eJ ⟨mJ, (s.eA.priority sort thr w).nn, reducedJ (s.eA.priority sort thr w).e J⟩).e)
    (B : Finset (Fin n)) (hB : LinearIndependent K (fun j : B => fun r => (fromRows A J) r j)) :
    ∃ (nb nn nl : ℕ) (R : Matrix (Fin nb ⊕ Fin nl) (Fin (mA + mJ)) K) (S : Matrix (Fin nb) (Fin nn) K) (Q : Fin nb ⊕ Fin nn → Fin n),
      (⟨(extUpdate o sort thr s J w).W, (extUpdate o sort thr s J w).form⟩ : Σ W : Mat K, Form W) = ⟨stack A J, ⟨nb, nn, nl, R, S, Q⟩⟩ ∧
      (∃ f : B → Fin nb, Function.Injective f ∧ ∀ j : B, w j ≤ w (Q (Sum.inl (f j)))) ∧
      (B.card = nb → ∑ j ∈ B, w j ≤ ∑ i, w (Q (Sum.inl i))) := by
  have hi := extReach_inv hthr h
  have hs := extReach_span ho hthr h
  have hui := extUpdate_inv o sort hthr hi J w
  have hus := extUpdate_span ho sort hthr hi hs J w
  have hlA : LocalOpt w (s.eA.priority sort thr w).e.S (s.eA.priority sort thr w).e.Q := priority_localOpt sort s.eA.e w hcA
  have hlJ := priority_localOpt sort _ _ hcJ
  have hgood := hui.w
  have hspan := hus.w
  have heq : extUpdate o sort thr s J w = ⟨s.eA.priority sort thr w, some ⟨⟨mJ, (s.eA.priority sort thr w).nn, reducedJ (s.eA.priority sort thr w).e J⟩,
      (Machine.compute o s.eJ ⟨mJ, (s.eA.priority sort thr w).nn, reducedJ (s.eA.priority sort thr w).e J⟩).priority sort thr
        (fun k => w ((s.eA.priority sort thr w).e.Q (Sum.inr k)))⟩, stack A J,
      ((extend (s.eA.priority sort thr w).e J ((Machine.compute o s.eJ ⟨mJ, (s.eA.priority sort thr w).nn, reducedJ (s.eA.priority sort thr w).e J⟩).priority sort thr
        (fun k => w ((s.eA.priority sort thr w).e.Q (Sum.inr k)))).e).flat A J).sortBy sort w⟩ := by
    unfold extUpdate
    exact if_neg hJ
  rw [heq] at hgood hspan ⊢
  generalize hfJ : (Machine.compute o s.eJ ⟨mJ, (s.eA.priority sort thr w).nn, reducedJ (s.eA.priority sort thr w).e J⟩).priority sort thr
      (fun k => w ((s.eA.priority sort thr w).e.Q (Sum.inr k))) = fJ at hgood hspan ⊢
  have hlJ' : LocalOpt (fun k => w ((s.eA.priority sort thr w).e.Q (Sum.inr k))) fJ.e.S fJ.e.Q := by
    rw [← hfJ]; exact hlJ
  have hlx := extend_localOpt J hlA hlJ'
  refine ⟨_, _, _, _, _, _, rfl, ?_⟩
  have hB' : LinearIndependent K (fun j : B => fun r => (stack A J).2.2 r j) := by
    rw [Fintype.linearIndependent_iff] at hB ⊢
    intro g hg
    refine hB g ?_
    funext r
    have := congrFun hg (finSumFinEquiv r)
    simpa [stack, Finset.sum_apply] using this
  have hloc : LocalOpt w (((extend (s.eA.priority sort thr w).e J fJ.e).flat A J).sortBy sort w).S
      (((extend (s.eA.priority sort thr w).e J fJ.e).flat A J).sortBy sort w).Q := by
    intro i k hne
    exact hlx _ _ hne
  obtain ⟨f, hf, hw⟩ := localOpt_injection (A := (stack A J).2.2) hgood.qbij hspan w hloc B hB'
  refine ⟨⟨f, hf, hw⟩, ?_⟩
  intro hcard
  exact sum_le_of_injection hcard f hf _ hw

/-- With threshold zero the basis after an update is locally optimal: a non-basic variable with a non-zero entry in the row of a basic variable weighs at most as much. -/
theorem extUpdate_localOpt (o : LUOracle K) (sort : SortImpl K) {A : Matrix (Fin mA) (Fin n) K} (s : ExtState A) (J : Matrix (Fin mJ) (Fin n) K) (w : Fin n → K) (hn : (extUpdate o sort 0 s J w).W.2.1 = n) (i k)
    (h : (extUpdate o sort 0 s J w).form.S i k ≠ 0) : w (Fin.cast hn ((extUpdate o sort 0 s J w).form.Q (Sum.inr k))) ≤ w (Fin.cast hn ((extUpdate o sort 0 s J w).form.Q (Sum.inl i))) := by
  have hlA : LocalOpt w (s.eA.priority sort 0 w).e.S (s.eA.priority sort 0 w).e.Q := priority_localOpt sort s.eA.e w (cleanTrace_zero w _)
  by_cases hJ : mJ = 0 ∨ n = 0
  · have heq : extUpdate o sort 0 s J w = ⟨s.eA.priority sort 0 w, s.eJ, ⟨mA, n, A⟩, (s.eA.priority sort 0 w).form⟩ := if_pos hJ
    revert hn i k
    rw [heq]
    intro hn i k h
    exact hlA i k h
  · have hlJ := priority_localOpt sort (Machine.compute o s.eJ ⟨mJ, (s.eA.priority sort 0 w).nn, reducedJ (s.eA.priority sort 0 w).e J⟩).e (fun k => w ((s.eA.priority sort 0 w).e.Q (Sum.inr k))) (cleanTrace_zero _ _)
    have heq : extUpdate o sort 0 s J w = ⟨s.eA.priority sort 0 w, some ⟨⟨mJ, (s.eA.priority sort 0 w).nn, reducedJ (s.eA.priority sort 0 w).e J⟩,
      (Machine.compute o s.eJ ⟨mJ, (s.eA.priority sort 0 w).nn, reducedJ (s.eA.priority sort 0 w).e J⟩).priority sort 0
        (fun k => w ((s.eA.priority sort 0 w).e.Q (Sum.inr k)))⟩, stack A J,
      ((extend (s.eA.priority sort 0 w).e J ((Machine.compute o s.eJ ⟨mJ, (s.eA.priority sort 0 w).nn, reducedJ (s.eA.priority sort 0 w).e J⟩).priority sort 0
        (fun k => w ((s.eA.priority sort 0 w).e.Q (Sum.inr k)))).e).flat A J).sortBy sort w⟩ := if_neg hJ
    revert hn i k
    rw [heq]
    intro hn i k h
    exact extend_localOpt J hlA hlJ _ _ h

/-- The two hypotheses on the entries are void for threshold zero. -/
example (o : LUOracle ℚ) (A : Matrix (Fin 2) (Fin 3) ℚ) (J : Matrix (Fin 1) (Fin 3) ℚ) (w : Fin 3 → ℚ) :
    CleanTrace 0 w (extInit o A).eA.e ∧
    CleanTrace 0 (fun k => w (((extInit o A).eA.priority sortImpl 0 w).e.Q (Sum.inr k)))
      (Machine.compute o (extInit o A).eJ ⟨1, ((extInit o A).eA.priority sortImpl 0 w).nn, reducedJ ((extInit o A).eA.priority sortImpl 0 w).e J⟩).e :=
  ⟨cleanTrace_zero _ _, cleanTrace_zero _ _⟩

end Optima.Ech
