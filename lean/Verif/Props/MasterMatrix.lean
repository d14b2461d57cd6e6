import Verif.Model.Master
import Verif.Lemmas.Tactics
import Verif.Lemmas.Fold
import Mathlib.Data.List.FinRange
import Mathlib.Data.List.Nodup

/-!
# C26: products with the master matrix
-/

set_option linter.unusedSectionVars false

namespace Optima

open Matrix

variable {K : Type*} {nx np nw : ℕ}

section
variable {n m : ℕ}

theorem assignVec_comp (v : Fin n → K) (idx : List (Fin n)) (g : Fin n → K) (i : Fin n) :
    assignVec v idx (fun k => g (idx.get k)) i = if i ∈ idx then g i else v i := by
  unfold assignVec
  have key := foldl_finRange_inv (n := idx.length) (f := fun v k => Function.update v (idx.get k) (g (idx.get k)))
    (P := fun l w => ∀ i, w i = if ∃ k ∈ l, idx.get k = i then g i else v i) (b := v) (by simp) ?_
  · rw [key i]
    have : (∃ k ∈ List.finRange idx.length, idx.get k = i) ↔ i ∈ idx := by
      rw [List.mem_iff_get]
      exact ⟨fun ⟨k, _, e⟩ => ⟨k, e⟩, fun ⟨k, e⟩ => ⟨k, List.mem_finRange k, e⟩⟩
    simp only [this]
  · intro l b a ih i
    by_cases h : idx.get a = i
    · subst h
      rw [Function.update_self, if_pos ⟨a, by simp, rfl⟩]
    · rw [Function.update_of_ne (Ne.symm h), ih i]
      have : (∃ k ∈ l ++ [a], idx.get k = i) ↔ ∃ k ∈ l, idx.get k = i := by
        constructor
        · rintro ⟨k, hk, e⟩
          rw [List.mem_append, List.mem_singleton] at hk
          rcases hk with hk | hk
          · exact ⟨k, hk, e⟩
          · subst hk; exact absurd e h
        · rintro ⟨k, hk, e⟩; exact ⟨k, by simp [hk], e⟩
      simp only [this]

theorem assignVec_get (v : Fin n → K) (idx : List (Fin n)) (h : idx.Nodup) (b : Fin idx.length → K) (k : Fin idx.length) : assignVec v idx b (idx.get k) = b k := by
  have hinj : Function.Injective idx.get := List.nodup_iff_injective_get.1 h
  classical
  let g : Fin n → K := fun i => if h : ∃ k, idx.get k = i then b h.choose else v i
  have hg : ∀ k, b k = g (idx.get k) := by
    intro k
    have hk : ∃ k', idx.get k' = idx.get k := ⟨k, rfl⟩
    simp only [g]
    rw [dif_pos hk, hinj hk.choose_spec]
  rw [hg k, show b = fun k => g (idx.get k) from funext hg, assignVec_comp v idx g, if_pos (List.get_mem _ _)]

theorem assignVec_of_not_mem (v : Fin n → K) (idx : List (Fin n)) (b : Fin idx.length → K) (i : Fin n) (hi : i ∉ idx) : assignVec v idx b i = v i := by
  unfold assignVec
  refine foldl_finRange_inv (n := idx.length) (P := fun _ (w : Fin n → K) => w i = v i) rfl ?_
  intro l w a ih
  rw [Function.update_of_ne, ih]
  rintro rfl
  exact hi (List.get_mem _ _)

theorem assignMat_of_not_mem_col (A : Matrix (Fin m) (Fin n) K) (rows : List (Fin m)) (cols : List (Fin n)) (B : Matrix (Fin rows.length) (Fin cols.length) K)
    (i : Fin m) (j : Fin n) (hj : j ∉ cols) : assignMat A rows cols B i j = A i j := by
  unfold assignMat
  refine foldl_finRange_inv (n := cols.length) (P := fun _ (w : Matrix (Fin m) (Fin n) K) => w i j = A i j) rfl ?_
  intro l w a ih
  rw [if_neg, ih]
  rintro rfl
  exact hj (List.get_mem _ _)

theorem assignMat_of_not_mem_row (A : Matrix (Fin m) (Fin n) K) (rows : List (Fin m)) (cols : List (Fin n)) (B : Matrix (Fin rows.length) (Fin cols.length) K)
    (i : Fin m) (j : Fin n) (hi : i ∉ rows) : assignMat A rows cols B i j = A i j := by
  unfold assignMat
  refine foldl_finRange_inv (n := cols.length) (P := fun _ (w : Matrix (Fin m) (Fin n) K) => w i j = A i j) rfl ?_
  intro l w a ih
  split_ifs
  · rw [assignVec_of_not_mem _ _ _ _ hi, ih]
  · exact ih

theorem assignMat_get (A : Matrix (Fin m) (Fin n) K) (rows : List (Fin m)) (cols : List (Fin n)) (hr : rows.Nodup) (hc : cols.Nodup)
    (B : Matrix (Fin rows.length) (Fin cols.length) K) (r : Fin rows.length) (c : Fin cols.length) : assignMat A rows cols B (rows.get r) (cols.get c) = B r c := by
  unfold assignMat
  have hinj : Function.Injective cols.get := List.nodup_iff_injective_get.1 hc
  have key := foldl_finRange_inv (n := cols.length) (b := A)
    (f := fun A c => fun i j => if j = cols.get c then assignVec (fun i => A i j) rows (fun r => B r c) i else A i j)
    (P := fun l w => ∀ c ∈ l, w (rows.get r) (cols.get c) = B r c) (by simp) ?_
  · exact key c (List.mem_finRange c)
  · intro l w a ih c hc'
    dsimp only
    split_ifs with h
    · have := hinj h; subst this
      rw [assignVec_get _ _ hr]
    · rw [List.mem_append, List.mem_singleton] at hc'
      rcases hc' with hc' | hc'
      · exact ih c hc'
      · subst hc'; exact absurd rfl h

theorem sum_get [AddCommMonoid K] (idx : List (Fin n)) (h : idx.Nodup) (f : Fin n → K) : ∑ k, f (idx.get k) = ∑ i, if i ∈ idx then f i else 0 := by
  have hinj : Function.Injective idx.get := List.nodup_iff_injective_get.1 h
  rw [← Finset.sum_filter]
  rw [← Finset.sum_image (s := Finset.univ) (g := idx.get) (f := f) (fun a _ b _ e => hinj e)]
  congr 1
  ext i
  simp [List.mem_iff_get]
end

variable [Field K]

/-- The vector `(x, p, w)`, MasterVector.hpp:144. -/
def MVec.vec (u : MVec K nx np nw) : Fin nx ⊕ Fin np ⊕ Fin nw → K := Sum.elim u.x (Sum.elim u.p u.w)

/-- `js` and `ju` form a partition of the variables. -/
def ValidSplit (js ju : List (Fin nx)) : Prop := (js ++ ju).Perm (List.finRange nx)

theorem ValidSplit.nodup {js ju : List (Fin nx)} (h : ValidSplit js ju) : js.Nodup ∧ ju.Nodup ∧ ∀ i, i ∈ js ↔ i ∉ ju := by
  have hn : (js ++ ju).Nodup := h.nodup_iff.2 (List.nodup_finRange nx)
  rw [List.nodup_append] at hn
  refine ⟨hn.1, hn.2.1, fun i => ⟨fun a b => hn.2.2 i a i b rfl, fun hb => ?_⟩⟩
  have : i ∈ js ++ ju := h.mem_iff.2 (List.mem_finRange i)
  rw [List.mem_append] at this
  tauto

/-- The Jacobian of the stable equations, entry by entry (the specification). -/
structure IsMaster (M : MasterMatrix K nx np nw) (D : Matrix (Fin nx ⊕ Fin np ⊕ Fin nw) (Fin nx ⊕ Fin np ⊕ Fin nw) K) : Prop where
  xx : ∀ i j, D (.inl i) (.inl j) = if i ∈ M.ju ∨ j ∈ M.ju then (if i = j then 1 else 0) else M.Hxx i j
  xp : ∀ i q, D (.inl i) (.inr (.inl q)) = if i ∈ M.ju then 0 else M.Hxp i q
  xw : ∀ i l, D (.inl i) (.inr (.inr l)) = if i ∈ M.ju then 0 else M.Wx l i
  px : ∀ q i, D (.inr (.inl q)) (.inl i) = if i ∈ M.ju then 0 else M.Vpx q i
  pp : ∀ q q', D (.inr (.inl q)) (.inr (.inl q')) = M.Vpp q q'
  pw : ∀ q l, D (.inr (.inl q)) (.inr (.inr l)) = 0
  wx : ∀ l i, D (.inr (.inr l)) (.inl i) = if i ∈ M.ju then 0 else M.Wx l i
  wp : ∀ l q, D (.inr (.inr l)) (.inr (.inl q)) = M.Wp l q
  ww : ∀ l l', D (.inr (.inr l)) (.inr (.inr l')) = 0

/-- **C26** The conversion to a dense matrix gives `[Hss 0 Hsp Wsᵀ; 0 I 0 0; Vps 0 Vpp 0; Ws 0 Wp 0]` (in the order of `js`, `ju`), entry by entry. -/
theorem dense_spec (M : MasterMatrix K nx np nw) (h : ValidSplit M.js M.ju) : IsMaster M M.dense := by
  obtain ⟨hjs, hju, hmem⟩ := h.nodup
  have hmem' : ∀ i, i ∉ M.js ↔ i ∈ M.ju := fun i => by rw [hmem]; exact not_not
  constructor
  · intro i j
    simp only [MasterMatrix.dense]
    by_cases hi : i ∈ M.ju
    · rw [if_pos (Or.inl hi)]
      by_cases hj : j ∈ M.ju
      · obtain ⟨k, rfl⟩ := List.mem_iff_get.1 hi
        obtain ⟨l, rfl⟩ := List.mem_iff_get.1 hj
        rw [assignMat_get _ _ _ hju hju]
        simp only [Matrix.one_apply, (List.nodup_iff_injective_get.1 hju).eq_iff]
      · rw [assignMat_of_not_mem_col _ _ _ _ _ _ hj, assignMat_of_not_mem_row _ _ _ _ _ _ ((hmem' i).2 hi), if_neg]
        · rfl
        · rintro rfl; exact hj hi
    · by_cases hj : j ∈ M.ju
      · rw [if_pos (Or.inr hj), assignMat_of_not_mem_row _ _ _ _ _ _ hi, assignMat_of_not_mem_col _ _ _ _ _ _ ((hmem' j).2 hj), if_neg]
        · rfl
        · rintro rfl; exact hi hj
      · rw [if_neg (by tauto), assignMat_of_not_mem_row _ _ _ _ _ _ hi]
        obtain ⟨k, rfl⟩ := List.mem_iff_get.1 ((hmem i).2 hi)
        obtain ⟨l, rfl⟩ := List.mem_iff_get.1 ((hmem j).2 hj)
        rw [assignMat_get _ _ _ hjs hjs]; rfl
  · intro i q
    simp only [MasterMatrix.dense]
    rw [assignVec_comp 0 M.js (fun i => M.Hxp i q)]
    have := hmem i
    split_ifs <;> simp_all
  · intro i l
    simp only [MasterMatrix.dense]
    rw [show (fun k => (M.Wx.submatrix id M.js.get)ᵀ k l) = fun k => (fun i => M.Wx l i) (M.js.get k) from rfl, assignVec_comp 0 M.js (fun i => M.Wx l i)]
    have := hmem i
    split_ifs <;> simp_all
  · intro q i
    simp only [MasterMatrix.dense]
    rw [assignVec_comp 0 M.js (fun i => M.Vpx q i)]
    have := hmem i
    split_ifs <;> simp_all
  · intro q q'; rfl
  · intro q l; rfl
  · intro l i
    simp only [MasterMatrix.dense]
    rw [show (fun k => (M.Wx.submatrix id M.js.get) l k) = fun k => (fun i => M.Wx l i) (M.js.get k) from rfl, assignVec_comp 0 M.js (fun i => M.Wx l i)]
    have := hmem i
    split_ifs <;> simp_all
  · intro l q; rfl
  · intro l l'; rfl

/-- **C26** `M*u` computed from the blocks is the product of the dense matrix with `(x, p, w)`, for all dimensions and every split. -/
theorem mul_eq_dense (M : MasterMatrix K nx np nw) (h : ValidSplit M.js M.ju) (u : MVec K nx np nw) : (M.mul u).vec = M.dense *ᵥ u.vec := by
  obtain ⟨hjs, hju, hmem⟩ := h.nodup
  have D := dense_spec M h
  have hsum : ∀ f : Fin nx → K, ∑ k, f (M.js.get k) = ∑ i, if i ∈ M.ju then 0 else f i := by
    intro f
    rw [sum_get _ hjs]
    exact Finset.sum_congr rfl fun i _ => by have := hmem i; split_ifs <;> simp_all
  funext r
  simp only [mulVec, dotProduct, Fintype.sum_sum_type]
  rcases r with i | q | l
  · simp only [MVec.vec, Sum.elim_inl, Sum.elim_inr, MasterMatrix.mul, D.xx, D.xp, D.xw]
    rw [show u.x ∘ M.ju.get = fun k => u.x (M.ju.get k) from rfl, assignVec_comp]
    split_ifs with hi
    · simp [hi]
    · refine Eq.trans (assignVec_comp u.x M.js (fun i => (∑ l, M.Hxx i (M.js.get l) * u.x (M.js.get l)) + (∑ q, M.Hxp i q * u.p q) + ∑ l, M.Wx l i * u.w l) i) ?_
      rw [if_pos ((hmem i).2 hi), hsum (fun l => M.Hxx i l * u.x l)]
      rw [← add_assoc]
      congr 2
      refine Finset.sum_congr rfl fun j _ => ?_
      simp only [hi, false_or]
      split_ifs with hj he
      · subst he; exact absurd hj hi
      · simp
      · rfl
  · simp only [MVec.vec, Sum.elim_inl, Sum.elim_inr, MasterMatrix.mul, D.px, D.pp, D.pw, zero_mul, Finset.sum_const_zero, add_zero]
    rw [show (M.Vpx.submatrix id M.js.get *ᵥ (u.x ∘ M.js.get) + M.Vpp *ᵥ u.p) q = (∑ l, M.Vpx q (M.js.get l) * u.x (M.js.get l)) + ∑ q', M.Vpp q q' * u.p q' from rfl]
    rw [hsum (fun l => M.Vpx q l * u.x l)]
    simp [ite_mul]
  · simp only [MVec.vec, Sum.elim_inl, Sum.elim_inr, MasterMatrix.mul, D.wx, D.wp, D.ww, zero_mul, Finset.sum_const_zero, add_zero]
    rw [show (M.Wx.submatrix id M.js.get *ᵥ (u.x ∘ M.js.get) + M.Wp *ᵥ u.p) l = (∑ k, M.Wx l (M.js.get k) * u.x (M.js.get k)) + ∑ q', M.Wp l q' * u.p q' from rfl]
    rw [hsum (fun k => M.Wx l k * u.x k)]
    simp [ite_mul]

/-- **C26** `tr(M)*u` computed from the blocks is the product of the transpose of the dense matrix with `(x, p, w)`. -/
theorem trMul_eq_dense (M : MasterMatrix K nx np nw) (h : ValidSplit M.js M.ju) (u : MVec K nx np nw) : (M.trMul u).vec = M.denseᵀ *ᵥ u.vec := by
  obtain ⟨hjs, hju, hmem⟩ := h.nodup
  have D := dense_spec M h
  have hsum : ∀ f : Fin nx → K, ∑ k, f (M.js.get k) = ∑ i, if i ∈ M.ju then 0 else f i := by
    intro f
    rw [sum_get _ hjs]
    exact Finset.sum_congr rfl fun i _ => by have := hmem i; split_ifs <;> simp_all
  funext r
  simp only [mulVec, dotProduct, Fintype.sum_sum_type, transpose_apply]
  rcases r with i | q | l
  · simp only [MVec.vec, Sum.elim_inl, Sum.elim_inr, MasterMatrix.trMul, D.xx, D.px, D.wx]
    rw [show u.x ∘ M.ju.get = fun k => u.x (M.ju.get k) from rfl, assignVec_comp]
    split_ifs with hi
    · simp [hi]
    · refine Eq.trans (assignVec_comp u.x M.js (fun i => (∑ l, M.Hxx (M.js.get l) i * u.x (M.js.get l)) + (∑ q, M.Vpx q i * u.p q) + ∑ l, M.Wx l i * u.w l) i) ?_
      rw [if_pos ((hmem i).2 hi), hsum (fun l => M.Hxx l i * u.x l)]
      rw [← add_assoc]
      congr 2
      refine Finset.sum_congr rfl fun j _ => ?_
      simp only [hi, or_false]
      split_ifs with hj he
      · subst he; exact absurd hj hi
      · simp
      · rfl
  · simp only [MVec.vec, Sum.elim_inl, Sum.elim_inr, MasterMatrix.trMul, D.xp, D.pp, D.wp]
    rw [show ((M.Hxp.submatrix M.js.get id)ᵀ *ᵥ (u.x ∘ M.js.get) + M.Vppᵀ *ᵥ u.p + M.Wpᵀ *ᵥ u.w) q
      = (∑ l, M.Hxp (M.js.get l) q * u.x (M.js.get l)) + (∑ q', M.Vpp q' q * u.p q') + ∑ l, M.Wp l q * u.w l from rfl]
    rw [hsum (fun l => M.Hxp l q * u.x l), ← add_assoc]
    simp [ite_mul]
  · simp only [MVec.vec, Sum.elim_inl, Sum.elim_inr, MasterMatrix.trMul, D.xw, D.pw, D.ww, zero_mul, Finset.sum_const_zero, add_zero]
    rw [show (M.Wx.submatrix id M.js.get *ᵥ (u.x ∘ M.js.get)) l = (∑ k, M.Wx l (M.js.get k) * u.x (M.js.get k)) from rfl]
    rw [hsum (fun k => M.Wx l k * u.x k)]
    simp [ite_mul]

end Optima
