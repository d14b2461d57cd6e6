import Verif.Lemmas.Echelon
import Mathlib.Combinatorics.Hall.Basic
import Mathlib.LinearAlgebra.Dimension.StrongRankCondition
import Mathlib.Algebra.Order.BigOperators.Group.Finset
import Mathlib.Data.Fin.Tuple.Sort

/-! Priority weights: one pass makes every row locally optimal; local optimality gives a maximum-weight basis (Hall's theorem). -/

set_option linter.unusedSectionVars false

namespace Optima.Ech

open Matrix

variable {K : Type*} [Field K] [LinearOrder K] [IsStrictOrderedRing K] {m n nb nn nl : ℕ}

/-- Row `i` is locally optimal. -/
def RowOpt (w : Fin n → K) (e : State K m n nb nn nl) (i : Fin nb) : Prop :=
  ∀ k, e.S i k ≠ 0 → w (e.Q (Sum.inr k)) ≤ w (e.Q (Sum.inl i))

/-- No entry of `S` lies strictly between zero and the threshold. -/
def CleanS (thr : K) (S : Matrix (Fin nb) (Fin nn) K) : Prop := ∀ i k, |S i k| ≤ thr → S i k = 0

theorem swap_rowOpt_self (w : Fin n → K) (e : State K m n nb nn nl) (i : Fin nb) (j : Fin nn) (hlt : w (e.Q (Sum.inl i)) < w (e.Q (Sum.inr j)))
    (hbest : ∀ k, e.S i k ≠ 0 → w (e.Q (Sum.inr k)) ≤ w (e.Q (Sum.inr j))) : RowOpt w (swap e i j) i := by
  intro k hk
  rw [swap_Q_inr, swap_Q_inl, if_pos rfl]
  split_ifs with h
  · exact hlt.le
  · rw [swap_S, if_pos rfl, if_neg h] at hk
    exact hbest k fun h0 => hk (by rw [h0, zero_div])

theorem swap_rowOpt_other (w : Fin n → K) (e : State K m n nb nn nl) (i : Fin nb) (j : Fin nn) (hlt : w (e.Q (Sum.inl i)) < w (e.Q (Sum.inr j)))
    (hbest : ∀ k, e.S i k ≠ 0 → w (e.Q (Sum.inr k)) ≤ w (e.Q (Sum.inr j))) (i' : Fin nb) (hne : i' ≠ i) (h' : RowOpt w e i') :
    RowOpt w (swap e i j) i' := by
  intro k hk
  rw [swap_Q_inr, swap_Q_inl, if_neg hne]
  rw [swap_S, if_neg hne] at hk
  split_ifs with h
  · rw [if_pos h] at hk
    have : e.S i' j ≠ 0 := fun h0 => hk (by rw [h0, neg_zero, zero_div])
    exact hlt.le.trans (h' j this)
  · rw [if_neg h] at hk
    by_cases h1 : e.S i' k = 0
    · have h2 : e.S i' j ≠ 0 := fun h0 => hk (by rw [h1, h0, zero_mul, zero_div, sub_zero])
      have h3 : e.S i k ≠ 0 := fun h0 => hk (by rw [h1, h0, mul_zero, zero_div, sub_zero])
      exact (hbest k h3).trans (h' j h2)
    · exact h' k h1

theorem priorityStep_rowOpt {thr : K} (w : Fin n → K) (e : State K m n nb nn nl) (hc : CleanS thr e.S) (i : Fin nb) :
    RowOpt w (priorityStep thr w e i) i ∧ ∀ i', i' ≠ i → RowOpt w e i' → RowOpt w (priorityStep thr w e i) i' := by
  have hgt : ∀ i k, e.S i k ≠ 0 → thr < |e.S i k| := fun i k h => not_le.1 fun h' => h (hc i k h')
  rcases priorityStep_cases thr w e i with ⟨h1, h2⟩ | ⟨j, h1, h2, h3, h4⟩
  · rw [h1]
    exact ⟨fun k hk => h2 k (hgt i k hk), fun i' _ h => h⟩
  · rw [h1]
    exact ⟨swap_rowOpt_self w e i j h3 fun k hk => h4 k (hgt i k hk),
      fun i' hne h => swap_rowOpt_other w e i j h3 (fun k hk => h4 k (hgt i k hk)) i' hne h⟩

/-- All states of the loop over the basic variables have clean `S`. -/
def CleanTrace (thr : K) (w : Fin n → K) (e : State K m n nb nn nl) : Prop :=
  ∀ l r, List.finRange nb = l ++ r → CleanS thr (l.foldl (priorityStep thr w) e).S

theorem cleanTrace_zero (w : Fin n → K) (e : State K m n nb nn nl) : CleanTrace 0 w e := by
  intro l r _ i k h
  exact abs_eq_zero.1 (le_antisymm h (abs_nonneg _))

theorem loop_rowOpt {thr : K} (w : Fin n → K) (e : State K m n nb nn nl) (hc : CleanTrace thr w e) (i : Fin nb) :
    RowOpt w ((List.finRange nb).foldl (priorityStep thr w) e) i := by
  have key : ∀ l r, List.finRange nb = l ++ r → ∀ i ∈ l, RowOpt w (l.foldl (priorityStep thr w) e) i := by
    intro l
    induction l using List.reverseRecOn with
    | nil => intro r _ i hi; simp at hi
    | append_singleton l a ih =>
      intro r hr i hi
      rw [List.append_assoc] at hr
      rw [List.foldl_append]
      have hstep := priorityStep_rowOpt w _ (hc l _ hr) a
      by_cases hia : i = a
      · subst hia; exact hstep.1
      · refine hstep.2 i hia (ih _ hr i ?_)
        rcases List.mem_append.1 hi with h | h
        · exact h
        · simp at h; exact absurd h hia
  exact key _ [] (by simp) i (List.mem_finRange i)

/-- The basis `Q(inl ·)` with coefficients `S` is locally optimal. -/
def LocalOpt (w : Fin n → K) (S : Matrix (Fin nb) (Fin nn) K) (Q : Fin nb ⊕ Fin nn → Fin n) : Prop :=
  ∀ i k, S i k ≠ 0 → w (Q (Sum.inr k)) ≤ w (Q (Sum.inl i))

/-- Local optimality gives, for every independent set of columns, an injection into the basis that does not decrease the weights. -/
theorem localOpt_injection {ι : Type*} {A : Matrix ι (Fin n) K} {S : Matrix (Fin nb) (Fin nn) K} {Q : Fin nb ⊕ Fin nn → Fin n}
    (hQ : Function.Bijective Q) (hs : Spans A S Q) (w : Fin n → K) (ho : LocalOpt w S Q) (J : Finset (Fin n))
    (hJ : LinearIndependent K (fun j : J => fun r => A r j)) :
    ∃ f : J → Fin nb, Function.Injective f ∧ ∀ j : J, w j ≤ w (Q (Sum.inl (f j))) := by
  classical
  -- the basics that column `c` needs
  let T : Fin nb ⊕ Fin nn → Finset (Fin nb) := fun v => match v with
    | Sum.inl i => {i}
    | Sum.inr k => Finset.univ.filter fun i => S i k ≠ 0
  let q := Equiv.ofBijective Q hQ
  have hcol : ∀ v, (fun r => A r (Q v)) ∈ Submodule.span K ((fun i => fun r => A r (Q (Sum.inl i))) '' (T v : Set (Fin nb))) := by
    rintro (i | k)
    · exact Submodule.subset_span ⟨i, by simp [T], rfl⟩
    · have : (fun r => A r (Q (Sum.inr k))) = ∑ i ∈ T (Sum.inr k), S i k • (fun r => A r (Q (Sum.inl i))) := by
        funext r
        rw [hs r k, Finset.sum_apply]
        rw [Finset.sum_filter]
        refine Finset.sum_congr rfl fun i _ => ?_
        by_cases h : S i k = 0
        · simp [h]
        · simp [h, mul_comm]
      rw [this]
      exact Submodule.sum_mem _ fun i hi => Submodule.smul_mem _ _ (Submodule.subset_span ⟨i, hi, rfl⟩)
  obtain ⟨f, hf, hm⟩ := (Finset.all_card_le_biUnion_card_iff_exists_injective (fun j : J => T (q.symm j))).1 (by
    intro J'
    have hli : LinearIndependent K (fun j : J' => fun r => A r (j : J)) := hJ.comp _ Subtype.val_injective
    have hle : Set.range (fun j : J' => fun r => A r ((j : J) : Fin n)) ≤
        ((Submodule.span K ((((J'.biUnion fun j => T (q.symm j)).image fun i => fun r => A r (Q (Sum.inl i)))) : Finset (ι → K)) : Submodule K (ι → K)) : Set (ι → K)) := by
      rintro _ ⟨j, rfl⟩
      have h := hcol (q.symm (j : J))
      have e : Q (q.symm ((j : J) : Fin n)) = ((j : J) : Fin n) := q.apply_symm_apply _
      rw [e] at h
      refine Submodule.span_mono ?_ h
      intro x hx
      obtain ⟨i, hi, rfl⟩ := hx
      simp only [Finset.coe_image, Set.mem_image, Finset.mem_coe, Finset.mem_biUnion]
      exact ⟨i, ⟨(j : J), j.2, hi⟩, rfl⟩
    have := linearIndependent_le_span_aux' _ hli _ hle
    simp only [Finset.coe_sort_coe, Fintype.card_coe] at this
    exact this.trans Finset.card_image_le)
  refine ⟨f, hf, fun j => ?_⟩
  have h := hm j
  have e : Q (q.symm (j : Fin n)) = (j : Fin n) := q.apply_symm_apply _
  cases hv : q.symm (j : Fin n) with
  | inl i =>
    rw [hv] at h e
    have : f j = i := by simpa [T] using h
    rw [this, e]
  | inr k =>
    rw [hv] at h e
    have : S (f j) k ≠ 0 := by simpa [T] using h
    rw [← e]
    exact ho _ _ this

/-- A sort that meets the contract exists. -/
def sortImpl : SortImpl K where
  run key a := a ∘ Tuple.sort (fun i => OrderDual.toDual (key (a i)))
  perm key a := ⟨_, rfl⟩
  sorted key a i j hij := by
    have := Tuple.monotone_sort (fun i => OrderDual.toDual (key (a i))) hij
    exact this

end Optima.Ech
