import Verif.Model.LUFloat
import Verif.Props.FloatResidual
import Mathlib.Order.Interval.Finset.Fin

/-!
# Lemmas on `LU` in rounded arithmetic
-/

namespace Optima.FLU

open Terms

variable {p n : ℕ}

theorem sum_filter_list {α β : Type*} [AddCommMonoid β] (l : List α) (P : α → Prop) [DecidablePred P] (f : α → β) : ((l.filter fun k => P k).map f).sum = (l.map fun k => if P k then f k else 0).sum := by
  induction l with
  | nil => rfl
  | cons a l ih => by_cases h : P a <;> simp [h, ih]

theorem exact_minus (hp : 0 < p) (a : FNum p) (P : Fin n → Prop) [DecidablePred P] (f g : Fin n → FNum p) : exact (minus a P f g) = a.val - ∑ k, if P k then (f k).val * (g k).val else 0 := by
  unfold minus
  rw [exact_cons, exact_neg hp, FNum.val_one hp, mul_one, ← sub_eq_add_neg]
  congr 1
  rw [exact, List.map_map, sum_filter_list, Fin.sum_univ_def]
  rfl

theorem mag_minus (hp : 0 < p) (a : FNum p) (P : Fin n → Prop) [DecidablePred P] (f g : Fin n → FNum p) : mag (minus a P f g) = |a.val| + ∑ k, if P k then |(f k).val * (g k).val| else 0 := by
  unfold minus
  rw [mag_cons, mag_neg hp, FNum.val_one hp, mul_one]
  congr 1
  rw [mag, List.map_map, sum_filter_list, Fin.sum_univ_def]
  rfl

theorem length_minus (a : FNum p) (P : Fin n → Prop) [DecidablePred P] (f g : Fin n → FNum p) : (minus a P f g).length = 1 + (Finset.univ.filter P).card := by
  have h := sum_filter_list (List.finRange n) P (fun _ => 1)
  rw [← Fin.sum_univ_def, ← Finset.card_filter] at h
  unfold minus
  rw [List.length_cons, length_neg, List.length_map, add_comm, ← h]
  simp

theorem length_lt (a : FNum p) (i : Fin n) (f g : Fin n → FNum p) : (minus a (· < i) f g).length = 1 + i.val := by
  rw [length_minus]
  congr 1
  rw [← Fin.card_Iio i]
  congr 1
  ext k; simp

theorem length_gt (a : FNum p) (i : Fin n) (f g : Fin n → FNum p) : (minus a (i < ·) f g).length = 1 + (n - 1 - i.val) := by
  rw [length_minus]
  congr 1
  rw [← Fin.card_Ioi i]
  congr 1
  ext k; simp

theorem minus_congr (a : FNum p) {P P' : Fin n → Prop} [DecidablePred P] [DecidablePred P'] {f f' g g' : Fin n → FNum p} (hP : ∀ k, P k ↔ P' k) (h : ∀ k, P k → f k = f' k ∧ g k = g' k) : minus a P f g = minus a P' f' g' := by
  unfold minus
  congr 2
  have : ((List.finRange n).filter fun k => P k) = (List.finRange n).filter fun k => P' k := List.filter_congr fun k _ => by simp [hP k]
  rw [this]
  refine List.map_congr_left fun k hk => ?_
  have hk := (List.mem_filter.1 hk).2
  obtain ⟨h1, h2⟩ := h k ((hP k).2 (by simpa using hk))
  rw [h1, h2]

theorem minus_none (a : FNum p) (P : Fin n → Prop) [DecidablePred P] (hP : ∀ k, ¬ P k) (f g : Fin n → FNum p) : minus a P f g = [(a, 1)] := by
  unfold minus
  rw [List.filter_eq_nil_iff.2 fun k _ => by simp [hP k]]
  rfl

/-- One more term. -/
theorem sums_succ {a s : FNum p} {t : ℕ} (ht : t < n) {f g : Fin n → FNum p} (h : Sums (minus a (fun k => k.val < t) f g) s) : Sums (minus a (fun k => k.val < t + 1) f g) (s - f ⟨t, ht⟩ * g ⟨t, ht⟩) := by
  have h2 := Sums.sub h (Sums.mul (f ⟨t, ht⟩) (g ⟨t, ht⟩))
  refine Sums.perm ?_ h2
  unfold minus
  rw [List.cons_append]
  refine List.Perm.cons _ ?_
  unfold Terms.neg
  rw [← List.map_append]
  refine List.Perm.map _ ?_
  rw [show [(f ⟨t, ht⟩, g ⟨t, ht⟩)] = [(⟨t, ht⟩ : Fin n)].map (fun k => (f k, g k)) from rfl, ← List.map_append]
  refine List.Perm.map _ ?_
  rw [List.perm_ext_iff_of_nodup]
  · intro k
    simp only [List.mem_append, List.mem_filter, List.mem_finRange, true_and, decide_eq_true_eq, List.mem_singleton, Fin.ext_iff]
    omega
  · rw [List.nodup_append]
    refine ⟨(List.nodup_finRange n).filter _, by simp, ?_⟩
    intro x hx y hy e
    simp only [List.mem_filter, List.mem_finRange, true_and, decide_eq_true_eq, List.mem_singleton] at hx hy
    subst hy; subst e
    simp at hx
  · exact (List.nodup_finRange n).filter _

theorem sums_subtract (a : FNum p) (P : Fin n → Prop) [DecidablePred P] (f g : Fin n → FNum p) : Sums (minus a P f g) (subtract a ((List.finRange n).filter fun k => P k) f g) := by
  have key : ∀ (l : List (Fin n)) (T : Terms p) (s : FNum p), Sums T s → Sums (T ++ Terms.neg (l.map fun k => (f k, g k))) (subtract s l f g) := by
    intro l
    induction l with
    | nil => intro T s h; simpa [Terms.neg, subtract] using h
    | cons k l ih =>
      intro T s h
      have := ih _ _ (Sums.sub h (Sums.mul (f k) (g k)))
      simpa [Terms.neg, subtract] using this
  exact key _ _ _ (Sums.entry a)

/-! ## Elimination -/

theorem biggest_spec (M : Fin n → Fin n → FNum p) (k : Fin n) : (k ≤ (biggest M k).1 ∧ k ≤ (biggest M k).2) ∧ ∀ i j, k ≤ i → k ≤ j → (M i j).abs ≤ (M (biggest M k).1 (biggest M k).2).abs := by
  unfold biggest
  have key : ∀ (l : List (Fin n × Fin n)) (b : Fin n × Fin n), (∀ x ∈ l, k ≤ x.1 ∧ k ≤ x.2) → (k ≤ b.1 ∧ k ≤ b.2) →
      let r := l.foldl (fun best ij => if (M best.1 best.2).abs < (M ij.1 ij.2).abs then ij else best) b
      (k ≤ r.1 ∧ k ≤ r.2) ∧ (M b.1 b.2).abs ≤ (M r.1 r.2).abs ∧ ∀ x ∈ l, (M x.1 x.2).abs ≤ (M r.1 r.2).abs := by
    intro l
    induction l with
    | nil => intro b _ hb; exact ⟨hb, le_rfl, by simp⟩
    | cons a l ih =>
      intro b hl hb
      rw [List.foldl_cons]
      have hl' : ∀ x ∈ l, k ≤ x.1 ∧ k ≤ x.2 := fun x hx => hl x (List.mem_cons_of_mem _ hx)
      by_cases h : (M b.1 b.2).abs < (M a.1 a.2).abs
      · rw [if_pos h]
        obtain ⟨h1, h2, h3⟩ := ih a hl' (hl a List.mem_cons_self)
        refine ⟨h1, h.le.trans h2, fun x hx => ?_⟩
        rcases List.mem_cons.1 hx with rfl | hx
        · exact h2
        · exact h3 x hx
      · rw [if_neg h]
        obtain ⟨h1, h2, h3⟩ := ih b hl' hb
        refine ⟨h1, h2, fun x hx => ?_⟩
        rcases List.mem_cons.1 hx with rfl | hx
        · exact (not_lt.1 h).trans h2
        · exact h3 x hx
  obtain ⟨h1, -, h3⟩ := key (((List.finRange n).flatMap fun j => (List.finRange n).map fun i => (i, j)).filter fun ij => k ≤ ij.1 ∧ k ≤ ij.2) (k, k) (fun x hx => by simpa using (List.mem_filter.1 hx).2) ⟨le_rfl, le_rfl⟩
  refine ⟨h1, fun i j hi hj => h3 (i, j) ?_⟩
  rw [List.mem_filter]
  exact ⟨by simp [List.mem_flatMap], by simp [hi, hj]⟩

/-- What holds after `t` steps. -/
structure Inv (A : Fin n → Fin n → FNum p) (t : ℕ) (s : St p n) : Prop where
  upper : ∀ i j : Fin n, (i ≤ j ∨ t ≤ j.val) → Sums (minus (A (s.rowPerm i) (s.colPerm j)) (fun k => k.val < min i.val t) (s.M i) (fun k => s.M k j)) (s.M i j)
  lower : ∀ i j : Fin n, j < i → j.val < t → ∃ r, Sums (minus (A (s.rowPerm i) (s.colPerm j)) (fun k => k.val < j.val) (s.M i) (fun k => s.M k j)) r ∧ r.abs ≤ (s.M j j).abs ∧ s.M i j = r / s.M j j
  dominant : ∀ i j : Fin n, i.val < t → i ≤ j → (s.M i j).abs ≤ (s.M i i).abs

theorem inv_zero (A : Fin n → Fin n → FNum p) : Inv A 0 ⟨A, Equiv.refl _, Equiv.refl _⟩ where
  upper i j _ := by
    rw [minus_none _ _ (by simp)]
    exact Sums.entry _
  lower _ _ _ h := absurd h (by omega)
  dominant _ _ h := absurd h (by omega)

/-- Exchanges of rows and columns that are still to be eliminated. -/
theorem inv_swap {A : Fin n → Fin n → FNum p} {t : ℕ} {s : St p n} (h : Inv A t s) (σ τ : Equiv.Perm (Fin n)) (hσ : ∀ i : Fin n, i.val < t → σ i = i) (hτ : ∀ i : Fin n, i.val < t → τ i = i) :
    Inv A t ⟨fun i j => s.M (σ i) (τ j), σ.trans s.rowPerm, τ.trans s.colPerm⟩ := by
  have ge : ∀ (ρ : Equiv.Perm (Fin n)), (∀ i : Fin n, i.val < t → ρ i = i) → ∀ i : Fin n, t ≤ i.val → t ≤ (ρ i).val := by
    intro ρ hρ i hi
    by_contra hlt
    have := hρ (ρ i) (by omega)
    have := ρ.injective this
    rw [this] at hlt
    omega
  constructor
  · intro i j hij
    have hmin : min (σ i).val t = min i.val t := by
      rcases Nat.lt_or_ge i.val t with hi | hi
      · rw [hσ i hi]
      · have := ge σ hσ i hi
        omega
    have hij' : σ i ≤ τ j ∨ t ≤ (τ j).val := by
      rcases Nat.lt_or_ge j.val t with hj | hj
      · have hle : i ≤ j := by rcases hij with h | h <;> [exact h; omega]
        rw [hτ j hj, hσ i (lt_of_le_of_lt (show i.val ≤ j.val from hle) hj)]
        exact Or.inl hle
      · exact Or.inr (ge τ hτ j hj)
    have := h.upper (σ i) (τ j) hij'
    simp only [Equiv.trans_apply]
    rw [minus_congr _ (P' := fun k => k.val < min i.val t) (f' := fun k => s.M (σ i) (τ k)) (g' := fun k => s.M (σ k) (τ j)) (fun k => by rw [hmin])] at this
    · exact this
    · intro k hk
      have hk : k.val < t := by omega
      rw [hσ k hk, hτ k hk]
      exact ⟨rfl, rfl⟩
  · intro i j hji hj
    have hlt : j < σ i := by
      rcases Nat.lt_or_ge i.val t with hi | hi
      · rw [hσ i hi]; exact hji
      · have := ge σ hσ i hi
        exact Fin.lt_def.2 (by omega)
    obtain ⟨r, h1, h2, h3⟩ := h.lower (σ i) j hlt hj
    refine ⟨r, ?_, ?_, ?_⟩
    · simp only [Equiv.trans_apply, hτ j hj]
      rw [minus_congr _ (P' := fun k => k.val < j.val) (f' := fun k => s.M (σ i) (τ k)) (g' := fun k => s.M (σ k) j) (fun k => Iff.rfl)] at h1
      · exact h1
      · intro k hk
        rw [hσ k (by omega), hτ k (by omega)]
        exact ⟨rfl, rfl⟩
    · simp only [hσ j hj, hτ j hj]; exact h2
    · simp only [hσ j hj, hτ j hj]; exact h3
  · intro i j hi hij
    simp only [hσ i hi, hτ i hi]
    refine h.dominant i _ hi ?_
    rcases Nat.lt_or_ge j.val t with hj | hj
    · rw [hτ j hj]; exact hij
    · have := ge τ hτ j hj
      exact Fin.le_def.2 (by omega)

/-- The division of the column and the update of the block. -/
theorem inv_elim {A : Fin n → Fin n → FNum p} {t : ℕ} (ht : t < n) {s : St p n} (h : Inv A t s) (hmax : ∀ i j : Fin n, t ≤ i.val → t ≤ j.val → (s.M i j).abs ≤ (s.M ⟨t, ht⟩ ⟨t, ht⟩).abs) (M1 M2 : Fin n → Fin n → FNum p)
    (h1 : ∀ i j, M1 i j = if (⟨t, ht⟩ : Fin n) < i ∧ j = ⟨t, ht⟩ then s.M i ⟨t, ht⟩ / s.M ⟨t, ht⟩ ⟨t, ht⟩ else s.M i j)
    (h2 : ∀ i j, M2 i j = if (⟨t, ht⟩ : Fin n) < i ∧ (⟨t, ht⟩ : Fin n) < j then M1 i j - M1 i ⟨t, ht⟩ * M1 ⟨t, ht⟩ j else M1 i j) :
    Inv A (t + 1) ⟨M2, s.rowPerm, s.colPerm⟩ := by
  have e1 : ∀ i j : Fin n, i.val ≤ t → M2 i j = s.M i j := fun i j hi => by
    have : ¬ (⟨t, ht⟩ : Fin n) < i := fun h => absurd (show t < i.val from h) (by omega)
    rw [h2, if_neg (fun h => this h.1), h1, if_neg (fun h => this h.1)]
  have e2 : ∀ i j : Fin n, j.val < t → M2 i j = s.M i j := fun i j hj => by
    rw [h2, if_neg (fun h => absurd (show t < j.val from h.2) (by omega)), h1, if_neg]
    rintro ⟨-, rfl⟩
    exact lt_irrefl _ hj
  have e3 : ∀ i : Fin n, t < i.val → M2 i ⟨t, ht⟩ = s.M i ⟨t, ht⟩ / s.M ⟨t, ht⟩ ⟨t, ht⟩ := fun i hi => by
    rw [h2, if_neg (fun h => lt_irrefl _ h.2), h1, if_pos ⟨hi, rfl⟩]
  have e4 : ∀ i j : Fin n, t < i.val → t < j.val → M2 i j = s.M i j - M2 i ⟨t, ht⟩ * M2 ⟨t, ht⟩ j := fun i j hi hj => by
    have hne : j ≠ ⟨t, ht⟩ := by rintro rfl; exact lt_irrefl _ hj
    rw [e3 i hi, e1 ⟨t, ht⟩ j le_rfl, h2, if_pos ⟨hi, hj⟩, h1 i j, if_neg (fun h => hne h.2), h1 i ⟨t, ht⟩, if_pos ⟨hi, rfl⟩, h1 ⟨t, ht⟩ j, if_neg (fun h => lt_irrefl _ h.1)]
  constructor
  · intro i j hij
    rcases Nat.lt_or_ge t i.val with hi | hi
    · have hj : t < j.val := by rcases hij with h | h <;> [exact lt_of_lt_of_le hi h; omega]
      have := h.upper i j (Or.inr hj.le)
      rw [show min i.val t = t by omega, minus_congr _ (P' := fun k => k.val < t) (f' := M2 i) (g' := fun k => M2 k j) (fun k => Iff.rfl)] at this
      · change Sums (minus _ _ (M2 i) fun k => M2 k j) (M2 i j)
        rw [e4 i j hi hj, show min i.val (t + 1) = t + 1 by omega]
        exact sums_succ ht this
      · intro k hk
        exact ⟨(e2 i k hk).symm, (e1 k j hk.le).symm⟩
    · have := h.upper i j (by rcases hij with h | h <;> [exact Or.inl h; exact Or.inr (by omega)])
      simp only [e1 i j hi]
      rw [minus_congr _ (P' := fun k => k.val < min i.val (t + 1)) (f' := M2 i) (g' := fun k => M2 k j) (fun k => by omega)] at this
      · exact this
      · intro k hk
        exact ⟨(e1 i k hi).symm, (e1 k j (by omega)).symm⟩
  · intro i j hji hj
    rcases Nat.lt_or_ge j.val t with hj' | hj'
    · obtain ⟨r, h1, h2, h3⟩ := h.lower i j hji hj'
      refine ⟨r, ?_, ?_, ?_⟩
      · rw [minus_congr _ (P' := fun k => k.val < j.val) (f' := M2 i) (g' := fun k => M2 k j) (fun k => Iff.rfl)] at h1
        · exact h1
        · intro k hk
          exact ⟨(e2 i k (by omega)).symm, (e1 k j (by omega)).symm⟩
      · simp only [e2 j j hj']; exact h2
      · simp only [e2 j j hj', e2 i j hj']; exact h3
    · obtain rfl : j = ⟨t, ht⟩ := Fin.ext (show j.val = t by omega)
      have hi : t < i.val := hji
      refine ⟨s.M i ⟨t, ht⟩, ?_, ?_, ?_⟩
      · have := h.upper i ⟨t, ht⟩ (Or.inr le_rfl)
        rw [show min i.val t = t by omega, minus_congr _ (P' := fun k => k.val < t) (f' := M2 i) (g' := fun k => M2 k ⟨t, ht⟩) (fun k => Iff.rfl)] at this
        · exact this
        · intro k hk
          exact ⟨(e2 i k hk).symm, (e1 k _ hk.le).symm⟩
      · simp only [e1 ⟨t, ht⟩ ⟨t, ht⟩ le_rfl]; exact hmax _ _ hi.le le_rfl
      · simp only [e1 ⟨t, ht⟩ ⟨t, ht⟩ le_rfl]; exact e3 i hi
  · intro i j hi hij
    simp only [e1 i _ (show i.val ≤ t by omega)]
    rcases Nat.lt_or_ge i.val t with hi' | hi'
    · exact h.dominant i j hi' hij
    · obtain rfl : i = ⟨t, ht⟩ := Fin.ext (show i.val = t by omega)
      exact hmax _ _ le_rfl hij

theorem abs_eq_zero (hp : 0 < p) {a : FNum p} (h : a.abs = 0) : a = 0 := by
  apply FNum.val_injective
  have := congrArg FNum.val h
  rw [FNum.val_abs hp, FNum.val_zero] at this
  rw [FNum.val_zero]
  exact _root_.abs_eq_zero.1 this

/-- No pivot left: all entries left are zero. -/
theorem inv_stop (hp : 0 < p) {A : Fin n → Fin n → FNum p} {t : ℕ} (ht : t < n) {s : St p n} (h : Inv A t s) (hz : ∀ i j : Fin n, t ≤ i.val → t ≤ j.val → s.M i j = 0) : Inv A (t + 1) s := by
  have z1 : (0 : FNum p) - 0 * 0 = 0 := FNum.val_injective (by simp only [FNum.val_sub, FNum.val_mul, FNum.val_zero, mul_zero, sub_zero, Fl.rnd_zero])
  have z2 : (0 : FNum p) / 0 = 0 := FNum.val_injective (by simp only [FNum.val_div, FNum.val_zero, div_zero, Fl.rnd_zero])
  constructor
  · intro i j hij
    rcases Nat.lt_or_ge t i.val with hi | hi
    · have hj : t < j.val := by rcases hij with h | h <;> [exact lt_of_lt_of_le hi h; omega]
      have := h.upper i j (Or.inr hj.le)
      rw [show min i.val t = t by omega] at this
      have := sums_succ ht this
      rw [hz i j hi.le hj.le, hz i ⟨t, ht⟩ hi.le le_rfl, hz ⟨t, ht⟩ j le_rfl hj.le, z1] at this
      rw [hz i j hi.le hj.le, show min i.val (t + 1) = t + 1 by omega]
      exact this
    · have := h.upper i j (by rcases hij with h | h <;> [exact Or.inl h; exact Or.inr (by omega)])
      rwa [minus_congr _ (P' := fun k => k.val < min i.val (t + 1)) (f' := s.M i) (g' := fun k => s.M k j) (fun k => by omega) (fun _ _ => ⟨rfl, rfl⟩)] at this
  · intro i j hji hj
    rcases Nat.lt_or_ge j.val t with hj' | hj'
    · exact h.lower i j hji hj'
    · obtain rfl : j = ⟨t, ht⟩ := Fin.ext (show j.val = t by omega)
      have hi : t < i.val := hji
      have := h.upper i ⟨t, ht⟩ (Or.inr le_rfl)
      rw [show min i.val t = t by omega, hz i _ hi.le le_rfl] at this
      refine ⟨0, this, ?_, ?_⟩
      · rw [hz _ _ le_rfl le_rfl, FNum.le_iff, FNum.val_abs hp, FNum.val_zero]
      · rw [hz i _ hi.le le_rfl, hz _ _ le_rfl le_rfl, z2]
  · intro i j hi hij
    rcases Nat.lt_or_ge i.val t with hi' | hi'
    · exact h.dominant i j hi' hij
    · obtain rfl : i = ⟨t, ht⟩ := Fin.ext (show i.val = t by omega)
      rw [hz _ _ le_rfl hij, hz _ _ le_rfl le_rfl]

theorem inv_elimUpTo (hp : 0 < p) (A : Fin n → Fin n → FNum p) (t : ℕ) (ht : t ≤ n) : Inv A t (elimUpTo A t) := by
  induction t with
  | zero => exact inv_zero A
  | succ t ih =>
    have ih := ih (by omega)
    have ht' : t < n := ht
    rw [elimUpTo, dif_pos ht']
    obtain ⟨⟨hr, hc⟩, hmax⟩ := biggest_spec (elimUpTo A t).M ⟨t, ht'⟩
    unfold elim
    dsimp only
    generalize hrr : (biggest (elimUpTo A t).M ⟨t, ht'⟩).1 = r at hr hmax
    generalize hcc : (biggest (elimUpTo A t).M ⟨t, ht'⟩).2 = c at hc hmax
    split_ifs with hzero
    · refine inv_stop hp ht' ih fun i j hi hj => abs_eq_zero hp (le_antisymm ?_ ?_)
      · rw [← hzero]; exact hmax i j hi hj
      · rw [FNum.le_iff, FNum.val_zero, FNum.val_abs hp]; exact abs_nonneg _
    · have fix : ∀ (r : Fin n), (⟨t, ht'⟩ : Fin n) ≤ r → ∀ i : Fin n, i.val < t → Equiv.swap ⟨t, ht'⟩ r i = i := by
        intro r hr i hi
        refine Equiv.swap_apply_of_ne_of_ne ?_ ?_
        · rintro rfl; exact lt_irrefl _ hi
        · rintro rfl; exact absurd (show t ≤ i.val from hr) (by omega)
      have hs := inv_swap ih (Equiv.swap ⟨t, ht'⟩ r) (Equiv.swap ⟨t, ht'⟩ c) (fix r hr) (fix c hc)
      have ge : ∀ (r : Fin n), (⟨t, ht'⟩ : Fin n) ≤ r → ∀ i : Fin n, t ≤ i.val → (⟨t, ht'⟩ : Fin n) ≤ Equiv.swap ⟨t, ht'⟩ r i := by
        intro r hr i hi
        rw [Equiv.swap_apply_def]
        split_ifs
        · exact hr
        · exact le_rfl
        · exact hi
      refine inv_elim ht' hs ?_ _ _ (fun i j => rfl) (fun i j => rfl)
      intro i j hi hj
      simp only [Equiv.swap_apply_left]
      exact hmax _ _ (ge r hr i hi) (ge c hc j hj)

/-- The result of the elimination. -/
def Factors.compute (hp : 0 < p) (A : Fin n → Fin n → FNum p) : Factors A where
  rowPerm := (elimUpTo A n).rowPerm
  colPerm := (elimUpTo A n).colPerm
  M := (elimUpTo A n).M
  upper i j hij := by
    have := (inv_elimUpTo hp A n le_rfl).upper i j (Or.inl hij)
    rwa [minus_congr _ (P' := (· < i)) (fun k => by rw [Fin.lt_def]; have := i.isLt; omega) (fun _ _ => ⟨rfl, rfl⟩)] at this
  lower i j hji := by
    obtain ⟨r, h1, h2⟩ := (inv_elimUpTo hp A n le_rfl).lower i j hji j.isLt
    exact ⟨r, h1, h2⟩
  dominant i j hij := (inv_elimUpTo hp A n le_rfl).dominant i j i.isLt hij

/-! ## Substitution -/

theorem forward_keep (M : Fin n → Fin n → FNum p) (b : Fin n → FNum p) (t : ℕ) (i : Fin n) (hi : i.val < t) : ∀ d, forwardUpTo M b (t + d) i = forwardUpTo M b t i := by
  intro d
  induction d with
  | zero => rfl
  | succ d ih =>
    rw [← Nat.add_assoc, forwardUpTo]
    split_ifs with h
    · rw [Function.update_of_ne, ih]
      rintro rfl
      simp at hi
    · exact ih

theorem forward_eq (M : Fin n → Fin n → FNum p) (b : Fin n → FNum p) (i : Fin n) :
    Sums (minus (b i) (· < i) (M i) (forwardUpTo M b n)) (forwardUpTo M b n i) := by
  have e : ∀ (k : Fin n) (t : ℕ), k.val < t → t ≤ n → forwardUpTo M b n k = forwardUpTo M b t k := fun k t hk ht => by
    obtain ⟨d, rfl⟩ := Nat.exists_eq_add_of_le ht
    exact forward_keep M b t k hk d
  rw [e i (i.val + 1) (by omega) (by have := i.isLt; omega), forwardUpTo]
  rw [dif_pos i.isLt, Function.update_self]
  have := sums_subtract (b i) (· < i) (M i) (forwardUpTo M b i.val)
  rw [minus_congr _ (P' := (· < i)) (f' := M i) (g' := forwardUpTo M b n) (fun k => Iff.rfl)] at this
  · exact this
  · intro k hk
    exact ⟨rfl, (e k i.val hk (by have := i.isLt; omega)).symm⟩

theorem backward_keep (U : Fin n → Fin n → FNum p) (y : Fin n → FNum p) (t : ℕ) (i : Fin n) (hi : n - 1 - t < i.val) : ∀ d, backwardUpTo U y (t + d) i = backwardUpTo U y t i := by
  intro d
  induction d with
  | zero => rfl
  | succ d ih =>
    rw [← Nat.add_assoc, backwardUpTo]
    dsimp only
    split_ifs with h
    · rw [Function.update_of_ne, ih]
      rintro rfl
      simp at hi
      omega
    · exact ih

theorem backward_eq (U : Fin n → Fin n → FNum p) (y : Fin n → FNum p) (i : Fin n) :
    Sums (minus (y i) (i < ·) (U i) (backwardUpTo U y n)) (subtract (y i) ((List.finRange n).filter fun k => i < k) (U i) (backwardUpTo U y n)) ∧
    backwardUpTo U y n i = subtract (y i) ((List.finRange n).filter fun k => i < k) (U i) (backwardUpTo U y n) / U i i := by
  refine ⟨sums_subtract _ _ _ _, ?_⟩
  have hin := i.isLt
  have e : ∀ (k : Fin n) (t : ℕ), n - 1 - t < k.val → t ≤ n → backwardUpTo U y n k = backwardUpTo U y t k := fun k t hk ht => by
    obtain ⟨d, rfl⟩ := Nat.exists_eq_add_of_le ht
    exact backward_keep U y t k hk d
  have hi : backwardUpTo U y n i = backwardUpTo U y (n - 1 - i.val + 1) i := by
    obtain ⟨d, hd⟩ := Nat.exists_eq_add_of_le (show n - 1 - i.val + 1 ≤ n by omega)
    rcases Nat.eq_zero_or_pos i.val with h0 | h0
    · rw [show n - 1 - i.val + 1 = n by omega]
    · exact e i _ (by omega) (by omega)
  have hidx : (⟨n - 1 - (n - 1 - i.val), by omega⟩ : Fin n) = i := Fin.ext (by simp; omega)
  rw [hi, backwardUpTo]
  dsimp only
  rw [dif_pos (by omega)]
  have : ∀ j : Fin n, j = i → Function.update (backwardUpTo U y (n - 1 - i.val)) j (subtract (y j) ((List.finRange n).filter fun k => j < k) (U j) (backwardUpTo U y (n - 1 - i.val)) / U j j) i =
      subtract (y i) ((List.finRange n).filter fun k => i < k) (U i) (backwardUpTo U y n) / U i i := by
    rintro j rfl
    rw [Function.update_self]
    congr 1
    unfold subtract
    refine List.foldl_ext _ _ _ fun s k hk => ?_
    have hk : j < k := by simpa using (List.mem_filter.1 hk).2
    rw [e k (n - 1 - j.val) (by have := Fin.lt_def.1 hk; omega) (by omega)]
  exact this _ hidx

/-- One solve in order, without blocks. -/
def solveInOrder {A : Fin n → Fin n → FNum p} (F : Factors A) (rank0 : ℕ) (b : Fin n → FNum p) : Solves F rank0 b where
  y := forwardUpTo F.M (b ∘ F.rowPerm) n
  z := backwardUpTo (assembleU F.M (forwardUpTo F.M (b ∘ F.rowPerm) n) rank0).U (assembleU F.M (forwardUpTo F.M (b ∘ F.rowPerm) n) rank0).y n
  forward i := forward_eq F.M (b ∘ F.rowPerm) i
  backward i := ⟨_, backward_eq _ _ i⟩

end Optima.FLU
