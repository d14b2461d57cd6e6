import Verif.Model.ExtendFloat
import Verif.Props.EchelonFloat
import Verif.Props.FloatEchelon

/-!
# C84: `EchelonizerExtended` in double arithmetic
-/

set_option linter.unusedSectionVars false

namespace Optima.FEch

open Ech FNull Terms

variable {p n mA nbA nnA nlA mJ nbJ nnJ nlJ : ℕ}

/-! ## Products of several matrices -/

theorem isMul_error {ι : Type} [Fintype ι] (hp : 0 < p) {c : FNum p} {f g : ι → FNum p} (h : IsMul f g c) : |c.val - ∑ k, (f k).val * (g k).val| ≤ roundings p (Fintype.card ι) * ∑ k, |(f k).val * (g k).val| := by
  obtain ⟨l, h1, h2, h3⟩ := h
  have he := sums_error hp h3
  have e1 : exact (l.map fun k => (f k, g k)) = ∑ k, (f k).val * (g k).val := by
    rw [exact, List.map_map, ← sum_enum h1 h2]
    rfl
  have e2 : mag (l.map fun k => (f k, g k)) = ∑ k, |(f k).val * (g k).val| := by
    rw [mag, List.map_map, ← sum_enum h1 h2]
    rfl
  rwa [e1, e2, List.length_map, length_enum h1 h2] at he

theorem isAdd_error {ι : Type} [Fintype ι] (hp : 0 < p) {a c : FNum p} {f g : ι → FNum p} (h : IsAdd a f g c) : |c.val - (a.val + ∑ k, (f k).val * (g k).val)| ≤ roundings p (1 + Fintype.card ι) * (|a.val| + ∑ k, |(f k).val * (g k).val|) := by
  obtain ⟨l, h1, h2, h3⟩ := h
  have he := sums_error hp h3
  have e1 : exact ((a, 1) :: l.map fun k => (f k, g k)) = a.val + ∑ k, (f k).val * (g k).val := by
    rw [exact_cons, FNum.val_one hp, mul_one, exact, List.map_map, ← sum_enum h1 h2]
    rfl
  have e2 : mag ((a, 1) :: l.map fun k => (f k, g k)) = |a.val| + ∑ k, |(f k).val * (g k).val| := by
    rw [mag_cons, FNum.val_one hp, mul_one, mag, List.map_map, ← sum_enum h1 h2]
    rfl
  rwa [e1, e2, List.length_cons, List.length_map, length_enum h1 h2, add_comm _ 1] at he

theorem one_add_roundings (p m k : ℕ) : (1 + roundings p m) * (1 + roundings p k) = 1 + roundings p (m + k) := by
  unfold roundings
  rw [pow_add]
  ring

/-- The terms of a sum whose first factors have errors themselves. -/
theorem compose {ι : Type} [Fintype ι] {m k : ℕ} {f F G g : ι → ℚ} (hF : ∀ i, |F i| ≤ G i) (hf : ∀ i, |f i - F i| ≤ roundings p k * G i) {c a : ℚ} (hc : |c - (a + ∑ i, f i * g i)| ≤ roundings p m * (|a| + ∑ i, |f i * g i|)) {N : ℕ} (hN : m + k ≤ N) :
    |c - (a + ∑ i, F i * g i)| ≤ roundings p N * (|a| + ∑ i, G i * |g i|) := by
  have hm := roundings_nonneg p m
  have hk := roundings_nonneg p k
  have b1 : ∀ i, |f i * g i| ≤ (1 + roundings p k) * (G i * |g i|) := by
    intro i
    rw [abs_mul]
    have : |f i| ≤ (1 + roundings p k) * G i := by
      have h1 := abs_add_le (f i - F i) (F i)
      rw [sub_add_cancel] at h1
      have := hf i
      have := hF i
      linarith
    calc _ ≤ (1 + roundings p k) * G i * |g i| := mul_le_mul_of_nonneg_right this (abs_nonneg _)
      _ = _ := by ring
  have b2 : |∑ i, f i * g i - ∑ i, F i * g i| ≤ roundings p k * ∑ i, G i * |g i| := by
    rw [← Finset.sum_sub_distrib, Finset.mul_sum]
    refine (Finset.abs_sum_le_sum_abs _ _).trans (Finset.sum_le_sum fun i _ => ?_)
    rw [← sub_mul, abs_mul, ← mul_assoc]
    exact mul_le_mul_of_nonneg_right (hf i) (abs_nonneg _)
  have b3 : ∑ i, |f i * g i| ≤ (1 + roundings p k) * ∑ i, G i * |g i| := by
    rw [Finset.mul_sum]
    exact Finset.sum_le_sum fun i _ => b1 i
  have hs : 0 ≤ ∑ i, G i * |g i| := Finset.sum_nonneg fun i _ => mul_nonneg ((abs_nonneg _).trans (hF i)) (abs_nonneg _)
  have ha := abs_nonneg a
  have hmono := roundings_mono p hN
  have hmk := one_add_roundings p m k
  have hma : roundings p m ≤ roundings p N := (roundings_mono p (Nat.le_add_right m k)).trans hmono
  have b4 := mul_le_mul_of_nonneg_left b3 hm
  have e1 : c - (a + ∑ i, F i * g i) = (c - (a + ∑ i, f i * g i)) + (∑ i, f i * g i - ∑ i, F i * g i) := by ring
  rw [e1]
  calc _ ≤ _ := abs_add_le _ _
    _ ≤ roundings p m * |a| + roundings p m * ((1 + roundings p k) * ∑ i, G i * |g i|) + roundings p k * ∑ i, G i * |g i| := by linarith
    _ = roundings p m * |a| + ((1 + roundings p m) * (1 + roundings p k) - 1) * ∑ i, G i * |g i| := by ring
    _ = roundings p m * |a| + roundings p (m + k) * ∑ i, G i * |g i| := by rw [hmk]; ring
    _ ≤ _ := by rw [mul_add]; exact add_le_add (mul_le_mul_of_nonneg_right hma ha) (mul_le_mul_of_nonneg_right hmono hs)

theorem abs_sum_mul_le {ι : Type} [Fintype ι] {F G g : ι → ℚ} (hF : ∀ i, |F i| ≤ G i) : |∑ i, F i * g i| ≤ ∑ i, G i * |g i| := by
  refine (Finset.abs_sum_le_sum_abs _ _).trans (Finset.sum_le_sum fun i _ => ?_)
  rw [abs_mul]
  exact mul_le_mul_of_nonneg_right (hF i) (abs_nonneg _)

/-- `((s*r)*j)*q = s*((r*j)*q)` for a row `s`. -/
theorem assoc {I K D : Type} [Fintype I] [Fintype K] [Fintype D] (s : K → ℚ) (r : K → D → ℚ) (j : D → I → ℚ) (q : I → ℚ) : ∑ l, (∑ d, (∑ k, s k * r k d) * j d l) * q l = ∑ k, s k * ∑ l, (∑ d, r k d * j d l) * q l := by
  simp only [Finset.sum_mul, Finset.mul_sum]
  rw [Finset.sum_congr rfl fun l _ => Finset.sum_comm, Finset.sum_comm]
  exact Finset.sum_congr rfl fun k _ => Finset.sum_congr rfl fun l _ => Finset.sum_congr rfl fun d _ => by ring

/-! ## A row times the new columns -/

/-- `S` and `Z` are the entries of a new column in the rows of the basic variables of `A` and of `J`: `r - s*z` and `z` up to errors. -/
theorem row_eq {I K : Type} [Fintype I] [Fintype K] (α S r : I → ℚ) (β Z z : K → ℚ) (s : I → K → ℚ) (τ : ℚ) :
    ∑ i, α i * S i + ∑ j, β j * Z j - τ = (∑ i, α i * r i - τ + ∑ j, (β j - ∑ i, α i * s i j) * z j) + (∑ i, α i * (S i - (r i - ∑ j, s i j * z j)) + ∑ j, β j * (Z j - z j)) := by
  have e1 : ∑ j, (∑ i, α i * s i j) * z j = ∑ i, α i * ∑ j, s i j * z j := by
    simp only [Finset.sum_mul, Finset.mul_sum]
    rw [Finset.sum_comm]
    exact Finset.sum_congr rfl fun k _ => Finset.sum_congr rfl fun l _ => by ring
  simp only [sub_mul, mul_sub, Finset.sum_sub_distrib, e1]
  ring

theorem weighted {I : Type} [Fintype I] {α e b : I → ℚ} {γ : ℚ} (h : ∀ i, |e i| ≤ γ * b i) : |∑ i, α i * e i| ≤ γ * ∑ i, |α i| * b i := by
  refine (Finset.abs_sum_le_sum_abs _ _).trans ?_
  rw [Finset.mul_sum]
  refine Finset.sum_le_sum fun i _ => ?_
  rw [abs_mul]
  calc _ ≤ |α i| * (γ * b i) := mul_le_mul_of_nonneg_left (h i) (abs_nonneg _)
    _ = _ := by ring

section extended
variable {A : Fin mA → Fin n → FNum p} {eA : State (FNum p) mA n nbA nnA nlA} {J : Fin mJ → Fin n → FNum p} {J2 : Fin mJ → Fin nnA → FNum p} {eJ : State (FNum p) mJ nnA nbJ nnJ nlJ}

/-- `|RJt|*|J1|*|RAt|` -/
def sizeX (eA : State (FNum p) mA n nbA nnA nlA) (J : Fin mJ → Fin n → FNum p) (eJ : State (FNum p) mJ nnA nbJ nnJ nlJ) (j : Fin nbJ) (c : Fin mA) : ℚ :=
  ∑ l, (∑ d, |(eJ.R (.inl j) d).val| * |(J d (eA.Q (.inl l))).val|) * |(eA.R (.inl l) c).val|

/-- `|J1|*|RAt|` -/
def sizeY (eA : State (FNum p) mA n nbA nnA nlA) (J : Fin mJ → Fin n → FNum p) (d : Fin mJ) (c : Fin mA) : ℚ := ∑ l, |(J d (eA.Q (.inl l))).val| * |(eA.R (.inl l) c).val|

/-- `|J2| + |J1|*|SA|`, the terms of the reduced row -/
def sizeJ (eA : State (FNum p) mA n nbA nnA nlA) (J : Fin mJ → Fin n → FNum p) (r : Fin mJ) (k : Fin nnA) : ℚ := |(J r (eA.Q (.inr k))).val| + ∑ i, |(J r (eA.Q (.inl i))).val| * |(eA.S i k).val|

/-- `RJt*J1*RAt` in exact arithmetic -/
def prodX (eA : State (FNum p) mA n nbA nnA nlA) (J : Fin mJ → Fin n → FNum p) (eJ : State (FNum p) mJ nnA nbJ nnJ nlJ) (j : Fin nbJ) (c : Fin mA) : ℚ :=
  ∑ l, (∑ d, (eJ.R (.inl j) d).val * (J d (eA.Q (.inl l))).val) * (eA.R (.inl l) c).val

/-- The number of roundings of a term. -/
def count (nbA nbJ mJ : ℕ) : ℕ := nbA + nbJ + mJ + 1

theorem abs_prodX (j : Fin nbJ) (c : Fin mA) : |prodX eA J eJ j c| ≤ sizeX eA J eJ j c :=
  abs_sum_mul_le fun _ => (abs_sum_mul_le fun _ => le_rfl)

theorem sizeX_nonneg (j : Fin nbJ) (c : Fin mA) : 0 ≤ sizeX eA J eJ j c := (abs_nonneg _).trans (abs_prodX j c)

theorem sizeJ_nonneg (r : Fin mJ) (k : Fin nnA) : 0 ≤ sizeJ eA J r k := add_nonneg (abs_nonneg _) (Finset.sum_nonneg fun _ _ => by positivity)

/-- The blocks of `R` that belong to `A`. -/
theorem Extended.R_A (E : Extended eA J eJ) (hp : 0 < p) (c : Fin mA) :
    (∀ i, |(E.b.Rt (.inl i) (.inl c)).val - ((eA.R (.inl i) c).val - ∑ j, (eA.S i (eJ.Q (.inl j))).val * -prodX eA J eJ j c)| ≤ roundings p (count nbA nbJ mJ) * (|(eA.R (.inl i) c).val| + ∑ j, |(eA.S i (eJ.Q (.inl j))).val| * sizeX eA J eJ j c)) ∧
    ∀ j, |(E.b.Rt (.inr j) (.inl c)).val - -prodX eA J eJ j c| ≤ roundings p (count nbA nbJ mJ) * sizeX eA J eJ j c := by
  have r0 : ∀ x : ℚ, roundings p 0 * x = 0 := by intro x; unfold roundings; simp
  have pad : ∀ {ι : Type} [Fintype ι] {c : FNum p} {f g : ι → FNum p}, IsMul f g c → |c.val - (0 + ∑ k, (f k).val * (g k).val)| ≤ roundings p (Fintype.card ι) * (|(0 : ℚ)| + ∑ k, |(f k).val * (g k).val|) := by
    intro ι _ c f g h
    rw [zero_add, abs_zero, zero_add]
    exact isMul_error hp h
  constructor
  · intro i
    have h1 : ∀ d, |(E.T1 i d).val - ∑ j, (eA.S i (eJ.Q (.inl j))).val * (eJ.R (.inl j) d).val| ≤ roundings p nbJ * ∑ j, |(eA.S i (eJ.Q (.inl j))).val| * |(eJ.R (.inl j) d).val| := by
      intro d
      have := isMul_error hp (E.T1_mul i d)
      simpa only [Fintype.card_fin, abs_mul] using this
    have h2 : ∀ l, |(E.T2 i l).val - ∑ d, (∑ j, (eA.S i (eJ.Q (.inl j))).val * (eJ.R (.inl j) d).val) * (J d (eA.Q (.inl l))).val| ≤ roundings p (mJ + nbJ) * ∑ d, (∑ j, |(eA.S i (eJ.Q (.inl j))).val| * |(eJ.R (.inl j) d).val|) * |(J d (eA.Q (.inl l))).val| := by
      intro l
      have := compose (fun d => abs_sum_mul_le fun _ => le_rfl) h1 (pad (E.T2_mul i l)) (N := mJ + nbJ) (by simp)
      simpa only [zero_add, abs_zero] using this
    have h3 := compose (fun l => abs_sum_mul_le fun d => abs_sum_mul_le fun _ => le_rfl) h2 (isAdd_error hp (E.R_AA i c)) (N := count nbA nbJ mJ) (by unfold count; simp only [Fintype.card_fin]; omega)
    rw [assoc (fun j => (eA.S i (eJ.Q (.inl j))).val), assoc (fun j => |(eA.S i (eJ.Q (.inl j))).val|)] at h3
    simp only [mul_neg, Finset.sum_neg_distrib, sub_neg_eq_add]
    exact h3
  · intro j
    have h1 : ∀ l, |(E.T3 j l).val - -∑ d, (eJ.R (.inl j) d).val * (J d (eA.Q (.inl l))).val| ≤ roundings p mJ * ∑ d, |(eJ.R (.inl j) d).val| * |(J d (eA.Q (.inl l))).val| := by
      intro l
      have := isMul_error hp (E.T3_mul j l)
      simpa only [Fintype.card_fin, abs_mul, FNum.val_neg hp, neg_mul, abs_neg, Finset.sum_neg_distrib] using this
    have h2 := compose (fun l => by rw [abs_neg]; exact abs_sum_mul_le fun _ => le_rfl) h1 (pad (E.R_JA j c)) (N := count nbA nbJ mJ) (by unfold count; simp only [Fintype.card_fin]; omega)
    simp only [zero_add, abs_zero, neg_mul, Finset.sum_neg_distrib] at h2
    exact h2

/-- The block of `R` above that of `J`. -/
theorem Extended.R_J (E : Extended eA J eJ) (hp : 0 < p) (i : Fin nbA) (d : Fin mJ) :
    |(E.b.Rt (.inl i) (.inr d)).val - (0 - ∑ j, (eA.S i (eJ.Q (.inl j))).val * (eJ.R (.inl j) d).val)| ≤ roundings p (count nbA nbJ mJ) * ∑ j, |(eA.S i (eJ.Q (.inl j))).val| * |(eJ.R (.inl j) d).val| := by
  have := isMul_error hp (E.R_AJ i d)
  simp only [Fintype.card_fin, abs_mul, FNum.val_neg hp, neg_mul, abs_neg, Finset.sum_neg_distrib] at this
  rw [zero_sub]
  exact this.trans (mul_le_mul_of_nonneg_right (roundings_mono p (by unfold count; omega)) (Finset.sum_nonneg fun _ _ => by positivity))

/-- The block of `S` that belongs to `A`. -/
theorem Extended.S_top (E : Extended eA J eJ) (hp : 0 < p) (i : Fin nbA) (k : Fin nnJ) :
    |(E.b.S (.inl i) k).val - ((eA.S i (eJ.Q (.inr k))).val - ∑ j, (eA.S i (eJ.Q (.inl j))).val * (eJ.S j k).val)| ≤ roundings p (count nbA nbJ mJ) * (|(eA.S i (eJ.Q (.inr k))).val| + ∑ j, |(eA.S i (eJ.Q (.inl j))).val| * |(eJ.S j k).val|) := by
  have := isSub_error hp (E.S_A i k) (m := count nbA nbJ mJ) (by unfold count; simp only [Fintype.card_fin]; omega)
  simpa only [abs_mul] using this

/-- **C84** The rows of `A`: the errors of `A(:,ibasic)*R = [I 0]` and `A(:,ibasic)*S = A(:,inonbasic)` after `updateWithPriorityWeights(J, w)`, before the sorting, in terms of those of the echelon form of `A` (`errR` and `errS`).  `a` is a row of `A`, `t` that of
    the identity.  The errors of the columns that become basic by `J` are multiplied by the entries of `RJ*J1*RA`, `RJ` and `SJ`, and each entry of the new matrices has the roundings of its terms. -/
theorem rows_A (E : Extended eA J eJ) (hp : 0 < p) (a : Fin n → ℚ) (t : Fin mA → ℚ) :
    (∀ c, |∑ i, a (E.b.qb i) * (E.b.Rt i (.inl c)).val - t c| ≤ |errR a t eA c| + ∑ j, |errS a eA (eJ.Q (.inl j))| * sizeX eA J eJ j c +
      roundings p (count nbA nbJ mJ) * (∑ i, |a (eA.Q (.inl i))| * (|(eA.R (.inl i) c).val| + ∑ j, |(eA.S i (eJ.Q (.inl j))).val| * sizeX eA J eJ j c) + ∑ j, |a (eA.Q (.inr (eJ.Q (.inl j))))| * sizeX eA J eJ j c)) ∧
    (∀ d, |∑ i, a (E.b.qb i) * (E.b.Rt i (.inr d)).val| ≤ ∑ j, |errS a eA (eJ.Q (.inl j))| * |(eJ.R (.inl j) d).val| +
      roundings p (count nbA nbJ mJ) * ∑ i, |a (eA.Q (.inl i))| * ∑ j, |(eA.S i (eJ.Q (.inl j))).val| * |(eJ.R (.inl j) d).val|) ∧
    ∀ k, |∑ i, a (E.b.qb i) * (E.b.S i k).val - a (E.b.qn k)| ≤ |errS a eA (eJ.Q (.inr k))| + ∑ j, |errS a eA (eJ.Q (.inl j))| * |(eJ.S j k).val| +
      roundings p (count nbA nbJ mJ) * ∑ i, |a (eA.Q (.inl i))| * (|(eA.S i (eJ.Q (.inr k))).val| + ∑ j, |(eA.S i (eJ.Q (.inl j))).val| * |(eJ.S j k).val|) := by
  have hγ := roundings_nonneg p (count nbA nbJ mJ)
  have split : ∀ f : Fin nbA ⊕ Fin nbJ → FNum p, ∑ i, a (E.b.qb i) * (f i).val = ∑ i, a (eA.Q (.inl i)) * (f (.inl i)).val + ∑ j, a (eA.Q (.inr (eJ.Q (.inl j)))) * (f (.inr j)).val := by
    intro f
    rw [Fintype.sum_sum_type, E.qb]
    rfl
  have he : ∀ z zz : Fin nbJ → ℚ, (∀ j, |z j| ≤ zz j) → |∑ j, (a (eA.Q (.inr (eJ.Q (.inl j)))) - ∑ i, a (eA.Q (.inl i)) * (eA.S i (eJ.Q (.inl j))).val) * z j| ≤ ∑ j, |errS a eA (eJ.Q (.inl j))| * zz j := by
    intro z zz hz
    refine (Finset.abs_sum_le_sum_abs _ _).trans (Finset.sum_le_sum fun j _ => ?_)
    rw [abs_mul, abs_sub_comm]
    exact mul_le_mul_of_nonneg_left (hz j) (abs_nonneg _)
  refine ⟨fun c => ?_, fun d => ?_, fun k => ?_⟩
  · rw [split, row_eq _ _ (fun i => (eA.R (.inl i) c).val) _ _ (fun j => -prodX eA J eJ j c) (fun i j => (eA.S i (eJ.Q (.inl j))).val)]
    obtain ⟨h1, h2⟩ := E.R_A hp c
    have b1 := weighted (α := fun i => a (eA.Q (.inl i))) h1
    have b2 := weighted (α := fun j => a (eA.Q (.inr (eJ.Q (.inl j))))) h2
    have b3 := he (fun j => -prodX eA J eJ j c) (fun j => sizeX eA J eJ j c) fun j => by rw [abs_neg]; exact abs_prodX j c
    rw [mul_add]
    refine (abs_add_le _ _).trans (add_le_add ((abs_add_le _ _).trans (add_le_add le_rfl b3)) ((abs_add_le _ _).trans (add_le_add b1 b2)))
  · have e0 : ∑ i, a (E.b.qb i) * (E.b.Rt i (.inr d)).val = ∑ i, a (E.b.qb i) * (E.b.Rt i (.inr d)).val - 0 := (sub_zero _).symm
    rw [e0, split, row_eq _ _ (fun _ => 0) _ _ (fun j => (eJ.R (.inl j) d).val) (fun i j => (eA.S i (eJ.Q (.inl j))).val)]
    have b1 := weighted (α := fun i => a (eA.Q (.inl i))) fun i => E.R_J hp i d
    have b3 := he (fun j => (eJ.R (.inl j) d).val) (fun j => |(eJ.R (.inl j) d).val|) fun j => le_rfl
    simp only [E.R_JJ, mul_zero, Finset.sum_const_zero, sub_zero, zero_add, sub_self, add_zero] at b1 ⊢
    exact (abs_add_le _ _).trans (add_le_add b3 b1)
  · rw [split, row_eq _ _ (fun i => (eA.S i (eJ.Q (.inr k))).val) _ _ (fun j => (eJ.S j k).val) (fun i j => (eA.S i (eJ.Q (.inl j))).val)]
    have b1 := weighted (α := fun i => a (eA.Q (.inl i))) fun i => E.S_top hp i k
    have b3 := he (fun j => (eJ.S j k).val) (fun j => |(eJ.S j k).val|) fun j => le_rfl
    simp only [E.S_J, sub_self, mul_zero, Finset.sum_const_zero, add_zero, E.qn]
    exact (abs_add_le _ _).trans (add_le_add ((abs_add_le _ _).trans (add_le_add le_rfl b3)) b1)

/-- **C84** The rows of `J`: the errors of `J(:,ibasic)*R = [0 I]` and `J(:,ibasic)*S = J(:,inonbasic)` in terms of those of the echelon form of the reduced matrix `J2` (`errR` and `errS` of `echelonizerJ`); the terms of the entries of `J2`, which cancel if the row is
    nearly dependent on those of `A`, have their roundings too. -/
theorem rows_J (E : Extended eA J eJ) (hp : 0 < p) (hJ : Reduced eA J J2) (r : Fin mJ) :
    let t : Fin mJ → ℚ := fun d => if r = d then 1 else 0
    let j2 : Fin nnA → ℚ := fun k => (J2 r k).val
    (∀ c, |∑ i, (J r (E.b.qb i)).val * (E.b.Rt i (.inl c)).val| ≤ ∑ d, |errR j2 t eJ d| * sizeY eA J d c +
      roundings p (count nbA nbJ mJ) * (∑ j, sizeJ eA J r (eJ.Q (.inl j)) * sizeX eA J eJ j c + (∑ i, |(J r (eA.Q (.inl i))).val| * (|(eA.R (.inl i) c).val| + ∑ j, |(eA.S i (eJ.Q (.inl j))).val| * sizeX eA J eJ j c) +
        ∑ j, |(J r (eA.Q (.inr (eJ.Q (.inl j))))).val| * sizeX eA J eJ j c))) ∧
    (∀ d, |∑ i, (J r (E.b.qb i)).val * (E.b.Rt i (.inr d)).val - t d| ≤ |errR j2 t eJ d| +
      roundings p (count nbA nbJ mJ) * (∑ j, sizeJ eA J r (eJ.Q (.inl j)) * |(eJ.R (.inl j) d).val| + ∑ i, |(J r (eA.Q (.inl i))).val| * ∑ j, |(eA.S i (eJ.Q (.inl j))).val| * |(eJ.R (.inl j) d).val|)) ∧
    ∀ k, |∑ i, (J r (E.b.qb i)).val * (E.b.S i k).val - (J r (E.b.qn k)).val| ≤ |errS j2 eJ k| +
      roundings p (count nbA nbJ mJ) * (sizeJ eA J r (eJ.Q (.inr k)) + ∑ j, sizeJ eA J r (eJ.Q (.inl j)) * |(eJ.S j k).val| + ∑ i, |(J r (eA.Q (.inl i))).val| * (|(eA.S i (eJ.Q (.inr k))).val| + ∑ j, |(eA.S i (eJ.Q (.inl j))).val| * |(eJ.S j k).val|)) := by
  intro t j2
  have hγ := roundings_nonneg p (count nbA nbJ mJ)
  set γ := roundings p (count nbA nbJ mJ) with hγd
  have split : ∀ f : Fin nbA ⊕ Fin nbJ → FNum p, ∑ i, (J r (E.b.qb i)).val * (f i).val = ∑ i, (J r (eA.Q (.inl i))).val * (f (.inl i)).val + ∑ j, (J r (eA.Q (.inr (eJ.Q (.inl j))))).val * (f (.inr j)).val := by
    intro f
    rw [Fintype.sum_sum_type, E.qb]
    rfl
  have hx : ∀ k, |(J r (eA.Q (.inr k))).val - ∑ i, (J r (eA.Q (.inl i))).val * (eA.S i k).val - j2 k| ≤ γ * sizeJ eA J r k := by
    intro k
    have := isSub_error hp (hJ r k) (m := count nbA nbJ mJ) (by unfold count; simp only [Fintype.card_fin]; omega)
    rw [abs_sub_comm]
    simp only [abs_mul] at this
    exact this
  have he : ∀ z zz : Fin nbJ → ℚ, (∀ j, |z j| ≤ zz j) → ∃ δ, |δ| ≤ γ * ∑ j, sizeJ eA J r (eJ.Q (.inl j)) * zz j ∧ ∑ j, ((J r (eA.Q (.inr (eJ.Q (.inl j))))).val - ∑ i, (J r (eA.Q (.inl i))).val * (eA.S i (eJ.Q (.inl j))).val) * z j = ∑ j, j2 (eJ.Q (.inl j)) * z j + δ := by
    intro z zz hz
    refine ⟨∑ j, ((J r (eA.Q (.inr (eJ.Q (.inl j))))).val - ∑ i, (J r (eA.Q (.inl i))).val * (eA.S i (eJ.Q (.inl j))).val - j2 (eJ.Q (.inl j))) * z j, ?_, ?_⟩
    · rw [Finset.mul_sum]
      refine (Finset.abs_sum_le_sum_abs _ _).trans (Finset.sum_le_sum fun j _ => ?_)
      rw [abs_mul, ← mul_assoc]
      exact mul_le_mul (hx _) (hz j) (abs_nonneg _) (mul_nonneg hγ (sizeJ_nonneg _ _))
    · rw [← Finset.sum_add_distrib]
      exact Finset.sum_congr rfl fun j _ => by ring
  refine ⟨fun c => ?_, fun d => ?_, fun k => ?_⟩
  · have e0 : ∑ i, (J r (E.b.qb i)).val * (E.b.Rt i (.inl c)).val = ∑ i, (J r (E.b.qb i)).val * (E.b.Rt i (.inl c)).val - 0 := (sub_zero _).symm
    rw [e0, split, row_eq _ _ (fun i => (eA.R (.inl i) c).val) _ _ (fun j => -prodX eA J eJ j c) (fun i j => (eA.S i (eJ.Q (.inl j))).val)]
    obtain ⟨h1, h2⟩ := E.R_A hp c
    have b1 := weighted (α := fun i => (J r (eA.Q (.inl i))).val) h1
    have b2 := weighted (α := fun j => (J r (eA.Q (.inr (eJ.Q (.inl j))))).val) h2
    obtain ⟨δ, d1, d2⟩ := he (fun j => -prodX eA J eJ j c) (fun j => sizeX eA J eJ j c) fun j => by rw [abs_neg]; exact abs_prodX j c
    rw [d2, sub_zero]
    -- the product of the reduced row and `RJ*J1*RA`
    have e1 : ∑ i, (J r (eA.Q (.inl i))).val * (eA.R (.inl i) c).val + (∑ j, j2 (eJ.Q (.inl j)) * -prodX eA J eJ j c + δ) = -∑ d, errR j2 t eJ d * ∑ l, (J d (eA.Q (.inl l))).val * (eA.R (.inl l) c).val + δ := by
      have e2 : ∑ j, j2 (eJ.Q (.inl j)) * prodX eA J eJ j c = ∑ d, (∑ j, j2 (eJ.Q (.inl j)) * (eJ.R (.inl j) d).val) * ∑ l, (J d (eA.Q (.inl l))).val * (eA.R (.inl l) c).val := by
        unfold prodX
        rw [← assoc (fun j => j2 (eJ.Q (.inl j))) (fun j d => (eJ.R (.inl j) d).val) (fun d l => (J d (eA.Q (.inl l))).val)]
        simp only [Finset.sum_mul, Finset.mul_sum]
        rw [Finset.sum_comm]
        refine Finset.sum_congr rfl fun d _ => ?_
        exact Finset.sum_congr rfl fun l _ => Finset.sum_congr rfl fun j _ => by ring
      have e3 : ∑ d, t d * ∑ l, (J d (eA.Q (.inl l))).val * (eA.R (.inl l) c).val = ∑ i, (J r (eA.Q (.inl i))).val * (eA.R (.inl i) c).val := by
        simp [t]
      simp only [mul_neg, Finset.sum_neg_distrib, e2]
      unfold errR
      simp only [sub_mul, Finset.sum_sub_distrib, e3]
      ring
    rw [e1]
    have b4 : |-∑ d, errR j2 t eJ d * ∑ l, (J d (eA.Q (.inl l))).val * (eA.R (.inl l) c).val| ≤ ∑ d, |errR j2 t eJ d| * sizeY eA J d c := by
      rw [abs_neg]
      refine (Finset.abs_sum_le_sum_abs _ _).trans (Finset.sum_le_sum fun d _ => ?_)
      rw [abs_mul]
      exact mul_le_mul_of_nonneg_left (abs_sum_mul_le fun _ => le_rfl) (abs_nonneg _)
    have f1 := (abs_add_le _ _).trans (add_le_add ((abs_add_le _ _).trans (add_le_add b4 d1)) ((abs_add_le _ _).trans (add_le_add b1 b2)))
    exact f1.trans (le_of_eq (by ring))
  · rw [split, row_eq _ _ (fun _ => 0) _ _ (fun j => (eJ.R (.inl j) d).val) (fun i j => (eA.S i (eJ.Q (.inl j))).val)]
    have b1 := weighted (α := fun i => (J r (eA.Q (.inl i))).val) fun i => E.R_J hp i d
    obtain ⟨δ, d1, d2⟩ := he (fun j => (eJ.R (.inl j) d).val) (fun j => |(eJ.R (.inl j) d).val|) fun j => le_rfl
    rw [d2]
    simp only [E.R_JJ, mul_zero, Finset.sum_const_zero, zero_sub, sub_self, add_zero] at b1 ⊢
    have e1 : -t d + (∑ j, j2 (eJ.Q (.inl j)) * (eJ.R (.inl j) d).val + δ) = errR j2 t eJ d + δ := by
      unfold errR
      ring
    rw [e1]
    have f1 := (abs_add_le _ _).trans (add_le_add ((abs_add_le _ _).trans (add_le_add (le_refl |errR j2 t eJ d|) d1)) b1)
    exact f1.trans (le_of_eq (by ring))
  · rw [split, row_eq _ _ (fun i => (eA.S i (eJ.Q (.inr k))).val) _ _ (fun j => (eJ.S j k).val) (fun i j => (eA.S i (eJ.Q (.inl j))).val)]
    have b1 := weighted (α := fun i => (J r (eA.Q (.inl i))).val) fun i => E.S_top hp i k
    obtain ⟨δ, d1, d2⟩ := he (fun j => (eJ.S j k).val) (fun j => |(eJ.S j k).val|) fun j => le_rfl
    have hk := hx (eJ.Q (.inr k))
    rw [d2]
    simp only [E.S_J, sub_self, mul_zero, Finset.sum_const_zero, add_zero, E.qn]
    have e1 : ∑ i, (J r (eA.Q (.inl i))).val * (eA.S i (eJ.Q (.inr k))).val - (J r (eA.Q (.inr (eJ.Q (.inr k))))).val + (∑ j, j2 (eJ.Q (.inl j)) * (eJ.S j k).val + δ) =
        errS j2 eJ k + (-((J r (eA.Q (.inr (eJ.Q (.inr k))))).val - ∑ i, (J r (eA.Q (.inl i))).val * (eA.S i (eJ.Q (.inr k))).val - j2 (eJ.Q (.inr k))) + δ) := by
      unfold errS
      ring
    rw [e1]
    rw [← abs_neg] at hk
    have f1 := (abs_add_le _ _).trans (add_le_add ((abs_add_le _ _).trans (add_le_add (le_refl |errS j2 eJ k|) ((abs_add_le _ _).trans (add_le_add hk d1)))) b1)
    exact f1.trans (le_of_eq (by ring))

/-- **C84** The rows of `R` of the equations found dependent: those of `A` are rows of the permutation as before, those of `J` are `[-RJb*J1*RA RJb]` up to roundings. -/
theorem rows_dependent (E : Extended eA J eJ) (hp : 0 < p) :
    (∀ l c, E.b.Rb (.inl l) (.inl c) = eA.R (.inr l) c) ∧ (∀ l d, E.b.Rb (.inl l) (.inr d) = 0) ∧ (∀ l d, E.b.Rb (.inr l) (.inr d) = eJ.R (.inr l) d) ∧
    ∀ l c, |(E.b.Rb (.inr l) (.inl c)).val + ∑ i, (∑ d, (eJ.R (.inr l) d).val * (J d (eA.Q (.inl i))).val) * (eA.R (.inl i) c).val| ≤
      roundings p (count nbA nbJ mJ) * ∑ i, (∑ d, |(eJ.R (.inr l) d).val| * |(J d (eA.Q (.inl i))).val|) * |(eA.R (.inl i) c).val| := by
  refine ⟨E.Rb_AA, E.Rb_AJ, E.Rb_JJ, fun l c => ?_⟩
  have h1 : ∀ i, |(E.T4 l i).val - -∑ d, (eJ.R (.inr l) d).val * (J d (eA.Q (.inl i))).val| ≤ roundings p mJ * ∑ d, |(eJ.R (.inr l) d).val| * |(J d (eA.Q (.inl i))).val| := by
    intro i
    have := isMul_error hp (E.T4_mul l i)
    simpa only [Fintype.card_fin, abs_mul, FNum.val_neg hp, neg_mul, abs_neg, Finset.sum_neg_distrib] using this
  have pad : |(E.b.Rb (.inr l) (.inl c)).val - (0 + ∑ i, (E.T4 l i).val * (eA.R (.inl i) c).val)| ≤ roundings p (Fintype.card (Fin nbA)) * (|(0 : ℚ)| + ∑ i, |(E.T4 l i).val * (eA.R (.inl i) c).val|) := by
    rw [zero_add, abs_zero, zero_add]
    exact isMul_error hp (E.Rb_JA l c)
  have h2 := compose (fun i => by rw [abs_neg]; exact abs_sum_mul_le fun _ => le_rfl) h1 pad (N := count nbA nbJ mJ) (by unfold count; simp only [Fintype.card_fin]; omega)
  simp only [zero_add, abs_zero, neg_mul, Finset.sum_neg_distrib, sub_neg_eq_add] at h2
  exact h2

/-- **C84** The sorting by the weights only changes the order: the sums over the basic variables are those of the blocks. -/
theorem form_rows (E : Extended eA J eJ) (A : Fin mA → Fin n → FNum p) (sort : SortImpl (FNum p)) (w : Fin n → FNum p) (a : Fin n → ℚ) :
    (∀ d, ∑ i, a ((E.form A sort w).Q (.inl i)) * ((E.form A sort w).R (.inl i) d).val = ∑ i, a (E.b.qb i) * (E.b.Rt i (finSumFinEquiv.symm d)).val) ∧
    ∃ π : Equiv.Perm (Fin nnJ), ∀ k, (E.form A sort w).Q (.inr k) = E.b.qn (π k) ∧ ∑ i, a ((E.form A sort w).Q (.inl i)) * ((E.form A sort w).S i k).val = ∑ i, a (E.b.qb i) * (E.b.S i (π k)).val := by
  obtain ⟨π, hπ⟩ := sort.perm (fun l => w ((E.b.flat A J).Q (.inl l))) id
  obtain ⟨τ, hτ⟩ := sort.perm (fun l => w ((E.b.flat A J).Q (.inr l))) id
  refine ⟨fun d => ?_, τ, fun k => ⟨congrArg E.b.qn (congrFun hτ k), ?_⟩⟩
  · exact Fintype.sum_equiv (π.trans finSumFinEquiv.symm) _ _ fun i => congrArg (fun j => a (E.b.qb (finSumFinEquiv.symm j)) * (E.b.Rt (finSumFinEquiv.symm j) (finSumFinEquiv.symm d)).val) (congrFun hπ i)
  · refine Fintype.sum_equiv (π.trans finSumFinEquiv.symm) _ _ fun i => ?_
    exact (congrArg (fun j => a (E.b.qb (finSumFinEquiv.symm j)) * (E.b.S (finSumFinEquiv.symm j) _).val) (congrFun hπ i)).trans (congrArg (fun l => a (E.b.qb (finSumFinEquiv.symm (π i))) * (E.b.S (finSumFinEquiv.symm (π i)) l).val) (congrFun hτ k))

/-- **C84** If a row of `J` that counts as a pivot is a combination of the rows of `A`, the extended form is wrong, whatever the rounding errors: the errors of its row and of those of `A` add up to one. -/
theorem dependent_wrong (E : Extended eA J eJ) {A : Fin mA → Fin n → FNum p} {r : Fin mJ} {lam : Fin mA → ℚ} (h : ∀ j, (J r j).val = ∑ i, lam i * (A i j).val) :
    1 ≤ |∑ i, (J r (E.b.qb i)).val * (E.b.Rt i (.inr r)).val - 1| + ∑ l, |lam l| * |∑ i, (A l (E.b.qb i)).val * (E.b.Rt i (.inr r)).val| := by
  have e1 : ∑ i, (J r (E.b.qb i)).val * (E.b.Rt i (.inr r)).val = ∑ l, lam l * ∑ i, (A l (E.b.qb i)).val * (E.b.Rt i (.inr r)).val := by
    simp only [h, Finset.sum_mul, Finset.mul_sum]
    rw [Finset.sum_comm]
    exact Finset.sum_congr rfl fun _ _ => Finset.sum_congr rfl fun _ _ => by ring
  have b1 : |∑ i, (J r (E.b.qb i)).val * (E.b.Rt i (.inr r)).val| ≤ ∑ l, |lam l| * |∑ i, (A l (E.b.qb i)).val * (E.b.Rt i (.inr r)).val| := by
    rw [e1]
    exact abs_sum_mul_le fun _ => le_rfl
  have b2 := abs_sub_abs_le_abs_sub (1 : ℚ) (∑ i, (J r (E.b.qb i)).val * (E.b.Rt i (.inr r)).val)
  rw [abs_one, abs_sub_comm] at b2
  linarith

end extended

/-! ## The rank decision -/

/-- **C84** A single row counts as independent as soon as it has an entry of at least ten times the machine epsilon (`2.2e-15`), whatever the size of the entries that it is the difference of. -/
theorem numBasicVariables_one (x : Double) : numBasicVariables (fun _ : Fin 1 => x) x.abs = if x.abs < .fl 10 * FNum.epsilon then 0 else 1 := by
  unfold numBasicVariables
  split_ifs with h
  · have : ¬ x.abs * 1 < x.abs := by
      rw [FNum.lt_iff, FNum.val_mul, FNum.val_one (by norm_num), mul_one, FNum.rnd_val (by norm_num)]
      exact lt_irrefl _
    simp [countPivots, this]
  · have h0 : 0 < x.abs.val := by
      refine lt_of_lt_of_le ?_ ((FNum.le_iff _ _).1 (not_lt.1 h))
      decide +kernel
    have : x.abs * (FNum.epsilon * .fl ((1 : ℕ) : ℚ)) < x.abs := by
      have e1 : (FNum.epsilon * .fl ((1 : ℕ) : ℚ) : Double).val = 2 / 2 ^ 53 := by decide +kernel
      rw [FNum.lt_iff, FNum.val_mul, e1]
      have h1 := (abs_le.1 (Fl.rnd_error 53 (x.abs.val * (2 / 2 ^ 53)))).2
      rw [abs_of_pos (by positivity)] at h1
      have h2 : x.abs.val * (2 / 2 ^ 53) / 2 ^ 53 ≤ x.abs.val * (2 / 2 ^ 53) := by
        rw [div_le_iff₀ (by positivity)]
        nlinarith
      have h3 : x.abs.val * (2 / 2 ^ 53) ≤ x.abs.val / 4 := by
        rw [mul_div_assoc']
        rw [div_le_div_iff₀ (by positivity) (by positivity)]
        nlinarith
      linarith
    simp only [countPivots]
    rw [List.countP_eq_length.2 fun i _ => by simpa using this]
    simp

/-! ## The blocks can be computed -/

theorem isMul_mul {k : ℕ} (f g : Fin k → FNum p) : IsMul f g (mul f g) := ⟨List.finRange k, List.nodup_finRange k, List.mem_finRange, sums_value _⟩

/-- The blocks with the sums in the order of the entries. -/
def Extended.inOrder (eA : State (FNum p) mA n nbA nnA nlA) (J : Fin mJ → Fin n → FNum p) (eJ : State (FNum p) mJ nnA nbJ nnJ nlJ) : Extended eA J eJ where
  b := extended eA J eJ
  T1 := _
  T2 := _
  T3 := _
  T4 := _
  qb := rfl
  qn := rfl
  S_A i k := isSub_sub (List.nodup_finRange _) List.mem_finRange _ _ _
  S_J _ _ := rfl
  T1_mul i d := isMul_mul _ _
  T2_mul i l := isMul_mul _ _
  R_AA i c := ⟨List.finRange nbA, List.nodup_finRange _, List.mem_finRange, sums_value _⟩
  R_AJ i d := isMul_mul _ _
  T3_mul j l := isMul_mul _ _
  R_JA j c := isMul_mul _ _
  R_JJ _ _ := rfl
  Rb_AA _ _ := rfl
  Rb_AJ _ _ := rfl
  T4_mul j l := isMul_mul _ _
  Rb_JA j c := isMul_mul _ _
  Rb_JJ _ _ := rfl

/-! ## The loop of the solver for two variables -/

namespace TwoProblem

variable (P : TwoProblem p)

theorem backtrack_free (hp : 0 < p) (debug minmax : Bool) (uo u : MVec (FNum p) 2 0 2) : ∃ v, backtrack debug minmax bounds uo u = some v ∧ v.x = u.x ∧ v.w = u.w := by
  have hin : insideB (bounds : Bounds (FNum p) 2 0) uo = true := by simp [insideB, bounds, leUpper, geLower]
  have hb : ∀ c d : FNum p, c * (1 - 1) + 1 * d = d := by
    intro c d
    apply FNum.val_injective
    rw [FNum.val_add, FNum.val_mul, FNum.val_mul, FNum.val_sub, FNum.val_one hp, sub_self, Fl.rnd_zero, mul_zero, Fl.rnd_zero, one_mul, zero_add, FNum.rnd_val hp, FNum.rnd_val hp]
  have hbeta : betaMin bounds uo u = 1 := by
    change betaStep none none (uo.x 1) (u.x 1) (betaStep none none (uo.x 0) (u.x 0) 1) = 1
    unfold betaStep
    simp [above, below]
  unfold backtrack
  rw [hin]
  simp only [Bool.not_true, Bool.and_false, Bool.false_eq_true, if_false]
  cases minmax
  · refine ⟨_, rfl, ?_, ?_⟩
    · funext i
      change uo.x i * (1 - betaMin bounds uo u) + betaMin bounds uo u * u.x i = _
      rw [hbeta, hb]
    · funext i
      change uo.w i * (1 - betaMin bounds uo u) + betaMin bounds uo u * u.w i = _
      rw [hbeta, hb]
  · refine ⟨_, rfl, ?_, rfl⟩
    funext i
    fin_cases i <;> rfl

/-- If the point reached by the first Newton step has an error below the tolerance, the solve returns it after one iteration. -/
theorem one_step_solve (hp : 0 < p) {o : SolveOptions (FNum p)} (hm : 1 ≤ o.maxiters) (mach : TwoState p) (history : History (FNum p)) (u : MVec (FNum p) 2 0 2)
    (h : ∀ v : MVec (FNum p) 2 0 2, v.x = (P.newton (P.eval u) u).x → v.w = (P.newton (P.eval u) u).w → error (P.eval v) < o.tolerance) :
    ∃ t, (∀ r, Solve P.machine o bounds mach history u r ↔ r = some t) ∧ (solveResult o t).succeeded = true ∧ (solveResult o t).iterations = 1 ∧
      t.u.x = (P.newton (P.eval u) u).x ∧ t.u.w = (P.newton (P.eval u) u).w := by
  obtain ⟨v, hv, hx, hw⟩ := backtrack_free hp o.debug o.minmax u (P.newton (P.eval u) u)
  have hinit : solveInit P.machine bounds mach history u = some { mach := P.eval u, u := u, uo := u, iterations := 0, history := history.init, trace := [u] } := rfl
  let s1 : SolveState (TwoState p) (FNum p) 2 0 2 := { mach := P.eval v, u := v, uo := u, iterations := 1, history := history.init, trace := [v, u] }
  have hstep : step P.machine o bounds { mach := P.eval u, u := u, uo := u, iterations := 0, history := history.init, trace := [u] } = some s1 := by
    unfold step
    dsimp only [machine, transform]
    unfold errorControl
    dsimp only
    rw [hv]
    rfl
  have hst : stepping P.machine o s1 = some ({ s1 with history := s1.history.update (error (P.eval v)), uo := v }, false) := by
    unfold stepping
    dsimp only
    rw [if_neg (by change ¬ (o.maxiters < 1); omega)]
    have : (History.update s1.history (P.machine.error s1.mach)).converged o.tolerance = some true := by
      have := h v hx hw
      simp [History.converged, History.update, machine, s1, this]
    rw [this]
    rfl
  have hs : Solve P.machine o bounds mach history u (some { s1 with history := s1.history.update (error (P.eval v)), uo := v }) := .run _ _ hinit (.stop _ _ _ hstep hst)
  refine ⟨_, fun r => ⟨fun hr => ?_, fun e => e ▸ hs⟩, ?_, rfl, hx, hw⟩
  · obtain ⟨⟨r0, -, h1⟩, -⟩ := solve_budget P.machine o bounds mach history u
    rw [h1 r hr, h1 _ hs]
  · simpa [solveResult, s1] using hm

/-- **C84** What the steps of the bad case below are: `ax` is minus the gradient of the Lagrange function, the Newton step satisfies the linearised conditions `H*dx + W'*dw = ax` up to the errors of `R*W = I` and roundings (`dx` is the residual of the constraints), and the error is
    below a tolerance if and only if all residuals are. -/
theorem newton_conditions (hp : 0 < p) (u : MVec (FNum p) 2 0 2) :
    let s := P.eval u
    let W : Fin 2 → Fin 2 → ℚ := fun c v => (![P.a, P.j] c v).val
    (∀ v, |(s.ax v).val + ((P.g u.x v).val + ∑ c, W c v * (u.w c).val)| ≤ roundings p 3 * (|(P.g u.x v).val| + ∑ c, |W c v * (u.w c).val|)) ∧
    (∃ (dw : Fin 2 → FNum p) (y : Fin 2 → ℚ), (∀ c, (P.newton s u).w c = u.w c + dw c) ∧ (∀ v, (P.newton s u).x v = u.x v + s.awbs v) ∧ (∀ v, |y v - ((s.ax v).val - (s.d v).val * (s.awbs v).val)| ≤ roundings p 2 * (|(s.ax v).val| + |(s.d v).val * (s.awbs v).val|)) ∧
      ∀ v, |(s.d v).val * (s.awbs v).val + ∑ c, W c v * (dw c).val - (s.ax v).val| ≤ ∑ i, |∑ c, W c v * (P.R i c).val - if i = v then 1 else 0| * |y i| + roundings p 2 * ∑ c, |W c v| * ∑ i, |(P.R i c).val * y i| +
        roundings p 2 * (|(s.ax v).val| + |(s.d v).val * (s.awbs v).val|)) ∧
    ∀ tol : FNum p, error s < tol ↔ ∀ v, (s.ax v).abs < tol ∧ (s.awbs v).abs < tol := by
  intro s W
  refine ⟨fun v => ?_, ?_, fun tol => ?_⟩
  · have h := Terms.sums_error hp (((Terms.Sums.entry (P.g u.x v)).add (.mul (P.a v) (u.w 0))).add (.mul (P.j v) (u.w 1)))
    have e : (s.ax v).val = -(P.g u.x v + P.a v * u.w 0 + P.j v * u.w 1 : FNum p).val := FNum.val_neg hp _
    rw [e, neg_add_eq_sub, abs_sub_comm]
    refine (le_of_eq ?_).trans (h.trans (le_of_eq ?_))
    · simp [Terms.exact, Fin.sum_univ_two, W, FNum.val_one hp]
    · simp [Terms.mag, Fin.sum_univ_two, W, FNum.val_one hp]
  · have hy : ∀ v, |(s.ax v - s.d v * s.awbs v : FNum p).val - ((s.ax v).val - (s.d v).val * (s.awbs v).val)| ≤ roundings p 2 * (|(s.ax v).val| + |(s.d v).val * (s.awbs v).val|) := by
      intro v
      have h := Terms.sums_error hp ((Terms.Sums.entry (s.ax v)).sub (.mul (s.d v) (s.awbs v)))
      refine (le_of_eq ?_).trans (h.trans (le_of_eq ?_))
      · simp [Terms.exact, Terms.neg, FNum.val_one hp, FNum.val_neg hp]
        ring_nf
      · simp [Terms.mag, Terms.neg, FNum.val_one hp, FNum.val_neg hp]
    refine ⟨fun c => FNum.dot (fun v => P.R v c) fun v => s.ax v - s.d v * s.awbs v, fun v => (s.ax v - s.d v * s.awbs v : FNum p).val, fun _ => rfl, fun _ => rfl, hy, fun v => ?_⟩
    set y : Fin 2 → FNum p := fun v => s.ax v - s.d v * s.awbs v
    have hd : ∀ c, |(FNum.dot (fun v => P.R v c) y).val - ∑ i, (P.R i c).val * (y i).val| ≤ roundings p 2 * ∑ i, |(P.R i c).val * (y i).val| := by
      intro c
      have h := Terms.sums_error hp (Terms.sums_dot (fun v => P.R v c) y)
      refine (le_of_eq ?_).trans (h.trans (le_of_eq ?_))
      · simp [Terms.exact, Terms.dot, Fin.sum_univ_two, List.finRange_succ]
      · simp [Terms.mag, Terms.dot, Fin.sum_univ_two, List.finRange_succ]
    have e : (s.d v).val * (s.awbs v).val + ∑ c, W c v * (FNum.dot (fun v => P.R v c) y).val - (s.ax v).val =
        ∑ i, (∑ c, W c v * (P.R i c).val - if i = v then 1 else 0) * (y i).val + ∑ c, W c v * ((FNum.dot (fun v => P.R v c) y).val - ∑ i, (P.R i c).val * (y i).val) + ((y v).val - ((s.ax v).val - (s.d v).val * (s.awbs v).val)) := by
      have h : ∑ i, (if i = v then (1 : ℚ) else 0) * (y i).val = (y v).val := by simp
      simp only [sub_mul, mul_sub, Finset.sum_sub_distrib, h]
      simp only [Fin.sum_univ_two]
      ring
    rw [e]
    refine (abs_add_le _ _).trans (add_le_add ((abs_add_le _ _).trans (add_le_add ((Finset.abs_sum_le_sum_abs _ _).trans (le_of_eq (Finset.sum_congr rfl fun _ _ => abs_mul _ _))) (weighted hd))) (hy v))
  · simp only [error, max_lt_iff, Fin.forall_fin_two]
    tauto

end TwoProblem

/-! ## The same constraint twice -/

namespace Twice

def A : Fin 1 → Fin 2 → Double := ![![.fl 3136, .fl 64]]
def pr : Fin 1 ⊕ Fin 0 → Fin 1 := Sum.elim ![0] Fin.elim0
def q : Fin 1 ⊕ Fin 1 → Fin 2 := Sum.elim ![0] ![1]
def F : FLU.Factors fun i j => A (pr (.inl i)) (q (.inl j)) := FLU.Factors.compute (by norm_num) _
def C : Computed A 1 1 0 := Computed.inOrder A pr q (by decide) (by decide) F (by decide +kernel) (by decide +kernel) (by decide +kernel) (by decide +kernel)

/-- The weights at `x = (1, 1)` and at `x = (0, 0)`. -/
def w (c : Double) : Fin 2 → Double := fun _ => c

/-- The computed difference of the row of `J` and a multiple of that of `A`: `2⁻⁴⁷` instead of zero. -/
def J2 : Fin 1 → Fin 1 → Double := fun _ _ => .fl (1 / 2 ^ 47)

def q' : Fin 1 ⊕ Fin 0 → Fin 1 := Sum.elim ![0] Fin.elim0
def F' : FLU.Factors fun i j => J2 (pr (.inl i)) (q' (.inl j)) := FLU.Factors.compute (by norm_num) _
def C' : Computed J2 1 0 0 := Computed.inOrder J2 pr q' (by decide) (by decide) F' (by decide +kernel) (by decide +kernel) (by decide +kernel) (fun _ k => k.elim0)

theorem same (f g : Fin 1 → Fin 1) : f = g := Subsingleton.elim _ _
theorem same' (f g : Fin 0 → Fin 0) : f = g := Subsingleton.elim _ _

theorem reorder_id {m n nb nn nl : ℕ} (e : State Double m n nb nn nl) : reorder e id id = e := by
  have h1 : (reorder e id id).R = e.R := by
    funext r c
    rcases r with i | l <;> rfl
  have h2 : (reorder e id id).Q = e.Q := by
    funext v
    rcases v with i | k <;> rfl
  have h : reorder e id id = { e with R := (reorder e id id).R, Q := (reorder e id id).Q } := rfl
  rw [h, h1, h2]

theorem update_A (sort : SortImpl Double) (c : Double) : Update sort (w c) C.state [C.state] C.state := by
  refine ⟨C.state, .cons (l := []) ?_ (.nil _), ?_⟩
  · unfold Step
    split
    · rfl
    · rename_i wj j hc
      obtain ⟨-, -, h3⟩ := findCandidate_pivot (by norm_num) _ _ _ hc
      rw [if_neg (by rw [h3]; exact lt_irrefl _)]
  · dsimp only
    rw [same (sort.run _ _) id, same (sort.run _ _) id]
    exact (reorder_id C.state).symm

theorem update_J (sort : SortImpl Double) (w : Fin 1 → Double) : Update sort w C'.state [C'.state] C'.state := by
  refine ⟨C'.state, .cons (l := []) rfl (.nil _), ?_⟩
  dsimp only
  rw [same (sort.run _ _) id, same' (sort.run _ _) id]
  exact (reorder_id C'.state).symm

theorem reduced : Reduced C.state A J2 := by
  intro r k
  have h : J2 r k = sub [0] (A r (C.state.Q (.inr k))) (fun i => A r (C.state.Q (.inl i))) fun i => C.state.S i k := by
    revert r k
    decide +kernel
  rw [h]
  exact isSub_sub (by simp) (by decide) _ _ _

/-- The blocks of the extended form. -/
def E : Extended C.state A C'.state := Extended.inOrder _ _ _

/-- `R` by the basic variable and the equation, without round-off errors. -/
def R : Fin 2 → Fin 2 → Double := fun v c => FNum.cleanSigma (FNum.sigma A) E.b.Rt (![.inl 0, .inr 0] v) (![.inl 0, .inr 0] c)

/-- The same as numbers. -/
def Rn : Fin 2 → Fin 2 → Double := ![![.fl (5882252574524729 / 2 ^ 11), .fl (-5882252574524729 / 2 ^ 11)], ![.fl (-9007199254740991 / 2 ^ 6), .fl (2 ^ 47)]]

theorem R_eq : R = Rn := by
  funext v c
  revert v c
  decide +kernel

/-- `min (x0² + x1²)/4` subject to `3136*x0 + 64*x1 = 3200`, as a linear constraint and as `h(x) = 3136*x0 + 64*x1 - 3200`. -/
def problem : TwoProblem 53 where
  a := A 0
  b := .fl 3200
  h := fun x => .fl 3136 * x 0 + .fl 64 * x 1 - .fl 3200
  j := A 0
  g := fun x v => x v / .fl 2
  d := fun _ _ => .fl (1 / 2)
  implicit := fun _ _ => by decide +kernel
  R := R

def start : MVec Double 2 0 2 := { x := fun _ => 1, p := Fin.elim0, w := fun _ => 0 }
def finish : MVec Double 2 0 2 := { x := fun _ => 0, p := Fin.elim0, w := fun _ => 0 }

theorem newton_start : (problem.newton (problem.eval start) start).x = (fun _ => 0) ∧ (problem.newton (problem.eval start) start).w = fun _ => 0 := by
  constructor
  · funext v
    revert v
    decide +kernel
  · funext v
    revert v
    decide +kernel

theorem error_finish : (TwoProblem.error (problem.eval finish)).val = 0 := by decide +kernel

/-- **C84** The same constraint twice, as a linear and as a non-linear one, with a single row each: the rounding error of the difference counts as a pivot, so that both variables become basic and `R` has entries of `10¹⁴`, without the warning about dependent rows.  In
    both rows `[A; J]*R` is `[9/32 23/32]` instead of `[1 0]` and `[0 1]`.  For `(x0² + x1²)/4` and the start `(1, 1)`, which satisfies the constraint exactly, the solve returns the point zero after one iteration and
    reports success, for every positive tolerance.  The constraint is violated by 3200. -/
theorem same_constraint_twice : ∃ (A : Fin 1 → Fin 2 → Double) (C : Computed A 1 1 0) (J2 : Fin 1 → Fin 1 → Double) (C' : Computed J2 1 0 0) (E : Extended C.state A C'.state) (P : TwoProblem 53) (x₀ : Fin 2 → Double),
    (∀ (sort : SortImpl Double) (c : Double), Updates sort [fun _ => c] C.state [C.state] C.state ∧ Updates sort [fun _ => c] C'.state [C'.state] C'.state) ∧
    Reduced C.state A J2 ∧ numBasicVariables (fun i => C'.F.M i i) (C'.F.M 0 0).abs = 1 ∧ warned 2 1 1 1 1 = false ∧
    (∀ i, 2 ^ 41 ≤ |(E.b.Rt i (.inr 0)).val|) ∧ (∑ i, (A 0 (E.b.qb i)).val * (E.b.Rt i (.inl 0)).val = 9 / 32) ∧ (∑ i, (A 0 (E.b.qb i)).val * (E.b.Rt i (.inr 0)).val = 23 / 32) ∧
    P.a = A 0 ∧ P.j = A 0 ∧ (∀ x, P.h x = A 0 0 * x 0 + A 0 1 * x 1 - P.b) ∧ (∀ v c, P.R v c = FNum.cleanSigma (FNum.sigma A) E.b.Rt (![.inl 0, .inr 0] v) (![.inl 0, .inr 0] c)) ∧ (∀ x v, P.g x v = x v / .fl 2) ∧
    ∑ v, (P.a v).val * (x₀ v).val = P.b.val ∧
    ∀ (o : SolveOptions Double), 1 ≤ o.maxiters → 0 < o.tolerance.val → ∀ (mach : TwoState 53) (history : History Double) (u : MVec Double 2 0 2), u.x = x₀ → u.w = 0 →
      ∃ t, (∀ r, Solve P.machine o TwoProblem.bounds mach history u r ↔ r = some t) ∧ (solveResult o t).succeeded = true ∧ (solveResult o t).iterations = 1 ∧ (∀ v, (t.u.x v).val = 0) ∧
        ∑ v, (P.a v).val * (t.u.x v).val - P.b.val = -3200 := by
  refine ⟨A, C, J2, C', E, problem, fun _ => 1, fun sort c => ⟨.cons (update_A sort c) (.nil _), .cons (update_J sort _) (.nil _)⟩, reduced, by decide +kernel, rfl, ?_, ?_, ?_, rfl, rfl, fun _ => rfl, fun _ _ => rfl, fun _ _ => rfl, by decide +kernel, ?_⟩
  · decide +kernel
  · decide +kernel
  · decide +kernel
  · intro o hm htol mach history u hx hw
    have eu : u = start := by
      cases u
      simp only at hx hw
      subst hx hw
      unfold start
      congr 1
      funext i
      exact i.elim0
    rw [eu]
    obtain ⟨t, h1, h2, h3, h4, -⟩ := problem.one_step_solve (by norm_num) hm mach history start (fun v hvx hvw => by
      rw [newton_start.1] at hvx
      rw [newton_start.2] at hvw
      have ev : v = finish := by
        cases v
        simp only at hvx hvw
        subst hvx hvw
        unfold finish
        congr 1
        funext i
        exact i.elim0
      rw [ev, FNum.lt_iff, error_finish]
      exact htol)
    rw [newton_start.1] at h4
    refine ⟨t, h1, h2, h3, ?_, ?_⟩
    · intro v
      rw [h4]
      exact FNum.val_zero
    · rw [h4]
      decide +kernel

end Twice

/-! ## An accurate case -/

namespace Small

def A1 : Fin 1 → Fin 3 → Double := ![![.fl (1 / 10), .fl (3 / 10), .fl (2 / 10)]]
def J1 : Fin 1 → Fin 3 → Double := ![![.fl (2 / 10), .fl (7 / 10), .fl (1 / 10)]]
def pr1 : Fin 1 ⊕ Fin 0 → Fin 1 := Sum.elim ![0] Fin.elim0
def qA : Fin 1 ⊕ Fin 2 → Fin 3 := Sum.elim ![1] ![0, 2]
def FA : FLU.Factors fun i j => A1 (pr1 (.inl i)) (qA (.inl j)) := FLU.Factors.compute (by norm_num) _
def CA : Computed A1 1 2 0 := Computed.inOrder A1 pr1 qA (by decide) (by decide) FA (by decide +kernel) (by decide +kernel) (by decide +kernel) (by decide +kernel)

/-- `J2 - J1*SA` -/
def J1r : Fin 1 → Fin 2 → Double := fun r k => sub (List.finRange 1) (J1 r (CA.state.Q (.inr k))) (fun i => J1 r (CA.state.Q (.inl i))) fun i => CA.state.S i k

def qJ : Fin 1 ⊕ Fin 1 → Fin 2 := Sum.elim ![1] ![0]
def FJ : FLU.Factors fun i j => J1r (pr1 (.inl i)) (qJ (.inl j)) := FLU.Factors.compute (by norm_num) _
def CJ : Computed J1r 1 1 0 := Computed.inOrder J1r pr1 qJ (by decide) (by decide) FJ (by decide +kernel) (by decide +kernel) (by decide +kernel) (by decide +kernel)

/-- The bounds of the theorem are small for `A = [0.1 0.3 0.2]`, `J = [0.2 0.7 0.1]`, where both rows are independent and every operation is rounded. -/
example : ∃ E : Extended CA.state J1 CJ.state, Reduced CA.state J1 J1r ∧ numBasicVariables (fun i => CJ.F.M i i) (CJ.F.M 0 0).abs = 1 ∧
    (∀ c, |∑ i, (A1 0 (E.b.qb i)).val * (E.b.Rt i (.inl c)).val - 1| ≤ 1 / 10 ^ 13) ∧ (∀ d, |∑ i, (J1 0 (E.b.qb i)).val * (E.b.Rt i (.inr d)).val - 1| ≤ 1 / 10 ^ 13) := by
  have hr : Reduced CA.state J1 J1r := fun _ _ => isSub_sub (List.nodup_finRange 1) List.mem_finRange _ _ _
  refine ⟨Extended.inOrder CA.state J1 CJ.state, hr, by decide +kernel, fun c => ?_, fun d => ?_⟩
  · refine ((rows_A (Extended.inOrder CA.state J1 CJ.state) (by norm_num) (fun j => (A1 0 j).val) fun _ => 1).1 c).trans ?_
    revert c
    decide +kernel
  · have h := (rows_J (Extended.inOrder CA.state J1 CJ.state) (by norm_num) hr 0).2.1 d
    have e : (if (0 : Fin 1) = d then (1 : ℚ) else 0) = 1 := if_pos (Subsingleton.elim _ _)
    simp only [e] at h
    refine h.trans ?_
    clear h e
    revert d
    decide +kernel

end Small

end Optima.FEch
