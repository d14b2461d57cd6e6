import Verif.Lemmas.LUFloat
import Verif.Model.LinearSolvers
import Mathlib.Algebra.Order.Ring.Pow
import Mathlib.Algebra.Ring.GeomSum
import Mathlib.Tactic.FinCases

/-!
# C81: `LU` in double arithmetic
-/

set_option linter.unusedSectionVars false

namespace Optima.FLU

open Terms

variable {p n : ℕ}

/-! ## Rounding -/

/-- One more relative error. -/
theorem step_rel {s s' X M c : ℚ} (h : |s - X| ≤ (c - 1) * M) (hX : |X| ≤ M) (hs : |s' - s| ≤ |s| / 2 ^ p) : |s' - X| ≤ (c * (1 + 1 / 2 ^ p) - 1) * M := by
  have h2 : |s| ≤ c * M := by
    have : s = (s - X) + X := by ring
    rw [this]
    exact (abs_add_le _ _).trans (by linarith)
  have h3 : |s| / 2 ^ p ≤ c * M * (1 / 2 ^ p) := by
    rw [div_eq_mul_one_div]
    exact mul_le_mul_of_nonneg_right h2 (by positivity)
  have : s' - X = (s' - s) + (s - X) := by ring
  rw [this]
  refine (abs_add_le _ _).trans ?_
  have e : (c * (1 + 1 / 2 ^ p) - 1) * M = c * M * (1 / 2 ^ p) + (c - 1) * M := by ring
  rw [e]
  exact add_le_add (hs.trans h3) h

/-- A division. -/
theorem div_rel {s d q : FNum p} (hd : d.val ≠ 0) (h : q = s / d) : |q.val * d.val - s.val| ≤ |s.val| / 2 ^ p := by
  subst h
  rw [FNum.val_div]
  have h1 := Fl.rnd_error p (s.val / d.val)
  have e : Fl.rnd p (s.val / d.val) * d.val - s.val = (Fl.rnd p (s.val / d.val) - s.val / d.val) * d.val := by
    field_simp
  rw [e, abs_mul]
  calc |Fl.rnd p (s.val / d.val) - s.val / d.val| * |d.val| ≤ |s.val / d.val| / 2 ^ p * |d.val| := mul_le_mul_of_nonneg_right h1 (abs_nonneg _)
    _ = |s.val| / 2 ^ p := by
      rw [abs_div]
      have := abs_ne_zero.2 hd
      field_simp

theorem roundings_succ (p n : ℕ) : roundings p (n + 1) = (1 + 1 / 2 ^ p) ^ n * (1 + 1 / 2 ^ p) - 1 := by unfold roundings; rw [pow_succ]

theorem roundings_small (p n : ℕ) (h : 16 * n ≤ 2 ^ p) : 15 * roundings p n ≤ 16 * (n / 2 ^ p) ∧ 15 * roundings p n ≤ 1 := by
  have h' : (16 : ℚ) * n ≤ 2 ^ p := by exact_mod_cast h
  have hP : (0 : ℚ) < 2 ^ p := by positivity
  have hP1 : (1 : ℚ) ≤ 2 ^ p := one_le_pow₀ (by norm_num)
  set u : ℚ := 1 / 2 ^ p with hu
  have hu0 : 0 < u := by positivity
  have hu1 : u ≤ 1 := by rw [hu, div_le_one hP]; exact hP1
  have hnu : n * u ≤ 1 / 16 := by
    rw [hu, mul_one_div, div_le_div_iff₀ hP (by norm_num)]; linarith
  have hb : 1 - n * u ≤ (1 - u) ^ n := by
    have := one_add_mul_le_pow (show (-2 : ℚ) ≤ -u by linarith) n
    have e : (1 : ℚ) + n * -u = 1 - n * u := by ring
    have e' : (1 : ℚ) + -u = 1 - u := by ring
    rwa [e, e'] at this
  have hc : (1 + u) ^ n * (1 - n * u) ≤ 1 := by
    calc (1 + u) ^ n * (1 - n * u) ≤ (1 + u) ^ n * (1 - u) ^ n := mul_le_mul_of_nonneg_left hb (by positivity)
      _ = ((1 + u) * (1 - u)) ^ n := (mul_pow _ _ _).symm
      _ ≤ 1 := pow_le_one₀ (by nlinarith) (by nlinarith)
  have hr : roundings p n = (1 + u) ^ n - 1 := rfl
  have hg0 := roundings_nonneg p n
  have hnu0 : (0 : ℚ) ≤ n * u := by positivity
  rw [show (n : ℚ) / 2 ^ p = n * u by rw [hu]; ring, hr]
  rw [hr] at hg0
  constructor <;> nlinarith

/-! ## The factors -/

/-- The unit lower triangular factor. -/
def Factors.L {A : Fin n → Fin n → FNum p} (F : Factors A) : Fin n → Fin n → ℚ := fun i j => if j < i then (F.M i j).val else if j = i then 1 else 0
/-- The upper triangular factor. -/
def Factors.U {A : Fin n → Fin n → FNum p} (F : Factors A) : Fin n → Fin n → ℚ := fun i j => if i ≤ j then (F.M i j).val else 0
/-- The product of the absolute values of the factors. -/
def Factors.size {A : Fin n → Fin n → FNum p} (F : Factors A) (i j : Fin n) : ℚ := ∑ k, |F.L i k| * |F.U k j|

section
variable {A : Fin n → Fin n → FNum p} (F : Factors A)

theorem Factors.size_nonneg (i j : Fin n) : 0 ≤ F.size i j := Finset.sum_nonneg fun k _ => mul_nonneg (abs_nonneg _) (abs_nonneg _)

theorem Factors.prod_upper {i j : Fin n} (h : i ≤ j) : ∑ k, F.L i k * F.U k j = (∑ k, if k < i then (F.M i k).val * (F.M k j).val else 0) + (F.M i j).val := by
  have : ∀ k, F.L i k * F.U k j = (if k < i then (F.M i k).val * (F.M k j).val else 0) + (if k = i then (F.M i j).val else 0) := by
    intro k
    unfold Factors.L Factors.U
    rcases lt_trichotomy k i with hk | hk | hk
    · rw [if_pos hk, if_pos (hk.le.trans h), if_pos hk, if_neg hk.ne, add_zero]
    · subst hk; simp [h]
    · rw [if_neg hk.asymm, if_neg hk.ne', if_neg hk.asymm, if_neg hk.ne']; simp
  rw [Finset.sum_congr rfl fun k _ => this k, Finset.sum_add_distrib, Finset.sum_ite_eq' Finset.univ i]
  simp

theorem Factors.size_upper {i j : Fin n} (h : i ≤ j) : F.size i j = (∑ k, if k < i then |(F.M i k).val * (F.M k j).val| else 0) + |(F.M i j).val| := by
  unfold Factors.size
  have : ∀ k, |F.L i k| * |F.U k j| = (if k < i then |(F.M i k).val * (F.M k j).val| else 0) + (if k = i then |(F.M i j).val| else 0) := by
    intro k
    unfold Factors.L Factors.U
    rcases lt_trichotomy k i with hk | hk | hk
    · rw [if_pos hk, if_pos (hk.le.trans h), if_pos hk, if_neg hk.ne, add_zero, abs_mul]
    · subst hk; simp [h]
    · rw [if_neg hk.asymm, if_neg hk.ne', if_neg hk.asymm, if_neg hk.ne']; simp
  rw [Finset.sum_congr rfl fun k _ => this k, Finset.sum_add_distrib, Finset.sum_ite_eq' Finset.univ i]
  simp

theorem Factors.prod_lower {i j : Fin n} (h : j < i) : ∑ k, F.L i k * F.U k j = (∑ k, if k < j then (F.M i k).val * (F.M k j).val else 0) + (F.M i j).val * (F.M j j).val := by
  have : ∀ k, F.L i k * F.U k j = (if k < j then (F.M i k).val * (F.M k j).val else 0) + (if k = j then (F.M i j).val * (F.M j j).val else 0) := by
    intro k
    unfold Factors.L Factors.U
    rcases lt_trichotomy k j with hk | hk | hk
    · rw [if_pos (hk.trans h), if_pos hk.le, if_pos hk, if_neg hk.ne, add_zero]
    · subst hk; simp [h]
    · rw [if_neg (not_le.2 hk), if_neg hk.asymm, if_neg hk.ne']; simp
  rw [Finset.sum_congr rfl fun k _ => this k, Finset.sum_add_distrib, Finset.sum_ite_eq' Finset.univ j]
  simp

theorem Factors.size_lower {i j : Fin n} (h : j < i) : F.size i j = (∑ k, if k < j then |(F.M i k).val * (F.M k j).val| else 0) + |(F.M i j).val * (F.M j j).val| := by
  unfold Factors.size
  have : ∀ k, |F.L i k| * |F.U k j| = (if k < j then |(F.M i k).val * (F.M k j).val| else 0) + (if k = j then |(F.M i j).val * (F.M j j).val| else 0) := by
    intro k
    unfold Factors.L Factors.U
    rcases lt_trichotomy k j with hk | hk | hk
    · rw [if_pos (hk.trans h), if_pos hk.le, if_pos hk, if_neg hk.ne, add_zero, abs_mul]
    · subst hk; simp [h, abs_mul]
    · rw [if_neg (not_le.2 hk), if_neg hk.asymm, if_neg hk.ne']; simp
  rw [Finset.sum_congr rfl fun k _ => this k, Finset.sum_add_distrib, Finset.sum_ite_eq' Finset.univ j]
  simp

theorem abs_minus_le (hp : 0 < p) (a : FNum p) (P : Fin n → Prop) [DecidablePred P] (f g : Fin n → FNum p) : |a.val - ∑ k, if P k then (f k).val * (g k).val else 0| ≤ |a.val| + ∑ k, if P k then |(f k).val * (g k).val| else 0 := by
  rw [← exact_minus hp, ← mag_minus hp]
  exact abs_exact _

/-- **C81** The product of the computed factors is the permuted matrix up to `n` roundings. -/
theorem factor_error (hp : 0 < p) (i j : Fin n) : |(A (F.rowPerm i) (F.colPerm j)).val - ∑ k, F.L i k * F.U k j| ≤ roundings p n * (|(A (F.rowPerm i) (F.colPerm j)).val| + F.size i j) := by
  set a := A (F.rowPerm i) (F.colPerm j)
  rcases le_or_gt i j with h | h
  · have hs := sums_error hp (F.upper i j h)
    rw [exact_minus hp, mag_minus hp, length_lt] at hs
    rw [F.prod_upper h, F.size_upper h]
    have hmono := roundings_mono p (show 1 + i.val ≤ n by have := i.isLt; omega)
    have hm : 0 ≤ |a.val| + ∑ k, (if k < i then |(F.M i k).val * (F.M k j).val| else 0) := add_nonneg (abs_nonneg _) (Finset.sum_nonneg fun k _ => by split_ifs <;> positivity)
    have e : a.val - ((∑ k, if k < i then (F.M i k).val * (F.M k j).val else 0) + (F.M i j).val) = -((F.M i j).val - (a.val - ∑ k, if k < i then (F.M i k).val * (F.M k j).val else 0)) := by ring
    rw [e, abs_neg]
    calc _ ≤ _ := hs
      _ ≤ roundings p n * (|a.val| + ∑ k, (if k < i then |(F.M i k).val * (F.M k j).val| else 0)) := mul_le_mul_of_nonneg_right hmono hm
      _ ≤ _ := mul_le_mul_of_nonneg_left (by have := abs_nonneg (F.M i j).val; linarith) (roundings_nonneg p n)
  · obtain ⟨s, h1, h2, h3⟩ := F.lower i j h
    have hs := sums_error hp h1
    rw [exact_minus hp, mag_minus hp, length_lt] at hs
    rw [F.prod_lower h, F.size_lower h]
    have hX := abs_minus_le hp a (· < j) (F.M i) (fun k => F.M k j)
    have hrel : |(F.M i j).val * (F.M j j).val - s.val| ≤ |s.val| / 2 ^ p := by
      by_cases hd : (F.M j j).val = 0
      · have : s.val = 0 := by
          rw [FNum.le_iff, FNum.val_abs hp, FNum.val_abs hp, hd, abs_zero] at h2
          exact abs_nonpos_iff.1 h2
        rw [hd, this]; simp
      · exact div_rel hd h3
    have hst := step_rel (p := p) (c := (1 + 1 / 2 ^ p) ^ (1 + j.val)) hs hX hrel
    rw [← roundings_succ] at hst
    have hmono := roundings_mono p (show 1 + j.val + 1 ≤ n by have := i.isLt; have := Fin.lt_def.1 h; omega)
    have hm : 0 ≤ |a.val| + ∑ k, (if k < j then |(F.M i k).val * (F.M k j).val| else 0) := add_nonneg (abs_nonneg _) (Finset.sum_nonneg fun k _ => by split_ifs <;> positivity)
    have e : a.val - ((∑ k, if k < j then (F.M i k).val * (F.M k j).val else 0) + (F.M i j).val * (F.M j j).val) = -((F.M i j).val * (F.M j j).val - (a.val - ∑ k, if k < j then (F.M i k).val * (F.M k j).val else 0)) := by ring
    rw [e, abs_neg]
    calc _ ≤ _ := hst
      _ ≤ roundings p n * (|a.val| + ∑ k, (if k < j then |(F.M i k).val * (F.M k j).val| else 0)) := mul_le_mul_of_nonneg_right hmono hm
      _ ≤ _ := mul_le_mul_of_nonneg_left (by have := abs_nonneg ((F.M i j).val * (F.M j j).val); linarith) (roundings_nonneg p n)

/-- **C81** The entries of `L` are at most one. -/
theorem lower_le_one (hp : 0 < p) (i j : Fin n) : |F.L i j| ≤ 1 := by
  unfold Factors.L
  split_ifs with h h'
  · obtain ⟨s, -, h2, h3⟩ := F.lower i j h
    rw [FNum.le_iff, FNum.val_abs hp, FNum.val_abs hp] at h2
    rw [h3, FNum.val_div]
    have hq : |s.val / (F.M j j).val| ≤ 1 := by
      rw [abs_div]
      exact div_le_one_of_le₀ h2 (abs_nonneg _)
    have h1 : Fl.rnd p 1 = 1 := Fl.rnd_of_repr hp ⟨1, 0, by simp; exact one_le_pow₀ (by norm_num), by simp⟩
    rw [abs_le] at hq ⊢
    constructor
    · have := Fl.rnd_mono hp hq.1
      rwa [Fl.rnd_neg, h1] at this
    · have := Fl.rnd_mono hp hq.2
      rwa [h1] at this
  · simp
  · simp

/-- **C81** The growth of the entries in the elimination is bounded. -/
theorem upper_bound (hp : 0 < p) {α : ℚ} (hA : ∀ i j, |(A i j).val| ≤ α) (i j : Fin n) : |F.U i j| ≤ (1 + roundings p n) * (2 + roundings p n) ^ i.val * α := by
  have hg := roundings_nonneg p n
  have hα : 0 ≤ α := (abs_nonneg _).trans (hA i j)
  by_cases hij : i ≤ j
  swap
  · unfold Factors.U; rw [if_neg hij, abs_zero]; positivity
  have main : ∀ m : ℕ, ∀ i : Fin n, i.val = m → i ≤ j → |(F.M i j).val| ≤ (1 + roundings p n) * (2 + roundings p n) ^ m * α := by
    intro m
    induction m using Nat.strong_induction_on with
    | _ m ih =>
      intro i him hij
      set g := roundings p n with hgdef
      have hs := sums_error hp (F.upper i j hij)
      rw [exact_minus hp, mag_minus hp, length_lt] at hs
      have hmono := roundings_mono p (show 1 + i.val ≤ n by have := i.isLt; omega)
      have hX := abs_minus_le hp (A (F.rowPerm i) (F.colPerm j)) (· < i) (F.M i) (fun k => F.M k j)
      set mag := |(A (F.rowPerm i) (F.colPerm j)).val| + ∑ k, (if k < i then |(F.M i k).val * (F.M k j).val| else 0) with hmag
      have hm0 : 0 ≤ mag := add_nonneg (abs_nonneg _) (Finset.sum_nonneg fun k _ => by split_ifs <;> positivity)
      have h1 : |(F.M i j).val| ≤ (1 + g) * mag := by
        have e : (F.M i j).val = ((F.M i j).val - ((A (F.rowPerm i) (F.colPerm j)).val - ∑ k, if k < i then (F.M i k).val * (F.M k j).val else 0)) + ((A (F.rowPerm i) (F.colPerm j)).val - ∑ k, if k < i then (F.M i k).val * (F.M k j).val else 0) := by ring
        rw [e]
        refine (abs_add_le _ _).trans ?_
        have := mul_le_mul_of_nonneg_right hmono hm0
        linarith
      have h2 : ∑ k : Fin n, (if k < i then |(F.M i k).val * (F.M k j).val| else 0) ≤ ((2 + g) ^ m - 1) * α := by
        calc ∑ k : Fin n, (if k < i then |(F.M i k).val * (F.M k j).val| else 0) ≤ ∑ k : Fin n, (if k.val < m then (1 + g) * (2 + g) ^ k.val * α else 0) := by
              refine Finset.sum_le_sum fun k _ => ?_
              by_cases hk : k < i
              · have hk' : k.val < m := by rw [← him]; exact hk
                rw [if_pos hk, if_pos hk', abs_mul]
                have hl := lower_le_one F hp i k
                unfold Factors.L at hl
                rw [if_pos hk] at hl
                have hu := ih k.val hk' k rfl (hk.le.trans hij)
                calc |(F.M i k).val| * |(F.M k j).val| ≤ 1 * |(F.M k j).val| := mul_le_mul_of_nonneg_right hl (abs_nonneg _)
                  _ ≤ _ := by rw [one_mul]; exact hu
              · have hk' : ¬ k.val < m := by rw [← him]; exact hk
                rw [if_neg hk, if_neg hk']
          _ = ∑ k ∈ Finset.range m, (1 + g) * (2 + g) ^ k * α := by
              rw [Fin.sum_univ_eq_sum_range (fun k => if k < m then (1 + g) * (2 + g) ^ k * α else 0) n, ← Finset.sum_filter]
              refine Finset.sum_congr ?_ fun _ _ => rfl
              ext k
              simp only [Finset.mem_filter, Finset.mem_range]
              have := i.isLt
              omega
          _ = ((2 + g) ^ m - 1) * α := by
              rw [← Finset.sum_mul, ← Finset.mul_sum]
              congr 1
              have := mul_geom_sum (2 + g) m
              rw [show 2 + g - 1 = 1 + g by ring] at this
              exact this
      have h3 : mag ≤ (2 + g) ^ m * α := by
        have := hA (F.rowPerm i) (F.colPerm j)
        rw [hmag]
        linarith
      calc |(F.M i j).val| ≤ (1 + g) * mag := h1
        _ ≤ (1 + g) * ((2 + g) ^ m * α) := mul_le_mul_of_nonneg_left h3 (by linarith)
        _ = _ := by ring
  unfold Factors.U
  rw [if_pos hij]
  exact main i.val i rfl hij

/-! ## The solution -/

variable {F} {rank0 : ℕ} {b : Fin n → FNum p}

/-- `assembleU` (LU.cpp:107-147) keeps the first `r` equations of the factorised system and discards the others; no equation is discarded if there is only one, LU.cpp:117-125. -/
def Solves.Keeps (S : Solves F rank0 b) (r : ℕ) : Prop := ∀ j : Fin n, if j.val < r then (if n = 1 then F.M j j ≠ 0 else FNum.epsilon * (S.y j).abs < (F.M j j).abs) else n ≠ 1 ∧ (F.M j j).abs ≤ FNum.epsilon * (S.y j).abs

theorem foldl_discard (M : Fin n → Fin n → FNum p) (y : Fin n → FNum p) (D : Fin n → Prop) [DecidablePred D] (hD : ∀ j, D j ↔ (M j j).abs ≤ FNum.epsilon * (y j).abs) (l : List (Fin n)) : ∀ s : LU.Work (FNum p) n, l.Nodup → (∀ j ∈ l, s.U j j = M j j ∧ s.y j = y j) →
    (∀ i, (l.foldl discard s).y i = if i ∈ l ∧ D i then 0 else s.y i) ∧ (∀ i, (l.foldl discard s).U i i = if i ∈ l ∧ D i then 1 else s.U i i) ∧
      (∀ i k, ¬ D i → i < k → (l.foldl discard s).U i k = if k ∈ l ∧ D k then 0 else s.U i k) := by
  induction l with
  | nil => intro s _ _; simp
  | cons a l ih =>
    intro s hnd hs
    rw [List.foldl_cons]
    rw [List.nodup_cons] at hnd
    obtain ⟨ha1, ha2⟩ := hs a List.mem_cons_self
    by_cases hDa : D a
    · have hd := (hD a).1 hDa
      rw [← ha1, ← ha2] at hd
      have hU : ∀ i k, (discard s a).U i k = if i = a ∧ k = a then 1 else if k = a ∧ i.val < a.val then 0 else if i = a ∧ n - a.val ≤ k.val then 0 else s.U i k := by
        intro i k; unfold discard; rw [if_pos hd]
      have hy : (discard s a).y = Function.update s.y a 0 := by unfold discard; rw [if_pos hd]
      obtain ⟨h1, h2, h3⟩ := ih (discard s a) hnd.2 (fun j hj => by
        have hja : j ≠ a := fun h => hnd.1 (h ▸ hj)
        obtain ⟨e1, e2⟩ := hs j (List.mem_cons_of_mem _ hj)
        refine ⟨?_, ?_⟩
        · rw [hU]; simp [hja, e1]
        · rw [hy, Function.update_of_ne hja, e2])
      refine ⟨fun i => ?_, fun i => ?_, fun i k hi hik => ?_⟩
      · rw [h1, hy]
        by_cases hia : i = a
        · subst hia; simp [hnd.1, hDa]
        · simp [hia, Function.update_of_ne hia]
      · rw [h2, hU]
        by_cases hia : i = a
        · subst hia; simp [hnd.1, hDa]
        · simp [hia]
      · have hia : i ≠ a := fun h => hi (h ▸ hDa)
        rw [h3 i k hi hik, hU]
        by_cases hka : k = a
        · subst hka; simp [hnd.1, hDa, hia, Fin.lt_def.1 hik]
        · simp [hia, hka]
    · have hd : discard s a = s := by
        unfold discard
        rw [if_neg]
        rw [ha1, ha2]
        exact fun h => hDa ((hD a).2 h)
      rw [hd]
      obtain ⟨h1, h2, h3⟩ := ih s hnd.2 (fun j hj => hs j (List.mem_cons_of_mem _ hj))
      refine ⟨fun i => ?_, fun i => ?_, fun i k hi hik => ?_⟩
      · rw [h1]
        by_cases hia : i = a
        · subst hia; simp [hDa]
        · simp [hia]
      · rw [h2]
        by_cases hia : i = a
        · subst hia; simp [hDa]
        · simp [hia]
      · rw [h3 i k hi hik]
        by_cases hka : k = a
        · subst hka; simp [hDa]
        · simp [hka]

theorem foldl_discard_rank (M : Fin n → Fin n → FNum p) (y : Fin n → FNum p) (D : Fin n → Prop) [DecidablePred D] (hD : ∀ j, D j ↔ (M j j).abs ≤ FNum.epsilon * (y j).abs) (l : List (Fin n)) : ∀ s : LU.Work (FNum p) n, l.Nodup →
    (∀ j ∈ l, s.U j j = M j j ∧ s.y j = y j) → (l.foldl discard s).rank = s.rank - (l.filter (fun j => decide (D j))).length ∧ ∀ i, (l.foldl discard s).isLi i = if i ∈ l ∧ D i then false else s.isLi i := by
  induction l with
  | nil => intro s _ _; simp
  | cons a l ih =>
    intro s hnd hs
    rw [List.foldl_cons]
    rw [List.nodup_cons] at hnd
    obtain ⟨ha1, ha2⟩ := hs a List.mem_cons_self
    by_cases hDa : D a
    · have hd := (hD a).1 hDa
      rw [← ha1, ← ha2] at hd
      obtain ⟨h1, h2⟩ := ih (discard s a) hnd.2 (fun j hj => by
        have hja : j ≠ a := fun h => hnd.1 (h ▸ hj)
        obtain ⟨e1, e2⟩ := hs j (List.mem_cons_of_mem _ hj)
        unfold discard
        rw [if_pos hd]
        exact ⟨by simp [hja, e1], by simp only [Function.update_of_ne hja, e2]⟩)
      constructor
      · rw [h1]
        unfold discard
        rw [if_pos hd]
        simp only [List.filter_cons, hDa, decide_true, if_true, List.length_cons]
        omega
      · intro i
        rw [h2]
        unfold discard
        rw [if_pos hd]
        by_cases hia : i = a
        · subst hia; simp [hnd.1, hDa]
        · simp [hia, Function.update_of_ne hia]
    · have hd : discard s a = s := by
        unfold discard
        rw [if_neg]
        rw [ha1, ha2]
        exact fun h => hDa ((hD a).2 h)
      rw [hd]
      obtain ⟨h1, h2⟩ := ih s hnd.2 (fun j hj => hs j (List.mem_cons_of_mem _ hj))
      constructor
      · rw [h1]; simp [List.filter_cons, hDa]
      · intro i
        rw [h2]
        by_cases hia : i = a
        · subst hia; simp [hDa]
        · simp [hia]

/-- **C81** The rank `LU::solve` leaves (LU.cpp:127-146) is the number of equations that are kept, and `is_li` marks them; with one equation the rank is that of the last system with more (C21). -/
theorem rank_double (M : Fin n → Fin n → FNum p) (y : Fin n → FNum p) (rank0 : ℕ) (hn : n ≠ 1) :
    (assembleU M y rank0).rank = Fintype.card { j : Fin n // FNum.epsilon * (y j).abs < (M j j).abs } ∧ ∀ j, (assembleU M y rank0).isLi j = true ↔ FNum.epsilon * (y j).abs < (M j j).abs := by
  classical
  obtain ⟨h1, h2⟩ := foldl_discard_rank M y (fun j => (M j j).abs ≤ FNum.epsilon * (y j).abs) (fun _ => Iff.rfl) (List.finRange n).reverse { U := M, y := y, isLi := fun _ => true, rank := n }
    (List.nodup_reverse.2 (List.nodup_finRange n)) (fun _ _ => ⟨rfl, rfl⟩)
  have e : assembleU M y rank0 = (List.finRange n).reverse.foldl discard { U := M, y := y, isLi := fun _ => true, rank := n } := by
    unfold assembleU; dsimp only; rw [if_neg hn]
  rw [e]
  constructor
  · rw [h1]
    have hc : ((List.finRange n).reverse.filter (fun j => decide ((M j j).abs ≤ FNum.epsilon * (y j).abs))).length = Fintype.card { j : Fin n // (M j j).abs ≤ FNum.epsilon * (y j).abs } := by
      rw [List.filter_reverse, List.length_reverse, Fintype.card_subtype, ← List.toFinset_card_of_nodup ((List.nodup_finRange n).filter _)]
      congr 1
      ext j
      simp
    have hs : Fintype.card { j : Fin n // FNum.epsilon * (y j).abs < (M j j).abs } = n - Fintype.card { j : Fin n // (M j j).abs ≤ FNum.epsilon * (y j).abs } := by
      have := Fintype.card_subtype_compl (fun j : Fin n => (M j j).abs ≤ FNum.epsilon * (y j).abs)
      simp only [not_le, Fintype.card_fin] at this
      convert this
    dsimp only
    rw [hc, hs]
  · intro j
    rw [h2]
    by_cases hj : (M j j).abs ≤ FNum.epsilon * (y j).abs
    · simp [hj, not_lt.2 hj]
    · simp [hj, not_le.1 hj]

theorem assembleU_keeps {r : ℕ} (S : Solves F rank0 b) (h : S.Keeps r) :
    (∀ i : Fin n, (assembleU F.M S.y rank0).y i = if i.val < r then S.y i else 0) ∧ (∀ i : Fin n, (assembleU F.M S.y rank0).U i i = if i.val < r then F.M i i else 1) ∧
      (∀ i k : Fin n, i.val < r → i < k → (assembleU F.M S.y rank0).U i k = if k.val < r then F.M i k else 0) := by
  by_cases hn : n = 1
  · have hr : ∀ j : Fin n, j.val < r := by
      intro j
      by_contra hj
      have := h j
      rw [if_neg hj] at this
      exact this.1 hn
    unfold assembleU
    dsimp only
    rw [if_pos hn]
    refine ⟨fun i => ?_, fun i => ?_, fun i k _ hik => ?_⟩
    · rw [if_pos (hr i)]
    · rw [if_pos (hr i)]
    · have := i.isLt; have := k.isLt; have := Fin.lt_def.1 hik; omega
  · have hD : ∀ j : Fin n, ¬ j.val < r ↔ (F.M j j).abs ≤ FNum.epsilon * (S.y j).abs := by
      intro j
      have := h j
      by_cases hj : j.val < r
      · rw [if_pos hj, if_neg hn] at this
        exact ⟨fun h' => absurd hj h', fun h' => absurd this (not_lt.2 h')⟩
      · rw [if_neg hj] at this
        exact ⟨fun _ => this.2, fun _ => hj⟩
    obtain ⟨h1, h2, h3⟩ := foldl_discard F.M S.y (fun j => ¬ j.val < r) hD (List.finRange n).reverse { U := F.M, y := S.y, isLi := fun _ => true, rank := n } (List.nodup_reverse.2 (List.nodup_finRange n)) (fun _ _ => ⟨rfl, rfl⟩)
    have e : assembleU F.M S.y rank0 = (List.finRange n).reverse.foldl discard { U := F.M, y := S.y, isLi := fun _ => true, rank := n } := by
      unfold assembleU; dsimp only; rw [if_neg hn]
    rw [e]
    refine ⟨fun i => ?_, fun i => ?_, fun i k hi hik => ?_⟩
    · rw [h1]; by_cases hi : i.val < r <;> simp [hi]
    · rw [h2]; by_cases hi : i.val < r <;> simp [hi]
    · rw [h3 i k (not_not.2 hi) hik]; by_cases hk : k.val < r <;> simp [hk]

theorem Solves.Keeps.diag (hp : 0 < p) {r : ℕ} {S : Solves F rank0 b} (h : S.Keeps r) (j : Fin n) (hj : j.val < r) : (F.M j j).val ≠ 0 := by
  have := h j
  rw [if_pos hj] at this
  by_cases hn : n = 1
  · rw [if_pos hn] at this
    intro h0
    exact this (FNum.val_injective (h0.trans FNum.val_zero.symm))
  · rw [if_neg hn, FNum.lt_iff, FNum.val_abs hp] at this
    intro h0
    rw [h0, abs_zero, FNum.val_mul, FNum.val_abs hp] at this
    refine absurd this (not_lt.2 (Fl.rnd_nonneg (mul_nonneg ?_ (abs_nonneg _))))
    exact Fl.rnd_nonneg (by positivity)

/-- **C81** The unknowns of the discarded equations are zero. -/
theorem discarded_zero (hp : 0 < p) {r : ℕ} (S : Solves F rank0 b) (h : S.Keeps r) (j : Fin n) (hj : r ≤ j.val) : S.x (F.colPerm j) = 0 := by
  obtain ⟨h1, h2, -⟩ := assembleU_keeps S h
  have main : ∀ m : ℕ, ∀ j : Fin n, r ≤ j.val → n - 1 - j.val = m → (S.z j).val = 0 := by
    intro m
    induction m using Nat.strong_induction_on with
    | _ m ih =>
      intro j hj hm
      obtain ⟨s, hs, hz⟩ := S.backward j
      rw [h2, if_neg (not_lt.2 hj)] at hz
      rw [h1, if_neg (not_lt.2 hj)] at hs
      have he := sums_error hp hs
      rw [exact_minus hp, mag_minus hp] at he
      have hk : ∀ k : Fin n, j < k → (S.z k).val = 0 := fun k hk => ih (n - 1 - k.val) (by have := k.isLt; have := Fin.lt_def.1 hk; omega) k (hj.trans (Fin.lt_def.1 hk).le) rfl
      have e1 : ∑ k, (if j < k then ((assembleU F.M S.y rank0).U j k).val * (S.z k).val else 0) = 0 := Finset.sum_eq_zero fun k _ => by
        split_ifs with h
        · rw [hk k h, mul_zero]
        · rfl
      have e2 : ∑ k, (if j < k then |((assembleU F.M S.y rank0).U j k).val * (S.z k).val| else 0) = 0 := Finset.sum_eq_zero fun k _ => by
        split_ifs with h
        · rw [hk k h, mul_zero, abs_zero]
        · rfl
      rw [e1, e2, FNum.val_zero] at he
      simp only [abs_zero, add_zero, mul_zero, sub_zero] at he
      have hs0 : s.val = 0 := abs_nonpos_iff.1 he
      rw [hz, FNum.val_div, hs0, zero_div, Fl.rnd_zero]
  have : S.x (F.colPerm j) = S.z j := by simp [Solves.x]
  rw [this]
  exact FNum.val_injective ((main _ j hj rfl).trans FNum.val_zero.symm)

theorem forward_error (hp : 0 < p) (S : Solves F rank0 b) (i : Fin n) : |(b (F.rowPerm i)).val - ∑ k, F.L i k * (S.y k).val| ≤ roundings p n * (|(b (F.rowPerm i)).val| + ∑ k, |F.L i k| * |(S.y k).val|) := by
  have hs := sums_error hp (S.forward i)
  rw [exact_minus hp, mag_minus hp, length_lt] at hs
  have e1 : ∑ k, F.L i k * (S.y k).val = (∑ k, if k < i then (F.M i k).val * (S.y k).val else 0) + (S.y i).val := by
    have : ∀ k, F.L i k * (S.y k).val = (if k < i then (F.M i k).val * (S.y k).val else 0) + (if k = i then (S.y i).val else 0) := by
      intro k
      unfold Factors.L
      rcases lt_trichotomy k i with hk | hk | hk
      · simp [hk, hk.ne]
      · subst hk; simp
      · simp [hk.asymm, hk.ne']
    rw [Finset.sum_congr rfl fun k _ => this k, Finset.sum_add_distrib, Finset.sum_ite_eq' Finset.univ i]
    simp
  have e2 : ∑ k, |F.L i k| * |(S.y k).val| = (∑ k, if k < i then |(F.M i k).val * (S.y k).val| else 0) + |(S.y i).val| := by
    have : ∀ k, |F.L i k| * |(S.y k).val| = (if k < i then |(F.M i k).val * (S.y k).val| else 0) + (if k = i then |(S.y i).val| else 0) := by
      intro k
      unfold Factors.L
      rcases lt_trichotomy k i with hk | hk | hk
      · simp [hk, hk.ne, abs_mul]
      · subst hk; simp
      · simp [hk.asymm, hk.ne']
    rw [Finset.sum_congr rfl fun k _ => this k, Finset.sum_add_distrib, Finset.sum_ite_eq' Finset.univ i]
    simp
  rw [e1, e2]
  have hmono := roundings_mono p (show 1 + i.val ≤ n by have := i.isLt; omega)
  have hm : 0 ≤ |(b (F.rowPerm i)).val| + ∑ k, (if k < i then |(F.M i k).val * (S.y k).val| else 0) := add_nonneg (abs_nonneg _) (Finset.sum_nonneg fun k _ => by split_ifs <;> positivity)
  have e : (b (F.rowPerm i)).val - ((∑ k, if k < i then (F.M i k).val * (S.y k).val else 0) + (S.y i).val) = -((S.y i).val - ((b (F.rowPerm i)).val - ∑ k, if k < i then (F.M i k).val * (S.y k).val else 0)) := by ring
  rw [e, abs_neg]
  calc _ ≤ _ := hs
    _ ≤ roundings p n * (|(b (F.rowPerm i)).val| + ∑ k, (if k < i then |(F.M i k).val * (S.y k).val| else 0)) := mul_le_mul_of_nonneg_right hmono hm
    _ ≤ _ := mul_le_mul_of_nonneg_left (by have := abs_nonneg (S.y i).val; linarith) (roundings_nonneg p n)

theorem backward_error (hp : 0 < p) {r : ℕ} (S : Solves F rank0 b) (h : S.Keeps r) (i : Fin n) (hi : i.val < r) : |(S.y i).val - ∑ k, F.U i k * (S.z k).val| ≤ roundings p (n + 1) * (|(S.y i).val| + ∑ k, |F.U i k| * |(S.z k).val|) := by
  obtain ⟨s, h1, h2⟩ := S.backward i
  obtain ⟨k1, k2, k3⟩ := assembleU_keeps S h
  rw [k1, if_pos hi] at h1
  rw [k2, if_pos hi] at h2
  have hs := sums_error hp h1
  rw [exact_minus hp, mag_minus hp, length_gt] at hs
  have ez : ∀ k, i < k → ((assembleU F.M S.y rank0).U i k).val * (S.z k).val = (F.M i k).val * (S.z k).val := by
    intro k hk
    rw [k3 i k hi hk]
    by_cases hkr : k.val < r
    · rw [if_pos hkr]
    · have := discarded_zero hp S h k (not_lt.1 hkr)
      have e : S.x (F.colPerm k) = S.z k := by simp [Solves.x]
      rw [e] at this
      rw [this, FNum.val_zero, mul_zero, mul_zero]
  have e1 : ∑ k, (if i < k then ((assembleU F.M S.y rank0).U i k).val * (S.z k).val else 0) = ∑ k, if i < k then (F.M i k).val * (S.z k).val else 0 := Finset.sum_congr rfl fun k _ => by
    split_ifs with hk
    · exact ez k hk
    · rfl
  have e2 : ∑ k, (if i < k then |((assembleU F.M S.y rank0).U i k).val * (S.z k).val| else 0) = ∑ k, if i < k then |(F.M i k).val * (S.z k).val| else 0 := Finset.sum_congr rfl fun k _ => by
    split_ifs with hk
    · rw [ez k hk]
    · rfl
  rw [e1, e2] at hs
  clear e1 e2
  have hX := abs_minus_le hp (S.y i) (i < ·) (F.M i) S.z
  have hst := step_rel (p := p) (c := (1 + 1 / 2 ^ p) ^ (1 + (n - 1 - i.val))) hs hX (div_rel (h.diag hp i hi) h2)
  rw [← roundings_succ] at hst
  have e1 : ∑ k, F.U i k * (S.z k).val = (∑ k, if i < k then (F.M i k).val * (S.z k).val else 0) + (S.z i).val * (F.M i i).val := by
    have : ∀ k, F.U i k * (S.z k).val = (if i < k then (F.M i k).val * (S.z k).val else 0) + (if k = i then (S.z i).val * (F.M i i).val else 0) := by
      intro k
      unfold Factors.U
      rcases lt_trichotomy k i with hk | hk | hk
      · simp [hk, hk.asymm, hk.ne]
      · subst hk; simp [mul_comm]
      · simp [hk, hk.le, hk.ne']
    rw [Finset.sum_congr rfl fun k _ => this k, Finset.sum_add_distrib, Finset.sum_ite_eq' Finset.univ i]
    simp
  have e2 : ∑ k, |F.U i k| * |(S.z k).val| = (∑ k, if i < k then |(F.M i k).val * (S.z k).val| else 0) + |(S.z i).val * (F.M i i).val| := by
    have : ∀ k, |F.U i k| * |(S.z k).val| = (if i < k then |(F.M i k).val * (S.z k).val| else 0) + (if k = i then |(S.z i).val * (F.M i i).val| else 0) := by
      intro k
      unfold Factors.U
      rcases lt_trichotomy k i with hk | hk | hk
      · simp [hk, hk.asymm, hk.ne]
      · subst hk; simp [mul_comm, abs_mul]
      · simp [hk, hk.le, hk.ne', abs_mul]
    rw [Finset.sum_congr rfl fun k _ => this k, Finset.sum_add_distrib, Finset.sum_ite_eq' Finset.univ i]
    simp
  rw [e1, e2]
  have hmono := roundings_mono p (show 1 + (n - 1 - i.val) + 1 ≤ n + 1 by have := i.isLt; omega)
  have hm : 0 ≤ |(S.y i).val| + ∑ k, (if i < k then |(F.M i k).val * (S.z k).val| else 0) := add_nonneg (abs_nonneg _) (Finset.sum_nonneg fun k _ => by split_ifs <;> positivity)
  have e : (S.y i).val - ((∑ k, if i < k then (F.M i k).val * (S.z k).val else 0) + (S.z i).val * (F.M i i).val) = -((S.z i).val * (F.M i i).val - ((S.y i).val - ∑ k, if i < k then (F.M i k).val * (S.z k).val else 0)) := by ring
  rw [e, abs_neg]
  calc _ ≤ _ := hst
    _ ≤ roundings p (n + 1) * (|(S.y i).val| + ∑ k, (if i < k then |(F.M i k).val * (S.z k).val| else 0)) := mul_le_mul_of_nonneg_right hmono hm
    _ ≤ _ := mul_le_mul_of_nonneg_left (by have := abs_nonneg ((S.z i).val * (F.M i i).val); linarith) (roundings_nonneg p _)

/-- An error relative to the right-hand side and the terms is one relative to the terms. -/
theorem rel_terms {γ a e m : ℚ} (h0 : 0 ≤ γ) (h1 : γ < 1) (he : |e| ≤ m) (h : |a - e| ≤ γ * (|a| + m)) : |a - e| ≤ 2 * γ / (1 - γ) * m := by
  have ha : |a| ≤ |a - e| + m := by
    have : a = (a - e) + e := by ring
    calc |a| = |(a - e) + e| := by rw [← this]
      _ ≤ _ := (abs_add_le _ _).trans (by linarith)
  rw [div_mul_eq_mul_div, le_div_iff₀ (by linarith)]
  nlinarith

theorem abs_sum_mul_le (f g : Fin n → ℚ) : |∑ k, f k * g k| ≤ ∑ k, |f k| * |g k| := (Finset.abs_sum_le_sum_abs _ _).trans (Finset.sum_le_sum fun _ _ => (abs_mul _ _).le)

theorem solve_error_perm (hp : 0 < p) {r : ℕ} (S : Solves F rank0 b) (h : S.Keeps r) (hγ : roundings p (n + 1) < 1) (i : Fin n) (hi : i.val < r) (g : ℚ) (hg : g = 2 * roundings p (n + 1) / (1 - roundings p (n + 1))) :
    |(b (F.rowPerm i)).val - ∑ j, (A (F.rowPerm i) (F.colPerm j)).val * (S.z j).val| ≤ (3 * g + g ^ 2) * ∑ j, F.size i j * |(S.z j).val| := by
  have h0 := roundings_nonneg p (n + 1)
  have hmono := roundings_mono p (Nat.le_succ n)
  set γ := roundings p (n + 1)
  have hg0 : 0 ≤ g := by rw [hg]; exact div_nonneg (by linarith) (by linarith)
  -- the three errors
  have hF : ∀ j, |(A (F.rowPerm i) (F.colPerm j)).val - ∑ k, F.L i k * F.U k j| ≤ g * F.size i j := by
    intro j
    rw [hg]
    refine rel_terms h0 hγ (abs_sum_mul_le _ _) ((factor_error F hp i j).trans (mul_le_mul_of_nonneg_right hmono ?_))
    exact add_nonneg (abs_nonneg _) (F.size_nonneg i j)
  have hY : |(b (F.rowPerm i)).val - ∑ k, F.L i k * (S.y k).val| ≤ g * ∑ k, |F.L i k| * |(S.y k).val| := by
    rw [hg]
    refine rel_terms h0 hγ (abs_sum_mul_le _ _) ((forward_error hp S i).trans (mul_le_mul_of_nonneg_right hmono ?_))
    exact add_nonneg (abs_nonneg _) (Finset.sum_nonneg fun k _ => by positivity)
  have hZ : ∀ k, k ≤ i → |(S.y k).val - ∑ j, F.U k j * (S.z j).val| ≤ g * ∑ j, |F.U k j| * |(S.z j).val| := by
    intro k hk
    rw [hg]
    exact rel_terms h0 hγ (abs_sum_mul_le _ _) (backward_error hp S h k (lt_of_le_of_lt (Fin.le_def.1 hk) hi))
  have hL : ∀ k, ¬ k ≤ i → F.L i k = 0 := by
    intro k hk
    unfold Factors.L
    rw [if_neg (fun h => hk h.le), if_neg (fun h => hk h.le)]
  have hyb : ∀ k, k ≤ i → |(S.y k).val| ≤ (1 + g) * ∑ j, |F.U k j| * |(S.z j).val| := by
    intro k hk
    have e : (S.y k).val = ((S.y k).val - ∑ j, F.U k j * (S.z j).val) + ∑ j, F.U k j * (S.z j).val := by ring
    rw [e]
    refine (abs_add_le _ _).trans ?_
    have := abs_sum_mul_le (F.U k) (fun j => (S.z j).val)
    have := hZ k hk
    linarith
  set W := ∑ j, F.size i j * |(S.z j).val| with hW
  have hWe : ∑ k, |F.L i k| * ∑ j, |F.U k j| * |(S.z j).val| = W := by
    rw [hW]
    unfold Factors.size
    simp only [Finset.mul_sum, Finset.sum_mul]
    rw [Finset.sum_comm]
    simp only [mul_assoc]
  have e : (b (F.rowPerm i)).val - ∑ j, (A (F.rowPerm i) (F.colPerm j)).val * (S.z j).val =
      ((b (F.rowPerm i)).val - ∑ k, F.L i k * (S.y k).val) + (∑ k, F.L i k * ((S.y k).val - ∑ j, F.U k j * (S.z j).val)) -
        ∑ j, ((A (F.rowPerm i) (F.colPerm j)).val - ∑ k, F.L i k * F.U k j) * (S.z j).val := by
    have e1 : ∑ k, F.L i k * ∑ j, F.U k j * (S.z j).val = ∑ j, (∑ k, F.L i k * F.U k j) * (S.z j).val := by
      simp only [Finset.mul_sum, Finset.sum_mul]
      rw [Finset.sum_comm]
      simp only [mul_assoc]
    simp only [mul_sub, sub_mul, Finset.sum_sub_distrib]
    rw [e1]
    ring
  rw [e]
  have b1 : |(b (F.rowPerm i)).val - ∑ k, F.L i k * (S.y k).val| ≤ g * (1 + g) * W := by
    refine hY.trans ?_
    rw [mul_assoc]
    refine mul_le_mul_of_nonneg_left ?_ hg0
    rw [← hWe, Finset.mul_sum]
    refine Finset.sum_le_sum fun k _ => ?_
    by_cases hk : k ≤ i
    · calc |F.L i k| * |(S.y k).val| ≤ |F.L i k| * ((1 + g) * ∑ j, |F.U k j| * |(S.z j).val|) := mul_le_mul_of_nonneg_left (hyb k hk) (abs_nonneg _)
        _ = _ := by ring
    · simp [hL k hk]
  have b2 : |∑ k, F.L i k * ((S.y k).val - ∑ j, F.U k j * (S.z j).val)| ≤ g * W := by
    refine (abs_sum_mul_le _ _).trans ?_
    rw [← hWe, Finset.mul_sum]
    refine Finset.sum_le_sum fun k _ => ?_
    by_cases hk : k ≤ i
    · calc |F.L i k| * |(S.y k).val - ∑ j, F.U k j * (S.z j).val| ≤ |F.L i k| * (g * ∑ j, |F.U k j| * |(S.z j).val|) := mul_le_mul_of_nonneg_left (hZ k hk) (abs_nonneg _)
        _ = _ := by ring
    · simp [hL k hk]
  have b3 : |∑ j, ((A (F.rowPerm i) (F.colPerm j)).val - ∑ k, F.L i k * F.U k j) * (S.z j).val| ≤ g * W := by
    refine (abs_sum_mul_le _ _).trans ?_
    rw [hW, Finset.mul_sum]
    refine Finset.sum_le_sum fun j _ => ?_
    calc _ ≤ (g * F.size i j) * |(S.z j).val| := mul_le_mul_of_nonneg_right (hF j) (abs_nonneg _)
      _ = _ := by ring
  refine (abs_sub _ _).trans ?_
  have := abs_add_le ((b (F.rowPerm i)).val - ∑ k, F.L i k * (S.y k).val) (∑ k, F.L i k * ((S.y k).val - ∑ j, F.U k j * (S.z j).val))
  nlinarith

/-- The size of the terms of equation `i`: `Pᵀ*|L|*|U|*Qᵀ*|x|`. -/
def Solves.terms (S : Solves F rank0 b) (i : Fin n) : ℚ := ∑ j, F.size (F.rowPerm.symm i) (F.colPerm.symm j) * |(S.x j).val|

theorem Solves.terms_nonneg (S : Solves F rank0 b) (i : Fin n) : 0 ≤ S.terms i := Finset.sum_nonneg fun _ _ => mul_nonneg (F.size_nonneg _ _) (abs_nonneg _)

theorem solve_error (hp : 0 < p) {r : ℕ} (S : Solves F rank0 b) (hk : S.Keeps r) (hγ : roundings p (n + 1) < 1) (i : Fin n) (hi : (F.rowPerm.symm i).val < r) (g : ℚ) (hg : g = 2 * roundings p (n + 1) / (1 - roundings p (n + 1))) :
    |(b i).val - ∑ j, (A i j).val * (S.x j).val| ≤ (3 * g + g ^ 2) * S.terms i := by
  have h := solve_error_perm hp S hk hγ (F.rowPerm.symm i) hi g hg
  rw [Equiv.apply_symm_apply] at h
  have e1 : ∑ j, (A i j).val * (S.x j).val = ∑ j, (A i (F.colPerm j)).val * (S.z j).val := by
    rw [← Equiv.sum_comp F.colPerm]
    simp [Solves.x]
  have e2 : S.terms i = ∑ j, F.size (F.rowPerm.symm i) j * |(S.z j).val| := by
    unfold Solves.terms
    rw [← Equiv.sum_comp F.colPerm]
    simp [Solves.x]
  rw [e1, e2]
  exact h

/-- **C81** If `LU::solve` keeps the first `r` equations of the factorised system and discards the others, the solution satisfies the equations kept up to the rounding errors: each residual is at most `8*(n+1)` roundings of the terms `|L|*|U|*|x|`.
    This is so for all matrices, right-hand sides and orders of the additions. -/
theorem lu_solve_double_rank (hp : 0 < p) {r : ℕ} (S : Solves F rank0 b) (hk : S.Keeps r) (hn : 16 * (n + 1) ≤ 2 ^ p) (i : Fin n) (hi : (F.rowPerm.symm i).val < r) : |(b i).val - ∑ j, (A i j).val * (S.x j).val| ≤ 8 * (n + 1) / 2 ^ p * S.terms i := by
  obtain ⟨h1, h2⟩ := roundings_small p (n + 1) hn
  have h0 := roundings_nonneg p (n + 1)
  set γ := roundings p (n + 1) with hγ
  refine (solve_error hp S hk (by linarith) i hi (2 * γ / (1 - γ)) rfl).trans (mul_le_mul_of_nonneg_right ?_ (S.terms_nonneg i))
  have hg : 2 * γ / (1 - γ) ≤ 15 / 7 * γ := by
    rw [div_le_iff₀ (by linarith)]
    nlinarith
  have hg0 : 0 ≤ 2 * γ / (1 - γ) := div_nonneg (by linarith) (by linarith)
  set g := 2 * γ / (1 - γ)
  have hg1 : g ≤ 1 / 7 := by linarith
  have h3 : 3 * g + g ^ 2 ≤ 22 / 7 * g := by nlinarith
  have h4 : 15 * γ ≤ 16 * ((n + 1) / 2 ^ p) := by
    have : ((n + 1 : ℕ) : ℚ) = n + 1 := by push_cast; rfl
    rw [this] at h1
    exact h1
  have e : 8 * ((n : ℚ) + 1) / 2 ^ p = 8 * ((n + 1) / 2 ^ p) := by ring
  rw [e]
  have h5 : (0 : ℚ) ≤ (n + 1) / 2 ^ p := by positivity
  linarith

/-- **C81** If `LU::solve` discards no equation, all equations are satisfied up to the rounding errors. -/
theorem lu_solve_double (hp : 0 < p) (S : Solves F rank0 b) (hk : S.Keeps n) (hn : 16 * (n + 1) ≤ 2 ^ p) (i : Fin n) : |(b i).val - ∑ j, (A i j).val * (S.x j).val| ≤ 8 * (n + 1) / 2 ^ p * S.terms i :=
  lu_solve_double_rank hp S hk hn i (F.rowPerm.symm i).isLt

/-- **C81** The same with the entries of the matrix only: complete pivoting bounds the factors. -/
theorem lu_solve_double_growth (hp : 0 < p) (S : Solves F rank0 b) (hk : S.Keeps n) (hn : 16 * (n + 1) ≤ 2 ^ p) {α : ℚ} (hA : ∀ i j, |(A i j).val| ≤ α) (i : Fin n) :
    |(b i).val - ∑ j, (A i j).val * (S.x j).val| ≤ 8 * (n + 1) / 2 ^ p * (n * (2 + roundings p n) ^ n * α * ∑ j, |(S.x j).val|) := by
  refine (lu_solve_double hp S hk hn i).trans (mul_le_mul_of_nonneg_left ?_ (by positivity))
  have hg := roundings_nonneg p n
  have hα : 0 ≤ α := (abs_nonneg _).trans (hA i i)
  have hs : ∀ r c, F.size r c ≤ n * (2 + roundings p n) ^ n * α := by
    intro r c
    unfold Factors.size
    calc ∑ k, |F.L r k| * |F.U k c| ≤ ∑ _k : Fin n, (2 + roundings p n) ^ n * α := by
          refine Finset.sum_le_sum fun k _ => ?_
          have hu := upper_bound F hp hA k c
          have hpow : (1 + roundings p n) * (2 + roundings p n) ^ k.val ≤ (2 + roundings p n) ^ n :=
            calc (1 + roundings p n) * (2 + roundings p n) ^ k.val ≤ (2 + roundings p n) * (2 + roundings p n) ^ k.val := mul_le_mul_of_nonneg_right (by linarith) (by positivity)
              _ = (2 + roundings p n) ^ (k.val + 1) := by rw [pow_succ]; ring
              _ ≤ _ := pow_le_pow_right₀ (by linarith) (by have := k.isLt; omega)
          calc |F.L r k| * |F.U k c| ≤ 1 * |F.U k c| := mul_le_mul_of_nonneg_right (lower_le_one F hp r k) (abs_nonneg _)
            _ ≤ (1 + roundings p n) * (2 + roundings p n) ^ k.val * α := by rw [one_mul]; exact hu
            _ ≤ _ := mul_le_mul_of_nonneg_right hpow hα
      _ = _ := by simp; ring
  unfold Solves.terms
  rw [Finset.mul_sum]
  exact Finset.sum_le_sum fun j _ => mul_le_mul_of_nonneg_right (hs _ _) (abs_nonneg _)

end

/-- **C81** Factors and solutions exist for all matrices and right-hand sides: elimination with complete pivoting and substitution give them. -/
theorem lu_total (hp : 0 < p) (A : Fin n → Fin n → FNum p) (rank0 : ℕ) (b : Fin n → FNum p) : ∃ F : Factors A, Nonempty (Solves F rank0 b) := ⟨Factors.compute hp A, ⟨solveInOrder _ _ _⟩⟩

/-! ## The full-space method -/

section fullspace
variable {nx np nw N : ℕ} {be bi ne ni u : Type} [Fintype be] [Fintype bi] [Fintype ne] [Fintype ni] [DecidableEq be] [DecidableEq bi]

/-- **C81** `LinearSolverFullspace` in double arithmetic: the step computed from any canonical matrix and right-hand side satisfies the equations of the saddle point problem up to the rounding errors of `LU`. -/
theorem fullspace_double (hp : 0 < p) (C : Canon (FNum p) nx np nw be bi ne ni u) (a : CVec (FNum p) np be bi ne ni) (e : FullT np be bi ne ni ≃ Fin N)
    (F : Factors fun i j => fullMatrix C (e.symm i) (e.symm j)) (rank0 : ℕ) (S : Solves F rank0 fun i => fullRhs a (e.symm i)) (hk : S.Keeps N) (hN : 16 * (N + 1) ≤ 2 ^ p) :
    let d := fullSolve (fun _ _ t => S.x (e t)) C a
    let ε : FullT np be bi ne ni → ℚ := fun t => 8 * (N + 1) / 2 ^ p * S.terms (e t)
    (∀ i, |(a.xs (.inl i)).val - (∑ j, (C.Hss (.inl i) j).val * (d.xs j).val + ∑ q, (C.Hsp (.inl i) q).val * (d.p q).val + (d.wbs i).val)| ≤ ε (.inl i)) ∧
    (∀ i, |(a.xs (.inr i)).val - (∑ j, (C.Hss (.inr i) j).val * (d.xs j).val + ∑ q, (C.Hsp (.inr i) q).val * (d.p q).val + ∑ k, (C.Sbsns k i).val * (d.wbs k).val)| ≤ ε (.inr (.inl i))) ∧
    (∀ q, |(a.p q).val - (∑ j, (C.Vps q j).val * (d.xs j).val + ∑ q', (C.Vpp q q').val * (d.p q').val)| ≤ ε (.inr (.inr (.inl q)))) ∧
    (∀ k, |(a.wbs k).val - ((d.xs (.inl k)).val + ∑ j, (C.Sbsns k j).val * (d.xs (.inr j)).val + ∑ q, (C.Sbsp k q).val * (d.p q).val)| ≤ ε (.inr (.inr (.inr k)))) := by
  intro d ε
  have key : ∀ t, |(fullRhs a t).val - ∑ c, (fullMatrix C t c).val * (S.x (e c)).val| ≤ ε t := by
    intro t
    have h := lu_solve_double hp S hk hN (e t)
    simp only [Equiv.symm_apply_apply] at h
    rw [← Equiv.sum_comp e] at h
    simp only [Equiv.symm_apply_apply] at h
    exact h
  have hone : ∀ (k : be ⊕ bi) (f : be ⊕ bi → ℚ), ∑ c, ((1 : Matrix (be ⊕ bi) (be ⊕ bi) (FNum p)) k c).val * f c = f k := by
    intro k f
    rw [Finset.sum_eq_single k]
    · rw [Matrix.one_apply_eq, FNum.val_one hp, one_mul]
    · intro c _ hc
      rw [Matrix.one_apply_ne hc.symm, FNum.val_zero, zero_mul]
    · simp
  refine ⟨fun i => ?_, fun i => ?_, fun q => ?_, fun k => ?_⟩
  · have h := key (.inl i)
    simp only [Fintype.sum_sum_type (α₁ := be ⊕ bi) (α₂ := (ne ⊕ ni) ⊕ Fin np ⊕ (be ⊕ bi)), Fintype.sum_sum_type (α₁ := ne ⊕ ni) (α₂ := Fin np ⊕ (be ⊕ bi)), Fintype.sum_sum_type (α₁ := Fin np) (α₂ := be ⊕ bi)] at h
    change |(a.xs (.inl i)).val - (∑ j, (C.Hss (.inl i) (.inl j)).val * (d.xs (.inl j)).val + (∑ j, (C.Hss (.inl i) (.inr j)).val * (d.xs (.inr j)).val + (∑ q, (C.Hsp (.inl i) q).val * (d.p q).val + ∑ c, ((1 : Matrix (be ⊕ bi) (be ⊕ bi) (FNum p)) i c).val * (d.wbs c).val)))| ≤ _ at h
    rw [hone] at h
    rw [Fintype.sum_sum_type (α₁ := be ⊕ bi) (α₂ := ne ⊕ ni)]
    simp only [← add_assoc] at h ⊢
    exact h
  · have h := key (.inr (.inl i))
    simp only [Fintype.sum_sum_type (α₁ := be ⊕ bi) (α₂ := (ne ⊕ ni) ⊕ Fin np ⊕ (be ⊕ bi)), Fintype.sum_sum_type (α₁ := ne ⊕ ni) (α₂ := Fin np ⊕ (be ⊕ bi)), Fintype.sum_sum_type (α₁ := Fin np) (α₂ := be ⊕ bi)] at h
    change |(a.xs (.inr i)).val - (∑ j, (C.Hss (.inr i) (.inl j)).val * (d.xs (.inl j)).val + (∑ j, (C.Hss (.inr i) (.inr j)).val * (d.xs (.inr j)).val + (∑ q, (C.Hsp (.inr i) q).val * (d.p q).val + ∑ c, (C.Sbsns c i).val * (d.wbs c).val)))| ≤ _ at h
    rw [Fintype.sum_sum_type (α₁ := be ⊕ bi) (α₂ := ne ⊕ ni)]
    simp only [← add_assoc] at h ⊢
    exact h
  · have h := key (.inr (.inr (.inl q)))
    simp only [Fintype.sum_sum_type (α₁ := be ⊕ bi) (α₂ := (ne ⊕ ni) ⊕ Fin np ⊕ (be ⊕ bi)), Fintype.sum_sum_type (α₁ := ne ⊕ ni) (α₂ := Fin np ⊕ (be ⊕ bi)), Fintype.sum_sum_type (α₁ := Fin np) (α₂ := be ⊕ bi)] at h
    change |(a.p q).val - (∑ j, (C.Vps q (.inl j)).val * (d.xs (.inl j)).val + (∑ j, (C.Vps q (.inr j)).val * (d.xs (.inr j)).val + (∑ q', (C.Vpp q q').val * (d.p q').val + ∑ c, (0 : FNum p).val * (d.wbs c).val)))| ≤ _ at h
    simp only [FNum.val_zero, zero_mul, Finset.sum_const_zero, add_zero] at h
    rw [Fintype.sum_sum_type (α₁ := be ⊕ bi) (α₂ := ne ⊕ ni)]
    simp only [← add_assoc] at h ⊢
    exact h
  · have h := key (.inr (.inr (.inr k)))
    simp only [Fintype.sum_sum_type (α₁ := be ⊕ bi) (α₂ := (ne ⊕ ni) ⊕ Fin np ⊕ (be ⊕ bi)), Fintype.sum_sum_type (α₁ := ne ⊕ ni) (α₂ := Fin np ⊕ (be ⊕ bi)), Fintype.sum_sum_type (α₁ := Fin np) (α₂ := be ⊕ bi)] at h
    change |(a.wbs k).val - (∑ c, ((1 : Matrix (be ⊕ bi) (be ⊕ bi) (FNum p)) k c).val * (d.xs (.inl c)).val + (∑ j, (C.Sbsns k j).val * (d.xs (.inr j)).val + (∑ q, (C.Sbsp k q).val * (d.p q).val + ∑ c, (0 : FNum p).val * (d.wbs c).val)))| ≤ _ at h
    rw [hone k (fun c => (d.xs (.inl c)).val)] at h
    simp only [FNum.val_zero, zero_mul, Finset.sum_const_zero, add_zero] at h
    simp only [← add_assoc] at h ⊢
    exact h

end fullspace

/-! ## Cases -/

/-- A matrix with rows to be exchanged and entries that are not powers of two. -/
def exA : Fin 2 → Fin 2 → Double := fun i j => if i = 0 then (if j = 0 then .fl (1 / 10) else 1) else (if j = 0 then .fl 3 else .fl 7)
def exb : Fin 2 → Double := fun i => if i = 0 then 1 else .fl 2

def exF : Factors exA := Factors.compute (by norm_num) exA
def exS : Solves exF 2 exb := solveInOrder exF 2 exb

theorem exS_keeps : exS.Keeps 2 := by
  intro j
  rw [if_pos j.isLt, if_neg (by norm_num)]
  fin_cases j <;> decide +kernel

example (i : Fin 2) : |(exb i).val - ∑ j, (exA i j).val * (exS.x j).val| ≤ 24 / 2 ^ 53 * exS.terms i := by
  have := lu_solve_double (by norm_num) exS exS_keeps (by norm_num) i
  norm_num at this ⊢
  exact this

/-- The rows were exchanged, and the rounding errors are there: the second equation is not satisfied exactly. -/
example : exF.rowPerm 0 = 1 ∧ exF.colPerm 0 = 1 ∧ (exb 0).val - ∑ j, (exA 0 j).val * (exS.x j).val ≠ 0 := by
  refine ⟨by decide +kernel, by decide +kernel, ?_⟩
  rw [Fin.sum_univ_two]
  decide +kernel

/-- The matrix `diag(1, 2^-60)`. -/
def tinyA : Fin 2 → Fin 2 → Double := fun i j => if i = j then (if i = 0 then 1 else .fl (1 / 2 ^ 60)) else 0
def tinyF : Factors tinyA := Factors.compute (by norm_num) tinyA
def tinyS (b : Fin 2 → Double) : Solves tinyF 2 b := solveInOrder tinyF 2 b
/-- Right-hand sides with first entry one. -/
def tinyb (e : ℕ) : Fin 2 → Double := fun i => if i = 0 then 1 else .fl (1 / 2 ^ e)

theorem tiny_keeps : (tinyS (tinyb 0)).Keeps 1 := by
  intro j
  fin_cases j
  · rw [if_pos (show (0 : ℕ) < 1 by norm_num), if_neg (by norm_num)]
    decide +kernel
  · rw [if_neg (show ¬ (1 : ℕ) < 1 by norm_num)]
    exact ⟨by norm_num, by decide +kernel⟩

example : |(tinyb 0 0).val - ∑ j, (tinyA 0 j).val * ((tinyS (tinyb 0)).x j).val| ≤ 24 / 2 ^ 53 * (tinyS (tinyb 0)).terms 0 := by
  have := lu_solve_double_rank (by norm_num) (tinyS (tinyb 0)) tiny_keeps (by norm_num) 0 (by decide +kernel)
  norm_num at this ⊢
  exact this

/-- **C81** Discarding is decided by the right-hand side, and equations of regular systems are discarded: with the matrix `diag(1, 2^-60)` the second unknown is `2^51` for the second right-hand side `2^-9` and zero for `2^-8`, where no digit of the equation is satisfied. -/
theorem lu_discards_regular : ((tinyS (tinyb 9)).x 1).val = 2 ^ 51 ∧ ((tinyS (tinyb 8)).x 1).val = 0 ∧ (tinyb 8 1).val = 2 * (tinyb 9 1).val ∧
    (tinyb 8 1).val - ∑ j, (tinyA 1 j).val * ((tinyS (tinyb 8)).x j).val = (tinyb 8 1).val := by
  refine ⟨by decide +kernel, by decide +kernel, by decide +kernel, ?_⟩
  rw [Fin.sum_univ_two]
  decide +kernel

/-- The matrix with rows `(1, 0)` and `(1/2, 1/4)`, whose solutions are computed without any rounding. -/
def lowA : Fin 2 → Fin 2 → Double := fun i j => if i = 0 then (if j = 0 then 1 else 0) else (if j = 0 then .fl (1 / 2) else .fl (1 / 4))
def lowb : Fin 2 → Double := fun i => if i = 0 then .fl (2 ^ 60) else .fl (2 ^ 59)
def lowF : Factors lowA := Factors.compute (by norm_num) lowA
def lowS : Solves lowF 2 lowb := solveInOrder lowF 2 lowb

/-- **C81** If an equation other than the last ones is discarded, equations that are kept are lost as well: here the first equation is discarded as its right-hand side is large, the second one is kept, the result is zero, and the second equation is not satisfied at all.  The solution is `(2^60, 0)`. -/
theorem lu_kept_violated : lowF.rowPerm 1 = 1 ∧ (lowF.M 0 0).abs ≤ FNum.epsilon * (lowS.y 0).abs ∧ FNum.epsilon * (lowS.y 1).abs < (lowF.M 1 1).abs ∧ lowS.x 0 = 0 ∧ lowS.x 1 = 0 ∧
    (lowb 1).val - ((lowA 1 0).val * (lowS.x 0).val + (lowA 1 1).val * (lowS.x 1).val) = 2 ^ 59 ∧
    (lowA 0 0).val * 2 ^ 60 + (lowA 0 1).val * 0 = (lowb 0).val ∧ (lowA 1 0).val * 2 ^ 60 + (lowA 1 1).val * 0 = (lowb 1).val := by
  refine ⟨by decide +kernel, by decide +kernel, by decide +kernel, ?_, ?_, by decide +kernel, by decide +kernel, by decide +kernel⟩
  · exact FNum.val_injective (by decide +kernel)
  · exact FNum.val_injective (by decide +kernel)

/-- One basic and one non-basic variable, a full Hessian matrix and the constraint `x₀ + x₁/10 = b`. -/
def exC : Canon Double 2 0 1 (Fin 1) (Fin 0) (Fin 1) (Fin 0) (Fin 0) where
  Hss := fun i j => if i.isLeft then (if j.isLeft then .fl 5 else .fl (1 / 3)) else (if j.isLeft then .fl (1 / 3) else .fl 3)
  Hsp := fun _ q => q.elim0
  Vps := fun q => q.elim0
  Vpp := fun q => q.elim0
  Sbsns := fun _ _ => .fl (1 / 10)
  Sbsp := fun _ q => q.elim0
  Rbs := fun _ _ => 1
  jb := fun _ => 0
  jn := fun _ => 1
  js := fun i => if i.isLeft then 0 else 1
  ju := fun j => j.elim0

def exa : CVec Double 0 (Fin 1) (Fin 0) (Fin 1) (Fin 0) where
  xs := fun i => if i.isLeft then 1 else .fl (2 / 3)
  p := fun q => q.elim0
  wbs := fun _ => .fl (1 / 7)

/-- The unknowns in the order of the code. -/
def exe : FullT 0 (Fin 1) (Fin 0) (Fin 1) (Fin 0) ≃ Fin 3 where
  toFun := Sum.elim (fun _ => 0) (Sum.elim (fun _ => 1) (Sum.elim (fun q => q.elim0) (fun _ => 2)))
  invFun := fun i => if i = 0 then .inl (.inl 0) else if i = 1 then .inr (.inl (.inl 0)) else .inr (.inr (.inr (.inl 0)))
  left_inv := by
    rintro ((i | i) | (i | i) | i | i | i)
    all_goals first | exact i.elim0 | (fin_cases i; rfl)
  right_inv := by
    intro i
    fin_cases i <;> rfl

def exFF : Factors fun i j => fullMatrix exC (exe.symm i) (exe.symm j) := Factors.compute (by norm_num) _
def exSS : Solves exFF 3 fun i => fullRhs exa (exe.symm i) := solveInOrder exFF 3 _

theorem exSS_keeps : exSS.Keeps 3 := by
  intro j
  rw [if_pos j.isLt, if_neg (by norm_num)]
  fin_cases j <;> decide +kernel

example := fullspace_double (by norm_num) exC exa exe exFF 3 exSS exSS_keeps (by norm_num)

end Optima.FLU
