import Verif.Model.FloatEchelon
import Verif.Props.Rounding
import Verif.Props.RoundOff
import Mathlib.Algebra.BigOperators.Field

/-!
# C68: removal of round-off errors and the echelon form, in rounded arithmetic

`R` and `S` with `R·A·Q = [I S]` are changed by adding and subtracting `sigma`, between 10 and 100 times the largest entry of `A`.  This rounds their entries to multiples of about `2⁻⁵²·sigma`, whatever the size of the entries.
-/

set_option linter.unusedSectionVars false

namespace Optima

open Finset

namespace Fl

/-- Distinct numbers with `p` significant bits are not close to each other. -/
theorem repr_gap {p : ℕ} (hp : 0 < p) {y z : ℚ} (hy : Repr p y) (hz : Repr p z) (h0 : 0 < y) (h : y < z) : y < 2 ^ p * (z - y) := by
  obtain ⟨m, hm⟩ := repr_multiple hp hy h0.ne' le_rfl
  obtain ⟨n, hn⟩ := repr_multiple hp hz h0.ne' (by rw [abs_of_pos h0, abs_of_pos (h0.trans h)]; exact h.le)
  have hu := ulp_pos p y
  have hmn : m + 1 ≤ n := by
    have : (m : ℚ) < n := by
      rw [hm, hn] at h
      exact lt_of_mul_lt_mul_right h hu.le
    have : m < n := by exact_mod_cast this
    omega
  have h1 : ulp p y ≤ z - y := by
    have : ((m : ℚ) + 1) * ulp p y ≤ n * ulp p y := mul_le_mul_of_nonneg_right (by exact_mod_cast hmn) hu.le
    rw [add_mul, one_mul, ← hm, ← hn] at this
    linarith
  have h2 : y < 2 ^ p * ulp p y := by
    have := (expo_spec h0.ne').2
    rw [abs_of_pos h0] at this
    unfold ulp
    rw [show expo y - (p : ℤ) + 1 = (expo y + 1) - p by ring, zpow_sub₀ (by norm_num), zpow_natCast]
    field_simp
    exact this
  exact h2.trans_le (mul_le_mul_of_nonneg_left h1 (by positivity))

end Fl

namespace FNum

variable {p : ℕ}

theorem cleanSigma_val (σ : FNum p) {ι κ : Type*} (M : ι → κ → FNum p) (i : ι) (j : κ) : (cleanSigma σ M i j).val = Fl.rnd p (Fl.rnd p ((M i j).val + σ.val) - σ.val) := rfl

/-! ## What the two operations do to one entry -/

/-- **C68 (small entries are lost)**: for every `sigma > 0`, an entry of magnitude at most `sigma/2^(p+2)` becomes zero. -/
theorem clean_lost (hp : 0 < p) {σ : FNum p} (hσ : 0 < σ.val) {ι κ : Type*} (M : ι → κ → FNum p) (i : ι) (j : κ) (h : |(M i j).val| * 2 ^ (p + 2) ≤ σ.val) : (cleanSigma σ M i j).val = 0 := by
  rw [cleanSigma_val]
  set x := (M i j).val with hx
  set s := Fl.rnd p (x + σ.val) with hs
  have hsr : Fl.Repr p s := Fl.rnd_repr hp _
  have hσr : Fl.Repr p σ.val := repr_val hp σ
  have hd : |s - σ.val| ≤ 2 * |x| := by
    have h1 := Fl.rnd_nearest hp (x + σ.val) hσr
    rw [← hs] at h1
    have h2 : |σ.val - (x + σ.val)| = |x| := by rw [show σ.val - (x + σ.val) = -x by ring, abs_neg]
    rw [h2] at h1
    rw [show s - σ.val = (s - (x + σ.val)) + x by ring]
    refine (abs_add_le _ _).trans ?_
    linarith
  have hp2 : (2 : ℚ) ^ (p + 2) = 4 * 2 ^ p := by rw [pow_add]; ring
  have hp1 : (2 : ℚ) ≤ 2 ^ p := by
    calc (2 : ℚ) = 2 ^ 1 := by norm_num
      _ ≤ 2 ^ p := pow_le_pow_right₀ (by norm_num) hp
  rw [hp2] at h
  have hsσ : s = σ.val := by
    rw [abs_le] at hd
    have hx0 := abs_nonneg x
    have hxs : |x| * 8 ≤ σ.val := by nlinarith
    rcases lt_trichotomy s σ.val with hlt | heq | hgt
    · exfalso
      have hs0 : 0 < s := by linarith
      have := Fl.repr_gap hp hsr hσr hs0 hlt
      nlinarith
    · exact heq
    · exfalso
      have := Fl.repr_gap hp hσr hsr hσ hgt
      nlinarith
  rw [hsσ, sub_self, Fl.rnd_zero]

/-- Zero entries stay zero, for every `sigma`. -/
theorem clean_zero_entry (hp : 0 < p) (σ : FNum p) {ι κ : Type*} (M : ι → κ → FNum p) (i : ι) (j : κ) (h : (M i j).val = 0) : (cleanSigma σ M i j).val = 0 := by
  rw [cleanSigma_val, h, zero_add, rnd_val hp, sub_self, Fl.rnd_zero]

/-- Integers are numbers with `p` significant bits, up to `2^p`. -/
theorem repr_int {n : ℤ} (h : |n| ≤ 2 ^ p) : Fl.Repr p (n : ℚ) := ⟨n, 0, h, by simp⟩

/-- **C68 (integers are kept)**: an integer entry is not changed, if `sigma` is an integer and the sum is at most `2^p` (`9·10¹⁵` for `double`). -/
theorem clean_int (hp : 0 < p) {σ : FNum p} {ι κ : Type*} (M : ι → κ → FNum p) (i : ι) (j : κ) {n k : ℤ} (hn : (M i j).val = n) (hk : σ.val = k) (h : |n| + |k| ≤ 2 ^ p) : (cleanSigma σ M i j).val = (M i j).val := by
  rw [cleanSigma_val, hn, hk]
  have h1 : Fl.rnd p ((n : ℚ) + k) = n + k := by
    have := Fl.rnd_of_repr hp (repr_int (p := p) (n := n + k) ((abs_add_le _ _).trans h))
    push_cast at this
    exact this
  rw [h1, add_sub_cancel_right]
  exact Fl.rnd_of_repr hp (repr_int ((le_add_of_nonneg_right (abs_nonneg _)).trans h))

/-- **C68 (size of the change)**: an entry `x` changes by at most `2⁻ᵖ(1 + 2⁻ᵖ)(sigma + 2|x|)`. -/
theorem clean_change (σ : FNum p) {ι κ : Type*} (M : ι → κ → FNum p) (i : ι) (j : κ) :
    |(cleanSigma σ M i j).val - (M i j).val| ≤ 1 / 2 ^ p * (1 + 1 / 2 ^ p) * (|σ.val| + 2 * |(M i j).val|) := by
  rw [cleanSigma_val]
  set x := (M i j).val
  set η : ℚ := 1 / 2 ^ p with hη
  have hη0 : 0 < η := by positivity
  have hr : ∀ z, |Fl.rnd p z - z| ≤ η * |z| := fun z => by
    have := Fl.rnd_error p z
    rwa [div_eq_mul_one_div, mul_comm] at this
  set s := Fl.rnd p (x + σ.val) with hs
  have h1 : |s - (x + σ.val)| ≤ η * (|x| + |σ.val|) := (hr _).trans (mul_le_mul_of_nonneg_left (abs_add_le _ _) hη0.le)
  have h2 := hr (s - σ.val)
  have h3 : |s - σ.val| ≤ |x| + η * (|x| + |σ.val|) := by
    rw [show s - σ.val = x + (s - (x + σ.val)) by ring]
    exact (abs_add_le _ _).trans (by linarith)
  have h4 : |Fl.rnd p (s - σ.val) - x| ≤ η * (|x| + η * (|x| + |σ.val|)) + η * (|x| + |σ.val|) := by
    rw [show Fl.rnd p (s - σ.val) - x = (Fl.rnd p (s - σ.val) - (s - σ.val)) + (s - (x + σ.val)) by ring]
    exact (abs_add_le _ _).trans (add_le_add (h2.trans (mul_le_mul_of_nonneg_left h3 hη0.le)) h1)
  refine h4.trans ?_
  have := abs_nonneg x
  have : 0 ≤ η * η * |x| := by positivity
  nlinarith

/-! ## `sigma` -/

theorem le_maxAbs {m n : ℕ} (A : Fin m → Fin n → FNum p) (i : Fin m) (j : Fin n) : (A i j).abs ≤ maxAbs A := by
  have inner : ∀ (f : Fin n → FNum p) (l : List (Fin n)) (s : FNum p), s ≤ l.foldl (fun s j => max s (f j)) s ∧ ∀ j ∈ l, f j ≤ l.foldl (fun s j => max s (f j)) s := by
    intro f l
    induction l with
    | nil => exact fun s => ⟨le_rfl, by simp⟩
    | cons a l ih =>
      intro s
      obtain ⟨h1, h2⟩ := ih (max s (f a))
      refine ⟨(le_max_left _ _).trans h1, fun j hj => ?_⟩
      rcases List.mem_cons.1 hj with rfl | hj
      · exact (le_max_right _ _).trans h1
      · exact h2 j hj
  have outer : ∀ (l : List (Fin m)) (s : FNum p), s ≤ l.foldl (fun s i => (List.finRange n).foldl (fun s j => max s (A i j).abs) s) s ∧
      ∀ i ∈ l, ∀ j, (A i j).abs ≤ l.foldl (fun s i => (List.finRange n).foldl (fun s j => max s (A i j).abs) s) s := by
    intro l
    induction l with
    | nil => exact fun s => ⟨le_rfl, by simp⟩
    | cons a l ih =>
      intro s
      obtain ⟨g1, g2⟩ := inner (fun j => (A a j).abs) (List.finRange n) s
      obtain ⟨h1, h2⟩ := ih ((List.finRange n).foldl (fun s j => max s (A a j).abs) s)
      refine ⟨g1.trans h1, fun i hi j => ?_⟩
      rcases List.mem_cons.1 hi with rfl | hi
      · exact (g2 j (List.mem_finRange j)).trans h1
      · exact h2 i hi j
  exact (outer (List.finRange m) 0).2 i (List.mem_finRange i) j

/-- The largest magnitude is that of an entry, or zero. -/
theorem maxAbs_mem {m n : ℕ} (A : Fin m → Fin n → FNum p) : maxAbs A = 0 ∨ ∃ i j, maxAbs A = (A i j).abs := by
  unfold maxAbs
  refine foldl_finRange_inv (P := fun _ r => r = 0 ∨ ∃ i j, r = (A i j).abs) (Or.inl rfl) ?_
  intro l r i h
  refine foldl_finRange_inv (P := fun _ r => r = 0 ∨ ∃ i j, r = (A i j).abs) h ?_
  intro l r j h
  rcases max_choice r (A i j).abs with e | e
  · rw [e]; exact h
  · rw [e]; exact Or.inr ⟨i, j, rfl⟩

theorem maxAbs_nonneg (hp : 0 < p) {m n : ℕ} (A : Fin m → Fin n → FNum p) : 0 ≤ (maxAbs A).val := by
  rcases maxAbs_mem A with e | ⟨i, j, e⟩
  · rw [e, val_zero]
  · rw [e, val_abs hp]; exact abs_nonneg _

/-- `sigma` is between 10 and 100 times the largest entry, up to one rounding. -/
theorem sigma_bounds (hp : 0 < p) {m n : ℕ} (A : Fin m → Fin n → FNum p) :
    (1 - 1 / 2 ^ p) * (10 * (maxAbs A).val) ≤ (sigma A).val ∧ (sigma A).val ≤ (1 + 1 / 2 ^ p) * (100 * (maxAbs A).val) := by
  have h0 := maxAbs_nonneg hp A
  unfold sigma
  split_ifs with h
  · rw [h, val_zero]; simp
  · have hpos : 0 < (maxAbs A).val := by
      refine lt_of_le_of_ne h0 fun e => h ?_
      apply val_injective
      rw [val_zero, ← e]
    rw [val_fl]
    set μ := (maxAbs A).val
    have h1 : μ ≤ 10 ^ Int.clog 10 μ := by simpa using Int.self_le_zpow_clog (b := 10) (by norm_num) μ
    have h2 : (10 : ℚ) ^ (Int.clog 10 μ - 1) < μ := by simpa using Int.zpow_pred_clog_lt_self (b := 10) (by norm_num) hpos
    set E : ℚ := 10 ^ (1 + Int.clog 10 μ) with hE
    have e1 : E = 10 * 10 ^ Int.clog 10 μ := by rw [hE, zpow_add₀ (by norm_num), zpow_one]
    have e2 : E = 100 * 10 ^ (Int.clog 10 μ - 1) := by
      rw [hE, show 1 + Int.clog 10 μ = 2 + (Int.clog 10 μ - 1) by ring, zpow_add₀ (by norm_num)]
      norm_num
    have hE0 : 0 < E := zpow_pos (by norm_num) _
    have hr := Fl.rnd_error p E
    rw [abs_of_pos hE0, abs_le, div_eq_mul_one_div, mul_comm] at hr
    have hη : (1 : ℚ) / 2 ^ p ≤ 1 := by
      rw [div_le_one (by positivity)]
      exact one_le_pow₀ (by norm_num)
    have hη0 : (0 : ℚ) < 1 / 2 ^ p := by positivity
    generalize (1 : ℚ) / 2 ^ p = η at *
    constructor
    · have : (1 - η) * (10 * μ) ≤ (1 - η) * E := mul_le_mul_of_nonneg_left (by linarith) (by linarith)
      linarith [hr.1]
    · have : (1 + η) * E ≤ (1 + η) * (100 * μ) := mul_le_mul_of_nonneg_left (by linarith) (by linarith)
      linarith [hr.2]

theorem sigma_pos (hp : 0 < p) {m n : ℕ} (A : Fin m → Fin n → FNum p) (h : 0 < (maxAbs A).val) : 0 < (sigma A).val := by
  refine lt_of_lt_of_le ?_ (sigma_bounds hp A).1
  have : (1 : ℚ) / 2 ^ p < 1 := by
    rw [div_lt_one (by positivity)]
    exact one_lt_pow₀ (by norm_num) (by omega)
  exact mul_pos (by linarith) (by linarith)

/-! ## The echelon form -/

/-- **C68, the part that holds**: for all `A` and `R` of any size, the removal of round-off errors changes the entry `(i, j)` of the product `R·A` by at most `2⁻ᵖ(1 + 2⁻ᵖ)·Σₖ (sigma + 2|Rᵢₖ|)·|Aₖⱼ|` with
    `sigma ≤ (1 + 2⁻ᵖ)·100·max|A|`.  The bound grows like the square of `max|A|`.
    Missing for the full statement (the echelon form is kept up to rounding): it is false, see `echelon_lost` and `echelon_distorted`. -/
theorem echelon_kept_partial (hp : 0 < p) {m n : ℕ} (A : Fin m → Fin n → FNum p) (R : Fin m → Fin m → FNum p) (i : Fin m) (j : Fin n) :
    |∑ k, (cleanSigma (sigma A) R i k).val * (A k j).val - ∑ k, (R i k).val * (A k j).val| ≤ 1 / 2 ^ p * (1 + 1 / 2 ^ p) * ∑ k, ((1 + 1 / 2 ^ p) * (100 * (maxAbs A).val) + 2 * |(R i k).val|) * |(A k j).val| := by
  rw [← Finset.sum_sub_distrib, Finset.mul_sum]
  refine (Finset.abs_sum_le_sum_abs _ _).trans (Finset.sum_le_sum fun k _ => ?_)
  rw [← sub_mul, abs_mul, ← mul_assoc]
  refine mul_le_mul_of_nonneg_right ((clean_change _ _ _ _).trans ?_) (abs_nonneg _)
  refine mul_le_mul_of_nonneg_left ?_ (by positivity)
  have h1 := (sigma_bounds hp A).2
  have h2 : 0 ≤ (sigma A).val := by
    rcases (maxAbs_nonneg hp A).eq_or_lt with e | e
    · unfold sigma
      rw [if_pos (val_injective (by rw [val_zero, ← e])), val_zero]
    · exact (sigma_pos hp A e).le
  rw [abs_of_nonneg h2]
  linarith

/-- **C68 (the matrix is lost)**: for all `A` and `R` of any size, if all entries of `R` are at most `(1 - 2⁻ᵖ)·10·max|A|/2^(p+2)` in magnitude, the whole matrix `R` becomes zero. -/
theorem echelon_all_lost (hp : 0 < p) {m n : ℕ} (A : Fin m → Fin n → FNum p) (hA : 0 < (maxAbs A).val) {ι κ : Type*} (R : ι → κ → FNum p) (hR : ∀ i j, |(R i j).val| * 2 ^ (p + 2) ≤ (1 - 1 / 2 ^ p) * (10 * (maxAbs A).val)) :
    ∀ i j, (cleanSigma (sigma A) R i j).val = 0 :=
  fun i j => clean_lost hp (sigma_pos hp A hA) R i j ((hR i j).trans (sigma_bounds hp A).1)

end FNum

/-! ## Any machine -/

/-- As `machine_never`, for a property of the state of the machine and the iterate. -/
theorem machine_never_state {K : Type*} [Zero K] [One K] [Add K] [Sub K] [Mul K] [Div K] [LinearOrder K] {nx np nw : ℕ} {σ : Type*} {m : Machine σ K nx np nw} {o : SolveOptions K} {B : Bounds K nx np} (hphi : m.phi = none)
    (hcheck : m.check = none) (I : σ → MVec K nx np nw → Prop) (Q : MVec K nx np nw → Prop)
    (hnext : ∀ s uo, I s uo → ∃ t u v t', m.newton s uo = some (t, u) ∧ backtrack o.debug o.minmax B uo u = some v ∧ m.eval t v = some t' ∧ o.tolerance ≤ m.error t' ∧ I t' v ∧ Q v) (mach : σ) (history : History K)
    (u : MVec K nx np nw) (hu : ∃ t, m.eval mach (clampVec B u) = some t ∧ I t (clampVec B u)) :
    ∃ t, (∀ r, Solve m o B mach history u r ↔ r = some t) ∧ (solveResult o t).succeeded = false ∧ (solveResult o t).iterations = o.maxiters + 1 ∧ Q t.u := by
  have hstep : ∀ s : SolveState σ K nx np nw, I s.mach s.uo → ∃ s1, step m o B s = some s1 ∧ s1.iterations = s.iterations + 1 ∧ Q s1.u ∧ o.tolerance ≤ m.error s1.mach ∧ I s1.mach s1.u := by
    intro s hs
    obtain ⟨t, un, v, t', h1, h2, h3, h4, h5, h6⟩ := hnext s.mach s.uo hs
    refine ⟨{ s with mach := t', u := v, iterations := s.iterations + 1, trace := v :: s.trace }, ?_, rfl, h6, h4, h5⟩
    unfold step
    dsimp only
    rw [h1]
    dsimp only
    unfold transform
    rw [hphi]
    dsimp only
    unfold errorControl
    dsimp only
    rw [h2]
    dsimp only
    unfold evalAt
    dsimp only
    rw [h3]
  have hloop : ∀ n (s : SolveState σ K nx np nw), I s.mach s.uo → s.iterations + n = o.maxiters → ∃ t, Loop m o B s (some t) ∧ t.iterations = o.maxiters + 1 ∧ Q t.u := by
    intro n
    induction n with
    | zero =>
      intro s hs hn
      obtain ⟨s1, h1, h2, h3, h4, h5⟩ := hstep s hs
      refine ⟨{ s1 with history := s1.history.update (m.error s1.mach) }, .stop _ _ _ h1 ?_, by change s1.iterations = _; omega, h3⟩
      unfold stepping
      dsimp only
      rw [if_pos (by omega)]
    | succ n ih =>
      intro s hs hn
      obtain ⟨s1, h1, h2, h3, h4, h5⟩ := hstep s hs
      have h6 : stepping m o s1 = some ({ s1 with history := s1.history.update (m.error s1.mach), uo := s1.u }, true) := by
        unfold stepping
        dsimp only
        rw [if_neg (by omega)]
        have : (History.update s1.history (m.error s1.mach)).converged o.tolerance = none := by simp [History.converged, History.update, not_lt.2 h4]
        rw [this, hcheck]
      obtain ⟨t, g1, g2, g3⟩ := ih { s1 with history := s1.history.update (m.error s1.mach), uo := s1.u } h5 (by change s1.iterations + n = _; omega)
      exact ⟨t, .again _ _ _ _ h1 h6 g1, g2, g3⟩
  obtain ⟨t0, ht0, hI⟩ := hu
  have hinit : solveInit m B mach history u = some { mach := t0, u := clampVec B u, uo := clampVec B u, iterations := 0, history := history.init, trace := [clampVec B u] } := by
    unfold solveInit evalAt
    dsimp only
    rw [ht0]
  obtain ⟨t, h1, h2, h3⟩ := hloop o.maxiters { mach := t0, u := clampVec B u, uo := clampVec B u, iterations := 0, history := history.init, trace := [clampVec B u] } hI (by simp)
  have hsolve : Solve m o B mach history u (some t) := .run _ _ hinit h1
  refine ⟨t, fun r => ⟨fun hr => ?_, fun e => e ▸ hsolve⟩, ?_, h2, h3⟩
  · obtain ⟨⟨r0, -, h1⟩, -⟩ := solve_budget m o B mach history u
    rw [h1 r hr, h1 _ hsolve]
  · simp [solveResult, h2]

/-! ## One variable and one constraint -/

namespace OneProblem

variable {p : ℕ} (P : OneProblem p)

theorem maxAbs_one (a : FNum p) : FNum.maxAbs (fun (_ : Fin 1) (_ : Fin 1) => a) = max 0 a.abs := rfl

theorem maxAbs_one_val (hp : 0 < p) (a : FNum p) : (FNum.maxAbs (fun (_ : Fin 1) (_ : Fin 1) => a)).val = |a.val| := by
  rw [maxAbs_one]
  have : (0 : FNum p) ≤ a.abs := by
    rw [FNum.le_iff, FNum.val_zero, FNum.val_abs hp]
    exact abs_nonneg _
  rw [max_eq_right this, FNum.val_abs hp]

/-- **C68, one variable**: the matrix `R` for `A = [a]` becomes zero for all `a` with `a² ≥ 2^(p+2)/5`. -/
theorem R_lost (hp : 2 ≤ p) (ha : (2 : ℚ) ^ (p + 2) ≤ 5 * P.a.val ^ 2) : (P.R 0 0).val = 0 := by
  have hp0 : 0 < p := by omega
  have ha0 : P.a.val ≠ 0 := by
    intro e
    rw [e] at ha
    have : (0 : ℚ) < 2 ^ (p + 2) := by positivity
    norm_num at ha
    linarith
  have hμ := maxAbs_one_val hp0 P.a
  have habs : 0 < |P.a.val| := abs_pos.2 ha0
  refine FNum.echelon_all_lost hp0 (fun (_ : Fin 1) (_ : Fin 1) => P.a) (by rw [hμ]; exact habs) P.R0 (fun i j => ?_) 0 0
  rw [hμ]
  have hR : |(P.R0 i j).val| ≤ (1 + 1 / 2 ^ p) * (1 / |P.a.val|) := by
    change |(1 / P.a : FNum p).val| ≤ _
    rw [FNum.val_div, FNum.val_one hp0]
    have h := Fl.rnd_error p (1 / P.a.val)
    rw [div_eq_mul_one_div (|1 / P.a.val|)] at h
    have : Fl.rnd p (1 / P.a.val) = (Fl.rnd p (1 / P.a.val) - 1 / P.a.val) + 1 / P.a.val := by ring
    rw [this]
    refine (abs_add_le _ _).trans ?_
    rw [abs_div (1 : ℚ), abs_one] at h ⊢
    linarith
  have hη : (1 : ℚ) / 2 ^ p ≤ 1 / 4 := by
    rw [div_le_div_iff₀ (by positivity) (by norm_num), one_mul, one_mul]
    calc (4 : ℚ) = 2 ^ 2 := by norm_num
      _ ≤ 2 ^ p := pow_le_pow_right₀ (by norm_num) hp
  have hη0 : (0 : ℚ) < 1 / 2 ^ p := by positivity
  rw [← sq_abs] at ha
  generalize |P.a.val| = a at *
  refine (mul_le_mul_of_nonneg_right hR (by positivity)).trans ?_
  generalize (1 : ℚ) / 2 ^ p = η at *
  rw [mul_assoc, one_div, inv_mul_eq_div, mul_div_assoc', div_le_iff₀ habs]
  have h1 : (1 + η) * 2 ^ (p + 2) ≤ (1 + η) * (5 * a ^ 2) := mul_le_mul_of_nonneg_left ha (by linarith)
  have h2 : (1 + η) * (5 * a ^ 2) ≤ (1 - η) * (10 * a) * a := by nlinarith [sq_nonneg a]
  exact h1.trans h2

/-- `multiplyMatrixVectorWithoutResidualRoundOffError` for a `1×1` matrix is the product. -/
theorem multiplyClean_one (hp : 0 < p) (R : Fin 1 → Fin 1 → FNum p) (b : FNum p) : (FNum.multiplyClean R (fun _ => b) 0).val = (R 0 0 * b).val := by
  have hdot : ∀ c d : FNum p, FNum.dot (fun (_ : Fin 1) => c) (fun _ => d) = 0 + c * d := fun _ _ => rfl
  have hadd : ∀ c d : FNum p, (0 + c * d).val = (c * d).val := fun c d => by rw [FNum.val_add, FNum.val_zero, zero_add, FNum.rnd_val hp]
  unfold FNum.multiplyClean
  dsimp only
  have e1 : FNum.dot (R 0) (fun _ => b) = 0 + R 0 0 * b := rfl
  have e2 : FNum.dot (fun j => (R 0 j).abs) (fun _ => b.abs) = 0 + (R 0 0).abs * b.abs := rfl
  rw [e1, e2]
  split_ifs with h
  · exfalso
    rw [FNum.lt_iff, FNum.val_abs hp, FNum.val_mul_epsilon hp, hadd, hadd, FNum.val_mul, FNum.val_mul, FNum.val_abs hp, FNum.val_abs hp, ← abs_mul] at h
    have h1 : Fl.rnd p |(R 0 0).val * b.val| = |Fl.rnd p ((R 0 0).val * b.val)| := by
      rcases le_total 0 ((R 0 0).val * b.val) with h0 | h0
      · rw [abs_of_nonneg h0, abs_of_nonneg (Fl.rnd_nonneg h0)]
      · rw [abs_of_nonpos h0, Fl.rnd_neg]
        have := Fl.rnd_nonneg (p := p) (x := -((R 0 0).val * b.val)) (by linarith)
        rw [Fl.rnd_neg] at this
        rw [abs_of_nonpos (by linarith)]
    rw [h1] at h
    have h2 : 2 * FNum.unit p ≤ 1 := by
      unfold FNum.unit
      rw [mul_one_div, div_le_one (by positivity)]
      calc (2 : ℚ) = 2 ^ 1 := by norm_num
        _ ≤ 2 ^ p := pow_le_pow_right₀ (by norm_num) hp
    have := abs_nonneg (Fl.rnd p ((R 0 0).val * b.val))
    nlinarith
  · exact hadd _ _

/-- The canonical residual at `u`. -/
theorem awbs_val (hp : 0 < p) (u : MVec (FNum p) 1 0 1) : (P.eval u).awbs.val = Fl.rnd p (Fl.rnd p ((P.R 0 0).val * P.b.val) - (u.x 0).val) := by
  change (FNum.multiplyClean P.R (fun _ => P.b) 0 - u.x 0).val = _
  rw [FNum.val_sub, multiplyClean_one hp, FNum.val_mul]

/-- The final state of a solve holds the residuals at the final iterate. -/
theorem final_eval (o : SolveOptions (FNum p)) (mach : OneState p) (history : History (FNum p)) (u : MVec (FNum p) 1 0 1) {t} (h : Solve P.machine o bounds mach history u (some t)) : t.mach = P.eval t.u := by
  obtain ⟨s, n, t0, t1, -, -, g2, g3, -⟩ := (solve_budget P.machine o bounds mach history u).2 t h
  have h1 : t1.mach = P.eval t1.u := by
    unfold step at g2
    dsimp only [machine, transform] at g2
    unfold errorControl at g2
    dsimp only at g2
    rcases hv : backtrack o.debug o.minmax bounds t0.uo (P.newton t0.mach t0.uo) with _ | v
    · rw [hv] at g2; cases g2
    · rw [hv] at g2
      dsimp only [evalAt] at g2
      cases g2
      rfl
  have h2 : t.u = t1.u ∧ t.mach = t1.mach := by
    unfold stepping at g3
    dsimp only [machine] at g3
    split_ifs at g3 with hi
    · cases g3; exact ⟨rfl, rfl⟩
    · split at g3 <;> simp only [Option.some.injEq, Prod.mk.injEq] at g3 <;> obtain ⟨rfl, -⟩ := g3 <;> exact ⟨rfl, rfl⟩
  rw [h2.1, h2.2, h1]

/-- **C68, consequence**: whatever the objective function, the right-hand side, the options and the start, if the solve succeeds then `x` is within `2·tolerance` of the product of the changed `R` and `b`.  This product
    is `b/a` only up to the change of `R`. -/
theorem one_success (hp : 0 < p) (o : SolveOptions (FNum p)) (mach : OneState p) (history : History (FNum p)) (u : MVec (FNum p) 1 0 1) {t} (h : Solve P.machine o bounds mach history u (some t))
    (hsucc : (solveResult o t).succeeded = true) : |Fl.rnd p ((P.R 0 0).val * P.b.val) - (t.u.x 0).val| < 2 * o.tolerance.val := by
  rcases success_converged P.machine o bounds mach history u t h hsucc with he | ⟨t1, -, -, hc⟩
  · have he' : max t.mach.ax.abs t.mach.awbs.abs < o.tolerance := he
    have h1 := (max_lt_iff.1 he').2
    rw [FNum.lt_iff, FNum.val_abs hp, P.final_eval o mach history u h, awbs_val P hp] at h1
    set z := Fl.rnd p ((P.R 0 0).val * P.b.val) - (t.u.x 0).val
    have h2 := Fl.rnd_error p z
    have h3 : |z| / 2 ^ p ≤ |z| / 2 := by
      refine div_le_div_of_nonneg_left (abs_nonneg _) (by norm_num) ?_
      calc (2 : ℚ) = 2 ^ 1 := by norm_num
        _ ≤ 2 ^ p := pow_le_pow_right₀ (by norm_num) hp
    have h4 : |z| ≤ |Fl.rnd p z| + |Fl.rnd p z - z| := by
      calc |z| = |Fl.rnd p z - (Fl.rnd p z - z)| := by congr 1; ring
        _ ≤ _ := abs_sub _ _
    linarith
  · obtain ⟨f, t', hf, -⟩ := hc
    cases hf

/-! ### The iterations -/

theorem backtrack_free (hp : 0 < p) (debug minmax : Bool) (uo u : MVec (FNum p) 1 0 1) : ∃ v, backtrack debug minmax bounds uo u = some v ∧ v.x 0 = u.x 0 ∧ v.w 0 = u.w 0 := by
  have hin : insideB (bounds : Bounds (FNum p) 1 0) uo = true := by simp [insideB, bounds, leUpper, geLower]
  have hb : ∀ c d : FNum p, c * (1 - 1) + 1 * d = d := by
    intro c d
    apply FNum.val_injective
    rw [FNum.val_add, FNum.val_mul, FNum.val_mul, FNum.val_sub, FNum.val_one hp, sub_self, Fl.rnd_zero, mul_zero, Fl.rnd_zero, one_mul, zero_add, FNum.rnd_val hp, FNum.rnd_val hp]
  have hbeta : betaMin bounds uo u = 1 := by
    change betaStep none none (uo.x 0) (u.x 0) 1 = 1
    unfold betaStep
    simp [above, below]
  unfold backtrack
  rw [hin]
  simp only [Bool.not_true, Bool.and_false, Bool.false_eq_true, if_false]
  cases minmax
  · refine ⟨_, rfl, ?_, ?_⟩
    · change uo.x 0 * (1 - betaMin bounds uo u) + betaMin bounds uo u * u.x 0 = _
      rw [hbeta, hb]
    · change uo.w 0 * (1 - betaMin bounds uo u) + betaMin bounds uo u * u.w 0 = _
      rw [hbeta, hb]
  · exact ⟨_, rfl, rfl, rfl⟩

/-- If the point reached by the first Newton step has an error below the tolerance, the solve returns it after one iteration. -/
theorem one_step_solve (hp : 0 < p) {o : SolveOptions (FNum p)} (hm : 1 ≤ o.maxiters) (mach : OneState p) (history : History (FNum p)) (u : MVec (FNum p) 1 0 1)
    (h : ∀ v : MVec (FNum p) 1 0 1, v.x 0 = (P.newton (P.eval u) u).x 0 → v.w 0 = (P.newton (P.eval u) u).w 0 → error (P.eval v) < o.tolerance) :
    ∃ t, (∀ r, Solve P.machine o bounds mach history u r ↔ r = some t) ∧ (solveResult o t).succeeded = true ∧ (solveResult o t).iterations = 1 ∧
      t.u.x 0 = (P.newton (P.eval u) u).x 0 ∧ t.u.w 0 = (P.newton (P.eval u) u).w 0 := by
  obtain ⟨v, hv, hx, hw⟩ := backtrack_free hp o.debug o.minmax u (P.newton (P.eval u) u)
  have hcl : clampVec bounds u = u := rfl
  have hinit : solveInit P.machine bounds mach history u = some { mach := P.eval u, u := u, uo := u, iterations := 0, history := history.init, trace := [u] } := rfl
  let s1 : SolveState (OneState p) (FNum p) 1 0 1 := { mach := P.eval v, u := v, uo := u, iterations := 1, history := history.init, trace := [v, u] }
  have hstep : step P.machine o bounds { mach := P.eval u, u := u, uo := u, iterations := 0, history := history.init, trace := [u] } = some s1 := by
    unfold step
    dsimp only [machine, transform]
    unfold errorControl
    dsimp only
    rw [hv]
    rfl
  have hst : stepping P.machine o s1 = some ({ s1 with history := s1.history.update (error (P.eval v)), uo := v }, false) := by
    unfold stepping
    dsimp only
    rw [if_neg (by change ¬ (o.maxiters < 1); omega)]
    have : (History.update s1.history (P.machine.error s1.mach)).converged o.tolerance = some true := by
      have := h v hx hw
      simp [History.converged, History.update, machine, s1, this]
    rw [this]
    rfl
  have hs : Solve P.machine o bounds mach history u (some { s1 with history := s1.history.update (error (P.eval v)), uo := v }) := .run _ _ hinit (.stop _ _ _ hstep hst)
  refine ⟨_, fun r => ⟨fun hr => ?_, fun e => e ▸ hs⟩, ?_, rfl, hx, hw⟩
  · obtain ⟨⟨r0, -, h1⟩, -⟩ := solve_budget P.machine o bounds mach history u
    rw [h1 r hr, h1 _ hs]
  · simpa [solveResult, s1] using hm

/-- The Newton step when `R` has become zero: `x` goes to zero and the multiplier stays, from every point. -/
theorem newton_lost (hp : 0 < p) (hR : (P.R 0 0).val = 0) (s : OneState p) (u : MVec (FNum p) 1 0 1) (hs : s.awbs = (P.eval u).awbs) : (P.newton s u).x 0 = 0 ∧ (P.newton s u).w 0 = u.w 0 := by
  constructor
  · apply FNum.val_injective
    change (u.x 0 + s.awbs).val = _
    rw [hs, FNum.val_add, awbs_val P hp, hR, zero_mul, Fl.rnd_zero, zero_sub, Fl.rnd_neg, FNum.rnd_val hp, add_neg_cancel, Fl.rnd_zero, FNum.val_zero]
  · apply FNum.val_injective
    change (u.w 0 + (0 + P.R 0 0 * (s.ax - s.h * s.awbs))).val = _
    rw [FNum.val_add, FNum.val_add, FNum.val_mul, hR, zero_mul, Fl.rnd_zero, FNum.val_zero, add_zero, Fl.rnd_zero, add_zero, FNum.rnd_val hp]

/-- The errors at `x = 0` when `R` has become zero. -/
theorem eval_lost (hp : 0 < p) (hR : (P.R 0 0).val = 0) (v : MVec (FNum p) 1 0 1) (hx : v.x 0 = 0) : (P.eval v).awbs.val = 0 ∧ (P.eval v).ax = -(P.g 0 + P.a * v.w 0) := by
  refine ⟨?_, ?_⟩
  · rw [awbs_val P hp, hR, hx, zero_mul, Fl.rnd_zero, FNum.val_zero, sub_zero, Fl.rnd_zero]
  · change -(P.g (v.x 0) + P.a * v.w 0) = _
    rw [hx]

end OneProblem

/-! ## `double` -/

/-- **C68 is false**: in `double` arithmetic, for all `A = [a]` with `|a| ≥ 10⁸` the matrix `R` with `R·a = 1` becomes zero, so `R·A = 0`. -/
theorem echelon_lost (P : OneProblem 53) (ha : 10 ^ 8 ≤ |P.a.val|) : (P.R 0 0).val = 0 ∧ (P.R 0 0).val * P.a.val = 0 := by
  have : (P.R 0 0).val = 0 := by
    refine P.R_lost (by norm_num) ?_
    rw [← sq_abs]
    have : (10 ^ 8 : ℚ) ^ 2 ≤ |P.a.val| ^ 2 := pow_le_pow_left₀ (by norm_num) ha 2
    norm_num at this ⊢
    linarith
  exact ⟨this, by rw [this, zero_mul]⟩

/-- **C68, consequence**: in `double` arithmetic, for every constraint `a·x = b` with `|a| ≥ 10⁸`, every objective function with `f'(0) = 0` and every start `x` with multiplier zero, the solve returns `x = 0` after one iteration and reports
    success, for every right-hand side `b` and every positive tolerance.  The constraint is violated by `|b|`.  (Also if the start is the solution.) -/
theorem double_wrong_success (P : OneProblem 53) (ha : 10 ^ 8 ≤ |P.a.val|) (hg : P.g 0 = 0) {o : SolveOptions Double} (hm : 1 ≤ o.maxiters) (htol : 0 < o.tolerance.val) (mach : OneState 53) (history : History Double)
    (u : MVec Double 1 0 1) (hu : u.w 0 = 0) :
    ∃ t, (∀ r, Solve P.machine o OneProblem.bounds mach history u r ↔ r = some t) ∧ (solveResult o t).succeeded = true ∧ (solveResult o t).iterations = 1 ∧ (t.u.x 0).val = 0 ∧
      |P.a.val * (t.u.x 0).val - P.b.val| = |P.b.val| := by
  have hp : 0 < 53 := by norm_num
  have hR := (echelon_lost P ha).1
  obtain ⟨h1, h2⟩ := P.newton_lost hp hR (P.eval u) u rfl
  obtain ⟨t, g1, g2, g3, g4, g5⟩ := P.one_step_solve hp hm mach history u (fun v hx hw => by
    obtain ⟨e1, e2⟩ := P.eval_lost hp hR v (hx.trans h1)
    have hz : ∀ c : Double, c.val = 0 → c.abs.val = 0 := fun c hc => by rw [FNum.val_abs hp, hc, abs_zero]
    have e3 : (P.eval v).ax.val = 0 := by
      rw [e2, hg, hw, h2, hu, FNum.val_neg hp, FNum.val_add, FNum.val_mul, FNum.val_zero, mul_zero, Fl.rnd_zero, add_zero, Fl.rnd_zero, neg_zero]
    change max (P.eval v).ax.abs (P.eval v).awbs.abs < _
    rw [max_lt_iff, FNum.lt_iff, FNum.lt_iff, hz _ e3, hz _ e1]
    exact ⟨htol, htol⟩)
  have hx : (t.u.x 0).val = 0 := by rw [g4, h1, FNum.val_zero]
  exact ⟨t, g1, g2, g3, hx, by rw [hx, mul_zero, zero_sub, abs_neg]⟩

/-- **C68, consequence**: if instead the gradient of the Lagrange function at `x = 0` is not below the tolerance with the initial multiplier, the solve fails, for every limit of iterations, every right-hand side and every start `x`: the multiplier
    is never changed. -/
theorem double_never (P : OneProblem 53) (ha : 10 ^ 8 ≤ |P.a.val|) {o : SolveOptions Double} (mach : OneState 53) (history : History Double) (u : MVec Double 1 0 1) (hu : o.tolerance ≤ (-(P.g 0 + P.a * u.w 0)).abs) :
    ∃ t, (∀ r, Solve P.machine o OneProblem.bounds mach history u r ↔ r = some t) ∧ (solveResult o t).succeeded = false ∧ (solveResult o t).iterations = o.maxiters + 1 ∧ t.u.x 0 = 0 ∧ t.u.w 0 = u.w 0 := by
  have hp : 0 < 53 := by norm_num
  have hR := (echelon_lost P ha).1
  exact machine_never_state (m := P.machine) (o := o) (B := OneProblem.bounds) rfl rfl (fun s v => s.awbs = (P.eval v).awbs ∧ v.w 0 = u.w 0) (fun v => v.x 0 = 0 ∧ v.w 0 = u.w 0)
    (fun s uo hI => by
      obtain ⟨h1, h2⟩ := P.newton_lost hp hR s uo hI.1
      obtain ⟨v, hv, hx, hw⟩ := OneProblem.backtrack_free hp o.debug o.minmax uo (P.newton s uo)
      have hvx := hx.trans h1
      have hvw := (hw.trans h2).trans hI.2
      obtain ⟨e1, e2⟩ := P.eval_lost hp hR v hvx
      refine ⟨s, _, v, P.eval v, rfl, hv, rfl, ?_, ⟨rfl, hvw⟩, hvx, hvw⟩
      change o.tolerance ≤ max (P.eval v).ax.abs (P.eval v).awbs.abs
      rw [e2, hvw]
      exact hu.trans (le_max_left _ _))
    mach history u ⟨_, rfl, rfl, rfl⟩

/-- The feasibility problem `a·x = b` (`f = 0`). -/
def feasibility (a b : Double) : OneProblem 53 := { a := a, b := b, g := fun _ => 0, h := fun _ => 0, implicit := fun _ => by decide +kernel }

/-- **C68 is false for numbers of moderate size as well**: for `A = [1.1·10⁷]` the change makes `R` too large by 31 per cent, so that `R·A` is `1.31…` instead of `1`. -/
theorem echelon_distorted : ((feasibility (.fl 11000000) (.fl 11000000)).R 0 0).val = 1 / 2 ^ 23 ∧ (13 : ℚ) / 10 < ((feasibility (.fl 11000000) (.fl 11000000)).R 0 0).val * 11000000 := by
  have : ((feasibility (.fl 11000000) (.fl 11000000)).R 0 0).val = 1 / 2 ^ 23 := by decide +kernel
  exact ⟨this, by rw [this]; norm_num⟩

/-- **C68, consequence**: for `1.1·10⁷·x = 1.1·10⁷`, started at the solution `x = 1`, the solve leaves it and reports success at `x = 1.311…` after one iteration, for every positive tolerance. -/
theorem double_wrong_solution {o : SolveOptions Double} (hm : 1 ≤ o.maxiters) (htol : 0 < o.tolerance.val) (mach : OneState 53) (history : History Double) (u : MVec Double 1 0 1) (hx : u.x 0 = 1) (hw : u.w 0 = 0) :
    ∃ t, (∀ r, Solve (feasibility (.fl 11000000) (.fl 11000000)).machine o OneProblem.bounds mach history u r ↔ r = some t) ∧ (solveResult o t).succeeded = true ∧ (solveResult o t).iterations = 1 ∧
      (t.u.x 0).val = 11000000 / 2 ^ 23 := by
  have hn : ((feasibility (.fl 11000000) (.fl 11000000)).newton ((feasibility (.fl 11000000) (.fl 11000000)).eval u) u).x 0 = .fl (11000000 / 2 ^ 23) ∧
      ((feasibility (.fl 11000000) (.fl 11000000)).newton ((feasibility (.fl 11000000) (.fl 11000000)).eval u) u).w 0 = 0 := by
    dsimp only [OneProblem.newton, OneProblem.eval]
    rw [hx, hw]
    constructor <;> decide +kernel
  obtain ⟨t, g1, g2, g3, g4, -⟩ := (feasibility (.fl 11000000) (.fl 11000000)).one_step_solve (by norm_num) hm mach history u (fun v hvx hvw => by
    have e : OneProblem.error ((feasibility (.fl 11000000) (.fl 11000000)).eval v) = 0 := by
      dsimp only [OneProblem.error, OneProblem.eval]
      rw [hvx, hvw, hn.1, hn.2]
      decide +kernel
    rw [e, FNum.lt_iff, FNum.val_zero]
    exact htol)
  exact ⟨t, g1, g2, g3, by rw [g4, hn.1]; decide +kernel⟩

/-! ## The hypotheses are met -/

/-- `10⁸·x = 10⁸`, started at the solution `x = 1`: the solve returns zero. -/
example (mach : OneState 53) (history : History Double) :
    ∃ t, (∀ r, Solve (feasibility (.fl (10 ^ 8)) (.fl (10 ^ 8))).machine { maxiters := 200, tolerance := .fl (1 / 10 ^ 8), minmax := false, debug := false } OneProblem.bounds mach history ⟨fun _ => 1, fun _ => 0, fun _ => 0⟩ r ↔ r = some t) ∧
      (solveResult (K := Double) { maxiters := 200, tolerance := .fl (1 / 10 ^ 8), minmax := false, debug := false } t).succeeded = true ∧ (t.u.x 0).val = 0 := by
  obtain ⟨t, h1, h2, -, h3, -⟩ := double_wrong_success (feasibility (.fl (10 ^ 8)) (.fl (10 ^ 8))) (by change (10 : ℚ) ^ 8 ≤ |(FNum.fl (10 ^ 8) : Double).val|; decide +kernel) rfl
    (o := { maxiters := 200, tolerance := .fl (1 / 10 ^ 8), minmax := false, debug := false }) (by norm_num) (by decide +kernel) mach history ⟨fun _ => 1, fun _ => 0, fun _ => 0⟩ rfl
  exact ⟨t, h1, h2, h3⟩

/-- `min x` subject to `10⁸·x = 1`: the multiplier stays zero and the solve fails. -/
def linearOne : OneProblem 53 := { a := .fl (10 ^ 8), b := 1, g := fun _ => 1, h := fun _ => 0, implicit := fun _ => by decide +kernel }

example : 10 ^ 8 ≤ |linearOne.a.val| ∧ (.fl (1 / 10 ^ 8) : Double) ≤ (-(linearOne.g 0 + linearOne.a * 0)).abs := by
  constructor
  · change (10 : ℚ) ^ 8 ≤ |(FNum.fl (10 ^ 8) : Double).val|
    decide +kernel
  · decide +kernel

/-- An entry that is lost, and one that is kept. -/
example : (FNum.cleanSigma (p := 53) (.fl 1000) ![![.fl (1 / 10 ^ 14), .fl 7]] 0 0).val = 0 ∧ (FNum.cleanSigma (p := 53) (.fl 1000) ![![.fl (1 / 10 ^ 14), .fl 7]] 0 1).val = 7 := by decide +kernel

/-- A matrix of which `R` is lost: `A = 10⁸·I`, `R = 10⁻⁸·I`. -/
example : (∀ i j, (FNum.cleanSigma (FNum.sigma ![![(.fl (10 ^ 8) : Double), 0], ![0, .fl (10 ^ 8)]]) ![![.fl (1 / 10 ^ 8), 0], ![0, .fl (1 / 10 ^ 8)]] i j).val = 0) := by decide +kernel

/-- `sigma` of a usual formula matrix: the round-off error `10⁻¹⁴` is removed and nothing else is changed. -/
example : (FNum.sigma ![![(.fl 2 : Double), 1, 0], ![1, 0, .fl (-3)]]).val = 100 ∧
    (fun i j => (FNum.cleanSigma (.fl 100 : Double) ![![.fl (1 / 2), .fl (1 / 10 ^ 15)], ![.fl (1 / 4), .fl (-3 / 4)]] i j).val) = ![![1 / 2, 0], ![1 / 4, -3 / 4]] := by decide +kernel

end Optima
