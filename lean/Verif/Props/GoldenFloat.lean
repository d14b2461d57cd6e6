import Verif.Model.GoldenFloat
import Verif.Lemmas.FloatGap
import Verif.Lemmas.Tactics
import Verif.Props.Golden
import Verif.Props.BrentFloat

/-! # Property C78: golden section search in double arithmetic

The truncation of the golden ratio and the rounding errors move the inner points away from their ideal positions.  The invariant bounds the drift by `2.36e-13 + 3 k 2⁻⁵³` after `k` iterations; the loop ends within 100 iterations. -/

set_option linter.unusedSectionVars false

namespace Optima.Golden.Num

open Optima.Brent.Num (fabs two val_fabs val_two val_half rnd_pos)

/-- The golden ratio of the code as a rational number. -/
abbrev φ : ℚ := 5566755282873603 / 9007199254740992

/-- `φ² + φ - 1` -/
abbrev δ : ℚ := φ * φ + φ - 1

/-- Three units of rounding of numbers in [0, 1]. -/
abbrev η : ℚ := 3 / 2 ^ 53

theorem val_phi : phiD.val = φ := by decide +kernel

/-- The drift of the inner points. -/
def Drift (k : ℕ) (a b c d : ℚ) : Prop :=
  (|c - (b - φ * (b - a))| ≤ η ∧ -δ - k * η ≤ d - (a + φ * (b - a)) ∧ d - (a + φ * (b - a)) ≤ δ * (1 - (b - a)) + k * η) ∨
    (|d - (a + φ * (b - a))| ≤ η ∧ -δ - k * η ≤ (b - φ * (b - a)) - c ∧ (b - φ * (b - a)) - c ≤ δ * (1 - (b - a)) + k * η)

theorem k_small {k : ℕ} {x : ℚ} (hx : 3 / 10 ^ 12 < x) (h : x ≤ (3 / 4) ^ k) : k < 100 := by
  by_contra hc
  have : ((3 : ℚ) / 4) ^ k ≤ (3 / 4) ^ 100 := pow_le_pow_of_le_one (by norm_num) (by norm_num) (not_lt.1 hc)
  have h2 : ((3 : ℚ) / 4) ^ 100 ≤ 3 / 10 ^ 12 := by norm_num
  linarith

/-- While the loop continues, the inner points are ordered and well inside the bracket. -/
theorem ordered {k : ℕ} {a b c d : ℚ} (hk : k ≤ 100) (h0 : 0 ≤ a) (h1 : b ≤ 1) (hab : a < b) (h : Drift k a b c d) (hc : 99 / 10 ^ 14 ≤ |c - d|) :
    c < d ∧ 3 / 10 ^ 12 < b - a ∧ d - a ≤ 3 / 4 * (b - a) ∧ b - c ≤ 3 / 4 * (b - a) ∧ 1 / 2 * (b - a) ≤ d - a ∧ 1 / 2 * (b - a) ≤ b - c ∧ 1 / 10 * (b - a) ≤ d - c := by
  have hkq : (k : ℚ) * η ≤ 100 * η := mul_le_mul_of_nonneg_right (by exact_mod_cast hk) (by norm_num)
  have hk0 : 0 ≤ (k : ℚ) * η := by positivity
  unfold Drift at h
  generalize (k : ℚ) * η = q at *
  rcases h with ⟨e1, e2, e3⟩ | ⟨e1, e2, e3⟩ <;> obtain ⟨e4, e5⟩ := abs_le.1 e1 <;> norm_num at * <;>
    rcases abs_cases (c - d) with ⟨hh, -⟩ | ⟨hh, -⟩ <;> rw [hh] at hc
  · exfalso; linarith
  · refine ⟨?_, ?_, ?_, ?_, ?_, ?_, ?_⟩ <;> linarith
  · exfalso; linarith
  · refine ⟨?_, ?_, ?_, ?_, ?_, ?_, ?_⟩ <;> linarith

theorem drift_left {k : ℕ} {a b c d c' : ℚ} (hk : k ≤ 100) (h0 : 0 ≤ a) (h1 : b ≤ 1) (hab : a < b) (h : Drift k a b c d) (hd : d - a ≤ 3 / 4 * (b - a)) (hc' : |c' - (d - φ * (d - a))| ≤ η) : Drift (k + 1) a d c' c := by
  have hk0 : 0 ≤ (k : ℚ) * η := by positivity
  left
  refine ⟨hc', ?_⟩
  unfold Drift at h
  push_cast
  rw [add_mul, one_mul]
  generalize (k : ℚ) * η = q at *
  rcases h with ⟨e1, e2, e3⟩ | ⟨e1, e2, e3⟩ <;> obtain ⟨e4, e5⟩ := abs_le.1 e1 <;> norm_num at * <;> constructor <;> linarith

theorem drift_right {k : ℕ} {a b c d d' : ℚ} (hk : k ≤ 100) (h0 : 0 ≤ a) (h1 : b ≤ 1) (hab : a < b) (h : Drift k a b c d) (hd : b - c ≤ 3 / 4 * (b - a)) (hd' : |d' - (c + φ * (b - c))| ≤ η) : Drift (k + 1) c b d d' := by
  have hk0 : 0 ≤ (k : ℚ) * η := by positivity
  right
  refine ⟨hd', ?_⟩
  unfold Drift at h
  push_cast
  rw [add_mul, one_mul]
  generalize (k : ℚ) * η = q at *
  rcases h with ⟨e1, e2, e3⟩ | ⟨e1, e2, e3⟩ <;> obtain ⟨e4, e5⟩ := abs_le.1 e1 <;> norm_num at * <;> constructor <;> linarith

/-- The rounding errors of a new point. -/
theorem scaled {a b : ℚ} (h0 : 0 ≤ a) (hab : a ≤ b) (h1 : b ≤ 1) : |Fl.rnd 53 (φ * Fl.rnd 53 (b - a)) - φ * (b - a)| ≤ 3 / 2 / 2 ^ 53 ∧ 0 ≤ Fl.rnd 53 (φ * Fl.rnd 53 (b - a)) := by
  have hn : 0 ≤ Fl.rnd 53 (b - a) := Fl.rnd_nonneg (by linarith)
  have hm : 0 ≤ φ * Fl.rnd 53 (b - a) := mul_nonneg (by norm_num) hn
  refine ⟨?_, Fl.rnd_nonneg hm⟩
  have e1 := Fl.rnd_error 53 (b - a)
  have e2 := Fl.rnd_error 53 (φ * Fl.rnd 53 (b - a))
  rw [abs_of_nonneg (by linarith : 0 ≤ b - a)] at e1
  rw [abs_of_nonneg hm] at e2
  rw [abs_le] at *
  generalize Fl.rnd 53 (φ * Fl.rnd 53 (b - a)) = r at *
  generalize Fl.rnd 53 (b - a) = t at *
  norm_num at *
  constructor <;> linarith

theorem fresh_down {a b : ℚ} (h0 : 0 ≤ a) (hab : a ≤ b) (h1 : b ≤ 1) : |Fl.rnd 53 (b - Fl.rnd 53 (φ * Fl.rnd 53 (b - a))) - (b - φ * (b - a))| ≤ η := by
  obtain ⟨e, hr⟩ := scaled h0 hab h1
  generalize Fl.rnd 53 (φ * Fl.rnd 53 (b - a)) = r at *
  have e2 := Fl.rnd_error 53 (b - r)
  have e3 : |b - r| ≤ 1 := by
    rw [abs_le] at *
    norm_num at *
    constructor <;> linarith
  generalize Fl.rnd 53 (b - r) = t at *
  generalize |b - r| = w at *
  rw [abs_le] at *
  norm_num at *
  constructor <;> linarith

theorem fresh_up {a b : ℚ} (h0 : 0 ≤ a) (hab : a ≤ b) (h1 : b ≤ 1) : |Fl.rnd 53 (a + Fl.rnd 53 (φ * Fl.rnd 53 (b - a))) - (a + φ * (b - a))| ≤ η := by
  obtain ⟨e, hr⟩ := scaled h0 hab h1
  generalize Fl.rnd 53 (φ * Fl.rnd 53 (b - a)) = r at *
  have e2 := Fl.rnd_error 53 (a + r)
  have e3 : |a + r| ≤ 3 / 2 := by
    rw [abs_le] at *
    norm_num at *
    constructor <;> linarith
  generalize Fl.rnd 53 (a + r) = t at *
  generalize |a + r| = w at *
  rw [abs_le] at *
  norm_num at *
  constructor <;> linarith

/-- Loop invariant after `k` iterations. -/
structure InvD (k : ℕ) (g : St Double) : Prop where
  a0 : 0 ≤ g.a.val
  b1 : g.b.val ≤ 1
  long : 1 / 10 ^ 12 ≤ g.b.val - g.a.val
  short : g.b.val - g.a.val ≤ (3 / 4) ^ k
  hk : k ≤ 100
  drift : Drift k g.a.val g.b.val g.c.val g.d.val
  inside : ∀ y ∈ g.log, 0 ≤ y.val ∧ y.val ≤ 1 - 1 / 10 ^ 13
  count : g.log.length = k + 2

/-- What a continued loop means for the exact values. -/
theorem test {tol c d : Double} (ht : 1 / 10 ^ 12 ≤ tol.val) : (tol < fabs (c - d) → 99 / 10 ^ 14 ≤ |c.val - d.val|) ∧ (¬ tol < fabs (c - d) → |c.val - d.val| ≤ 101 / 100 * tol.val) := by
  have e := Fl.rnd_error 53 (c.val - d.val)
  have e1 := abs_abs_sub_abs_le (Fl.rnd 53 (c.val - d.val)) (c.val - d.val)
  rw [FNum.lt_iff, val_fabs (by norm_num), FNum.val_sub]
  generalize |Fl.rnd 53 (c.val - d.val)| = r at *
  have e2 := e1.trans e
  have h0 := abs_nonneg (c.val - d.val)
  generalize |c.val - d.val| = w at *
  rw [abs_le] at e2
  norm_num at *
  constructor <;> intro h <;> linarith

/-- The facts about a state whose loop continues. -/
theorem InvD.cont {k : ℕ} {g : St Double} (h : InvD k g) (hc : 99 / 10 ^ 14 ≤ |g.c.val - g.d.val|) :
    g.c.val < g.d.val ∧ 3 / 10 ^ 12 < g.b.val - g.a.val ∧ g.d.val - g.a.val ≤ 3 / 4 * (g.b.val - g.a.val) ∧ g.b.val - g.c.val ≤ 3 / 4 * (g.b.val - g.a.val) ∧ 1 / 2 * (g.b.val - g.a.val) ≤ g.d.val - g.a.val ∧ 1 / 2 * (g.b.val - g.a.val) ≤ g.b.val - g.c.val ∧ 1 / 10 * (g.b.val - g.a.val) ≤ g.d.val - g.c.val ∧ k < 100 := by
  have hl := h.long
  obtain ⟨o1, o2, o3, o4, o5, o6, o7⟩ := ordered h.hk h.a0 h.b1 (by norm_num at hl; linarith) h.drift hc
  exact ⟨o1, o2, o3, o4, o5, o6, o7, k_small o2 h.short⟩

theorem InvD.next_inside {k : ℕ} {g : St Double} (h : InvD k g) (hc : 99 / 10 ^ 14 ≤ |g.c.val - g.d.val|) : 0 ≤ (next phiD g).val ∧ (next phiD g).val ≤ 1 - 1 / 10 ^ 13 := by
  obtain ⟨o1, o2, o3, o4, o5, o6, -, -⟩ := h.cont hc
  have := h.a0; have := h.b1
  unfold next
  split_ifs
  · rw [FNum.val_sub, FNum.val_mul, FNum.val_sub, val_phi]
    have e := fresh_down (a := g.a.val) (b := g.d.val) (by linarith) (by norm_num at *; linarith) (by norm_num at *; linarith)
    rw [abs_le] at e
    generalize Fl.rnd 53 (g.d.val - Fl.rnd 53 (φ * Fl.rnd 53 (g.d.val - g.a.val))) = r at *
    norm_num at *
    constructor <;> linarith
  · rw [FNum.val_add, FNum.val_mul, FNum.val_sub, val_phi]
    have e := fresh_up (a := g.c.val) (b := g.b.val) (by norm_num at *; linarith) (by norm_num at *; linarith) (by norm_num at *; linarith)
    rw [abs_le] at e
    generalize Fl.rnd 53 (g.c.val + Fl.rnd 53 (φ * Fl.rnd 53 (g.b.val - g.c.val))) = r at *
    norm_num at *
    constructor <;> linarith

theorem InvD.absorb {k : ℕ} {g : St Double} (h : InvD k g) (hc : 99 / 10 ^ 14 ≤ |g.c.val - g.d.val|) (y : Double) : InvD (k + 1) (absorb phiD g y) := by
  obtain ⟨o1, o2, o3, o4, o5, o6, -, o7⟩ := h.cont hc
  have hin := h.next_inside hc
  have h0 := h.a0; have h1 := h.b1; have hs := h.short; have hl := h.long
  have hlog : ∀ z ∈ next phiD g :: g.log, 0 ≤ z.val ∧ z.val ≤ 1 - 1 / 10 ^ 13 := by
    intro z hz
    rcases List.mem_cons.1 hz with rfl | hz
    exacts [hin, h.inside z hz]
  unfold Num.absorb
  by_cases hlt : g.fc < g.fd
  · rw [if_pos hlt]
    refine ⟨h0, by dsimp only; norm_num at *; linarith, by dsimp only; norm_num at *; linarith, by dsimp only; rw [pow_succ]; linarith, o7, ?_, hlog, by simp [h.count]⟩
    dsimp only
    refine drift_left h.hk h0 h1 (by norm_num at *; linarith) h.drift o3 ?_
    unfold next
    rw [if_pos hlt, FNum.val_sub, FNum.val_mul, FNum.val_sub, val_phi]
    exact fresh_down (by linarith) (by norm_num at *; linarith) (by norm_num at *; linarith)
  · rw [if_neg hlt]
    refine ⟨by dsimp only; norm_num at *; linarith, h1, by dsimp only; norm_num at *; linarith, by dsimp only; rw [pow_succ]; linarith, o7, ?_, hlog, by simp [h.count]⟩
    dsimp only
    refine drift_right h.hk h0 h1 (by norm_num at *; linarith) h.drift o4 ?_
    unfold next
    rw [if_neg hlt, FNum.val_add, FNum.val_mul, FNum.val_sub, val_phi]
    exact fresh_up (by norm_num at *; linarith) (by norm_num at *; linarith) (by norm_num at *; linarith)

variable {σ : Type*}

/-- The initial points. -/
theorem val_first : (1 - phiD : Double).val = 1 - φ ∧ fabs ((1 - phiD) - phiD : Double) = fabs (1 - phiD - phiD) := ⟨by decide +kernel, rfl⟩

theorem InvD.init (fc fd : Double) : InvD 0 { a := 0, b := 1, c := 1 - phiD, d := phiD, fc := fc, fd := fd, log := [phiD, 1 - phiD] } := by
  have h0 : (0 : Double).val = 0 := FNum.val_zero
  have h1 : (1 : Double).val = 1 := FNum.val_one (by norm_num)
  refine ⟨h0.ge, h1.le, by dsimp only; rw [h0, h1]; norm_num, by dsimp only; rw [h0, h1]; norm_num, by norm_num, ?_, ?_, rfl⟩
  · dsimp only
    rw [h0, h1, val_phi, val_first.1]
    left
    norm_num
  · intro y hy
    simp only [List.mem_cons, List.not_mem_nil, or_false] at hy
    rcases hy with rfl | rfl
    · rw [val_phi]; norm_num
    · rw [val_first.1]; norm_num

/-- What the loop guarantees for every function. -/
theorem loopM_spec (f : σ → Double → Option (σ × Double)) {tol : Double} (ht : 1 / 10 ^ 12 ≤ tol.val) (fuel : ℕ) (s : σ) (g : St Double) {k : ℕ} (h : InvD k g) (hf : 100 ≤ k + fuel) :
    (∃ t r k', loopM f phiD tol fuel s g = .ret t r r.log ∧ InvD k' r ∧ ¬ tol < fabs (r.c - r.d)) ∨
    (∃ log, loopM f phiD tol fuel s g = .threw log ∧ (∀ y ∈ log, 0 ≤ y.val ∧ y.val ≤ 1 - 1 / 10 ^ 13) ∧ log.length ≤ 102) := by
  induction fuel generalizing s g k with
  | zero =>
    unfold loopM
    split_ifs with hc
    · have := (h.cont ((test ht).1 hc)).2.2.2.2.2.2.2
      omega
    · exact .inl ⟨s, g, k, rfl, h, hc⟩
  | succ fuel ih =>
    unfold loopM
    split_ifs with hc
    · have hcont := (test ht).1 hc
      cases e : f s (next phiD g) with
      | none =>
        refine .inr ⟨_, rfl, ?_, ?_⟩
        · intro z hz
          rcases List.mem_cons.1 hz with rfl | hz
          exacts [h.next_inside hcont, h.inside z hz]
        · have := (h.cont hcont).2.2.2.2.2.2.2
          simp only [List.length_cons, h.count]
          omega
      | some r => exact ih r.1 _ (h.absorb hcont r.2) (by omega)
    · exact .inl ⟨s, g, k, rfl, h, hc⟩

/-- The midpoint of the last bracket. -/
theorem InvD.mid {k : ℕ} {g : St Double} (h : InvD k g) : 0 ≤ ((g.b + g.a) / two).val ∧ ((g.b + g.a) / two).val ≤ 1 - 1 / 10 ^ 13 ∧ |((g.b + g.a) / two).val - (g.a.val + g.b.val) / 2| ≤ 1 / 2 ^ 53 := by
  have h0 := h.a0; have h1 := h.b1; have hl := h.long
  rw [val_half (by norm_num), FNum.val_add]
  have e := Fl.rnd_error 53 (g.b.val + g.a.val)
  have hn := Fl.rnd_nonneg (p := 53) (x := g.b.val + g.a.val) (by norm_num at hl; linarith)
  rw [abs_of_nonneg (a := g.b.val + g.a.val) (by norm_num at hl; linarith)] at e
  generalize Fl.rnd 53 (g.b.val + g.a.val) = r at *
  rw [abs_le] at *
  norm_num at *
  refine ⟨?_, ?_, ?_, ?_⟩ <;> linarith

/-- The search on [0, 1] for every function. -/
theorem unit_spec (f : σ → Double → Option (σ × Double)) {tol : Double} (ht : 1 / 10 ^ 12 ≤ tol.val) {fuel : ℕ} (hf : 100 ≤ fuel) (s : σ) :
    (∃ t x log, goldenUnitM f phiD tol fuel s = .ret t x log ∧ (0 ≤ x.val ∧ x.val ≤ 1 - 1 / 10 ^ 13) ∧ (∀ y ∈ log, 0 ≤ y.val ∧ y.val ≤ 1 - 1 / 10 ^ 13) ∧ log.length ≤ 102) ∨
    (∃ log, goldenUnitM f phiD tol fuel s = .threw log ∧ (∀ y ∈ log, 0 ≤ y.val ∧ y.val ≤ 1 - 1 / 10 ^ 13) ∧ log.length ≤ 102) := by
  have hp : 0 ≤ phiD.val ∧ phiD.val ≤ 1 - 1 / 10 ^ 13 := by rw [val_phi]; norm_num
  have hq : 0 ≤ (1 - phiD : Double).val ∧ (1 - phiD : Double).val ≤ 1 - 1 / 10 ^ 13 := by rw [val_first.1]; norm_num
  unfold goldenUnitM
  split_ifs
  · refine .inl ⟨_, _, _, rfl, ?_, by simp, by simp⟩
    rw [show ((1 + 0) / two : Double).val = 1 / 2 by decide +kernel]
    norm_num
  · cases e1 : f s (1 - phiD) with
    | none => exact .inr ⟨_, rfl, by simpa using hq, by simp⟩
    | some r1 =>
      dsimp only
      cases e2 : f r1.1 phiD with
      | none =>
        refine .inr ⟨_, rfl, fun y hy => ?_, by simp⟩
        simp only [List.mem_cons, List.not_mem_nil, or_false] at hy
        rcases hy with rfl | rfl
        exacts [hp, hq]
      | some r2 =>
        dsimp only
        rcases loopM_spec f ht fuel r2.1 _ (InvD.init r1.2 r2.2) (by omega) with ⟨t, r, k', e3, hi, hc⟩ | ⟨log, e3, hi, hlen⟩
        · rw [e3]
          refine .inl ⟨_, _, _, rfl, ⟨hi.mid.1, hi.mid.2.1⟩, hi.inside, ?_⟩
          rw [hi.count]
          have := hi.hk
          omega
        · rw [e3]
          exact .inr ⟨_, rfl, hi, hlen⟩

/-- Points of [0, 1] that are not too close to 1 are mapped into [a, b], with rounding. -/
theorem lift {a b x : Double} (hab : a ≤ b) (h : 0 ≤ x.val ∧ x.val ≤ 1 - 1 / 10 ^ 13) : a ≤ a + x * (b - a) ∧ a + x * (b - a) ≤ b := by
  rw [FNum.le_iff] at hab
  rw [FNum.le_iff, FNum.le_iff, FNum.val_add, FNum.val_mul, FNum.val_sub]
  have hw : 0 ≤ b.val - a.val := by linarith
  have e1 := Fl.rnd_error 53 (b.val - a.val)
  have n1 := Fl.rnd_nonneg (p := 53) hw
  rw [abs_of_nonneg hw] at e1
  have n2 : 0 ≤ x.val * Fl.rnd 53 (b.val - a.val) := mul_nonneg h.1 n1
  have e2 := Fl.rnd_error 53 (x.val * Fl.rnd 53 (b.val - a.val))
  have n3 := Fl.rnd_nonneg (p := 53) n2
  rw [abs_of_nonneg n2] at e2
  have m := mul_le_mul_of_nonneg_right h.2 n1
  have key : Fl.rnd 53 (x.val * Fl.rnd 53 (b.val - a.val)) ≤ b.val - a.val := by
    rw [abs_le] at e1 e2
    generalize Fl.rnd 53 (x.val * Fl.rnd 53 (b.val - a.val)) = r at *
    generalize x.val * Fl.rnd 53 (b.val - a.val) = q at *
    norm_num at *
    linarith
  constructor
  · conv_lhs => rw [← FNum.rnd_val (by norm_num) a]
    exact Fl.rnd_mono (by norm_num) (by linarith)
  · conv_rhs => rw [← FNum.rnd_val (by norm_num) b]
    exact Fl.rnd_mono (by norm_num) (by linarith)

/-- **C78**: in double arithmetic, for every function (with or without state, with any values), every interval and every tolerance of at least 10⁻¹², the golden section search ends after at most 100 iterations and 102 calls of the function, unless the function throws;
    it calls the function within the interval only and returns a point of the interval. -/
theorem golden_double (f : σ → Double → Option (σ × Double)) {a b tol : Double} (hab : a ≤ b) (ht : 1 / 10 ^ 12 ≤ tol.val) {fuel : ℕ} (hf : 100 ≤ fuel) (s : σ) :
    (∃ t x log, minimizeM f phiD a b tol fuel s = .ret t x log ∧ (a ≤ x ∧ x ≤ b) ∧ (∀ y ∈ log, a ≤ y ∧ y ≤ b) ∧ log.length ≤ 102) ∨
    (∃ log, minimizeM f phiD a b tol fuel s = .threw log ∧ (∀ y ∈ log, a ≤ y ∧ y ≤ b) ∧ log.length ≤ 102) := by
  have hlog : ∀ log : List Double, (∀ y ∈ log, 0 ≤ y.val ∧ y.val ≤ 1 - 1 / 10 ^ 13) → ∀ y ∈ log.map fun x => a + x * (b - a), a ≤ y ∧ y ≤ b := by
    intro log h y hy
    obtain ⟨x, hx, rfl⟩ := List.mem_map.1 hy
    exact lift hab (h x hx)
  unfold minimizeM
  rcases unit_spec (fun s x => f s (a + x * (b - a))) ht hf s with ⟨t, x, log, e, h1, h2, h3⟩ | ⟨log, e, h2, h3⟩
  · rw [e]
    exact .inl ⟨_, _, _, rfl, lift hab h1, hlog _ h2, by simpa using h3⟩
  · rw [e]
    exact .inr ⟨_, rfl, hlog _ h2, by simpa using h3⟩

/-! ### Accuracy -/

section accuracy

open Optima.Brent.Num (Unimodal)

/-- The error of the map from [0, 1] to [a, b]. -/
def mapError (a b : Double) : ℚ := 6 * max |a.val| |b.val| / 2 ^ 53

theorem mapError_nonneg (a b : Double) : 0 ≤ mapError a b := by unfold mapError; positivity

theorem map_mono {a b x y : Double} (hab : a ≤ b) (h : x ≤ y) : a + x * (b - a) ≤ a + y * (b - a) := by
  rw [FNum.le_iff] at *
  rw [FNum.val_add, FNum.val_mul, FNum.val_sub, FNum.val_add, FNum.val_mul]
  have n1 : 0 ≤ Fl.rnd 53 (b.val - a.val) := Fl.rnd_nonneg (by linarith)
  have := Fl.rnd_mono (p := 53) (by norm_num) (mul_le_mul_of_nonneg_right h n1)
  exact Fl.rnd_mono (by norm_num) (by rw [FNum.val_sub]; linarith)

theorem map_error {a b x : Double} (hab : a ≤ b) (h0 : 0 ≤ x.val) (h1 : x.val ≤ 1) : |(a + x * (b - a)).val - (a.val + x.val * (b.val - a.val))| ≤ mapError a b := by
  rw [FNum.le_iff] at hab
  rw [FNum.val_add, FNum.val_mul, FNum.val_sub]
  unfold mapError
  have m1 := (abs_le.1 (le_max_left |a.val| |b.val|)).1
  have m2 := (abs_le.1 (le_max_left |a.val| |b.val|)).2
  have m3 := (abs_le.1 (le_max_right |a.val| |b.val|)).2
  generalize max |a.val| |b.val| = M at *
  have hw : 0 ≤ b.val - a.val := by linarith
  have e1 := Fl.rnd_error 53 (b.val - a.val)
  have n1 := Fl.rnd_nonneg (p := 53) hw
  rw [abs_of_nonneg hw] at e1
  have n2 : 0 ≤ x.val * Fl.rnd 53 (b.val - a.val) := mul_nonneg h0 n1
  have e2 := Fl.rnd_error 53 (x.val * Fl.rnd 53 (b.val - a.val))
  rw [abs_of_nonneg n2] at e2
  have e3 : |x.val * Fl.rnd 53 (b.val - a.val) - x.val * (b.val - a.val)| ≤ (b.val - a.val) / 2 ^ 53 := by
    rw [← mul_sub, abs_mul, abs_of_nonneg h0]
    exact (mul_le_mul h1 e1 (abs_nonneg _) zero_le_one).trans_eq (one_mul _)
  have p1 : x.val * (b.val - a.val) ≤ 1 * (b.val - a.val) := mul_le_mul_of_nonneg_right h1 hw
  have p2 : 0 ≤ x.val * (b.val - a.val) := mul_nonneg h0 hw
  have n3 := Fl.rnd_nonneg (p := 53) n2
  generalize Fl.rnd 53 (x.val * Fl.rnd 53 (b.val - a.val)) = r at *
  generalize x.val * Fl.rnd 53 (b.val - a.val) = t at *
  have e4 := Fl.rnd_error 53 (a.val + r)
  have e5 : |a.val + r| ≤ 3 / 2 * M := by
    rw [abs_le] at *
    norm_num at *
    constructor <;> linarith
  generalize |a.val + r| = w at *
  generalize Fl.rnd 53 (a.val + r) = z at *
  generalize x.val * (b.val - a.val) = v at *
  clear e1
  rw [abs_le] at *
  norm_num at *
  constructor <;> linarith

/-- Either the images of the ends of the bracket enclose the minimiser, or the whole bracket is mapped into its neighbourhood. -/
def Near (a b m : Double) (g : St Double) : Prop := (a + g.a * (b - a) ≤ m ∧ m.val ≤ (a + g.b * (b - a)).val + mapError a b) ∨ ∀ y : Double, g.a ≤ y → y ≤ g.b → |(a + y * (b - a)).val - m.val| ≤ 23 * mapError a b

theorem Near.absorb {f : Double → Double} {a b m : Double} (hab : a ≤ b) (hu : Unimodal f a b m) {k : ℕ} {g : St Double} (h : InvD k g) (hc : 99 / 10 ^ 14 ≤ |g.c.val - g.d.val|) (hfc : g.fc = f (a + g.c * (b - a))) (hfd : g.fd = f (a + g.d * (b - a))) (hn : Near a b m g)
    (y : Double) : Near a b m (absorb phiD g y) := by
  obtain ⟨o1, o2, o3, o4, o5, o6, o7, -⟩ := h.cont hc
  have h0 := h.a0; have h1 := h.b1
  have hac : g.a ≤ g.c := by rw [FNum.le_iff]; norm_num at *; linarith
  have hcd : g.c ≤ g.d := o1.le
  have hdb : g.d ≤ g.b := by rw [FNum.le_iff]; norm_num at *; linarith
  have ic := lift hab (x := g.c) (by norm_num at *; constructor <;> linarith)
  have id := lift hab (x := g.d) (by norm_num at *; constructor <;> linarith)
  have hT := map_mono hab hcd
  unfold Num.absorb
  rcases hn with ⟨n1, n2⟩ | hl
  · by_cases hlt : g.fc < g.fd
    · rw [if_pos hlt]
      suffices hmd : m ≤ a + g.d * (b - a) from .inl ⟨n1, by have := mapError_nonneg a b; rw [FNum.le_iff] at hmd; dsimp only; linarith⟩
      by_contra hm
      rw [not_le] at hm
      rcases hT.lt_or_eq with hT | hT
      · have := hu.dec _ _ ic.1 hT hm.le
        rw [hfc, hfd] at hlt
        exact lt_asymm this hlt
      · rw [hfc, hfd, hT] at hlt
        exact lt_irrefl _ hlt
    · rw [if_neg hlt]
      by_cases hm : a + g.c * (b - a) ≤ m
      · exact .inl ⟨hm, n2⟩
      · rw [not_le] at hm
        rcases hT.lt_or_eq with hT | hT
        · have := hu.inc _ _ hm.le hT id.2
          rw [hfc, hfd] at hlt
          exact absurd this hlt
        · right
          dsimp only
          intro z z1 z2
          have s1 := map_mono hab (hac.trans z1)
          have s2 := map_mono hab z2
          have ea := abs_le.1 (map_error (x := g.a) hab h0 (by norm_num at *; linarith))
          have eb := abs_le.1 (map_error (x := g.b) hab (by norm_num at *; linarith) h1)
          have ec := abs_le.1 (map_error (x := g.c) hab (by norm_num at *; linarith) (by norm_num at *; linarith))
          have ed := abs_le.1 (map_error (x := g.d) hab (by norm_num at *; linarith) (by norm_num at *; linarith))
          rw [FNum.le_iff] at n1 s1 s2 hab
          rw [hT] at ec
          have w := mul_le_mul_of_nonneg_right o7 (sub_nonneg.2 hab)
          rw [abs_le]
          constructor <;> nlinarith
  · right
    intro z z1 z2
    by_cases hlt : g.fc < g.fd
    · rw [if_pos hlt] at z1 z2
      exact hl z z1 (z2.trans hdb)
    · rw [if_neg hlt] at z1 z2
      exact hl z (hac.trans z1) z2

theorem loopM_near {f : Double → Double} {a b m tol : Double} (hab : a ≤ b) (hu : Unimodal f a b m) (ht : 1 / 10 ^ 12 ≤ tol.val) (fuel : ℕ) {k : ℕ} {g : St Double} (h : InvD k g) (hfc : g.fc = f (a + g.c * (b - a))) (hfd : g.fd = f (a + g.d * (b - a)))
    (hn : Near a b m g) {r : St Double} {log} (hr : loopM (fun (_ : Unit) x => some ((), f (a + x * (b - a)))) phiD tol fuel () g = .ret () r log) : (∃ k, InvD k r) ∧ Near a b m r ∧ ¬ tol < fabs (r.c - r.d) := by
  induction fuel generalizing g k with
  | zero =>
    unfold loopM at hr
    split_ifs at hr with hc
    cases hr
    exact ⟨⟨k, h⟩, hn, hc⟩
  | succ fuel ih =>
    unfold loopM at hr
    split_ifs at hr with hc
    · have hcont := (test ht).1 hc
      refine ih (h.absorb hcont _) ?_ ?_ (hn.absorb hab hu h hcont hfc hfd _) hr
      · unfold Num.absorb
        by_cases hlt : g.fc < g.fd
        · rw [if_pos hlt]
        · rw [if_neg hlt]; exact hfd
      · unfold Num.absorb
        by_cases hlt : g.fc < g.fd
        · rw [if_pos hlt]; exact hfc
        · rw [if_neg hlt]
    · cases hr
      exact ⟨⟨k, h⟩, hn, hc⟩

/-- **C78 (accuracy)**: if the function is strictly unimodal on the numbers of the interval, the result is within `3 * tol * (b - a)` of the minimiser, apart from the spacing of the numbers near `a` and `b`. -/
theorem golden_double_accurate {f : Double → Double} {a b m tol : Double} (ht : 1 / 10 ^ 12 ≤ tol.val) (hu : Unimodal f a b m) {fuel : ℕ} {x : Double} {log : List Double} (hr : minimizeM (fun (_ : Unit) t => some ((), f t)) phiD a b tol fuel () = .ret () x log) :
    |x.val - m.val| ≤ 3 * tol.val * (b.val - a.val) + 138 * max |a.val| |b.val| / 2 ^ 53 := by
  have hab : a ≤ b := hu.hm.1.trans hu.hm.2
  have hw : 0 ≤ b.val - a.val := sub_nonneg.2 hab
  have hE : 138 * max |a.val| |b.val| / 2 ^ 53 = 23 * mapError a b := by unfold mapError; ring
  have hE0 := mapError_nonneg a b
  rw [hE]
  unfold minimizeM goldenUnitM at hr
  have h0 : (0 : Double).val = 0 := FNum.val_zero
  have h1 : (1 : Double).val = 1 := FNum.val_one (by norm_num)
  split_ifs at hr with hs
  · dsimp only at hr
    obtain ⟨-, rfl, -⟩ := Res.ret.inj hr
    have hh : ((1 + 0) / two : Double).val = 1 / 2 := by decide +kernel
    have e := abs_le.1 (map_error (x := ((1 + 0) / two : Double)) hab (by rw [hh]; norm_num) (by rw [hh]; norm_num))
    rw [hh] at e
    have hq : 23 / 100 ≤ (fabs (1 - phiD - phiD : Double)).val := by decide +kernel
    rw [FNum.lt_iff] at hs
    have ht' : 23 / 100 * (b.val - a.val) ≤ tol.val * (b.val - a.val) := mul_le_mul_of_nonneg_right (by linarith) hw
    have m1 : a.val ≤ m.val := hu.hm.1
    have m2 : m.val ≤ b.val := hu.hm.2
    rw [abs_le]
    constructor <;> linarith
  · dsimp only at hr
    cases hl : loopM (fun (_ : Unit) x => some ((), f (a + x * (b - a)))) phiD tol fuel () { a := 0, b := 1, c := 1 - phiD, d := phiD, fc := f (a + (1 - phiD) * (b - a)), fd := f (a + phiD * (b - a)), log := [phiD, 1 - phiD] } with
    | more => rw [hl] at hr; cases hr
    | threw log => rw [hl] at hr; cases hr
    | ret s g log' =>
      rw [hl] at hr
      dsimp only at hr
      obtain ⟨-, rfl, -⟩ := Res.ret.inj hr
      have z0 : a + 0 * (b - a) = a := by
        apply FNum.val_injective
        rw [FNum.val_add, FNum.val_mul, h0, zero_mul, Fl.rnd_zero, add_zero, FNum.rnd_val (by norm_num)]
      have z1 := map_error (x := 1) hab (by rw [h1]; norm_num) h1.le
      rw [h1, one_mul, add_sub_cancel] at z1
      obtain ⟨⟨k, hi⟩, hn, hc⟩ := loopM_near hab hu ht fuel (InvD.init _ _) rfl rfl (.inl ⟨by dsimp only; rw [z0]; exact hu.hm.1, by
        have m2 : m.val ≤ b.val := hu.hm.2
        rw [abs_le] at z1
        dsimp only
        linarith⟩) hl
      obtain ⟨d1, d2, d3⟩ := hi.mid
      have g0 := hi.a0; have g1 := hi.b1; have gl := hi.long
      rcases hn with ⟨n1, n2⟩ | hlost
      · have em := abs_le.1 (map_error (x := (g.b + g.a) / two) hab d1 (by norm_num at *; linarith))
        have ea := abs_le.1 (map_error (x := g.a) hab g0 (by norm_num at *; linarith))
        have eb := abs_le.1 (map_error (x := g.b) hab (by norm_num at *; linarith) g1)
        have hlen : g.b.val - g.a.val ≤ 58 / 10 * tol.val := by
          have hc' := (test ht).2 hc
          have hkq : (k : ℚ) * η ≤ 100 * η := mul_le_mul_of_nonneg_right (by exact_mod_cast hi.hk) (by norm_num)
          have hk0 : 0 ≤ (k : ℚ) * η := by positivity
          have hd := hi.drift
          unfold Drift at hd
          generalize (k : ℚ) * η = q at *
          clear em ea eb z1
          rw [abs_le] at hc'
          rcases hd with ⟨e1, e2, e3⟩ | ⟨e1, e2, e3⟩ <;> obtain ⟨e4, e5⟩ := abs_le.1 e1 <;> norm_num at * <;> linarith
        rw [FNum.le_iff] at n1
        generalize (a + (g.b + g.a) / two * (b - a)).val = X at *
        generalize (a + g.a * (b - a)).val = A at *
        generalize (a + g.b * (b - a)).val = B at *
        rw [abs_le] at d3
        generalize ((g.b + g.a) / two).val = x at *
        have p1 : x * (b.val - a.val) - g.a.val * (b.val - a.val) ≤ 29 / 10 * tol.val * (b.val - a.val) + 1 / 2 ^ 53 * (b.val - a.val) := by
          rw [← sub_mul, ← add_mul]
          exact mul_le_mul_of_nonneg_right (by linarith) hw
        have p2 : g.b.val * (b.val - a.val) - x * (b.val - a.val) ≤ 29 / 10 * tol.val * (b.val - a.val) + 1 / 2 ^ 53 * (b.val - a.val) := by
          rw [← sub_mul, ← add_mul]
          exact mul_le_mul_of_nonneg_right (by linarith) hw
        have p3 : 1 / 2 ^ 53 * (b.val - a.val) ≤ 1 / 10 * tol.val * (b.val - a.val) := mul_le_mul_of_nonneg_right (by norm_num at *; linarith) hw
        rw [abs_le]
        constructor <;> linarith
      · have hx : g.a ≤ (g.b + g.a) / two ∧ (g.b + g.a) / two ≤ g.b := by
          have hp : (0 : ℕ) < 53 := by norm_num
          have ra := Fl.rnd_of_repr hp (Fl.repr_double (FNum.repr_val hp g.a))
          have rb := Fl.rnd_of_repr hp (Fl.repr_double (FNum.repr_val hp g.b))
          rw [FNum.le_iff, FNum.le_iff, val_half hp, FNum.val_add]
          have q1 := Fl.rnd_mono hp (x := 2 * g.a.val) (y := g.b.val + g.a.val) (by norm_num at *; linarith)
          have q2 := Fl.rnd_mono hp (x := g.b.val + g.a.val) (y := 2 * g.b.val) (by norm_num at *; linarith)
          rw [ra] at q1
          rw [rb] at q2
          constructor <;> linarith
        have := hlost _ hx.1 hx.2
        have : 0 ≤ 3 * tol.val * (b.val - a.val) := mul_nonneg (by norm_num at *; linarith) hw
        linarith

end accuracy

/-! ### Small tolerances -/

section small

/-- One iteration for a pure function, without the list of the points. -/
def iter (f : Double → Double) : ℕ → St Double → St Double
  | 0, g => g
  | n + 1, g => iter f n { absorb phiD g (f (next phiD g)) with log := [] }

/-- The states of the search that decide how it goes on. -/
def bare (g : St Double) : St Double := { g with log := [] }

theorem iter_add (f : Double → Double) (m n : ℕ) (g : St Double) : iter f (m + n) g = iter f n (iter f m g) := by
  induction m generalizing g with
  | zero => rw [Nat.zero_add]; rfl
  | succ m ih => rw [Nat.succ_add]; exact ih _

theorem loopM_more {f : Double → Double} {tol : Double} (fuel : ℕ) {g g' : St Double} (hb : bare g = g') (h : ∀ n ≤ fuel, tol < fabs ((iter f n g').c - (iter f n g').d)) : loopM (fun (_ : Unit) x => some ((), f x)) phiD tol fuel () g = .more := by
  subst hb
  induction fuel generalizing g with
  | zero =>
    have h0 : tol < fabs (g.c - g.d) := h 0 le_rfl
    unfold loopM
    rw [if_pos h0]
  | succ fuel ih =>
    have h0 : tol < fabs (g.c - g.d) := h 0 (Nat.zero_le _)
    unfold loopM
    rw [if_pos h0]
    refine ih fun n hn => ?_
    have := h (n + 1) (by omega)
    have e : bare (absorb phiD g (f (next phiD g))) = { absorb phiD (bare g) (f (next phiD (bare g))) with log := [] } := by
      unfold bare absorb next
      dsimp only
      split_ifs <;> rfl
    rw [e]
    exact this

/-- The distance to the first point at which the search calls the function. -/
def distance (t : Double) : Double := fabs (t - (1 - phiD))

/-- The tolerance 10⁻¹⁴. -/
def smallTol : Double := .fl (1 / 10 ^ 14)

/-- The initial state of the search for `distance`. -/
def distance0 : St Double := { a := 0, b := 1, c := 1 - phiD, d := phiD, fc := distance (1 - phiD), fd := distance phiD, log := [] }

/-- `∀ n < N, smallTol < |c - d|` after `n` iterations, evaluated along one run. -/
def allContinue (f : Double → Double) : ℕ → St Double → Bool
  | 0, _ => true
  | n + 1, g => decide (smallTol < fabs (g.c - g.d)) && allContinue f n { absorb phiD g (f (next phiD g)) with log := [] }

theorem allContinue_spec {f : Double → Double} {N : ℕ} {g : St Double} (h : allContinue f N g = true) : ∀ n < N, smallTol < fabs ((iter f n g).c - (iter f n g).d) := by
  induction N generalizing g with
  | zero => intro n hn; omega
  | succ N ih =>
    unfold allContinue at h
    rw [Bool.and_eq_true, decide_eq_true_iff] at h
    intro n hn
    cases n with
    | zero => exact h.1
    | succ n => exact ih h.2 n (by omega)

/-- The points of a state. -/
def fields (g : St Double) : List ℚ := [g.a.val, g.b.val, g.c.val, g.d.val, g.fc.val, g.fd.val]

theorem distance_cycle : allContinue distance 79 distance0 = true ∧ fields (iter distance 2 (iter distance 77 distance0)) = fields (iter distance 77 distance0) := by decide +kernel

/-- **C78 fails for small tolerances**: for the distance to the point 1 - phi, which has its only minimum there, the search with a tolerance of 10⁻¹⁴ does not end. After 77 iterations two states repeat. -/
theorem golden_double_never_ends (fuel : ℕ) : (∀ t : Double, t ≠ 1 - phiD → distance (1 - phiD) < distance t) ∧ goldenUnitM (fun (_ : Unit) t => some ((), distance t)) phiD smallTol fuel () = .more := by
  have hcyc : iter distance 2 (iter distance 77 distance0) = iter distance 77 distance0 := by
    have h := distance_cycle.2
    have hb : ∀ n (g : St Double), (iter distance (n + 1) g).log = [] := by
      intro n
      induction n with
      | zero => intro g; rfl
      | succ n ih => intro g; exact ih _
    have l1 : (iter distance 2 (iter distance 77 distance0)).log = [] := hb 1 _
    have l2 : (iter distance 77 distance0).log = [] := hb 76 _
    generalize iter distance 2 (iter distance 77 distance0) = u at *
    generalize iter distance 77 distance0 = v at *
    obtain ⟨a, b, c, d, fc, fd, l⟩ := u
    obtain ⟨a', b', c', d', fc', fd', l'⟩ := v
    simp only [fields, List.cons.injEq, and_true] at h
    obtain ⟨h1, h2, h3, h4, h5, h6⟩ := h
    cases l1
    cases l2
    rw [FNum.val_injective h1, FNum.val_injective h2, FNum.val_injective h3, FNum.val_injective h4, FNum.val_injective h5, FNum.val_injective h6]
  have hall : ∀ n, smallTol < fabs ((iter distance n distance0).c - (iter distance n distance0).d) := by
    intro n
    induction n using Nat.strong_induction_on with
    | _ n ih =>
      by_cases hn : n < 79
      · exact allContinue_spec distance_cycle.1 n hn
      · have e : iter distance n distance0 = iter distance (n - 2) distance0 := by
          obtain ⟨k, rfl⟩ : ∃ k, n = 77 + 2 + k := ⟨n - 79, by omega⟩
          rw [show 77 + 2 + k - 2 = 77 + k by omega, iter_add, iter_add, iter_add _ 77 k, hcyc]
        rw [e]
        exact ih (n - 2) (by omega)
  refine ⟨fun t ht => ?_, ?_⟩
  · have h0 : (distance (1 - phiD)).val = 0 := by decide +kernel
    rw [FNum.lt_iff, h0]
    unfold distance
    rw [val_fabs (by norm_num), FNum.val_sub, abs_pos]
    intro hc
    have hne : t.val - (1 - phiD : Double).val ≠ 0 := sub_ne_zero.2 fun h => ht (FNum.val_injective h)
    rcases lt_or_gt_of_ne hne with h | h
    · have := rnd_pos (p := 53) (by norm_num) (neg_pos.2 h)
      rw [Fl.rnd_neg, hc] at this
      simp at this
    · have := rnd_pos (p := 53) (by norm_num) h
      rw [hc] at this
      exact lt_irrefl _ this
  · unfold goldenUnitM
    have hs : ¬ fabs (1 - phiD - phiD : Double) < smallTol := by decide +kernel
    rw [if_neg hs]
    dsimp only
    rw [loopM_more (f := distance) fuel (g' := distance0) rfl fun n _ => hall n]

end small

section exact
variable {K : Type*} [Field K] [LinearOrder K] [IsStrictOrderedRing K]

open Optima.Brent.Num (fabs_eq two_eq)

theorem loopM_exact (f : K → K) (tol : K) (fuel : ℕ) (g : St K) : loopM (fun (_ : Unit) x => some ((), f x)) phi tol fuel () g = match loop f tol fuel g with
    | none => .more
    | some r => .ret () r r.log := by
  induction fuel generalizing g with
  | zero =>
    unfold loopM loop
    rw [fabs_eq]
    split_ifs <;> rfl
  | succ fuel ih =>
    unfold loopM loop
    rw [fabs_eq]
    have e : absorb phi g (f (next phi g)) = step f g := by
      unfold absorb next step
      split_ifs <;> rfl
    split_ifs
    · dsimp only
      rw [e, ih]
    · rfl

/-- In exact arithmetic and for pure functions this is the program of C07. -/
theorem minimizeM_exact (f : K → K) (a b tol : K) (fuel : ℕ) : minimizeM (fun (_ : Unit) x => some ((), f x)) phi a b tol fuel () = match minimizeGoldenSectionSearch f a b tol fuel with
    | none => .more
    | some (x, log) => .ret () x log := by
  unfold minimizeM minimizeGoldenSectionSearch goldenUnitM goldenUnit
  rw [fabs_eq, two_eq]
  by_cases h : |(1 - phi) - (phi : K)| < tol
  · rw [if_pos h, if_pos h]; rfl
  · rw [if_neg h, if_neg h]
    dsimp only
    rw [loopM_exact]
    unfold init
    cases loop (fun x => f (a + x * (b - a))) tol fuel _ <;> rfl

end exact

/-- `golden_double` and `golden_double_accurate` with the default tolerance 10⁻⁵, `f x = x` and the interval [-1, 2]: the search returns a point next to -1. -/
example : ∃ x log, minimizeM (fun (_ : Unit) t => some ((), t)) phiD (-1) two Optima.Brent.Num.testTol 100 () = .ret () x log ∧ |x.val - (-1)| ≤ 1 / 10 ^ 4 := by
  have v1 : (-1 : Double).val = -1 := by decide +kernel
  have v2 : (two : Double).val = 2 := by decide +kernel
  have v3 : (Optima.Brent.Num.testTol).val ≤ 11 / 10 ^ 6 := by decide +kernel
  have ht : 1 / 10 ^ 12 ≤ Optima.Brent.Num.testTol.val := by decide +kernel
  have hab : (-1 : Double) ≤ two := by decide +kernel
  rcases golden_double (fun (_ : Unit) t => some ((), t)) hab ht le_rfl () with ⟨⟨⟩, x, log, e, h1, h2, h3⟩ | ⟨log, e, -⟩
  · refine ⟨x, log, e, ?_⟩
    have := golden_double_accurate (f := fun t => t) ht ⟨⟨le_rfl, hab⟩, fun y z h1 h2 h3 => absurd (h2.trans_le h3) (not_lt.2 h1), fun y z _ h _ => h⟩ e
    rw [v1, v2] at this
    norm_num at *
    linarith
  · exfalso
    have : ∀ n (g : St Double) log, loopM (fun (_ : Unit) (x : Double) => some ((), -1 + x * (two - -1))) phiD Optima.Brent.Num.testTol n () g ≠ .threw log := by
      intro n
      induction n with
      | zero => intro g log; unfold loopM; split_ifs <;> simp
      | succ n ih =>
        intro g log
        unfold loopM
        split_ifs
        · exact ih _ _
        · simp
    unfold minimizeM goldenUnitM at e
    split_ifs at e
    · dsimp only at e
      cases hl : loopM (fun (_ : Unit) (x : Double) => some ((), -1 + x * (two - -1))) phiD Optima.Brent.Num.testTol 100 () { a := 0, b := 1, c := 1 - phiD, d := phiD, fc := -1 + (1 - phiD) * (two - -1), fd := -1 + phiD * (two - -1), log := [phiD, 1 - phiD] } with
      | more => rw [hl] at e; simp at e
      | threw log => exact this _ _ _ hl
      | ret s g log => rw [hl] at e; simp at e

end Optima.Golden.Num
