import Verif.Model.BrentFloat
import Verif.Lemmas.FloatGap
import Verif.Lemmas.Tactics
import Verif.Props.LineSearchState

/-! # C77: `minimizeBrent` in double arithmetic -/

set_option linter.unusedSectionVars false

namespace Optima.Fl

/-- The main estimate: `f` is `fract1`, the point is in the upper half of the bracket and the exit test fails.  Then a step of `fract1` downwards, rounded, stays in the bracket. -/
theorem brent_down {p : ℕ} (hp : 3 ≤ p) {a x b f : ℚ} (ha : Repr p a) (hx : Repr p x) (hb : Repr p b) (hf : Repr p f) (h1 : a ≤ x) (h2 : x ≤ b) (hf0 : 0 ≤ f) (hm : rnd p (a + b) / 2 ≤ x)
    (hd : rnd p (2 * f - rnd p (b - a) / 2) < |rnd p (x - rnd p (a + b) / 2)|) : a ≤ rnd p (x - f) := by
  have hp0 : 0 < p := by omega
  by_contra hz
  push Not at hz
  have hfa : x - f < a := by
    by_contra hc
    push Not at hc
    have := rnd_mono hp0 hc
    rw [rnd_of_repr hp0 ha] at this
    linarith
  have hz1 : a - rnd p (x - f) ≤ 2 * (a - (x - f)) := by
    have := rnd_nearest hp0 (x - f) ha
    rw [abs_of_nonneg (by linarith : 0 ≤ a - (x - f))] at this
    have := (abs_le.1 this).1
    linarith
  have hz0 : rnd p (x - f) ≠ a := hz.ne
  have hab : |rnd p (x - f) - a| = a - rnd p (x - f) := by rw [abs_of_neg (by linarith)]; ring
  have hxm : |rnd p (x - rnd p (a + b) / 2)| = rnd p (x - rnd p (a + b) / 2) := abs_of_nonneg (rnd_nonneg (by linarith))
  rw [hxm] at hd
  have hd1 : 2 * f - rnd p (b - a) / 2 < x - rnd p (a + b) / 2 := by
    by_contra hc
    push Not at hc
    have := rnd_mono hp0 hc
    linarith
  have hma : a ≤ rnd p (a + b) / 2 := by
    have := rnd_mono hp0 (show 2 * a ≤ a + b by linarith)
    rw [rnd_of_repr hp0 (repr_double ha)] at this
    linarith
  have e1 := rnd_error p (a + b)
  have e2 := rnd_error p (b - a)
  rw [abs_of_nonneg (by linarith : 0 ≤ b - a)] at e2
  set u : ℚ := 1 / 2 ^ p with hu
  have hu0 : 0 < u := by positivity
  have hu1 : u ≤ 1 / 8 := by
    rw [hu, div_le_div_iff_of_pos_left (by norm_num) (by positivity) (by norm_num)]
    calc (8 : ℚ) = 2 ^ 3 := by norm_num
      _ ≤ 2 ^ p := pow_le_pow_right₀ (by norm_num) hp
  have du : ∀ y : ℚ, y / 2 ^ p = u * y := fun y => by rw [hu]; ring
  rw [du] at e1 e2
  by_cases ha0 : a = 0
  · subst ha0
    rw [zero_add, rnd_of_repr hp0 hb, sub_zero, rnd_of_repr hp0 hb] at hd1
    linarith
  obtain ⟨g1, g2⟩ := gap hp0 (rnd_repr hp0 (x - f)) ha hz0 ha0
  rw [hab] at g1 g2
  rw [du] at g1
  rcases h1.lt_or_eq with hlt | heq
  · obtain ⟨g3, -⟩ := gap hp0 hx ha hlt.ne' ha0
    rw [abs_of_pos (by linarith : 0 < x - a), du] at g3
    obtain ⟨m1, m2⟩ := abs_le.1 e1
    obtain ⟨m3, m4⟩ := abs_le.1 e2
    have hA : |a + b| ≤ 2 * |a| + (b - a) := by
      have : a + b = 2 * a + (b - a) := by ring
      rw [this]
      refine (abs_add_le _ _).trans ?_
      rw [abs_mul, abs_of_pos (by norm_num : (0 : ℚ) < 2), abs_of_nonneg (by linarith : 0 ≤ b - a)]
    -- `M = |a| + (b - a)`
    have hM0 : 0 ≤ |a| := abs_nonneg a
    have k1 : u * |a + b| ≤ u * (2 * |a| + (b - a)) := mul_le_mul_of_nonneg_left hA hu0.le
    have k2 : b - a ≤ 2 * (x - a) + u * (2 * |a| + (b - a)) := by linarith
    have k3 : 2 * f < (x - a) + u * (|a| + (b - a)) := by linarith
    have k4 : (x - a) + (2 * (a - (x - f))) < u * (|a| + (b - a)) := by linarith
    have k5 : (x - a) + u * |a| < u * (|a| + (b - a)) := by linarith
    have k6 : (x - a) < u * (b - a) := by linarith
    have k7 : (b - a) * (1 - u) ≤ 2 * (x - a) + 2 * (u * |a|) := by linarith
    have k8 : (b - a) * (1 - 5 * u) < 0 := by linarith
    have : 0 < b - a := by linarith
    nlinarith
  · subst heq
    have hmid : rnd p (a + b) = 2 * a := by linarith
    have h4 : 4 * f < rnd p (b - a) := by rw [hmid] at hd1; linarith
    have hD : b - a ≤ ulp p a := by
      by_contra hc
      push Not at hc
      have hup := ulp_pos p a
      have n := rnd_nearest hp0 (a + b) (repr_double (repr_succ hp0 ha ha0))
      rw [hmid, abs_of_nonpos (by linarith)] at n
      rcases abs_cases (2 * (a + ulp p a) - (a + b)) with ⟨h, -⟩ | ⟨h, -⟩ <;> linarith
    have hD4 : b - a ≤ 2 * (2 * f) := by linarith
    have := rnd_mono hp0 hD4
    rw [rnd_of_repr hp0 (repr_double (repr_double hf))] at this
    linarith

/-- The same upwards. -/
theorem brent_up {p : ℕ} (hp : 3 ≤ p) {a x b f : ℚ} (ha : Repr p a) (hx : Repr p x) (hb : Repr p b) (hf : Repr p f) (h1 : a ≤ x) (h2 : x ≤ b) (hf0 : 0 ≤ f) (hm : x ≤ rnd p (a + b) / 2)
    (hd : rnd p (2 * f - rnd p (b - a) / 2) < |rnd p (x - rnd p (a + b) / 2)|) : rnd p (x + f) ≤ b := by
  have e1 : rnd p (-b + -a) = - rnd p (a + b) := by rw [← rnd_neg]; congr 1; ring
  have := brent_down hp (repr_neg hb) (repr_neg hx) (repr_neg ha) hf (neg_le_neg h2) (neg_le_neg h1) hf0 (by rw [e1]; linarith) (by
    have e2 : -x - rnd p (-b + -a) / 2 = -(x - rnd p (a + b) / 2) := by rw [e1]; ring
    rw [e2, rnd_neg, abs_neg, show -a - -b = b - a by ring]
    exact hd)
  rw [show -x - f = -(x + f) by ring, rnd_neg] at this
  linarith

end Optima.Fl

namespace Optima.Brent.Num

section order
variable {K : Type*} [Zero K] [One K] [Neg K] [Add K] [Sub K] [Mul K] [Div K] [LinearOrder K] {σ : Type*}

/-- Whatever the arithmetic: if the trial points stay in the bracket of their iteration, all of them are in the first bracket, and the best of them is returned. -/
theorem absorb_inv {golden tol a b : K} {log} {s : St K} (h : InvM log a b s) (t1 : s.min ≤ trial golden tol s) (t2 : trial golden tol s ≤ s.max) (fu : K) : InvM ((trial golden tol s, fu) :: log) a b (absorb golden tol s fu) := by
  unfold absorb
  dsimp only
  generalize trial golden tol s = u at *
  have hu : a ≤ u ∧ u ≤ b := ⟨le_trans h.lo t1, le_trans t2 h.hi⟩
  have hin : ∀ q ∈ (u, fu) :: log, a ≤ q.1 ∧ q.1 ≤ b := by
    intro y hy; rcases List.mem_cons.1 hy with rfl | hy; exacts [hu, h.inside y hy]
  by_cases c1 : fu ≤ s.fx
  · rw [if_pos c1]
    have hb : ∀ q ∈ (u, fu) :: log, fu ≤ q.2 := by
      intro y hy; rcases List.mem_cons.1 hy with rfl | hy
      · exact le_rfl
      · exact le_trans c1 (h.best y hy)
    by_cases c2 : s.x ≤ u
    · exact ⟨by simp only [c2, if_true]; exact h.lo.trans h.mx, by simp only [c2, if_true]; exact h.hi, by simp only [c2, if_true], by simp only [c2, if_true]; exact t2, by simp, hb, hin⟩
    · exact ⟨by simp only [c2, if_false]; exact h.lo, by simp only [c2, if_false]; exact h.xM.trans h.hi, by simp only [c2, if_false]; exact t1, by simp only [c2, if_false]; exact (not_le.1 c2).le, by simp, hb, hin⟩
  · rw [if_neg c1]
    have hb : ∀ q ∈ (u, fu) :: log, s.fx ≤ q.2 := by
      intro y hy; rcases List.mem_cons.1 hy with rfl | hy
      · exact (not_le.1 c1).le
      · exact h.best y hy
    have b1 : a ≤ (if u < s.x then u else s.min) := by split_ifs; exacts [hu.1, h.lo]
    have b2 : (if u < s.x then s.max else u) ≤ b := by split_ifs; exacts [h.hi, hu.2]
    have b3 : (if u < s.x then u else s.min) ≤ s.x := by split_ifs with c; exacts [c.le, h.mx]
    have b4 : s.x ≤ (if u < s.x then s.max else u) := by split_ifs with c; exacts [h.xM, not_lt.1 c]
    by_cases c3 : fu ≤ s.fw ∨ s.w = s.x
    · rw [if_pos c3]; exact ⟨b1, b2, b3, b4, List.mem_cons_of_mem _ h.mem, hb, hin⟩
    · rw [if_neg c3]
      by_cases c4 : fu ≤ s.fv ∨ s.v = s.x ∨ s.v = s.w
      · rw [if_pos c4]; exact ⟨b1, b2, b3, b4, List.mem_cons_of_mem _ h.mem, hb, hin⟩
      · rw [if_neg c4]; exact ⟨b1, b2, b3, b4, List.mem_cons_of_mem _ h.mem, hb, hin⟩

theorem loopM_inv {f : σ → K → Option (σ × K)} {golden tol a b : K} (hin : ∀ s : St K, s.min ≤ s.x → s.x ≤ s.max → ¬ done tol s → s.min ≤ trial golden tol s ∧ trial golden tol s ≤ s.max) {s0 : σ} {first : K × K} :
    ∀ (n : ℕ) (s : σ) (st : St K) (log : List (K × K)), InvM (log ++ [first]) a b st → Calls f s0 (log ++ [first]) s →
    ∀ t r, loopM f golden tol n s st = some (t, r) → ∃ log', InvM (log' ++ [first]) a b r ∧ Calls f s0 (log' ++ [first]) t ∧ log'.length ≤ log.length + n := by
  intro n
  induction n with
  | zero =>
    intro s st log h1 h2 t r h
    cases h
    exact ⟨log, h1, h2, le_rfl⟩
  | succ n ih =>
    intro s st log h1 h2 t r h
    unfold loopM at h
    split_ifs at h with hd
    · cases h
      exact ⟨log, h1, h2, by omega⟩
    · split at h
      · cases h
      · rename_i s' fu hf
        obtain ⟨i1, i2⟩ := hin st h1.mx h1.xM hd
        obtain ⟨log', a1, a2, a3⟩ := ih s' _ ((trial golden tol st, fu) :: log) (absorb_inv h1 i1 i2 fu) (.call h2 hf) t r h
        exact ⟨log', a1, a2, by simp only [List.length_cons] at a3; omega⟩

end order

section double
variable {p : ℕ}

theorem val_fabs (hp : 0 < p) (a : FNum p) : (fabs a).val = |a.val| := by
  unfold fabs
  split_ifs with h
  · have h : a.val < 0 := by simpa [FNum.lt_iff, FNum.val_zero] using h
    rw [FNum.val_neg hp, abs_of_neg h]
  · have h : ¬ a.val < 0 := by simpa [FNum.lt_iff, FNum.val_zero] using h
    rw [abs_of_nonneg (not_lt.1 h)]

theorem repr_one {p : ℕ} : Fl.Repr p 1 := ⟨1, 0, by rw [abs_one]; exact one_le_pow₀ (by norm_num), by simp⟩

theorem val_two (hp : 0 < p) : (two : FNum p).val = 2 := by
  unfold two
  rw [FNum.val_add, FNum.val_one hp, show (1 : ℚ) + 1 = 2 * 1 by norm_num, Fl.rnd_of_repr hp (Fl.repr_double repr_one)]
  norm_num

theorem val_four (hp : 0 < p) : (four : FNum p).val = 4 := by
  unfold four
  rw [FNum.val_add, val_two hp, show (2 : ℚ) + 2 = 2 * (2 * 1) by norm_num, Fl.rnd_of_repr hp (Fl.repr_double (Fl.repr_double repr_one))]
  norm_num

theorem val_half (hp : 0 < p) (a : FNum p) : (a / two).val = a.val / 2 := by
  rw [FNum.val_div, val_two hp, Fl.rnd_of_repr hp (Fl.repr_half (a.repr_val hp))]

theorem val_twice (hp : 0 < p) (a : FNum p) : (two * a).val = 2 * a.val := by
  rw [FNum.val_mul, val_two hp, Fl.rnd_of_repr hp (Fl.repr_double (a.repr_val hp))]

theorem val_mid (hp : 0 < p) (s : St (FNum p)) : (mid s).val = Fl.rnd p (s.min.val + s.max.val) / 2 := by
  unfold mid
  rw [val_half hp, FNum.val_add]

theorem fract1_nonneg (hp : 0 < p) {tol : FNum p} (ht : 0 ≤ tol.val) (s : St (FNum p)) : 0 ≤ (fract1 tol s).val := by
  unfold fract1
  rw [FNum.val_add, FNum.val_mul, FNum.val_div, val_four hp, val_fabs hp]
  exact Fl.rnd_nonneg (add_nonneg (Fl.rnd_nonneg (by positivity)) (Fl.rnd_nonneg (by positivity)))

theorem rnd_pos (hp : 0 < p) {y : ℚ} (h : 0 < y) : 0 < Fl.rnd p y := by
  have e := (abs_le.1 (Fl.rnd_error p y)).1
  rw [abs_of_pos h] at e
  have : y / 2 ^ p < y := div_lt_self h (one_lt_pow₀ (by norm_num) hp.ne')
  linarith

/-- A difference rounded to at least `2f` is at least `f`. -/
theorem le_of_rnd (hp : 1 ≤ p) {y f : ℚ} (hf : 0 ≤ f) (h : 2 * f ≤ Fl.rnd p y) : f ≤ y := by
  have e := (abs_le.1 (Fl.rnd_error p y)).2
  have hy : 0 ≤ y := by
    by_contra hc
    push Not at hc
    have := Fl.rnd_nonneg (p := p) (x := -y) (by linarith)
    rw [Fl.rnd_neg] at this
    have h0 : Fl.rnd p y = 0 := le_antisymm (by linarith) (by linarith)
    have e' := Fl.rnd_error p y
    rw [h0, zero_sub, abs_neg, abs_of_neg hc, le_div_iff₀ (by positivity)] at e'
    have : (2 : ℚ) ≤ 2 ^ p := by calc (2 : ℚ) = 2 ^ 1 := by norm_num
      _ ≤ 2 ^ p := pow_le_pow_right₀ (by norm_num) hp
    nlinarith
  rw [abs_of_nonneg hy] at e
  have : y / 2 ^ p ≤ y := div_le_self hy (one_le_pow₀ (by norm_num))
  linarith

/-- **In rounded arithmetic the trial point stays in the bracket**, for every tolerance. -/
theorem trial_inside (hp : 3 ≤ p) {golden tol : FNum p} (hg0 : 0 < golden.val) (hg1 : golden.val ≤ 1 / 2) (ht : 0 ≤ tol.val) {s : St (FNum p)} (h1 : s.min ≤ s.x) (h2 : s.x ≤ s.max) (hd : ¬ done tol s) :
    s.min ≤ trial golden tol s ∧ trial golden tol s ≤ s.max := by
  have hp0 : 0 < p := by omega
  have hf0 := fract1_nonneg hp0 ht s
  have hfa : (fabs (fract1 tol s)).val = (fract1 tol s).val := by rw [val_fabs hp0, abs_of_nonneg hf0]
  have R := fun a : FNum p => a.repr_val hp0
  have h1' : s.min.val ≤ s.x.val := h1
  have h2' : s.x.val ≤ s.max.val := h2
  have hmid := val_mid hp0 s
  have hd' : Fl.rnd p (2 * (fract1 tol s).val - Fl.rnd p (s.max.val - s.min.val) / 2) < |Fl.rnd p (s.x.val - Fl.rnd p (s.min.val + s.max.val) / 2)| := by
    unfold done fract2 at hd
    rw [FNum.le_iff, val_fabs hp0, FNum.val_sub, FNum.val_sub, val_half hp0, val_twice hp0, FNum.val_sub, hmid] at hd
    exact not_le.1 hd
  have down : (mid s).val ≤ s.x.val → s.min.val ≤ Fl.rnd p (s.x.val - (fract1 tol s).val) := fun h => Fl.brent_down hp (R _) (R _) (R _) (R _) h1' h2' hf0 (by rw [← hmid]; exact h) hd'
  have up : s.x.val ≤ (mid s).val → Fl.rnd p (s.x.val + (fract1 tol s).val) ≤ s.max.val := fun h => Fl.brent_up hp (R _) (R _) (R _) (R _) h1' h2' hf0 (by rw [← hmid]; exact h) hd'
  -- rounding keeps a number on its side of a number with `p` bits
  have low : ∀ y, s.min.val ≤ y → s.min.val ≤ Fl.rnd p y := fun y h => by have := Fl.rnd_mono hp0 h; rwa [FNum.rnd_val hp0] at this
  have high : ∀ y, y ≤ s.max.val → Fl.rnd p y ≤ s.max.val := fun y h => by have := Fl.rnd_mono hp0 h; rwa [FNum.rnd_val hp0] at this
  have sub_high : ∀ f, 0 ≤ f → Fl.rnd p (s.x.val - f) ≤ s.max.val := fun f h => high _ (by linarith)
  have add_low : ∀ f, 0 ≤ f → s.min.val ≤ Fl.rnd p (s.x.val + f) := fun f h => low _ (by linarith)
  -- two rounded operations
  have part : ∀ m, 0 ≤ m → 0 ≤ Fl.rnd p (golden.val * Fl.rnd p m) ∧ Fl.rnd p (golden.val * Fl.rnd p m) ≤ m := by
    intro m hm
    have hr := Fl.rnd_nonneg (p := p) hm
    refine ⟨Fl.rnd_nonneg (by positivity), ?_⟩
    have a1 : Fl.rnd p (golden.val * Fl.rnd p m) ≤ Fl.rnd p (Fl.rnd p m / 2) := Fl.rnd_mono hp0 (by nlinarith)
    rw [Fl.rnd_of_repr hp0 (Fl.repr_half (Fl.rnd_repr hp0 m))] at a1
    have a2 := (abs_le.1 (Fl.rnd_error p m)).2
    rw [abs_of_nonneg hm] at a2
    have : m / 2 ^ p ≤ m := div_le_self hm (one_le_pow₀ (by norm_num))
    linarith
  -- what the step `delta` has to satisfy
  let Good : FNum p → Prop := fun delta => ((fract1 tol s).val ≤ |delta.val| → s.min.val ≤ Fl.rnd p (s.x.val + delta.val) ∧ Fl.rnd p (s.x.val + delta.val) ≤ s.max.val) ∧
    (|delta.val| < (fract1 tol s).val → (0 < delta.val → Fl.rnd p (s.x.val + (fract1 tol s).val) ≤ s.max.val) ∧ (¬ 0 < delta.val → s.min.val ≤ Fl.rnd p (s.x.val - (fract1 tol s).val)))
  have gold : Good (goldenStep golden s).2 := by
    unfold goldenStep
    dsimp only
    by_cases c : mid s ≤ s.x
    · rw [if_pos c]
      have e : (golden * (s.min - s.x)).val = - Fl.rnd p (golden.val * Fl.rnd p (s.x.val - s.min.val)) := by
        rw [FNum.val_mul, FNum.val_sub, ← Fl.rnd_neg, show s.min.val - s.x.val = -(s.x.val - s.min.val) by ring, Fl.rnd_neg]
        congr 1
        ring
      obtain ⟨q0, q1⟩ := part (s.x.val - s.min.val) (by linarith)
      refine ⟨fun _ => ?_, fun _ => ⟨fun h => ?_, fun _ => down c⟩⟩
      · rw [e, ← sub_eq_add_neg]
        exact ⟨low _ (by linarith), sub_high _ q0⟩
      · rw [e] at h; linarith
    · rw [if_neg c]
      have c' : s.x.val ≤ (mid s).val := (not_le.1 c).le
      have e : (golden * (s.max - s.x)).val = Fl.rnd p (golden.val * Fl.rnd p (s.max.val - s.x.val)) := by
        rw [FNum.val_mul, FNum.val_sub]
      obtain ⟨q0, q1⟩ := part (s.max.val - s.x.val) (by linarith)
      refine ⟨fun _ => ?_, fun hl => ⟨fun h => up c', fun h => ?_⟩⟩
      · rw [e]
        exact ⟨add_low _ q0, high _ (by linarith)⟩
      · have hc : s.x.val < s.max.val := (not_le.1 c : s.x.val < (mid s).val).trans_le (by
          rw [hmid]
          have := Fl.rnd_mono hp0 (show s.min.val + s.max.val ≤ 2 * s.max.val by linarith)
          rw [Fl.rnd_of_repr hp0 (Fl.repr_double (R _))] at this
          linarith)
        rw [e] at h
        exact absurd (rnd_pos hp0 (mul_pos hg0 (rnd_pos hp0 (sub_pos.2 hc)))) h
  have good : Good (deltas golden tol s).2 := by
    unfold deltas
    dsimp only
    by_cases c1 : fract1 tol s < fabs s.delta2
    · rw [if_pos c1]
      split_ifs with c2 c3 c4
      · exact gold
      · rw [FNum.lt_iff, FNum.val_sub, FNum.val_zero] at c4
        have c4 : (mid s).val ≤ s.x.val := by
          by_contra hc
          have := Fl.rnd_nonneg (p := p) (x := (mid s).val - s.x.val) (by linarith)
          linarith
        refine ⟨fun _ => ?_, fun h => ?_⟩
        · dsimp only
          rw [FNum.val_neg hp0, hfa, ← sub_eq_add_neg]
          exact ⟨down c4, sub_high _ hf0⟩
        · dsimp only at h
          rw [FNum.val_neg hp0, hfa, abs_neg, abs_of_nonneg hf0] at h
          exact absurd h (lt_irrefl _)
      · rw [FNum.lt_iff, FNum.val_sub, FNum.val_zero] at c4
        have c4 : s.x.val ≤ (mid s).val := by
          by_contra hc
          have := rnd_pos hp0 (p := p) (y := s.x.val - (mid s).val) (by linarith)
          rw [show s.x.val - (mid s).val = -((mid s).val - s.x.val) by ring, Fl.rnd_neg] at this
          linarith
        refine ⟨fun _ => ?_, fun h => ?_⟩
        · dsimp only
          rw [hfa]
          exact ⟨add_low _ hf0, up c4⟩
        · dsimp only at h
          rw [hfa, abs_of_nonneg hf0] at h
          exact absurd h (lt_irrefl _)
      · dsimp only at c3 ⊢
        generalize (parabola s).1 / (parabola s).2 = delta at c3 ⊢
        push Not at c3
        unfold fract2 at c3
        rw [FNum.le_iff, FNum.le_iff, val_twice hp0, FNum.val_sub, FNum.val_sub, FNum.val_add] at c3
        have k1 := le_of_rnd (by omega) hf0 c3.1
        have k2 := le_of_rnd (by omega) hf0 c3.2
        refine ⟨fun _ => ⟨by linarith, by linarith⟩, fun _ => ⟨fun h => high _ ?_, fun h => low _ ?_⟩⟩
        · have := Fl.rnd_mono hp0 (show s.x.val ≤ s.x.val + delta.val by linarith)
          rw [FNum.rnd_val hp0] at this
          linarith
        · have := Fl.rnd_mono hp0 (show s.x.val + delta.val ≤ s.x.val by linarith)
          rw [FNum.rnd_val hp0] at this
          linarith
    · rw [if_neg c1]
      exact gold
  obtain ⟨g1, g2⟩ := good
  unfold trial
  dsimp only
  by_cases c1 : fract1 tol s ≤ fabs (deltas golden tol s).2
  · rw [if_pos c1]
    rw [FNum.le_iff, val_fabs hp0] at c1
    exact g1 c1
  · rw [if_neg c1]
    rw [FNum.le_iff, val_fabs hp0, not_le] at c1
    by_cases c2 : 0 < (deltas golden tol s).2
    · rw [if_pos c2, FNum.le_iff, FNum.le_iff, FNum.val_add, hfa]
      rw [FNum.lt_iff, FNum.val_zero] at c2
      exact ⟨add_low _ hf0, (g2 c1).1 c2⟩
    · rw [if_neg c2, FNum.le_iff, FNum.le_iff, FNum.val_sub, hfa]
      rw [FNum.lt_iff, FNum.val_zero] at c2
      exact ⟨(g2 c1).2 c2, sub_high _ hf0⟩

/-- **C77**: in double arithmetic, for every function (with or without state, with any values), every bracket, every tolerance that is not negative and every limit of iterations, `minimizeBrent` calls the function within the bracket only, first at its upper end, at most
    `maxiters + 1` times, and returns a point with the smallest value returned. -/
theorem brent_double {σ : Type*} (hp : 3 ≤ p) {f : σ → FNum p → Option (σ × FNum p)} {golden tol a b : FNum p} (hg0 : 0 < golden.val) (hg1 : golden.val ≤ 1 / 2) (ht : 0 ≤ tol.val) (hab : a ≤ b) {maxiters : ℕ} (hm : maxiters ≠ 0) {s t : σ} {r : St (FNum p)}
    (h : minimizeBrentM f golden a b tol maxiters s = some (t, r)) :
    ∃ log y, Calls f s (log ++ [(b, y)]) t ∧ (r.x, r.fx) ∈ log ++ [(b, y)] ∧ (∀ q ∈ log ++ [(b, y)], r.fx ≤ q.2 ∧ a ≤ q.1 ∧ q.1 ≤ b) ∧ log.length ≤ maxiters := by
  unfold minimizeBrentM at h
  split at h
  · cases h
  · rename_i s1 y e1
    obtain ⟨log, c1, c2, c3⟩ := loopM_inv (fun s h1 h2 hd => trial_inside hp hg0 hg1 ht h1 h2 hd) (first := (b, y)) (runs maxiters) _ _ [] (by
      refine ⟨le_rfl, le_rfl, hab, le_rfl, by simp [init], fun q hq => ?_, fun q hq => ?_⟩
      · obtain rfl : q = (b, y) := by simpa using hq
        exact le_rfl
      · obtain rfl : q = (b, y) := by simpa using hq
        exact ⟨hab, le_rfl⟩) (.call .nil e1) _ _ h
    refine ⟨log, y, c2, c1.mem, fun q hq => ⟨c1.best q hq, c1.inside q hq⟩, ?_⟩
    simpa [runs, hm] using c3

/-! ### Accuracy -/

/-- `f` is strictly unimodal on the numbers between `a` and `b`, with minimiser `m`. -/
structure Unimodal (f : FNum p → FNum p) (a b m : FNum p) : Prop where
  hm : a ≤ m ∧ m ≤ b
  dec : ∀ y z, a ≤ y → y < z → z ≤ m → f z < f y
  inc : ∀ y z, m ≤ y → y < z → z ≤ b → f y < f z

/-- `fract1` is large against the spacing of the numbers next to `x` if the tolerance is at least two machine epsilons. -/
theorem fract1_large (hp : 3 ≤ p) {tol : FNum p} (ht : 4 / 2 ^ p ≤ tol.val) (s : St (FNum p)) : 0 < (fract1 tol s).val ∧ 3 * |s.x.val| / 2 ^ p ≤ (fract1 tol s).val := by
  have hp0 : 0 < p := by omega
  have hP : (8 : ℚ) ≤ 2 ^ p := by
    calc (8 : ℚ) = 2 ^ 3 := by norm_num
      _ ≤ 2 ^ p := pow_le_pow_right₀ (by norm_num) hp
  have ht0 : 0 < tol.val := lt_of_lt_of_le (by positivity) ht
  have e : (fract1 tol s).val = Fl.rnd p (Fl.rnd p (tol.val * |s.x.val|) + Fl.rnd p (tol.val / 4)) := by
    unfold fract1
    rw [FNum.val_add, FNum.val_mul, FNum.val_div, val_four hp0, val_fabs hp0]
  have h1 : 0 < Fl.rnd p (tol.val / 4) := rnd_pos hp0 (by positivity)
  have h2 : 0 ≤ Fl.rnd p (tol.val * |s.x.val|) := Fl.rnd_nonneg (by positivity)
  refine ⟨by rw [e]; exact rnd_pos hp0 (by linarith), ?_⟩
  have h3 := Fl.rnd_mono hp0 (show Fl.rnd p (tol.val * |s.x.val|) ≤ Fl.rnd p (tol.val * |s.x.val|) + Fl.rnd p (tol.val / 4) by linarith)
  rw [Fl.rnd_rnd hp0, ← e] at h3
  refine le_trans ?_ h3
  have h4 := (abs_le.1 (Fl.rnd_error p (tol.val * |s.x.val|))).1
  rw [abs_of_nonneg (by positivity)] at h4
  have h5 : 4 / 2 ^ p * |s.x.val| ≤ tol.val * |s.x.val| := mul_le_mul_of_nonneg_right ht (abs_nonneg _)
  have h6 : tol.val * |s.x.val| / 2 ^ p ≤ tol.val * |s.x.val| / 8 := div_le_div_of_nonneg_left (by positivity) (by norm_num) hP
  have h7 : 4 / 2 ^ p * |s.x.val| = 4 * (|s.x.val| / 2 ^ p) := by ring
  have h8 : 3 * |s.x.val| / 2 ^ p = 3 * (|s.x.val| / 2 ^ p) := by ring
  have h9 : 0 ≤ |s.x.val| / 2 ^ p := by positivity
  rw [h8]
  linarith

/-- A step of at least `2|x|/2 ^ p` changes `x`. -/
theorem add_ne (hp : 0 < p) {x d : ℚ} (hx : Fl.Repr p x) (hd : d ≠ 0) (h : 2 * |x| / 2 ^ p ≤ |d|) : Fl.rnd p (x + d) ≠ x := by
  have key : ∀ x d : ℚ, Fl.Repr p x → 0 < d → 2 * |x| / 2 ^ p ≤ d → x < Fl.rnd p (x + d) := by
    intro x d hx hd h
    by_cases h0 : x = 0
    · subst h0; rw [zero_add]; exact rnd_pos hp hd
    · have hu : Fl.ulp p x ≤ d := by
        refine le_trans ?_ h
        rw [le_div_iff₀ (by positivity), Fl.ulp_mul, zpow_add_one₀ (by norm_num)]
        linarith [(Fl.expo_spec h0).1]
      have := Fl.rnd_mono hp (show x + Fl.ulp p x ≤ x + d by linarith)
      rw [Fl.rnd_of_repr hp (Fl.repr_succ hp hx h0)] at this
      linarith [Fl.ulp_pos p x]
  rcases lt_or_gt_of_ne hd with hd | hd
  · rw [abs_of_neg hd] at h
    have := key (-x) (-d) (Fl.repr_neg hx) (by linarith) (by rwa [abs_neg])
    rw [← neg_add, Fl.rnd_neg] at this
    exact fun e => by rw [e] at this; exact lt_irrefl _ this
  · rw [abs_of_pos hd] at h
    exact (key x d hx hd h).ne'

/-- The trial point is a new one if the tolerance is at least two machine epsilons. -/
theorem trial_ne (hp : 3 ≤ p) {golden tol : FNum p} (ht : 4 / 2 ^ p ≤ tol.val) (s : St (FNum p)) : trial golden tol s ≠ s.x := by
  have hp0 : 0 < p := by omega
  obtain ⟨f0, f1⟩ := fract1_large hp ht s
  have hfa : (fabs (fract1 tol s)).val = (fract1 tol s).val := by rw [val_fabs hp0, abs_of_pos f0]
  have h9 : 0 ≤ |s.x.val| / 2 ^ p := by positivity
  have f2 : 2 * |s.x.val| / 2 ^ p ≤ (fract1 tol s).val := by
    have e2 : 2 * |s.x.val| / 2 ^ p = 2 * (|s.x.val| / 2 ^ p) := by ring
    have e3 : 3 * |s.x.val| / 2 ^ p = 3 * (|s.x.val| / 2 ^ p) := by ring
    linarith
  intro he
  have he := congrArg FNum.val he
  unfold trial at he
  dsimp only at he
  split_ifs at he with c1 c2
  · rw [FNum.le_iff, val_fabs hp0] at c1
    rw [FNum.val_add] at he
    exact add_ne hp0 (s.x.repr_val hp0) (fun e => by rw [e, abs_zero] at c1; linarith) (f2.trans c1) he
  · rw [FNum.val_add, hfa] at he
    exact add_ne hp0 (s.x.repr_val hp0) f0.ne' (by rwa [abs_of_pos f0]) he
  · rw [FNum.val_sub, hfa, sub_eq_add_neg] at he
    exact add_ne hp0 (s.x.repr_val hp0) (neg_ne_zero.2 f0.ne') (by rwa [abs_neg, abs_of_pos f0]) he

theorem absorb_bracket {f : FNum p → FNum p} {golden tol a b m : FNum p} {log} {s : St (FNum p)} (h : InvM log a b s) (hfx : s.fx = f s.x) (t1 : s.min ≤ trial golden tol s) (t2 : trial golden tol s ≤ s.max) (hne : trial golden tol s ≠ s.x)
    (hu : Unimodal f a b m) (hm : s.min ≤ m ∧ m ≤ s.max) : (absorb golden tol s (f (trial golden tol s))).min ≤ m ∧ m ≤ (absorb golden tol s (f (trial golden tol s))).max ∧
    (absorb golden tol s (f (trial golden tol s))).fx = f (absorb golden tol s (f (trial golden tol s))).x := by
  have l1 := le_trans h.lo h.mx; have l2 := le_trans h.xM h.hi
  have l3 := le_trans h.lo t1; have l4 := le_trans t2 h.hi
  unfold absorb
  dsimp only
  generalize trial golden tol s = u at *
  by_cases c1 : f u ≤ s.fx
  · rw [if_pos c1]
    by_cases c2 : s.x ≤ u
    · simp only [c2, if_true]
      refine ⟨?_, hm.2, trivial⟩
      by_contra hc
      have := hu.inc s.x u (not_le.1 hc).le (lt_of_le_of_ne c2 hne.symm) l4
      rw [← hfx] at this; exact absurd c1 (not_le.2 this)
    · simp only [c2, if_false]
      refine ⟨hm.1, ?_, trivial⟩
      by_contra hc
      have := hu.dec u s.x l3 (not_le.1 c2) (not_le.1 hc).le
      rw [← hfx] at this; exact absurd c1 (not_le.2 this)
  · rw [if_neg c1]
    have key : (if u < s.x then u else s.min) ≤ m ∧ m ≤ (if u < s.x then s.max else u) := by
      by_cases c2 : u < s.x
      · rw [if_pos c2, if_pos c2]
        refine ⟨?_, hm.2⟩
        by_contra hc
        have := hu.inc u s.x (not_le.1 hc).le c2 l2
        rw [← hfx] at this; exact c1 this.le
      · rw [if_neg c2, if_neg c2]
        refine ⟨hm.1, ?_⟩
        by_contra hc
        have := hu.dec s.x u l1 (lt_of_le_of_ne (not_lt.1 c2) hne.symm) (not_le.1 hc).le
        rw [← hfx] at this; exact c1 this.le
    by_cases c3 : f u ≤ s.fw ∨ s.w = s.x
    · rw [if_pos c3]; exact ⟨key.1, key.2, hfx⟩
    · rw [if_neg c3]
      by_cases c4 : f u ≤ s.fv ∨ s.v = s.x ∨ s.v = s.w
      · rw [if_pos c4]; exact ⟨key.1, key.2, hfx⟩
      · rw [if_neg c4]; exact ⟨key.1, key.2, hfx⟩

/-- Whatever the function: the loop ends through its test or after `n` iterations. -/
theorem loopM_bracket (hp : 3 ≤ p) {f : FNum p → FNum p} {golden tol a b m : FNum p} (hg0 : 0 < golden.val) (hg1 : golden.val ≤ 1 / 2) (ht : 4 / 2 ^ p ≤ tol.val) (hu : Unimodal f a b m) (n : ℕ) (s : St (FNum p)) {log} (h : InvM log a b s) (hfx : s.fx = f s.x)
    (hm : s.min ≤ m ∧ m ≤ s.max) {r} (hr : loopM (fun (_ : Unit) t => some ((), f t)) golden tol n () s = some ((), r)) : r.min ≤ m ∧ m ≤ r.max ∧ r.min ≤ r.x ∧ r.x ≤ r.max := by
  induction n generalizing s log with
  | zero => cases hr; exact ⟨hm.1, hm.2, h.mx, h.xM⟩
  | succ n ih =>
    unfold loopM at hr
    split_ifs at hr with hd
    · cases hr; exact ⟨hm.1, hm.2, h.mx, h.xM⟩
    · obtain ⟨i1, i2⟩ := trial_inside hp hg0 hg1 (le_trans (by positivity) ht) h.mx h.xM hd
      obtain ⟨b1, b2, b3⟩ := absorb_bracket h hfx i1 i2 (trial_ne hp ht s) hu hm
      exact ih _ (absorb_inv h i1 i2 _) b3 ⟨b1, b2⟩ hr

/-- What the exit test means in rounded arithmetic. -/
theorem done_width (hp : 5 ≤ p) {tol : FNum p} (ht : 4 / 2 ^ p ≤ tol.val) {s : St (FNum p)} (h1 : s.min ≤ s.x) (h2 : s.x ≤ s.max) (hd : done tol s) : s.x.val - s.min.val ≤ 3 * (fract1 tol s).val ∧ s.max.val - s.x.val ≤ 3 * (fract1 tol s).val := by
  have hp0 : 0 < p := by omega
  have h1' : s.min.val ≤ s.x.val := h1
  have h2' : s.x.val ≤ s.max.val := h2
  obtain ⟨f0, f1⟩ := fract1_large (by omega) ht s
  unfold done fract2 at hd
  rw [FNum.le_iff, val_fabs hp0, FNum.val_sub, FNum.val_sub, val_half hp0, val_twice hp0, FNum.val_sub, val_mid hp0] at hd
  generalize (fract1 tol s).val = f at *
  generalize s.min.val = a at *
  generalize s.max.val = b at *
  generalize s.x.val = x at *
  have e1 := abs_le.1 (Fl.rnd_error p (a + b))
  have e2 := abs_le.1 (Fl.rnd_error p (b - a))
  have e3 := Fl.rnd_error p (x - Fl.rnd p (a + b) / 2)
  have e4 := abs_le.1 (Fl.rnd_error p (2 * f - Fl.rnd p (b - a) / 2))
  have hB : 0 ≤ 2 * f - Fl.rnd p (b - a) / 2 := by
    by_contra hc
    have := rnd_pos hp0 (p := p) (y := -(2 * f - Fl.rnd p (b - a) / 2)) (by linarith)
    rw [Fl.rnd_neg] at this
    have := abs_nonneg (Fl.rnd p (x - Fl.rnd p (a + b) / 2))
    linarith
  rw [abs_of_nonneg (by linarith : 0 ≤ b - a)] at e2
  rw [abs_of_nonneg hB] at e4
  have hP : (32 : ℚ) ≤ 2 ^ p := by
    calc (32 : ℚ) = 2 ^ 5 := by norm_num
      _ ≤ 2 ^ p := pow_le_pow_right₀ (by norm_num) hp
  have dv : ∀ y : ℚ, 0 ≤ y → y / 2 ^ p ≤ y / 32 := fun y hy => div_le_div_of_nonneg_left hy (by norm_num) hP
  have hA : 31 * |x - Fl.rnd p (a + b) / 2| ≤ 33 * (2 * f - Fl.rnd p (b - a) / 2) := by
    have i1 := dv _ (abs_nonneg (x - Fl.rnd p (a + b) / 2))
    have i2 := dv _ hB
    have i3 := abs_sub_abs_le_abs_sub (x - Fl.rnd p (a + b) / 2) (Fl.rnd p (x - Fl.rnd p (a + b) / 2))
    rw [abs_sub_comm (x - Fl.rnd p (a + b) / 2)] at i3
    linarith
  have hS : |a + b| / 2 ^ p ≤ 2 * |x| / 2 ^ p + (b - a) / 32 := by
    have : |a + b| ≤ 2 * |x| + (b - a) := by
      rcases abs_cases (a + b) with ⟨h, -⟩ | ⟨h, -⟩ <;> linarith [le_abs_self x, neg_abs_le x]
    refine (div_le_div_of_nonneg_right this (by positivity)).trans ?_
    rw [add_div]
    linarith [dv (b - a) (by linarith)]
  have hX : 2 * |x| / 2 ^ p ≤ 2 / 3 * f := by
    have : 2 * |x| / 2 ^ p = 2 / 3 * (3 * |x| / 2 ^ p) := by ring
    rw [this]; linarith
  have hD := dv (b - a) (by linarith)
  obtain ⟨a1, a2⟩ := abs_le.1 (le_refl |x - Fl.rnd p (a + b) / 2|)
  constructor <;> linarith

/-- **C77 (accuracy)**: if the tolerance is at least two machine epsilons, the function is strictly unimodal on the numbers of the bracket and the iterations end through the exit test, the result is within `3 * fract1 ≈ 3 * tol * |x| + 3/4 * tol` of the minimiser. -/
theorem brent_double_accurate (hp : 5 ≤ p) {f : FNum p → FNum p} {golden tol a b m : FNum p} (hg0 : 0 < golden.val) (hg1 : golden.val ≤ 1 / 2) (ht : 4 / 2 ^ p ≤ tol.val) (hu : Unimodal f a b m) {maxiters : ℕ} {r : St (FNum p)}
    (h : minimizeBrentM (fun (_ : Unit) t => some ((), f t)) golden a b tol maxiters () = some ((), r)) :
    r.min ≤ m ∧ m ≤ r.max ∧ (done tol r → |r.x.val - m.val| ≤ 3 * (fract1 tol r).val) := by
  have hab := hu.hm.1.trans hu.hm.2
  unfold minimizeBrentM at h
  dsimp only at h
  obtain ⟨c1, c2, c3, c4⟩ := loopM_bracket (by omega) hg0 hg1 ht hu (runs maxiters) _ (log := [(b, f b)]) (by
    refine ⟨le_rfl, le_rfl, hab, le_rfl, by simp [init], fun q hq => ?_, fun q hq => ?_⟩
    · obtain rfl : q = (b, f b) := by simpa using hq
      exact le_rfl
    · obtain rfl : q = (b, f b) := by simpa using hq
      exact ⟨hab, le_rfl⟩) rfl hu.hm h
  refine ⟨c1, c2, fun hd => ?_⟩
  obtain ⟨w1, w2⟩ := done_width hp ht c3 c4 hd
  have c1 : r.min.val ≤ m.val := c1
  have c2 : m.val ≤ r.max.val := c2
  rw [abs_le]
  constructor <;> linarith

/-! ### A tolerance below the precision -/

section tiny
variable {σ : Type*} {f : σ → FNum p → Option (σ × FNum p)} {golden tol : FNum p}

theorem loopM_add (n k : ℕ) (s : σ) (b : St (FNum p)) : loopM f golden tol (n + k) s b = (loopM f golden tol n s b).bind fun r => loopM f golden tol k r.1 r.2 := by
  induction n generalizing s b with
  | zero => rw [Nat.zero_add]; rfl
  | succ n ih =>
    have e : ∀ j, loopM f golden tol (j + 1) s b = if done tol b then some (s, b) else (f s (trial golden tol b)).bind fun r => loopM f golden tol j r.1 (absorb golden tol b r.2) := by
      intro j
      conv_lhs => unfold loopM
      cases f s (trial golden tol b) <;> rfl
    rw [show n + 1 + k = (n + k) + 1 by omega, e, e]
    split_ifs with hd
    · cases k with
      | zero => rfl
      | succ k => rw [Option.bind_some, e, if_pos hd]
    · cases f s (trial golden tol b) with
      | none => rfl
      | some r => exact ih _ _

end tiny

/-- `golden`, Utils.cpp:368, as a `double`. -/
def goldenD : Double := .fl (3819660 / 10000000)

/-- The value at 1, about 1.99999996. -/
def topValue : Double := .fl (0x1ffffff512e4a4 / 2 ^ 52)

/-- An increasing function on [0, 1]. -/
def ramp (t : Double) : Double := if t = 1 then topValue else t

/-- The tolerance 10⁻¹⁷. -/
def tinyTol : Double := .fl (1 / 10 ^ 17)

theorem ramp_start : ((loopM (fun (_ : Unit) t => some ((), ramp t)) goldenD tinyTol 3 () (init (ramp 1) 0 1)).map fun r => decide (38 / 100 ≤ r.2.min.val ∧ r.2.min ≤ r.2.x ∧ r.2.x ≤ r.2.max ∧ r.2.max ≤ 1)) = some true := by
  decide +kernel

/-- **C77 fails below the precision**: the function `ramp` increases strictly from its minimum 0 at 0; with the tolerance 10⁻¹⁷ and any limit of at least three iterations the result is at least 0.38.  The parabola through the first three points has its vertex so close to the best of them
    that the step is lost by rounding; the function is called at the same point again, and the part of the bracket with the minimum is dropped. -/
theorem brent_tiny_tolerance (maxiters : ℕ) (h3 : 3 ≤ maxiters) : (∀ y z : Double, 0 ≤ y → y < z → z ≤ 1 → ramp y < ramp z) ∧ (ramp 0).val = 0 ∧
    ∃ r, minimizeBrentM (fun (_ : Unit) t => some ((), ramp t)) goldenD 0 1 tinyTol maxiters () = some ((), r) ∧ 38 / 100 ≤ r.x.val ∧ r.x ≤ 1 := by
  have h1 : (1 : Double).val = 1 := FNum.val_one (by norm_num)
  have htop : (1 : ℚ) < topValue.val := by decide +kernel
  refine ⟨fun y z h0 hyz hz1 => ?_, ?_, ?_⟩
  · have hy : y ≠ 1 := (hyz.trans_le hz1).ne
    unfold ramp
    rw [if_neg hy]
    split_ifs with hz
    · subst hz
      rw [FNum.lt_iff] at hyz ⊢
      rw [h1] at hyz
      linarith
    · exact hyz
  · decide +kernel
  · obtain ⟨k, rfl⟩ : ∃ k, maxiters = 3 + k := ⟨maxiters - 3, by omega⟩
    have e := ramp_start
    rw [Option.map_eq_some_iff] at e
    obtain ⟨⟨⟨⟩, s⟩, e1, e2⟩ := e
    obtain ⟨g1, g2, g3, g4⟩ := of_decide_eq_true e2
    dsimp only at g1 g2 g3 g4
    have hrun : ∀ n (u : Unit) (b : St Double), ∃ r, loopM (fun (_ : Unit) t => some ((), ramp t)) goldenD tinyTol n u b = some ((), r) := by
      intro n
      induction n with
      | zero => exact fun _ b => ⟨b, rfl⟩
      | succ n ih =>
        intro u b
        unfold loopM
        split_ifs
        · exact ⟨b, rfl⟩
        · exact ih _ _
    obtain ⟨r, hr⟩ := hrun k () s
    refine ⟨r, ?_, ?_⟩
    · unfold minimizeBrentM
      dsimp only
      rw [runs, if_neg (by omega), loopM_add, e1]
      exact hr
    · have hkeep : ∀ n (b : St Double) log, InvM log s.min s.max b → ∀ r, loopM (fun (_ : Unit) t => some ((), ramp t)) goldenD tinyTol n () b = some ((), r) → s.min ≤ r.x ∧ r.x ≤ s.max := by
        intro n
        induction n with
        | zero => intro b log h r hr; cases hr; exact ⟨h.lo.trans h.mx, h.xM.trans h.hi⟩
        | succ n ih =>
          intro b log h r hr
          unfold loopM at hr
          split_ifs at hr with hd
          · cases hr; exact ⟨h.lo.trans h.mx, h.xM.trans h.hi⟩
          · obtain ⟨i1, i2⟩ := trial_inside (golden := goldenD) (tol := tinyTol) (by norm_num) (by decide +kernel) (by decide +kernel) (by decide +kernel) h.mx h.xM hd
            exact ih _ _ (absorb_inv h i1 i2 _) r hr
      obtain ⟨k1, k2⟩ := hkeep k s [(s.x, s.fx)] ⟨le_rfl, le_rfl, g2, g3, by simp, fun q hq => by rw [List.mem_singleton.1 hq], fun q hq => by rw [List.mem_singleton.1 hq]; exact ⟨g2, g3⟩⟩ r hr
      exact ⟨g1.trans ((FNum.le_iff ..).1 k1), k2.trans g4⟩

/-- The tolerance 10⁻⁵. -/
def testTol : Double := .fl (1 / 10 ^ 5)

/-- `brent_double` with the constant and the interval of the line search, a tolerance of 10⁻⁵ and the function `x ↦ x`: the call returns, and the point returned is in the interval. -/
example : ∃ r, minimizeBrentM (fun (_ : Unit) t => some ((), t)) goldenD 0 1 testTol 10 () = some ((), r) ∧ (0 : Double) ≤ r.x ∧ r.x ≤ 1 := by
  have h : (minimizeBrentM (fun (_ : Unit) (t : Double) => some ((), t)) goldenD 0 1 testTol 10 ()).isSome = true := by decide +kernel
  obtain ⟨⟨⟨⟩, r⟩, hr⟩ := Option.isSome_iff_exists.1 h
  obtain ⟨log, y, -, h2, h3, -⟩ := brent_double (by norm_num) (by decide +kernel) (by decide +kernel) (by decide +kernel) (by decide +kernel) (by norm_num) hr
  exact ⟨r, hr, (h3 _ h2).2⟩

/-- `brent_double_accurate` with the same function: the iterations end through the exit test, and the result is within 10⁻⁵ of the minimiser 0. -/
example : ∃ r, minimizeBrentM (fun (_ : Unit) t => some ((), t)) goldenD 0 1 testTol 100 () = some ((), r) ∧ |r.x.val| ≤ 1 / 10 ^ 5 := by
  have h : ((minimizeBrentM (fun (_ : Unit) (t : Double) => some ((), t)) goldenD 0 1 testTol 100 ()).map fun r => decide (done testTol r.2 ∧ 3 * (fract1 testTol r.2).val ≤ 1 / 10 ^ 5)) = some true := by decide +kernel
  obtain ⟨⟨⟨⟩, r⟩, hr, hd⟩ := Option.map_eq_some_iff.1 h
  obtain ⟨d1, d2⟩ := of_decide_eq_true hd
  have := (brent_double_accurate (m := 0) (by norm_num) (by decide +kernel) (by decide +kernel) (by decide +kernel) ⟨by decide +kernel, fun y z h1 h2 h3 => absurd (h2.trans_le h3) (not_lt.2 h1), fun y z _ h _ => h⟩ hr).2.2 d1
  rw [FNum.val_zero, sub_zero] at this
  exact ⟨r, hr, this.trans d2⟩

end double

section exact
variable {K : Type*} [Field K] [LinearOrder K] [IsStrictOrderedRing K] {σ : Type*}

theorem fabs_eq (a : K) : fabs a = |a| := by
  unfold fabs
  split_ifs with h
  · rw [abs_of_neg h]
  · rw [abs_of_nonneg (not_lt.1 h)]

theorem two_eq : (two : K) = 2 := by unfold two; norm_num
theorem four_eq : (four : K) = 4 := by unfold four; rw [two_eq]; norm_num
theorem mid_eq (s : St K) : mid s = s.mid := by unfold mid St.mid; rw [two_eq]
theorem fract1_eq (tol : K) (s : St K) : fract1 tol s = Brent.fract1 tol s := by unfold fract1 Brent.fract1; rw [fabs_eq, four_eq]
theorem fract2_eq (tol : K) (s : St K) : fract2 tol s = Brent.fract2 tol s := by unfold fract2 Brent.fract2; rw [fract1_eq, two_eq]
theorem done_iff (tol : K) (s : St K) : done tol s ↔ Brent.done tol s := by unfold done Brent.done; rw [fabs_eq, mid_eq, fract2_eq, two_eq]
theorem goldenStep_eq (golden : K) (s : St K) : goldenStep golden s = Brent.goldenStep golden s := by unfold goldenStep Brent.goldenStep; rw [mid_eq]
theorem parabola_eq (s : St K) : parabola s = Brent.parabola s := by unfold parabola Brent.parabola; simp only [two_eq, fabs_eq]
theorem deltas_eq (golden tol : K) (s : St K) : deltas golden tol s = Brent.deltas golden tol s := by
  unfold deltas Brent.deltas
  simp only [fract1_eq, fract2_eq, fabs_eq, two_eq, parabola_eq, goldenStep_eq, mid_eq]
theorem trial_eq (golden tol : K) (s : St K) : trial golden tol s = Brent.trial golden tol s := by
  unfold trial Brent.trial
  simp only [fract1_eq, fabs_eq, deltas_eq]
theorem absorb_eq (golden tol : K) (s : St K) (fu : K) : absorb golden tol s fu = Brent.absorb golden tol s fu := by
  unfold absorb Brent.absorb
  simp only [deltas_eq, trial_eq]
theorem loopM_eq (f : σ → K → Option (σ × K)) (golden tol : K) (n : ℕ) (s : σ) (b : St K) : loopM f golden tol n s b = Brent.loopM f golden tol n s b := by
  induction n generalizing s b with
  | zero => rfl
  | succ n ih =>
    unfold loopM Brent.loopM
    simp only [done_iff, trial_eq, absorb_eq, ih]
    split_ifs
    · rfl
    · cases f s (Brent.trial golden tol b) <;> rfl

/-- In exact arithmetic this is the program of C06. -/
theorem minimizeBrentM_exact (f : σ → K → Option (σ × K)) (golden min max tol : K) (maxiters : ℕ) (s : σ) : minimizeBrentM f golden min max tol maxiters s = Brent.minimizeBrentM f golden min max tol maxiters s := by
  unfold minimizeBrentM Brent.minimizeBrentM initM
  cases f s max with
  | none => rfl
  | some r => exact loopM_eq _ _ _ _ _ _

end exact

end Optima.Brent.Num
