import Verif.Model.Brent
import Verif.Lemmas.Tactics

/-! # Property C06: Brent minimisation -/

set_option linter.unusedSectionVars false

namespace Optima.Brent

variable {K : Type*} [Field K] [LinearOrder K] [IsStrictOrderedRing K]

/-- The loop invariant. -/
structure Inv (f : K → K) (a b : K) (s : St K) : Prop where
  lo : a ≤ s.min
  hi : s.max ≤ b
  mx : s.min ≤ s.x
  xM : s.x ≤ s.max
  fx : s.fx = f s.x
  xlog : s.x ∈ s.log
  best : ∀ y ∈ s.log, s.fx ≤ f y
  inside : ∀ y ∈ s.log, a ≤ y ∧ y ≤ b

/-- Not being done means that one of the two sides of the bracket is longer than `2*fract1`, and on which side. -/
theorem not_done_side {tol : K} {s : St K} (hd : ¬ done tol s) :
    (s.mid ≤ s.x → fract2 tol s < s.x - s.min) ∧ (s.x < s.mid → fract2 tol s < s.max - s.x) ∧
    (s.mid - s.x < 0 → fract2 tol s < s.x - s.min) ∧ (¬ s.mid - s.x < 0 → fract2 tol s < s.max - s.x) := by
  unfold done at hd
  have hm : s.mid = (s.min + s.max) / 2 := rfl
  push Not at hd
  rcases le_total s.mid s.x with h | h
  · rw [abs_of_nonneg (by linarith)] at hd
    refine ⟨fun _ => by linarith, fun _ => by linarith, fun _ => by linarith, fun _ => ?_⟩
    linarith
  · rw [abs_of_nonpos (by linarith)] at hd
    refine ⟨fun _ => by linarith, fun _ => by linarith, fun _ => by linarith, fun _ => by linarith⟩

/-- The trial point computed from a valid bracket stays in the bracket, at distance at least `fract1` from `x`. -/
theorem trial_inside {golden tol : K} (hg0 : 0 < golden) (hg1 : golden ≤ 1) (ht : 0 ≤ tol) {s : St K}
    (h1 : s.min ≤ s.x) (h2 : s.x ≤ s.max) (hd : ¬ done tol s) :
    s.min ≤ trial golden tol s ∧ trial golden tol s ≤ s.max ∧ fract1 tol s ≤ |trial golden tol s - s.x| := by
  have hf1 : 0 ≤ fract1 tol s := by unfold fract1; positivity
  have habs : |fract1 tol s| = fract1 tol s := abs_of_nonneg hf1
  obtain ⟨s1, s2, s3, s4⟩ := not_done_side hd
  have hf2 : fract2 tol s = 2 * fract1 tol s := rfl
  have hdist : fract1 tol s ≤ |trial golden tol s - s.x| := by
    unfold trial
    dsimp only
    split_ifs with c1 c2
    · simpa using c1
    · simp [habs]
    · simp [habs]
  have main : ∀ delta, (deltas golden tol s).2 = delta →
      (fract1 tol s ≤ |delta| → s.min ≤ s.x + delta ∧ s.x + delta ≤ s.max) ∧
      (0 < delta → s.x + fract1 tol s ≤ s.max) ∧ (¬ 0 < delta → |delta| < fract1 tol s → s.min ≤ s.x - fract1 tol s) := by
    have gold : ∀ delta, (goldenStep golden s).2 = delta →
      (fract1 tol s ≤ |delta| → s.min ≤ s.x + delta ∧ s.x + delta ≤ s.max) ∧
      (0 < delta → s.x + fract1 tol s ≤ s.max) ∧ (¬ 0 < delta → |delta| < fract1 tol s → s.min ≤ s.x - fract1 tol s) := by
      rintro delta rfl
      unfold goldenStep
      dsimp only
      split_ifs with hm
      · have := s1 hm
        refine ⟨fun _ => ⟨by nlinarith, by nlinarith⟩, fun h => ?_, fun _ _ => by linarith⟩
        exact absurd h (not_lt.2 (mul_nonpos_of_nonneg_of_nonpos hg0.le (by linarith)))
      · have := s2 (not_le.1 hm)
        refine ⟨fun _ => ⟨by nlinarith, by nlinarith⟩, fun h => by linarith, fun h h' => ?_⟩
        exact absurd (mul_pos hg0 (by linarith)) h
    intro delta hdelta
    unfold deltas at hdelta
    dsimp only at hdelta
    split_ifs at hdelta with c1 c2 c3 c4
    · exact gold delta hdelta
    · have := s3 c4
      subst hdelta
      dsimp only
      rw [habs]
      refine ⟨fun _ => ⟨by linarith, by linarith⟩, fun h => by linarith, fun _ _ => by linarith⟩
    · have := s4 c4
      subst hdelta
      dsimp only
      rw [habs]
      refine ⟨fun _ => ⟨by linarith, by linarith⟩, fun h => by linarith, fun _ h => ?_⟩
      rw [habs] at h; exact absurd h (lt_irrefl _)
    · push Not at c2 c3
      subst hdelta
      dsimp only at c2 c3 ⊢
      have hq0 : 0 ≤ (parabola s).2 := abs_nonneg _
      generalize (parabola s).1 = p at c2 c3 ⊢
      generalize (parabola s).2 = q at c2 c3 hq0 ⊢
      have hqpos : 0 < q := by
        rcases hq0.lt_or_eq with h | h
        · exact h
        · rw [← h] at c2
          have := c2.1
          simp at this
          exact absurd this (not_lt.2 (abs_nonneg p))
      obtain ⟨-, b1, b2⟩ := c2
      have d1 : s.min - s.x < p / q := by rw [lt_div_iff₀ hqpos]; linarith
      have d2 : p / q < s.max - s.x := by rw [div_lt_iff₀ hqpos]; linarith
      refine ⟨fun _ => ⟨by linarith, by linarith⟩, fun h => by linarith, fun h _ => by linarith⟩
    · exact gold delta hdelta
  obtain ⟨m1, m2, m3⟩ := main _ rfl
  refine ⟨?_, ?_, hdist⟩
  · unfold trial; dsimp only
    split_ifs with c1 c2
    · exact (m1 c1).1
    · rw [habs]; linarith
    · rw [habs]; exact m3 c2 (not_le.1 c1)
  · unfold trial; dsimp only
    split_ifs with c1 c2
    · exact (m1 c1).2
    · rw [habs]; exact m2 c2
    · rw [habs]; linarith

/-- The trial point lies strictly inside the bracket (`golden < 1`, positive tolerance). -/
theorem trial_strict {golden tol : K} (hg0 : 0 < golden) (hg1 : golden < 1) (ht : 0 < tol) {s : St K}
    (h1 : s.min ≤ s.x) (h2 : s.x ≤ s.max) (hd : ¬ done tol s) : s.min < trial golden tol s ∧ trial golden tol s < s.max := by
  have hf1 : 0 < fract1 tol s := by unfold fract1; positivity
  have habs : |fract1 tol s| = fract1 tol s := abs_of_pos hf1
  obtain ⟨s1, s2, s3, s4⟩ := not_done_side hd
  have hf2 : fract2 tol s = 2 * fract1 tol s := rfl
  have main : ∀ delta, (deltas golden tol s).2 = delta →
      (fract1 tol s ≤ |delta| → s.min < s.x + delta ∧ s.x + delta < s.max) ∧
      (0 < delta → |delta| < fract1 tol s → s.x + fract1 tol s < s.max) ∧ (¬ 0 < delta → |delta| < fract1 tol s → s.min < s.x - fract1 tol s) := by
    have gold : ∀ delta, (goldenStep golden s).2 = delta →
      (fract1 tol s ≤ |delta| → s.min < s.x + delta ∧ s.x + delta < s.max) ∧
      (0 < delta → |delta| < fract1 tol s → s.x + fract1 tol s < s.max) ∧ (¬ 0 < delta → |delta| < fract1 tol s → s.min < s.x - fract1 tol s) := by
      rintro delta rfl
      unfold goldenStep
      dsimp only
      split_ifs with hm
      · have := s1 hm
        refine ⟨fun _ => ⟨by nlinarith, by nlinarith⟩, fun h => ?_, fun _ _ => by linarith⟩
        exact absurd h (not_lt.2 (mul_nonpos_of_nonneg_of_nonpos hg0.le (by linarith)))
      · have := s2 (not_le.1 hm)
        refine ⟨fun _ => ⟨by nlinarith, by nlinarith⟩, fun h _ => by linarith, fun h h' => ?_⟩
        exact absurd (mul_pos hg0 (by linarith)) h
    intro delta hdelta
    unfold deltas at hdelta
    dsimp only at hdelta
    split_ifs at hdelta with c1 c2 c3 c4
    · exact gold delta hdelta
    · have := s3 c4
      subst hdelta
      dsimp only
      rw [habs]
      refine ⟨fun _ => ⟨by linarith, by linarith⟩, fun h => by linarith, fun _ _ => by linarith⟩
    · have := s4 c4
      subst hdelta
      dsimp only
      rw [habs]
      refine ⟨fun _ => ⟨by linarith, by linarith⟩, fun h _ => by linarith, fun _ h => ?_⟩
      rw [habs] at h; exact absurd h (lt_irrefl _)
    · push Not at c2 c3
      subst hdelta
      dsimp only at c2 c3 ⊢
      have hq0 : 0 ≤ (parabola s).2 := abs_nonneg _
      generalize (parabola s).1 = p at c2 c3 ⊢
      generalize (parabola s).2 = q at c2 c3 hq0 ⊢
      have hqpos : 0 < q := by
        rcases hq0.lt_or_eq with h | h
        · exact h
        · rw [← h] at c2
          have := c2.1
          simp at this
          exact absurd this (not_lt.2 (abs_nonneg p))
      obtain ⟨-, b1, b2⟩ := c2
      have d1 : s.min - s.x < p / q := by rw [lt_div_iff₀ hqpos]; linarith
      have d2 : p / q < s.max - s.x := by rw [div_lt_iff₀ hqpos]; linarith
      refine ⟨fun _ => ⟨by linarith, by linarith⟩, fun h h' => ?_, fun h h' => ?_⟩
      · rw [abs_lt] at h'; linarith [h'.1, h'.2]
      · rw [abs_lt] at h'; linarith [h'.1, h'.2]
    · exact gold delta hdelta
  obtain ⟨m1, m2, m3⟩ := main _ rfl
  unfold trial; dsimp only
  split_ifs with c1 c2
  · exact m1 c1
  · rw [habs]; exact ⟨by linarith, m2 c2 (not_le.1 c1)⟩
  · rw [habs]; exact ⟨m3 c2 (not_le.1 c1), by linarith⟩

theorem init_inv (f : K → K) {a b : K} (hab : a ≤ b) : Inv f a b (init f a b) := by
  refine ⟨le_rfl, le_rfl, hab, le_rfl, rfl, by simp [init], ?_, ?_⟩ <;> simp [init, hab]

theorem update_inv {f : K → K} {golden tol a b : K} (hg0 : 0 < golden) (hg1 : golden ≤ 1) (ht : 0 ≤ tol) {s : St K}
    (h : Inv f a b s) (hd : ¬ done tol s) : Inv f a b (update f golden tol s) := by
  obtain ⟨t1, t2, -⟩ := trial_inside hg0 hg1 ht h.mx h.xM hd
  unfold update absorb
  dsimp only
  generalize trial golden tol s = u at *
  have hu : a ≤ u ∧ u ≤ b := ⟨le_trans h.lo t1, le_trans t2 h.hi⟩
  have hin : ∀ y ∈ u :: s.log, a ≤ y ∧ y ≤ b := by
    intro y hy; rcases List.mem_cons.1 hy with rfl | hy; exacts [hu, h.inside y hy]
  have := h.lo; have := h.hi; have := h.mx; have := h.xM
  split_ifs with c1 c2 c3 c4 c5 c6
  · exact ⟨by dsimp only; linarith, by dsimp only; linarith, c2, t2, rfl, by simp, by
      intro y hy; rcases List.mem_cons.1 hy with rfl | hy
      · exact le_rfl
      · exact le_trans c1 (h.best y hy), hin⟩
  · exact ⟨by dsimp only; linarith, by dsimp only; linarith, t1, (not_le.1 c2).le, rfl, by simp, by
      intro y hy; rcases List.mem_cons.1 hy with rfl | hy
      · exact le_rfl
      · exact le_trans c1 (h.best y hy), hin⟩
  all_goals
    refine ⟨?_, ?_, ?_, ?_, h.fx, List.mem_cons_of_mem _ h.xlog, ?_, hin⟩
    · dsimp only; linarith [hu.1]
    · dsimp only; linarith [hu.2]
    · dsimp only; linarith
    · dsimp only; linarith
    · intro y hy; rcases List.mem_cons.1 hy with rfl | hy
      · exact (not_le.1 c1).le
      · exact h.best y hy

theorem update_log (f : K → K) (golden tol : K) (s : St K) :
    (update f golden tol s).log.length = s.log.length + 1 := by
  unfold update absorb; dsimp only; split_ifs <;> simp

theorem loop_inv {f : K → K} {golden tol a b : K} (hg0 : 0 < golden) (hg1 : golden ≤ 1) (ht : 0 ≤ tol)
    (n : ℕ) (s : St K) (h : Inv f a b s) :
    Inv f a b (loop f golden tol n s).1 ∧ (loop f golden tol n s).1.log.length ≤ s.log.length + n ∧
    (∀ y ∈ s.log, y ∈ (loop f golden tol n s).1.log) ∧
    ((loop f golden tol n s).2 = true → done tol (loop f golden tol n s).1) := by
  induction n generalizing s with
  | zero => exact ⟨h, le_rfl, fun _ hy => hy, by simp [loop]⟩
  | succ n ih =>
    unfold loop
    split_ifs with hd
    · exact ⟨h, by simp, fun _ hy => hy, fun _ => hd⟩
    · obtain ⟨i1, i2, i3, i4⟩ := ih _ (update_inv hg0 hg1 ht h hd)
      refine ⟨i1, ?_, fun y hy => i3 y ?_, i4⟩
      · rw [update_log] at i2; omega
      · unfold update absorb; dsimp only; split_ifs <;> exact List.mem_cons_of_mem _ hy

/-- **C06** For every function `f`, every bracket `min ≤ max` and every tolerance `tol ≥ 0`, `minimizeBrent` evaluates `f` only inside the bracket, at
    most `maxiters+1` times, and returns a point of the bracket where `f` is no larger than at any evaluated point, in
    particular no larger than at `max`. -/
theorem brent_safe (f : K → K) {golden tol a b : K} (hg0 : 0 < golden) (hg1 : golden ≤ 1) (ht : 0 ≤ tol) (hab : a ≤ b)
    (maxiters : ℕ) (hm : maxiters ≠ 0) :
    let r := (minimizeBrent f golden a b tol maxiters).1
    a ≤ r.x ∧ r.x ≤ b ∧ f r.x ≤ f b ∧ r.x ∈ r.log ∧ (∀ y ∈ r.log, f r.x ≤ f y ∧ a ≤ y ∧ y ≤ b) ∧
    r.log.length ≤ maxiters + 1 := by
  intro r
  obtain ⟨i1, i2, i3, -⟩ := loop_inv (f := f) hg0 hg1 ht (runs maxiters) _ (init_inv f hab)
  have hr : r = (loop f golden tol (runs maxiters) (init f a b)).1 := rfl
  rw [← hr] at i1 i2 i3
  refine ⟨le_trans i1.lo i1.mx, le_trans i1.xM i1.hi, ?_, i1.xlog, ?_, ?_⟩
  · rw [← i1.fx]; exact i1.best b (i3 b (by simp [init]))
  · intro y hy; rw [← i1.fx]; exact ⟨i1.best y hy, i1.inside y hy⟩
  · simp only [runs, if_neg hm, init, List.length_singleton] at i2; omega

/-- The hypotheses hold for the constants of the code and the defaults used by callers. -/
example : (0 : ℚ) < 3819660/10000000 ∧ (3819660/10000000 : ℚ) ≤ 1 ∧ (0 : ℚ) ≤ 1/100000 := by norm_num

/-- **C06 (budget of zero)** With `maxiters = 0` the unsigned counter wraps around: the loop may run `2^32` times instead of none. -/
theorem brent_zero_budget : runs 0 = 4294967296 := by decide

/-! ### The control points and the parabolic step -/

/-- The control points `w` and `v` are points at which `f` was evaluated, with their values. -/
structure Ctl (f : K → K) (s : St K) : Prop where
  fx : s.fx = f s.x
  fw : s.fw = f s.w
  fv : s.fv = f s.v
  xlog : s.x ∈ s.log
  wlog : s.w ∈ s.log
  vlog : s.v ∈ s.log

theorem update_ctl {f : K → K} {golden tol : K} {s : St K} (h : Ctl f s) : Ctl f (update f golden tol s) := by
  obtain ⟨h1, h2, h3, h4, h5, h6⟩ := h
  unfold update absorb
  dsimp only
  split_ifs <;> constructor <;> dsimp only <;> first | assumption | rfl | exact List.mem_cons_self | exact List.mem_cons_of_mem _ (by assumption)

/-- **C06**: whenever the loop stops, the control points are points at which `f` was evaluated, and the stored values are those of `f`. -/
theorem brent_control (f : K → K) (golden a b tol : K) (maxiters : ℕ) : Ctl f (minimizeBrent f golden a b tol maxiters).1 := by
  have key : ∀ n s, Ctl f s → Ctl f (loop f golden tol n s).1 := by
    intro n
    induction n with
    | zero => exact fun s h => h
    | succ n ih =>
      intro s h
      unfold loop
      split_ifs
      · exact h
      · exact ih _ (update_ctl h)
  exact key _ _ ⟨rfl, rfl, rfl, by simp [init], by simp [init], by simp [init]⟩

/-- What the control points are: `x`, `w` and `v` are the best, second best and third best of the points evaluated so far. -/
structure Three (f : K → K) (s : St K) : Prop where
  /-- no point is evaluated twice -/
  nodup : s.log.Nodup
  /-- only `x` is inside the bracket -/
  outside : ∀ t ∈ s.log, t ≠ s.x → t ≤ s.min ∨ s.max ≤ t
  second : ∀ t ∈ s.log, t ≠ s.x → f s.w ≤ f t
  third : ∀ t ∈ s.log, t ≠ s.x → t ≠ s.w → f s.v ≤ f t
  /-- they differ as soon as there are enough points -/
  second_ne : s.w = s.x → ∀ t ∈ s.log, t = s.x
  third_ne : s.v = s.x ∨ s.v = s.w → ∀ t ∈ s.log, t = s.x ∨ t = s.w

theorem update_three {f : K → K} {golden tol a b : K} (hg0 : 0 < golden) (hg1 : golden < 1) (ht : 0 < tol) {s : St K} (h : Inv f a b s) (hc : Ctl f s) (h3 : Three f s) (hd : ¬ done tol s) : Three f (update f golden tol s) := by
  obtain ⟨t1, t2⟩ := trial_strict hg0 hg1 ht h.mx h.xM hd
  obtain ⟨-, -, t3⟩ := trial_inside hg0 hg1.le ht.le h.mx h.xM hd
  have hf1 : 0 < fract1 tol s := by unfold fract1; positivity
  have hux : trial golden tol s ≠ s.x := by
    intro h0; rw [h0] at t3; simp at t3; linarith
  have hnew : trial golden tol s ∉ s.log := fun hm => by
    rcases h3.outside _ hm hux with e | e <;> linarith
  have hux' : ∀ t ∈ s.log, t ≠ trial golden tol s := fun t htl e => hnew (e ▸ htl)
  obtain ⟨c1, c2, c3, c4, c5, c6⟩ := hc
  obtain ⟨n1, n2, n3, n4, n5, n6⟩ := h3
  have hbest := h.best
  have hmx := h.mx
  have hxM := h.xM
  unfold update absorb
  dsimp only
  generalize trial golden tol s = u at *
  have hnd : (u :: s.log).Nodup := List.nodup_cons.2 ⟨hnew, n1⟩
  by_cases d1 : f u ≤ s.fx
  · rw [if_pos d1]
    refine ⟨hnd, ?_, ?_, ?_, ?_, ?_⟩ <;> dsimp only
    · intro t hm hne
      rcases List.mem_cons.1 hm with rfl | hm
      · exact absurd rfl hne
      by_cases e : t = s.x
      · split_ifs
        · exact Or.inl e.le
        · exact Or.inr e.ge
      · rcases n2 t hm e with g | g
        · left; split_ifs
          · exact g.trans hmx
          · exact g
        · right; split_ifs
          · exact g
          · exact hxM.trans g
    · intro t hm hne
      rcases List.mem_cons.1 hm with rfl | hm
      · exact absurd rfl hne
      rw [← c1]; exact hbest t hm
    · intro t hm hne hne'
      rcases List.mem_cons.1 hm with rfl | hm
      · exact absurd rfl hne
      exact n3 t hm hne'
    · intro e; exact absurd e.symm hux
    · rintro (e | e)
      · exact absurd e (hux' _ c5)
      · intro t hm
        rcases List.mem_cons.1 hm with rfl | hm
        · exact Or.inl rfl
        · exact Or.inr (n5 e t hm)
  rw [if_neg d1]
  have hout : ∀ t ∈ u :: s.log, t ≠ s.x → t ≤ (if u < s.x then u else s.min) ∨ (if u < s.x then s.max else u) ≤ t := by
    intro t hm hne
    rcases List.mem_cons.1 hm with rfl | hm
    · by_cases g : t < s.x
      · left; rw [if_pos g]
      · right; rw [if_neg g]
    · rcases n2 t hm hne with g | g
      · left; split_ifs
        · linarith
        · exact g
      · right; split_ifs
        · exact g
        · linarith
  by_cases d2 : f u ≤ s.fw ∨ s.w = s.x
  · rw [if_pos d2]
    have hu : ∀ t ∈ s.log, t ≠ s.x → f u ≤ f t := fun t hm hne => by
      rcases d2 with e | e
      · exact e.trans (c2 ▸ n3 t hm hne)
      · exact absurd (n5 e t hm) hne
    refine ⟨hnd, hout, ?_, ?_, ?_, ?_⟩ <;> dsimp only
    · intro t hm hne
      rcases List.mem_cons.1 hm with rfl | hm
      · exact le_rfl
      · exact hu t hm hne
    · intro t hm hne hne'
      rcases List.mem_cons.1 hm with rfl | hm
      · exact absurd rfl hne'
      · exact n3 t hm hne
    · intro e; exact absurd e hux
    · rintro (e | e)
      · intro t hm
        rcases List.mem_cons.1 hm with rfl | hm
        · exact Or.inr rfl
        · exact Or.inl (n5 e t hm)
      · exact absurd e (hux' _ c5)
  rw [if_neg d2]
  push Not at d2
  by_cases d3 : f u ≤ s.fv ∨ s.v = s.x ∨ s.v = s.w
  · rw [if_pos d3]
    refine ⟨hnd, hout, ?_, ?_, ?_, ?_⟩ <;> dsimp only
    · intro t hm hne
      rcases List.mem_cons.1 hm with rfl | hm
      · rw [← c2]; exact d2.1.le
      · exact n3 t hm hne
    · intro t hm hne hne'
      rcases List.mem_cons.1 hm with rfl | hm
      · exact le_rfl
      · rcases d3 with e | e
        · exact e.trans (c3 ▸ n4 t hm hne hne')
        · rcases n6 e t hm with g | g
          · exact absurd g hne
          · exact absurd g hne'
    · intro e; exact absurd e d2.2
    · rintro (e | e)
      · exact absurd e hux
      · exact absurd e.symm (hux' _ c5)
  · rw [if_neg d3]
    push Not at d3
    refine ⟨hnd, hout, ?_, ?_, ?_, ?_⟩ <;> dsimp only
    · intro t hm hne
      rcases List.mem_cons.1 hm with rfl | hm
      · rw [← c2]; exact d2.1.le
      · exact n3 t hm hne
    · intro t hm hne hne'
      rcases List.mem_cons.1 hm with rfl | hm
      · rw [← c3]; exact d3.1.le
      · exact n4 t hm hne hne'
    · intro e; exact absurd e d2.2
    · rintro (e | e)
      · exact absurd e d3.2.1
      · exact absurd e d3.2.2

/-- **C06**: the control points of the parabolic steps are the three best of the points evaluated, which are all different (positive tolerance, `golden < 1`). -/
theorem brent_best_three (f : K → K) {golden tol a b : K} (hg0 : 0 < golden) (hg1 : golden < 1) (ht : 0 < tol) (hab : a ≤ b) (maxiters : ℕ) : Three f (minimizeBrent f golden a b tol maxiters).1 := by
  have key : ∀ n s, Inv f a b s → Ctl f s → Three f s → Three f (loop f golden tol n s).1 := by
    intro n
    induction n with
    | zero => exact fun s _ _ h => h
    | succ n ih =>
      intro s h h' h3
      unfold loop
      split_ifs with hd
      · exact h3
      · exact ih _ (update_inv hg0 hg1.le ht.le h hd) (update_ctl h') (update_three hg0 hg1 ht h h' h3 hd)
  refine key _ _ (init_inv f hab) ⟨rfl, rfl, rfl, by simp [init], by simp [init], by simp [init]⟩ ⟨?_, ?_, ?_, ?_, ?_, ?_⟩ <;> simp [init]

/-- After five iterations on a quadratic function: six different points. -/
example : (minimizeBrent (fun x : ℚ => (x - 1/3) * (x - 1/3)) (3819660/10000000) 0 1 (1/1000) 5).1.log.length = 6 ∧
    Three (fun x : ℚ => (x - 1/3) * (x - 1/3)) (minimizeBrent (fun x : ℚ => (x - 1/3) * (x - 1/3)) (3819660/10000000) 0 1 (1/1000) 5).1 :=
  ⟨by decide +kernel, brent_best_three _ (by norm_num) (by norm_num) (by norm_num) (by norm_num) 5⟩

/-- **C06 (parabolic step)**: for a quadratic function and three different control points, the step tried first goes to the minimiser. -/
theorem parabola_exact {f : K → K} {α β γ : K} (hα : α ≠ 0) (hf : ∀ t, f t = α * t ^ 2 + β * t + γ) {s : St K} (h : Ctl f s) (h1 : s.x ≠ s.w) (h2 : s.x ≠ s.v) (h3 : s.w ≠ s.v) :
    (parabola s).2 ≠ 0 ∧ s.x + (parabola s).1 / (parabola s).2 = -β / (2 * α) := by
  unfold parabola
  dsimp only
  rw [h.fx, h.fw, h.fv, hf, hf, hf]
  obtain ⟨mn, mx, x, w, v, d, d2, fx, fw, fv, log⟩ := s
  dsimp only at *
  have e1 := sub_ne_zero.2 h1
  have e2 := sub_ne_zero.2 h2
  have e3 := sub_ne_zero.2 h3
  have hq : 2 * ((x - v) * (α * x ^ 2 + β * x + γ - (α * w ^ 2 + β * w + γ)) - (x - w) * (α * x ^ 2 + β * x + γ - (α * v ^ 2 + β * v + γ))) = 2 * α * ((x - v) * (x - w) * (w - v)) := by ring
  have hp : (x - v) * ((x - v) * (α * x ^ 2 + β * x + γ - (α * w ^ 2 + β * w + γ))) - (x - w) * ((x - w) * (α * x ^ 2 + β * x + γ - (α * v ^ 2 + β * v + γ))) = (2 * α * x + β) * ((x - v) * (x - w) * (w - v)) := by ring
  rw [hq, hp]
  have hq0 : 2 * α * ((x - v) * (x - w) * (w - v)) ≠ 0 := by positivity
  refine ⟨abs_ne_zero.2 hq0, ?_⟩
  have hD : (x - v) * (x - w) * (w - v) ≠ 0 := by positivity
  generalize (x - v) * (x - w) * (w - v) = D at *
  split_ifs with c
  · rw [abs_of_pos c]; field_simp; ring
  · rw [abs_of_nonpos (not_lt.1 c)]; field_simp; ring

/-- So for a quadratic function every step is a golden section step, a step of the smallest length, or a step to the minimiser. -/
theorem quadratic_step {f : K → K} {α β γ : K} (hα : α ≠ 0) (hf : ∀ t, f t = α * t ^ 2 + β * t + γ) {golden tol : K} {s : St K} (h : Ctl f s) (h1 : s.x ≠ s.w) (h2 : s.x ≠ s.v) (h3 : s.w ≠ s.v) :
    deltas golden tol s = goldenStep golden s ∨ |(deltas golden tol s).2| = |fract1 tol s| ∨ s.x + (deltas golden tol s).2 = -β / (2 * α) := by
  unfold deltas
  by_cases c1 : fract1 tol s < |s.delta2|
  · rw [if_pos c1]
    dsimp only
    by_cases c2 : |(parabola s).2 * s.delta2 / 2| ≤ |(parabola s).1| ∨ (parabola s).1 ≤ (parabola s).2 * (s.min - s.x) ∨ (parabola s).2 * (s.max - s.x) ≤ (parabola s).1
    · rw [if_pos c2]; exact Or.inl rfl
    · rw [if_neg c2]
      dsimp only
      right
      split_ifs
      · left; rw [abs_neg, abs_abs]
      · left; rw [abs_abs]
      · right; exact (parabola_exact hα hf h h1 h2 h3).2
  · rw [if_neg c1]; exact Or.inl rfl

/-- `(t - 1)²` with control points 3, 4 and 0: the step is -2. -/
example : parabola { min := 0, max := 4, x := 3, w := 4, v := 0, delta := 1, delta2 := 2, fx := 4, fw := 9, fv := 1, log := [3, 4, 0] : St ℚ } = (-48, 24) := by decide +kernel

/-! ### Accuracy for unimodal functions -/

/-- `f` is strictly unimodal on `[a,b]` with minimiser `m`. -/
structure Unimodal (f : K → K) (a b m : K) : Prop where
  hm : a ≤ m ∧ m ≤ b
  dec : ∀ y z, a ≤ y → y < z → z ≤ m → f z < f y
  inc : ∀ y z, m ≤ y → y < z → z ≤ b → f y < f z

theorem update_bracket {f : K → K} {golden tol a b m : K} (hg0 : 0 < golden) (hg1 : golden ≤ 1) (ht : 0 < tol) {s : St K}
    (h : Inv f a b s) (hd : ¬ done tol s) (hu : Unimodal f a b m) (hm : s.min ≤ m ∧ m ≤ s.max) :
    (update f golden tol s).min ≤ m ∧ m ≤ (update f golden tol s).max := by
  obtain ⟨t1, t2, t3⟩ := trial_inside hg0 hg1 ht.le h.mx h.xM hd
  have hf1 : 0 < fract1 tol s := by unfold fract1; positivity
  have hne : trial golden tol s ≠ s.x := by
    intro h0; rw [h0] at t3; simp at t3; linarith
  have e := h.fx
  have l1 := le_trans h.lo h.mx; have l2 := le_trans h.xM h.hi
  have l3 := le_trans h.lo t1; have l4 := le_trans t2 h.hi
  unfold update absorb
  dsimp only
  generalize trial golden tol s = u at *
  split_ifs with c1 c2 c3 c4 c5 c6
  · refine ⟨?_, hm.2⟩
    by_contra hc; push Not at hc
    have := hu.inc s.x u hc.le (lt_of_le_of_ne c2 hne.symm) l4
    rw [← e] at this; exact absurd c1 (not_le.2 this)
  · refine ⟨hm.1, ?_⟩
    by_contra hc; push Not at hc
    have := hu.dec u s.x l3 (not_le.1 c2) hc.le
    rw [← e] at this; exact absurd c1 (not_le.2 this)
  all_goals
    dsimp only
    first
    | (refine ⟨?_, hm.2⟩
       by_contra hc; push Not at hc
       have hlt : u < s.x := by assumption
       have := hu.inc u s.x hc.le hlt l2
       rw [← e] at this; exact absurd this.le c1)
    | (refine ⟨hm.1, ?_⟩
       by_contra hc; push Not at hc
       have hlt : ¬ u < s.x := by assumption
       have := hu.dec s.x u l1 (lt_of_le_of_ne (not_lt.1 hlt) hne.symm) hc.le
       rw [← e] at this; exact absurd this.le c1)

theorem loop_bracket {f : K → K} {golden tol a b m : K} (hg0 : 0 < golden) (hg1 : golden ≤ 1) (ht : 0 < tol)
    (hu : Unimodal f a b m) (n : ℕ) (s : St K) (h : Inv f a b s) (hm : s.min ≤ m ∧ m ≤ s.max) :
    (loop f golden tol n s).1.min ≤ m ∧ m ≤ (loop f golden tol n s).1.max := by
  induction n generalizing s with
  | zero => exact hm
  | succ n ih =>
    unfold loop
    split_ifs with hd
    · exact hm
    · exact ih _ (update_inv hg0 hg1 ht.le h hd) (update_bracket hg0 hg1 ht h hd hu hm)

/-- **C06 (accuracy)** If `f` is strictly unimodal and the loop ends through its tolerance test, the returned point is within
    `2*tol*|x| + tol/2` of the true minimiser. -/
theorem brent_accurate {f : K → K} {golden tol a b m : K} (hg0 : 0 < golden) (hg1 : golden ≤ 1) (ht : 0 < tol) (hab : a ≤ b)
    (hu : Unimodal f a b m) (maxiters : ℕ)
    (hdone : (minimizeBrent f golden a b tol maxiters).2 = true) :
    |(minimizeBrent f golden a b tol maxiters).1.x - m| ≤ 2 * tol * |(minimizeBrent f golden a b tol maxiters).1.x| + tol / 2 := by
  obtain ⟨i1, -, -, i4⟩ := loop_inv (f := f) hg0 hg1 ht.le (runs maxiters) _ (init_inv f hab)
  have hb := loop_bracket (f := f) hg0 hg1 ht hu (runs maxiters) _ (init_inv f hab) hu.hm
  have hd := i4 hdone
  have hr : minimizeBrent f golden a b tol maxiters = loop f golden tol (runs maxiters) (init f a b) := rfl
  rw [hr]
  generalize (loop f golden tol (runs maxiters) (init f a b)).1 = s at *
  unfold done fract2 fract1 St.mid at hd
  have h1 := i1.mx; have h2 := i1.xM
  rw [abs_le] at hd ⊢
  constructor <;> linarith [hd.1, hd.2, hb.1, hb.2]

/-- A unimodal function (the hypothesis is satisfiable), on which the loop ends through the tolerance test. -/
example : Unimodal (fun x : ℚ => (x - 1/3) * (x - 1/3)) 0 1 (1/3) ∧
    (minimizeBrent (fun x : ℚ => (x - 1/3) * (x - 1/3)) (3819660/10000000) 0 1 (1/10) 20).2 = true := by
  constructor
  · refine ⟨by norm_num, ?_, ?_⟩ <;> intros <;> nlinarith
  · decide +kernel

end Optima.Brent
