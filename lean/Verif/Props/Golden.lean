import Verif.Model.Golden
import Verif.Lemmas.Tactics
import Mathlib.Algebra.Order.Archimedean.Basic

/-! # Property C07: golden section search

The golden ratio of the code is truncated, so the inner points drift away from their ideal positions.  The invariant bounds the
drift by `phi² + phi - 1 ≈ 2.35e-13`, which keeps the points ordered for tolerances of at least `5e-13`. -/

set_option linter.unusedSectionVars false

namespace Optima.Golden

variable {K : Type*} [Field K] [LinearOrder K] [IsStrictOrderedRing K]

/-- `phi² + phi - 1`, zero for the golden ratio. -/
def defect : K := phi * phi + phi - 1

theorem defect_range : (235 / 10 ^ 15 : K) < defect ∧ defect < (236 / 10 ^ 15 : K) := by
  unfold defect phi; norm_num

theorem phi_range : (6 / 10 : K) < phi ∧ phi < (62 / 100 : K) := by
  unfold phi; norm_num

/-- Loop invariant (for the search on `[0,1]`): one of the inner points is where it should be, the other has drifted by at most `defect`. -/
structure Inv (f : K → K) (s : St K) : Prop where
  a0 : 0 ≤ s.a
  b1 : s.b ≤ 1
  ab : s.a < s.b
  drift : (s.c = s.b - phi * (s.b - s.a) ∧ -defect ≤ s.d - (s.a + phi * (s.b - s.a)) ∧ s.d - (s.a + phi * (s.b - s.a)) ≤ defect * (1 - (s.b - s.a))) ∨
    (s.d = s.a + phi * (s.b - s.a) ∧ -defect ≤ (s.b - phi * (s.b - s.a)) - s.c ∧ (s.b - phi * (s.b - s.a)) - s.c ≤ defect * (1 - (s.b - s.a)))
  fc : s.fc = f s.c
  fd : s.fd = f s.d
  inside : ∀ y ∈ s.log, 0 ≤ y ∧ y ≤ 1

theorem init_inv (f : K → K) : Inv f (init f) := by
  have := phi_range (K := K)
  have := defect_range (K := K)
  refine ⟨le_rfl, le_rfl, by simp [init], ?_, rfl, rfl, ?_⟩
  · left
    refine ⟨by simp [init], ?_, by simp [init]⟩
    simp only [init, sub_zero, mul_one, zero_add, sub_self]
    norm_num at *; linarith
  · intro y hy
    simp only [init, List.mem_cons, List.not_mem_nil, or_false] at hy
    rcases hy with rfl | rfl <;> constructor <;> linarith

/-- While the loop continues (with `tol ≥ 5*10^-13`), the inner points are ordered and well inside the bracket. -/
theorem ordered {f : K → K} {tol : K} (ht : 5 / 10 ^ 13 ≤ tol) {s : St K} (h : Inv f s) (hc : tol < |s.c - s.d|) :
    s.a < s.c ∧ s.c < s.d ∧ s.d < s.b ∧ tol < s.b - s.a ∧
    s.d - s.a ≤ 9/10 * (s.b - s.a) ∧ s.b - s.c ≤ 9/10 * (s.b - s.a) := by
  obtain ⟨p1, p2⟩ := phi_range (K := K)
  obtain ⟨q1, q2⟩ := defect_range (K := K)
  have hL : 0 < s.b - s.a := by linarith [h.ab]
  have hd := h.drift
  have hDL : defect * (1 - (s.b - s.a)) ≤ (defect : K) := by norm_num at *; nlinarith
  generalize hLd : s.b - s.a = L at *
  have hphiL1 : (618/1000) * L ≤ phi * L := mul_le_mul_of_nonneg_right (by unfold phi; norm_num) hL.le
  have hphiL2 : phi * L ≤ (619/1000) * L := mul_le_mul_of_nonneg_right (by unfold phi; norm_num) hL.le
  generalize phi * L = q at *
  have key : s.c < s.d ∧ tol < s.d - s.c := by
    rcases lt_or_ge s.c s.d with hlt | hge
    · rw [abs_of_neg (by linarith)] at hc
      exact ⟨hlt, by linarith⟩
    · rw [abs_of_nonneg (by linarith)] at hc
      exfalso
      rcases hd with ⟨e1, e2, e3⟩ | ⟨e1, e2, e3⟩ <;> norm_num at * <;> linarith
  obtain ⟨hcd, hc⟩ := key
  rcases hd with ⟨e1, e2, e3⟩ | ⟨e1, e2, e3⟩ <;> norm_num at * <;> refine ⟨?_, hcd, ?_, ?_, ?_, ?_⟩ <;> linarith

/-- Elementary bounds used in the step lemma. -/
theorem convex_aux {u v : K} (huv : u ≤ v) : u ≤ v - phi * (v - u) ∧ v - phi * (v - u) ≤ v ∧
    u ≤ u + phi * (v - u) ∧ u + phi * (v - u) ≤ v := by
  obtain ⟨p1, p2⟩ := phi_range (K := K)
  have h : 0 ≤ v - u := by linarith
  have h1 : 0 ≤ phi * (v - u) := mul_nonneg (by linarith) h
  have h2 : phi * (v - u) ≤ 1 * (v - u) := mul_le_mul_of_nonneg_right (by linarith) h
  refine ⟨?_, ?_, ?_, ?_⟩ <;> linarith

theorem step_inv {f : K → K} {tol : K} (ht : 5 / 10 ^ 13 ≤ tol) {s : St K} (h : Inv f s) (hc : tol < |s.c - s.d|) :
    Inv f (step f s) ∧ (step f s).b - (step f s).a ≤ 9/10 * (s.b - s.a) := by
  obtain ⟨o1, o2, o3, o4, o5, o6⟩ := ordered ht h hc
  obtain ⟨p1, p2⟩ := phi_range (K := K)
  have hD0 : (0 : K) < defect := by have := (defect_range (K := K)).1; norm_num at this; linarith
  have hL1 : s.b - s.a ≤ 1 := by linarith [h.a0, h.b1]
  have hL : 0 < s.b - s.a := by linarith [h.ab]
  have a0 := h.a0; have b1 := h.b1
  have hD : (phi * phi : K) = defect + 1 - phi := by unfold defect; ring
  -- the drift after a step, in terms of the length and the drift before
  have near : ∀ {L e : K}, 0 < L → L ≤ 1 → -defect ≤ e → e ≤ defect * (1 - L) → -defect ≤ -(defect * L) - phi * e ∧ -(defect * L) - phi * e ≤ defect * (1 - (phi * L + e)) := by
    intro L e h0 h1 e1 e2
    have u1 : phi * e ≤ phi * (defect * (1 - L)) := mul_le_mul_of_nonneg_left e2 (by linarith)
    have u2 : phi * (-defect) ≤ phi * e := mul_le_mul_of_nonneg_left e1 (by linarith)
    have u3 : (phi : K) * (defect * (1 - L)) ≤ 1 * (defect * (1 - L)) := mul_le_mul_of_nonneg_right (by linarith) (mul_nonneg hD0.le (by linarith))
    have u4 : (62/100 : K) * defect ≥ phi * defect := mul_le_mul_of_nonneg_right p2.le hD0.le
    have u5 : defect * (phi * L) ≤ defect * L := mul_le_mul_of_nonneg_left (by nlinarith) hD0.le
    have u6 : defect * e ≤ defect * (1/10) := mul_le_mul_of_nonneg_left (by nlinarith [(defect_range (K := K)).2, mul_nonneg hD0.le h0.le]) hD0.le
    constructor
    · linarith
    · nlinarith
  have far : ∀ {L e : K}, 0 < L → L ≤ 1 → -defect ≤ e → e ≤ defect * (1 - L) → -defect ≤ -(defect * L) - e ∧ -(defect * L) - e ≤ defect * (1 - phi * L) := by
    intro L e h0 h1 e1 e2
    have u5 : defect * (phi * L) ≤ defect * L := mul_le_mul_of_nonneg_left (by nlinarith) hD0.le
    constructor <;> linarith
  unfold step
  split_ifs with hlt
  · -- keep the left part
    have hcin : 0 ≤ s.d - phi * (s.d - s.a) ∧ s.d - phi * (s.d - s.a) ≤ 1 := by
      have hx := convex_aux (show s.a ≤ s.d by linarith)
      constructor <;> linarith [hx.1, hx.2.1]
    refine ⟨⟨h.a0, by dsimp only; linarith, by dsimp only; linarith, Or.inl ⟨rfl, ?_⟩, rfl, h.fc, ?_⟩, o5⟩
    · dsimp only
      rcases h.drift with ⟨hf, e1, e2⟩ | ⟨hf, e1, e2⟩
      · have := near hL hL1 e1 e2
        have e : s.c - (s.a + phi * (s.d - s.a)) = -(defect * (s.b - s.a)) - phi * (s.d - (s.a + phi * (s.b - s.a))) := by
          rw [hf]; unfold defect; ring
        rw [e, show s.d - s.a = phi * (s.b - s.a) + (s.d - (s.a + phi * (s.b - s.a))) by ring]
        exact this
      · have := far hL hL1 e1 e2
        have e : s.c - (s.a + phi * (s.d - s.a)) = -(defect * (s.b - s.a)) - ((s.b - phi * (s.b - s.a)) - s.c) := by
          rw [hf]; unfold defect; ring
        rw [e, show s.d - s.a = phi * (s.b - s.a) by rw [hf]; ring]
        exact this
    · intro y hy
      rcases List.mem_cons.1 hy with rfl | hy
      · exact hcin
      · exact h.inside y hy
  · have hdin : 0 ≤ s.c + phi * (s.b - s.c) ∧ s.c + phi * (s.b - s.c) ≤ 1 := by
      have hx := convex_aux (show s.c ≤ s.b by linarith)
      constructor <;> linarith [hx.2.2.1, hx.2.2.2]
    refine ⟨⟨by dsimp only; linarith, h.b1, by dsimp only; linarith, Or.inr ⟨rfl, ?_⟩, h.fd, rfl, ?_⟩, o6⟩
    · dsimp only
      rcases h.drift with ⟨hf, e1, e2⟩ | ⟨hf, e1, e2⟩
      · have := far hL hL1 e1 e2
        have e : s.b - phi * (s.b - s.c) - s.d = -(defect * (s.b - s.a)) - (s.d - (s.a + phi * (s.b - s.a))) := by
          rw [hf]; unfold defect; ring
        rw [e, show s.b - s.c = phi * (s.b - s.a) by rw [hf]; ring]
        exact this
      · have := near hL hL1 e1 e2
        have e : s.b - phi * (s.b - s.c) - s.d = -(defect * (s.b - s.a)) - phi * ((s.b - phi * (s.b - s.a)) - s.c) := by
          rw [hf]; unfold defect; ring
        rw [e, show s.b - s.c = phi * (s.b - s.a) + ((s.b - phi * (s.b - s.a)) - s.c) by ring]
        exact this
    · intro y hy
      rcases List.mem_cons.1 hy with rfl | hy
      · exact hdin
      · exact h.inside y hy

theorem loop_spec {f : K → K} {tol : K} (ht : 5 / 10 ^ 13 ≤ tol) (fuel : ℕ) (s : St K) (h : Inv f s)
    (hf : (9/10) ^ fuel * (s.b - s.a) ≤ tol) : ∃ r, loop f tol fuel s = some r ∧ Inv f r ∧ ¬ tol < |r.c - r.d| := by
  induction fuel generalizing s with
  | zero =>
    unfold loop
    split_ifs with hc
    · have := (ordered ht h hc).2.2.2.1
      simp at hf; linarith
    · exact ⟨s, rfl, h, hc⟩
  | succ fuel ih =>
    unfold loop
    split_ifs with hc
    · obtain ⟨i1, i2⟩ := step_inv ht h hc
      apply ih _ i1
      refine le_trans ?_ hf
      rw [pow_succ, mul_assoc]
      gcongr
    · exact ⟨s, rfl, h, hc⟩

/-- **C07** (partial: tolerances of at least `5*10^-13`; the default of the code is `10^-5`).  For every function the search on `[a,b]`
    terminates within any number `fuel` of iterations with `0.9^fuel ≤ tol`, evaluates the function only inside `[a,b]` and returns
    a point of `[a,b]`. -/
theorem golden_safe_partial (f : K → K) {a b tol : K} (hab : a ≤ b) (ht : 5 / 10 ^ 13 ≤ tol) (fuel : ℕ)
    (hf : (9/10) ^ fuel ≤ tol) :
    ∃ x log, minimizeGoldenSectionSearch f a b tol fuel = some (x, log) ∧ a ≤ x ∧ x ≤ b ∧
      ∀ y ∈ log, a ≤ y ∧ y ≤ b := by
  have lift : ∀ x : K, 0 ≤ x → x ≤ 1 → a ≤ a + x * (b - a) ∧ a + x * (b - a) ≤ b := by
    intro x h0 h1; constructor <;> nlinarith
  unfold minimizeGoldenSectionSearch goldenUnit
  split_ifs with h0
  · refine ⟨_, _, rfl, ?_, ?_, by simp⟩
    · exact (lift _ (by norm_num) (by norm_num)).1
    · exact (lift _ (by norm_num) (by norm_num)).2
  · obtain ⟨r, hr, hi, -⟩ := loop_spec (f := fun x => f (a + x * (b - a))) ht fuel (init _) (init_inv _)
      (by simpa [init] using hf)
    rw [hr]
    have := hi.a0; have := hi.b1; have := hi.ab
    refine ⟨_, _, rfl, (lift _ ?_ ?_).1, (lift _ ?_ ?_).2, ?_⟩
    · dsimp only; linarith
    · dsimp only; linarith
    · dsimp only; linarith
    · dsimp only; linarith
    · intro y hy
      obtain ⟨z, hz, rfl⟩ := List.mem_map.1 hy
      exact lift z (hi.inside z hz).1 (hi.inside z hz).2

/-- Termination for every tolerance of at least `5*10^-13` in an Archimedean field: a suitable number of iterations exists. -/
theorem golden_terminates_partial [Archimedean K] (f : K → K) {a b tol : K} (hab : a ≤ b) (ht : 5 / 10 ^ 13 ≤ tol) :
    ∃ fuel x log, minimizeGoldenSectionSearch f a b tol fuel = some (x, log) ∧ a ≤ x ∧ x ≤ b := by
  have h0 : (0:K) < 5/10^13 := by positivity
  obtain ⟨n, hn⟩ := exists_pow_lt_of_lt_one (show (0:K) < tol by linarith) (show (9/10 : K) < 1 by norm_num)
  obtain ⟨x, log, h1, h2, h3, -⟩ := golden_safe_partial f hab ht n hn.le
  exact ⟨n, x, log, h1, h2, h3⟩

/-- The default tolerance of the code meets the hypotheses (110 iterations suffice). -/
example : (5 / 10 ^ 13 : ℚ) ≤ 1 / 10 ^ 5 ∧ ((9/10 : ℚ)) ^ 110 ≤ 1 / 10 ^ 5 := by norm_num

/-- `f` is strictly unimodal on `[a,b]` with minimiser `m`. -/
structure Unimodal (f : K → K) (a b m : K) : Prop where
  hm : a ≤ m ∧ m ≤ b
  dec : ∀ y z, a ≤ y → y < z → z ≤ m → f z < f y
  inc : ∀ y z, m ≤ y → y < z → z ≤ b → f y < f z

theorem loop_bracket {f : K → K} {tol m : K} (ht : 5 / 10 ^ 13 ≤ tol) (hu : Unimodal f 0 1 m) (fuel : ℕ) (s r : St K) (h : Inv f s)
    (hm : s.a ≤ m ∧ m ≤ s.b) (hr : loop f tol fuel s = some r) : r.a ≤ m ∧ m ≤ r.b := by
  induction fuel generalizing s with
  | zero =>
    unfold loop at hr
    split_ifs at hr with hc
    cases hr; exact hm
  | succ fuel ih =>
    unfold loop at hr
    split_ifs at hr with hc
    · apply ih _ (step_inv ht h hc).1 _ hr
      obtain ⟨o1, o2, o3, -, -, -⟩ := ordered ht h hc
      have a0 := h.a0; have b1 := h.b1
      unfold step
      split_ifs with hlt
      · refine ⟨hm.1, ?_⟩
        dsimp only
        by_contra hd; push Not at hd
        have := hu.dec s.c s.d (by linarith) o2 hd.le
        rw [h.fc, h.fd] at hlt; linarith
      · refine ⟨?_, hm.2⟩
        dsimp only
        by_contra hd; push Not at hd
        have := hu.inc s.c s.d hd.le o2 (by linarith)
        rw [h.fc, h.fd] at hlt; linarith
    · cases hr; exact hm

/-- **C07 (accuracy, partial: `5*10^-13 ≤ tol ≤ 1/10`)** For a strictly unimodal function the returned point is within `4*tol*(b-a)` of the minimiser. -/
theorem golden_accurate_partial {f : K → K} {a b tol m : K} (hab : a < b) (ht : 5 / 10 ^ 13 ≤ tol) (ht1 : tol ≤ 1 / 10)
    (hu : Unimodal f a b m) (fuel : ℕ) (x : K) (log : List K)
    (hr : minimizeGoldenSectionSearch f a b tol fuel = some (x, log)) : |x - m| ≤ 4 * tol * (b - a) := by
  have hba : 0 < b - a := by linarith
  -- unimodality of the rescaled function
  have hu' : Unimodal (fun x => f (a + x * (b - a))) 0 1 ((m - a) / (b - a)) := by
    refine ⟨⟨div_nonneg (by linarith [hu.hm.1]) hba.le, (div_le_one hba).2 (by linarith [hu.hm.2])⟩, ?_, ?_⟩
    · intro y z hy hyz hz
      rw [le_div_iff₀ hba] at hz
      exact hu.dec _ _ (by nlinarith) (by nlinarith) (by linarith)
    · intro y z hy hyz hz
      rw [div_le_iff₀ hba] at hy
      exact hu.inc _ _ (by linarith) (by nlinarith) (by nlinarith)
  obtain ⟨p1, p2⟩ := phi_range (K := K)
  unfold minimizeGoldenSectionSearch goldenUnit at hr
  rw [if_neg (by rw [abs_of_neg (by linarith)]; linarith)] at hr
  cases hl : loop (fun x => f (a + x * (b - a))) tol fuel (init fun x => f (a + x * (b - a))) with
  | none => rw [hl] at hr; simp at hr
  | some s =>
    rw [hl] at hr
    simp only [Option.map_some, Option.some.injEq, Prod.mk.injEq] at hr
    obtain ⟨rfl, -⟩ := hr
    have hinit := init_inv (K := K) (fun x => f (a + x * (b - a)))
    have hm' := loop_bracket ht hu' fuel _ s hinit (by simpa [init] using hu'.hm) hl
    -- the exit condition and the invariant at exit
    have hexit : Inv (fun x => f (a + x * (b - a))) s ∧ ¬ tol < |s.c - s.d| := by
      clear hm'
      generalize init (K := K) (fun x => f (a + x * (b - a))) = s0 at hl hinit
      induction fuel generalizing s0 with
      | zero =>
        unfold loop at hl; split_ifs at hl with hc; cases hl; exact ⟨hinit, hc⟩
      | succ fuel ih =>
        unfold loop at hl; split_ifs at hl with hc
        · exact ih _ hl (step_inv ht hinit hc).1
        · cases hl; exact ⟨hinit, hc⟩
    obtain ⟨hi, hc⟩ := hexit
    rw [not_lt] at hc
    have hL0 : 0 < s.b - s.a := by linarith [hi.ab]
    have hL1 : s.b - s.a ≤ 1 := by linarith [hi.a0, hi.b1]
    obtain ⟨e1, e2⟩ := abs_le.1 hc
    obtain ⟨q1, q2⟩ := defect_range (K := K)
    have hphiL1 : (618/1000) * (s.b - s.a) ≤ phi * (s.b - s.a) := mul_le_mul_of_nonneg_right (by unfold phi; norm_num) hL0.le
    have hlen : s.b - s.a ≤ 7 * tol := by
      rcases hi.drift with ⟨d1, d2, d3⟩ | ⟨d1, d2, d3⟩ <;> norm_num at * <;> linarith
    obtain ⟨m1, m2⟩ := hm'
    rw [le_div_iff₀ hba] at m1
    rw [div_le_iff₀ hba] at m2
    rw [abs_le]
    constructor <;> nlinarith

example : Unimodal (fun x : ℚ => (x - 1/3) * (x - 1/3)) 0 1 (1/3) := by
  refine ⟨by norm_num, ?_, ?_⟩ <;> intros <;> nlinarith

/-! ## Small tolerances -/

/-- The state after `2k` iterations of the search on `[0,1]` for a function whose strict minimiser is the first probe `1 - phi`: `a` and `b` in closed form. -/
structure Even (f : K → K) (k : ℕ) (s : St K) : Prop where
  c : s.c = 1 - phi
  ca : (1 + phi) * (s.c - s.a) = (1 - phi - phi * phi) + phi * phi ^ (2 * k)
  len : s.b - s.a = phi ^ (2 * k)
  d : s.d = s.a + phi * (s.b - s.a)
  fc : s.fc = f s.c
  fd : s.fd = f s.d

/-- The two distances between the probes never come close to zero: the powers of `phi` jump over the accumulated drift. -/
theorem gap (k : ℕ) : (1 + phi) * (1 / 10 ^ 14) < |(1 - phi - phi * phi : K) + phi * phi ^ (2 * k + 2)| ∧
    (1 + phi) * (1 / 10 ^ 14) < |phi * phi * phi ^ (2 * k) - (1 - phi - phi * phi : K)| := by
  obtain ⟨p1, p2⟩ := phi_range (K := K)
  have p0 : (0 : K) < phi := by linarith
  have hk : (0 : K) < phi ^ (2 * k) := by positivity
  refine ⟨?_, ?_⟩
  · rcases Nat.lt_or_ge k 29 with h | h
    · have : (phi : K) ^ 58 ≤ phi ^ (2 * k + 2) := pow_le_pow_of_le_one p0.le (by linarith) (by omega)
      refine lt_of_lt_of_le ?_ (le_abs_self _)
      have h2 : (1 + phi) * (1 / 10 ^ 14) < (1 - phi - phi * phi) + phi * (phi : K) ^ 58 := by
        unfold phi; norm_num
      have h3 := mul_le_mul_of_nonneg_left this p0.le
      linarith
    · have : (phi : K) ^ (2 * k + 2) ≤ phi ^ 60 := pow_le_pow_of_le_one p0.le (by linarith) (by omega)
      refine lt_of_lt_of_le ?_ (neg_le_abs _)
      have h2 : (1 + phi) * (1 / 10 ^ 14) < -((1 - phi - phi * phi) + phi * (phi : K) ^ 60) := by
        unfold phi; norm_num
      have h3 := mul_le_mul_of_nonneg_left this p0.le
      linarith
  · refine lt_of_lt_of_le ?_ (le_abs_self _)
    have h2 : (1 + phi) * (1 / 10 ^ 14) < -(1 - phi - phi * phi : K) := by unfold phi; norm_num
    have : (0 : K) < phi * phi * phi ^ (2 * k) := by positivity
    linarith

theorem even_continue {f : K → K} {k : ℕ} {s : St K} (h : Even f k s) : (1 / 10 ^ 14 : K) < |s.c - s.d| := by
  obtain ⟨p1, p2⟩ := phi_range (K := K)
  have g := (gap (K := K) k).2
  have e : (1 + phi) * (s.d - s.c) = phi * phi * phi ^ (2 * k) - (1 - phi - phi * phi : K) := by
    have h1 := h.ca; have h2 := h.len; have h3 := h.d
    rw [h3, h2]; linear_combination -h1
  rw [← e, abs_mul, abs_of_pos (by linarith : (0 : K) < 1 + phi), abs_sub_comm s.d] at g
  exact lt_of_mul_lt_mul_left g (by linarith)

/-- Two iterations: the probe at the minimiser is kept. -/
theorem even_step {f : K → K} (hf : ∀ x, x ≠ 1 - phi → f (1 - phi) < f x) {k : ℕ} {s : St K} (h : Even f k s) :
    (1 / 10 ^ 14 : K) < |(step f s).c - (step f s).d| ∧ Even f (k + 1) (step f (step f s)) := by
  obtain ⟨p1, p2⟩ := phi_range (K := K)
  have hne : s.d ≠ 1 - phi := by
    intro e
    have := even_continue h
    rw [h.c, e, sub_self, abs_zero] at this
    norm_num at this
  have e1 : step f s = { s with b := s.d, d := s.c, c := s.d - phi * (s.d - s.a), fd := s.fc, fc := f (s.d - phi * (s.d - s.a)), log := (s.d - phi * (s.d - s.a)) :: s.log } := by
    unfold step
    rw [if_pos]
    rw [h.fc, h.fd, h.c]; exact hf _ hne
  have hca := h.ca
  have hlen := h.len
  have hd := h.d
  have g := (gap (K := K) k).1
  have e2 : (1 + phi) * (s.c - (s.d - phi * (s.d - s.a))) = (1 - phi - phi * phi) + phi * phi ^ (2 * k + 2) := by
    rw [hd, hlen, pow_add]; linear_combination hca
  have hcont : (1 / 10 ^ 14 : K) < |(s.d - phi * (s.d - s.a)) - s.c| := by
    rw [← e2, abs_mul, abs_of_pos (by linarith : (0 : K) < 1 + phi), abs_sub_comm s.c] at g
    exact lt_of_mul_lt_mul_left g (by linarith)
  refine ⟨by rw [e1]; exact hcont, ?_⟩
  have hle : ¬ f (s.d - phi * (s.d - s.a)) < s.fc := by
    rw [h.fc, h.c]
    refine not_lt.mpr (hf _ ?_).le
    intro e
    rw [h.c, e, sub_self, abs_zero] at hcont
    norm_num at hcont
  rw [e1]
  unfold step
  rw [if_neg hle]
  refine ⟨h.c, ?_, ?_, rfl, ?_, rfl⟩
  · dsimp only; rw [e2]; ring
  · dsimp only; rw [hd, hlen]; ring
  · exact h.fc

theorem even_loop {f : K → K} (hf : ∀ x, x ≠ 1 - phi → f (1 - phi) < f x) {tol : K} (ht : tol ≤ 1 / 10 ^ 14) (fuel : ℕ) :
    ∀ (k : ℕ) (s : St K), Even f k s → loop f tol fuel s = none ∧ loop f tol fuel (step f s) = none := by
  induction fuel with
  | zero =>
    intro k s h
    unfold loop
    exact ⟨if_pos (lt_of_le_of_lt ht (even_continue h)), if_pos (lt_of_le_of_lt ht (even_step hf h).1)⟩
  | succ n ih =>
    intro k s h
    unfold loop
    rw [if_pos (lt_of_le_of_lt ht (even_continue h)), if_pos (lt_of_le_of_lt ht (even_step hf h).1)]
    exact ⟨(ih k s h).2, (ih (k + 1) _ (even_step hf h).2).1⟩

/-- **C07 (negation)** With a tolerance of `10^-14` or less the search never ends for any function whose strict minimiser is the first probe: the constant `0.61803398875` is not the golden ratio, the
    comparisons alternate, and the distance of the two probes tends to a drift of about `1.5 * 10^-13` instead of zero. -/
theorem golden_never_ends {f : K → K} {a b : K} (hab : a ≠ b) (hf : ∀ x, x ≠ a + (1 - phi) * (b - a) → f (a + (1 - phi) * (b - a)) < f x)
    {tol : K} (ht : tol ≤ 1 / 10 ^ 14) (fuel : ℕ) : minimizeGoldenSectionSearch f a b tol fuel = none := by
  have hf' : ∀ x : K, x ≠ 1 - phi → (fun x => f (a + x * (b - a))) (1 - phi) < (fun x => f (a + x * (b - a))) x := by
    intro x hx
    refine hf _ fun e => hx ?_
    exact mul_right_cancel₀ (sub_ne_zero.mpr hab.symm) (add_left_cancel e)
  have h0 : Even (fun x => f (a + x * (b - a))) 0 (init fun x => f (a + x * (b - a))) := by
    refine ⟨rfl, ?_, ?_, ?_, rfl, rfl⟩
    · show (1 + phi) * (1 - phi - 0) = _
      ring
    · simp [init]
    · simp [init]
  have h1 := (even_loop hf' ht fuel 0 _ h0).1
  have h2 : ¬ |(1 - phi) - (phi : K)| < tol := by
    have : (1 / 10 : K) < |(1 - phi) - (phi : K)| := by
      refine lt_of_lt_of_le ?_ (neg_le_abs _)
      unfold phi; norm_num
    have h3 : (1 / 10 ^ 14 : K) < 1 / 10 := by norm_num
    exact not_lt.mpr (le_of_lt (lt_of_le_of_lt ht (h3.trans this)))
  unfold minimizeGoldenSectionSearch goldenUnit
  rw [if_neg h2, h1]
  rfl

/-- Such a function: the distance to the point `0.38196601125` of `[0,1]`, with the tolerance `10^-15`. -/
example (fuel : ℕ) : minimizeGoldenSectionSearch (fun x : ℚ => |x - 38196601125 / 100000000000|) 0 1 (1 / 10 ^ 15) fuel = none := by
  refine golden_never_ends (by norm_num) (fun x hx => ?_) (by norm_num) fuel
  have e : (0 : ℚ) + (1 - phi) * (1 - 0) = 38196601125 / 100000000000 := by unfold phi; norm_num
  rw [e] at hx ⊢
  rw [sub_self, abs_zero]
  exact abs_pos.mpr (sub_ne_zero.mpr hx)

end Optima.Golden
