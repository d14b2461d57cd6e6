import Verif.Props.Steps
import Verif.Lemmas.Float

/-!
# C65: the step-length utilities in rounded arithmetic

The numbers have `p ≥ 1` significant bits and every operation is rounded (`p = 53` for `double`).
-/

set_option linter.unusedSectionVars false

namespace Optima.Steps

open FNum

variable {q n : ℕ}

/-- The full step, as computed, violates the lower or the upper bound. -/
def Violates (lo up : Fin n → Option (FNum q)) (p dp : Fin n → FNum q) (i : Fin n) : Prop := ¬ Within (lo i) (up i) (p i + dp i)

theorem rnd_lt (hq : 0 < q) {x : ℚ} {l : FNum q} (h : Fl.rnd q x < l.val) : x < l.val := by
  by_contra hc
  have := Fl.rnd_mono hq (not_lt.1 hc)
  rw [rnd_val hq] at this
  linarith

theorem lt_rnd (hq : 0 < q) {x : ℚ} {l : FNum q} (h : l.val < Fl.rnd q x) : l.val < x := by
  by_contra hc
  have := Fl.rnd_mono hq (not_lt.1 hc)
  rw [rnd_val hq] at this
  linarith

theorem rnd_one (hq : 0 < q) : Fl.rnd q 1 = 1 := val_one hq

/-- The quotient of a difference by a larger number is between `0` and `1`, also when both are rounded. -/
theorem quotient_unit (hq : 0 < q) {a : ℚ} {d : FNum q} (h : (d.val < a ∧ a ≤ 0) ∨ (0 ≤ a ∧ a < d.val)) : 0 ≤ Fl.rnd q (Fl.rnd q a / d.val) ∧ Fl.rnd q (Fl.rnd q a / d.val) ≤ 1 := by
  have hz : Fl.rnd q 0 = 0 := Fl.rnd_zero q
  have key : 0 ≤ Fl.rnd q a / d.val ∧ Fl.rnd q a / d.val ≤ 1 := by
    rcases h with ⟨h1, h2⟩ | ⟨h1, h2⟩
    · have e1 := Fl.rnd_mono hq h2
      have e2 := Fl.rnd_mono hq h1.le
      rw [hz] at e1
      rw [rnd_val hq] at e2
      have hd : d.val < 0 := by linarith
      exact ⟨div_nonneg_of_nonpos e1 hd.le, (div_le_one_of_neg hd).2 e2⟩
    · have e1 := Fl.rnd_mono hq h1
      have e2 := Fl.rnd_mono hq h2.le
      rw [hz] at e1
      rw [rnd_val hq] at e2
      have hd : 0 < d.val := by linarith
      exact ⟨div_nonneg e1 hd.le, (div_le_one hd).2 e2⟩
  have a1 := Fl.rnd_mono hq key.1
  have a2 := Fl.rnd_mono hq key.2
  rw [hz] at a1
  rw [rnd_one hq] at a2
  exact ⟨a1, a2⟩

/-- The invariant of the loop. -/
structure RInv (lo up : Fin n → Option (FNum q)) (p dp : Fin n → FNum q) (st : ConsState n (FNum q)) : Prop where
  unit : 0 ≤ st.alpha.val ∧ st.alpha.val ≤ 1
  lim : (st.lu = 0 ∧ st.alpha = 1) ∨ ∃ i, st.j = some i ∧ ¬ Pinned lo up p dp i ∧
    ((st.lu = -1 ∧ belowLower (p i + dp i) (lo i)) ∨ (st.lu = 1 ∧ aboveUpper (p i + dp i) (up i)))

theorem rinv_loop (hq : 0 < q) {lo up : Fin n → Option (FNum q)} {p : Fin n → FNum q} (hp : InBox lo up p) (dp : Fin n → FNum q) : RInv lo up p dp (consLoop p dp lo up) := by
  unfold consLoop
  refine foldl_finRange_inv (P := fun _ st => RInv lo up p dp st) ⟨by rw [val_one hq]; norm_num, Or.inl ⟨rfl, rfl⟩⟩ ?_
  intro l st i h
  have hmin : ∀ a : FNum q, 0 ≤ a.val → 0 ≤ (min a 1).val ∧ (min a 1).val ≤ 1 := by
    intro a ha
    rcases min_choice a 1 with e | e <;> rw [e]
    · have := (le_iff _ _).1 (e ▸ min_le_right a (1 : FNum q))
      rw [val_one hq] at this
      exact ⟨ha, this⟩
    · rw [val_one hq]; norm_num
  unfold consBody
  dsimp only
  by_cases h1 : lo i = some (p i) ∧ dp i < 0
  · rw [if_pos h1]; exact h
  by_cases h2 : up i = some (p i) ∧ 0 < dp i
  · rw [if_neg h1, if_pos h2]; exact h
  have hnp : ¬ Pinned lo up p dp i := fun hc => hc.elim h1 h2
  rw [if_neg h1, if_neg h2]
  by_cases h3 : belowLower (p i + dp i) (lo i) = true
  · rw [if_pos h3]
    by_cases h4 : (bval (lo i) - p i) / dp i < st.alpha
    · rw [if_pos h4]
      refine ⟨hmin _ ?_, Or.inr ⟨i, rfl, hnp, Or.inl ⟨rfl, h3⟩⟩⟩
      cases hl : lo i with
      | none => rw [hl] at h3; simp [belowLower] at h3
      | some b =>
        rw [hl] at h3
        simp only [belowLower, decide_eq_true_eq] at h3
        have e1 := rnd_lt hq ((lt_iff _ _).1 h3)
        have e2 := (le_iff _ _).1 ((hp i).1 b hl)
        exact (quotient_unit hq (a := b.val - (p i).val) (d := dp i) (Or.inl ⟨by linarith, by linarith⟩)).1
    · rw [if_neg h4]; exact h
  rw [if_neg h3]
  by_cases h5 : aboveUpper (p i + dp i) (up i) = true
  · rw [if_pos h5]
    by_cases h4 : (bval (up i) - p i) / dp i < st.alpha
    · rw [if_pos h4]
      refine ⟨hmin _ ?_, Or.inr ⟨i, rfl, hnp, Or.inr ⟨rfl, h5⟩⟩⟩
      cases hl : up i with
      | none => rw [hl] at h5; simp [aboveUpper] at h5
      | some b =>
        rw [hl] at h5
        simp only [aboveUpper, decide_eq_true_eq] at h5
        have e1 := lt_rnd hq ((lt_iff _ _).1 h5)
        have e2 := (le_iff _ _).1 ((hp i).2 b hl)
        exact (quotient_unit hq (a := b.val - (p i).val) (d := dp i) (Or.inr ⟨by linarith, by linarith⟩)).1
    · rw [if_neg h4]; exact h
  · rw [if_neg h5]; exact h

/-- A value on or beyond a violated bound is put on it. -/
theorem clamp_low {lo up : Option (FNum q)} {y x : FNum q} (hy : Within lo up y) {b : FNum q} (hb : lo = some b) (hx : x ≤ b) : minUpper (maxLower x lo) up = b := by
  subst hb
  change minUpper (max x b) up = b
  rw [max_eq_right hx]
  cases up with
  | none => rfl
  | some u => exact min_eq_left ((hy.1 b rfl).trans (hy.2 u rfl))

theorem clamp_high {lo up : Option (FNum q)} {y x : FNum q} (hy : Within lo up y) {b : FNum q} (hb : up = some b) (hx : b ≤ x) : minUpper (maxLower x lo) up = b := by
  subst hb
  change min (maxLower x lo) b = b
  apply min_eq_right
  cases lo with
  | none => exact hx
  | some u => exact hx.trans (le_max_left _ _)

/-- **C65, conservative step**: in rounded arithmetic the result is within the bounds, the factor is between `0` and `1`, and if the full step violates a bound at an entry that is not pinned, then some such entry ends exactly on a bound it
    violates (the guarantee that `BacktrackSearch` lacks, C63).  If the full step violates no bound at such entries, it is taken, and pinned entries do not move. -/
theorem rounded_conservative (hq : 0 < q) {lo up : Fin n → Option (FNum q)} {p : Fin n → FNum q} (hp : InBox lo up p) (dp : Fin n → FNum q) :
    let r := performConservativeStep p dp lo up
    InBox lo up r.1 ∧ 0 ≤ r.2.val ∧ r.2.val ≤ 1 ∧
      ((∃ i, ¬ Pinned lo up p dp i ∧ Violates lo up p dp i) →
        ∃ i, ¬ Pinned lo up p dp i ∧ ((lo i = some (r.1 i) ∧ p i + dp i < r.1 i) ∨ (up i = some (r.1 i) ∧ r.1 i < p i + dp i))) ∧
      ((∀ i, ¬ Pinned lo up p dp i → ¬ Violates lo up p dp i) → r.2 = 1 ∧ ∀ i, (¬ Pinned lo up p dp i → r.1 i = p i + dp i) ∧ (Pinned lo up p dp i → r.1 i = p i)) := by
  intro r
  have inv := rinv_loop hq hp dp
  have hlow : ∀ {x : FNum q} {o : Option (FNum q)}, belowLower x o = true → ∃ b, o = some b ∧ x < b := by
    intro x o h
    cases o with
    | none => simp [belowLower] at h
    | some b => exact ⟨b, rfl, by simpa [belowLower] using h⟩
  have hupp : ∀ {x : FNum q} {o : Option (FNum q)}, aboveUpper x o = true → ∃ b, o = some b ∧ b < x := by
    intro x o h
    cases o with
    | none => simp [aboveUpper] at h
    | some b => exact ⟨b, rfl, by simpa [aboveUpper] using h⟩
  have hr : ∀ i, r.1 i = minUpper (maxLower (if (consLoop p dp lo up).lu ≠ 0 then (if (consLoop p dp lo up).j = some i then (if (consLoop p dp lo up).lu = -1 then bval (lo i) else bval (up i))
        else p i + (consLoop p dp lo up).alpha * dp i) else p i + dp i) (lo i)) (up i) := by
    intro i
    change minUpper (maxLower ((if (consLoop p dp lo up).lu ≠ 0 then _ else _ : Fin n → FNum q) i) (lo i)) (up i) = _
    by_cases h : (consLoop p dp lo up).lu ≠ 0
    · rw [if_pos h, if_pos h]
    · rw [if_neg h, if_neg h]
  refine ⟨fun i => clamp_within (hp i) _, inv.unit.1, inv.unit.2, ?_, ?_⟩
  · rintro ⟨i, hnp, hv⟩
    rcases inv.lim with ⟨h0, -⟩ | ⟨k, hj, hnk, hk⟩
    · refine ⟨i, hnp, ?_⟩
      have e := hr i
      rw [h0, if_neg (by simp)] at e
      unfold Violates at hv
      rw [within_iff_not] at hv
      by_cases hb : belowLower (p i + dp i) (lo i) = true
      · obtain ⟨b, hb1, hb2⟩ := hlow hb
        rw [clamp_low (hp i) hb1 hb2.le] at e
        exact Or.inl ⟨by rw [e]; exact hb1, by rw [e]; exact hb2⟩
      · have ha : aboveUpper (p i + dp i) (up i) = true := by
          by_contra hc
          exact hv ⟨by simpa using hb, by simpa using hc⟩
        obtain ⟨b, hb1, hb2⟩ := hupp ha
        rw [clamp_high (hp i) hb1 hb2.le] at e
        exact Or.inr ⟨by rw [e]; exact hb1, by rw [e]; exact hb2⟩
    · refine ⟨k, hnk, ?_⟩
      have e := hr k
      rcases hk with ⟨hlu, hb⟩ | ⟨hlu, hb⟩
      · obtain ⟨b, hb1, hb2⟩ := hlow hb
        rw [hlu, if_pos (by norm_num), if_pos hj, if_pos rfl, clamp_low (hp k) hb1 (by rw [hb1]; exact le_rfl)] at e
        exact Or.inl ⟨by rw [e]; exact hb1, by rw [e]; exact hb2⟩
      · obtain ⟨b, hb1, hb2⟩ := hupp hb
        rw [hlu, if_pos (by norm_num), if_pos hj, if_neg (by norm_num), clamp_high (hp k) hb1 (by rw [hb1]; exact le_rfl)] at e
        exact Or.inr ⟨by rw [e]; exact hb1, by rw [e]; exact hb2⟩
  · intro hall
    rcases inv.lim with ⟨h0, h1⟩ | ⟨k, hj, hnk, hk⟩
    · refine ⟨h1, fun i => ⟨fun hn => ?_, fun hpin => ?_⟩⟩
      · rw [hr i, h0, if_neg (by simp)]
        exact clamp_of_within (not_not.1 (hall i hn))
      · rw [hr i, h0, if_neg (by simp)]
        have hmono : ∀ {x y : ℚ}, x ≤ y → Fl.rnd q x ≤ Fl.rnd q y := fun h => Fl.rnd_mono hq h
        rcases hpin with ⟨hb, hd⟩ | ⟨hb, hd⟩
        · refine clamp_low (hp i) hb ?_
          rw [le_iff, val_add]
          have := (lt_iff _ _).1 hd
          rw [val_zero] at this
          have := hmono (by linarith : (p i).val + (dp i).val ≤ (p i).val)
          rwa [rnd_val hq] at this
        · refine clamp_high (hp i) hb ?_
          rw [le_iff, val_add]
          have := (lt_iff _ _).1 hd
          rw [val_zero] at this
          have := hmono (by linarith : (p i).val ≤ (p i).val + (dp i).val)
          rwa [rnd_val hq] at this
    · exfalso
      refine hall k hnk ?_
      unfold Violates
      rw [within_iff_not]
      rintro ⟨h1, h2⟩
      rcases hk with ⟨-, hb⟩ | ⟨-, hb⟩
      · rw [h1] at hb; cases hb
      · rw [h2] at hb; cases hb

/-- The step that `BacktrackSearch` misses (C63): from `14` towards `8` with the bound `13`; here the variable ends on the bound. -/
example : let r := performConservativeStep (K := Double) (fun _ : Fin 1 => .fl 14) (fun _ => .fl (-6)) (fun _ => some (.fl 13)) (fun _ => none)
    r.1 0 = .fl 13 ∧ r.2 = .fl (1 / 6) := by decide +kernel

/-! ## Fraction to the boundary -/

theorem frac_inv (hq : 0 < q) {p dp : Fin n → FNum q} {tau : FNum q} (hp : ∀ i, 0 < (p i).val) (ht : 0 < tau.val) :
    0 ≤ (fractionToTheBoundary p dp tau).1.val ∧ (fractionToTheBoundary p dp tau).1.val ≤ 1 ∧ ∀ i, (dp i).val < 0 → (fractionToTheBoundary p dp tau).1 ≤ -tau * p i / dp i := by
  have key := foldl_finRange_inv (n := n) (f := fracBody p dp tau) (b := (1, none)) (P := fun l (st : FNum q × Option (Fin n)) => 0 ≤ st.1.val ∧ st.1.val ≤ 1 ∧ ∀ i ∈ l, (dp i).val < 0 → st.1 ≤ -tau * p i / dp i)
    ⟨by rw [val_one hq]; norm_num, by rw [val_one hq], by simp⟩ ?_
  · exact ⟨key.1, key.2.1, fun i => key.2.2 i (List.mem_finRange i)⟩
  · rintro l st i ⟨h1, h2, h3⟩
    unfold fracBody
    have hz : (0 : FNum q).val = 0 := val_zero
    dsimp only
    have hk : ∀ {r : FNum q}, (∀ k ∈ l, (dp k).val < 0 → r ≤ -tau * p k / dp k) → ((dp i).val < 0 → r ≤ -tau * p i / dp i) → ∀ k ∈ l ++ [i], (dp k).val < 0 → r ≤ -tau * p k / dp k := by
      intro r a1 a2 k hk
      rw [List.mem_append, List.mem_singleton] at hk
      rcases hk with hk | rfl
      · exact a1 k hk
      · exact a2
    by_cases hd : dp i < 0
    · rw [if_pos hd]
      have hd' := (lt_iff _ _).1 hd
      rw [hz] at hd'
      by_cases hlt : -tau * p i / dp i < st.1
      · rw [if_pos hlt]
        refine ⟨?_, ((le_iff _ _).1 hlt.le).trans h2, hk (fun k hk1 hk2 => hlt.le.trans (h3 k hk1 hk2)) fun _ => le_rfl⟩
        change 0 ≤ (-tau * p i / dp i).val
        rw [val_div, val_mul, val_neg hq]
        refine Fl.rnd_nonneg (div_nonneg_of_nonpos ?_ hd'.le)
        rw [neg_mul, Fl.rnd_neg]
        have := Fl.rnd_nonneg (p := q) (mul_nonneg ht.le (hp i).le)
        linarith
      · rw [if_neg hlt]
        exact ⟨h1, h2, hk h3 fun _ => not_lt.1 hlt⟩
    · rw [if_neg hd]
      exact ⟨h1, h2, hk h3 fun hk => absurd ((lt_iff _ _).2 (by rw [hz]; exact hk)) hd⟩

/-- **C65, fraction to the boundary**: for a positive point and `0 < τ ≤ 1 - 4·2⁻ᵖ` the factor is between `0` and `1` and the step with it, as computed in rounded arithmetic, keeps all entries positive.
    Missing for the full statement: `τ = 1`, where an entry may become negative, see `rounded_fraction_negative`. -/
theorem rounded_fraction_partial (hq : 0 < q) {p dp : Fin n → FNum q} {tau : FNum q} (hp : ∀ i, 0 < (p i).val) (ht : 0 < tau.val) (ht1 : tau.val ≤ 1 - 4 * (1 / 2 ^ q)) :
    let alpha := (fractionToTheBoundary p dp tau).1
    0 ≤ alpha.val ∧ alpha.val ≤ 1 ∧ ∀ i, 0 < (p i + alpha * dp i).val := by
  intro alpha
  obtain ⟨h1, h2, h3⟩ := frac_inv hq (dp := dp) hp ht
  refine ⟨h1, h2, fun i => ?_⟩
  change 0 ≤ alpha.val at h1
  set η : ℚ := 1 / 2 ^ q with hη
  have hη0 : 0 < η := by rw [hη]; positivity
  have hη1 : η < 1 / 4 := by linarith
  have hr : ∀ z : ℚ, |Fl.rnd q z - z| ≤ η * |z| := fun z => by
    have := Fl.rnd_error q z
    rwa [div_eq_mul_one_div, mul_comm] at this
  have hpos : ∀ z : ℚ, 0 < z → 0 < Fl.rnd q z := fun z hz => by
    have := hr z
    rw [abs_of_pos hz, abs_le] at this
    nlinarith
  rw [val_add, val_mul]
  apply hpos
  rcases le_or_gt 0 (dp i).val with hd | hd
  · have := Fl.rnd_nonneg (p := q) (mul_nonneg h1 hd)
    linarith [hp i]
  · have h4 := (le_iff _ _).1 (h3 i hd)
    change alpha.val ≤ _ at h4
    rw [val_div, val_mul, val_neg hq, neg_mul, Fl.rnd_neg] at h4
    -- `m = fl(τ p)`, `t = fl(m/|dp|)`
    have hm := hr (tau.val * (p i).val)
    set m := Fl.rnd q (tau.val * (p i).val)
    have htp : 0 < tau.val * (p i).val := mul_pos ht (hp i)
    rw [abs_of_pos htp, abs_le] at hm
    have hm0 : 0 ≤ m := by nlinarith
    have hq2 : -m / (dp i).val = m / -(dp i).val := by rw [div_neg, neg_div]
    rw [hq2] at h4
    have hd' : 0 < -(dp i).val := by linarith
    have hdiv : 0 ≤ m / -(dp i).val := div_nonneg hm0 hd'.le
    have ht := hr (m / -(dp i).val)
    set t := Fl.rnd q (m / -(dp i).val)
    rw [abs_of_nonneg hdiv, abs_le] at ht
    have h5 : alpha.val * -(dp i).val ≤ (1 + η) * m := by
      have : alpha.val ≤ (1 + η) * (m / -(dp i).val) := by linarith [ht.2]
      have := mul_le_mul_of_nonneg_right this hd'.le
      rwa [mul_assoc, div_mul_cancel₀ _ hd'.ne'] at this
    have h6 := hr (alpha.val * (dp i).val)
    set v := Fl.rnd q (alpha.val * (dp i).val)
    have h7 : alpha.val * (dp i).val ≤ 0 := mul_nonpos_of_nonneg_of_nonpos h1 hd.le
    rw [abs_of_nonpos h7, abs_le] at h6
    have h8 : -v ≤ (1 + η) * (alpha.val * -(dp i).val) := by linarith [h6.1]
    have h9 : -v ≤ (1 + η) * ((1 + η) * ((1 + η) * (tau.val * (p i).val))) := by
      refine h8.trans (mul_le_mul_of_nonneg_left (h5.trans (mul_le_mul_of_nonneg_left ?_ (by linarith))) (by linarith))
      linarith [hm.2]
    have h10 : (1 + η) * ((1 + η) * ((1 + η) * (tau.val * (p i).val))) < (p i).val := by
      have k1 : (1 + η) * ((1 + η) * ((1 + η) * tau.val)) < 1 := by
        have : (1 + η) * ((1 + η) * ((1 + η) * tau.val)) ≤ (1 + η) * ((1 + η) * ((1 + η) * (1 - 4 * η))) :=
          mul_le_mul_of_nonneg_left (mul_le_mul_of_nonneg_left (mul_le_mul_of_nonneg_left ht1 (by linarith)) (by linarith)) (by linarith)
        have k2 : (1 + η) * ((1 + η) * ((1 + η) * (1 - 4 * η))) = 1 - η - 9 * (η * η) - 11 * (η * η * η) - 4 * (η * η * η * η) := by ring
        have : 0 < η * η := by positivity
        have : 0 < η * η * η := by positivity
        have : 0 < η * η * η * η := by positivity
        linarith
      have := mul_lt_mul_of_pos_right k1 (hp i)
      linarith
    linarith

/-- **C65 is false for `τ = 1`** in `double` arithmetic: from `7` with the step `-25` the factor is `fl(7/25)`, and `7 - fl(7/25)*25`, as computed, is `-2⁻⁵⁰`. -/
theorem rounded_fraction_negative : ∃ p dp : Fin 1 → Double, 0 < (p 0).val ∧ (p 0 + (fractionToTheBoundary p dp 1).1 * dp 0).val = -1 / 2 ^ 50 :=
  ⟨fun _ => .fl 7, fun _ => .fl (-25), by decide +kernel, by decide +kernel⟩

/-- The hypotheses hold for the usual `τ = 0.99` (rounded). -/
example : (0 : ℚ) < (.fl (99 / 100) : Double).val ∧ (.fl (99 / 100) : Double).val ≤ 1 - 4 * (1 / 2 ^ 53) := by decide +kernel

end Optima.Steps
