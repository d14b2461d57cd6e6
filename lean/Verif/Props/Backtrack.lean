import Verif.Model.MasterSolver
import Verif.Lemmas.Fold
import Mathlib.Tactic.Linarith
import Mathlib.Tactic.FieldSimp
import Mathlib.Tactic.Ring
import Mathlib.Tactic.NormNum

/-!
# C45: `BacktrackSearch`
-/

set_option linter.unusedSectionVars false

namespace Optima

section order

variable {K : Type*} [LinearOrder K] {nx np nw : ℕ}

/-- `lower ≤ v ≤ upper`, infinite bounds being absent. -/
def Between (lower upper : Option K) (v : K) : Prop := (∀ l, lower = some l → l ≤ v) ∧ ∀ h, upper = some h → v ≤ h

/-- All variables and parameters are within their bounds. -/
def InBounds (B : Bounds K nx np) (u : MVec K nx np nw) : Prop := (∀ i, Between (B.xlower i) (B.xupper i) (u.x i)) ∧ ∀ i, Between (B.plower i) (B.pupper i) (u.p i)

/-- The bounds are consistent. -/
def ConsistentBounds (B : Bounds K nx np) : Prop :=
  (∀ i l h, B.xlower i = some l → B.xupper i = some h → l ≤ h) ∧ ∀ i l h, B.plower i = some l → B.pupper i = some h → l ≤ h

theorem clamp_between {lower upper : Option K} (h : ∀ l u, lower = some l → upper = some u → l ≤ u) (v : K) : Between lower upper (clamp lower upper v) := by
  unfold clamp Between
  cases lower <;> cases upper <;> simp_all

theorem clamp_of_between {lower upper : Option K} {v : K} (h : Between lower upper v) : clamp lower upper v = v := by
  obtain ⟨h1, h2⟩ := h
  unfold clamp
  cases lower <;> cases upper <;> simp_all

theorem clampVec_inBounds {B : Bounds K nx np} (h : ConsistentBounds B) (u : MVec K nx np nw) : InBounds B (clampVec B u) :=
  ⟨fun i => clamp_between (h.1 i) _, fun i => clamp_between (h.2 i) _⟩

theorem clampVec_of_inBounds {B : Bounds K nx np} {u : MVec K nx np nw} (h : InBounds B u) : clampVec B u = u := by
  obtain ⟨x, p, w⟩ := u
  unfold clampVec
  congr 1
  · funext i; exact clamp_of_between (h.1 i)
  · funext i; exact clamp_of_between (h.2 i)

theorem inBounds_consistent {B : Bounds K nx np} {u : MVec K nx np nw} (h : InBounds B u) : ConsistentBounds B :=
  ⟨fun i l u e1 e2 => ((h.1 i).1 l e1).trans ((h.1 i).2 u e2), fun i l u e1 e2 => ((h.2 i).1 l e1).trans ((h.2 i).2 u e2)⟩

theorem insideB_iff (B : Bounds K nx np) (u : MVec K nx np nw) : insideB B u = true ↔ InBounds B u := by
  have h1 : ∀ (v : K) o, leUpper v o = true ↔ ∀ h, o = some h → v ≤ h := by intro v o; cases o <;> simp [leUpper]
  have h2 : ∀ (v : K) o, geLower v o = true ↔ ∀ h, o = some h → h ≤ v := by intro v o; cases o <;> simp [geLower]
  simp only [insideB, Bool.and_eq_true, List.all_eq_true, List.mem_finRange, true_imp_iff, h1, h2, InBounds, Between, forall_and]
  tauto

/-- Whatever the options, the search succeeds from a point within the bounds and ends within the bounds: for every number type and whatever its operations compute (so for rounded arithmetic as well). -/
theorem backtrack_inBounds [One K] [Add K] [Sub K] [Mul K] [Div K] (debug minmax : Bool) {B : Bounds K nx np} {uo : MVec K nx np nw} (h : InBounds B uo) (u : MVec K nx np nw) :
    ∃ v, backtrack debug minmax B uo u = some v ∧ InBounds B v := by
  unfold backtrack
  rw [if_neg (by simp [(insideB_iff B uo).2 h])]
  split_ifs
  · exact ⟨_, rfl, clampVec_inBounds (inBounds_consistent h) _⟩
  · exact ⟨_, rfl, clampVec_inBounds (inBounds_consistent h) _⟩

end order

variable {K : Type*} [Field K] [LinearOrder K] [IsStrictOrderedRing K] {nx np nw : ℕ}

/-- The point `uo*(1 - β) + β*u` of the segment from `uo` to `u`. -/
def blend (β a b : K) : K := a * (1 - β) + β * b

/-- One variable: the factor `γ` the variable asks for is in `(0, 1]`; for every smaller factor the blended value does not cross a bound unless the variable sits on that bound already;
    and `γ < 1` only if the blended value lies exactly on a bound that the trial value violates. -/
theorem betaStep_one {lower upper : Option K} {xo : K} (h : Between lower upper xo) (x : K) :
    0 < betaStep lower upper xo x 1 ∧ betaStep lower upper xo x 1 ≤ 1 ∧
    (∀ β, 0 ≤ β → β ≤ betaStep lower upper xo x 1 → (∀ u, upper = some u → xo < u ∨ x ≤ u → blend β xo x ≤ u) ∧ ∀ l, lower = some l → l < xo ∨ l ≤ x → l ≤ blend β xo x) ∧
    (betaStep lower upper xo x 1 = 1 ∨ (upper = some (blend (betaStep lower upper xo x 1) xo x) ∧ above x upper) ∨
      (lower = some (blend (betaStep lower upper xo x 1) xo x) ∧ below x lower)) := by
  have hin : ∀ β : K, 0 ≤ β → β ≤ 1 → (∀ u, xo ≤ u → x ≤ u → blend β xo x ≤ u) ∧ ∀ l, l ≤ xo → l ≤ x → l ≤ blend β xo x := by
    intro β b0 b1
    unfold blend
    refine ⟨fun u h1 h2 => ?_, fun l h1 h2 => ?_⟩
    · nlinarith [mul_nonneg (sub_nonneg.2 b1) (sub_nonneg.2 h1), mul_nonneg b0 (sub_nonneg.2 h2)]
    · nlinarith [mul_nonneg (sub_nonneg.2 b1) (sub_nonneg.2 h1), mul_nonneg b0 (sub_nonneg.2 h2)]
  unfold betaStep
  split_ifs with h1 h2 h3
  · subst h1
    refine ⟨one_pos, le_rfl, fun β b0 b1 => ?_, Or.inl rfl⟩
    have : blend β x x = x := by unfold blend; ring
    rw [this]
    exact ⟨fun u e _ => h.2 u e, fun l e _ => h.1 l e⟩
  · -- upper bound crossed
    obtain ⟨u, hu⟩ : ∃ u, upper = some u := by cases upper with | none => simp [above] at h2 | some u => exact ⟨u, rfl⟩
    subst hu
    simp only [above, ltUpper, Bool.and_eq_true, decide_eq_true_eq] at h2
    obtain ⟨a1, a2⟩ := h2
    have hpos : 0 < x - xo := by linarith
    have hr1 : (u - xo) / (x - xo) < 1 := by rw [div_lt_one hpos]; linarith
    have hr0 : 0 < (u - xo) / (x - xo) := div_pos (by linarith) hpos
    simp only [betaTo, min_eq_right hr1.le]
    refine ⟨hr0, hr1.le, fun β b0 b1 => ⟨fun u' e _ => ?_, fun l e _ => ?_⟩, Or.inr (Or.inl ⟨?_, by simpa [above] using a1⟩)⟩
    · cases e
      rw [le_div_iff₀ hpos] at b1
      unfold blend; linarith
    · have hlo := h.1 l e
      exact (hin β b0 (b1.trans hr1.le)).2 l hlo (by linarith)
    · have : blend ((u - xo) / (x - xo)) xo x = u := by unfold blend; field_simp; ring
      rw [this]
  · -- lower bound crossed
    obtain ⟨u, hu⟩ : ∃ u, lower = some u := by cases lower with | none => simp [below] at h3 | some u => exact ⟨u, rfl⟩
    subst hu
    simp only [below, gtLower, Bool.and_eq_true, decide_eq_true_eq] at h3
    obtain ⟨a1, a2⟩ := h3
    have hpos : x - xo < 0 := by linarith
    have hr1 : (u - xo) / (x - xo) < 1 := by rw [div_lt_one_of_neg hpos]; linarith
    have hr0 : 0 < (u - xo) / (x - xo) := div_pos_of_neg_of_neg (by linarith) hpos
    simp only [betaTo, min_eq_right hr1.le]
    refine ⟨hr0, hr1.le, fun β b0 b1 => ⟨fun u' e _ => ?_, fun l e _ => ?_⟩, Or.inr (Or.inr ⟨?_, by simpa [below] using a1⟩)⟩
    · have hup := h.2 u' e
      exact (hin β b0 (b1.trans hr1.le)).1 u' hup (by linarith)
    · cases e
      rw [le_div_iff_of_neg hpos] at b1
      unfold blend; linarith
    · have hne : x - xo ≠ 0 := hpos.ne
      have : blend ((u - xo) / (x - xo)) xo x = u := by unfold blend; field_simp; ring
      rw [this]
  · refine ⟨one_pos, le_rfl, fun β b0 b1 => ⟨fun u e hd => ?_, fun l e hd => ?_⟩, Or.inl rfl⟩
    · subst e
      have hup := h.2 u rfl
      refine (hin β b0 b1).1 u hup ?_
      rcases hd with hd | hd
      · by_contra hc
        exact h2 (by simp [above, ltUpper, hd, not_le.1 hc])
      · exact hd
    · subst e
      have hlo := h.1 l rfl
      refine (hin β b0 b1).2 l hlo ?_
      rcases hd with hd | hd
      · by_contra hc
        exact h3 (by simp [below, gtLower, hd, not_le.1 hc])
      · exact hd

theorem betaStep_min (lower upper : Option K) (xo x β : K) (hβ : β ≤ 1) : betaStep lower upper xo x β = min β (betaStep lower upper xo x 1) := by
  unfold betaStep
  split_ifs
  · rw [min_eq_left hβ]
  · rw [← min_assoc, min_eq_left hβ]
  · rw [← min_assoc, min_eq_left hβ]
  · rw [min_eq_left hβ]

/-- The specification of the common factor `β`: it is in `(0, 1]`; with it no variable or parameter crosses a bound, except those sitting on that bound already; and it is the largest such factor: it is `1`
    or one of the variables or parameters ends up exactly on a bound which the trial value violates. -/
structure IsFactor (B : Bounds K nx np) (uo u : MVec K nx np nw) (β : K) : Prop where
  pos : 0 < β
  le_one : β ≤ 1
  x_upper : ∀ i h, B.xupper i = some h → uo.x i < h ∨ u.x i ≤ h → blend β (uo.x i) (u.x i) ≤ h
  x_lower : ∀ i l, B.xlower i = some l → l < uo.x i ∨ l ≤ u.x i → l ≤ blend β (uo.x i) (u.x i)
  p_upper : ∀ i h, B.pupper i = some h → uo.p i < h ∨ u.p i ≤ h → blend β (uo.p i) (u.p i) ≤ h
  p_lower : ∀ i l, B.plower i = some l → l < uo.p i ∨ l ≤ u.p i → l ≤ blend β (uo.p i) (u.p i)
  tight : β = 1 ∨ (∃ i h, B.xupper i = some h ∧ h < u.x i ∧ blend β (uo.x i) (u.x i) = h) ∨ (∃ i l, B.xlower i = some l ∧ u.x i < l ∧ blend β (uo.x i) (u.x i) = l) ∨
    (∃ i h, B.pupper i = some h ∧ h < u.p i ∧ blend β (uo.p i) (u.p i) = h) ∨ ∃ i l, B.plower i = some l ∧ u.p i < l ∧ blend β (uo.p i) (u.p i) = l

theorem fold_min {n : ℕ} (g : Fin n → K → K) (c : Fin n → K) (hg : ∀ i β, β ≤ 1 → g i β = min β (c i)) (hc : ∀ i, c i ≤ 1) (b : K) (hb : b ≤ 1) :
    let r := (List.finRange n).foldl (fun β i => g i β) b
    r ≤ b ∧ r ≤ 1 ∧ (∀ i, r ≤ c i) ∧ (r = b ∨ ∃ i, r = c i) := by
  intro r
  have key := foldl_finRange_inv (n := n) (f := fun β i => g i β) (b := b) (P := fun l (r : K) => r ≤ b ∧ r ≤ 1 ∧ (∀ i ∈ l, r ≤ c i) ∧ (r = b ∨ ∃ i, r = c i))
    ⟨le_rfl, hb, by simp, Or.inl rfl⟩ ?_
  · exact ⟨key.1, key.2.1, fun i => key.2.2.1 i (List.mem_finRange i), key.2.2.2⟩
  · rintro l r a ⟨h1, h2, h3, h4⟩
    rw [hg a r h2]
    refine ⟨(min_le_left _ _).trans h1, (min_le_left _ _).trans h2, fun i hi => ?_, ?_⟩
    · rw [List.mem_append, List.mem_singleton] at hi
      rcases hi with hi | rfl
      · exact (min_le_left _ _).trans (h3 i hi)
      · exact min_le_right _ _
    · rcases min_choice r (c a) with e | e
      · rw [e]; exact h4
      · exact Or.inr ⟨a, e⟩

/-- **C45 (the factor)**: from a point within the bounds, for every trial point, `betamin` is the largest common factor that keeps everything not already on a bound inside the bounds. -/
theorem betaMin_spec {B : Bounds K nx np} {uo : MVec K nx np nw} (h : InBounds B uo) (u : MVec K nx np nw) : IsFactor B uo u (betaMin B uo u) := by
  have cx := fun i => betaStep_one (h.1 i) (u.x i)
  have cp := fun i => betaStep_one (h.2 i) (u.p i)
  obtain ⟨a1, a2, a3, a4⟩ := fold_min (fun i β => betaStep (B.xlower i) (B.xupper i) (uo.x i) (u.x i) β) (fun i => betaStep (B.xlower i) (B.xupper i) (uo.x i) (u.x i) 1)
    (fun i β hβ => betaStep_min _ _ _ _ β hβ) (fun i => (cx i).2.1) 1 le_rfl
  obtain ⟨b1, b2, b3, b4⟩ := fold_min (fun i β => betaStep (B.plower i) (B.pupper i) (uo.p i) (u.p i) β) (fun i => betaStep (B.plower i) (B.pupper i) (uo.p i) (u.p i) 1)
    (fun i β hβ => betaStep_min _ _ _ _ β hβ) (fun i => (cp i).2.1) _ a2
  have hβ : betaMin B uo u = (List.finRange np).foldl (fun beta i => betaStep (B.plower i) (B.pupper i) (uo.p i) (u.p i) beta)
      ((List.finRange nx).foldl (fun beta i => betaStep (B.xlower i) (B.xupper i) (uo.x i) (u.x i) beta) 1) := rfl
  rw [← hβ] at b1 b2 b3 b4
  generalize betaMin B uo u = β at *
  generalize (List.finRange nx).foldl (fun beta i => betaStep (B.xlower i) (B.xupper i) (uo.x i) (u.x i) beta) 1 = β1 at *
  have hpos1 : 0 < β1 := by
    rcases a4 with e | ⟨i, e⟩
    · rw [e]; exact one_pos
    · rw [e]; exact (cx i).1
  have hpos : 0 < β := by
    rcases b4 with e | ⟨i, e⟩
    · rw [e]; exact hpos1
    · rw [e]; exact (cp i).1
  refine ⟨hpos, b2, fun i => ?_, fun i => ?_, fun i => ?_, fun i => ?_, ?_⟩
  · exact ((cx i).2.2.1 β hpos.le (b1.trans (a3 i))).1
  · exact ((cx i).2.2.1 β hpos.le (b1.trans (a3 i))).2
  · exact ((cp i).2.2.1 β hpos.le (b3 i)).1
  · exact ((cp i).2.2.1 β hpos.le (b3 i)).2
  · rcases b4 with e | ⟨i, e⟩
    · subst e
      rcases a4 with e | ⟨i, e⟩
      · exact Or.inl e
      · rcases (cx i).2.2.2 with e' | ⟨e', hv⟩ | ⟨e', hv⟩
        · exact Or.inl (e.trans e')
        · simp only [← e] at e'
          refine Or.inr (Or.inl ⟨i, _, e', ?_, rfl⟩)
          rw [e'] at hv; simpa [above] using hv
        · simp only [← e] at e'
          refine Or.inr (Or.inr (Or.inl ⟨i, _, e', ?_, rfl⟩))
          rw [e'] at hv; simpa [below] using hv
    · rcases (cp i).2.2.2 with e' | ⟨e', hv⟩ | ⟨e', hv⟩
      · exact Or.inl (e.trans e')
      · simp only [← e] at e'
        refine Or.inr (Or.inr (Or.inr (Or.inl ⟨i, _, e', ?_, rfl⟩)))
        rw [e'] at hv; simpa [above] using hv
      · simp only [← e] at e'
        refine Or.inr (Or.inr (Or.inr (Or.inr ⟨i, _, e', ?_, rfl⟩)))
        rw [e'] at hv; simpa [below] using hv

theorem clamp_blend {lower upper : Option K} {xo x β : K} (hb : Between lower upper xo) (h1 : ∀ h, upper = some h → xo < h ∨ x ≤ h → blend β xo x ≤ h)
    (h2 : ∀ l, lower = some l → l < xo ∨ l ≤ x → l ≤ blend β xo x) :
    clamp lower upper (blend β xo x) = blend β xo x ∨ (upper = some xo ∧ xo < x ∧ clamp lower upper (blend β xo x) = xo) ∨ (lower = some xo ∧ x < xo ∧ clamp lower upper (blend β xo x) = xo) := by
  generalize blend β xo x = y at *
  by_cases hy : Between lower upper y
  · exact Or.inl (clamp_of_between hy)
  · right
    unfold Between at hy
    rw [not_and_or] at hy
    push Not at hy
    rcases hy with ⟨l, e, hl⟩ | ⟨u, e, hu⟩
    · right
      have hn : ¬ (l < xo ∨ l ≤ x) := fun hc => absurd (h2 l e hc) (not_le.2 hl)
      push Not at hn
      have hlx := hb.1 l e
      have hxo : l = xo := le_antisymm hlx hn.1
      subst hxo
      refine ⟨e, hn.2, ?_⟩
      subst e
      have hup := hb.2
      cases upper with
      | none => simp [clamp, hl.le]
      | some u => simp [clamp, hl.le, hup u rfl]
    · left
      have hn : ¬ (xo < u ∨ x ≤ u) := fun hc => absurd (h1 u e hc) (not_le.2 hu)
      push Not at hn
      have hlx := hb.2 u e
      have hxo : u = xo := le_antisymm hn.1 hlx
      subst hxo
      refine ⟨e, hn.2, ?_⟩
      subst e
      have hlo := hb.1
      cases lower with
      | none => simp [clamp, hu.le]
      | some l => simp [clamp, hu.le, hlo l rfl]

/-- **C45**: from every point `uo` within the bounds and for every trial point `u`, the search does not fail, and the result is within the bounds: with the default options it is the point
    `uo*(1-β) + β*u` with the common factor `β` for `x`, `p` and the multipliers, where `x` and `p` are projected on the bounds; only variables that sit on a bound of `uo` and leave it
    are changed by the projection. -/
theorem backtrack_spec (debug : Bool) {B : Bounds K nx np} {uo : MVec K nx np nw} (h : InBounds B uo) (u : MVec K nx np nw) :
    ∃ v β, backtrack debug false B uo u = some v ∧ IsFactor B uo u β ∧ InBounds B v ∧ (∀ i, v.w i = blend β (uo.w i) (u.w i)) ∧
      (∀ i, v.x i = clamp (B.xlower i) (B.xupper i) (blend β (uo.x i) (u.x i))) ∧ (∀ i, v.p i = clamp (B.plower i) (B.pupper i) (blend β (uo.p i) (u.p i))) ∧
      (∀ i, v.x i = blend β (uo.x i) (u.x i) ∨ (B.xupper i = some (uo.x i) ∧ uo.x i < u.x i ∧ v.x i = uo.x i) ∨ (B.xlower i = some (uo.x i) ∧ u.x i < uo.x i ∧ v.x i = uo.x i)) ∧
      (∀ i, v.p i = blend β (uo.p i) (u.p i) ∨ (B.pupper i = some (uo.p i) ∧ uo.p i < u.p i ∧ v.p i = uo.p i) ∨ (B.plower i = some (uo.p i) ∧ u.p i < uo.p i ∧ v.p i = uo.p i)) := by
  have hf := betaMin_spec h u
  have hc := inBounds_consistent h
  refine ⟨clampVec B ⟨fun i => blend (betaMin B uo u) (uo.x i) (u.x i), fun i => blend (betaMin B uo u) (uo.p i) (u.p i), fun i => blend (betaMin B uo u) (uo.w i) (u.w i)⟩, betaMin B uo u, ?_, hf,
    clampVec_inBounds hc _, fun i => rfl, fun i => rfl, fun i => rfl, fun i => clamp_blend (h.1 i) (hf.x_upper i) (hf.x_lower i), fun i => clamp_blend (h.2 i) (hf.p_upper i) (hf.p_lower i)⟩
  simp only [backtrack, (insideB_iff B uo).2 h, Bool.not_true, Bool.and_false, Bool.false_eq_true, if_false]
  rfl

/-- **C45 (min-max option)**: `x` and `p` of the trial point are projected, the multipliers are accepted as they are. -/
theorem backtrack_minmax (debug : Bool) {B : Bounds K nx np} {uo : MVec K nx np nw} (h : InBounds B uo) (u : MVec K nx np nw) :
    ∃ v, backtrack debug true B uo u = some v ∧ InBounds B v ∧ v.w = u.w ∧ (∀ i, v.x i = clamp (B.xlower i) (B.xupper i) (u.x i)) ∧ ∀ i, v.p i = clamp (B.plower i) (B.pupper i) (u.p i) := by
  refine ⟨clampVec B u, ?_, clampVec_inBounds (inBounds_consistent h) _, rfl, fun i => rfl, fun i => rfl⟩
  simp only [backtrack, (insideB_iff B uo).2 h, Bool.not_true, Bool.and_false, Bool.false_eq_true, if_false, if_true]

/-- **C45**: a trial point within the bounds is accepted unchanged. -/
theorem backtrack_accepts (debug minmax : Bool) {B : Bounds K nx np} {uo u : MVec K nx np nw} (h : InBounds B uo) (hu : InBounds B u) : backtrack debug minmax B uo u = some u := by
  cases minmax with
  | true =>
    simp only [backtrack, (insideB_iff B uo).2 h, Bool.not_true, Bool.and_false, Bool.false_eq_true, if_false, if_true, clampVec_of_inBounds hu]
  | false =>
    have hf := betaMin_spec h u
    have h1 : betaMin B uo u = 1 := by
      rcases hf.tight with e | ⟨i, l, e, hv, -⟩ | ⟨i, l, e, hv, -⟩ | ⟨i, l, e, hv, -⟩ | ⟨i, l, e, hv, -⟩
      · exact e
      · exact absurd ((hu.1 i).2 l e) (not_le.2 hv)
      · exact absurd ((hu.1 i).1 l e) (not_le.2 hv)
      · exact absurd ((hu.2 i).2 l e) (not_le.2 hv)
      · exact absurd ((hu.2 i).1 l e) (not_le.2 hv)
    simp only [backtrack, (insideB_iff B uo).2 h, Bool.not_true, Bool.and_false, Bool.false_eq_true, if_false, h1, sub_self, mul_zero, zero_add, one_mul]
    congr 1
    exact clampVec_of_inBounds (u := u) hu

/-- A case with a factor strictly between zero and one: the step from `(0, 1)` to `(4, 3)` with `x0 ≤ 1`, `x1 ≤ 1`: `x0` limits the factor to `1/4`, `x1` sits on its bound and stays there. -/
example : ∃ v, backtrack true false (nx := 2) (np := 0) (nw := 1) (⟨fun _ => none, fun _ => some 1, Fin.elim0, Fin.elim0⟩ : Bounds ℚ 2 0) ⟨![0, 1], Fin.elim0, ![0]⟩ ⟨![4, 3], Fin.elim0, ![8]⟩ = some v ∧
    v.x = ![1, 1] ∧ v.w = ![2] := by
  refine ⟨_, rfl, ?_, ?_⟩ <;> decide +kernel

end Optima
