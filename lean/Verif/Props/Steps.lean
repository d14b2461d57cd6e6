import Verif.Model.Steps
import Verif.Lemmas.Fold
import Mathlib.Order.Bounds.Basic
import Verif.Lemmas.Tactics

/-! # Properties C01-C04: step-length utilities -/

set_option linter.unusedSectionVars false

namespace Optima.Steps

section order

variable {K : Type*} [Zero K] [LinearOrder K]

/-! ## Specification (independent of the model) -/

/-- `x` respects a lower and an upper bound (`none` = infinite). -/
def Within (lo up : Option K) (x : K) : Prop :=
  (∀ l, lo = some l → l ≤ x) ∧ (∀ u, up = some u → x ≤ u)

/-- A point inside its box. -/
def InBox {n : ℕ} (lo up : Fin n → Option K) (p : Fin n → K) : Prop := ∀ i, Within (lo i) (up i) (p i)

/-- Entry `i` lies on a bound and the step would push it further outside. -/
def Pinned {n : ℕ} (lo up : Fin n → Option K) (p dp : Fin n → K) (i : Fin n) : Prop :=
  (lo i = some (p i) ∧ dp i < 0) ∨ (up i = some (p i) ∧ 0 < dp i)

/-! ## Elementary lemmas -/

theorem maxLower_of_within {lo up : Option K} {x : K} (h : Within lo up x) : maxLower x lo = x := by
  cases lo with
  | none => rfl
  | some l => exact max_eq_left (h.1 l rfl)

theorem minUpper_of_within {lo up : Option K} {x : K} (h : Within lo up x) : minUpper x up = x := by
  cases up with
  | none => rfl
  | some l => exact min_eq_left (h.2 l rfl)

theorem clamp_of_within {lo up : Option K} {x : K} (h : Within lo up x) :
    minUpper (maxLower x lo) up = x := by
  rw [maxLower_of_within h, minUpper_of_within h]

theorem clamp_within {lo up : Option K} {y : K} (hy : Within lo up y) (x : K) :
    Within lo up (minUpper (maxLower x lo) up) := by
  obtain ⟨h1, h2⟩ := hy
  cases lo <;> cases up <;> simp_all [Within, maxLower, minUpper] <;> exact le_trans h1 h2

theorem within_iff_not {lo up : Option K} {x : K} :
    Within lo up x ↔ belowLower x lo = false ∧ aboveUpper x up = false := by
  cases lo <;> cases up <;> simp [Within, belowLower, aboveUpper]

end order

variable {K : Type*} [Field K] [LinearOrder K] [IsStrictOrderedRing K]

/-- Moving from a point of the box towards a point of the box stays in the box. -/
theorem within_convex {lo up : Option K} {x d t : K} (h0 : Within lo up x) (h1 : Within lo up (x + d))
    (ht0 : 0 ≤ t) (ht1 : t ≤ 1) : Within lo up (x + t * d) := by
  constructor
  · intro l hl
    have a := h0.1 l hl; have b := h1.1 l hl
    nlinarith
  · intro l hl
    have a := h0.2 l hl; have b := h1.2 l hl
    nlinarith

/-! ## C01 conservative step -/

/-- Limit on the step length due to entry `i`: what the loop guarantees for each processed entry. -/
def ConsOk {n : ℕ} (lo up : Fin n → Option K) (p dp : Fin n → K) (a : K) (i : Fin n) : Prop :=
  Pinned lo up p dp i ∨ Within (lo i) (up i) (p i + a * dp i)

/-- The loop invariant of the conservative step. -/
structure ConsInv {n : ℕ} (lo up : Fin n → Option K) (p dp : Fin n → K) (l : List (Fin n))
    (st : ConsState n K) : Prop where
  pos : 0 < st.alpha
  le1 : st.alpha ≤ 1
  ok : ∀ i ∈ l, ConsOk lo up p dp st.alpha i
  lim : (st.lu = 0 ∧ st.alpha = 1) ∨
    (∃ i, i ∈ l ∧ st.j = some i ∧ ¬ Pinned lo up p dp i ∧ st.alpha < 1 ∧
      ((st.lu = -1 ∧ dp i < 0 ∧ lo i = some (p i + st.alpha * dp i)) ∨
       (st.lu = 1 ∧ 0 < dp i ∧ up i = some (p i + st.alpha * dp i))))

theorem consLoop_inv {n : ℕ} {lo up : Fin n → Option K} {p dp : Fin n → K} (hp : InBox lo up p) :
    ConsInv lo up p dp (List.finRange n) (consLoop p dp lo up) := by
  apply foldl_finRange_inv (P := ConsInv lo up p dp)
  · exact ⟨zero_lt_one, le_refl _, by simp, Or.inl ⟨rfl, rfl⟩⟩
  · intro l st i ih
    have keep : ConsOk lo up p dp st.alpha i → ConsInv lo up p dp (l ++ [i]) st := by
      intro hi
      refine ⟨ih.pos, ih.le1, ?_, ?_⟩
      · intro k hk
        rcases List.mem_append.1 hk with hk | hk
        · exact ih.ok k hk
        · rw [List.mem_singleton.1 hk]; exact hi
      · rcases ih.lim with h | ⟨k, hk, h⟩
        · exact Or.inl h
        · exact Or.inr ⟨k, List.mem_append_left _ hk, h⟩
    unfold consBody
    by_cases h1 : lo i = some (p i) ∧ dp i < 0
    · rw [if_pos h1]; exact keep (Or.inl (Or.inl h1))
    rw [if_neg h1]
    by_cases h2 : up i = some (p i) ∧ 0 < dp i
    · rw [if_pos h2]; exact keep (Or.inl (Or.inr h2))
    rw [if_neg h2]
    have hnp : ¬ Pinned lo up p dp i := by rintro (h | h); exacts [h1 h, h2 h]
    by_cases h3 : belowLower (p i + dp i) (lo i) = true
    · rw [if_pos h3]
      obtain ⟨b, hb⟩ : ∃ b, lo i = some b := by
        cases hlo : lo i with
        | none => rw [hlo] at h3; simp [belowLower] at h3
        | some b => exact ⟨b, rfl⟩
      have hlt : p i + dp i < b := by rw [hb] at h3; simpa [belowLower] using h3
      have hbp : b ≤ p i := (hp i).1 b hb
      have hdn : dp i < 0 := by linarith
      have hbne : b < p i := lt_of_le_of_ne hbp (fun h => h1 ⟨by rw [hb, h], hdn⟩)
      have hval : bval (lo i) = b := by rw [hb]; rfl
      simp only [hval]
      set a := (b - p i) / dp i with ha
      have hapos : 0 < a := div_pos_of_neg_of_neg (by linarith) hdn
      have hadp : a * dp i = b - p i := div_mul_cancel₀ _ hdn.ne
      have hawithin : ∀ t, 0 ≤ t → t ≤ a → Within (lo i) (up i) (p i + t * dp i) := by
        intro t ht0 hta
        refine ⟨fun l' hl' => ?_, fun u hu => ?_⟩
        · rw [hb] at hl'; cases hl'; nlinarith
        · have := (hp i).2 u hu; nlinarith
      have ha1 : a < 1 := by
        rw [ha, div_lt_one_of_neg hdn]; linarith
      split_ifs with h4
      · refine ⟨by simp [hapos], by simp, ?_, Or.inr ⟨i, by simp, rfl, hnp, by simp [ha1], Or.inl ⟨rfl, hdn, ?_⟩⟩⟩
        · intro k hk
          simp only [min_eq_left ha1.le]
          rcases List.mem_append.1 hk with hk | hk
          · rcases ih.ok k hk with hk' | hk'
            · exact Or.inl hk'
            · right
              have : Within (lo k) (up k) (p k + (a / st.alpha) * (st.alpha * dp k)) :=
                within_convex (hp k) hk' (div_nonneg hapos.le ih.pos.le)
                  ((div_le_one ih.pos).2 h4.le)
              have e : (a / st.alpha) * (st.alpha * dp k) = a * dp k := by
                have := ih.pos.ne'; field_simp
              rwa [e] at this
          · rw [List.mem_singleton.1 hk]; exact Or.inr (hawithin a hapos.le le_rfl)
        · simp only [min_eq_left ha1.le]; rw [hb, hadp]; congr 1; ring
      · exact keep (Or.inr (hawithin _ ih.pos.le (not_lt.1 h4)))
    · rw [if_neg h3]
      by_cases h5 : aboveUpper (p i + dp i) (up i) = true
      · rw [if_pos h5]
        obtain ⟨b, hb⟩ : ∃ b, up i = some b := by
          cases hlo : up i with
          | none => rw [hlo] at h5; simp [aboveUpper] at h5
          | some b => exact ⟨b, rfl⟩
        have hlt : b < p i + dp i := by rw [hb] at h5; simpa [aboveUpper] using h5
        have hbp : p i ≤ b := (hp i).2 b hb
        have hdn : 0 < dp i := by linarith
        have hbne : p i < b := lt_of_le_of_ne hbp (fun h => h2 ⟨by rw [hb, h], hdn⟩)
        have hval : bval (up i) = b := by rw [hb]; rfl
        simp only [hval]
        set a := (b - p i) / dp i with ha
        have hapos : 0 < a := div_pos (by linarith) hdn
        have hadp : a * dp i = b - p i := by rw [ha]; field_simp
        have hawithin : ∀ t, 0 ≤ t → t ≤ a → Within (lo i) (up i) (p i + t * dp i) := by
          intro t ht0 hta
          refine ⟨fun l' hl' => ?_, fun u hu => ?_⟩
          · have := (hp i).1 l' hl'; nlinarith
          · rw [hb] at hu; cases hu; nlinarith
        have ha1 : a < 1 := by
          rw [ha, div_lt_one hdn]; linarith
        split_ifs with h4
        · refine ⟨by simp [hapos], by simp, ?_, Or.inr ⟨i, by simp, rfl, hnp, by simp [ha1], Or.inr ⟨rfl, hdn, ?_⟩⟩⟩
          · intro k hk
            simp only [min_eq_left ha1.le]
            rcases List.mem_append.1 hk with hk | hk
            · rcases ih.ok k hk with hk' | hk'
              · exact Or.inl hk'
              · right
                have : Within (lo k) (up k) (p k + (a / st.alpha) * (st.alpha * dp k)) :=
                  within_convex (hp k) hk' (div_nonneg hapos.le ih.pos.le)
                    ((div_le_one ih.pos).2 h4.le)
                have e : (a / st.alpha) * (st.alpha * dp k) = a * dp k := by
                  have := ih.pos.ne'; field_simp
                rwa [e] at this
            · rw [List.mem_singleton.1 hk]; exact Or.inr (hawithin a hapos.le le_rfl)
          · simp only [min_eq_left ha1.le]; rw [hb, hadp]; congr 1; ring
        · exact keep (Or.inr (hawithin _ ih.pos.le (not_lt.1 h4)))
      · rw [if_neg h5]
        refine keep (Or.inr (within_convex (hp i) ?_ ih.pos.le ih.le1))
        rw [within_iff_not]; exact ⟨by simpa using h3, by simpa using h5⟩

/-- **C01 (1)** The conservative step never leaves the box. -/
theorem conservativeStep_inBox {n : ℕ} {lo up : Fin n → Option K} {p dp : Fin n → K}
    (hp : InBox lo up p) : InBox lo up (performConservativeStep p dp lo up).1 := by
  intro i
  exact clamp_within (hp i) _

/-- **C01 (2)** The returned factor is the greatest `t ∈ (0,1]` for which every entry that is not pinned
    at its own bound stays within its bounds. -/
theorem conservativeStep_alpha_greatest {n : ℕ} {lo up : Fin n → Option K} {p dp : Fin n → K}
    (hp : InBox lo up p) :
    IsGreatest {t : K | 0 < t ∧ t ≤ 1 ∧ ∀ i, ¬ Pinned lo up p dp i → Within (lo i) (up i) (p i + t * dp i)}
      (performConservativeStep p dp lo up).2 := by
  have inv := consLoop_inv (dp := dp) hp
  have e : (performConservativeStep p dp lo up).2 = (consLoop p dp lo up).alpha := rfl
  rw [e]
  refine ⟨⟨inv.pos, inv.le1, fun i hi => (inv.ok i (List.mem_finRange i)).resolve_left hi⟩, ?_⟩
  rintro t ⟨ht0, ht1, ht⟩
  rcases inv.lim with ⟨-, h⟩ | ⟨i, -, -, hnp, -, (⟨-, hd, hb⟩ | ⟨-, hd, hb⟩)⟩
  · rw [h]; exact ht1
  · have := (ht i hnp).1 _ hb
    by_contra hc; push Not at hc; nlinarith
  · have := (ht i hnp).2 _ hb
    by_contra hc; push Not at hc; nlinarith

/-- **C01 (3)** A pinned entry does not move, every other entry is exactly `p + alpha*dp`. -/
theorem conservativeStep_value {n : ℕ} {lo up : Fin n → Option K} {p dp : Fin n → K}
    (hp : InBox lo up p) (i : Fin n) :
    (Pinned lo up p dp i → (performConservativeStep p dp lo up).1 i = p i) ∧
    (¬ Pinned lo up p dp i →
      (performConservativeStep p dp lo up).1 i = p i + (performConservativeStep p dp lo up).2 * dp i) := by
  have inv := consLoop_inv (dp := dp) hp
  -- the intermediate value before clamping
  set st := consLoop p dp lo up with hst
  have key : (if st.lu ≠ 0 then
        (if st.j = some i then (if st.lu = -1 then bval (lo i) else bval (up i))
        else p i + st.alpha * dp i) else p i + dp i) = p i + st.alpha * dp i := by
    rcases inv.lim with ⟨h0, h1⟩ | ⟨k, -, hj, -, -, (⟨hlu, hd, hb⟩ | ⟨hlu, hd, hb⟩)⟩
    · simp [h0, h1]
    · by_cases hik : k = i
      · subst hik; simp [hlu, hj, hb, bval]
      · simp [hlu, hj, hik]
    · by_cases hik : k = i
      · subst hik; simp [hlu, hj, hb, bval]
      · simp [hlu, hj, hik]
  have hval : (performConservativeStep p dp lo up).1 i =
      minUpper (maxLower (p i + st.alpha * dp i) (lo i)) (up i) := by
    rw [← key]
    simp only [performConservativeStep, ← hst]
    by_cases h : st.lu ≠ 0 <;> simp [h]
  have halpha : (performConservativeStep p dp lo up).2 = st.alpha := rfl
  rw [hval, halpha]
  constructor
  · rintro (⟨h1, h2⟩ | ⟨h1, h2⟩)
    · have : p i + st.alpha * dp i ≤ p i := by have := inv.pos; nlinarith
      have e : maxLower (p i + st.alpha * dp i) (lo i) = p i := by rw [h1]; exact max_eq_right this
      rw [e]; exact minUpper_of_within (hp i)
    · have : p i ≤ p i + st.alpha * dp i := by have := inv.pos; nlinarith
      have e : maxLower (p i + st.alpha * dp i) (lo i) = p i + st.alpha * dp i := by
        cases hlo : lo i with
        | none => rfl
        | some l => exact max_eq_left (le_trans ((hp i).1 l hlo) this)
      rw [e, h1]; exact min_eq_right this
  · intro hnp
    exact clamp_of_within ((inv.ok i (List.mem_finRange i)).resolve_left hnp)

/-- **C01 (4)** If the step was shortened, some non-pinned entry ends exactly on a bound; and the step is
    not shortened when the full step keeps all non-pinned entries in the box. -/
theorem conservativeStep_limiting {n : ℕ} {lo up : Fin n → Option K} {p dp : Fin n → K}
    (hp : InBox lo up p) :
    ((performConservativeStep p dp lo up).2 < 1 →
      ∃ i, ¬ Pinned lo up p dp i ∧ (lo i = some ((performConservativeStep p dp lo up).1 i) ∨
        up i = some ((performConservativeStep p dp lo up).1 i))) ∧
    ((∀ i, ¬ Pinned lo up p dp i → Within (lo i) (up i) (p i + dp i)) →
      (performConservativeStep p dp lo up).2 = 1) := by
  have inv := consLoop_inv (dp := dp) hp
  constructor
  · intro hlt
    have hlt' : (consLoop p dp lo up).alpha < 1 := hlt
    rcases inv.lim with ⟨-, h⟩ | ⟨i, -, -, hnp, -, h⟩
    · rw [h] at hlt'; exact absurd hlt' (lt_irrefl _)
    · refine ⟨i, hnp, ?_⟩
      rw [(conservativeStep_value hp i).2 hnp]
      rcases h with ⟨-, -, h⟩ | ⟨-, -, h⟩
      · exact Or.inl h
      · exact Or.inr h
  · intro h
    have g := conservativeStep_alpha_greatest (dp := dp) hp
    refine le_antisymm g.1.2.1 (g.2 ⟨zero_lt_one, le_refl _, fun i hi => ?_⟩)
    rw [one_mul]; exact h i hi

/-- The hypothesis of C01 is met by a point with one entry on a bound, one infinite bound and a step that
    is shortened. -/
example : InBox (K := ℚ) ![some 0, some 0, none] ![some 1, none, some 4] ![1, 1/2, 3] ∧
    (performConservativeStep (K := ℚ) ![1, 1/2, 3] ![1, -1, 2] ![some 0, some 0, none] ![some 1, none, some 4]).2 = 1/2 := by
  constructor
  · intro i; fin_cases i <;> simp [Within] <;> norm_num
  · decide +kernel

/-! ## C02 aggressive step -/

/-- **C02** The aggressive step gives, entry by entry, the point of the box nearest to `p + dp`. -/
theorem aggressiveStep_projection {n : ℕ} {lo up : Fin n → Option K} (p dp : Fin n → K)
    (hbox : ∃ q, InBox lo up q) :
    InBox lo up (performAggressiveStep p dp lo up) ∧
    (∀ q, InBox lo up q → ∀ i, |performAggressiveStep p dp lo up i - (p i + dp i)| ≤ |q i - (p i + dp i)|) ∧
    (InBox lo up (fun i => p i + dp i) → performAggressiveStep p dp lo up = fun i => p i + dp i) := by
  obtain ⟨q0, hq0⟩ := hbox
  refine ⟨fun i => clamp_within (hq0 i) _, ?_, ?_⟩
  · intro q hq i
    unfold performAggressiveStep
    set x := p i + dp i
    obtain ⟨h1, h2⟩ := hq i
    cases hl : lo i with
    | none =>
      cases hu : up i with
      | none => simp [maxLower, minUpper]
      | some u =>
        have := h2 u hu
        simp only [maxLower, minUpper]
        rcases le_total x u with h | h
        · rw [min_eq_left h]; simp
        · rw [min_eq_right h, abs_of_nonpos (by linarith), abs_of_nonpos (by linarith)]; linarith
    | some l =>
      have a1 := h1 l hl
      cases hu : up i with
      | none =>
        simp only [maxLower, minUpper]
        rcases le_total x l with h | h
        · rw [max_eq_right h, abs_of_nonneg (by linarith), abs_of_nonneg (by linarith)]; linarith
        · rw [max_eq_left h]; simp
      | some u =>
        have a2 := h2 u hu
        simp only [maxLower, minUpper]
        rcases le_total x l with h | h
        · rw [max_eq_right h, min_eq_left (by linarith), abs_of_nonneg (by linarith), abs_of_nonneg (by linarith)]
          linarith
        · rw [max_eq_left h]
          rcases le_total x u with h' | h'
          · rw [min_eq_left h']; simp
          · rw [min_eq_right h', abs_of_nonpos (by linarith), abs_of_nonpos (by linarith)]; linarith
  · intro h; funext i; exact clamp_of_within (h i)

example : ∃ q, InBox (K := ℚ) ![some 0, none] ![some 1, some 0] q :=
  ⟨![1, -5], by intro i; fin_cases i <;> simp [Within]⟩

/-! ## C03 largest step -/

/-- Invariant of the bounded `largestStep` loop. -/
structure LSInv {n : ℕ} (lo up : Fin n → Option K) (p dp : Fin n → K) (l : List (Fin n)) (r : Option K) : Prop where
  none_iff : r = none ↔ ∀ i ∈ l, Within (lo i) (up i) (p i + dp i)
  some_imp : ∀ a, r = some a → 0 ≤ a ∧ a < 1 ∧ (∀ i ∈ l, ∀ t, 0 ≤ t → t ≤ a → Within (lo i) (up i) (p i + t * dp i)) ∧
    ∃ i ∈ l, (lo i = some (p i + a * dp i) ∨ up i = some (p i + a * dp i)) ∧
      ∀ t, a < t → ¬ Within (lo i) (up i) (p i + t * dp i)

/-- What a single violating entry contributes. -/
structure Viol (lo up : Option K) (x d a : K) : Prop where
  nonneg : 0 ≤ a
  lt1 : a < 1
  inside : ∀ t, 0 ≤ t → t ≤ a → Within lo up (x + t * d)
  touch : lo = some (x + a * d) ∨ up = some (x + a * d)
  outside : ∀ t, a < t → ¬ Within lo up (x + t * d)

theorem viol_lower {lo up : Option K} {x d b : K} (h : Within lo up x) (hb : lo = some b) (hlt : x + d < b) :
    Viol lo up x d ((b - x) / d) := by
  have hbp : b ≤ x := h.1 b hb
  have hd : d < 0 := by linarith
  have e : (b - x) / d * d = b - x := div_mul_cancel₀ _ hd.ne
  refine ⟨div_nonneg_of_nonpos (by linarith) hd.le, by rw [div_lt_one_of_neg hd]; linarith, ?_, ?_, ?_⟩
  · intro t ht0 hta
    refine ⟨fun l hl => ?_, fun u hu => ?_⟩
    · rw [hb] at hl; cases hl; nlinarith
    · have := h.2 u hu; nlinarith
  · left; rw [e, hb]; congr 1; ring
  · intro t ht hw
    have := hw.1 b hb; nlinarith

theorem viol_upper {lo up : Option K} {x d b : K} (h : Within lo up x) (hb : up = some b) (hlt : b < x + d) :
    Viol lo up x d ((b - x) / d) := by
  have hbp : x ≤ b := h.2 b hb
  have hd : 0 < d := by linarith
  have e : (b - x) / d * d = b - x := by field_simp
  refine ⟨div_nonneg (by linarith) hd.le, by rw [div_lt_one hd]; linarith, ?_, ?_, ?_⟩
  · intro t ht0 hta
    refine ⟨fun l hl => ?_, fun u hu => ?_⟩
    · have := h.1 l hl; nlinarith
    · rw [hb] at hu; cases hu; nlinarith
  · right; rw [e, hb]; congr 1; ring
  · intro t ht hw
    have := hw.2 b hb; nlinarith

theorem largestStep_inv {n : ℕ} {lo up : Fin n → Option K} {p dp : Fin n → K} (hp : InBox lo up p) :
    LSInv lo up p dp (List.finRange n) (largestStep p dp lo up) := by
  apply foldl_finRange_inv (P := LSInv lo up p dp)
  · exact ⟨by simp, by simp⟩
  · intro l r i ih
    have step : ∀ a, Viol (lo i) (up i) (p i) (dp i) a → LSInv lo up p dp (l ++ [i]) (minInf r a) := by
      intro a hv
      have hnot : ¬ Within (lo i) (up i) (p i + dp i) := by
        have := hv.outside 1 hv.lt1; rwa [one_mul] at this
      refine ⟨⟨fun h => ?_, fun h => absurd (h i (by simp)) hnot⟩, ?_⟩
      · cases r <;> simp [minInf] at h
      · intro a' ha'
        cases hr : r with
        | none =>
          rw [hr] at ha'; simp [minInf] at ha'; subst ha'
          refine ⟨hv.nonneg, hv.lt1, ?_, i, by simp, hv.touch, hv.outside⟩
          intro k hk t ht0 hta
          rcases List.mem_append.1 hk with hk | hk
          · exact within_convex (hp k) (ih.none_iff.1 hr k hk) ht0 (by linarith [hv.lt1])
          · rw [List.mem_singleton.1 hk]; exact hv.inside t ht0 hta
        | some b =>
          rw [hr] at ha'; simp only [minInf, Option.some.injEq] at ha'
          obtain ⟨hb0, hb1, hbi, k0, hk0, hk1, hk2⟩ := ih.some_imp b hr
          rcases le_total b a with hba | hba
          · rw [min_eq_left hba] at ha'; subst ha'
            refine ⟨hb0, hb1, ?_, k0, by simp [hk0], hk1, hk2⟩
            intro k hk t ht0 hta
            rcases List.mem_append.1 hk with hk | hk
            · exact hbi k hk t ht0 hta
            · rw [List.mem_singleton.1 hk]; exact hv.inside t ht0 (le_trans hta hba)
          · rw [min_eq_right hba] at ha'; subst ha'
            refine ⟨hv.nonneg, hv.lt1, ?_, i, by simp, hv.touch, hv.outside⟩
            intro k hk t ht0 hta
            rcases List.mem_append.1 hk with hk | hk
            · exact hbi k hk t ht0 (le_trans hta hba)
            · rw [List.mem_singleton.1 hk]; exact hv.inside t ht0 hta
    unfold largestStepBody
    by_cases h3 : belowLower (p i + dp i) (lo i) = true
    · rw [if_pos h3]
      apply step
      cases hlo : lo i with
      | none => rw [hlo] at h3; simp [belowLower] at h3
      | some b =>
        rw [hlo] at h3
        have h := hp i; rw [hlo] at h
        exact viol_lower h rfl (by simpa [belowLower] using h3 : p i + dp i < b)
    · rw [if_neg h3]
      by_cases h5 : aboveUpper (p i + dp i) (up i) = true
      · rw [if_pos h5]
        apply step
        cases hlo : up i with
        | none => rw [hlo] at h5; simp [aboveUpper] at h5
        | some b =>
          rw [hlo] at h5
          have h := hp i; rw [hlo] at h
          exact viol_upper h rfl (by simpa [aboveUpper] using h5 : b < p i + dp i)
      · rw [if_neg h5]
        have hw : Within (lo i) (up i) (p i + dp i) := by
          rw [within_iff_not]; exact ⟨by simpa using h3, by simpa using h5⟩
        refine ⟨ih.none_iff.trans ⟨fun h k hk => ?_, fun h k hk => h k (by simp [hk])⟩, ?_⟩
        · rcases List.mem_append.1 hk with hk | hk
          · exact h k hk
          · rw [List.mem_singleton.1 hk]; exact hw
        · intro a ha
          obtain ⟨hb0, hb1, hbi, k0, hk0, hk1, hk2⟩ := ih.some_imp a ha
          refine ⟨hb0, hb1, ?_, k0, by simp [hk0], hk1, hk2⟩
          intro k hk t ht0 hta
          rcases List.mem_append.1 hk with hk | hk
          · exact hbi k hk t ht0 hta
          · rw [List.mem_singleton.1 hk]; exact within_convex (hp i) hw ht0 (by linarith)

/-- **C03** The bounded `largestStep` is `+inf` exactly when the full step stays in the box; otherwise it is the
    greatest admissible step length, it is below 1 and the point it leads to touches a bound.  All shorter steps stay in
    the box. -/
theorem largestStep_spec {n : ℕ} {lo up : Fin n → Option K} {p dp : Fin n → K} (hp : InBox lo up p) :
    (largestStep p dp lo up = none ↔ InBox lo up (fun i => p i + dp i)) ∧
    (∀ a, largestStep p dp lo up = some a →
      a < 1 ∧ IsGreatest {t : K | 0 ≤ t ∧ InBox lo up (fun i => p i + t * dp i)} a ∧
      ∃ i, lo i = some (p i + a * dp i) ∨ up i = some (p i + a * dp i)) ∧
    ∀ t, 0 ≤ t → t ≤ 1 → (∀ a, largestStep p dp lo up = some a → t ≤ a) → InBox lo up (fun i => p i + t * dp i) := by
  have inv := largestStep_inv (dp := dp) hp
  refine ⟨inv.none_iff.trans ⟨fun h i => h i (List.mem_finRange i), fun h i _ => h i⟩, ?_, ?_⟩
  rotate_left
  · intro t h0 h1 ht i
    cases hr : largestStep p dp lo up with
    | none => exact within_convex (hp i) (inv.none_iff.1 hr i (List.mem_finRange i)) h0 h1
    | some a => exact (inv.some_imp a hr).2.2.1 i (List.mem_finRange i) t h0 (ht a hr)
  intro a ha
  obtain ⟨h0, h1, h2, k, -, hk1, hk2⟩ := inv.some_imp a ha
  refine ⟨h1, ⟨⟨h0, fun i => h2 i (List.mem_finRange i) a h0 le_rfl⟩, ?_⟩, k, hk1⟩
  rintro t ⟨-, ht⟩
  by_contra hc; push Not at hc
  exact hk2 t hc (ht k)

/-- `stepUpToBounds` (which has an extra, unreachable assignment) computes the same value as `largestStep`. -/
theorem stepUpToBounds_eq_largestStep {n : ℕ} (lo up : Fin n → Option K) (p dp : Fin n → K) :
    stepUpToBounds p dp lo up = largestStep p dp lo up := by
  have : stepUpToBoundsBody p dp lo up = largestStepBody p dp lo up := by
    funext a i
    unfold stepUpToBoundsBody largestStepBody
    by_cases h3 : belowLower (p i + dp i) (lo i) = true
    · simp [h3]
    · by_cases h5 : aboveUpper (p i + dp i) (up i) = true
      · simp [h3, h5]
      · simp only [h3, h5]
        cases hu : up i with
        | none => rfl
        | some u => rw [hu] at h5; simp only [aboveUpper, decide_eq_true_eq] at h5; simp [h5]
  unfold stepUpToBounds largestStep; rw [this]

example : InBox (K := ℚ) ![some 0, none] ![some 1, none] ![1, 7] ∧
    largestStep (K := ℚ) ![1, 7] ![-3, 1] ![some 0, none] ![some 1, none] = some (1/3) := by
  constructor
  · intro i; fin_cases i <;> simp [Within]
  · decide +kernel

/-- **C03 (non-negativity variant)** For a strictly positive point `largestStep(p,dp)` is `+inf` iff no entry
    decreases, and otherwise is the greatest `t` with `p + t*dp >= 0`, where some entry becomes exactly zero. -/
theorem largestStep0_spec_partial {n : ℕ} {p dp : Fin n → K} (hp : ∀ i, 0 < p i) :
    (largestStep0 p dp = none ↔ ∀ i, 0 ≤ dp i) ∧
    (∀ a, largestStep0 p dp = some a →
      0 < a ∧ IsGreatest {t : K | 0 ≤ t ∧ ∀ i, 0 ≤ p i + t * dp i} a ∧ ∃ i, p i + a * dp i = 0) := by
  have hres : ∀ i, 0 < -p i / dp i ↔ dp i < 0 := by
    intro i
    constructor
    · intro h; by_contra hc; push Not at hc
      have : -p i / dp i ≤ 0 := div_nonpos_of_nonpos_of_nonneg (by linarith [hp i]) hc
      linarith
    · intro h; exact div_pos_of_neg_of_neg (by linarith [hp i]) h
  have inv : (largestStep0 p dp = none ↔ ∀ i ∈ List.finRange n, 0 ≤ dp i) ∧
      (∀ a, largestStep0 p dp = some a → 0 < a ∧ (∀ i ∈ List.finRange n, dp i < 0 → a ≤ -p i / dp i) ∧
        ∃ i, dp i < 0 ∧ a = -p i / dp i) := by
    apply foldl_finRange_inv (P := fun l (r : Option K) => (r = none ↔ ∀ i ∈ l, 0 ≤ dp i) ∧
      (∀ a, r = some a → 0 < a ∧ (∀ i ∈ l, dp i < 0 → a ≤ -p i / dp i) ∧ ∃ i, dp i < 0 ∧ a = -p i / dp i))
    · simp
    · rintro l r i ⟨ih1, ih2⟩
      cases r with
      | none =>
        simp only [true_iff] at ih1
        simp only [hres]
        by_cases hd : dp i < 0
        · simp only [hd, if_true]
          refine ⟨⟨by simp, fun h => absurd (h i (by simp)) (not_le.2 hd)⟩, ?_⟩
          rintro a ⟨⟩
          refine ⟨(hres i).2 hd, ?_, i, hd, rfl⟩
          intro k hk hdk
          rcases List.mem_append.1 hk with hk | hk
          · exact absurd (ih1 k hk) (not_le.2 hdk)
          · rw [List.mem_singleton.1 hk]
        · simp only [hd, if_false]
          refine ⟨⟨fun _ k hk => ?_, by simp⟩, by simp⟩
          rcases List.mem_append.1 hk with hk | hk
          · exact ih1 k hk
          · rw [List.mem_singleton.1 hk]; exact not_lt.1 hd
      | some b =>
        obtain ⟨hb0, hb1, k0, hk0, hk1⟩ := ih2 b rfl
        have hex : ∃ k ∈ l, dp k < 0 := by
          by_contra hc; push Not at hc
          exact absurd (ih1.2 hc) (by simp)
        obtain ⟨k1, hk1l, hk1d⟩ := hex
        simp only [hres]
        by_cases hd : dp i < 0 ∧ -p i / dp i < b
        · simp only [hd, and_self, if_true]
          refine ⟨⟨by simp, fun h => absurd (h i (by simp)) (not_le.2 hd.1)⟩, ?_⟩
          rintro a ⟨⟩
          refine ⟨(hres i).2 hd.1, ?_, i, hd.1, rfl⟩
          intro k hk hdk
          rcases List.mem_append.1 hk with hk | hk
          · exact le_trans hd.2.le (hb1 k hk hdk)
          · rw [List.mem_singleton.1 hk]
        · simp only [if_neg hd]
          refine ⟨⟨by simp, fun h => absurd (h k1 (by simp [hk1l])) (not_le.2 hk1d)⟩, ?_⟩
          rintro a ⟨⟩
          refine ⟨hb0, ?_, k0, hk0, hk1⟩
          intro k hk hdk
          rcases List.mem_append.1 hk with hk | hk
          · exact hb1 k hk hdk
          · rw [List.mem_singleton.1 hk] at hdk ⊢
            exact not_lt.1 (fun h => hd ⟨hdk, h⟩)
  refine ⟨inv.1.trans ⟨fun h i => h i (List.mem_finRange i), fun h i _ => h i⟩, ?_⟩
  intro a ha
  obtain ⟨h0, h1, k, hk, hk'⟩ := inv.2 a ha
  have e : a * dp k = -p k := by rw [hk']; have := hk.ne; field_simp
  refine ⟨h0, ⟨⟨h0.le, fun i => ?_⟩, ?_⟩, k, by linarith⟩
  · rcases lt_or_ge (dp i) 0 with hd | hd
    · have := h1 i (List.mem_finRange i) hd
      rw [le_div_iff_of_neg hd] at this; linarith
    · have := hp i; nlinarith
  · rintro t ⟨-, ht⟩
    by_contra hc; push Not at hc
    have := ht k; nlinarith

/-- The hypothesis `0 < p` of `largestStep0_spec_partial` cannot be dropped: an entry that already is on the bound zero
    and moves outwards is ignored by the code, so the "largest" step violates the bound. -/
theorem largestStep0_ignores_zero_entries :
    ∃ (p dp : Fin 2 → ℚ) (a : ℚ), (∀ i, 0 ≤ p i) ∧ largestStep0 p dp = some a ∧ ∃ i, p i + a * dp i < 0 :=
  ⟨![0, 1], ![-1, -1], 1, by intro i; fin_cases i <;> simp, by decide +kernel, 0, by norm_num⟩

example : largestStep0 (K := ℚ) ![2, 1, 3] ![-1, 5, -6] = some (1/2) := by decide +kernel

/-! ## C04 fraction to the boundary -/

/-- **C04** For a positive point and `tau ∈ (0,1]`, `fractionToTheBoundary` is the maximum of the documented set, and
    the limiting index it reports is correct. -/
theorem fractionToTheBoundary_greatest {n : ℕ} {p dp : Fin n → K} {tau : K} (hp : ∀ i, 0 < p i) (ht : 0 < tau) :
    IsGreatest {t : K | 0 < t ∧ t ≤ 1 ∧ ∀ i, (1 - tau) * p i ≤ p i + t * dp i}
      (fractionToTheBoundary p dp tau).1 ∧
    ((fractionToTheBoundary p dp tau).2 = none → (fractionToTheBoundary p dp tau).1 = 1) ∧
    (∀ i, (fractionToTheBoundary p dp tau).2 = some i →
      (fractionToTheBoundary p dp tau).1 < 1 ∧
      p i + (fractionToTheBoundary p dp tau).1 * dp i = (1 - tau) * p i) := by
  have inv : 0 < (fractionToTheBoundary p dp tau).1 ∧ (fractionToTheBoundary p dp tau).1 ≤ 1 ∧
      (∀ i ∈ List.finRange n, dp i < 0 → (fractionToTheBoundary p dp tau).1 ≤ -tau * p i / dp i) ∧
      ((fractionToTheBoundary p dp tau).2 = none → (fractionToTheBoundary p dp tau).1 = 1) ∧
      (∀ i, (fractionToTheBoundary p dp tau).2 = some i → dp i < 0 ∧ (fractionToTheBoundary p dp tau).1 < 1 ∧
        (fractionToTheBoundary p dp tau).1 = -tau * p i / dp i) := by
    apply foldl_finRange_inv (P := fun l (st : K × Option (Fin n)) => 0 < st.1 ∧ st.1 ≤ 1 ∧
      (∀ i ∈ l, dp i < 0 → st.1 ≤ -tau * p i / dp i) ∧ (st.2 = none → st.1 = 1) ∧
      (∀ i, st.2 = some i → dp i < 0 ∧ st.1 < 1 ∧ st.1 = -tau * p i / dp i))
    · simp
    · rintro l ⟨a, j⟩ i ⟨h1, h2, h3, h4, h5⟩
      dsimp only at h1 h2 h3 h4 h5
      unfold fracBody
      by_cases hd : dp i < 0
      · rw [if_pos hd]
        have hpos : 0 < -tau * p i / dp i := div_pos_of_neg_of_neg (by nlinarith [hp i]) hd
        dsimp only
        split_ifs with hlt
        · refine ⟨hpos, by linarith, ?_, by simp, ?_⟩
          · intro k hk hdk
            rcases List.mem_append.1 hk with hk | hk
            · exact le_trans hlt.le (h3 k hk hdk)
            · rw [List.mem_singleton.1 hk]
          · rintro k ⟨⟩; exact ⟨hd, by dsimp only; linarith, rfl⟩
        · refine ⟨h1, h2, ?_, h4, h5⟩
          intro k hk hdk
          rcases List.mem_append.1 hk with hk | hk
          · exact h3 k hk hdk
          · rw [List.mem_singleton.1 hk]; exact not_lt.1 hlt
      · rw [if_neg hd]
        refine ⟨h1, h2, ?_, h4, h5⟩
        intro k hk hdk
        rcases List.mem_append.1 hk with hk | hk
        · exact h3 k hk hdk
        · rw [List.mem_singleton.1 hk] at hdk; exact absurd hdk hd
  obtain ⟨h1, h2, h3, h4, h5⟩ := inv
  set r := fractionToTheBoundary p dp tau
  refine ⟨⟨⟨h1, h2, fun i => ?_⟩, ?_⟩, h4, ?_⟩
  · rcases lt_or_ge (dp i) 0 with hd | hd
    · have := h3 i (List.mem_finRange i) hd
      rw [le_div_iff_of_neg hd] at this; linarith
    · have := hp i; nlinarith
  · rintro t ⟨ht0, ht1, hti⟩
    cases hr : r.2 with
    | none => rw [h4 hr]; exact ht1
    | some i =>
      obtain ⟨hd, -, he⟩ := h5 i hr
      rw [he, le_div_iff_of_neg hd]; have := hti i; linarith
  · intro i hi
    obtain ⟨hd, hlt, he⟩ := h5 i hi
    refine ⟨hlt, ?_⟩
    have : r.1 * dp i = -tau * p i := by rw [he]; have := hd.ne; field_simp
    linarith

example : (∀ i, (0:ℚ) < ![2, 1] i) ∧ fractionToTheBoundary (K := ℚ) ![2, 1] ![-4, 1] (9/10) = (9/20, some 0) :=
  ⟨by intro i; fin_cases i <;> simp, by decide +kernel⟩

/-- **C04** `fractionToTheLowerBoundary`: maximum of `{t ∈ (0,1] : p + t dp - lower >= (1-tau)(p - lower)}`. -/
theorem fractionToTheLowerBoundary_greatest {n : ℕ} {p dp lower : Fin n → K} {tau : K}
    (hp : ∀ i, lower i < p i) (ht : 0 < tau) :
    IsGreatest {t : K | 0 < t ∧ t ≤ 1 ∧ ∀ i, (1 - tau) * (p i - lower i) ≤ p i + t * dp i - lower i}
      (fractionToTheLowerBoundary p dp lower tau) := by
  have inv : 0 < fractionToTheLowerBoundary p dp lower tau ∧ fractionToTheLowerBoundary p dp lower tau ≤ 1 ∧
      (∀ i ∈ List.finRange n, dp i < 0 → fractionToTheLowerBoundary p dp lower tau ≤ -tau * (p i - lower i) / dp i) ∧
      (fractionToTheLowerBoundary p dp lower tau = 1 ∨
        ∃ i, dp i < 0 ∧ fractionToTheLowerBoundary p dp lower tau = -tau * (p i - lower i) / dp i) := by
    apply foldl_finRange_inv (P := fun l (a : K) => 0 < a ∧ a ≤ 1 ∧
      (∀ i ∈ l, dp i < 0 → a ≤ -tau * (p i - lower i) / dp i) ∧
      (a = 1 ∨ ∃ i, dp i < 0 ∧ a = -tau * (p i - lower i) / dp i))
    · simp
    · rintro l a i ⟨h1, h2, h3, h4⟩
      by_cases hd : dp i < 0
      · rw [if_pos hd]
        have hpos : 0 < -tau * (p i - lower i) / dp i :=
          div_pos_of_neg_of_neg (by nlinarith [hp i]) hd
        refine ⟨lt_min h1 hpos, le_trans (min_le_left _ _) h2, ?_, ?_⟩
        · intro k hk hdk
          rcases List.mem_append.1 hk with hk | hk
          · exact le_trans (min_le_left _ _) (h3 k hk hdk)
          · rw [List.mem_singleton.1 hk]; exact min_le_right _ _
        · rcases min_choice a (-tau * (p i - lower i) / dp i) with h | h
          · rw [h]; exact h4
          · rw [h]; exact Or.inr ⟨i, hd, rfl⟩
      · rw [if_neg hd]
        refine ⟨h1, h2, ?_, h4⟩
        intro k hk hdk
        rcases List.mem_append.1 hk with hk | hk
        · exact h3 k hk hdk
        · rw [List.mem_singleton.1 hk] at hdk; exact absurd hdk hd
  obtain ⟨h1, h2, h3, h4⟩ := inv
  set r := fractionToTheLowerBoundary p dp lower tau
  refine ⟨⟨h1, h2, fun i => ?_⟩, ?_⟩
  · rcases lt_or_ge (dp i) 0 with hd | hd
    · have := h3 i (List.mem_finRange i) hd
      rw [le_div_iff_of_neg hd] at this; linarith
    · have := hp i; nlinarith
  · rintro t ⟨ht0, ht1, hti⟩
    rcases h4 with h4 | ⟨i, hd, he⟩
    · rw [h4]; exact ht1
    · rw [he, le_div_iff_of_neg hd]; have := hti i; linarith

/-- **C04** The `C p >= r` variant: maximum of `{t ∈ (0,1] : C(p + t dp) - r >= (1-tau)(C p - r)}`. -/
theorem fractionToTheBoundaryC_greatest {m n : ℕ} {p dp : Fin n → K} {C : Fin m → Fin n → K} {r : Fin m → K} {tau : K}
    (hp : ∀ i, r i < ((List.finRange n).map fun j => C i j * p j).sum) (ht : 0 < tau) :
    IsGreatest {t : K | 0 < t ∧ t ≤ 1 ∧ ∀ i,
        (1 - tau) * (((List.finRange n).map fun j => C i j * p j).sum - r i) ≤
        ((List.finRange n).map fun j => C i j * (p j + t * dp j)).sum - r i}
      (fractionToTheBoundaryC p dp C r tau) := by
  have hsum : ∀ (t : K) i, ((List.finRange n).map fun j => C i j * (p j + t * dp j)).sum =
      ((List.finRange n).map fun j => C i j * p j).sum + t * ((List.finRange n).map fun j => C i j * dp j).sum := by
    intro t i
    induction List.finRange n with
    | nil => simp
    | cons a l ih => simp only [List.map_cons, List.sum_cons, ih]; ring
  simp only [hsum]
  unfold fractionToTheBoundaryC
  generalize hcp : (fun i => ((List.finRange n).map fun j => C i j * p j).sum) = cp
  generalize hcdp : (fun i => ((List.finRange n).map fun j => C i j * dp j).sum) = cdp
  have hcp' : ∀ i, ((List.finRange n).map fun j => C i j * p j).sum = cp i := fun i => congrFun hcp i
  have hcdp' : ∀ i, ((List.finRange n).map fun j => C i j * dp j).sum = cdp i := fun i => congrFun hcdp i
  simp only [hcp', hcdp'] at hp ⊢
  have inv : ∀ x, x = (List.finRange m).foldl (fracCBody cp cdp r tau) 1 →
      (0 < x ∧ x ≤ 1 ∧ (∀ i ∈ List.finRange m, cdp i < 0 → x ≤ -tau * (cp i - r i) / cdp i) ∧
        (x = 1 ∨ ∃ i, cdp i < 0 ∧ x = -tau * (cp i - r i) / cdp i)) := by
    rintro x rfl
    apply foldl_finRange_inv (P := fun l (a : K) => 0 < a ∧ a ≤ 1 ∧
      (∀ i ∈ l, cdp i < 0 → a ≤ -tau * (cp i - r i) / cdp i) ∧
      (a = 1 ∨ ∃ i, cdp i < 0 ∧ a = -tau * (cp i - r i) / cdp i))
    · simp
    · rintro l a i ⟨h1, h2, h3, h4⟩
      unfold fracCBody
      by_cases hd : cdp i < 0
      · rw [if_pos hd]
        have hpos : 0 < -tau * (cp i - r i) / cdp i :=
          div_pos_of_neg_of_neg (by nlinarith [hp i]) hd
        dsimp only
        split_ifs with hlt
        · refine ⟨hpos, by linarith, ?_, Or.inr ⟨i, hd, rfl⟩⟩
          intro k hk hdk
          rcases List.mem_append.1 hk with hk | hk
          · exact le_trans hlt.le (h3 k hk hdk)
          · rw [List.mem_singleton.1 hk]
        · refine ⟨h1, h2, ?_, h4⟩
          intro k hk hdk
          rcases List.mem_append.1 hk with hk | hk
          · exact h3 k hk hdk
          · rw [List.mem_singleton.1 hk]; exact not_lt.1 hlt
      · rw [if_neg hd]
        refine ⟨h1, h2, ?_, h4⟩
        intro k hk hdk
        rcases List.mem_append.1 hk with hk | hk
        · exact h3 k hk hdk
        · rw [List.mem_singleton.1 hk] at hdk; exact absurd hdk hd
  obtain ⟨h1, h2, h3, h4⟩ := inv _ rfl
  set x := (List.finRange m).foldl (fracCBody cp cdp r tau) 1
  refine ⟨⟨h1, h2, fun i => ?_⟩, ?_⟩
  · rcases lt_or_ge (cdp i) 0 with hd | hd
    · have := h3 i (List.mem_finRange i) hd
      rw [le_div_iff_of_neg hd] at this; linarith
    · have := hp i; nlinarith
  · rintro t ⟨ht0, ht1, hti⟩
    rcases h4 with h4 | ⟨i, hd, he⟩
    · rw [h4]; exact ht1
    · rw [he, le_div_iff_of_neg hd]; have := hti i; linarith

example : fractionToTheBoundaryC (K := ℚ) ![1, 1] ![-1, 0] ![![1, 1], ![0, 1]] ![1, 0] (1/2) = 1/2 := by decide +kernel

/-! ## tolerance comparisons -/

/-- `lessThan` and `greaterThan` (with a non-negative epsilon) never both fail: the comparison is total, and each is
    implied by the exact comparison. -/
theorem lessThan_greaterThan_total (eps a b base : K) (he : 0 ≤ eps) :
    (a ≤ b ∧ base ≠ 0 ∧ 0 < eps ∨ a < b → lessThan eps a b base = true) ∧
    (lessThan eps a b base = false → greaterThan eps a b base = true ∨ (a = b ∧ 10 * eps * |base| = 0)) := by
  have hb := abs_nonneg base
  have h0 : 0 ≤ 10 * eps * |base| := by positivity
  unfold lessThan greaterThan
  refine ⟨?_, ?_⟩
  · rintro (⟨h, hne, hpos⟩ | h)
    · have : 0 < |base| := abs_pos.2 hne
      have : 0 < 10 * eps * |base| := by positivity
      simp; linarith
    · simp; linarith
  · intro h
    simp only [decide_eq_false_iff_not, not_lt, decide_eq_true_eq] at h ⊢
    rcases lt_or_eq_of_le h with h' | h'
    · left; linarith
    · rcases lt_or_eq_of_le h0 with h1 | h1
      · left; linarith
      · right; exact ⟨by linarith, h1.symm⟩

/-- The tolerance is exactly `10·eps·|base|`: a number larger than `b` by `t` is less than `b` in this sense iff `t` is below it, for either sign of `base`; `greaterThan` is `lessThan` with the numbers exchanged. -/
theorem lessThan_tolerance (eps a b t base : K) :
    (lessThan eps (b + t) b base = true ↔ t < 10 * eps * |base|) ∧ lessThan eps a b (-base) = lessThan eps a b base ∧ greaterThan eps a b base = lessThan eps b a base := by
  unfold lessThan greaterThan
  refine ⟨by simp, by rw [abs_neg], ?_⟩
  rw [decide_eq_decide]
  constructor <;> intro h <;> linarith

/-- With `eps = 1/1000` and base `100` the tolerance is `1`: `5.9` counts as less than `5`, `6` does not. -/
example : lessThan (1 / 1000 : ℚ) (59 / 10) 5 100 = true ∧ lessThan (1 / 1000 : ℚ) 6 5 (-100) = false := by decide +kernel

end Optima.Steps
