import Verif.Model.Checks
import Verif.Props.Problem
import Verif.Props.Outputter

/-!
# C47: which errors in sizes and names are found, and when
-/

set_option linter.unusedSectionVars false

namespace Optima

variable {K : Type*} {τ : Type*}

/-- All members of a problem have the sizes that `dims` says. -/
structure DProblem.Sized (D : DProblem τ K) : Prop where
  Aex : D.Aex.shape = (D.dims.be, D.dims.x)
  Aep : D.Aep.shape = (D.dims.be, D.dims.p)
  Agx : D.Agx.shape = (D.dims.bg, D.dims.x)
  Agp : D.Agp.shape = (D.dims.bg, D.dims.p)
  be : D.be.shape = (D.dims.be, 1)
  bg : D.bg.shape = (D.dims.bg, 1)
  xlower : D.xlower.shape = (D.dims.x, 1)
  xupper : D.xupper.shape = (D.dims.x, 1)
  plower : D.plower.shape = (D.dims.p, 1)
  pupper : D.pupper.shape = (D.dims.p, 1)
  c : D.c.shape = (D.dims.c, 1)
  bec : D.bec.shape = (D.dims.be, D.dims.c)
  bgc : D.bgc.shape = (D.dims.bg, D.dims.c)

/-- All vectors of a state have the sizes of the given dimensions. -/
structure DState.Sized (S : DState K) (d : Dims) : Prop where
  x : S.x.shape = (d.x, 1)
  p : S.p.shape = (d.p, 1)
  ye : S.ye.shape = (d.be, 1)
  yg : S.yg.shape = (d.bg, 1)
  ze : S.ze.shape = (d.he, 1)
  zg : S.zg.shape = (d.hg, 1)
  s : S.s.shape = (d.x, 1)
  xbg : S.xbg.shape = (d.bg, 1)
  xhg : S.xhg.shape = (d.hg, 1)

/-- All given names fit. -/
structure Names.Fit (N : Names) (d : Dims) : Prop where
  x : NamesFit N.x d.x
  xbg : NamesFit N.xbg d.bg
  xhg : NamesFit N.xhg d.hg
  p : NamesFit N.p d.p
  y : NamesFit N.y (d.be + d.bg)
  z : NamesFit N.z (d.he + d.hg)

/-! ## Comma initializers -/

theorem commaRest_vec (R : ℕ) : ∀ (sizes : List ℕ) (row height : ℕ), row + height ≤ R → (commaRest R 1 row 1 height (sizes.map fun n => (n, 1)) = true ↔ row + height + sizes.sum = R)
  | [], row, height, h => by simp [commaRest]
  | n :: l, row, height, h => by
    rw [List.map_cons, commaRest, if_pos (by simp)]
    simp only [Bool.and_eq_true, decide_eq_true_eq, List.sum_cons]
    constructor
    · rintro ⟨⟨h1, -⟩, h2⟩
      have := (commaRest_vec R l (row + height) n h1).1 h2
      omega
    · intro h1
      have h2 : row + height + n ≤ R := by omega
      exact ⟨⟨h2, le_rfl⟩, (commaRest_vec R l (row + height) n h2).2 (by omega)⟩

/-- A comma initializer for vectors only checks the sum of the sizes. -/
theorem commaFits_vec (R : ℕ) (n : ℕ) (sizes : List ℕ) : commaFits R 1 ((n :: sizes).map fun n => (n, 1)) = true ↔ (n :: sizes).sum = R := by
  simp only [List.map_cons, commaFits, Bool.and_eq_true, decide_eq_true_eq, List.sum_cons]
  constructor
  · rintro ⟨⟨h1, -⟩, h2⟩
    have := (commaRest_vec R sizes 0 n (by omega)).1 h2
    omega
  · intro h
    exact ⟨⟨by omega, le_rfl⟩, (commaRest_vec R sizes 0 n (by omega)).2 (by omega)⟩

/-- Two blocks of full width on top of each other. -/
theorem commaFits_rows (m n C : ℕ) : commaFits (m + n) C [(m, C), (n, C)] = true := by
  simp only [commaFits, commaRest]
  by_cases h : C = 0
  · subst h
    by_cases h2 : n = m <;> simp [h2]
  · simp [h]

/-! ## Objects of the right sizes -/

/-- The constructor makes members of the right sizes. -/
theorem sized_ofDims [Zero K] (d : Dims) : (DProblem.ofDims d : DProblem τ K).Sized := ⟨rfl, rfl, rfl, rfl, rfl, rfl, rfl, rfl, rfl, rfl, rfl, rfl, rfl⟩

/-- Assigning an expression to a member (here `Aex`) keeps the sizes right. -/
theorem sized_assignFixed {D : DProblem τ K} (h : D.Sized) {A B : DMat K} (hA : D.Aex.assignFixed B = some A) : ({ D with Aex := A } : DProblem τ K).Sized := by
  have := (assignFixed_spec D.Aex B).1 A hA
  refine { h with Aex := ?_ }
  have e := h.Aex
  simp only [DMat.shape, Prod.mk.injEq] at e ⊢
  exact ⟨this.1.trans e.1, this.2.1.trans e.2⟩

/-- Assigning a problem of the right sizes makes one. -/
theorem sized_assign {a b : DProblem τ K} (h : b.Sized) : (a.assign b).Sized := ⟨h.Aex, h.Aep, h.Agx, h.Agp, h.be, h.bg, h.xlower, h.xupper, h.plower, h.pupper, h.c, h.bec, h.bgc⟩

theorem state_sized_ofDims [Zero K] (d : Dims) : (DState.ofDims d : DState K).Sized d := ⟨rfl, rfl, rfl, rfl, rfl, rfl, rfl, rfl, rfl⟩

/-! ## What a solve detects -/

theorem run_append (l l' : List Action) (called : Bool) : runActions (l ++ l') called = match runActions l called with | (c, some f) => (c, some f) | (c, none) => runActions l' c := by
  induction l generalizing called with
  | nil => rfl
  | cons a l ih =>
    cases a with
    | check kind bad =>
      rw [List.cons_append, runActions, runActions]
      cases bad
      · simpa using ih called
      · rfl
    | user => rw [List.cons_append, runActions, runActions]; exact ih true

theorem badNames_false {names : List Str} {n : ℕ} : badNames names n = false ↔ NamesFit names n := by
  unfold badNames NamesFit
  rw [decide_eq_false_iff_not]
  tauto

theorem problem_run {D : DProblem τ K} (h : D.Sized) : runActions (problemActions true true true true D) false = (false, none) := by
  have hb : commaFits (D.dims.be + D.dims.bg) 1 [D.be.shape, D.bg.shape] = true := by
    rw [h.be, h.bg]; exact (commaFits_vec _ _ [D.dims.bg]).2 (by simp)
  have hA : commaFits (D.dims.be + D.dims.bg) D.dims.x [D.Aex.shape, D.Agx.shape] = true := by rw [h.Aex, h.Agx]; exact commaFits_rows _ _ _
  have hp : commaFits (D.dims.be + D.dims.bg) D.dims.p [D.Aep.shape, D.Agp.shape] = true := by rw [h.Aep, h.Agp]; exact commaFits_rows _ _ _
  simp [problemActions, runActions, hb, hA, hp, h.xlower, h.xupper, h.bec, h.bgc]

/-- Functions that are missing: for a problem of the right sizes the first phase passes exactly if every function that the dimensions need is set, and otherwise raises an error, before any function is called. -/
theorem functions_checked {D : DProblem τ K} (h : D.Sized) (f he hg v : Bool) :
    (f = true ∧ (0 < D.dims.he → he = true) ∧ (0 < D.dims.hg → hg = true) ∧ (0 < D.dims.p → v = true) → runActions (problemActions f he hg v D) false = (false, none)) ∧
    (¬ (f = true ∧ (0 < D.dims.he → he = true) ∧ (0 < D.dims.hg → hg = true) ∧ (0 < D.dims.p → v = true)) → runActions (problemActions f he hg v D) false = (false, some .error)) := by
  have hb : commaFits (D.dims.be + D.dims.bg) 1 [D.be.shape, D.bg.shape] = true := by
    rw [h.be, h.bg]; exact (commaFits_vec _ _ [D.dims.bg]).2 (by simp)
  have hA : commaFits (D.dims.be + D.dims.bg) D.dims.x [D.Aex.shape, D.Agx.shape] = true := by rw [h.Aex, h.Agx]; exact commaFits_rows _ _ _
  have hp : commaFits (D.dims.be + D.dims.bg) D.dims.p [D.Aep.shape, D.Agp.shape] = true := by rw [h.Aep, h.Agp]; exact commaFits_rows _ _ _
  constructor
  · rintro ⟨rfl, h1, h2, h3⟩
    have e1 : (decide (0 < D.dims.he) && !he) = false := by cases he <;> simp_all
    have e2 : (decide (0 < D.dims.hg) && !hg) = false := by cases hg <;> simp_all
    have e3 : (decide (0 < D.dims.p) && !v) = false := by cases v <;> simp_all
    simp [problemActions, runActions, hb, hA, hp, h.xlower, h.xupper, h.bec, h.bgc, e1, e2, e3]
  · intro hn
    cases f
    · simp [problemActions, runActions]
    · by_cases e1 : (decide (0 < D.dims.he) && !he) = true
      · simp only [problemActions, runActions, e1]; simp
      · by_cases e2 : (decide (0 < D.dims.hg) && !hg) = true
        · simp only [problemActions, runActions, e1, e2]; simp
        · by_cases e3 : (decide (0 < D.dims.p) && !v) = true
          · simp only [problemActions, runActions, e1, e2, e3]; simp
          · exact absurd ⟨rfl, fun h => by cases he <;> simp_all, fun h => by cases hg <;> simp_all, fun h => by cases v <;> simp_all⟩ hn

/-- Two blocks fill a matrix: on top of each other, or side by side. -/
def Fill (R C : ℕ) (a b : ℕ × ℕ) : Prop := (a.2 = C ∧ b.2 = C ∧ a.1 + b.1 = R) ∨ (a.1 = R ∧ b.1 = R ∧ a.2 + b.2 = C)

/-- A comma initializer with two blocks passes exactly if they fill the matrix. -/
theorem commaFits_two {R C : ℕ} (hC : 0 < C) (a b : ℕ × ℕ) : commaFits R C [a, b] = true ↔ Fill R C a b := by
  obtain ⟨r, c⟩ := a
  obtain ⟨r', c'⟩ := b
  simp only [commaFits, commaRest, Fill]
  split_ifs with h <;> simp only [Bool.and_eq_true, Bool.or_eq_true, decide_eq_true_eq] <;> omega

/-- **C47 in part** (sizes of the data): exactly which sizes pass the first phase of a solve in which all functions are set.  Bounds and the Jacobians of the right-hand sides need the sizes of the dimensions; two right-hand sides or matrices only have to fill the vector or matrix
    they are copied to, and matrices are not looked at if it is empty.  Otherwise an assertion fails, before any call of a user function. -/
theorem sizes_checked (D : DProblem τ K) (hx : 0 < D.dims.x) :
    let ok := D.xlower.shape = (D.dims.x, 1) ∧ D.xupper.shape = (D.dims.x, 1) ∧ Fill (D.dims.be + D.dims.bg) 1 D.be.shape D.bg.shape ∧
      (0 < D.dims.be + D.dims.bg → Fill (D.dims.be + D.dims.bg) D.dims.x D.Aex.shape D.Agx.shape ∧ (0 < D.dims.p → Fill (D.dims.be + D.dims.bg) D.dims.p D.Aep.shape D.Agp.shape)) ∧
      D.bec.shape = (D.dims.be, D.dims.c) ∧ D.bgc.shape = (D.dims.bg, D.dims.c)
    (ok → runActions (problemActions true true true true D) false = (false, none)) ∧ (¬ ok → runActions (problemActions true true true true D) false = (false, some .assertion)) := by
  intro ok
  classical
  have key : runActions (problemActions true true true true D) false = if ok then (false, none) else (false, some .assertion) := by
    unfold problemActions
    simp only [runActions, Bool.not_true, Bool.and_false, Bool.false_eq_true, if_false]
    by_cases h1 : D.xlower.shape = (D.dims.x, 1)
    swap
    · rw [if_pos (by simpa using h1), if_neg (fun h => h1 h.1)]
    rw [if_neg (by simpa using h1)]
    by_cases h2 : D.xupper.shape = (D.dims.x, 1)
    swap
    · rw [if_pos (by simpa using h2), if_neg (fun h => h2 h.2.1)]
    rw [if_neg (by simpa using h2)]
    by_cases h3 : Fill (D.dims.be + D.dims.bg) 1 D.be.shape D.bg.shape
    swap
    · rw [if_pos (by simpa [← commaFits_two Nat.one_pos] using h3), if_neg (fun h => h3 h.2.2.1)]
    rw [if_neg (by simpa [← commaFits_two Nat.one_pos] using h3)]
    have h4 : (decide ((D.dims.be + D.dims.bg) * (D.dims.x + D.dims.bg + D.dims.hg) ≠ 0) && !commaFits (D.dims.be + D.dims.bg) D.dims.x [D.Aex.shape, D.Agx.shape]) = true ↔
        ¬(0 < D.dims.be + D.dims.bg → Fill (D.dims.be + D.dims.bg) D.dims.x D.Aex.shape D.Agx.shape) := by
      rw [← commaFits_two hx, Bool.and_eq_true, decide_eq_true_eq, Bool.not_eq_true', ← Bool.not_eq_true, Nat.mul_ne_zero_iff]
      constructor
      · rintro ⟨h, h'⟩ hn
        exact h' (hn (by omega))
      · intro h
        push Not at h
        exact ⟨⟨by omega, by omega⟩, h.2⟩
    have h5 : (decide ((D.dims.be + D.dims.bg) * D.dims.p ≠ 0) && !commaFits (D.dims.be + D.dims.bg) D.dims.p [D.Aep.shape, D.Agp.shape]) = true ↔
        ¬(0 < D.dims.be + D.dims.bg → 0 < D.dims.p → Fill (D.dims.be + D.dims.bg) D.dims.p D.Aep.shape D.Agp.shape) := by
      rw [Bool.and_eq_true, decide_eq_true_eq, Bool.not_eq_true', ← Bool.not_eq_true, Nat.mul_ne_zero_iff]
      constructor
      · rintro ⟨⟨ha, hb⟩, h'⟩ hn
        exact h' ((commaFits_two (by omega) _ _).2 (hn (by omega) (by omega)))
      · intro h
        push Not at h
        obtain ⟨ha, hb, h⟩ := h
        exact ⟨⟨by omega, by omega⟩, fun h' => h ((commaFits_two hb _ _).1 h')⟩
    by_cases g4 : 0 < D.dims.be + D.dims.bg → Fill (D.dims.be + D.dims.bg) D.dims.x D.Aex.shape D.Agx.shape
    swap
    · rw [if_pos (h4.2 g4), if_neg (fun h => g4 fun hb => (h.2.2.2.1 hb).1)]
    rw [if_neg (fun h => h4.1 h g4)]
    by_cases g5 : 0 < D.dims.be + D.dims.bg → 0 < D.dims.p → Fill (D.dims.be + D.dims.bg) D.dims.p D.Aep.shape D.Agp.shape
    swap
    · rw [if_pos (h5.2 g5), if_neg (fun h => g5 fun hb hp => (h.2.2.2.1 hb).2 hp)]
    rw [if_neg (fun h => h5.1 h g5)]
    by_cases h6 : D.bec.shape = (D.dims.be, D.dims.c)
    swap
    · rw [if_pos (by simpa using h6), if_neg (fun h => h6 h.2.2.2.2.1)]
    rw [if_neg (by simpa using h6)]
    by_cases h7 : D.bgc.shape = (D.dims.bg, D.dims.c)
    swap
    · rw [if_pos (by simpa using h7), if_neg (fun h => h7 h.2.2.2.2.2)]
    rw [if_neg (by simpa using h7), if_pos ⟨h1, h2, h3, fun hb => ⟨g4 hb, fun hp => g5 hb hp⟩, h6, h7⟩]
  exact ⟨fun h => by rw [key, if_pos h], fun h => by rw [key, if_neg h]⟩

theorem state_run {d : Dims} {S : DState K} (h : S.Sized d) : runActions (stateActions d S) false = (false, none) := by
  have h1 : commaFits (d.x + d.bg + d.hg) 1 [S.x.shape, S.xbg.shape, S.xhg.shape] = true := by
    rw [h.x, h.xbg, h.xhg]; exact (commaFits_vec _ _ [d.bg, d.hg]).2 (by simp [add_assoc])
  have h2 : commaFits (d.be + d.bg + (d.he + d.hg)) 1 [S.ye.shape, S.yg.shape, S.ze.shape, S.zg.shape] = true := by
    rw [h.ye, h.yg, h.ze, h.zg]; exact (commaFits_vec _ _ [d.bg, d.he, d.hg]).2 (by simp [add_assoc])
  simp [stateActions, runActions, h1, h2]

theorem assignAction_ok {A : DMat K} {n : ℕ} (h : A.shape = (n, 1)) : assignAction A n = .check .error false := by
  obtain ⟨r, c, v⟩ := A
  simp only [DMat.shape, Prod.mk.injEq] at h
  obtain ⟨rfl, rfl⟩ := h
  simp [assignAction, DMat.assignFixed, DMat.size, DMat.assign]

theorem result_run {d : Dims} {S : DState K} (h : S.Sized d) (called : Bool) : runActions (resultActions d S) called = (called, none) := by
  simp [resultActions, assignAction_ok h.x, assignAction_ok h.xbg, assignAction_ok h.xhg, assignAction_ok h.ye, assignAction_ok h.yg, assignAction_ok h.ze, assignAction_ok h.zg, assignAction_ok h.p, assignAction_ok h.s, runActions]

/-- **C47 in part** (names): for a problem and a state of the right sizes, a solve never fails an assertion; with output it raises an error exactly if some names do not fit; this happens before any call of a user function exactly for names of `x` and
    of the slack variables.  Without output, names are not looked at. -/
theorem names_checked_partial {D : DProblem τ K} (hD : D.Sized) {S : DState K} (hS : S.Sized D.dims) (active : Bool) (N : Names) :
    (runActions (solveActions active D S N) false = (true, none) ↔ active = false ∨ N.Fit D.dims) ∧
    (runActions (solveActions active D S N) false = (false, some .error) ↔ active = true ∧ ¬(NamesFit N.x D.dims.x ∧ NamesFit N.xbg D.dims.bg ∧ NamesFit N.xhg D.dims.hg)) ∧
    (runActions (solveActions active D S N) false = (true, some .error) ↔ active = true ∧ (NamesFit N.x D.dims.x ∧ NamesFit N.xbg D.dims.bg ∧ NamesFit N.xhg D.dims.hg) ∧
      ¬(NamesFit N.p D.dims.p ∧ NamesFit N.y (D.dims.be + D.dims.bg) ∧ NamesFit N.z (D.dims.he + D.dims.hg))) := by
  have e1 : D.plower.size = D.dims.p := by have := hD.plower; simp only [DMat.shape, Prod.mk.injEq] at this; simp [DMat.size, this]
  have e2 : D.pupper.size = D.dims.p := by have := hD.pupper; simp only [DMat.shape, Prod.mk.injEq] at this; simp [DMat.size, this]
  have e3 : S.p.size = D.dims.p := by have := hS.p; simp only [DMat.shape, Prod.mk.injEq] at this; simp [DMat.size, this]
  have e4 : D.c.size = D.dims.c := by have := hD.c; simp only [DMat.shape, Prod.mk.injEq] at this; simp [DMat.size, this]
  have hfit : N.Fit D.dims ↔ (NamesFit N.x D.dims.x ∧ NamesFit N.xbg D.dims.bg ∧ NamesFit N.xhg D.dims.hg) ∧ (NamesFit N.p D.dims.p ∧ NamesFit N.y (D.dims.be + D.dims.bg) ∧ NamesFit N.z (D.dims.he + D.dims.hg)) :=
    ⟨fun h => ⟨⟨h.x, h.xbg, h.xhg⟩, h.p, h.y, h.z⟩, fun h => ⟨h.1.1, h.1.2.1, h.1.2.2, h.2.1, h.2.2.1, h.2.2.2⟩⟩
  rw [hfit]
  simp only [← badNames_false]
  have key : runActions (solveActions active D S N) false = if active && (badNames N.x D.dims.x || badNames N.xbg D.dims.bg || badNames N.xhg D.dims.hg) then (false, some .error)
      else if active && (badNames N.p D.dims.p || badNames N.y (D.dims.be + D.dims.bg) || badNames N.z (D.dims.he + D.dims.hg)) then (true, some .error) else (true, none) := by
    unfold solveActions
    rw [run_append, run_append, run_append, run_append, problem_run hD]
    dsimp only [optionsActions, masterActions]
    cases active
    · simp [runActions, state_run hS, e1, e2, e3, e4, result_run hS]
    · cases badNames N.x D.dims.x
      · cases badNames N.xbg D.dims.bg
        · cases badNames N.xhg D.dims.hg
          · simp only [runActions, Bool.and_false, Bool.false_eq_true, if_false, state_run hS, Bool.or_false]
            cases badNames N.p D.dims.p <;> cases badNames N.y (D.dims.be + D.dims.bg) <;> cases badNames N.z (D.dims.he + D.dims.hg) <;> simp [runActions, e1, e2, e3, e4, result_run hS]
          · simp [runActions]
        · simp [runActions]
      · simp [runActions]
  rw [key]
  cases active <;> cases badNames N.x D.dims.x <;> cases badNames N.xbg D.dims.bg <;> cases badNames N.xhg D.dims.hg <;> cases badNames N.p D.dims.p <;> cases badNames N.y (D.dims.be + D.dims.bg) <;>
    cases badNames N.z (D.dims.he + D.dims.hg) <;> simp

/-- The checks of names are those of the functions that make the names and the header: `updateMasterOptions` fails exactly if one of its checks does, and if it passes then `outputHeaderTop` fails exactly for names of `p`, `y`, `z`. -/
theorem names_checks_agree (d : Dims) (N : Names) (o : Outputter) (hact : o.options.active = true) :
    (runActions (optionsActions true d N) false = (false, some .error) ↔ masterNames true d.x d.bg d.hg N = none) ∧
    (∀ M, masterNames true d.x d.bg d.hg N = some M → (headerTop o.clear (d.x + d.bg + d.hg) d.p (d.be + d.bg) (d.he + d.hg) M = none ↔ ¬(NamesFit N.p d.p ∧ NamesFit N.y (d.be + d.bg) ∧ NamesFit N.z (d.he + d.hg)))) := by
  obtain ⟨h1, h2, -⟩ := masterNames_spec d.x d.bg d.hg N
  constructor
  · rw [h1]
    simp only [← badNames_false]
    unfold optionsActions
    cases badNames N.x d.x <;> cases badNames N.xbg d.bg <;> cases badNames N.xhg d.hg <;> simp [runActions]
  · intro M hM
    obtain ⟨k1, k2, k3, k4, -⟩ := h2 M hM
    rw [(headerTop_spec o hact _ _ _ _ M).1]
    refine not_congr ⟨fun h => ?_, fun h => ⟨Or.inr k1, ?_, ?_, ?_⟩⟩
    · rw [← k2, ← k3, ← k4]; exact ⟨h.p, h.y, h.z⟩
    · rw [k2]; exact h.1
    · rw [k3]; exact h.2.1
    · rw [k4]; exact h.2.2

/-- **C47 in part** (master problems): the Jacobian `bc` given to the sensitivity solver is refused exactly if there are sensitivity parameters and one of its sizes is wrong; the check of `Solver::solve` is this one with the sizes that `Solver` gives `bc`. -/
theorem bc_checked (ny nc rows cols : ℕ) : (sensInitFails ny nc rows cols = true ↔ 0 < nc ∧ ¬(rows = ny ∧ cols = nc)) ∧
    ∀ (active : Bool) (d : Dims) (D : DProblem τ K) (S : DState K) (N : Names), Action.check .error (sensInitFails (d.be + d.bg) D.c.size (d.be + d.bg) d.c) ∈ masterActions active d D S N := by
  constructor
  · unfold sensInitFails
    simp only [Bool.or_eq_true, Bool.and_eq_true, decide_eq_true_eq]
    omega
  · intro active d D S N
    simp [masterActions, sensInitFails]

/-! ## Examples and negations -/

/-- Two variables, one equality and two inequality constraints, one sensitivity parameter. -/
def checksDims : Dims := ⟨2, 0, 1, 2, 0, 0, 1⟩

/-- No names. -/
def noNames : Names := ⟨[], [], [], [], [], []⟩

/-- The hypotheses of `names_checked_partial` are met by newly constructed objects; a solve fails nowhere. -/
example : runActions (solveActions true (DProblem.ofDims checksDims : DProblem Unit ℚ) (DState.ofDims checksDims) noNames) false = (true, none) :=
  ((names_checked_partial (sized_ofDims _) (state_sized_ofDims _) true noNames).1).2 (Or.inr ⟨Or.inl rfl, Or.inl rfl, Or.inl rfl, Or.inl rfl, Or.inl rfl, Or.inl rfl⟩)

/-- Negation of C47: too many names of the multipliers are found only after calls of user functions. -/
theorem names_checked_late : ∃ N : Names, runActions (solveActions true (DProblem.ofDims checksDims : DProblem Unit ℚ) (DState.ofDims checksDims) N) false = (true, some .error) :=
  ⟨{ noNames with y := List.replicate 4 [] }, by decide +kernel⟩

/-- Negation of C47: `problem.be = other.be; problem.bg = other.bg` with vectors of other sizes is not detected at all if the sum of the sizes is right; the constraints then have other right-hand sides. -/
theorem sizes_undetected : ∃ D : DProblem Unit ℚ, D = { DProblem.ofDims checksDims with be := DMat.const 2 1 0, bg := DMat.const 1 1 1 } ∧ ¬ D.Sized ∧
    runActions (solveActions true D (DState.ofDims checksDims) noNames) false = (true, none) :=
  ⟨_, rfl, fun h => by have := h.be; revert this; decide, by decide +kernel⟩

/-- Negation of C47: matrices side by side instead of on top of each other are not detected either. -/
theorem matrices_undetected : ∃ D : DProblem Unit ℚ, D = { DProblem.ofDims checksDims with Aex := DMat.const 3 1 0, Agx := DMat.const 3 1 1 } ∧ ¬ D.Sized ∧
    runActions (solveActions true D (DState.ofDims checksDims) noNames) false = (true, none) :=
  ⟨_, rfl, fun h => by have := h.Aex; revert this; decide, by decide +kernel⟩

/-- Matrices of other sizes are detected. -/
example : runActions (problemActions true true true true ({ DProblem.ofDims checksDims with Aex := DMat.const 2 2 0 } : DProblem Unit ℚ)) false = (false, some .assertion) :=
  (sizes_checked _ (by decide)).2 (fun h => by
    have := (h.2.2.2.1 (by decide)).1
    revert this
    unfold Fill
    decide)

/-- Negation of C47: a state made for other dimensions with the same number of internal variables is found only when the solve is over and its result is to be stored. -/
theorem state_checked_late : ∃ d : Dims, runActions (solveActions false (DProblem.ofDims checksDims : DProblem Unit ℚ) (DState.ofDims d) noNames) false = (true, some .error) :=
  ⟨⟨3, 0, 2, 1, 0, 0, 1⟩, by decide +kernel⟩

/-- Negation of C47: a wrong number of sensitivity parameters is found after calls of user functions, even if no sensitivities are asked for. -/
theorem parameters_checked_late : ∃ D : DProblem Unit ℚ, D = { DProblem.ofDims checksDims with c := DMat.const 2 1 0 } ∧ runActions (solveActions false D (DState.ofDims checksDims) noNames) false = (true, some .error) :=
  ⟨_, rfl, by decide +kernel⟩

/-- Negation of C47: bounds of a wrong size are not an error but a failed assertion (undefined behaviour in release builds). -/
theorem bounds_not_an_error : ∃ D : DProblem Unit ℚ, D = { DProblem.ofDims checksDims with xlower := DMat.const 3 1 none } ∧ runActions (solveActions false D (DState.ofDims checksDims) noNames) false = (false, some .assertion) :=
  ⟨_, rfl, by decide +kernel⟩

end Optima
