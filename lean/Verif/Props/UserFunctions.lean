import Verif.Model.Solver

/-!
# C43: user functions see a clean result object
-/

set_option linter.unusedSectionVars false

namespace Optima

open Matrix

variable {K : Type*} {τ : Type*} {nq nx np nc nz nbe nbg nhe nhg : ℕ}

/-- A clean objective result: zeros, no structure claimed, success. -/
def cleanObj [Zero K] : ObjRes K nx np nc := { f := 0, fx := fun _ => 0, fxx := fun _ _ => 0, fxp := fun _ _ => 0, fxc := fun _ _ => 0, diagfxx := false, fxx4basicvars := false, succeeded := true }

/-- A clean constraint result. -/
def cleanCon [Zero K] : ConRes K nq nx np nc := { val := fun _ => 0, ddx := fun _ _ => 0, ddp := fun _ _ => 0, ddc := fun _ _ => 0, ddx4basicvars := false, succeeded := true }

/-- The objective function is called with a clean object whatever the object held. -/
theorem objective_sees_clean [Zero K] (fn : ObjSig τ K nx np nc) (t : τ) (res : ObjRes K nx np nc) (x p c opts) : (ObjFn.mk (some fn)).call t res x p c opts = fn t cleanObj x p c opts := rfl

/-- The same for constraint functions. -/
theorem constraint_sees_clean [Zero K] (fn : ConSig τ K nq nx np nc) (t : τ) (res : ConRes K nq nx np nc) (x p c opts) : (ConFn.mk (some fn)).call t res x p c opts = fn t cleanCon x p c opts := rfl

/-- Functions that can be built: by a constructor or by assignment. -/
inductive ObjFn.Built : ObjFn τ K nx np nc → Prop
  | default : ObjFn.Built ObjFn.default
  | ofFunc (func F) : ObjFn.ofFunc func = some F → ObjFn.Built F
  | assign (G func F) : ObjFn.Built G → ObjFn.assign G func = some F → ObjFn.Built F

/-- The same for constraint functions. -/
inductive ConFn.Built : ConFn τ K nq nx np nc → Prop
  | default : ConFn.Built ConFn.default
  | ofFunc (func F) : ConFn.ofFunc func = some F → ConFn.Built F
  | assign (G func F) : ConFn.Built G → ConFn.assign G func = some F → ConFn.Built F

/-- An empty function is rejected when it is given: the constructor and the assignment throw exactly for empty functions, so no call ever meets an empty function. -/
theorem empty_objective_rejected (func : Option (ObjSig τ K nx np nc)) (G : ObjFn τ K nx np nc) : (ObjFn.ofFunc func = none ↔ func = none) ∧ (ObjFn.assign G func = none ↔ func = none) := by
  cases func <;> simp [ObjFn.ofFunc, ObjFn.assign]

theorem empty_constraint_rejected (func : Option (ConSig τ K nq nx np nc)) (G : ConFn τ K nq nx np nc) : (ConFn.ofFunc func = none ↔ func = none) ∧ (ConFn.assign G func = none ↔ func = none) := by
  cases func <;> simp [ConFn.ofFunc, ConFn.assign]

theorem ObjFn.built_initialized (F : ObjFn τ K nx np nc) (h : ObjFn.Built F) : F.initialized = true := by
  cases h with
  | default => rfl
  | ofFunc func F h => cases func <;> simp [ObjFn.ofFunc] at h; subst h; rfl
  | assign G func F _ h => cases func <;> simp [ObjFn.assign] at h; subst h; rfl

theorem ConFn.built_initialized (F : ConFn τ K nq nx np nc) (h : ConFn.Built F) : F.initialized = true := by
  cases h with
  | default => rfl
  | ofFunc func F h => cases func <;> simp [ConFn.ofFunc] at h; subst h; rfl
  | assign G func F _ h => cases func <;> simp [ConFn.assign] at h; subst h; rfl

/-- **Not detected**: a function that was never set counts as initialised, so the checks in Solver.cpp:119-137 cannot fail; calling it returns the clean object, i.e. a zero objective function. -/
theorem unset_objective_undetected [Zero K] : (ObjFn.default : ObjFn τ K nx np nc).initialized = true ∧
    ∀ (t : τ) (res : ObjRes K nx np nc) (x p c opts), (ObjFn.default : ObjFn τ K nx np nc).call t res x p c opts = some (t, cleanObj) := ⟨rfl, fun _ _ _ _ _ _ => rfl⟩

/-- The same for constraint functions: a constraint that was never set is `0 = 0`. -/
theorem unset_constraint_undetected [Zero K] : (ConFn.default : ConFn τ K nq nx np nc).initialized = true ∧
    ∀ (t : τ) (res : ConRes K nq nx np nc) (x p c opts), (ConFn.default : ConFn τ K nq nx np nc).call t res x p c opts = some (t, cleanCon) := ⟨rfl, fun _ _ _ _ _ _ => rfl⟩

/-- One evaluation of the user functions: the options and the point. -/
structure EvalReq (K : Type*) (nx np : ℕ) where
  ddx : Bool
  ddp : Bool
  ddc : Bool
  ibasicvars : List ℕ
  x : Fin nx → K
  p : Fin np → K

/-- The evaluations of the user functions of a history of requests, oldest first (`none`: an exception). -/
def evalHistory [Zero K] (F : MFuns τ K nx np nz nc) (c : Fin nc → K) : List (EvalReq K nx np) → τ → ResMem K nx np nz nc → Option (List (Evals K nx np nz))
  | [], _, _ => some []
  | q :: l, t, m =>
    match functionEvals F c q.ddx q.ddp q.ddc q.ibasicvars t m q.x q.p with
    | none => none
    | some (t, m, ok) => (evalHistory F c l t m).map (m.evals ok :: ·)

/-- Equal up to the success flag. -/
def Evals.Same (a b : Evals K nx np nz) : Prop := { a with succeeded := true } = { b with succeeded := true }

/-- One evaluation does not depend on what the result objects held, except for the success flags of functions that are not called. -/
theorem functionEvals_indep [Zero K] (F : MFuns τ K nx np nz nc) (c : Fin nc → K) (ddx ddp ddc : Bool) (ib : List ℕ) (t : τ) (m m' : ResMem K nx np nz nc) (x : Fin nx → K) (p : Fin np → K) :
    (functionEvals F c ddx ddp ddc ib t m x p = none ∧ functionEvals F c ddx ddp ddc ib t m' x p = none) ∨
    ∃ t1 r r' ok ok', functionEvals F c ddx ddp ddc ib t m x p = some (t1, r, ok) ∧ functionEvals F c ddx ddp ddc ib t m' x p = some (t1, r', ok') ∧ Evals.Same (r.evals ok) (r'.evals ok') ∧
      ((nz ≠ 0 ∨ m.h.succeeded = m'.h.succeeded) → (np ≠ 0 ∨ m.v.succeeded = m'.v.succeeded) → r.evals ok = r'.evals ok') := by
  have hf : ∀ t o, F.f.call t m.f x p c o = F.f.call t m'.f x p c o := fun t o => by unfold ObjFn.call; cases F.f.fn <;> rfl
  have hh : ∀ t o, F.h.call t m.h x p c o = F.h.call t m'.h x p c o := fun t o => by unfold ConFn.call; cases F.h.fn <;> rfl
  have hv : ∀ t o, F.v.call t m.v x p c o = F.v.call t m'.v x p c o := fun t o => by unfold ConFn.call; cases F.v.fn <;> rfl
  unfold functionEvals
  simp only [hf, hh, hv]
  rcases F.r.call t x p c _ with _ | t1
  · exact Or.inl ⟨rfl, rfl⟩
  dsimp only
  rcases F.f.call t1 m'.f x p c _ with _ | ⟨t2, fres⟩
  · exact Or.inl ⟨rfl, rfl⟩
  dsimp only
  have key : ∀ (t3 : τ) (hres hres' : ConRes K nz nx np nc), hres.val = hres'.val → hres.ddx = hres'.ddx → hres.ddp = hres'.ddp → ((nz ≠ 0 ∨ m.h.succeeded = m'.h.succeeded) → hres.succeeded = hres'.succeeded) →
      ∀ A B : Option (τ × ResMem K nx np nz nc × Bool),
      A = (match if np ≠ 0 then F.v.call t3 m'.v x p c { ddx := ddx, ddp := ddp && decide (np ≠ 0), ddc := ddc && decide (nc ≠ 0), ibasicvars := ib } else some (t3, m.v) with
        | none => none
        | some (t, vres) => some (t, { f := fres, h := hres, v := vres }, fres.succeeded && hres.succeeded && vres.succeeded)) →
      B = (match if np ≠ 0 then F.v.call t3 m'.v x p c { ddx := ddx, ddp := ddp && decide (np ≠ 0), ddc := ddc && decide (nc ≠ 0), ibasicvars := ib } else some (t3, m'.v) with
        | none => none
        | some (t, vres) => some (t, { f := fres, h := hres', v := vres }, fres.succeeded && hres'.succeeded && vres.succeeded)) →
      (A = none ∧ B = none) ∨ ∃ t1 r r' ok ok', A = some (t1, r, ok) ∧ B = some (t1, r', ok') ∧ Evals.Same (r.evals ok) (r'.evals ok') ∧
        ((nz ≠ 0 ∨ m.h.succeeded = m'.h.succeeded) → (np ≠ 0 ∨ m.v.succeeded = m'.v.succeeded) → r.evals ok = r'.evals ok') := by
    intro t3 hres hres' h1 h2 h3 h4 A B hA hB
    by_cases hp : np = 0
    · subst hp
      simp only [ne_eq, not_true_eq_false, if_false] at hA hB
      refine Or.inr ⟨_, _, _, _, _, hA, hB, ?_, ?_⟩
      · simp only [Evals.Same, ResMem.evals, h1, h2, h3, Subsingleton.elim m.v.val m'.v.val, Subsingleton.elim m.v.ddx m'.v.ddx, Subsingleton.elim m.v.ddp m'.v.ddp]
      · intro a b
        simp only [ne_eq, not_true_eq_false, false_or] at b
        simp only [ResMem.evals, h1, h2, h3, h4 a, b, Subsingleton.elim m.v.val m'.v.val, Subsingleton.elim m.v.ddx m'.v.ddx, Subsingleton.elim m.v.ddp m'.v.ddp]
    · simp only [ne_eq, hp, not_false_eq_true, if_true] at hA hB
      revert hA hB
      rcases F.v.call t3 m'.v x p c _ with _ | ⟨t4, vres⟩
      · intro hA hB; exact Or.inl ⟨hA, hB⟩
      · intro hA hB
        refine Or.inr ⟨_, _, _, _, _, hA, hB, ?_, ?_⟩
        · simp only [Evals.Same, ResMem.evals, h1, h2, h3]
        · intro a _
          simp only [ResMem.evals, h1, h2, h3, h4 a]
  by_cases hz : nz = 0
  · subst hz
    rw [if_neg (not_not.2 rfl), if_neg (not_not.2 rfl)]
    exact key _ _ _ (Subsingleton.elim _ _) (Subsingleton.elim _ _) (Subsingleton.elim _ _) (fun h => by simpa using h) _ _ rfl rfl
  · rw [if_pos hz, if_pos hz]
    rcases F.h.call t2 m'.h x p c _ with _ | ⟨t3, hres⟩
    · exact Or.inl ⟨rfl, rfl⟩
    · exact key _ _ _ rfl rfl rfl (fun _ => rfl) _ _ rfl rfl

/-- **C43**: in every history of evaluations the values and derivatives obtained do not depend on what the result objects held before: nothing leaks from one problem or evaluation to the next. -/
theorem evalHistory_indep [Zero K] (F : MFuns τ K nx np nz nc) (c : Fin nc → K) (l : List (EvalReq K nx np)) (t : τ) (m m' : ResMem K nx np nz nc) :
    (evalHistory F c l t m = none ∧ evalHistory F c l t m' = none) ∨ ∃ a b, evalHistory F c l t m = some a ∧ evalHistory F c l t m' = some b ∧ List.Forall₂ Evals.Same a b := by
  induction l generalizing t m m' with
  | nil => exact Or.inr ⟨[], [], rfl, rfl, .nil⟩
  | cons q l ih =>
    unfold evalHistory
    rcases functionEvals_indep F c q.ddx q.ddp q.ddc q.ibasicvars t m m' q.x q.p with ⟨h1, h2⟩ | ⟨t1, r, r', ok, ok', h1, h2, h3, -⟩
    · rw [h1, h2]; exact Or.inl ⟨rfl, rfl⟩
    · rw [h1, h2]
      dsimp only
      rcases ih t1 r r' with ⟨k1, k2⟩ | ⟨a, b, k1, k2, k3⟩
      · rw [k1, k2]; exact Or.inl ⟨rfl, rfl⟩
      · rw [k1, k2]; exact Or.inr ⟨_, _, rfl, rfl, .cons h3 k3⟩

/-- Non-vacuity: an objective that adds to what it finds in the result object is evaluated to the same value again and again. -/
example (m : ResMem ℚ 1 0 0 0) : let F : MFuns Unit ℚ 1 0 0 0 := { r := ResFn.default, f := ⟨some fun t res x _ _ _ => some (t, { res with f := res.f + x 0 })⟩, h := ConFn.default, v := ConFn.default }
    let q : EvalReq ℚ 1 0 := { ddx := true, ddp := true, ddc := false, ibasicvars := [], x := fun _ => 2, p := fun _ => 0 }
    (evalHistory F (fun _ => 0) [q, q] () m).map (fun l => l.map Evals.f) = some [2, 2] := by
  simp [evalHistory, functionEvals, ResFn.call, ResFn.default, ObjFn.call, ObjRes.clear, ResMem.evals]

end Optima
