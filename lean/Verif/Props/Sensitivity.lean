import Verif.Model.Sensitivity
import Verif.Props.SolverQuadratic
import Mathlib.Analysis.Calculus.Deriv.Add
import Mathlib.Analysis.Calculus.Deriv.Mul
import Mathlib.Analysis.Calculus.Deriv.Comp

/-!
# C41: sensitivities
-/

set_option linter.unusedSectionVars false

namespace Optima

open Matrix

section
variable {K : Type*} [Field K] [LinearOrder K] [IsStrictOrderedRing K] {τ : Type*} {nx np ny nz nc : ℕ}

theorem setRows_apply {m n : ℕ} (M : Matrix (Fin m) (Fin n) K) (js : List (Fin m)) (B : Fin m → Fin n → K) (i : Fin m) (c : Fin n) : setRows M js B i c = if i ∈ js then B i c else M i c := by
  unfold setRows
  induction js generalizing M with
  | nil => simp
  | cons j js ih =>
    rw [List.foldl_cons, ih]
    by_cases h : i ∈ js
    · simp [h]
    · by_cases h' : i = j
      · subst h'; simp
      · simp [h, h']

theorem foldl_update_apply {n : ℕ} (js : List (Fin n)) (v b : Fin n → K) (i : Fin n) : js.foldl (fun v j => Function.update v j (b j)) v i = if i ∈ js then b i else v i := by
  induction js generalizing v with
  | nil => simp
  | cons j js ih =>
    rw [List.foldl_cons, ih]
    by_cases h : i ∈ js
    · simp [h]
    · by_cases h' : i = j
      · subst h'; simp [h]
      · simp [h, h', Function.update_of_ne h']

/-- The right-hand side of the differentiated equations for the `i`-th parameter: minus the derivative of the residuals with respect to it. -/
def sensRhs (ju : List (Fin nx)) (fxc : Matrix (Fin nx) (Fin nc) K) (hc : Matrix (Fin nz) (Fin nc) K) (vc : Matrix (Fin np) (Fin nc) K) (bc : Matrix (Fin ny) (Fin nc) K) (i : Fin nc) : MVec K nx np (ny + nz) where
  x := fun j => if j ∈ ju then 0 else -fxc j i
  p := fun q => -vc q i
  w := cat2 (fun l => bc l i) (fun l => -hc l i)

theorem sensRhsX_apply {js ju : List (Fin nx)} (h : ValidSplit js ju) (rx fc : Fin nx → K) : sensRhsX js ju rx fc = fun j => if j ∈ ju then 0 else -fc j := by
  funext j
  unfold sensRhsX
  rw [foldl_update_apply ju _ (fun _ => 0), foldl_update_apply js _ (fun j => -fc j)]
  by_cases hj : j ∈ ju
  · simp [hj]
  · have : j ∈ js := by
      have := h.mem_iff.2 (List.mem_finRange j)
      simpa [hj] using this
    simp [hj, this]

/-- What the sensitivity solver computes, column by column, in terms of the linear solver: nothing depends on previous columns or on memory (other than the argument `u0` of the linear solver). -/
theorem sens_columns {Ax : Matrix (Fin ny) (Fin nx) K} {rf : RFState K nx np ny nz Ax} (hs : ValidSplit rf.M.js rf.M.ju) (hjs : rf.status.js = rf.M.js) (hju : rf.status.ju = rf.M.ju)
    (I : Inners K np rf.C.nbe rf.C.nbi rf.C.nne rf.C.nni) (fxc : Matrix (Fin nx) (Fin nc) K) (hc : Matrix (Fin nz) (Fin nc) K) (vc : Matrix (Fin np) (Fin nc) K) (bc : Matrix (Fin ny) (Fin nc) K)
    (r0 : MVec K nx np (ny + nz)) (s0 : MSens K nx np (ny + nz) nc) (i : Fin nc) :
    ∃ u0, (∀ j, (sensSolve rf I fxc hc vc bc r0 s0).xc j i = if j ∈ rf.status.jms then 0 else (linSolve .nullspace I rf.C.mat (sensRhs rf.M.ju fxc hc vc bc i) u0).x j) ∧
      (∀ q, (sensSolve rf I fxc hc vc bc r0 s0).pc q i = (linSolve .nullspace I rf.C.mat (sensRhs rf.M.ju fxc hc vc bc i) u0).p q) ∧
      (∀ l, (sensSolve rf I fxc hc vc bc r0 s0).wc l i = (linSolve .nullspace I rf.C.mat (sensRhs rf.M.ju fxc hc vc bc i) u0).w l) ∧
      ∀ j, (sensSolve rf I fxc hc vc bc r0 s0).sc j i = if j ∈ rf.M.ju then fxc j i + ∑ l, rf.M.Wx l j * (sensSolve rf I fxc hc vc bc r0 s0).wc l i else 0 := by
  have key : ∀ (l : List (Fin nc)) (s : MVec K nx np (ny + nz) × MSens K nx np (ny + nz) nc),
      ∀ i, (i ∈ l → ∃ u0, (∀ j, (l.foldl (sensColumn rf I fxc hc vc bc) s).2.xc j i = (linSolve .nullspace I rf.C.mat (sensRhs rf.M.ju fxc hc vc bc i) u0).x j) ∧
        (∀ q, (l.foldl (sensColumn rf I fxc hc vc bc) s).2.pc q i = (linSolve .nullspace I rf.C.mat (sensRhs rf.M.ju fxc hc vc bc i) u0).p q) ∧
        ∀ q, (l.foldl (sensColumn rf I fxc hc vc bc) s).2.wc q i = (linSolve .nullspace I rf.C.mat (sensRhs rf.M.ju fxc hc vc bc i) u0).w q) := by
    intro l
    induction l using List.reverseRecOn with
    | nil => intro s i h; cases h
    | append_singleton l a ih =>
      intro s i hi
      rw [List.foldl_append, List.foldl_cons, List.foldl_nil]
      by_cases hia : i = a
      · subst hia
        generalize l.foldl (sensColumn rf I fxc hc vc bc) s = t
        refine ⟨{ x := fun j => t.2.xc j i, p := fun q => t.2.pc q i, w := fun l => t.2.wc l i }, ?_⟩
        have e : ({ x := sensRhsX rf.status.js rf.status.ju t.1.x (fun j => fxc j i), p := fun q => -vc q i, w := cat2 (fun l => bc l i) (fun l => -hc l i) } : MVec K nx np (ny + nz)) =
            sensRhs rf.M.ju fxc hc vc bc i := by
          rw [hjs, hju, sensRhsX_apply hs]
          rfl
        unfold sensColumn setCol
        dsimp only
        rw [e]
        simp
      · have hl : i ∈ l := by simpa [hia] using hi
        obtain ⟨u0, h1, h2, h3⟩ := ih s i hl
        refine ⟨u0, fun j => ?_, fun j => ?_, fun j => ?_⟩
        · rw [← h1]; unfold sensColumn setCol; simp [hia]
        · rw [← h2]; unfold sensColumn setCol; simp [hia]
        · rw [← h3]; unfold sensColumn setCol; simp [hia]
  obtain ⟨u0, h1, h2, h3⟩ := key (List.finRange nc) (r0, s0) i (List.mem_finRange i)
  refine ⟨u0, fun j => ?_, fun q => ?_, fun l => ?_, fun j => ?_⟩
  · unfold sensSolve
    dsimp only
    rw [setRows_apply, h1]
  · rw [← h2]; rfl
  · rw [← h3]; rfl
  · unfold sensSolve
    dsimp only
    rw [setRows_apply, setRows_apply, hju, hjs]
    by_cases hj : j ∈ rf.M.ju
    · simp [hj]
    · have : j ∈ rf.M.js := by
        have := hs.mem_iff.2 (List.mem_finRange j)
        simpa [hj] using this
      simp [hj, this]

/-- The `i`-th columns of the sensitivities. -/
def MSens.col {nw : ℕ} (s : MSens K nx np nw nc) (i : Fin nc) : MVec K nx np nw := { x := fun j => s.xc j i, p := fun q => s.pc q i, w := fun l => s.wc l i }

/-- **C41 (differentiated equations)**: if no basic variable is held on a bound, the sensitivities satisfy the linear equations obtained by differentiating the stable KKT equations (`SolvesMaster`), for consistent
    right-hand sides and an inner solver that solves its system; they vanish for unstable variables (`SolvesMaster.unstable`). -/
theorem sensitivity_equations {env : Env K} (heps : env.eps = 0) {pb : MProblem K nx np ny nz} {ev : Evals K nx np nz} {u : MVec K nx np (ny + nz)} {rf : RFState K nx np ny nz pb.Ax} (h : RFSpec env pb ev u rf)
    (I : Inners K np rf.C.nbe rf.C.nbi rf.C.nne rf.C.nni) (fxc : Matrix (Fin nx) (Fin nc) K) (hc : Matrix (Fin nz) (Fin nc) K) (vc : Matrix (Fin np) (Fin nc) K) (bc : Matrix (Fin ny) (Fin nc) K)
    (r0 : MVec K nx np (ny + nz)) (s0 : MSens K nx np (ny + nz) nc) (i : Fin nc) (hR : RowsSpanned rf.M) (hcon : Consistent rf.M (sensRhs rf.M.ju fxc hc vc bc i))
    (hin : InnerOK .nullspace rf.C I (sensRhs rf.M.ju fxc hc vc bc i)) (hms : rf.status.jms = []) :
    SolvesMaster rf.M (sensRhs rf.M.ju fxc hc vc bc i) ((sensSolve rf I fxc hc vc bc r0 s0).col i) := by
  obtain ⟨u0, h1, h2, h3, -⟩ := sens_columns h.split h.js_eq h.ju_eq I fxc hc vc bc r0 s0 i
  have key := linearSolver_solves_partial h.canon (rf_echelon heps h) hR (sensRhs rf.M.ju fxc hc vc bc i) hcon .nullspace I u0 hin (by intro e; cases e)
  have e : (sensSolve rf I fxc hc vc bc r0 s0).col i = linSolve .nullspace I rf.C.mat (sensRhs rf.M.ju fxc hc vc bc i) u0 := by
    ext j
    · have := h1 j
      rw [hms] at this
      simpa using! this
    · exact h2 j
    · exact h3 j
  rw [e]
  exact key

/-- **C41 (zeros)**: whatever the inner solver computes, the sensitivities of unstable and of meta-stable variables vanish, and those of `s` vanish for stable variables. -/
theorem sensitivity_zeros {env : Env K} {pb : MProblem K nx np ny nz} {ev : Evals K nx np nz} {u : MVec K nx np (ny + nz)} {rf : RFState K nx np ny nz pb.Ax} (h : RFSpec env pb ev u rf)
    (I : Inners K np rf.C.nbe rf.C.nbi rf.C.nne rf.C.nni) (fxc : Matrix (Fin nx) (Fin nc) K) (hc : Matrix (Fin nz) (Fin nc) K) (vc : Matrix (Fin np) (Fin nc) K) (bc : Matrix (Fin ny) (Fin nc) K)
    (r0 : MVec K nx np (ny + nz)) (s0 : MSens K nx np (ny + nz) nc) (i : Fin nc) (j : Fin nx) :
    (j ∈ rf.M.ju ∨ j ∈ rf.status.jms → (sensSolve rf I fxc hc vc bc r0 s0).xc j i = 0) ∧ (j ∉ rf.M.ju → (sensSolve rf I fxc hc vc bc r0 s0).sc j i = 0) := by
  obtain ⟨u0, h1, -, -, h4⟩ := sens_columns h.split h.js_eq h.ju_eq I fxc hc vc bc r0 s0 i
  refine ⟨fun hj => ?_, fun hj => by rw [h4, if_neg hj]⟩
  rw [h1]
  by_cases hm : j ∈ rf.status.jms
  · rw [if_pos hm]
  · rw [if_neg hm]
    have hj' : j ∈ rf.M.ju := hj.resolve_right hm
    obtain ⟨hx, hxu⟩ := linSolveCanonical_x .nullspace I rf.C.mat h.canon.split { xs := (sensRhs rf.M.ju fxc hc vc bc i).x ∘ rf.C.mat.js, p := (sensRhs rf.M.ju fxc hc vc bc i).p, wbs := rf.C.mat.Rbs *ᵥ (sensRhs rf.M.ju fxc hc vc bc i).w }
      ((sensRhs rf.M.ju fxc hc vc bc i).x ∘ rf.C.mat.ju) u0
    obtain ⟨k, rfl⟩ := (h.canon.unstable j).2 hj'
    unfold linSolve
    rw [hxu k]
    simp [sensRhs, hj']

end

end Optima
