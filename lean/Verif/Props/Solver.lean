import Verif.Props.UserFunctions
import Verif.Props.NewtonStep

/-!
# C37, C38, C39, C44: the reformulation with slack variables
-/

set_option linter.unusedSectionVars false

namespace Optima

open Matrix

variable {K : Type*} {τ : Type*} {nx np nbe nbg nhe nhg nc : ℕ}

section blocks

variable {α : Type*}

@[simp] theorem cat3_X (a : Fin nx → α) (b : Fin nbg → α) (c : Fin nhg → α) (i : Fin nx) : cat3 a b c (ixX nbg nhg i) = a i := by simp [cat3, ixX]
@[simp] theorem cat3_Bg (a : Fin nx → α) (b : Fin nbg → α) (c : Fin nhg → α) (i : Fin nbg) : cat3 a b c (ixBg nx nhg i) = b i := by simp [cat3, ixBg]
@[simp] theorem cat3_Hg (a : Fin nx → α) (b : Fin nbg → α) (c : Fin nhg → α) (i : Fin nhg) : cat3 a b c (ixHg nx nbg i) = c i := by simp [cat3, ixHg]
@[simp] theorem cat2_l {m n : ℕ} (a : Fin m → α) (b : Fin n → α) (i : Fin m) : cat2 a b (Fin.castAdd n i) = a i := by simp [cat2]
@[simp] theorem cat2_r {m n : ℕ} (a : Fin m → α) (b : Fin n → α) (i : Fin n) : cat2 a b (Fin.natAdd m i) = b i := by simp [cat2]

/-- Every index of `xbar` belongs to exactly one of the three parts. -/
theorem forall_xbar {P : Fin (nx + nbg + nhg) → Prop} : (∀ i, P i) ↔ (∀ i, P (ixX nbg nhg i)) ∧ (∀ i, P (ixBg nx nhg i)) ∧ ∀ i, P (ixHg nx nbg i) := by
  refine ⟨fun h => ⟨fun i => h _, fun i => h _, fun i => h _⟩, fun ⟨h1, h2, h3⟩ i => ?_⟩
  refine Fin.addCases (fun j => ?_) (fun j => h3 j) i
  exact Fin.addCases (fun k => h1 k) (fun k => h2 k) j

theorem forall_cat2 {m n : ℕ} {P : Fin (m + n) → Prop} : (∀ i, P i) ↔ (∀ i, P (Fin.castAdd n i)) ∧ ∀ i, P (Fin.natAdd m i) :=
  ⟨fun h => ⟨fun i => h _, fun i => h _⟩, fun ⟨h1, h2⟩ i => Fin.addCases (fun j => h1 j) (fun j => h2 j) i⟩

theorem sum_xbar [AddCommMonoid α] (F : Fin (nx + nbg + nhg) → α) : ∑ i, F i = ∑ i, F (ixX nbg nhg i) + ∑ i, F (ixBg nx nhg i) + ∑ i, F (ixHg nx nbg i) := by
  rw [Fin.sum_univ_add, Fin.sum_univ_add]; rfl

theorem ext_xbar {F G : Fin (nx + nbg + nhg) → α} (h1 : ∀ i, F (ixX nbg nhg i) = G (ixX nbg nhg i)) (h2 : ∀ i, F (ixBg nx nhg i) = G (ixBg nx nhg i)) (h3 : ∀ i, F (ixHg nx nbg i) = G (ixHg nx nbg i)) : F = G :=
  funext (forall_xbar.2 ⟨h1, h2, h3⟩)

theorem ext_cat2 {m n : ℕ} {F G : Fin (m + n) → α} (h1 : ∀ i, F (Fin.castAdd n i) = G (Fin.castAdd n i)) (h2 : ∀ i, F (Fin.natAdd m i) = G (Fin.natAdd m i)) : F = G :=
  funext (forall_cat2.2 ⟨h1, h2⟩)

end blocks

/-! ## C44 -/

/-- The matrix the comment of Solver.cpp:260 promises: `[[Aex, 0, 0], [Agx, I, 0]]`. -/
structure IsMasterAx [Zero K] [One K] (Aex : Matrix (Fin nbe) (Fin nx) K) (Agx : Matrix (Fin nbg) (Fin nx) K) (A : Matrix (Fin (nbe + nbg)) (Fin (nx + nbg + nhg)) K) : Prop where
  ex : ∀ i j, A (Fin.castAdd nbg i) (ixX nbg nhg j) = Aex i j
  ebg : ∀ i j, A (Fin.castAdd nbg i) (ixBg nx nhg j) = 0
  ehg : ∀ i j, A (Fin.castAdd nbg i) (ixHg nx nbg j) = 0
  gx : ∀ i j, A (Fin.natAdd nbe i) (ixX nbg nhg j) = Agx i j
  gbg : ∀ i j, A (Fin.natAdd nbe i) (ixBg nx nhg j) = if i = j then 1 else 0
  ghg : ∀ i j, A (Fin.natAdd nbe i) (ixHg nx nbg j) = 0

/-- **C44, exactly**: the assembled matrix is right if and only if the block of the rows of `be` and the columns of the slacks `xbg` happened to be zero: this block is never written. -/
theorem assembleAx_iff [Zero K] [One K] (mem : Matrix (Fin (nbe + nbg)) (Fin (nx + nbg + nhg)) K) (Aex : Matrix (Fin nbe) (Fin nx) K) (Agx : Matrix (Fin nbg) (Fin nx) K) :
    IsMasterAx Aex Agx (assembleAx mem Aex Agx) ↔ ∀ i j, mem (Fin.castAdd nbg i) (ixBg nx nhg j) = 0 := by
  constructor
  · intro h i j
    have := h.ebg i j
    simpa [assembleAx] using this
  · intro h
    exact ⟨by simp [assembleAx], by simpa [assembleAx] using h, by simp [assembleAx], by simp [assembleAx], by simp [assembleAx], by simp [assembleAx]⟩

/-- **C44 in part**: with only equality or only inequality linear constraints the matrix is right for every history. -/
theorem assembleAx_partial [Zero K] [One K] (mem : Matrix (Fin (nbe + nbg)) (Fin (nx + nbg + nhg)) K) (Aex : Matrix (Fin nbe) (Fin nx) K) (Agx : Matrix (Fin nbg) (Fin nx) K) (h : nbe = 0 ∨ nbg = 0) :
    IsMasterAx Aex Agx (assembleAx mem Aex Agx) := by
  rw [assembleAx_iff]
  rintro ⟨i, hi⟩ ⟨j, hj⟩
  omega

/-- `Ax.resize(rows, cols)` for a matrix of another shape with the same number of entries keeps the array (Eigen does not reallocate): entry `(r, c)` of a column-major matrix is entry `r + rows * c` of the array. -/
def reshape {m n m' n' : ℕ} (h : m * n = m' * n') (A : Matrix (Fin m) (Fin n) K) : Matrix (Fin m') (Fin n') K := fun r c =>
  have hlt : r.1 + m' * c.1 < m * n := by
    have h1 := r.2; have h2 := c.2
    calc r.1 + m' * c.1 < m' + m' * c.1 := by omega
      _ = m' * (c.1 + 1) := by ring
      _ ≤ m' * n' := Nat.mul_le_mul_left _ h2
      _ = m * n := h.symm
  have hm : 0 < m := by
    rcases Nat.eq_zero_or_pos m with e | e
    · subst e; simp at hlt
    · exact e
  A ⟨(r.1 + m' * c.1) % m, Nat.mod_lt _ hm⟩ ⟨(r.1 + m' * c.1) / m, Nat.div_lt_of_lt_mul hlt⟩

/-- **C44 is false**: solve a problem with two linear inequality constraints on two variables, then, with the same solver, one with a linear equality and a linear inequality constraint on one variable and two non-linear inequality constraints: the matrices have the
    same number of entries (8), so the array is reused and the second matrix is not `[[Aex, 0, 0], [Agx, I, 0]]`. -/
theorem assembleAx_stale : ∃ (Agx1 : Matrix (Fin 2) (Fin 2) ℚ) (Aex2 Agx2 : Matrix (Fin 1) (Fin 1) ℚ), ∀ mem : Matrix (Fin (0 + 2)) (Fin (2 + 2 + 0)) ℚ,
    ¬ IsMasterAx Aex2 Agx2 (assembleAx (nx := 1) (nbe := 1) (nbg := 1) (nhg := 2) (reshape (by decide) (assembleAx (nx := 2) (nbe := 0) (nbg := 2) (nhg := 0) mem (fun i => i.elim0) Agx1)) Aex2 Agx2) := by
  refine ⟨fun _ _ => 1, fun _ _ => 1, fun _ _ => 1, fun mem h => ?_⟩
  have := (assembleAx_iff _ _ _).1 h 0 0
  revert this
  have e : reshape (by decide) (assembleAx (nx := 2) (nbe := 0) (nbg := 2) (nhg := 0) mem (fun i => i.elim0) (fun _ _ => (1 : ℚ))) (Fin.castAdd 1 (0 : Fin 1)) (ixBg 1 2 (0 : Fin 1)) =
      assembleAx (nx := 2) (nbe := 0) (nbg := 2) (nhg := 0) mem (fun i => i.elim0) (fun _ _ => (1 : ℚ)) (Fin.natAdd 0 0) (ixX 2 0 1) := rfl
  rw [e]
  have e2 : assembleAx (nx := 2) (nbe := 0) (nbg := 2) (nhg := 0) mem (fun i => i.elim0) (fun _ _ => (1 : ℚ)) (Fin.natAdd 0 0) (ixX 2 0 1) = 1 := rfl
  rw [e2]
  exact one_ne_zero

/-! ## The functions of the master problem -/

/-- The objective of the master problem is the user's objective at the `x` part of `xbar`, with zero derivatives for slacks, whatever the result object held. -/
theorem masterF_spec [Zero K] (fn : ObjSig τ K nx np nc) (t : τ) (res : ObjRes K (nx + nbg + nhg) np nc) (xbar p c opts) (t' : τ) (r : ObjRes K (nx + nbg + nhg) np nc) :
    masterF (nbg := nbg) (nhg := nhg) ⟨some fn⟩ t res xbar p c opts = some (t', r) ↔ ∃ q, fn t cleanObj (fun i => xbar (ixX nbg nhg i)) p c opts = some (t', q) ∧ r.f = q.f ∧
      (∀ i, r.fx (ixX nbg nhg i) = q.fx i) ∧ (∀ i, r.fx (ixBg nx nhg i) = 0) ∧ (∀ i, r.fx (ixHg nx nbg i) = 0) ∧
      (∀ i j, r.fxx (ixX nbg nhg i) (ixX nbg nhg j) = q.fxx i j) ∧ (∀ i j, r.fxx (ixBg nx nhg i) j = 0) ∧ (∀ i j, r.fxx (ixHg nx nbg i) j = 0) ∧
      (∀ i j, r.fxx (ixX nbg nhg i) (ixBg nx nhg j) = 0) ∧ (∀ i j, r.fxx (ixX nbg nhg i) (ixHg nx nbg j) = 0) ∧
      (∀ i j, r.fxp (ixX nbg nhg i) j = q.fxp i j) ∧ (∀ i j, r.fxp (ixBg nx nhg i) j = 0) ∧ (∀ i j, r.fxp (ixHg nx nbg i) j = 0) ∧
      (∀ i j, r.fxc (ixX nbg nhg i) j = q.fxc i j) ∧ (∀ i j, r.fxc (ixBg nx nhg i) j = 0) ∧ (∀ i j, r.fxc (ixHg nx nbg i) j = 0) ∧
      r.diagfxx = q.diagfxx ∧ r.fxx4basicvars = q.fxx4basicvars ∧ r.succeeded = q.succeeded := by
  unfold masterF
  simp only [objective_sees_clean]
  rcases fn t cleanObj (fun i => xbar (ixX nbg nhg i)) p c opts with _ | ⟨t1, q⟩
  · simp
  · simp only [Option.some.injEq, Prod.mk.injEq]
    constructor
    · rintro ⟨rfl, rfl⟩
      exact ⟨q, ⟨rfl, rfl⟩, rfl, by simp [ObjRes.setHeadX], by simp [ObjRes.setHeadX], by simp [ObjRes.setHeadX], by simp [ObjRes.setHeadX], by simp [ObjRes.setHeadX], by simp [ObjRes.setHeadX],
        by simp [ObjRes.setHeadX], by simp [ObjRes.setHeadX], by simp [ObjRes.setHeadX], by simp [ObjRes.setHeadX], by simp [ObjRes.setHeadX], by simp [ObjRes.setHeadX], by simp [ObjRes.setHeadX],
        by simp [ObjRes.setHeadX], rfl, rfl, rfl⟩
    · rintro ⟨q', ⟨rfl, rfl⟩, h1, h2, h3, h4, h5, h6, h7, h8, h9, h10, h11, h12, h13, h14, h15, h16, h17, h18⟩
      refine ⟨rfl, ?_⟩
      ext1
      · exact h1.symm
      · exact ext_xbar (by simp [ObjRes.setHeadX, h2]) (by simp [ObjRes.setHeadX, h3]) (by simp [ObjRes.setHeadX, h4])
      · ext i j
        revert i
        rw [forall_xbar]
        refine ⟨fun i => ?_, by simp [ObjRes.setHeadX, h6], by simp [ObjRes.setHeadX, h7]⟩
        revert j
        rw [forall_xbar]
        simp [ObjRes.setHeadX, h5, h8, h9]
      · ext i j
        revert i
        rw [forall_xbar]
        simp [ObjRes.setHeadX, h10, h11, h12]
      · ext i j
        revert i
        rw [forall_xbar]
        simp [ObjRes.setHeadX, h13, h14, h15]
      · exact h16.symm
      · exact h17.symm
      · exact h18.symm

/-- The constraint function of the master problem is `(he(x, p), hg(x, p) + xhg)` with derivatives `[[he_x, 0, 0], [hg_x, 0, I]]`; the flags are those of `hg`. -/
theorem masterH_spec [AddZeroClass K] [One K] (fe : ConSig τ K nhe nx np nc) (fg : ConSig τ K nhg nx np nc) (t : τ) (res : ConRes K (nhe + nhg) (nx + nbg + nhg) np nc) (xbar p c opts) (t' : τ) (r : ConRes K (nhe + nhg) (nx + nbg + nhg) np nc) :
    masterH (nbg := nbg) ⟨some fe⟩ ⟨some fg⟩ t res xbar p c opts = some (t', r) ↔ ∃ t1 e g, fe t cleanCon (fun i => xbar (ixX nbg nhg i)) p c opts = some (t1, e) ∧
      fg t1 cleanCon (fun i => xbar (ixX nbg nhg i)) p c opts = some (t', g) ∧ (∀ i, r.val (Fin.castAdd nhg i) = e.val i) ∧ (∀ i, r.val (Fin.natAdd nhe i) = g.val i + xbar (ixHg nx nbg i)) ∧
      (∀ i j, r.ddx (Fin.castAdd nhg i) (ixX nbg nhg j) = e.ddx i j) ∧ (∀ i j, r.ddx (Fin.castAdd nhg i) (ixBg nx nhg j) = 0) ∧ (∀ i j, r.ddx (Fin.castAdd nhg i) (ixHg nx nbg j) = 0) ∧
      (∀ i j, r.ddx (Fin.natAdd nhe i) (ixX nbg nhg j) = g.ddx i j) ∧ (∀ i j, r.ddx (Fin.natAdd nhe i) (ixBg nx nhg j) = 0) ∧ (∀ i j, r.ddx (Fin.natAdd nhe i) (ixHg nx nbg j) = if i = j then 1 else 0) ∧
      (∀ i j, r.ddp (Fin.castAdd nhg i) j = e.ddp i j) ∧ (∀ i j, r.ddp (Fin.natAdd nhe i) j = g.ddp i j) ∧
      (∀ i j, r.ddc (Fin.castAdd nhg i) j = e.ddc i j) ∧ (∀ i j, r.ddc (Fin.natAdd nhe i) j = g.ddc i j) ∧ r.ddx4basicvars = g.ddx4basicvars ∧ r.succeeded = g.succeeded := by
  unfold masterH
  simp only [constraint_sees_clean]
  rcases fe t cleanCon (fun i => xbar (ixX nbg nhg i)) p c opts with _ | ⟨t1, e⟩
  · simp
  · dsimp only
    rcases hg : fg t1 cleanCon (fun i => xbar (ixX nbg nhg i)) p c opts with _ | ⟨t2, g⟩
    · simp only [reduceCtorEq, false_iff, not_exists]
      rintro a b d ⟨h1, h2, -⟩
      simp only [Option.some.injEq, Prod.mk.injEq] at h1
      rw [← h1.1, hg] at h2
      cases h2
    · simp only [Option.some.injEq, Prod.mk.injEq]
      constructor
      · rintro ⟨rfl, rfl⟩
        exact ⟨t1, e, g, ⟨rfl, rfl⟩, hg, by simp [ConRes.setTopHe, ConRes.setBottomHg], by simp [ConRes.setTopHe, ConRes.setBottomHg], by simp [ConRes.setTopHe, ConRes.setBottomHg],
          by simp [ConRes.setTopHe, ConRes.setBottomHg, slackCols], by simp [ConRes.setTopHe, ConRes.setBottomHg, slackCols], by simp [ConRes.setTopHe, ConRes.setBottomHg],
          by simp [ConRes.setTopHe, ConRes.setBottomHg, slackCols], by simp [ConRes.setTopHe, ConRes.setBottomHg, slackCols], by simp [ConRes.setTopHe, ConRes.setBottomHg],
          by simp [ConRes.setTopHe, ConRes.setBottomHg], by simp [ConRes.setTopHe, ConRes.setBottomHg], by simp [ConRes.setTopHe, ConRes.setBottomHg], rfl, rfl⟩
      · rintro ⟨t1', e', g', ⟨rfl, rfl⟩, hg', h1, h2, h3, h4, h5, h6, h7, h8, h9, h10, h11, h12, h13, h14⟩
        rw [hg] at hg'
        simp only [Option.some.injEq, Prod.mk.injEq] at hg'
        obtain ⟨rfl, rfl⟩ := hg'
        refine ⟨rfl, ?_⟩
        ext1
        · exact ext_cat2 (by simp [ConRes.setTopHe, ConRes.setBottomHg, h1]) (by simp [ConRes.setTopHe, ConRes.setBottomHg, h2])
        · ext i j
          revert i
          rw [forall_cat2]
          refine ⟨fun i => ?_, fun i => ?_⟩ <;> revert j <;> rw [forall_xbar] <;> simp [ConRes.setTopHe, ConRes.setBottomHg, slackCols, h3, h4, h5, h6, h7, h8]
        · ext i j
          revert i
          rw [forall_cat2]
          simp [ConRes.setTopHe, ConRes.setBottomHg, h9, h10]
        · ext i j
          revert i
          rw [forall_cat2]
          simp [ConRes.setTopHe, ConRes.setBottomHg, h11, h12]
        · exact h13.symm
        · exact h14.symm

/-- The external constraint of the master problem is that of the user, with zero derivatives for slacks. -/
theorem masterV_spec [Zero K] (fn : ConSig τ K np nx np nc) (t : τ) (res : ConRes K np (nx + nbg + nhg) np nc) (xbar p c opts) (t' : τ) (r : ConRes K np (nx + nbg + nhg) np nc) :
    masterV (nbg := nbg) (nhg := nhg) ⟨some fn⟩ t res xbar p c opts = some (t', r) ↔ ∃ q, fn t cleanCon (fun i => xbar (ixX nbg nhg i)) p c opts = some (t', q) ∧ r.val = q.val ∧
      (∀ i j, r.ddx i (ixX nbg nhg j) = q.ddx i j) ∧ (∀ i j, r.ddx i (ixBg nx nhg j) = 0) ∧ (∀ i j, r.ddx i (ixHg nx nbg j) = 0) ∧ r.ddp = q.ddp ∧ r.ddc = q.ddc ∧ r.ddx4basicvars = q.ddx4basicvars ∧ r.succeeded = q.succeeded := by
  unfold masterV
  rw [constraint_sees_clean]
  rcases fn t cleanCon (fun i => xbar (ixX nbg nhg i)) p c opts with _ | ⟨t1, q⟩
  · simp
  · simp only [Option.some.injEq, Prod.mk.injEq]
    constructor
    · rintro ⟨rfl, rfl⟩
      exact ⟨q, ⟨rfl, rfl⟩, rfl, by simp, by simp, by simp, rfl, rfl, rfl, rfl⟩
    · rintro ⟨q', ⟨rfl, rfl⟩, h1, h2, h3, h4, h5, h6, h7, h8⟩
      refine ⟨rfl, ?_⟩
      ext1
      · exact h1.symm
      · ext i j
        revert j
        rw [forall_xbar]
        simp [h2, h3, h4]
      · exact h5.symm
      · exact h6.symm
      · exact h7.symm
      · exact h8.symm

end Optima
