import Verif.Model.LinearSolvers
import Verif.Lemmas.Tactics
import Mathlib.Tactic.DefEqTransformations
import Mathlib.Data.Matrix.Block

/-!
# C22 - C24: the three methods for the canonical saddle-point system
-/

set_option linter.unusedSectionVars false

namespace Optima

open Matrix

variable {K : Type*} [Field K] {nx np nw : ℕ} {be bi ne ni u : Type} [Fintype be] [Fintype bi] [Fintype ne] [Fintype ni]
  [DecidableEq be] [DecidableEq bi] [DecidableEq ne] [DecidableEq ni]

/-- `v` solves the canonical saddle-point system with right-hand side `a`:
    `Hss*xs + Hsp*p + [I Sbsns]ᵀ*wbs = as`, `Vps*xs + Vpp*p = ap`, `xbs + Sbsns*xns + Sbsp*p = awbs`. -/
structure SolvesCanonical (C : Canon K nx np nw be bi ne ni u) (a v : CVec K np be bi ne ni) : Prop where
  basic : ∀ b, ∑ s, C.Hss (.inl b) s * v.xs s + ∑ q, C.Hsp (.inl b) q * v.p q + v.wbs b = a.xs (.inl b)
  nonbasic : ∀ k, ∑ s, C.Hss (.inr k) s * v.xs s + ∑ q, C.Hsp (.inr k) q * v.p q + ∑ b, C.Sbsns b k * v.wbs b = a.xs (.inr k)
  par : ∀ q, ∑ s, C.Vps q s * v.xs s + ∑ q', C.Vpp q q' * v.p q' = a.p q
  feas : ∀ b, v.xs (.inl b) + ∑ k, C.Sbsns b k * v.xs (.inr k) + ∑ q, C.Sbsp b q * v.p q = a.wbs b

/-- The unknowns of the full-space system. -/
def CVec.pack (v : CVec K np be bi ne ni) : FullT np be bi ne ni → K := Sum.elim (fun i => v.xs (.inl i)) (Sum.elim (fun i => v.xs (.inr i)) (Sum.elim v.p v.wbs))

theorem full_iff (C : Canon K nx np nw be bi ne ni u) (a v : CVec K np be bi ne ni) : fullMatrix C *ᵥ v.pack = fullRhs a ↔ SolvesCanonical C a v := by
  constructor
  · intro h
    constructor
    · intro b
      have := congrFun h (.inl b)
      simp only [mulVec, dotProduct, Fintype.sum_sum_type, fullMatrix, CVec.pack, fullRhs, Sum.elim_inl, Sum.elim_inr] at this
      rw [← this]
      rcases b with b | b <;> simp [toBlocks₁₁, toBlocks₁₂, Fintype.sum_sum_type, Matrix.one_apply] <;> ring
    · intro k
      have := congrFun h (.inr (.inl k))
      simp only [mulVec, dotProduct, Fintype.sum_sum_type, fullMatrix, CVec.pack, fullRhs, Sum.elim_inl, Sum.elim_inr] at this
      rw [← this]
      simp [toBlocks₂₁, toBlocks₂₂, Fintype.sum_sum_type]; ring
    · intro q
      have := congrFun h (.inr (.inr (.inl q)))
      simp only [mulVec, dotProduct, Fintype.sum_sum_type, fullMatrix, CVec.pack, fullRhs, Sum.elim_inl, Sum.elim_inr] at this
      rw [← this]
      simp [Fintype.sum_sum_type]; ring
    · intro b
      have := congrFun h (.inr (.inr (.inr b)))
      simp only [mulVec, dotProduct, Fintype.sum_sum_type, fullMatrix, CVec.pack, fullRhs, Sum.elim_inl, Sum.elim_inr] at this
      rw [← this]
      rcases b with b | b <;> simp [Matrix.one_apply] <;> ring
  · intro h
    funext r
    rcases r with b | k | q | b
    · simp only [mulVec, dotProduct, Fintype.sum_sum_type, fullMatrix, CVec.pack, fullRhs, Sum.elim_inl, Sum.elim_inr]
      rw [← h.basic b]
      rcases b with b | b <;> simp [toBlocks₁₁, toBlocks₁₂, Fintype.sum_sum_type, Matrix.one_apply] <;> ring
    · simp only [mulVec, dotProduct, Fintype.sum_sum_type, fullMatrix, CVec.pack, fullRhs, Sum.elim_inl, Sum.elim_inr]
      rw [← h.nonbasic k]
      simp [toBlocks₂₁, toBlocks₂₂, Fintype.sum_sum_type]; ring
    · simp only [mulVec, dotProduct, Fintype.sum_sum_type, fullMatrix, CVec.pack, fullRhs, Sum.elim_inl, Sum.elim_inr]
      rw [← h.par q]
      simp [Fintype.sum_sum_type]; ring
    · simp only [mulVec, dotProduct, Fintype.sum_sum_type, fullMatrix, CVec.pack, fullRhs, Sum.elim_inl, Sum.elim_inr]
      rw [← h.feas b]
      rcases b with b | b <;> simp [Matrix.one_apply] <;> ring

theorem fullSolve_pack (inner : Inner K (FullT np be bi ne ni)) (C : Canon K nx np nw be bi ne ni u) (a : CVec K np be bi ne ni) :
    (fullSolve inner C a).pack = inner (fullMatrix C) (fullRhs a) := by
  funext r
  rcases r with b | k | q | b <;> rfl

/-- **C22** The full-space method returns a solution of the canonical system exactly when the inner solver solves the assembled system (all dimensions, empty blocks included). -/
theorem fullspace_solves (inner : Inner K (FullT np be bi ne ni)) (C : Canon K nx np nw be bi ne ni u) (a : CVec K np be bi ne ni) :
    SolvesCanonical C a (fullSolve inner C a) ↔ fullMatrix C *ᵥ inner (fullMatrix C) (fullRhs a) = fullRhs a := by
  rw [← full_iff, fullSolve_pack]

/-- **C22** The matrix assembled by the full-space method is injective exactly when the canonical system has at most the zero solution for zero data. -/
theorem fullspace_injective (C : Canon K nx np nw be bi ne ni u) :
    (∀ r, fullMatrix C *ᵥ r = 0 → r = 0) ↔ ∀ v, SolvesCanonical C ⟨0, 0, 0⟩ v → v = ⟨0, 0, 0⟩ := by
  have hz : fullRhs (⟨0, 0, 0⟩ : CVec K np be bi ne ni) = 0 := by funext r; rcases r with b | k | q | b <;> rfl
  constructor
  · intro h v hv
    have := h v.pack (by rw [(full_iff C _ v).2 hv, hz])
    ext i
    · rcases i with b | k
      · exact congrFun this (.inl b)
      · exact congrFun this (.inr (.inl k))
    · exact congrFun this (.inr (.inr (.inl i)))
    · exact congrFun this (.inr (.inr (.inr i)))
  · intro h r hr
    have hp : (⟨Sum.elim (fun i => r (.inl i)) (fun i => r (.inr (.inl i))), fun q => r (.inr (.inr (.inl q))), fun i => r (.inr (.inr (.inr i)))⟩ : CVec K np be bi ne ni).pack = r := by
      funext s; rcases s with b | k | q | b <;> rfl
    have := h _ ((full_iff C _ _).1 (by rw [hp, hr, hz]))
    rw [← hp, this]
    funext s; rcases s with b | k | q | b <;> rfl

/-! ## Nullspace -/

/-- The canonical system by blocks. -/
structure BlockSys (C : Canon K nx np nw be bi ne ni u) (a v : CVec K np be bi ne ni) : Prop where
  e1 : C.Hbsbs.toBlocks₁₁ *ᵥ (fun i => v.xs (.inl (.inl i))) + C.Hbsbs.toBlocks₁₂ *ᵥ (fun i => v.xs (.inl (.inr i))) + C.Hbsns.submatrix Sum.inl id *ᵥ (fun i => v.xs (.inr i))
    + C.Hbsp.submatrix Sum.inl id *ᵥ v.p + (fun i => v.wbs (.inl i)) = fun i => a.xs (.inl (.inl i))
  e2 : C.Hbsbs.toBlocks₂₁ *ᵥ (fun i => v.xs (.inl (.inl i))) + C.Hbsbs.toBlocks₂₂ *ᵥ (fun i => v.xs (.inl (.inr i))) + C.Hbsns.submatrix Sum.inr id *ᵥ (fun i => v.xs (.inr i))
    + C.Hbsp.submatrix Sum.inr id *ᵥ v.p + (fun i => v.wbs (.inr i)) = fun i => a.xs (.inl (.inr i))
  e3 : C.Hnsbs.submatrix id Sum.inl *ᵥ (fun i => v.xs (.inl (.inl i))) + C.Hnsbs.submatrix id Sum.inr *ᵥ (fun i => v.xs (.inl (.inr i))) + C.Hnsns *ᵥ (fun i => v.xs (.inr i))
    + C.Hnsp *ᵥ v.p + C.Sbensᵀ *ᵥ (fun i => v.wbs (.inl i)) + C.Sbinsᵀ *ᵥ (fun i => v.wbs (.inr i)) = fun i => a.xs (.inr i)
  e4 : C.Vpbs.submatrix id Sum.inl *ᵥ (fun i => v.xs (.inl (.inl i))) + C.Vpbs.submatrix id Sum.inr *ᵥ (fun i => v.xs (.inl (.inr i))) + C.Vpns *ᵥ (fun i => v.xs (.inr i))
    + C.Vpp *ᵥ v.p = a.p
  e5 : (fun i => v.xs (.inl (.inl i))) + C.Sbens *ᵥ (fun i => v.xs (.inr i)) + C.Sbep *ᵥ v.p = fun i => a.wbs (.inl i)
  e6 : (fun i => v.xs (.inl (.inr i))) + C.Sbins *ᵥ (fun i => v.xs (.inr i)) + C.Sbip *ᵥ v.p = fun i => a.wbs (.inr i)

theorem block_iff (C : Canon K nx np nw be bi ne ni u) (a v : CVec K np be bi ne ni) : BlockSys C a v ↔ SolvesCanonical C a v := by
  constructor
  · rintro ⟨e1, e2, e3, e4, e5, e6⟩
    constructor
    · rintro (b | b)
      · have := congrFun e1 b
        simp only [Pi.add_apply, mulVec, dotProduct, toBlocks₁₁, toBlocks₁₂, of_apply, submatrix_apply, id] at this
        simp only [Fintype.sum_sum_type] at this ⊢
        rw [← this]
      · have := congrFun e2 b
        simp only [Pi.add_apply, mulVec, dotProduct, toBlocks₁₁, toBlocks₁₂, toBlocks₂₁, toBlocks₂₂, of_apply, submatrix_apply, id] at this
        simp only [Fintype.sum_sum_type] at this ⊢
        rw [← this]
    · intro k
      have := congrFun e3 k
      simp only [Pi.add_apply, mulVec, dotProduct, toBlocks₂₁, toBlocks₂₂, of_apply, submatrix_apply, id, transpose_apply] at this
      simp only [Fintype.sum_sum_type] at this ⊢
      rw [← this]; ring
    · intro q
      have := congrFun e4 q
      simp only [Pi.add_apply, mulVec, dotProduct, submatrix_apply, id] at this
      simp only [Fintype.sum_sum_type] at this ⊢
      rw [← this]
    · rintro (b | b)
      · have := congrFun e5 b
        simp only [Pi.add_apply, mulVec, dotProduct, submatrix_apply, id] at this
        rw [← this]
      · have := congrFun e6 b
        simp only [Pi.add_apply, mulVec, dotProduct, submatrix_apply, id] at this
        rw [← this]
  · intro h
    constructor
    · funext b
      rw [← h.basic]
      simp only [Pi.add_apply, mulVec, dotProduct, toBlocks₁₁, toBlocks₁₂, of_apply, submatrix_apply, id, Fintype.sum_sum_type]
    · funext b
      rw [← h.basic]
      simp only [Pi.add_apply, mulVec, dotProduct, toBlocks₁₁, toBlocks₁₂, toBlocks₂₁, toBlocks₂₂, of_apply, submatrix_apply, id, Fintype.sum_sum_type]
    · funext k
      rw [← h.nonbasic]
      simp only [Pi.add_apply, mulVec, dotProduct, toBlocks₂₁, toBlocks₂₂, of_apply, submatrix_apply, id, transpose_apply, Fintype.sum_sum_type]; ring
    · funext q
      rw [← h.par]
      simp only [Pi.add_apply, mulVec, dotProduct, submatrix_apply, id, Fintype.sum_sum_type]
    · funext b
      rw [← h.feas]
      simp only [Pi.add_apply, mulVec, dotProduct, submatrix_apply, id]
    · funext b
      rw [← h.feas]
      simp only [Pi.add_apply, mulVec, dotProduct, submatrix_apply, id]

/-- The reduced system of the null-space method by blocks. -/
theorem null_blocks (C : Canon K nx np nw be bi ne ni u) (B : NullBlocks K np be bi ne ni) (r s : NullT np be ne ni → K) : nullMatrix C B *ᵥ r = s ↔
    (B.Hbebe *ᵥ (fun i => r (.inl i)) + B.Hbens *ᵥ (fun i => r (.inr (.inl i))) + B.Hbep *ᵥ (fun i => r (.inr (.inr (.inl i)))) + (fun i => r (.inr (.inr (.inr i)))) = fun i => s (.inl i)) ∧
    (B.Hnsbe *ᵥ (fun i => r (.inl i)) + B.Hnsns *ᵥ (fun i => r (.inr (.inl i))) + B.Hnsp *ᵥ (fun i => r (.inr (.inr (.inl i)))) + C.Sbensᵀ *ᵥ (fun i => r (.inr (.inr (.inr i)))) =
      fun i => s (.inr (.inl i))) ∧
    (B.Vpbe *ᵥ (fun i => r (.inl i)) + B.Vpns *ᵥ (fun i => r (.inr (.inl i))) + B.Vpp *ᵥ (fun i => r (.inr (.inr (.inl i)))) = fun i => s (.inr (.inr (.inl i)))) ∧
    ((fun i => r (.inl i)) + C.Sbens *ᵥ (fun i => r (.inr (.inl i))) + C.Sbep *ᵥ (fun i => r (.inr (.inr (.inl i)))) = fun i => s (.inr (.inr (.inr i)))) := by
  simp only [funext_iff, Sum.forall, Pi.add_apply, mulVec, dotProduct, Fintype.sum_sum_type, nullMatrix, Matrix.one_apply, ite_mul, one_mul, zero_mul, Finset.sum_ite_eq, Finset.mem_univ, if_true,
    Finset.sum_const_zero, add_zero, ← add_assoc]

theorem null_key (C : Canon K nx np nw be bi ne ni u) (a : CVec K np be bi ne ni) (r : NullT np be ne ni → K) :
    nullMatrix C (nullDecompose C) *ᵥ r = (nullRhs C (nullDecompose C) a).2 ↔ SolvesCanonical C a (nullRecover C (nullDecompose C) a (nullRhs C (nullDecompose C) a).1 r) := by
  rw [← block_iff, null_blocks]
  simp only [nullDecompose, nullRhs, nullRecover, Sum.elim_inl, Sum.elim_inr]
  generalize (fun i => r (.inl i)) = xbe
  generalize (fun i => r (.inr (.inl i))) = xns
  generalize (fun i => r (.inr (.inr (.inl i)))) = p
  generalize (fun i => r (.inr (.inr (.inr i)))) = wbe
  constructor
  · rintro ⟨h1, h2, h3, h4⟩
    simp only [sub_mulVec, mulVec_sub, ← mulVec_mulVec, Matrix.mul_assoc, Matrix.mul_sub, Matrix.sub_mul, Sum.elim_inl, Sum.elim_inr] at h1 h2 h3 h4
    eta_reduce at h1 h2 h3 h4
    constructor <;> simp only [Sum.elim_inl, Sum.elim_inr] <;> eta_reduce <;> try simp only [sub_mulVec, mulVec_sub, ← mulVec_mulVec, Matrix.mul_assoc, Matrix.mul_sub, Matrix.sub_mul, Sum.elim_inl, Sum.elim_inr]
    · linear_combination (exp := 1) h1
    · ring
    · linear_combination (exp := 1) h2
    · linear_combination (exp := 1) h3
    · exact h4
    · ring
  · rintro ⟨h1, -, h2, h3, h4, -⟩
    simp only [Sum.elim_inl, Sum.elim_inr] at h1 h2 h3 h4 ⊢
    eta_reduce at h1 h2 h3 h4 ⊢
    simp only [sub_mulVec, mulVec_sub, ← mulVec_mulVec, Matrix.mul_assoc, Matrix.mul_sub, Matrix.sub_mul, Sum.elim_inl, Sum.elim_inr] at h1 h2 h3 h4 ⊢
    refine ⟨?_, ?_, ?_, ?_⟩
    · linear_combination (exp := 1) h1
    · linear_combination (exp := 1) h2
    · linear_combination (exp := 1) h3
    · exact h4

/-- **C23** The null-space method returns a solution of the canonical system exactly when the inner solver solves the reduced system. -/
theorem nullspace_solves (inner : Inner K (NullT np be ne ni)) (C : Canon K nx np nw be bi ne ni u) (a : CVec K np be bi ne ni) :
    SolvesCanonical C a (nullSolve inner C a) ↔
      nullMatrix C (nullDecompose C) *ᵥ inner (nullMatrix C (nullDecompose C)) (nullRhs C (nullDecompose C) a).2 = (nullRhs C (nullDecompose C) a).2 :=
  (null_key C a _).symm

/-- The unknowns of the reduced system. -/
def CVec.nullPack (v : CVec K np be bi ne ni) : NullT np be ne ni → K :=
  Sum.elim (fun i => v.xs (.inl (.inl i))) (Sum.elim (fun i => v.xs (.inr i)) (Sum.elim v.p (fun i => v.wbs (.inl i))))

theorem nullRecover_pack (C : Canon K nx np nw be bi ne ni u) (a v : CVec K np be bi ne ni) (h : SolvesCanonical C a v) :
    nullRecover C (nullDecompose C) a (nullRhs C (nullDecompose C) a).1 v.nullPack = v := by
  obtain ⟨-, h2, -, -, -, h6⟩ := (block_iff C a v).2 h
  have hx : ∀ i, (nullRecover C (nullDecompose C) a (nullRhs C (nullDecompose C) a).1 v.nullPack).xs (.inl (.inr i)) = v.xs (.inl (.inr i)) := by
    intro i
    have := congrFun h6 i
    simp only [Pi.add_apply] at this
    simp only [nullRecover, CVec.nullPack, Sum.elim_inl, Sum.elim_inr, Pi.sub_apply]
    rw [← this]; ring
  ext s
  · rcases s with (s | s) | s
    · rfl
    · exact hx s
    · rfl
  · rfl
  · rcases s with s | s
    · rfl
    · have hxb : (fun i => v.xs (.inl (.inr i))) = (fun i => a.wbs (.inr i)) - C.Sbins *ᵥ (fun i => v.xs (.inr i)) - C.Sbip *ᵥ v.p := by
        rw [← h6]; ring
      rw [hxb] at h2
      have := congrFun h2 s
      simp only [nullRecover, nullRhs, nullDecompose, CVec.nullPack, Sum.elim_inl, Sum.elim_inr]
      simp only [sub_mulVec, mulVec_sub, ← mulVec_mulVec, Pi.add_apply, Pi.sub_apply] at this ⊢
      linear_combination -this

/-- **C23** No solution is lost: every solution of the canonical system is recovered from a solution of the reduced system. -/
theorem nullspace_complete (C : Canon K nx np nw be bi ne ni u) (a v : CVec K np be bi ne ni) (h : SolvesCanonical C a v) :
    ∃ r, nullMatrix C (nullDecompose C) *ᵥ r = (nullRhs C (nullDecompose C) a).2 ∧ nullRecover C (nullDecompose C) a (nullRhs C (nullDecompose C) a).1 r = v :=
  ⟨v.nullPack, (null_key C a _).2 (by rwa [nullRecover_pack C a v h]), nullRecover_pack C a v h⟩

/-- **C23** The reduced matrix is non-singular exactly when the canonical system is. -/
theorem nullspace_injective (C : Canon K nx np nw be bi ne ni u) :
    (∀ r, nullMatrix C (nullDecompose C) *ᵥ r = 0 → r = 0) ↔ ∀ v, SolvesCanonical C ⟨0, 0, 0⟩ v → v = ⟨0, 0, 0⟩ := by
  have hz : (nullRhs C (nullDecompose C) (⟨0, 0, 0⟩ : CVec K np be bi ne ni)).2 = 0 := by
    funext r
    rcases r with b | k | q | b <;> simp [nullRhs, mulVec, dotProduct]
  constructor
  · intro h v hv
    obtain ⟨r, hr, hv'⟩ := nullspace_complete C _ v hv
    rw [hz] at hr
    rw [← hv', h r hr]
    ext s
    · rcases s with (s | s) | s <;> simp [nullRecover, mulVec, dotProduct]
    · simp [nullRecover]
    · rcases s with s | s <;> simp [nullRecover, nullRhs, mulVec, dotProduct]
  · intro h r hr
    have := h _ ((null_key C ⟨0, 0, 0⟩ r).1 (by rw [hr, hz]))
    funext s
    rcases s with b | k | q | b
    · exact congrFun (congrArg CVec.xs this) (.inl (.inl b))
    · exact congrFun (congrArg CVec.xs this) (.inr k)
    · exact congrFun (congrArg CVec.p this) q
    · exact congrFun (congrArg CVec.wbs this) (.inl b)

/-! ## Rangespace -/

/-- `Hss` is diagonal. -/
def HssDiag (C : Canon K nx np nw be bi ne ni u) : Prop := ∀ s t, s ≠ t → C.Hss s t = 0

/-- The canonical system by blocks when `Hss` is diagonal. -/
structure DiagSys (C : Canon K nx np nw be bi ne ni u) (a : CVec K np be bi ne ni) (xbe : be → K) (xbi : bi → K) (xne : ne → K) (xni : ni → K) (p : Fin np → K) (wbe : be → K) (wbi : bi → K) :
    Prop where
  e1 : diagonal C.hbe *ᵥ xbe + C.Hbep *ᵥ p + wbe = fun i => a.xs (.inl (.inl i))
  e2 : diagonal C.hbi *ᵥ xbi + C.Hbip *ᵥ p + wbi = fun i => a.xs (.inl (.inr i))
  e3 : diagonal C.hne *ᵥ xne + C.Hnep *ᵥ p + C.Sbeneᵀ *ᵥ wbe + C.Sbineᵀ *ᵥ wbi = fun i => a.xs (.inr (.inl i))
  e4 : diagonal C.hni *ᵥ xni + C.Hnip *ᵥ p + C.Sbeniᵀ *ᵥ wbe + C.Sbiniᵀ *ᵥ wbi = fun i => a.xs (.inr (.inr i))
  e5 : C.Vpbe *ᵥ xbe + C.Vpbi *ᵥ xbi + C.Vpne *ᵥ xne + C.Vpni *ᵥ xni + C.Vpp *ᵥ p = a.p
  e6 : xbe + C.Sbene *ᵥ xne + C.Sbeni *ᵥ xni + C.Sbep *ᵥ p = fun i => a.wbs (.inl i)
  e7 : xbi + C.Sbine *ᵥ xne + C.Sbini *ᵥ xni + C.Sbip *ᵥ p = fun i => a.wbs (.inr i)

theorem diag_iff (C : Canon K nx np nw be bi ne ni u) (hd : HssDiag C) (a v : CVec K np be bi ne ni) :
    DiagSys C a (fun i => v.xs (.inl (.inl i))) (fun i => v.xs (.inl (.inr i))) (fun i => v.xs (.inr (.inl i))) (fun i => v.xs (.inr (.inr i))) v.p (fun i => v.wbs (.inl i))
      (fun i => v.wbs (.inr i)) ↔ SolvesCanonical C a v := by
  have hsum : ∀ s, ∑ t, C.Hss s t * v.xs t = C.Hss s s * v.xs s := by
    intro s
    rw [Finset.sum_eq_single s]
    · intro t _ ht; rw [hd s t (Ne.symm ht), zero_mul]
    · simp
  constructor
  · rintro ⟨e1, e2, e3, e4, e5, e6, e7⟩
    constructor
    · rintro (b | b)
      · have := congrFun e1 b
        simp only [Pi.add_apply, mulVec_diagonal] at this
        rw [hsum, ← this]; rfl
      · have := congrFun e2 b
        simp only [Pi.add_apply, mulVec_diagonal] at this
        rw [hsum, ← this]; rfl
    · rintro (k | k)
      · have := congrFun e3 k
        simp only [Pi.add_apply, mulVec_diagonal] at this
        rw [hsum, ← this, Fintype.sum_sum_type, ← add_assoc]; rfl
      · have := congrFun e4 k
        simp only [Pi.add_apply, mulVec_diagonal] at this
        rw [hsum, ← this, Fintype.sum_sum_type, ← add_assoc]; rfl
    · intro q
      have := congrFun e5 q
      simp only [Pi.add_apply] at this
      rw [← this]
      simp only [Fintype.sum_sum_type, ← add_assoc]; rfl
    · rintro (b | b)
      · have := congrFun e6 b
        simp only [Pi.add_apply] at this
        rw [← this]
        simp only [Fintype.sum_sum_type, ← add_assoc]; rfl
      · have := congrFun e7 b
        simp only [Pi.add_apply] at this
        rw [← this]
        simp only [Fintype.sum_sum_type, ← add_assoc]; rfl
  · intro h
    constructor
    · funext b
      rw [← h.basic, hsum]
      simp only [Pi.add_apply, mulVec_diagonal]; rfl
    · funext b
      rw [← h.basic, hsum]
      simp only [Pi.add_apply, mulVec_diagonal]; rfl
    · funext b
      rw [← h.nonbasic, hsum]
      simp only [Pi.add_apply, mulVec_diagonal, Fintype.sum_sum_type, ← add_assoc]; rfl
    · funext b
      rw [← h.nonbasic, hsum]
      simp only [Pi.add_apply, mulVec_diagonal, Fintype.sum_sum_type, ← add_assoc]; rfl
    · funext b
      rw [← h.par]
      simp only [Pi.add_apply, Fintype.sum_sum_type, ← add_assoc]; rfl
    · funext b
      rw [← h.feas]
      simp only [Pi.add_apply, Fintype.sum_sum_type, ← add_assoc]; rfl
    · funext b
      rw [← h.feas]
      simp only [Pi.add_apply, Fintype.sum_sum_type, ← add_assoc]; rfl

theorem Tblocks (C : Canon K nx np nw be bi ne ni u) (d : ne → K) :
    let T := C.Sbsne * (show Matrix (be ⊕ bi) ne K from fun i j => Sum.elim (fun i => (C.Sbene * diagonal d) i j) (fun i => (C.Sbine * diagonal d) i j) i)ᵀ
    T.toBlocks₁₁ = C.Sbene * (diagonal d * C.Sbeneᵀ) ∧ T.toBlocks₁₂ = C.Sbene * (diagonal d * C.Sbineᵀ) ∧
    T.toBlocks₂₁ = C.Sbine * (diagonal d * C.Sbeneᵀ) ∧ T.toBlocks₂₂ = C.Sbine * (diagonal d * C.Sbineᵀ) := by
  refine ⟨?_, ?_, ?_, ?_⟩ <;> ext i j
  · change ∑ k, C.Sbene i k * (C.Sbene * diagonal d) j k = ∑ k, C.Sbene i k * (diagonal d * C.Sbeneᵀ) k j
    exact Finset.sum_congr rfl fun k _ => by rw [mul_diagonal, diagonal_mul, transpose_apply, mul_comm (C.Sbene j k)]
  · change ∑ k, C.Sbene i k * (C.Sbine * diagonal d) j k = ∑ k, C.Sbene i k * (diagonal d * C.Sbineᵀ) k j
    exact Finset.sum_congr rfl fun k _ => by rw [mul_diagonal, diagonal_mul, transpose_apply, mul_comm (C.Sbine j k)]
  · change ∑ k, C.Sbine i k * (C.Sbene * diagonal d) j k = ∑ k, C.Sbine i k * (diagonal d * C.Sbeneᵀ) k j
    exact Finset.sum_congr rfl fun k _ => by rw [mul_diagonal, diagonal_mul, transpose_apply, mul_comm (C.Sbene j k)]
  · change ∑ k, C.Sbine i k * (C.Sbine * diagonal d) j k = ∑ k, C.Sbine i k * (diagonal d * C.Sbineᵀ) k j
    exact Finset.sum_congr rfl fun k _ => by rw [mul_diagonal, diagonal_mul, transpose_apply, mul_comm (C.Sbine j k)]

/-- The matrix of the reduced system of the range-space method by blocks. -/
theorem range_blocks (C : Canon K nx np nw be bi ne ni u) (r s : RangeT np be bi ni → K) :
    let p : Fin np → K := fun q => r (.inl q)
    let xbi : bi → K := fun i => r (.inr (.inl i))
    let wbe : be → K := fun i => r (.inr (.inr (.inl i)))
    let xni : ni → K := fun i => r (.inr (.inr (.inr i)))
    let Ib : Matrix be be K := diagonal fun i => (C.hbe i)⁻¹
    let In : Matrix ne ne K := diagonal fun i => (C.hne i)⁻¹
    let Dbi := diagonal C.hbi
    (rangeDecompose C).2 *ᵥ r = s ↔
      (C.Vpp *ᵥ p - C.Vpbe *ᵥ Ib *ᵥ C.Hbep *ᵥ p - C.Vpne *ᵥ In *ᵥ C.Hnep *ᵥ p + C.Vpne *ᵥ In *ᵥ C.Sbineᵀ *ᵥ C.Hbip *ᵥ p + (C.Vpbi *ᵥ xbi + C.Vpne *ᵥ In *ᵥ C.Sbineᵀ *ᵥ Dbi *ᵥ xbi)
        + (-(C.Vpbe *ᵥ Ib *ᵥ wbe) - C.Vpne *ᵥ In *ᵥ C.Sbeneᵀ *ᵥ wbe) + C.Vpni *ᵥ xni = fun q => s (.inl q)) ∧
      (C.Sbip *ᵥ p - C.Sbine *ᵥ In *ᵥ C.Hnep *ᵥ p + C.Sbine *ᵥ In *ᵥ C.Sbineᵀ *ᵥ C.Hbip *ᵥ p + (xbi + C.Sbine *ᵥ In *ᵥ C.Sbineᵀ *ᵥ Dbi *ᵥ xbi)
        + -(C.Sbine *ᵥ In *ᵥ C.Sbeneᵀ *ᵥ wbe) + C.Sbini *ᵥ xni = fun q => s (.inr (.inl q))) ∧
      (C.Sbep *ᵥ p - Ib *ᵥ C.Hbep *ᵥ p - C.Sbene *ᵥ In *ᵥ C.Hnep *ᵥ p + C.Sbene *ᵥ In *ᵥ C.Sbineᵀ *ᵥ C.Hbip *ᵥ p + C.Sbene *ᵥ In *ᵥ C.Sbineᵀ *ᵥ Dbi *ᵥ xbi
        + (Ib *ᵥ wbe + C.Sbene *ᵥ In *ᵥ C.Sbeneᵀ *ᵥ wbe) + C.Sbeni *ᵥ xni = fun q => s (.inr (.inr (.inl q)))) ∧
      (C.Hnip *ᵥ p - C.Sbiniᵀ *ᵥ C.Hbip *ᵥ p + -(C.Sbiniᵀ *ᵥ Dbi *ᵥ xbi) + C.Sbeniᵀ *ᵥ wbe + diagonal C.hni *ᵥ xni = fun q => s (.inr (.inr (.inr q)))) := by
  intro p xbi wbe xni Ib In Dbi
  obtain ⟨t11, t12, t21, t22⟩ := Tblocks C (fun i => (C.hne i)⁻¹)
  have hgen : ∀ (M : Matrix (RangeT np be bi ni) (RangeT np be bi ni) K), M *ᵥ r = s ↔
      ((fun q j => M (.inl q) (.inl j) : Matrix (Fin np) (Fin np) K) *ᵥ p + (fun q j => M (.inl q) (.inr (.inl j)) : Matrix (Fin np) bi K) *ᵥ xbi
        + (fun q j => M (.inl q) (.inr (.inr (.inl j))) : Matrix (Fin np) be K) *ᵥ wbe + (fun q j => M (.inl q) (.inr (.inr (.inr j))) : Matrix (Fin np) ni K) *ᵥ xni = fun q => s (.inl q)) ∧
      ((fun q j => M (.inr (.inl q)) (.inl j) : Matrix bi (Fin np) K) *ᵥ p + (fun q j => M (.inr (.inl q)) (.inr (.inl j)) : Matrix bi bi K) *ᵥ xbi
        + (fun q j => M (.inr (.inl q)) (.inr (.inr (.inl j))) : Matrix bi be K) *ᵥ wbe + (fun q j => M (.inr (.inl q)) (.inr (.inr (.inr j))) : Matrix bi ni K) *ᵥ xni = fun q => s (.inr (.inl q))) ∧
      ((fun q j => M (.inr (.inr (.inl q))) (.inl j) : Matrix be (Fin np) K) *ᵥ p + (fun q j => M (.inr (.inr (.inl q))) (.inr (.inl j)) : Matrix be bi K) *ᵥ xbi
        + (fun q j => M (.inr (.inr (.inl q))) (.inr (.inr (.inl j))) : Matrix be be K) *ᵥ wbe + (fun q j => M (.inr (.inr (.inl q))) (.inr (.inr (.inr j))) : Matrix be ni K) *ᵥ xni =
          fun q => s (.inr (.inr (.inl q)))) ∧
      ((fun q j => M (.inr (.inr (.inr q))) (.inl j) : Matrix ni (Fin np) K) *ᵥ p + (fun q j => M (.inr (.inr (.inr q))) (.inr (.inl j)) : Matrix ni bi K) *ᵥ xbi
        + (fun q j => M (.inr (.inr (.inr q))) (.inr (.inr (.inl j))) : Matrix ni be K) *ᵥ wbe + (fun q j => M (.inr (.inr (.inr q))) (.inr (.inr (.inr j))) : Matrix ni ni K) *ᵥ xni =
          fun q => s (.inr (.inr (.inr q)))) := by
    intro M
    simp only [funext_iff, Sum.forall, Pi.add_apply, mulVec, dotProduct, Fintype.sum_sum_type, ← add_assoc]
    rfl
  rw [hgen]
  simp only [rangeDecompose]
  eta_reduce
  simp only [] at t11 t12 t21 t22
  rw [t11, t12, t21, t22]
  simp only [add_mulVec, sub_mulVec, neg_mulVec, one_mulVec, ← mulVec_mulVec, Matrix.neg_mul]
  rfl

/-- The term by which row `M3` of the reduced matrix differs from the one the elimination yields: `M33` has the opposite sign. -/
def rangeExtra (C : Canon K nx np nw be bi ne ni u) (w : be → K) : be → K := fun i => 2 * ((C.hbe i)⁻¹ * w i + ∑ k, C.Sbene i k * ((C.hne k)⁻¹ * ∑ b, C.Sbene b k * w b))

theorem range_key (C : Canon K nx np nw be bi ne ni u) (hd : HssDiag C) (hb : ∀ i, C.hbe i ≠ 0) (hn : ∀ i, C.hne i ≠ 0) (a : CVec K np be bi ne ni) (r : RangeT np be bi ni → K) :
    SolvesCanonical C a (rangeRecover C a r) ↔ (rangeDecompose C).2 *ᵥ r = rangeRhs C (rangeDecompose C).1 a +
      Sum.elim (0 : Fin np → K) (Sum.elim (0 : bi → K) (Sum.elim (rangeExtra C fun i => r (.inr (.inr (.inl i)))) (0 : ni → K))) := by
  rw [← diag_iff C hd]
  have hrb := range_blocks C r (rangeRhs C (rangeDecompose C).1 a + Sum.elim (0 : Fin np → K) (Sum.elim (0 : bi → K) (Sum.elim (rangeExtra C fun i => r (.inr (.inr (.inl i)))) (0 : ni → K))))
  simp only [] at hrb
  rw [hrb]
  clear hrb
  obtain ⟨t11, t12, t21, t22⟩ := Tblocks C (fun i => (C.hne i)⁻¹)
  simp only [] at t11 t12 t21 t22
  have hex : ∀ w, rangeExtra C w = 2 * ((diagonal fun i => (C.hbe i)⁻¹) *ᵥ w + C.Sbene *ᵥ (diagonal fun i => (C.hne i)⁻¹) *ᵥ C.Sbeneᵀ *ᵥ w) := by
    intro w; funext i
    simp only [rangeExtra, Pi.mul_apply, Pi.add_apply, mulVec_diagonal]
    rw [mulVec, dotProduct]
    simp only [mulVec_diagonal]; rfl
  simp only [rangeRecover, rangeRhs, Pi.add_apply, Sum.elim_inl, Sum.elim_inr, Pi.zero_apply, add_zero, hex, rangeDecompose]
  rw [t12, t22]
  have hxbe : ∀ (v : be → K), (fun i => a.xs (.inl (.inl i)) / C.hbe i - v i / C.hbe i) = (diagonal fun i => (C.hbe i)⁻¹) *ᵥ ((fun i => a.xs (.inl (.inl i))) - v) := by
    intro v; funext i
    rw [mulVec_diagonal, Pi.sub_apply]; field_simp
  have hxne : ∀ (v : ne → K), (fun i => a.xs (.inr (.inl i)) / C.hne i - v i / C.hne i) = (diagonal fun i => (C.hne i)⁻¹) *ᵥ ((fun i => a.xs (.inr (.inl i))) - v) := by
    intro v; funext i
    rw [mulVec_diagonal, Pi.sub_apply]; field_simp
  have hae : (fun i => a.xs (.inl (.inl i)) / C.hbe i) = (diagonal fun i => (C.hbe i)⁻¹) *ᵥ (fun i => a.xs (.inl (.inl i))) := by
    funext i; rw [mulVec_diagonal]; field_simp
  have hane : (fun i => a.xs (.inr (.inl i)) / C.hne i) = (diagonal fun i => (C.hne i)⁻¹) *ᵥ (fun i => a.xs (.inr (.inl i))) := by
    funext i; rw [mulVec_diagonal]; field_simp
  have h1 := hxbe (C.Hbep *ᵥ (fun q => r (.inl q)) + fun i => r (.inr (.inr (.inl i))))
  have h2 := hxne (C.Hnep *ᵥ (fun q => r (.inl q)) + C.Sbeneᵀ *ᵥ (fun i => r (.inr (.inr (.inl i)))) +
    C.Sbineᵀ *ᵥ ((fun i => a.xs (Sum.inl (Sum.inr i))) - C.Hbip *ᵥ (fun q => r (.inl q)) - diagonal C.hbi *ᵥ fun i => r (.inr (.inl i))))
  simp only [Pi.add_apply] at h1 h2
  rw [h1, h2, hae, hane]
  have cb : ∀ v : be → K, diagonal C.hbe *ᵥ (diagonal fun i => (C.hbe i)⁻¹) *ᵥ v = v := by
    intro v; funext i; rw [mulVec_diagonal, mulVec_diagonal, mul_inv_cancel_left₀ (hb i)]
  have cn : ∀ v : ne → K, diagonal C.hne *ᵥ (diagonal fun i => (C.hne i)⁻¹) *ᵥ v = v := by
    intro v; funext i; rw [mulVec_diagonal, mulVec_diagonal, mul_inv_cancel_left₀ (hn i)]
  generalize (fun q => r (.inl q)) = p
  generalize (fun i => r (.inr (.inl i))) = xbi
  generalize (fun i => r (.inr (.inr (.inl i)))) = wbe
  generalize (fun i => r (.inr (.inr (.inr i)))) = xni
  eta_reduce
  constructor
  · rintro ⟨-, -, -, e4, e5, e6, e7⟩
    simp only [mulVec_sub, mulVec_add, ← mulVec_mulVec] at e4 e5 e6 e7 ⊢
    refine ⟨?_, ?_, ?_, ?_⟩
    · funext i
      have := congrFun e5 i
      simp only [Pi.add_apply, Pi.sub_apply, Pi.neg_apply, Pi.mul_apply, Pi.ofNat_apply] at this ⊢
      linear_combination this
    · funext i
      have := congrFun e7 i
      simp only [Pi.add_apply, Pi.sub_apply, Pi.neg_apply, Pi.mul_apply, Pi.ofNat_apply] at this ⊢
      linear_combination this
    · funext i
      have := congrFun e6 i
      simp only [Pi.add_apply, Pi.sub_apply, Pi.neg_apply, Pi.mul_apply, Pi.ofNat_apply] at this ⊢
      linear_combination this
    · funext i
      have := congrFun e4 i
      simp only [Pi.add_apply, Pi.sub_apply, Pi.neg_apply, Pi.mul_apply, Pi.ofNat_apply] at this ⊢
      linear_combination this
  · rintro ⟨e5, e7, e6, e4⟩
    constructor
    · rw [cb]; ring
    · ring
    · rw [cn]; ring
    · simp only [mulVec_sub, mulVec_add, ← mulVec_mulVec] at e4 ⊢
      funext i
      have := congrFun e4 i
      simp only [Pi.add_apply, Pi.sub_apply, Pi.neg_apply, Pi.mul_apply, Pi.ofNat_apply] at this ⊢
      linear_combination this
    · simp only [mulVec_sub, mulVec_add, ← mulVec_mulVec] at e5 ⊢
      funext i
      have := congrFun e5 i
      simp only [Pi.add_apply, Pi.sub_apply, Pi.neg_apply, Pi.mul_apply, Pi.ofNat_apply] at this ⊢
      linear_combination this
    · simp only [mulVec_sub, mulVec_add, ← mulVec_mulVec] at e6 ⊢
      funext i
      have := congrFun e6 i
      simp only [Pi.add_apply, Pi.sub_apply, Pi.neg_apply, Pi.mul_apply, Pi.ofNat_apply] at this ⊢
      linear_combination this
    · simp only [mulVec_sub, mulVec_add, ← mulVec_mulVec] at e7 ⊢
      funext i
      have := congrFun e7 i
      simp only [Pi.add_apply, Pi.sub_apply, Pi.neg_apply, Pi.mul_apply, Pi.ofNat_apply] at this ⊢
      linear_combination this

/-- **C24** If the inner solver solves the reduced system, `Hss` is diagonal and the explicit pivots are non-zero, then the range-space method solves the canonical system exactly when the
    multipliers `wbe` it returns satisfy `2*(Hbebe⁻¹ + Sbene*Hnene⁻¹*Sbeneᵀ)*wbe = 0`: block `M33` is assembled with the wrong sign (LinearSolverRangespace.cpp:189). -/
theorem rangespace_solves_iff (inner : Inner K (RangeT np be bi ni)) (C : Canon K nx np nw be bi ne ni u) (hd : HssDiag C) (hb : ∀ i, C.hbe i ≠ 0) (hn : ∀ i, C.hne i ≠ 0)
    (a : CVec K np be bi ne ni)
    (hin : (rangeDecompose C).2 *ᵥ inner (rangeDecompose C).2 (rangeRhs C (rangeDecompose C).1 a) = rangeRhs C (rangeDecompose C).1 a) :
    SolvesCanonical C a (rangeSolve inner C a) ↔
      ∀ i, 2 * ((C.hbe i)⁻¹ * (rangeSolve inner C a).wbs (.inl i) + ∑ k, C.Sbene i k * ((C.hne k)⁻¹ * ∑ b, C.Sbene b k * (rangeSolve inner C a).wbs (.inl b))) = 0 := by
  refine (range_key C hd hb hn a (inner (rangeDecompose C).2 (rangeRhs C (rangeDecompose C).1 a))).trans ?_
  rw [hin]
  constructor
  · intro h i
    have := congrFun h (.inr (.inr (.inl i)))
    simp only [Pi.add_apply, Sum.elim_inr, Sum.elim_inl] at this
    exact left_eq_add.1 this
  · intro h
    funext s
    rcases s with q | b | b | b
    · simp
    · simp
    · simp only [Pi.add_apply, Sum.elim_inr, Sum.elim_inl]
      exact left_eq_add.2 (h b)
    · simp

/-- **C24, part**: without explicit basic variables (`nbe = 0`) the range-space method solves the canonical system exactly when the inner solver solves the reduced one.
    Missing: `nbe > 0`, where the claim is false (`rangespace_wrong`). -/
theorem rangespace_solves_partial [IsEmpty be] (inner : Inner K (RangeT np be bi ni)) (C : Canon K nx np nw be bi ne ni u) (hd : HssDiag C) (hn : ∀ i, C.hne i ≠ 0)
    (a : CVec K np be bi ne ni) :
    SolvesCanonical C a (rangeSolve inner C a) ↔
      (rangeDecompose C).2 *ᵥ inner (rangeDecompose C).2 (rangeRhs C (rangeDecompose C).1 a) = rangeRhs C (rangeDecompose C).1 a := by
  refine (range_key C hd (fun i => isEmptyElim i) hn a (inner (rangeDecompose C).2 (rangeRhs C (rangeDecompose C).1 a))).trans ?_
  have : (Sum.elim (0 : Fin np → K) (Sum.elim (0 : bi → K) (Sum.elim (rangeExtra C fun i => inner (rangeDecompose C).2 (rangeRhs C (rangeDecompose C).1 a) (.inr (.inr (.inl i)))) (0 : ni → K)))) = 0 := by
    funext s
    rcases s with q | b | b | b
    · rfl
    · rfl
    · exact isEmptyElim b
    · rfl
  rw [this, add_zero]

/-- The unknowns of the reduced system of the range-space method. -/
def CVec.rangePack (v : CVec K np be bi ne ni) : RangeT np be bi ni → K :=
  Sum.elim v.p (Sum.elim (fun i => v.xs (.inl (.inr i))) (Sum.elim (fun i => v.wbs (.inl i)) (fun i => v.xs (.inr (.inr i)))))

theorem rangeRecover_pack (C : Canon K nx np nw be bi ne ni u) (hd : HssDiag C) (hb : ∀ i, C.hbe i ≠ 0) (hn : ∀ i, C.hne i ≠ 0) (a v : CVec K np be bi ne ni) (h : SolvesCanonical C a v) :
    rangeRecover C a v.rangePack = v := by
  obtain ⟨e1, e2, e3, -, -, -, -⟩ := (diag_iff C hd a v).2 h
  have hw : ((fun i => a.xs (.inl (.inr i))) - C.Hbip *ᵥ v.p - diagonal C.hbi *ᵥ fun i => v.xs (.inl (.inr i))) = fun i => v.wbs (.inr i) := by
    rw [← e2]; ring
  ext s
  · rcases s with (s | s) | (s | s)
    · have := congrFun e1 s
      simp only [Pi.add_apply, mulVec_diagonal] at this
      simp only [rangeRecover, CVec.rangePack, Sum.elim_inl, Sum.elim_inr]
      rw [← this]
      have := hb s
      field_simp
      eta_reduce
      ring
    · rfl
    · have := congrFun e3 s
      simp only [Pi.add_apply, mulVec_diagonal] at this
      simp only [rangeRecover, CVec.rangePack, Sum.elim_inl, Sum.elim_inr]
      eta_reduce
      rw [hw, ← this]
      have := hn s
      field_simp
      ring
    · rfl
  · rfl
  · rcases s with s | s
    · rfl
    · exact congrFun hw s

/-- **C24, part**: no solution is lost without explicit basic variables, so the reduced matrix is non-singular exactly when the canonical system is. -/
theorem rangespace_injective_partial [IsEmpty be] (C : Canon K nx np nw be bi ne ni u) (hd : HssDiag C) (hn : ∀ i, C.hne i ≠ 0) :
    (∀ r, (rangeDecompose C).2 *ᵥ r = 0 → r = 0) ↔ ∀ v, SolvesCanonical C ⟨0, 0, 0⟩ v → v = ⟨0, 0, 0⟩ := by
  have hz : rangeRhs C (rangeDecompose C).1 (⟨0, 0, 0⟩ : CVec K np be bi ne ni) = 0 := by
    funext r
    rcases r with b | k | q | b <;> simp [rangeRhs, mulVec, dotProduct]
  have key : ∀ r, SolvesCanonical C ⟨0, 0, 0⟩ (rangeRecover C ⟨0, 0, 0⟩ r) ↔ (rangeDecompose C).2 *ᵥ r = 0 := by
    intro r
    have := rangespace_solves_partial (fun _ _ => r) C hd hn ⟨0, 0, 0⟩
    rw [hz] at this
    exact this
  constructor
  · intro h v hv
    have hp := rangeRecover_pack C hd (fun i => isEmptyElim i) hn _ v hv
    have h0 := h v.rangePack ((key _).1 (by rwa [hp]))
    rw [← hp, h0]
    ext s
    · rcases s with (s | s) | (s | s) <;> simp [rangeRecover, mulVec, dotProduct]
    · simp [rangeRecover]
    · rcases s with s | s <;> simp [rangeRecover, mulVec, dotProduct]
  · intro h r hr
    have := h _ ((key r).2 hr)
    funext s
    rcases s with q | b | b | k
    · exact congrFun (congrArg CVec.p this) q
    · exact congrFun (congrArg CVec.xs this) (.inl (.inr b))
    · exact isEmptyElim b
    · exact congrFun (congrArg CVec.xs this) (.inr (.inr k))

/-- **C24** A zero pivot of an explicit non-basic variable (possible when its columns of `S` and `V` are zero) occurs only in singular systems. -/
theorem explicit_zero_pivot_singular (C : Canon K nx np nw be bi ne ni u) (hd : HssDiag C) (k : ne) (h0 : C.hne k = 0) (hS : ∀ b, C.Sbsns b (.inl k) = 0)
    (hV : ∀ q, C.Vps q (.inr (.inl k)) = 0) : ∃ v, SolvesCanonical C ⟨0, 0, 0⟩ v ∧ v ≠ ⟨0, 0, 0⟩ := by
  refine ⟨⟨Pi.single (.inr (.inl k)) 1, 0, 0⟩, ⟨?_, ?_, ?_, ?_⟩, ?_⟩
  · intro b; simp [Pi.single_apply, hd (.inl b) (.inr (.inl k)) (by simp)]
  · intro l
    by_cases h : l = .inl k
    · subst h; simp [Pi.single_apply]; exact h0
    · simp [Pi.single_apply]; exact hd _ _ (by simpa using h)
  · intro q; simp [Pi.single_apply, hV]
  · intro b; simp [Pi.single_apply, hS]
  · intro h
    have := congrFun (congrArg CVec.xs h) (.inr (.inl k))
    simp at this

/-- One variable `x` with `Hxx = 2`, one constraint `x = b`: the variable is basic and explicit. -/
def exRange : Canon ℚ 1 0 1 (Fin 1) (Fin 0) (Fin 0) (Fin 0) (Fin 0) where
  Hss := fun _ _ => 2
  Hsp := 0
  Vps := 0
  Vpp := 0
  Sbsns := 0
  Sbsp := 0
  Rbs := fun _ _ => 1
  jb := fun _ => 0
  jn := isEmptyElim
  js := fun _ => 0
  ju := isEmptyElim

def exRangeA : CVec ℚ 0 (Fin 1) (Fin 0) (Fin 0) (Fin 0) := ⟨fun _ => 1, fun _ => 0, fun _ => 1⟩

/-- **C24, negation** `minimise x² - x subject to x = 1` : the canonical system `2 x + w = 1`, `x = 1` has the solution `x = 1`, `w = -1`; `Hss` is diagonal, the pivots are non-zero and the
    reduced matrix is non-singular, but for every inner solver that solves the reduced system the range-space method returns `x = 0`, `w = 1`. -/
theorem rangespace_wrong : HssDiag exRange ∧ (∀ i, exRange.hbe i ≠ 0) ∧ (∀ r, (rangeDecompose exRange).2 *ᵥ r = 0 → r = 0) ∧
    SolvesCanonical exRange exRangeA ⟨fun _ => 1, fun _ => 0, fun _ => -1⟩ ∧
    ∀ inner : Inner ℚ (RangeT 0 (Fin 1) (Fin 0) (Fin 0)),
      (rangeDecompose exRange).2 *ᵥ inner (rangeDecompose exRange).2 (rangeRhs exRange (rangeDecompose exRange).1 exRangeA) = rangeRhs exRange (rangeDecompose exRange).1 exRangeA →
      (rangeSolve inner exRange exRangeA).xs (.inl (.inl 0)) = 0 ∧ (rangeSolve inner exRange exRangeA).wbs (.inl 0) = 1 ∧ ¬ SolvesCanonical exRange exRangeA (rangeSolve inner exRange exRangeA) := by
  have hd : HssDiag exRange := by
    rintro ((s | s) | (s | s)) ((t | t) | (t | t)) h <;> first | exact isEmptyElim s | exact isEmptyElim t | skip
    exact absurd (by rw [Subsingleton.elim s t]) h
  have h2 : ∀ i, exRange.hbe i = 2 := fun i => rfl
  have row : ∀ r s : RangeT 0 (Fin 1) (Fin 0) (Fin 0) → ℚ, (rangeDecompose exRange).2 *ᵥ r = s → (2 : ℚ)⁻¹ * r (.inr (.inr (.inl 0))) = s (.inr (.inr (.inl 0))) := by
    intro r s h
    have := ((range_blocks exRange r s).1 h).2.2.1
    have := congrFun this 0
    simp [mulVec_diagonal, mulVec, dotProduct, h2, diagonal_apply] at this
    simpa using this
  have hb0 : ∀ i, exRange.hbe i ≠ 0 := fun i => by rw [h2]; norm_num
  refine ⟨hd, hb0, ?_, ?_, ?_⟩
  · intro r hr
    have := row r 0 hr
    funext s
    rcases s with s | s | s | s
    · exact isEmptyElim s
    · exact isEmptyElim s
    · rw [Subsingleton.elim s 0]; simpa using this
    · exact isEmptyElim s
  · constructor
    · rintro (b | b)
      · simp [exRange, exRangeA, Fintype.sum_sum_type]; norm_num
      · exact isEmptyElim b
    · rintro (b | b) <;> exact isEmptyElim b
    · intro q; exact isEmptyElim q
    · rintro (b | b)
      · simp [exRange, exRangeA, Fintype.sum_sum_type]
      · exact isEmptyElim b
  · intro inner hin
    have hr := row _ _ hin
    have hrhs : rangeRhs exRange (rangeDecompose exRange).1 exRangeA (.inr (.inr (.inl 0))) = 1 / 2 := by
      simp [rangeRhs, exRangeA, h2, mulVec, dotProduct]; norm_num
    rw [hrhs] at hr
    have hw : (rangeSolve inner exRange exRangeA).wbs (.inl 0) = 1 := by
      show inner (rangeDecompose exRange).2 (rangeRhs exRange (rangeDecompose exRange).1 exRangeA) (.inr (.inr (.inl 0))) = 1
      linarith
    have hx : (rangeSolve inner exRange exRangeA).xs (.inl (.inl 0)) = 0 := by
      have : (rangeSolve inner exRange exRangeA).xs (.inl (.inl 0)) = 1 / exRange.hbe 0 - ((exRange.Hbep *ᵥ fun q => isEmptyElim q) 0 + (rangeSolve inner exRange exRangeA).wbs (.inl 0)) / exRange.hbe 0 := by
        simp [rangeSolve, rangeRecover, exRangeA, mulVec, dotProduct]
      rw [this, hw, h2]
      simp [mulVec, dotProduct]
    refine ⟨hx, hw, ?_⟩
    intro hs
    have := hs.feas (.inl 0)
    rw [hx] at this
    simp [exRange, exRangeA] at this

/-- Two basic variables (one of each kind), one explicit non-basic variable, one parameter. -/
def exCanon : Canon ℚ 3 1 2 (Fin 1) (Fin 1) (Fin 1) (Fin 0) (Fin 0) where
  Hss := fun s t => match s, t with
    | .inl (.inl _), .inl (.inl _) => 3
    | .inl (.inr _), .inl (.inr _) => 1/2
    | .inr _, .inr _ => 4
    | .inl (.inl _), .inl (.inr _) => 1
    | .inl (.inr _), .inr _ => 2
    | _, _ => 0
  Hsp := fun s _ => match s with
    | .inl (.inl _) => 1
    | .inl (.inr _) => 2
    | .inr _ => 3
  Vps := fun _ s => match s with
    | .inl (.inl _) => 2
    | .inl (.inr _) => 1
    | .inr _ => 1
  Vpp := fun _ _ => 5
  Sbsns := fun b _ => match b with
    | .inl _ => 1
    | .inr _ => 2
  Sbsp := fun b _ => match b with
    | .inl _ => 1
    | .inr _ => 3
  Rbs := fun b l => match b with
    | .inl _ => if l = 0 then 1 else 0
    | .inr _ => if l = 1 then 1 else 0
  jb := fun b => match b with
    | .inl _ => 0
    | .inr _ => 1
  jn := fun _ => 2
  js := fun s => match s with
    | .inl (.inl _) => 0
    | .inl (.inr _) => 1
    | .inr _ => 2
  ju := isEmptyElim

def exA : CVec ℚ 1 (Fin 1) (Fin 1) (Fin 1) (Fin 0) :=
  ⟨fun s => match s with
    | .inl (.inl _) => 8
    | .inl (.inr _) => 14
    | .inr _ => 25, fun _ => 17, fun b => match b with
    | .inl _ => 6
    | .inr _ => 14⟩

def exV : CVec ℚ 1 (Fin 1) (Fin 1) (Fin 1) (Fin 0) :=
  ⟨fun s => match s with
    | .inl (.inl _) => 1
    | .inl (.inr _) => 2
    | .inr _ => 3, fun _ => 2, fun b => match b with
    | .inl _ => 1
    | .inr _ => 3⟩

/-- Non-vacuity of C22 and C23: a system with all kinds of couplings and its solution, hence inner solvers that solve the assembled systems. -/
example : SolvesCanonical exCanon exA exV ∧ (∃ inner : Inner ℚ (FullT 1 (Fin 1) (Fin 1) (Fin 1) (Fin 0)), fullMatrix exCanon *ᵥ inner (fullMatrix exCanon) (fullRhs exA) = fullRhs exA) ∧
    ∃ inner : Inner ℚ (NullT 1 (Fin 1) (Fin 1) (Fin 0)), nullMatrix exCanon (nullDecompose exCanon) *ᵥ inner (nullMatrix exCanon (nullDecompose exCanon)) (nullRhs exCanon (nullDecompose exCanon) exA).2 =
      (nullRhs exCanon (nullDecompose exCanon) exA).2 := by
  have h : SolvesCanonical exCanon exA exV := by constructor <;> decide +kernel
  refine ⟨h, ⟨fun _ _ => exV.pack, (full_iff _ _ _).2 h⟩, ?_⟩
  obtain ⟨r, hr, -⟩ := nullspace_complete exCanon exA exV h
  exact ⟨fun _ _ => r, hr⟩

end Optima
