import Verif.Props.SolverQuadratic

/-!
# C58: constraints with dependent rows, infeasible problems

The solver keeps, of the linear constraints, only those picked by the rank-revealing factorisation of `Ax`; the others are never looked at.
-/

set_option linter.unusedSectionVars false

namespace Optima

open Matrix

namespace Ech

open Tri

variable {K : Type*} [Field K] [LinearOrder K] [IsStrictOrderedRing K] {m n nb nn nl nx np ny nz : ℕ}

/-- The vectors annihilated by the top rows of `R` are those with property `P`. -/
def KernelIs (R : Matrix (Fin nb ⊕ Fin nl) (Fin m) K) (P : (Fin m → K) → Prop) : Prop := ∀ y : Fin m → K, (∀ i, ∑ r, R (Sum.inl i) r * y r = 0) ↔ P y

/-- After `compute`: the vectors that vanish on the pivot rows. -/
theorem compute_kernel {A : Matrix (Fin m) (Fin n) K} (lu : FullPivLU A nb nn nl) : KernelIs (compute lu).R fun y => ∀ i, y (lu.p (Sum.inl i)) = 0 := by
  have hL : IsUnit lu.Lbb.det := by rw [det_lower lu.unit_diag lu.lower]; exact isUnit_one
  have hU := det_upper lu.pivots lu.upper
  intro y
  have e : (fun i => y (lu.p (Sum.inl i))) = (permMat (K := K) lu.p).submatrix Sum.inl id *ᵥ y := by
    ext i; simp [mulVec, dotProduct, permMat]
  have e2 : ∀ i, ∑ r, (compute lu).R (Sum.inl i) r * y r = ((lu.Ubb⁻¹ * lu.Lbb⁻¹) *ᵥ (fun i => y (lu.p (Sum.inl i)))) i := by
    intro i
    rw [e, mulVec_mulVec]
    simp only [mulVec, dotProduct, compute_R_inl]
  constructor
  · intro hy
    have h2 : (lu.Ubb⁻¹ * lu.Lbb⁻¹) *ᵥ (fun i => y (lu.p (Sum.inl i))) = 0 := funext fun i => (e2 i).symm.trans (hy i)
    have h4 := congrArg (fun v => (lu.Lbb * lu.Ubb) *ᵥ v) h2
    simp only [mulVec_zero] at h4
    rw [mulVec_mulVec, Matrix.mul_assoc, ← Matrix.mul_assoc lu.Ubb, mul_nonsing_inv _ hU, Matrix.one_mul, mul_nonsing_inv _ hL, one_mulVec] at h4
    exact fun i => congrFun h4 i
  · intro hy i
    rw [e2, show (fun i => y (lu.p (Sum.inl i))) = 0 from funext hy, mulVec_zero]
    rfl

theorem swap_kernel {e : State K m n nb nn nl} {P : (Fin m → K) → Prop} (h : KernelIs e.R P) (ib : Fin nb) (jn : Fin nn) (hp : e.S ib jn ≠ 0) : KernelIs (swap e ib jn).R P := by
  intro y
  rw [← h y]
  have e1 : ∀ i, ∑ r, (swap e ib jn).R (Sum.inl i) r * y r =
      if i = ib then (∑ r, e.R (Sum.inl ib) r * y r) * (1 / e.S ib jn) else ∑ r, e.R (Sum.inl i) r * y r - e.S i jn * ((∑ r, e.R (Sum.inl ib) r * y r) * (1 / e.S ib jn)) := by
    intro i
    unfold swap
    dsimp only
    split_ifs with hi
    · rw [Finset.sum_mul]; exact Finset.sum_congr rfl fun r _ => by ring
    · rw [Finset.sum_mul, Finset.mul_sum, ← Finset.sum_sub_distrib]; exact Finset.sum_congr rfl fun r _ => by ring
  constructor
  · intro hy
    have hb : ∑ r, e.R (Sum.inl ib) r * y r = 0 := by
      have := hy ib
      rw [e1, if_pos rfl] at this
      exact (mul_eq_zero.1 this).resolve_right (one_div_ne_zero hp)
    intro i
    by_cases hi : i = ib
    · rw [hi]; exact hb
    · have := hy i
      rw [e1, if_neg hi, hb] at this
      simpa using this
  · intro hy i
    rw [e1]
    simp [hy]

theorem reorder_kernel {e : State K m n nb nn nl} {P : (Fin m → K) → Prop} (h : KernelIs e.R P) {Kb : Fin nb → Fin nb} {Kn : Fin nn → Fin nn} (hb : Function.Surjective Kb) : KernelIs (reorder e Kb Kn).R P := by
  intro y
  rw [← h y]
  constructor
  · intro hy i
    obtain ⟨k, rfl⟩ := hb i
    exact hy k
  · intro hy i
    exact hy (Kb i)

theorem priority_kernel (sort : SortImpl K) {A : Matrix (Fin m) (Fin n) K} {thr : K} (hthr : 0 ≤ thr) (w : Fin n → K) {e : State K m n nb nn nl} (hi : Inv A e) {P : (Fin m → K) → Prop} (h : KernelIs e.R P) :
    KernelIs (updateWithPriorityWeights sort thr e w).R P := by
  have h1 := loop_inv hthr w hi
  have h2 : KernelIs ((List.finRange nb).foldl (priorityStep thr w) e).R P := by
    refine foldl_finRange_inv (fun _ (e : State K m n nb nn nl) => KernelIs e.R P) h fun _ e i h => ?_
    rcases priorityStep_cases thr w e i with ⟨h1, _⟩ | ⟨j, h1, h2, _, _⟩
    · rw [h1]; exact h
    · rw [h1]
      exact swap_kernel h i j fun h0 => by rw [h0, abs_zero] at h2; exact absurd h2 (not_lt.2 hthr)
  have hb := sort_bij sort (fun l => w (((List.finRange nb).foldl (priorityStep thr w) e).Q (Sum.inl l))) h1.kb
  exact reorder_kernel h2 (Kn := id) hb.2

/-- The rows of `Ax` picked as pivots by the factorisation in the constructor of the echelonizer. -/
def keptRow (o : LUOracle K) (Ax : Matrix (Fin ny) (Fin nx) K) (i : Fin (o ⟨ny, nx, Ax⟩).nb) : Fin ny := (o ⟨ny, nx, Ax⟩).lu.p (Sum.inl i)

/-- Without non-linear constraints, the rows `Rb` of the echelon form never see the rows of `Ax` that are not kept, whatever updates have been made. -/
theorem echelonW_kernel {debug : Bool} {o : LUOracle K} {sort : SortImpl K} {thr eps : K} (hthr : 0 ≤ thr) (hz : nz = 0) {Ax : Matrix (Fin ny) (Fin nx) K} {Ap : Matrix (Fin ny) (Fin np) K}
    {s : WState K nx np ny nz Ax} (h : WReach debug o sort thr eps Ax Ap s) {q : RWQ K nx np (ny + nz)} (hq : s.rwq = some q) (y : Fin (ny + nz) → K) :
    (∀ i, ∑ r, q.Rb i r * y r = 0) ↔ ∀ i, y (Fin.castAdd nz (keptRow o Ax i)) = 0 := by
  subst hz
  have key : ∀ s, WReach debug o sort thr eps Ax Ap s → KernelIs s.ext.eA.e.R (fun y => ∀ i, y (keptRow o Ax i) = 0) ∧
      ∀ q, s.rwq = some q → ∀ y : Fin (ny + 0) → K, (∀ i, ∑ r, q.Rb i r * y r = 0) ↔ ∀ i, y (Fin.castAdd 0 (keptRow o Ax i)) = 0 := by
    intro s hs
    induction hs with
    | init mem => exact ⟨compute_kernel _, fun q hq => by cases hq⟩
    | update s s' Jx Jp w hs hu ih =>
      have hE := extReach_inv hthr (wReach_ext hs).1
      have hk := priority_kernel sort hthr w hE.a ih.1
      unfold wUpdate at hu
      split_ifs at hu
      dsimp only at hu
      split at hu
      · rename_i q hq
        cases hu
        have hx : extUpdate o sort thr s.ext Jx w = ⟨s.ext.eA.priority sort thr w, s.ext.eJ, ⟨ny, nx, Ax⟩, (s.ext.eA.priority sort thr w).form⟩ := by
          unfold extUpdate; dsimp only; rw [if_pos (Or.inl rfl)]
        refine ⟨?_, ?_⟩
        · dsimp only
          rw [hx]
          exact hk
        · intro q' hq' y
          cases hq'
          have : ∀ (E : ExtState Ax) (hn : E.W.2.1 = nx), E = ⟨s.ext.eA.priority sort thr w, s.ext.eJ, ⟨ny, nx, Ax⟩, (s.ext.eA.priority sort thr w).form⟩ →
              assembleRWQ (ny := ny) (nz := 0) eps E.form hn ((setJ s.W Jx Jp).submatrix id Sum.inr) = some q → ((∀ i, ∑ r, q.Rb i r * y r = 0) ↔ ∀ i, y (Fin.castAdd 0 (keptRow o Ax i)) = 0) := by
            intro E hn hE hq
            subst hE
            unfold assembleRWQ at hq
            rw [dif_pos (show ny = ny + 0 from rfl)] at hq
            cases hq
            exact hk y
          exact this _ _ hx hq
      · cases hu
  exact (key s h).2 q hq y

end Ech

section
variable {K : Type*} [Field K] [LinearOrder K] [IsStrictOrderedRing K] {τ : Type*} {nx np ny nz : ℕ}

/-- As `canonical_injective`, for matrices whose constraints may be dependent: only `x` and `p` have to be determined. -/
theorem canonical_injective_dep {nw : ℕ} {M : MasterMatrix K nx np nw} {c : CanonPack K nx np nw} (h : CanonSpec M c) (hE : EchelonOK M) (hR : RowsSpanned M)
    (hM : ∀ u, SolvesMaster M ⟨0, 0, 0⟩ u → u.x = 0 ∧ u.p = 0) (v) (hv : SolvesCanonical c.mat ⟨0, 0, 0⟩ v) : v = ⟨0, 0, 0⟩ := by
  let I : Inners K np c.nbe c.nbi c.nne c.nni := ⟨fun _ _ => v.pack, fun _ _ => 0, fun _ _ => 0⟩
  have hrhs : ({ xs := (⟨0, 0, 0⟩ : MVec K nx np nw).x ∘ c.mat.js, p := (⟨0, 0, 0⟩ : MVec K nx np nw).p, wbs := c.mat.Rbs *ᵥ (⟨0, 0, 0⟩ : MVec K nx np nw).w } :
      CVec K np (Fin c.nbe) (Fin c.nbi) (Fin c.nne) (Fin c.nni)) = ⟨0, 0, 0⟩ := by
    ext s
    · rfl
    · rfl
    · simp
  have hsol : solveCanonical .fullspace I c.mat ⟨0, 0, 0⟩ = v := by
    ext s
    · rcases s with s | s <;> rfl
    · rfl
    · rfl
  have hm := canonical_to_master h hE hR ⟨0, 0, 0⟩ ⟨0, 0, by simp⟩ .fullspace I ⟨0, 0, 0⟩ (by rw [hrhs, hsol]; exact hv)
  obtain ⟨h0x, h0p⟩ := hM _ hm
  have hx := (linSolveCanonical_x .fullspace I c.mat h.split ⟨0, 0, 0⟩ (0 : Fin c.nnu → K) ⟨0, 0, 0⟩).1
  have hl : linSolve .fullspace I c.mat ⟨0, 0, 0⟩ ⟨0, 0, 0⟩ = linSolveCanonical .fullspace I c.mat ⟨0, 0, 0⟩ (0 : Fin c.nnu → K) (⟨0, 0, 0⟩ : MVec K nx np nw) := by
    unfold linSolve; rw [hrhs]; rfl
  have hst := hm.stable
  rw [h0x, h0p] at hst
  rw [hl] at h0x h0p hst
  rw [h0x, hsol] at hx
  have hw : (linSolveCanonical .fullspace I c.mat ⟨0, 0, 0⟩ (0 : Fin c.nnu → K) (⟨0, 0, 0⟩ : MVec K nx np nw)).w = c.mat.Rbsᵀ *ᵥ v.wbs := by
    simp [linSolveCanonical, hsol]
  rw [hw] at hst
  ext s
  · exact (hx s).symm
  · simp only [linSolveCanonical, hsol] at h0p
    exact congrFun h0p s
  · obtain ⟨eb, -, -⟩ := canonical_echelon h hE.b hE.n hE.p
    have e1 : (M.Wx.submatrix id (c.mat.js ∘ Sum.inl))ᵀ *ᵥ c.mat.Rbsᵀ *ᵥ v.wbs = v.wbs := by
      rw [mulVec_mulVec, ← transpose_mul, eb, transpose_one, one_mulVec]
    have e2 : (M.Wx.submatrix id (c.mat.js ∘ Sum.inl))ᵀ *ᵥ c.mat.Rbsᵀ *ᵥ v.wbs = 0 := by
      funext b
      have := hst (c.mat.js (.inl b)) ((stable_iff h _).2 ⟨_, rfl⟩)
      simpa [mulVec, dotProduct] using this
    rw [← e1, e2]

theorem luInners_ok_dep {cfg : Config K nx np ny nz τ} (hlu : LUInners cfg) (hm : cfg.method ≠ .rangespace) {M : MasterMatrix K nx np (ny + nz)} {c : CanonPack K nx np (ny + nz)} (h : CanonSpec M c)
    (hE : EchelonOK M) (hR : RowsSpanned M) (hM : ∀ u, SolvesMaster M ⟨0, 0, 0⟩ u → u.x = 0 ∧ u.p = 0) (a) : InnerOK cfg.method c (cfg.inners c) a := by
  obtain ⟨n1, n2, n3, e1, e2, e3, F, rank0, e⟩ := hlu c
  have hinj := canonical_injective_dep h hE hR hM
  rw [e]
  revert hm
  generalize cfg.method = m
  intro hm
  cases m with
  | fullspace => exact luInner_exact e1 (F n1) rank0 _ _ ((fullspace_injective c.mat).2 hinj)
  | nullspace => exact luInner_exact e2 (F n2) rank0 _ _ ((nullspace_injective c.mat).2 hinj)
  | rangespace => exact absurd rfl hm

/-- The basic columns span `W` if they span the columns of the parameters. -/
theorem rf_rowsSpanned {env : Env K} (ho : ∀ M, (env.o M).lu.Z = 0) {pb : MProblem K nx np ny nz} {ev u} {rf : RFState K nx np ny nz pb.Ax} (h : RFSpec env pb ev u rf)
    (hspan : ∀ q, ∃ y : Fin nx → K, ∀ l, rf.M.Wp l q = ∑ j, rf.M.Wx l j * y j) : RowsSpanned rf.M := by
  have hx : ∀ l j, rf.M.Wx l j = ∑ b, rf.M.Wx l (rf.M.RWQ.jb b) * ∑ r, rf.M.RWQ.Rb b r * rf.M.Wx r j := by
    intro l j
    obtain ⟨v, rfl⟩ := h.perm.2 j
    rcases v with b | k
    · have e := fun b' => congrFun (congrFun h.b b') b
      simp only [mul_apply, submatrix_apply, id] at e
      simp only [Sum.elim_inl, e, one_apply, mul_ite, mul_one, mul_zero]
      simp
    · have e := fun b' => congrFun (congrFun h.n b') k
      simp only [mul_apply, submatrix_apply, id] at e
      simp only [Sum.elim_inr, e]
      exact h.spans ho l k
  refine ⟨hx, fun l q => ?_⟩
  obtain ⟨y, hy⟩ := hspan q
  simp only [hy]
  calc ∑ j, rf.M.Wx l j * y j = ∑ j, ∑ b, ∑ r, rf.M.Wx l (rf.M.RWQ.jb b) * (rf.M.RWQ.Rb b r * (rf.M.Wx r j * y j)) := by
        refine Finset.sum_congr rfl fun j _ => ?_
        rw [hx l j, Finset.sum_mul]
        refine Finset.sum_congr rfl fun b _ => ?_
        rw [Finset.mul_sum, Finset.sum_mul]
        exact Finset.sum_congr rfl fun r _ => by ring
    _ = _ := by
        rw [Finset.sum_comm]
        refine Finset.sum_congr rfl fun b _ => ?_
        rw [Finset.sum_comm, Finset.mul_sum]
        refine Finset.sum_congr rfl fun r _ => ?_
        rw [Finset.mul_sum, Finset.mul_sum]

/-- The projection of a right-hand side of the constraints on the range of the basic columns. -/
def projectRhs {nw : ℕ} (M : MasterMatrix K nx np nw) (a : MVec K nx np nw) : MVec K nx np nw :=
  { a with w := fun l => ∑ b, M.Wx l (M.RWQ.jb b) * ∑ r, M.RWQ.Rb b r * a.w r }

theorem projectRhs_Rb {nw : ℕ} {M : MasterMatrix K nx np nw} (hE : EchelonOK M) (a : MVec K nx np nw) (b) : ∑ r, M.RWQ.Rb b r * (projectRhs M a).w r = ∑ r, M.RWQ.Rb b r * a.w r := by
  have e : M.RWQ.Rb *ᵥ ((M.Wx.submatrix id M.RWQ.jb) *ᵥ (M.RWQ.Rb *ᵥ a.w)) = M.RWQ.Rb *ᵥ a.w := by rw [mulVec_mulVec, hE.b, one_mulVec]
  exact congrFun e b

theorem projectRhs_consistent {nw : ℕ} {M : MasterMatrix K nx np nw} (a : MVec K nx np nw) : Consistent M (projectRhs M a) := by
  refine ⟨fun j => ∑ b, if j = M.RWQ.jb b then ∑ r, M.RWQ.Rb b r * a.w r else 0, 0, fun l => ?_⟩
  simp only [projectRhs, Pi.zero_apply, mul_zero, Finset.sum_const_zero, add_zero]
  conv_rhs => rw [Finset.sum_congr rfl fun j _ => Finset.mul_sum _ _ _, Finset.sum_comm]
  refine Finset.sum_congr rfl fun b _ => ?_
  simp only [mul_ite, mul_zero, Finset.sum_ite_eq', Finset.sum_ite_eq, Finset.mem_univ, if_true]

/-- The linear solver sees the projected right-hand side only. -/
theorem linSolve_projectRhs {nw : ℕ} {M : MasterMatrix K nx np nw} {c : CanonPack K nx np nw} (h : CanonSpec M c) (hE : EchelonOK M) (m : Method) (I : Inners K np c.nbe c.nbi c.nne c.nni) (a u0 : MVec K nx np nw) :
    linSolve m I c.mat (projectRhs M a) u0 = linSolve m I c.mat a u0 := by
  have e : c.mat.Rbs *ᵥ (projectRhs M a).w = c.mat.Rbs *ᵥ a.w := by
    obtain ⟨σ, τ, hσ, hτ, jb, jn, S, Sp, R⟩ := h.ech
    funext b
    simp only [mulVec, dotProduct, R]
    exact projectRhs_Rb hE a (σ b)
  unfold linSolve
  rw [e]
  rfl

/-- The Newton step for any right-hand side of the constraints: it solves the system with the projected right-hand side. -/
theorem newton_solves_projected {cfg : Config K nx np ny nz τ} (heps : cfg.env.eps = 0) {s s' : Parts K nx np ny nz τ cfg.pb.Ax} {uo u : MVec K nx np (ny + nz)} {ev rf} (hrf : s.rf = some rf)
    (hspec : RFSpec cfg.env cfg.pb ev uo rf) (hR : RowsSpanned rf.M) (hin : InnerOK cfg.method rf.C (cfg.inners rf.C) (projectRhs rf.M rf.res.master))
    (hm : cfg.method = .rangespace → (∀ i j, i ≠ j → ev.fxx i j = 0) ∧ rf.C.nbe = 0 ∧ ∀ k, rf.C.mat.hne k ≠ 0) (hn : cfg.newton s uo = some (s', u)) :
    ∃ du, SolvesMaster rf.M (projectRhs rf.M rf.res.master) du ∧ (∀ i, u.x i = uo.x i + du.x i) ∧ (∀ q, u.p q = uo.p q + du.p q) ∧ ∀ l, u.w l = uo.w l + du.w l := by
  unfold Config.newton at hn
  rw [hrf] at hn
  cases hn
  refine ⟨_, ?_, fun i => rfl, fun q => rfl, fun l => rfl⟩
  have hE := rf_echelon heps hspec
  have key := linearSolver_solves_partial hspec.canon hE hR (projectRhs rf.M rf.res.master) (projectRhs_consistent _) cfg.method (cfg.inners rf.C) s.du hin (by rw [hspec.Hxx]; exact hm)
  rw [linSolve_projectRhs hspec.canon hE] at key
  have e : linSolve cfg.method (cfg.inners rf.C) rf.C.mat rf.res.master s.du = linSolveCanonical cfg.method (cfg.inners rf.C) rf.C.mat rf.res.canonical 0 s.du := by
    obtain ⟨ax0, hres⟩ := hspec.res
    obtain ⟨m1, m2, m3, m4, m5, m6⟩ := residual_master cfg.env.eps hspec.canon ax0 (rfArgs cfg.pb rf.M ev uo)
    unfold linSolve
    congr 1
    · rw [hres]
      ext k
      · rw [m5]
        dsimp only [Function.comp]
        exact m1 _ ((stable_iff hspec.canon _).2 ⟨k, rfl⟩)
      · rw [m6]
        exact m3 k
      · rw [heps, residual_canonical_exact hspec.canon hE ax0 (rfArgs cfg.pb rf.M ev uo) rfl rfl k]
        rw [heps] at m4
        simp only [mulVec, dotProduct, m4]
    · rw [hres]
      funext k
      exact m2 _ ((hspec.canon.unstable _).1 ⟨k, rfl⟩)
  rw [e] at key
  exact key

/-- The first-order conditions with only the linear constraints in `rows` (no bounds, no non-linear constraints). -/
structure Affine.KktOn (A : Affine K nx np nz) (pb : MProblem K nx np ny nz) (rows : Fin ny → Prop) (u : MVec K nx np (ny + nz)) : Prop where
  grad : ∀ i, ∑ j, A.H i j * u.x j + ∑ q, A.Hp i q * u.p q + A.c i + ∑ l, pb.Ax l i * u.w (Fin.castAdd nz l) = 0
  v : ∀ q, ∑ j, A.vx q j * u.x j + ∑ q', A.vp q q' * u.p q' + A.v0 q = 0
  lin : ∀ l, rows l → ∑ j, pb.Ax l j * u.x j + ∑ q, pb.Ap l q * u.p q = pb.b l

/-- The constraints kept by the solver. -/
def Config.kept (cfg : Config K nx np ny nz τ) (l : Fin ny) : Prop := ∃ i, Ech.keptRow cfg.env.o cfg.pb.Ax i = l

/-- A Newton step satisfies the first-order conditions with the kept constraints. -/
theorem projected_newton_kkt {cfg : Config K nx np ny nz τ} (hthr : 0 ≤ cfg.env.thr) (heps : cfg.env.eps = 0) (hz : nz = 0) {A : Affine K nx np nz} {ev : Evals K nx np nz} {uo u du : MVec K nx np (ny + nz)}
    {rf : RFState K nx np ny nz cfg.pb.Ax} (h : RFSpec cfg.env cfg.pb ev uo rf) (hev : A.Returns uo.x uo.p ev) (hju : rf.M.ju = [])
    (hdu : SolvesMaster rf.M (projectRhs rf.M rf.res.master) du) (hx : ∀ i, u.x i = uo.x i + du.x i) (hp : ∀ q, u.p q = uo.p q + du.p q) (hw : ∀ l, u.w l = uo.w l + du.w l) : A.KktOn cfg.pb cfg.kept u := by
  obtain ⟨ax0, hres⟩ := h.res
  obtain ⟨m1, m2, m3, m4, m5, m6⟩ := residual_master cfg.env.eps h.canon ax0 (rfArgs cfg.pb rf.M ev uo)
  rw [← hres] at m1 m2 m3 m4 m5 m6
  have hnot : ∀ i, i ∉ rf.M.ju := by rw [hju]; simp
  have hz' : ∀ f : Fin nz → K, ∑ l, f l = 0 := fun f => by subst hz; simp
  refine ⟨fun i => ?_, fun q => ?_, ?_⟩
  · have e := hdu.stable i (hnot i)
    change _ = rf.res.master.x i at e
    rw [m1 i (hnot i)] at e
    simp only [hnot, if_false] at e
    unfold lagGrad rfArgs at e
    dsimp only at e
    rw [h.Hxx, h.Hxp, hev.fxx, hev.fxp, hev.fx, h.Wx, hev.hx] at e
    rw [Fin.sum_univ_add, hz', hz'] at e
    simp only [stack, Fin.addCases_left, Fin.addCases_right, Pi.add_apply, mulVec, dotProduct] at e
    simp only [hx, hp, hw, mul_add, Finset.sum_add_distrib]
    linear_combination e
  · have e := hdu.par q
    change _ = rf.res.master.p q at e
    rw [m3 q] at e
    simp only [hnot, if_false] at e
    change _ = - ev.v q at e
    rw [h.Vpx, h.Vpp, hev.vx, hev.vp, hev.v] at e
    simp only [Pi.add_apply, mulVec, dotProduct] at e
    simp only [hx, hp, mul_add, Finset.sum_add_distrib]
    linear_combination e
  · have hE := rf_echelon heps h
    have hk := (Ech.echelonW_kernel hthr hz h.reach h.rwq (fun l => rf.res.master.w l - (projectRhs rf.M rf.res.master).w l)).1 (fun b => by
      simp only [mul_sub, Finset.sum_sub_distrib]
      rw [projectRhs_Rb hE, sub_self])
    rintro l ⟨i, rfl⟩
    have e := hk i
    rw [← hdu.constr, m4] at e
    simp only [hnot, if_false, feasRes, Fin.addCases_left] at e
    change cfg.pb.b _ - ∑ j, rf.M.Wx (Fin.castAdd nz _) j * uo.x j - ∑ q, rf.M.Wp (Fin.castAdd nz _) q * uo.p q - _ = 0 at e
    rw [h.Wx, h.Wp] at e
    simp only [stack, Fin.addCases_left] at e
    simp only [hx, hp, mul_add, Finset.sum_add_distrib]
    linear_combination -e

/-- At a point that satisfies the first-order conditions with the kept constraints the reported error is zero, whatever echelon form the update finds. -/
theorem kkt_on_kept_error {cfg : Config K nx np ny nz τ} (hthr : 0 ≤ cfg.env.thr) (heps : cfg.env.eps = 0) (hz : nz = 0) {A : Affine K nx np nz} {ev : Evals K nx np nz} {u : MVec K nx np (ny + nz)}
    {rf : RFState K nx np ny nz cfg.pb.Ax} (h : RFSpec cfg.env cfg.pb ev u rf) (hev : A.Returns u.x u.p ev) (hk : A.KktOn cfg.pb cfg.kept u) (ew0) :
    (residualErrors rf.C.mat cfg.pb.xlower cfg.pb.xupper u.x rf.res ew0).error = 0 := by
  obtain ⟨ax0, hres⟩ := h.res
  obtain ⟨m1, m2, m3, m4, m5, m6⟩ := residual_master cfg.env.eps h.canon ax0 (rfArgs cfg.pb rf.M ev u)
  rw [← hres] at m1 m2 m3 m4 m5 m6
  have hE := rf_echelon heps h
  have hz' : ∀ f : Fin nz → K, ∑ l, f l = 0 := fun f => by subst hz; simp
  have hgrad : ∀ i, lagGrad (rfArgs cfg.pb rf.M ev u) i = 0 := by
    intro i
    have e := hk.grad i
    unfold lagGrad rfArgs
    dsimp only
    rw [hev.fx, h.Wx, hz']
    simp only [stack, Fin.addCases_left, Pi.add_apply, mulVec, dotProduct]
    linear_combination e
  have hv : ∀ q, ev.v q = 0 := by
    intro q
    rw [hev.v]
    exact hk.v q
  have hf := (Ech.echelonW_kernel hthr hz h.reach h.rwq (feasRes (rfArgs cfg.pb rf.M ev u))).2 (fun i => by
    have e := hk.lin _ ⟨i, rfl⟩
    simp only [feasRes, Fin.addCases_left]
    change cfg.pb.b _ - ∑ j, rf.M.Wx (Fin.castAdd nz _) j * u.x j - ∑ q, rf.M.Wp (Fin.castAdd nz _) q * u.p q = 0
    rw [h.Wx, h.Wp]
    simp only [stack, Fin.addCases_left]
    linear_combination -e)
  refine le_antisymm ?_ (le_trans (normInf_nonneg _) (le_max_right _ _))
  rw [error_le_iff h.canon (basics_le_rows h.canon h.b) _ _ _ _ _ _ le_rfl]
  refine ⟨fun i hi _ => ?_, fun q => ?_, fun b => ?_⟩
  · rw [m1 i hi, hgrad]; simp
  · rw [m3 q]
    change |- ev.v q| ≤ 0
    rw [hv]; simp
  · rw [hres, heps, residual_canonical_exact h.canon hE ax0 (rfArgs cfg.pb rf.M ev u) rfl rfl b]
    obtain ⟨σ, τ, hσ, hτ, jb, jn, S, Sp, R⟩ := h.canon.ech
    simp only [R]
    rw [hf (σ b)]; simp

/-- **C58 (the kept constraints decide)**: a problem with quadratic objective, affine `v` and linear constraints with any right-hand side, whose matrix may have dependent rows (so that there may be no feasible point at all).
    If the first-order conditions determine `x` and `p`, and the points that satisfy them with the kept constraints are within the bounds, then in exact arithmetic the full-space and null-space methods, started as in `quadratic_solve`,
    return such a point after one iteration with success and zero error: for all sizes, solver histories, contents of uninitialised memory, stateful user functions. -/
theorem quadratic_solve_kept {cfg : Config K nx np ny nz τ} (hthr : 0 ≤ cfg.env.thr) (heps : cfg.env.eps = 0) (hd : cfg.env.debug = false) (ho : ∀ M, (cfg.env.o M).lu.Z = 0) (hnx : 0 < nx) (hphi : cfg.phi = none)
    (hlu : LUInners cfg) (hm : cfg.method ≠ .rangespace) (hz : nz = 0) (A : Affine K nx np nz) (huser : ∀ t x p q, ∃ t' ev, cfg.user t x p q = some (t', ev) ∧ A.Returns x p ev)
    (hspan : ∀ q, ∃ y : Fin nx → K, ∀ l, cfg.pb.Ap l q = ∑ j, cfg.pb.Ax l j * y j)
    (hdet : ∀ d : MVec K nx np (ny + nz), (∀ i, ∑ j, A.H i j * d.x j + ∑ q, A.Hp i q * d.p q + ∑ l, cfg.pb.Ax l i * d.w (Fin.castAdd nz l) = 0) → (∀ q, ∑ j, A.vx q j * d.x j + ∑ q', A.vp q q' * d.p q' = 0) →
      (∀ l, ∑ j, cfg.pb.Ax l j * d.x j + ∑ q, cfg.pb.Ap l q * d.p q = 0) → d.x = 0 ∧ d.p = 0)
    (hB : ConsistentBounds cfg.pb.bounds) (hin : ∀ u', A.KktOn cfg.pb cfg.kept u' → InBounds cfg.pb.bounds u')
    (o : SolveOptions K) (hmax : 1 ≤ o.maxiters) (htol : 0 < o.tolerance) (user : τ) (mem errors ax du) (history : History K) (u : MVec K nx np (ny + nz))
    (hstart : ∀ i, (cfg.pb.xlower i = some ((clampVec cfg.pb.bounds u).x i) → A.grad cfg.pb (clampVec cfg.pb.bounds u) i ≤ 0) ∧
      (cfg.pb.xupper i = some ((clampVec cfg.pb.bounds u).x i) → 0 ≤ A.grad cfg.pb (clampVec cfg.pb.bounds u) i)) :
    ∃ t, (∀ r, Solve (cfg.machine none) o cfg.pb.bounds (cfg.start user mem errors ax du) history u r ↔ r = some t) ∧
      A.KktOn cfg.pb cfg.kept t.u ∧ t.mach.errors.error = 0 ∧ (solveResult o t).succeeded = true ∧ (solveResult o t).iterations = 1 := by
  have hinv := machine_inv hthr heps.ge hnx (cfg := cfg) none
  obtain ⟨t, ht⟩ := solve_returns hthr heps.ge hd hnx none (noPhi hphi) (fun t x p q => let ⟨t', ev, e, _⟩ := huser t x p q; ⟨_, e⟩) (fun f hf => by cases hf) o hB user mem errors ax du history u
  have huq : ∀ r, Solve (cfg.machine none) o cfg.pb.bounds (cfg.start user mem errors ax du) history u r ↔ r = some t := by
    intro r
    obtain ⟨⟨r0, h0, h1⟩, -⟩ := solve_budget (cfg.machine none) o cfg.pb.bounds (cfg.start user mem errors ax du) history u
    constructor
    · intro hr; rw [h1 r hr, h1 _ ht]
    · rintro rfl; exact ht
  refine ⟨t, huq, ?_⟩
  have hz' : ∀ f : Fin nz → K, ∑ l, f l = 0 := fun f => by subst hz; simp
  cases ht with
  | run s r es hl =>
    obtain ⟨su, suo, sit, -, -⟩ := solveInit_spec es
    obtain ⟨-, ev, rf, ew0, hrf, hspec, herr, t0, t1, q, hu⟩ :=
      evalAt_inv hinv (s := { mach := cfg.start user mem errors ax du, u := clampVec cfg.pb.bounds u, uo := clampVec cfg.pb.bounds u, iterations := 0, history := history.init, trace := [] })
        (start_reach cfg user mem errors ax du) es
    have hev : A.Returns s.u.x s.u.p ev := by
      obtain ⟨t', ev', e, hr⟩ := huser t0 s.u.x s.u.p q
      rw [hu] at e; cases e; exact hr
    have hju : rf.M.ju = [] := by
      refine List.eq_nil_iff_forall_not_mem.2 fun i hi => ?_
      rw [su] at hspec hev
      have hg : rf.status.s i = A.grad cfg.pb (clampVec cfg.pb.bounds u) i := by
        rw [hspec.mult, hspec.Wx, hev.hx, hev.fx]
        dsimp only
        rw [Fin.sum_univ_add]
        simp only [stack, Fin.addCases_left, Fin.addCases_right, Pi.add_apply, mulVec, dotProduct, Affine.grad]
        ring
      rcases (hspec.unstable i hi).2 with ⟨h1, h2⟩ | ⟨h1, h2⟩
      · exact absurd ((hstart i).1 h1) (by rw [← hg]; exact not_le.2 h2)
      · exact absurd ((hstart i).2 h1) (by rw [← hg]; exact not_le.2 h2)
    have hnot : ∀ i, i ∉ rf.M.ju := by rw [hju]; simp
    have hE := rf_echelon heps hspec
    have hR : RowsSpanned rf.M := by
      refine rf_rowsSpanned ho hspec fun q => ?_
      obtain ⟨y, hy⟩ := hspan q
      refine ⟨y, fun l => ?_⟩
      rw [hspec.Wx, hspec.Wp]
      refine Fin.addCases (fun l => ?_) (fun l => ?_) l
      · simp only [stack, Fin.addCases_left]; exact hy l
      · exact absurd l.2 (by omega)
    have hM : ∀ d, SolvesMaster rf.M ⟨0, 0, 0⟩ d → d.x = 0 ∧ d.p = 0 := by
      intro d hd
      refine hdet d (fun i => ?_) (fun q => ?_) (fun l => ?_)
      · have e := hd.stable i (hnot i)
        simp only [hnot, if_false] at e
        rw [hspec.Hxx, hspec.Hxp, hev.fxx, hev.fxp, hspec.Wx, hev.hx, Fin.sum_univ_add, hz'] at e
        simp only [stack, Fin.addCases_left, Pi.zero_apply] at e
        linear_combination e
      · have e := hd.par q
        simp only [hnot, if_false] at e
        rw [hspec.Vpx, hspec.Vpp, hev.vx, hev.vp] at e
        exact e
      · have e := hd.constr (Fin.castAdd nz l)
        simp only [hnot, if_false] at e
        rw [hspec.Wx, hspec.Wp] at e
        simp only [stack, Fin.addCases_left] at e
        exact e
    have hInner := luInners_ok_dep hlu hm hspec.canon hE hR hM (projectRhs rf.M rf.res.master)
    -- one step
    have hstep : ∀ s1, step (cfg.machine none) o cfg.pb.bounds s = some s1 → A.KktOn cfg.pb cfg.kept s1.u ∧ s1.mach.errors.error = 0 ∧ s1.iterations = 1 := by
      intro s1 h1
      unfold step at h1
      dsimp only at h1
      split at h1
      · cases h1
      · rename_i tm un hn
        change cfg.newton s.mach s.uo = some (tm, un) at hn
        rw [suo, ← su] at hn
        obtain ⟨dn, hdn, hx, hp, hw⟩ := newton_solves_projected heps hrf hspec hR hInner (fun e => absurd e hm) hn
        have hk : A.KktOn cfg.pb cfg.kept un := projected_newton_kkt hthr heps hz hspec hev hju hdn hx hp hw
        rw [transform_no_phi (by change Option.map _ cfg.phi = none; rw [hphi]; rfl)] at h1
        dsimp only at h1
        unfold errorControl at h1
        dsimp only at h1
        rw [backtrack_accepts o.debug o.minmax (by rw [suo]; exact clampVec_inBounds hB u) (hin _ hk)] at h1
        dsimp only at h1
        have hq : Reach cfg tm := hinv.newton _ _ _ _ (evalAt_inv hinv (s := { mach := cfg.start user mem errors ax du, u := clampVec cfg.pb.bounds u, uo := clampVec cfg.pb.bounds u, iterations := 0, history := history.init, trace := [] })
          (start_reach cfg user mem errors ax du) es).1 (hn : (cfg.machine none).newton _ _ = _)
        obtain ⟨e1, e2, e3, e4, e5, e6⟩ := evalAt_u h1
        obtain ⟨-, ev', rf', ew0', hrf', hspec', herr', t0', t1', q', hu'⟩ := evalAt_inv hinv (by exact hq) h1
        rw [e1] at hspec' hu' herr'
        have hev' : A.Returns un.x un.p ev' := by
          obtain ⟨t', ev'', e, hr⟩ := huser t0' un.x un.p q'
          rw [hu'] at e; cases e; exact hr
        refine ⟨by rw [e1]; exact hk, ?_, ?_⟩
        · rw [herr']
          exact kkt_on_kept_error hthr heps hz hspec' hev' hk ew0'
        · rw [e3]; change s.iterations + 1 = 1; rw [sit]
    cases hl with
    | stop _ s1 _ h1 h2 =>
      obtain ⟨a1, a2, a3⟩ := hstep s1 h1
      obtain ⟨b1, b2, -, b4, -⟩ := stepping_spec h2
      refine ⟨by rw [b1]; exact a1, b4.trans a2, ?_, ?_⟩
      · change decide (t.iterations ≤ o.maxiters) = true
        rw [b2, a3]; simpa using hmax
      · change t.iterations = 1; rw [b2, a3]
    | again _ s1 s2 _ h1 h2 h3 =>
      obtain ⟨a1, a2, a3⟩ := hstep s1 h1
      obtain ⟨-, -, -, -, -, -, b7⟩ := stepping_spec h2
      have := (b7 (by rw [a3]; exact hmax)).2.2 (Or.inl (by change s1.mach.errors.error < _; rw [a2]; exact htol))
      cases this

/-- **C58, part**: without non-linear constraints, in exact arithmetic, whatever the rank: every solve that reports success satisfies the kept constraints up to the tolerance times the row sums of the basic columns, and all linear constraints so if they
    have a solution at all (and the columns of the parameters are combinations of those of the variables).  Missing: infeasible constraints, for which the claim is false (`infeasible_reported_solved`), and non-linear constraints with dependent gradients. -/
theorem success_feasible_dep_partial {cfg : Config K nx np ny nz τ} (hthr : 0 ≤ cfg.env.thr) (heps : cfg.env.eps = 0) (hnx : 0 < nx) (hz : nz = 0) (o : SolveOptions K) (hB : ConsistentBounds cfg.pb.bounds)
    (user : τ) (mem errors ax du) (history : History K) (u : MVec K nx np (ny + nz)) (t : SolveState (Parts K nx np ny nz τ cfg.pb.Ax) K nx np (ny + nz))
    (hs : Solve (cfg.machine none) o cfg.pb.bounds (cfg.start user mem errors ax du) history u (some t)) (hsucc : (solveResult o t).succeeded = true) :
    ∃ rf, t.mach.rf = some rf ∧
      (∀ l, cfg.kept l → |cfg.pb.b l - ∑ j, cfg.pb.Ax l j * t.u.x j - ∑ q, cfg.pb.Ap l q * t.u.p q| ≤ (∑ b, |cfg.pb.Ax l (rf.M.RWQ.jb b)|) * o.tolerance) ∧
      ((∀ M, (cfg.env.o M).lu.Z = 0) → (∀ q, ∃ y : Fin nx → K, ∀ l, cfg.pb.Ap l q = ∑ j, cfg.pb.Ax l j * y j) →
        (∃ (x : Fin nx → K) (p : Fin np → K), ∀ l, ∑ j, cfg.pb.Ax l j * x j + ∑ q, cfg.pb.Ap l q * p q = cfg.pb.b l) →
        ∀ l, |cfg.pb.b l - ∑ j, cfg.pb.Ax l j * t.u.x j - ∑ q, cfg.pb.Ap l q * t.u.p q| ≤ (∑ b, |cfg.pb.Ax l (rf.M.RWQ.jb b)|) * o.tolerance) := by
  obtain ⟨-, ev, rf, ew0, h1, h2, h3, h4⟩ := solve_inv (machine_inv hthr heps.ge hnx none) o cfg.pb.bounds (start_reach cfg user mem errors ax du) history u t hs
  have herr : t.mach.errors.error < o.tolerance := by
    rcases success_converged _ o _ _ history u t hs hsucc with h | ⟨t1, -, -, f, -, hf, -⟩
    · exact h
    · cases hf
  rw [h3] at herr
  obtain ⟨ax0, hres⟩ := h2.res
  have hE := rf_echelon heps h2
  have ht0 : 0 ≤ o.tolerance := le_trans (le_trans (normInf_nonneg _) (le_max_right _ _)) herr.le
  have hwb := ((error_le_iff h2.canon (basics_le_rows h2.canon h2.b) _ _ _ _ _ o.tolerance ht0).1 herr.le).2.2
  -- the canonical residual bounds `Rb` times the residual of the constraints
  have hRb : ∀ b, |∑ r, rf.M.RWQ.Rb b r * feasRes (rfArgs cfg.pb rf.M ev t.u) r| ≤ o.tolerance := by
    intro b
    obtain ⟨σ, τ, hσ, hτ, jb, jn, S, Sp, R⟩ := h2.canon.ech
    obtain ⟨b, rfl⟩ := hσ.2 b
    have e := hwb b
    rw [hres, heps, residual_canonical_exact h2.canon hE ax0 (rfArgs cfg.pb rf.M ev t.u) rfl rfl b] at e
    simpa only [R] using e
  -- a constraint whose residual equals its projection is satisfied
  have hrow : ∀ l : Fin ny, feasRes (rfArgs cfg.pb rf.M ev t.u) (Fin.castAdd nz l) = ∑ b, rf.M.Wx (Fin.castAdd nz l) (rf.M.RWQ.jb b) * ∑ r, rf.M.RWQ.Rb b r * feasRes (rfArgs cfg.pb rf.M ev t.u) r →
      |cfg.pb.b l - ∑ j, cfg.pb.Ax l j * t.u.x j - ∑ q, cfg.pb.Ap l q * t.u.p q| ≤ (∑ b, |cfg.pb.Ax l (rf.M.RWQ.jb b)|) * o.tolerance := by
    intro l e
    have e2 : feasRes (rfArgs cfg.pb rf.M ev t.u) (Fin.castAdd nz l) = cfg.pb.b l - ∑ j, cfg.pb.Ax l j * t.u.x j - ∑ q, cfg.pb.Ap l q * t.u.p q := by
      simp only [feasRes, rfArgs, Fin.addCases_left, h2.Wx, h2.Wp, stack]
    rw [← e2, e, Finset.sum_mul]
    refine (Finset.abs_sum_le_sum_abs _ _).trans (Finset.sum_le_sum fun b _ => ?_)
    rw [abs_mul, show rf.M.Wx (Fin.castAdd nz l) (rf.M.RWQ.jb b) = cfg.pb.Ax l (rf.M.RWQ.jb b) by rw [h2.Wx]; simp [stack]]
    exact mul_le_mul_of_nonneg_left (hRb b) (abs_nonneg _)
  refine ⟨rf, h1, ?_, ?_⟩
  · rintro l ⟨i, rfl⟩
    refine hrow _ ?_
    have hk := (Ech.echelonW_kernel hthr hz h2.reach h2.rwq
      (fun l => feasRes (rfArgs cfg.pb rf.M ev t.u) l - (projectRhs rf.M ⟨0, 0, feasRes (rfArgs cfg.pb rf.M ev t.u)⟩).w l)).1 (fun b => by
        simp only [mul_sub, Finset.sum_sub_distrib]
        rw [projectRhs_Rb hE, sub_self]) i
    exact sub_eq_zero.1 hk
  · rintro ho hspan ⟨x, p, hxp⟩ l
    refine hrow l ?_
    have hR : RowsSpanned rf.M := by
      refine rf_rowsSpanned ho h2 fun q => ?_
      obtain ⟨y, hy⟩ := hspan q
      refine ⟨y, fun l => ?_⟩
      rw [h2.Wx, h2.Wp]
      refine Fin.addCases (fun l => ?_) (fun l => ?_) l
      · simp only [stack, Fin.addCases_left]; exact hy l
      · exact absurd l.2 (by omega)
    have hf : ∀ l, feasRes (rfArgs cfg.pb rf.M ev t.u) l = ∑ j, rf.M.Wx l j * (x j - t.u.x j) + ∑ q, rf.M.Wp l q * (p q - t.u.p q) := by
      intro l
      refine Fin.addCases (fun l => ?_) (fun l => ?_) l
      · simp only [feasRes, rfArgs, Fin.addCases_left, h2.Wx, h2.Wp, stack, mul_sub, Finset.sum_sub_distrib, ← hxp l]
        ring
      · exact absurd l.2 (by omega)
    rw [hf, project_range hR]
    simp only [hf]

variable {nbe nc : ℕ} {env : Env K} {method : Method} {inners : ∀ c : CanonPack K (nx + 0 + 0) np (nbe + 0 + (0 + 0)), Inners K np c.nbe c.nbi c.nne c.nni}

/-- **C58 for `Solver`**: a user problem with quadratic objective, affine `v`, linear equality constraints and no others, whose first-order conditions determine `x` and `p`.  Whatever the right-hand side `be`, feasible or not, in exact arithmetic
    the solver returns success after one iteration; the point returned is a stationary point for the constraints in the pivot rows of the factorisation of the constraint matrix, the other constraints are not looked at. -/
theorem solver_ignores_dependent_rows {A : UAffine K nx np 0 0} {P : UProblem τ K nx np nbe 0 0 0 nc} (hP : NeverThrows P) (hI : A.Implemented P) (mem)
    (hthr : 0 ≤ env.thr) (heps : env.eps = 0) (hd : env.debug = false) (ho : ∀ M, (env.o M).lu.Z = 0) (hnx : 0 < nx) (hlu : LUInners (solverConfig env method inners P mem)) (hm : method ≠ .rangespace)
    (hspan : ∀ q, ∃ y : Fin nx → K, ∀ l, P.Aep l q = ∑ j, P.Aex l j * y j)
    (hdet : ∀ (dx : Fin nx → K) (dp : Fin np → K) (dy : Fin nbe → K), (∀ i, ∑ j, A.H i j * dx j + ∑ q, A.Hp i q * dp q + ∑ l, P.Aex l i * dy l = 0) → (∀ q, ∑ j, A.vx q j * dx j + ∑ q', A.vp q q' * dp q' = 0) →
      (∀ l, ∑ j, P.Aex l j * dx j + ∑ q, P.Aep l q * dp q = 0) → dx = 0 ∧ dp = 0)
    (hx : ∀ i, P.xlower i = none ∧ P.xupper i = none) (hp : ∀ i, P.plower i = none ∧ P.pupper i = none)
    (part : Idx.PartitionImpl ℕ) (o : SolveOptions K) (hmax : 1 ≤ o.maxiters) (htol : 0 < o.tolerance) (S : UState K nx np nbe 0 0 0) (t0 : τ) (res memW errors ax du history) :
    ∃ S' result, ∃ h : SolverReturns env method inners part o P mem S S' result none, (h.t0 = t0 ∧ h.res = res ∧ h.memW = memW ∧ h.errors = errors ∧ h.ax = ax ∧ h.du = du ∧ h.history = history) ∧
      result.succeeded = true ∧ result.iterations = 1 ∧ h.final.mach.errors.error = 0 ∧
      (∀ i, ∑ j, A.H i j * S'.x j + ∑ q, A.Hp i q * S'.p q + A.c i + ∑ l, P.Aex l i * S'.ye l = 0) ∧ (∀ q, ∑ j, A.vx q j * S'.x j + ∑ q', A.vp q q' * S'.p q' + A.v0 q = 0) ∧
      ∀ i, ∑ j, P.Aex (Ech.keptRow env.o (masterProblem P mem).Ax i) j * S'.x j + ∑ q, P.Aep (Ech.keptRow env.o (masterProblem P mem).Ax i) q * S'.p q = P.be (Ech.keptRow env.o (masterProblem P mem).Ax i) := by
  have hA : IsMasterAx P.Aex P.Agx (masterProblem P mem).Ax := (assembleAx_iff _ _ _).2 fun _ j => j.elim0
  have hnb : ∀ i, (masterProblem P mem).xlower i = none ∧ (masterProblem P mem).xupper i = none :=
    forall_xbar.2 ⟨fun i => by simpa [masterProblem] using hx i, fun i => i.elim0, fun i => i.elim0⟩
  have hin : ∀ u' : MVec K (nx + 0 + 0) np (nbe + 0 + (0 + 0)), InBounds (masterProblem P mem).bounds u' := fun u' =>
    ⟨fun i => ⟨fun l e => (by change (masterProblem P mem).xlower i = _ at e; rw [(hnb i).1] at e; cases e), fun l e => (by change (masterProblem P mem).xupper i = _ at e; rw [(hnb i).2] at e; cases e)⟩,
      fun i => ⟨fun l e => (by change P.plower i = _ at e; rw [(hp i).1] at e; cases e), fun l e => (by change P.pupper i = _ at e; rw [(hp i).2] at e; cases e)⟩⟩
  have hAx : ∀ l j, (masterProblem P mem).Ax l (ixX 0 0 j) = P.Aex l j := fun l j => hA.ex l j
  have hAp : ∀ l q, (masterProblem P mem).Ap l q = P.Aep l q := fun l q => by
    exact cat2_l (fun i => P.Aep i q) (fun i => P.Agp i q) l
  have hb : ∀ l, (masterProblem P mem).b l = P.be l := fun l => by
    exact cat2_l P.be P.bg l
  have hsum : ∀ f : Fin (nx + 0 + 0) → K, ∑ j, f j = ∑ j, f (ixX 0 0 j) := fun f => by rw [sum_xbar]; simp
  have hH : ∀ i j, (A.master (nbg := 0)).H (ixX 0 0 i) (ixX 0 0 j) = A.H i j := by simp [UAffine.master]
  have hHp : ∀ i q, (A.master (nbg := 0)).Hp (ixX 0 0 i) q = A.Hp i q := by simp [UAffine.master]
  have hc : ∀ i, (A.master (nbg := 0)).c (ixX 0 0 i) = A.c i := by simp [UAffine.master]
  have hvx : ∀ q j, (A.master (nbg := 0)).vx q (ixX 0 0 j) = A.vx q j := by simp [UAffine.master]
  obtain ⟨t, h1, h2, h3, h4, h5⟩ := quadratic_solve_kept (cfg := solverConfig env method inners P mem) hthr heps hd ho (by omega) rfl hlu hm rfl (A.master (nbg := 0))
    (fun t x p q => by
      obtain ⟨⟨t', ev⟩, e⟩ := userCode_returns hP _ true true false t x p q
      exact ⟨t', ev, e, UAffine.returns hI e⟩)
    (fun q => by
      obtain ⟨y, hy⟩ := hspan q
      refine ⟨cat3 y (fun _ => 0) (fun _ => 0), fun l => ?_⟩
      change (masterProblem P mem).Ap l q = ∑ j, (masterProblem P mem).Ax l j * _
      rw [hsum, hAp, hy]
      refine Finset.sum_congr rfl fun j _ => ?_
      rw [hAx]; simp)
    (fun d e1 e2 e3 => by
      have := hdet (fun j => d.x (ixX 0 0 j)) d.p d.w (fun i => ?_) (fun q => ?_) (fun l => ?_)
      · exact ⟨ext_xbar (fun i => congrFun this.1 i) (fun i => i.elim0) (fun i => i.elim0), this.2⟩
      · have e : ∑ j, (A.master (nbg := 0)).H (ixX 0 0 i) j * d.x j + ∑ q, (A.master (nbg := 0)).Hp (ixX 0 0 i) q * d.p q + ∑ l, (masterProblem P mem).Ax l (ixX 0 0 i) * d.w l = 0 := e1 (ixX 0 0 i)
        rw [hsum] at e
        simp only [hH, hHp, hAx] at e
        exact e
      · have e : ∑ j, (A.master (nbg := 0)).vx q j * d.x j + ∑ q', A.vp q q' * d.p q' = 0 := e2 q
        rw [hsum] at e
        simp only [hvx] at e
        exact e
      · have e : ∑ j, (masterProblem P mem).Ax l j * d.x j + ∑ q, (masterProblem P mem).Ap l q * d.p q = 0 := e3 l
        rw [hsum] at e
        simp only [hAx, hAp] at e
        exact e)
    (inBounds_consistent (hin (packState S))) (fun u' _ => hin u') o hmax htol (t0, res) memW errors ax du history (packState S)
    (fun i => ⟨fun e => (by change (masterProblem P mem).xlower i = _ at e; rw [(hnb i).1] at e; cases e), fun e => (by change (masterProblem P mem).xupper i = _ at e; rw [(hnb i).2] at e; cases e)⟩)
  have ht := (h1 _).2 rfl
  obtain ⟨-, ev, rf, ew0, e1, -⟩ := solve_inv (machine_inv (cfg := solverConfig env method inners P mem) hthr heps.ge (by omega) none) o _ (start_reach _ (t0, res) memW errors ax du) history _ _ ht
  refine ⟨_, _, { t0 := t0, res := res, memW := memW, errors := errors, ax := ax, du := du, history := history, final := t, rf := rf, solved := ht, evaluated := e1, state := rfl, result_eq := rfl },
    ⟨rfl, rfl, rfl, rfl, rfl, rfl, rfl⟩, h4, h5, h3, ?_⟩
  simp only [unpackState, finalState]
  refine ⟨fun i => ?_, fun q => ?_, fun i => ?_⟩
  · have e : ∑ j, (A.master (nbg := 0)).H (ixX 0 0 i) j * t.u.x j + ∑ q, (A.master (nbg := 0)).Hp (ixX 0 0 i) q * t.u.p q + (A.master (nbg := 0)).c (ixX 0 0 i) + ∑ l, (masterProblem P mem).Ax l (ixX 0 0 i) * t.u.w l = 0 :=
      h2.grad (ixX 0 0 i)
    rw [hsum] at e
    simp only [hH, hHp, hc, hAx] at e
    exact e
  · have e : ∑ j, (A.master (nbg := 0)).vx q j * t.u.x j + ∑ q', A.vp q q' * t.u.p q' + A.v0 q = 0 := h2.v q
    rw [hsum] at e
    simp only [hvx] at e
    exact e
  · have e : ∑ j, (masterProblem P mem).Ax (Ech.keptRow env.o (masterProblem P mem).Ax i) j * t.u.x j + ∑ q, (masterProblem P mem).Ap (Ech.keptRow env.o (masterProblem P mem).Ax i) q * t.u.p q =
      (masterProblem P mem).b (Ech.keptRow env.o (masterProblem P mem).Ax i) := h2.lin _ ⟨i, rfl⟩
    rw [hsum] at e
    simp only [hAx, hAp, hb] at e
    exact e

end

/-! ### An infeasible problem

`min (x0² + x1²)/2` subject to `x0 + x1 = be 0` and `x0 + x1 = be 1`: feasible if and only if `be 0 = be 1`. -/

/-- The problem. -/
def exTwoRows (be : Fin 2 → ℚ) : UProblem Unit ℚ 2 0 2 0 0 0 0 where
  r := ResFn.default
  f := ⟨some fun t res x _ _ _ => some (t, { res with f := (x 0 ^ 2 + x 1 ^ 2) / 2, fx := x, fxx := 1, succeeded := true })⟩
  he := ConFn.default
  hg := ConFn.default
  v := ConFn.default
  Aex := fun _ _ => 1
  Aep := fun _ i => i.elim0
  Agx := fun i => i.elim0
  Agp := fun i => i.elim0
  be := be
  bg := fun i => i.elim0
  xlower := fun _ => none
  xupper := fun _ => none
  plower := fun i => i.elim0
  pupper := fun i => i.elim0
  c := fun i => i.elim0
  bec := fun _ i => i.elim0
  bgc := fun i => i.elim0

theorem exTwoRows_feasible (be : Fin 2 → ℚ) : (∃ x : Fin 2 → ℚ, ∀ l, ∑ j, (exTwoRows be).Aex l j * x j = (exTwoRows be).be l) ↔ be 0 = be 1 := by
  constructor
  · rintro ⟨x, h⟩
    have h0 := h 0
    have h1 := h 1
    simp [exTwoRows] at h0 h1
    linarith
  · intro e
    refine ⟨![be 0, 0], fun l => ?_⟩
    revert l
    rw [Fin.forall_fin_two]
    simp [exTwoRows, e]

theorem exTwoRows_neverThrows (be) : NeverThrows (exTwoRows be) := ⟨fun _ _ _ _ _ => ⟨_, rfl⟩, fun _ _ _ _ _ => ⟨_, rfl⟩, fun _ _ _ _ _ => ⟨_, rfl⟩, fun _ _ _ _ _ => ⟨_, rfl⟩, fun _ _ _ _ _ => ⟨_, rfl⟩⟩

theorem exTwoRows_implemented (be) : exUserAffine.Implemented (exTwoRows be) where
  f := by
    refine ⟨_, rfl, fun t x p o t' q _ _ h => ?_⟩
    simp only [Option.some.injEq, Prod.mk.injEq] at h
    obtain ⟨-, rfl⟩ := h
    refine ⟨?_, rfl, ?_⟩
    · funext i; simp [exUserAffine, mulVec, dotProduct]
    · funext i j; exact j.elim0
  he := ⟨_, rfl, fun t x p o t' q _ _ _ => ⟨funext fun i => i.elim0, funext fun i => i.elim0, funext fun i => i.elim0⟩⟩
  hg := ⟨_, rfl, fun t x p o t' q _ _ _ => ⟨funext fun i => i.elim0, funext fun i => i.elim0, funext fun i => i.elim0⟩⟩
  v := ⟨_, rfl, fun t x p o t' q _ _ _ => ⟨funext fun i => i.elim0, funext fun i => i.elim0, funext fun i => i.elim0⟩⟩

/-- Whatever `be`, the solver reports success after one iteration, with zero error, for every starting point and every history of the solver, in exact arithmetic. -/
theorem exTwoRows_solved (be : Fin 2 → ℚ) :
    ∃ env : Env ℚ, (0 ≤ env.thr ∧ env.eps = 0 ∧ env.debug = false ∧ ∀ M, (env.o M).lu.Z = 0) ∧ ∃ inners, ∀ S part mem t0 res memW errors ax du history, ∃ S' result,
    ∃ h : SolverReturns env .nullspace inners part { maxiters := 200, tolerance := 1/1000000000, minmax := false, debug := false } (exTwoRows be) mem S S' result none,
      (h.t0 = t0 ∧ h.res = res ∧ h.memW = memW ∧ h.errors = errors ∧ h.ax = ax ∧ h.du = du ∧ h.history = history) ∧ result.succeeded = true ∧ result.iterations = 1 ∧ h.final.mach.errors.error = 0 := by
  obtain ⟨oracle, ho⟩ := Ech.exists_exact_oracle (K := ℚ)
  let F : ∀ n, (A : Matrix (Fin n) (Fin n) ℚ) → LU.FullLU A := fun n A => (LU.exists_fullLU n A).some
  refine ⟨{ o := oracle, sort := Ech.sortImpl, P := fun n => Idx.stableImpl, thr := 1/100000000, eps := 0, debug := false }, ⟨by norm_num, rfl, rfl, ho⟩,
    fun c => ⟨luInner 0 (Fintype.equivFin _) (F _) 0, luInner 0 (Fintype.equivFin _) (F _) 0, luInner 0 (Fintype.equivFin _) (F _) 0⟩, fun S part mem t0 res memW errors ax du history => ?_⟩
  obtain ⟨S', result, h, h1, h2, h3, h4, -⟩ := solver_ignores_dependent_rows (env := { o := oracle, sort := Ech.sortImpl, P := fun n => Idx.stableImpl, thr := 1/100000000, eps := 0, debug := false }) (method := .nullspace)
    (inners := fun c => ⟨luInner 0 (Fintype.equivFin _) (F _) 0, luInner 0 (Fintype.equivFin _) (F _) 0, luInner 0 (Fintype.equivFin _) (F _) 0⟩)
    (exTwoRows_neverThrows be) (exTwoRows_implemented be) mem (by norm_num) rfl rfl ho (by norm_num)
    (fun c => ⟨_, _, _, Fintype.equivFin _, Fintype.equivFin _, Fintype.equivFin _, F, 0, rfl⟩) (by intro h; cases h) (fun q => q.elim0)
    (fun dx dp dy g _ l => by
      have g0 := g 0
      have g1 := g 1
      have l0 := l 0
      simp [exUserAffine, exTwoRows, Matrix.one_apply] at g0 g1 l0
      refine ⟨?_, funext fun i => i.elim0⟩
      funext i
      revert i
      rw [Fin.forall_fin_two]
      exact ⟨by change dx 0 = 0; linarith, by change dx 1 = 0; linarith⟩)
    (fun _ => ⟨rfl, rfl⟩) (fun i => i.elim0) part { maxiters := 200, tolerance := 1/1000000000, minmax := false, debug := false } (by norm_num) (by norm_num) S t0 res memW errors ax du history
  exact ⟨S', result, h, h1, h2, h3, h4⟩

/-- **C58 is false**: there is a problem without feasible point that the solver reports as solved after one iteration, with zero error, for every starting point and every history of the solver, in exact arithmetic. -/
theorem infeasible_reported_solved : ∃ P : UProblem Unit ℚ 2 0 2 0 0 0 0, (¬ ∃ x : Fin 2 → ℚ, ∀ l, ∑ j, P.Aex l j * x j = P.be l) ∧
    ∃ env : Env ℚ, (0 ≤ env.thr ∧ env.eps = 0 ∧ env.debug = false ∧ ∀ M, (env.o M).lu.Z = 0) ∧ ∃ inners, ∀ S part mem t0 res memW errors ax du history, ∃ S' result,
    ∃ h : SolverReturns env .nullspace inners part { maxiters := 200, tolerance := 1/1000000000, minmax := false, debug := false } P mem S S' result none,
      (h.t0 = t0 ∧ h.res = res ∧ h.memW = memW ∧ h.errors = errors ∧ h.ax = ax ∧ h.du = du ∧ h.history = history) ∧ result.succeeded = true ∧ result.iterations = 1 ∧ h.final.mach.errors.error = 0 :=
  ⟨exTwoRows ![1, 2], fun h => absurd ((exTwoRows_feasible _).1 h) (by simp), exTwoRows_solved _⟩

end Optima
