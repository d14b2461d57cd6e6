import Verif.Props.Sensitivity

/-!
# C41: the sensitivities are the derivatives of a family of solutions
-/

set_option linter.unusedSectionVars false

namespace Optima

open Matrix Filter Topology

variable {nx np ny nz nc : ℕ}

/-- A family of points `(x, p, w)` of the master problem with a real parameter `t`, with the values of the user functions along it, and its derivative at `t = 0` (`x'`, `p'`, `w'`). -/
structure Family (nx np ny nz : ℕ) where
  x : ℝ → Fin nx → ℝ
  p : ℝ → Fin np → ℝ
  w : ℝ → Fin (ny + nz) → ℝ
  g : ℝ → Fin nx → ℝ
  h : ℝ → Fin nz → ℝ
  hx : ℝ → Matrix (Fin nz) (Fin nx) ℝ
  v : ℝ → Fin np → ℝ
  b : ℝ → Fin ny → ℝ
  x' : Fin nx → ℝ
  p' : Fin np → ℝ
  w' : Fin (ny + nz) → ℝ
  hx' : Matrix (Fin nz) (Fin nx) ℝ

/-- The derivatives at `t = 0` are those of the family, the chain rule holds with the derivatives `ev`, `fxc`, `hc`, `vc`, `bc` (the parameter `c_i` moves with unit speed). -/
structure Family.Smooth (F : Family nx np ny nz) (ev : Evals ℝ nx np nz) (fxc : Matrix (Fin nx) (Fin nc) ℝ) (hc : Matrix (Fin nz) (Fin nc) ℝ) (vc : Matrix (Fin np) (Fin nc) ℝ) (bc : Matrix (Fin ny) (Fin nc) ℝ)
    (i : Fin nc) : Prop where
  x : ∀ j, HasDerivAt (fun t => F.x t j) (F.x' j) 0
  p : ∀ q, HasDerivAt (fun t => F.p t q) (F.p' q) 0
  w : ∀ l, HasDerivAt (fun t => F.w t l) (F.w' l) 0
  g : ∀ j, HasDerivAt (fun t => F.g t j) (∑ k, ev.fxx j k * F.x' k + ∑ q, ev.fxp j q * F.p' q + fxc j i) 0
  h : ∀ l, HasDerivAt (fun t => F.h t l) (∑ k, ev.hx l k * F.x' k + ∑ q, ev.hp l q * F.p' q + hc l i) 0
  v : ∀ q, HasDerivAt (fun t => F.v t q) (∑ k, ev.vx q k * F.x' k + ∑ r, ev.vp q r * F.p' r + vc q i) 0
  b : ∀ l, HasDerivAt (fun t => F.b t l) (bc l i) 0
  hx : ∀ l j, HasDerivAt (fun t => F.hx t l j) (F.hx' l j) 0
  hx0 : F.hx 0 = ev.hx

/-- The multipliers `s = g + Wx' w` along the family. -/
def Family.s (F : Family nx np ny nz) (Ax : Matrix (Fin ny) (Fin nx) ℝ) (t : ℝ) (j : Fin nx) : ℝ := F.g t j + ∑ l, Ax l j * F.w t (Fin.castAdd nz l) + ∑ l, F.hx t l j * F.w t (Fin.natAdd ny l)

/-- The KKT equations along the family, near `t = 0`, with the active set `ju` (variables that stay where they are). -/
structure Family.Kkt (F : Family nx np ny nz) (pb : MProblem ℝ nx np ny nz) (ju : List (Fin nx)) : Prop where
  stable : ∀ᶠ t in 𝓝 0, ∀ j, j ∉ ju → F.s pb.Ax t j = 0
  unstable : ∀ᶠ t in 𝓝 0, ∀ j, j ∈ ju → F.x t j = F.x 0 j
  v : ∀ᶠ t in 𝓝 0, F.v t = 0
  h : ∀ᶠ t in 𝓝 0, F.h t = 0
  b : ∀ᶠ t in 𝓝 0, ∀ l, ∑ j, pb.Ax l j * F.x t j + ∑ q, pb.Ap l q * F.p t q = F.b t l

/-- The curvature of the constraints: the derivative of `hx' z` with `z` kept. -/
def Family.curv (F : Family nx np ny nz) (j : Fin nx) : ℝ := ∑ l, F.hx' l j * F.w 0 (Fin.natAdd ny l)

theorem hasDerivAt_zero_of_eventually {f : ℝ → ℝ} {f' : ℝ} (h : HasDerivAt f f' 0) {c : ℝ} (hc : ∀ᶠ t in 𝓝 0, f t = c) : f' = 0 := by
  have : HasDerivAt f 0 0 := (hasDerivAt_const (0 : ℝ) c).congr_of_eventuallyEq hc
  exact h.unique this

section
variable {F : Family nx np ny nz} {ev : Evals ℝ nx np nz} {fxc : Matrix (Fin nx) (Fin nc) ℝ} {hc : Matrix (Fin nz) (Fin nc) ℝ} {vc : Matrix (Fin np) (Fin nc) ℝ} {bc : Matrix (Fin ny) (Fin nc) ℝ} {i : Fin nc}

/-- The derivative of `s` along the family. -/
def Family.s' (F : Family nx np ny nz) (Ax : Matrix (Fin ny) (Fin nx) ℝ) (ev : Evals ℝ nx np nz) (fxc : Matrix (Fin nx) (Fin nc) ℝ) (i : Fin nc) (j : Fin nx) : ℝ :=
  ∑ k, ev.fxx j k * F.x' k + ∑ q, ev.fxp j q * F.p' q + fxc j i + ∑ l, Ax l j * F.w' (Fin.castAdd nz l) + (∑ l, ev.hx l j * F.w' (Fin.natAdd ny l) + F.curv j)

theorem family_s (hF : F.Smooth ev fxc hc vc bc i) (Ax : Matrix (Fin ny) (Fin nx) ℝ) (j : Fin nx) : HasDerivAt (fun t => F.s Ax t j) (F.s' Ax ev fxc i j) 0 := by
  have h1 : HasDerivAt (fun t => ∑ l, Ax l j * F.w t (Fin.castAdd nz l)) (∑ l, Ax l j * F.w' (Fin.castAdd nz l)) 0 := HasDerivAt.fun_sum fun l _ => (hF.w _).const_mul _
  have h2 : HasDerivAt (fun t => ∑ l, F.hx t l j * F.w t (Fin.natAdd ny l)) (∑ l, (F.hx' l j * F.w 0 (Fin.natAdd ny l) + F.hx 0 l j * F.w' (Fin.natAdd ny l))) 0 :=
    HasDerivAt.fun_sum fun l _ => (hF.hx l j).mul (hF.w _)
  have := ((hF.g j).add h1).add h2
  rw [hF.hx0, Finset.sum_add_distrib, add_comm (∑ l, F.hx' l j * F.w 0 (Fin.natAdd ny l))] at this
  exact this

/-- The derivative of a family of solutions satisfies the equations of the sensitivities, up to the curvature of the constraints. -/
theorem family_equations {pb : MProblem ℝ nx np ny nz} {M : MasterMatrix ℝ nx np (ny + nz)} (hHxx : M.Hxx = ev.fxx) (hHxp : M.Hxp = ev.fxp) (hVpx : M.Vpx = ev.vx) (hVpp : M.Vpp = ev.vp)
    (hWx : M.Wx = stack pb.Ax ev.hx) (hWp : M.Wp = stack pb.Ap ev.hp) (hF : F.Smooth ev fxc hc vc bc i) (hK : F.Kkt pb M.ju) :
    SolvesMaster M { sensRhs M.ju fxc hc vc bc i with x := fun j => if j ∈ M.ju then 0 else -fxc j i - F.curv j } ⟨F.x', F.p', F.w'⟩ ∧ (∀ j, j ∉ M.ju → F.s' pb.Ax ev fxc i j = 0) := by
  have hx0 : ∀ j, j ∈ M.ju → F.x' j = 0 := fun j hj => hasDerivAt_zero_of_eventually (hF.x j) (hK.unstable.mono fun t h => h j hj)
  have hs0 : ∀ j, j ∉ M.ju → F.s' pb.Ax ev fxc i j = 0 := fun j hj => hasDerivAt_zero_of_eventually (family_s hF pb.Ax j) (hK.stable.mono fun t h => h j hj)
  have drop : ∀ (a : Fin nx → ℝ), ∑ j, (if j ∈ M.ju then 0 else a j * F.x' j) = ∑ j, a j * F.x' j := fun a => Finset.sum_congr rfl fun j _ => by
    by_cases hj : j ∈ M.ju
    · simp [hj, hx0 j hj]
    · simp [hj]
  have hw : ∀ j, ∑ l, M.Wx l j * F.w' l = ∑ l, pb.Ax l j * F.w' (Fin.castAdd nz l) + ∑ l, ev.hx l j * F.w' (Fin.natAdd ny l) := by
    intro j
    rw [Fin.sum_univ_add, hWx]
    simp [stack]
  refine ⟨⟨fun j hj => ?_, fun j hj => ?_, fun q => ?_, fun l => ?_⟩, hs0⟩
  · have e := hs0 j hj
    unfold Family.s' at e
    dsimp only
    rw [drop, hw, hHxx, hHxp, if_neg hj]
    linear_combination e
  · dsimp only
    rw [if_pos hj, hx0 j hj]
  · have e := hasDerivAt_zero_of_eventually (hF.v q) (hK.v.mono fun t h => congrFun h q)
    dsimp only [sensRhs]
    rw [drop, hVpx, hVpp]
    linear_combination e
  · dsimp only [sensRhs]
    rw [drop]
    revert l
    rw [forall_cat2]
    refine ⟨fun l => ?_, fun l => ?_⟩
    · have h1 : HasDerivAt (fun t => ∑ j, pb.Ax l j * F.x t j + ∑ q, pb.Ap l q * F.p t q - F.b t l) (∑ j, pb.Ax l j * F.x' j + ∑ q, pb.Ap l q * F.p' q - bc l i) 0 :=
        ((HasDerivAt.fun_sum fun j _ => (hF.x j).const_mul _).add (HasDerivAt.fun_sum fun q _ => (hF.p q).const_mul _)).sub (hF.b l)
      have e := hasDerivAt_zero_of_eventually h1 (c := 0) (hK.b.mono fun t h => by rw [h l, sub_self])
      rw [hWx, hWp]
      simp only [stack, cat2, Fin.addCases_left, of_apply]
      linear_combination e
    · have e := hasDerivAt_zero_of_eventually (hF.h l) (hK.h.mono fun t h => congrFun h l)
      rw [hWx, hWp]
      simp only [stack, cat2, Fin.addCases_right, of_apply]
      linear_combination e

end

/-- The `LU` objects of the sensitivity solver: threshold zero (exact arithmetic), any `FullPivLU` implementation satisfying its contract. -/
def LUObjects {K : Type*} [Field K] [LinearOrder K] {nw : ℕ} (c : CanonPack K nx np nw) (I : Inners K np c.nbe c.nbi c.nne c.nni) : Prop :=
  ∃ (n1 n2 n3 : ℕ) (e1 : FullT np (Fin c.nbe) (Fin c.nbi) (Fin c.nne) (Fin c.nni) ≃ Fin n1) (e2 : NullT np (Fin c.nbe) (Fin c.nne) (Fin c.nni) ≃ Fin n2)
    (e3 : RangeT np (Fin c.nbe) (Fin c.nbi) (Fin c.nni) ≃ Fin n3) (F : ∀ n, (A : Matrix (Fin n) (Fin n) K) → LU.FullLU A) (rank0 : ℕ),
    I = ⟨luInner 0 e1 (F n1) rank0, luInner 0 e2 (F n2) rank0, luInner 0 e3 (F n3) rank0⟩

theorem luObjects_ok {K : Type*} [Field K] [LinearOrder K] [IsStrictOrderedRing K] {nw : ℕ} {M : MasterMatrix K nx np nw} {c : CanonPack K nx np nw} {I : Inners K np c.nbe c.nbi c.nne c.nni} (hlu : LUObjects c I) (h : CanonSpec M c)
    (hE : EchelonOK M) (hR : RowsSpanned M) (hM : ∀ u, SolvesMaster M ⟨0, 0, 0⟩ u → u = ⟨0, 0, 0⟩) (a) : InnerOK .nullspace c I a := by
  obtain ⟨n1, n2, n3, e1, e2, e3, F, rank0, rfl⟩ := hlu
  exact luInner_exact e2 (F n2) rank0 _ _ ((nullspace_injective c.mat).2 (canonical_injective h hE hR hM))

/-- A non-singular master matrix has independent constraint rows. -/
theorem nonsingular_full_rank {K : Type*} [Field K] [LinearOrder K] [IsStrictOrderedRing K] {env : Env K} (ho : ∀ M, (env.o M).lu.Z = 0) {pb : MProblem K nx np ny nz} {ev u} {rf : RFState K nx np ny nz pb.Ax}
    (h : RFSpec env pb ev u rf) (hM : ∀ u, SolvesMaster rf.M ⟨0, 0, 0⟩ u → u = ⟨0, 0, 0⟩) : rf.M.RWQ.nb = ny + nz := by
  refine rf_full_rank ho h fun y hy => ?_
  have := hM ⟨0, 0, y⟩ ⟨fun j _ => by simp [hy], fun j _ => rfl, fun q => by simp, fun l => by simp⟩
  exact congrArg MVec.w this

theorem solvesMaster_sub {K : Type*} [Field K] {nw : ℕ} {M : MasterMatrix K nx np nw} {a b u v : MVec K nx np nw} (hu : SolvesMaster M a u) (hv : SolvesMaster M b v) :
    SolvesMaster M ⟨a.x - b.x, a.p - b.p, a.w - b.w⟩ ⟨u.x - v.x, u.p - v.p, u.w - v.w⟩ := by
  have e : ∀ f : Fin nx → K, ∑ j, (if j ∈ M.ju then 0 else f j * (u.x - v.x) j) = ∑ j, (if j ∈ M.ju then 0 else f j * u.x j) - ∑ j, (if j ∈ M.ju then 0 else f j * v.x j) := by
    intro f
    rw [← Finset.sum_sub_distrib]
    refine Finset.sum_congr rfl fun j _ => ?_
    split_ifs <;> simp [mul_sub]
  refine ⟨fun i hi => ?_, fun i hi => ?_, fun q => ?_, fun l => ?_⟩
  · have h1 := hu.stable i hi
    have h2 := hv.stable i hi
    dsimp only
    rw [e]
    simp only [Pi.sub_apply, mul_sub, Finset.sum_sub_distrib]
    linear_combination h1 - h2
  · simp only [Pi.sub_apply, hu.unstable i hi, hv.unstable i hi]
  · have h1 := hu.par q
    have h2 := hv.par q
    dsimp only
    rw [e]
    simp only [Pi.sub_apply, mul_sub, Finset.sum_sub_distrib]
    linear_combination h1 - h2
  · have h1 := hu.constr l
    have h2 := hv.constr l
    dsimp only
    rw [e]
    simp only [Pi.sub_apply, mul_sub, Finset.sum_sub_distrib]
    linear_combination h1 - h2

/-- A right-hand side has one solution. -/
theorem solvesMaster_rhs {K : Type*} [Field K] {nw : ℕ} {M : MasterMatrix K nx np nw} {a b u : MVec K nx np nw} (hu : SolvesMaster M a u) (hv : SolvesMaster M b u) : a.x = b.x ∧ a.p = b.p ∧ a.w = b.w := by
  refine ⟨funext fun j => ?_, funext fun q => (hu.par q).symm.trans (hv.par q), funext fun l => (hu.constr l).symm.trans (hv.constr l)⟩
  by_cases hj : j ∈ M.ju
  · exact (hu.unstable j hj).symm.trans (hv.unstable j hj)
  · exact (hu.stable j hj).symm.trans (hv.stable j hj)

/-- **C41 (master problem)**: at a point of a family of KKT points with constant active set, where no basic variable is held on a bound and the Jacobian is non-singular, in exact arithmetic:
    the computed sensitivities of `x`, `p`, `w` are the derivatives of the family exactly if the curvature of the constraints does not contribute (e.g. `h` is linear in `x`);
    those of `s` are its derivatives for stable variables and, for unstable variables, exactly if `fxx*x' + fxp*p'` is zero there: the code leaves out this term. -/
theorem sensitivity_derivative {env : Env ℝ} (heps : env.eps = 0) (ho : ∀ M, (env.o M).lu.Z = 0) {pb : MProblem ℝ nx np ny nz} {ev : Evals ℝ nx np nz} {u : MVec ℝ nx np (ny + nz)} {rf : RFState ℝ nx np ny nz pb.Ax}
    (h : RFSpec env pb ev u rf) {I : Inners ℝ np rf.C.nbe rf.C.nbi rf.C.nne rf.C.nni} (hI : LUObjects rf.C I) {fxc : Matrix (Fin nx) (Fin nc) ℝ} {hc : Matrix (Fin nz) (Fin nc) ℝ} {vc : Matrix (Fin np) (Fin nc) ℝ}
    {bc : Matrix (Fin ny) (Fin nc) ℝ} (r0 : MVec ℝ nx np (ny + nz)) (s0 : MSens ℝ nx np (ny + nz) nc) {i : Fin nc} (hM : ∀ u, SolvesMaster rf.M ⟨0, 0, 0⟩ u → u = ⟨0, 0, 0⟩) (hms : rf.status.jms = [])
    {F : Family nx np ny nz} (hF : F.Smooth ev fxc hc vc bc i) (hK : F.Kkt pb rf.M.ju) :
    ((sensSolve rf I fxc hc vc bc r0 s0).col i = ⟨F.x', F.p', F.w'⟩ ↔ ∀ j, j ∉ rf.M.ju → F.curv j = 0) ∧
    (∀ j, HasDerivAt (fun t => F.s pb.Ax t j) (F.s' pb.Ax ev fxc i j) 0) ∧
    (∀ j, j ∉ rf.M.ju → (sensSolve rf I fxc hc vc bc r0 s0).sc j i = F.s' pb.Ax ev fxc i j) ∧
    ((∀ j, j ∉ rf.M.ju → F.curv j = 0) → ∀ j, j ∈ rf.M.ju → ((sensSolve rf I fxc hc vc bc r0 s0).sc j i = F.s' pb.Ax ev fxc i j ↔ ∑ k, ev.fxx j k * F.x' k + ∑ q, ev.fxp j q * F.p' q + F.curv j = 0)) := by
  obtain ⟨hFM, hs0⟩ := family_equations h.Hxx h.Hxp h.Vpx h.Vpp h.Wx h.Wp hF hK
  have hE := rf_echelon heps h
  obtain ⟨hR, hCon⟩ := full_row_rank hE (nonsingular_full_rank ho h hM)
  have hS := sensitivity_equations heps h I fxc hc vc bc r0 s0 i hR (hCon _) (luObjects_ok hI h.canon hE hR hM _) hms
  obtain ⟨-, -, -, -, h4⟩ := sens_columns h.split h.js_eq h.ju_eq I fxc hc vc bc r0 s0 i
  have key : (sensSolve rf I fxc hc vc bc r0 s0).col i = ⟨F.x', F.p', F.w'⟩ ↔ ∀ j, j ∉ rf.M.ju → F.curv j = 0 := by
    constructor
    · intro e j hj
      rw [e] at hS
      have := congrFun (solvesMaster_rhs hFM hS).1 j
      simp only [sensRhs, if_neg hj] at this
      linarith
    · intro hz
      have := hM _ (by
        have e := solvesMaster_sub hS hFM
        have e0 : ∀ j, ((sensRhs rf.M.ju fxc hc vc bc i).x - fun j => if j ∈ rf.M.ju then 0 else -fxc j i - F.curv j) j = 0 := by
          intro j
          simp only [sensRhs, Pi.sub_apply]
          by_cases hj : j ∈ rf.M.ju
          · simp [hj]
          · simp [hj, hz j hj]
        simp only [sub_self] at e
        rw [show ((sensRhs rf.M.ju fxc hc vc bc i).x - fun j => if j ∈ rf.M.ju then 0 else -fxc j i - F.curv j) = 0 from funext e0] at e
        exact e)
      have e1 := congrArg MVec.x this
      have e2 := congrArg MVec.p this
      have e3 := congrArg MVec.w this
      dsimp only at e1 e2 e3
      ext j
      · exact congrFun (sub_eq_zero.1 e1) j
      · exact congrFun (sub_eq_zero.1 e2) j
      · exact congrFun (sub_eq_zero.1 e3) j
  refine ⟨key, fun j => family_s hF pb.Ax j, fun j hj => by rw [h4, if_neg hj, hs0 j hj], fun hz j hj => ?_⟩
  have hw : ∀ l, (sensSolve rf I fxc hc vc bc r0 s0).wc l i = F.w' l := fun l => congrFun (congrArg MVec.w (key.2 hz)) l
  have e : ∑ l, rf.M.Wx l j * F.w' l = ∑ l, pb.Ax l j * F.w' (Fin.castAdd nz l) + ∑ l, ev.hx l j * F.w' (Fin.natAdd ny l) := by
    rw [Fin.sum_univ_add, h.Wx]
    simp [stack]
  rw [h4, if_pos hj]
  simp only [hw, e, Family.s']
  constructor <;> intro H <;> linear_combination -H

end Optima
