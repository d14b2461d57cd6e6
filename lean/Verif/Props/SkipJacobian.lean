import Verif.Model.SkipJacobian
import Verif.Props.NewtonStep
import Verif.Props.Convex
import Verif.Props.QuadraticSolve

/-!
# C86: the residual function without evaluations of the derivatives
-/

namespace Optima

open Matrix

namespace Ech

variable {K : Type*} [Field K] [LinearOrder K] [IsStrictOrderedRing K] {n mA mJ nx np ny nz : ℕ}

omit [LinearOrder K] [IsStrictOrderedRing K] in
theorem extend_only {nbA nnA nlA nbJ nnJ nlJ : ℕ} (eA : State K mA n nbA nnA nlA) (J : Matrix (Fin mJ) (Fin n) K) (eJ : State K mJ nnA nbJ nnJ nlJ) (h : Fin nbJ → False) (a : Fin nbA ⊕ Fin nbJ) (j : Fin mJ) :
    (extend eA J eJ).Rt a (Sum.inr j) = 0 := by
  rcases a with b | b
  · unfold extend
    dsimp only
    rw [fromBlocks_apply₁₂, mul_apply]
    exact Finset.sum_eq_zero fun k _ => (h k).elim
  · exact (h b).elim

/-- The basic rows of `R` have no entries in the columns of `J`. -/
def OnlyA {A : Matrix (Fin mA) (Fin n) K} (s : ExtState A) : Prop := ∀ i r, mA ≤ r.val → s.form.R (Sum.inl i) r = 0

theorem extUpdate_zero (o : LUOracle K) (sort : SortImpl K) {thr : K} (hthr : 0 ≤ thr) {A : Matrix (Fin mA) (Fin n) K} {s : ExtState A} (h : ExtInv s) (w : Fin n → K) :
    OnlyA (extUpdate o sort thr s (0 : Matrix (Fin mJ) (Fin n) K) w) := by
  unfold extUpdate
  dsimp only
  split_ifs with hJ
  · intro i r hr
    exact absurd r.isLt (not_lt.2 hr)
  · have hz : reducedJ (s.eA.priority sort thr w).e (0 : Matrix (Fin mJ) (Fin n) K) = 0 := by
      ext i j
      simp [reducedJ]
    have hj := priority_inv sort hthr (fun k => w ((s.eA.priority sort thr w).e.Q (Sum.inr k)))
      (machine_compute_inv o h.j ⟨mJ, (s.eA.priority sort thr w).nn, reducedJ (s.eA.priority sort thr w).e 0⟩)
    have hE : ∀ k : Fin ((Machine.compute o s.eJ ⟨mJ, (s.eA.priority sort thr w).nn, reducedJ (s.eA.priority sort thr w).e 0⟩).nb), False := by
      intro k
      have e := hj.cur.topB k k
      simp only [hz, Matrix.zero_apply, mul_zero, Finset.sum_const_zero, if_true] at e
      exact one_ne_zero e.symm
    rw [OnlyA]
    intro i r hr
    obtain ⟨j, rfl⟩ : ∃ j : Fin mJ, r = Fin.natAdd mA j := ⟨⟨r.val - mA, by have := r.isLt; change r.val < mA + mJ at this; omega⟩, by ext; simp; omega⟩
    have key : ∀ a, ((extend (s.eA.priority sort thr w).e (0 : Matrix (Fin mJ) (Fin n) K) (EchFor.priority sort thr (Machine.compute o s.eJ ⟨mJ, (s.eA.priority sort thr w).nn, reducedJ (s.eA.priority sort thr w).e 0⟩)
        (fun k => w ((s.eA.priority sort thr w).e.Q (Sum.inr k)))).e).flat A 0).R (Sum.inl a) (Fin.natAdd mA j) = 0 := by
      intro a
      change (extend _ _ _).Rt (finSumFinEquiv.symm a) (finSumFinEquiv.symm (Fin.natAdd mA j)) = 0
      rw [finSumFinEquiv_symm_apply_natAdd]
      exact extend_only _ _ _ hE _ _
    exact key _

/-- An update of `EchelonizerW` with `Jx = 0`: the basic rows of `R` have no entries in the columns of the non-linear constraints. -/
theorem wUpdate_zero {debug : Bool} {o : LUOracle K} {sort : SortImpl K} {thr eps : K} (hthr : 0 ≤ thr) {Ax : Matrix (Fin ny) (Fin nx) K} {Ap : Matrix (Fin ny) (Fin np) K} {s s' : WState K nx np ny nz Ax}
    (h : WReach debug o sort thr eps Ax Ap s) (Jp : Matrix (Fin nz) (Fin np) K) (w : Fin nx → K) (hu : wUpdate debug o sort thr eps s 0 Jp w = .ok s') {q} (hq : s'.rwq = some q) (b : Fin q.nb) (l : Fin nz) :
    q.Rb b (Fin.natAdd ny l) = 0 := by
  have hz := extUpdate_zero (mJ := nz) o sort hthr (extReach_inv hthr (wReach_ext h).1) w
  unfold wUpdate at hu
  split_ifs at hu
  dsimp only at hu
  split at hu
  · rename_i q' e
    cases hu
    cases hq
    unfold assembleRWQ at e
    split_ifs at e with hM
    cases e
    exact hz b _ (by simp)
  · cases hu

end Ech

variable {τ K : Type*} [Field K] [LinearOrder K] [IsStrictOrderedRing K] {nx np ny nz nc : ℕ}

theorem stab_w {m n : ℕ} (P : Idx.PartitionImpl (Fin n)) (a : Stab.Args K n m) (w' : Fin m → K) (h : a.Wxᵀ *ᵥ w' = a.Wxᵀ *ᵥ a.w) : Stab.update P { a with w := w' } = Stab.update P a := by
  unfold Stab.update
  dsimp only
  rw [h]
  rfl

/-- Without entries of `R` in the columns of the non-linear constraints, and without their derivatives, neither their values nor their multipliers change the errors. -/
theorem errors_indep (eps : K) {nbe nbi nne nni nnu : ℕ} (C : Canon K nx np (ny + nz) (Fin nbe) (Fin nbi) (Fin nne) (Fin nni) (Fin nnu)) (hR : ∀ b l, C.Rbs b (Fin.natAdd ny l) = 0) (ax0 : Fin nx → K)
    (a : ResidualArgs K nx np ny nz) (hW : ∀ l i, a.Wx (Fin.natAdd ny l) i = 0) (z' h' : Fin nz → K) (xlower xupper : Fin nx → Option K) (x : Fin nx → K) (ew0 : Fin (ny + nz) → K) :
    (residualUpdate eps C ax0 { a with z := z', h := h' }).canonical = (residualUpdate eps C ax0 a).canonical ∧
    (residualErrors C xlower xupper x (residualUpdate eps C ax0 { a with z := z', h := h' }) ew0).error = (residualErrors C xlower xupper x (residualUpdate eps C ax0 a) ew0).error := by
  have hJ : a.Wx.submatrix (Fin.natAdd ny) id = 0 := by ext l i; exact hW l i
  have hm : ∀ v v' : Fin (ny + nz) → K, (∀ l, v (Fin.castAdd nz l) = v' (Fin.castAdd nz l)) → Utils.multiplyClean eps C.Rbs v = Utils.multiplyClean eps C.Rbs v' := by
    intro v v' hv
    funext b
    unfold Utils.multiplyClean
    simp only [Fin.sum_univ_add, hR, hv, zero_mul, abs_zero]
  have hc : (residualUpdate eps C ax0 { a with z := z', h := h' }).canonical = (residualUpdate eps C ax0 a).canonical := by
    unfold residualUpdate
    dsimp only
    rw [hJ, hm _ (Fin.addCases (a.b - (a.Wx.submatrix (Fin.castAdd nz) id).submatrix id C.ju *ᵥ (a.x ∘ C.ju)) ((0 : Matrix (Fin nz) (Fin nx) K).submatrix id C.js *ᵥ (a.x ∘ C.js) + a.Wp.submatrix (Fin.natAdd ny) id *ᵥ a.p - a.h)) (fun l => by simp only [Fin.addCases_left])]
    simp [Matrix.submatrix_zero]
  have hx : (residualUpdate eps C ax0 { a with z := z', h := h' }).master.x = (residualUpdate eps C ax0 a).master.x := by
    unfold residualUpdate
    dsimp only
    rw [hJ]
    simp [Matrix.submatrix_zero]
  have hp : (residualUpdate eps C ax0 { a with z := z', h := h' }).master.p = (residualUpdate eps C ax0 a).master.p := rfl
  refine ⟨hc, ?_⟩
  unfold residualErrors
  dsimp only
  rw [hc, hx, hp]

/-- **The residual function with `Jx = 0`**: whatever the values of the non-linear constraints and their multipliers are, the same split of the variables, the same echelon form and the same error. -/
theorem rf_ignores_h {env : Env K} (hthr : 0 ≤ env.thr) {pb : MProblem K nx np ny nz} {e : Ech.WState K nx np ny nz pb.Ax} (hr : Ech.WReach env.debug env.o env.sort env.thr env.eps pb.Ax pb.Ap e)
    (hnx : 0 < nx) (heps : 0 ≤ env.eps) {ax0 ev u s} (hx : ev.hx = 0) (h : rfUpdate env pb e ax0 ev u = .ok s) (h' : Fin nz → K) (w' : Fin (ny + nz) → K) (hw : ∀ l, w' (Fin.castAdd nz l) = u.w (Fin.castAdd nz l)) :
    ∃ s', rfUpdate env pb e ax0 { ev with h := h' } { u with w := w' } = .ok s' ∧ s'.ech = s.ech ∧ s'.status = s.status ∧ s'.M = s.M ∧
      ∀ ew0, (residualErrors s'.C.mat pb.xlower pb.xupper u.x s'.res ew0).error = (residualErrors s.C.mat pb.xlower pb.xupper u.x s.res ew0).error := by
  have hsp : RFSpec env pb ev u s := by
    rcases rfUpdate_spec hthr heps pb hr hnx ax0 ev u with ⟨s', e1, e2⟩ | ⟨e1, -⟩
    · rw [h] at e1; cases e1; exact e2
    · rw [h] at e1; cases e1
  obtain ⟨hu, hq⟩ := rfUpdate_wUpdate h
  have hR : ∀ b l, s.M.RWQ.Rb b (Fin.natAdd ny l) = 0 := by
    rw [hx] at hu
    exact fun b l => Ech.wUpdate_zero hthr hr ev.hp _ hu hq b l
  have hWz : ∀ l i, s.ech.W (Fin.natAdd ny l) (Sum.inl i) = 0 := by
    intro l i
    rw [(Ech.echelonW_spec hthr heps hr ev.hx ev.hp _ hu).1.2.2.1 l i, hx]
    rfl
  have hst : ∀ jb, Stab.update (env.P nx) { Wx := s.ech.W.submatrix id Sum.inl, g := ev.fx, x := u.x, w := w', xlower := pb.xlower, xupper := pb.xupper, jb := jb } =
      Stab.update (env.P nx) { Wx := s.ech.W.submatrix id Sum.inl, g := ev.fx, x := u.x, w := u.w, xlower := pb.xlower, xupper := pb.xupper, jb := jb } := by
    intro jb
    refine stab_w (env.P nx) { Wx := s.ech.W.submatrix id Sum.inl, g := ev.fx, x := u.x, w := u.w, xlower := pb.xlower, xupper := pb.xupper, jb := jb } w' ?_
    funext i
    simp only [mulVec, dotProduct, transpose_apply, submatrix_apply, id, Fin.sum_univ_add, hWz, hw, zero_mul]
  have hcan := hsp.canon
  have hRz : ∀ b l, s.C.mat.Rbs b (Fin.natAdd ny l) = 0 := by
    obtain ⟨σ, -, -, -, -, -, -, -, hRb⟩ := hcan.ech
    exact fun b l => (hRb b _).trans (hR _ l)
  unfold rfUpdate at h ⊢
  dsimp only at h ⊢
  rw [hu] at h ⊢
  dsimp only at h ⊢
  rw [hq] at h ⊢
  dsimp only at h ⊢
  rw [hst]
  split_ifs at h ⊢ with hd
  have hM : masterForm { ev with h := h' } s.ech.W s.M.RWQ (Stab.status (Stab.update (env.P nx) { Wx := s.ech.W.submatrix id Sum.inl, g := ev.fx, x := u.x, w := u.w, xlower := pb.xlower, xupper := pb.xupper, jb := List.ofFn s.M.RWQ.jb }).1) =
      masterForm ev s.ech.W s.M.RWQ (Stab.status (Stab.update (env.P nx) { Wx := s.ech.W.submatrix id Sum.inl, g := ev.fx, x := u.x, w := u.w, xlower := pb.xlower, xupper := pb.xupper, jb := List.ofFn s.M.RWQ.jb }).1) := rfl
  rw [hM]
  split at h
  · cases h
  · cases h
  · rename_i C hC
    injection h with h
    refine ⟨_, rfl, rfl, ?_, ?_, ?_⟩
    · have e := congrArg RFState.status h
      exact e
    · have e := congrArg RFState.M h
      exact e
    · intro ew0
      conv_rhs => rw [← h]
      rw [← h] at hRz
      dsimp only at hRz ⊢
      have := (errors_indep env.eps C.mat hRz ax0 { Wx := s.ech.W.submatrix id Sum.inl, Wp := s.ech.W.submatrix id Sum.inr, x := u.x, p := u.p, y := fun i => u.w (Fin.castAdd nz i), z := fun j => u.w (Fin.natAdd ny j), g := ev.fx, v := ev.v, b := pb.b, h := ev.h }
        hWz (fun j => w' (Fin.natAdd ny j)) h' pb.xlower pb.xupper u.x ew0).2
      simp only [hw]
      exact this

/-- The error reported by the residual function in exact arithmetic. -/
theorem rf_error_iff {env : Env K} (heps : env.eps = 0) {pb : MProblem K nx np ny nz} {ev u} {s : RFState K nx np ny nz pb.Ax} (hs : RFSpec env pb ev u s) (ew0 : Fin (ny + nz) → K) {t : K} (ht : 0 ≤ t) :
    (residualErrors s.C.mat pb.xlower pb.xupper u.x s.res ew0).error ≤ t ↔
      (∀ i, i ∉ s.M.ju → ¬ ((∃ b, s.M.RWQ.jb b = i) ∧ OnBound pb.xlower pb.xupper u.x i) → |lagGrad (rfArgs pb s.M ev u) i| ≤ t) ∧ (∀ q, |ev.v q| ≤ t) ∧
      ∀ b, |∑ l, s.M.RWQ.Rb b l * feasRes (rfArgs pb s.M ev u) l| ≤ t := by
  obtain ⟨ax0, hres⟩ := hs.res
  have hE : EchelonOK s.M := by
    refine ⟨hs.b, hs.n, ?_⟩
    ext i q
    obtain ⟨m, hm⟩ : ∃ m : K, ∀ i q, |(s.M.RWQ.Rb * s.M.Wp) i q| ≤ m :=
      ⟨∑ i, ∑ q, |(s.M.RWQ.Rb * s.M.Wp) i q|, fun i q => (Finset.single_le_sum (f := fun q => |(s.M.RWQ.Rb * s.M.Wp) i q|) (fun _ _ => abs_nonneg _) (Finset.mem_univ q)).trans
        (Finset.single_le_sum (f := fun i => ∑ q, |(s.M.RWQ.Rb * s.M.Wp) i q|) (fun _ _ => Finset.sum_nonneg fun _ _ => abs_nonneg _) (Finset.mem_univ i))⟩
    have := hs.p m hm i q
    rw [heps, zero_mul, zero_mul] at this
    exact (sub_eq_zero.1 (abs_nonpos_iff.1 this)).symm
  rw [hres, heps]
  obtain ⟨m1, m2, m3, m4, -⟩ := residual_master 0 hs.canon ax0 (rfArgs pb s.M ev u)
  have m5 := residual_canonical_exact hs.canon hE ax0 (rfArgs pb s.M ev u) rfl rfl
  obtain ⟨σ, -, hσ, -, -, -, -, -, hRb⟩ := hs.canon.ech
  refine (error_le_iff hs.canon (basics_le_rows hs.canon hs.b) pb.xlower pb.xupper u.x _ ew0 t ht).trans (and_congr ?_ (and_congr ?_ ?_))
  · refine forall_congr' fun i => forall_congr' fun hi => forall_congr' fun _ => ?_
    rw [m1 i hi, abs_neg]
  · refine forall_congr' fun q => ?_
    rw [m3 q, abs_neg]
    rfl
  · simp only [m5, hRb]
    constructor
    · intro h b
      obtain ⟨k, rfl⟩ := hσ.2 b
      exact h k
    · exact fun h k => h (σ k)

/-- The canonical constraint residual in the order of the echelon form. -/
def wbsOf (eps : K) (M : MasterMatrix K nx np (ny + nz)) (a : ResidualArgs K nx np ny nz) (b : Fin M.RWQ.nb) : K :=
  ∑ l, M.RWQ.Rb b l * feasRes a l + ((Utils.multiplyClean eps M.RWQ.Rb (starRes M.ju a) b - (M.RWQ.Rb *ᵥ starRes M.ju a) b) - ∑ q, (M.RWQ.Sbp b q - ∑ l, M.RWQ.Rb b l * M.Wp l q) * a.p q)

/-- The error reported by the residual function, with the round-off thresholds. -/
theorem rf_error_iff_eps {env : Env K} {pb : MProblem K nx np ny nz} {ev u} {s : RFState K nx np ny nz pb.Ax} (hs : RFSpec env pb ev u s) (ew0 : Fin (ny + nz) → K) {t : K} (ht : 0 ≤ t) :
    (residualErrors s.C.mat pb.xlower pb.xupper u.x s.res ew0).error ≤ t ↔
      (∀ i, i ∉ s.M.ju → ¬ ((∃ b, s.M.RWQ.jb b = i) ∧ OnBound pb.xlower pb.xupper u.x i) → |lagGrad (rfArgs pb s.M ev u) i| ≤ t) ∧ (∀ q, |ev.v q| ≤ t) ∧
      ∀ b, |wbsOf env.eps s.M (rfArgs pb s.M ev u) b| ≤ t := by
  obtain ⟨ax0, hres⟩ := hs.res
  rw [hres]
  obtain ⟨m1, m2, m3, m4, -⟩ := residual_master env.eps hs.canon ax0 (rfArgs pb s.M ev u)
  have m5 := residual_canonical_split env.eps hs.canon hs.b hs.n ax0 (rfArgs pb s.M ev u) rfl rfl
  obtain ⟨σ, -, hσ, -, -, -, -, hSp, hRb⟩ := hs.canon.ech
  have m6 : ∀ b, (residualUpdate env.eps s.C.mat ax0 (rfArgs pb s.M ev u)).canonical.wbs b = wbsOf env.eps s.M (rfArgs pb s.M ev u) (σ b) := by
    intro b
    rw [sub_eq_iff_eq_add'.1 (m5 b)]
    unfold wbsOf Utils.multiplyClean
    simp only [mulVec, dotProduct, hRb, hSp]
  refine (error_le_iff hs.canon (basics_le_rows hs.canon hs.b) pb.xlower pb.xupper u.x _ ew0 t ht).trans (and_congr ?_ (and_congr ?_ ?_))
  · refine forall_congr' fun i => forall_congr' fun hi => forall_congr' fun _ => ?_
    rw [m1 i hi, abs_neg]
  · refine forall_congr' fun q => ?_
    rw [m3 q, abs_neg]
    rfl
  · simp only [m6]
    constructor
    · intro h b
      obtain ⟨k, rfl⟩ := hσ.2 b
      exact h k
    · exact fun h k => h (σ k)

/-- Parts of an update of the residual function. -/
theorem rfUpdate_parts {env : Env K} {pb : MProblem K nx np ny nz} {e : Ech.WState K nx np ny nz pb.Ax} {ax0 ev u s} (h : rfUpdate env pb e ax0 ev u = .ok s) :
    s.status = Stab.status (Stab.update (env.P nx) { Wx := s.ech.W.submatrix id Sum.inl, g := ev.fx, x := u.x, w := u.w, xlower := pb.xlower, xupper := pb.xupper, jb := List.ofFn s.M.RWQ.jb }).1 := by
  obtain ⟨hu, hq⟩ := rfUpdate_wUpdate h
  unfold rfUpdate at h
  dsimp only at h
  rw [hu] at h
  dsimp only at h
  rw [hq] at h
  dsimp only at h
  split_ifs at h with hd
  split at h
  · cases h
  · cases h
  · injection h with h
    have e := congrArg RFState.status h
    exact e.symm

theorem rf_error_nonneg {pb : MProblem K nx np ny nz} {u : MVec K nx np (ny + nz)} {s : RFState K nx np ny nz pb.Ax} (ew0 : Fin (ny + nz) → K) :
    0 ≤ (residualErrors s.C.mat pb.xlower pb.xupper u.x s.res ew0).error := le_trans (normInf_nonneg _) (le_max_right _ _)

theorem rfUpdate_rfSpec {env : Env K} (hthr : 0 ≤ env.thr) (heps : 0 ≤ env.eps) {pb : MProblem K nx np ny nz} {e : Ech.WState K nx np ny nz pb.Ax} (hr : Ech.WReach env.debug env.o env.sort env.thr env.eps pb.Ax pb.Ap e)
    (hnx : 0 < nx) {ax0 ev u s} (h : rfUpdate env pb e ax0 ev u = .ok s) : RFSpec env pb ev u s := by
  rcases rfUpdate_spec hthr heps pb hr hnx ax0 ev u with ⟨s', e1, e2⟩ | ⟨e1, -⟩
  · rw [h] at e1; cases e1; exact e2
  · rw [h] at e1; cases e1

/-- The second derivatives of the objective function and the derivatives of `v` play no part in the master residual and in the error; they change the order of the canonical variables only. -/
theorem rf_error_congr {env : Env K} (hthr : 0 ≤ env.thr) (heps : 0 ≤ env.eps) {pb : MProblem K nx np ny nz} {e : Ech.WState K nx np ny nz pb.Ax} (hr : Ech.WReach env.debug env.o env.sort env.thr env.eps pb.Ax pb.Ap e)
    (hnx : 0 < nx) {ax0 ev ev' u s s'} (hfx : ev'.fx = ev.fx) (hv : ev'.v = ev.v) (hh : ev'.h = ev.h) (hhx : ev'.hx = ev.hx) (hhp : ev'.hp = ev.hp) (h : rfUpdate env pb e ax0 ev u = .ok s)
    (h' : rfUpdate env pb e ax0 ev' u = .ok s') :
    s'.ech = s.ech ∧ s'.status = s.status ∧ s'.res.master = s.res.master ∧ ∀ ew0 ew0', (residualErrors s'.C.mat pb.xlower pb.xupper u.x s'.res ew0').error = (residualErrors s.C.mat pb.xlower pb.xupper u.x s.res ew0).error := by
  have hs := rfUpdate_rfSpec hthr heps hr hnx h
  have hs' := rfUpdate_rfSpec hthr heps hr hnx h'
  obtain ⟨hu, hq⟩ := rfUpdate_wUpdate h
  obtain ⟨hu', hq'⟩ := rfUpdate_wUpdate h'
  have he : s'.ech = s.ech := by
    rw [hhx, hhp, hu] at hu'
    exact ((Ech.WOut.ok.injEq _ _).mp hu').symm
  have hQ : s'.M.RWQ = s.M.RWQ := by
    rw [he, hq] at hq'
    exact (Option.some.inj hq').symm
  have hst : s'.status = s.status := by
    rw [rfUpdate_parts h, rfUpdate_parts h', he, hQ, hfx]
  have hju : s'.M.ju = s.M.ju := by rw [← hs.ju_eq, ← hs'.ju_eq, hst]
  have harg : rfArgs pb s'.M ev' u = rfArgs pb s.M ev u := by
    unfold rfArgs
    rw [hs.Wx, hs.Wp, hs'.Wx, hs'.Wp, hfx, hv, hh, hhx, hhp]
  refine ⟨he, hst, ?_, fun ew0 ew0' => ?_⟩
  · obtain ⟨ax1, hres⟩ := hs.res
    obtain ⟨ax1', hres'⟩ := hs'.res
    obtain ⟨a1, a2, a3, a4, -⟩ := residual_master env.eps hs.canon ax1 (rfArgs pb s.M ev u)
    obtain ⟨b1, b2, b3, b4, -⟩ := residual_master env.eps hs'.canon ax1' (rfArgs pb s'.M ev' u)
    rw [← hres] at a1 a2 a3 a4
    rw [← hres'] at b1 b2 b3 b4
    rw [harg] at b1 b4
    have x : s'.res.master.x = s.res.master.x := by
      funext i
      by_cases hi : i ∈ s.M.ju
      · rw [a2 i hi, b2 i (by rw [hju]; exact hi)]
      · rw [a1 i hi, b1 i (by rw [hju]; exact hi)]
    have p : s'.res.master.p = s.res.master.p := by funext q; rw [a3, b3, harg]
    have w : s'.res.master.w = s.res.master.w := by funext q; rw [a4, b4]
    generalize s'.res.master = m' at x p w ⊢
    generalize s.res.master = m at x p w ⊢
    cases m
    cases m'
    simp_all
  · have key : ∀ t, 0 ≤ t → ((residualErrors s'.C.mat pb.xlower pb.xupper u.x s'.res ew0').error ≤ t ↔ (residualErrors s.C.mat pb.xlower pb.xupper u.x s.res ew0).error ≤ t) := by
      intro t ht
      have hW : ∀ b b', b.val = b'.val → wbsOf env.eps s'.M (rfArgs pb s'.M ev' u) b = wbsOf env.eps s.M (rfArgs pb s.M ev u) b' := by
        rw [harg]
        have hWp : s'.M.Wp = s.M.Wp := by rw [hs.Wp, hs'.Wp, hhp]
        unfold wbsOf
        rw [hju, hWp]
        generalize s'.M.RWQ = q' at hQ ⊢
        subst hQ
        intro b b' e
        rw [Fin.ext e]
      have hn : s'.M.RWQ.nb = s.M.RWQ.nb := by rw [hQ]
      rw [rf_error_iff_eps hs ew0 ht, rf_error_iff_eps hs' ew0' ht, harg, hju, hv]
      refine and_congr (by rw [hQ]) (and_congr_right fun _ => ?_)
      constructor
      · intro k b
        have := k (Fin.cast hn.symm b)
        rwa [← harg, hW _ b rfl] at this
      · intro k b
        have := k (Fin.cast hn b)
        rwa [← hW b _ rfl, harg] at this
    exact le_antisymm ((key _ (rf_error_nonneg ew0)).2 le_rfl) ((key _ (rf_error_nonneg ew0')).1 le_rfl)

/-! ## `updateSkipJacobian` -/

/-- The constraint function leaves the derivatives that are not asked for as they are (ConstraintFunction.hpp:95-110). -/
def ConFn.Lazy {nq : ℕ} (h : ConFn τ K nq nx np nc) : Prop :=
  ∀ fn, h.fn = some fn → ∀ t res x p c opts t' res', fn t res x p c opts = some (t', res') → (opts.ddx = false → res'.ddx = res.ddx) ∧ (opts.ddp = false → res'.ddp = res.ddp)

omit [LinearOrder K] [IsStrictOrderedRing K] in
theorem ConFn.pure_lazy {nq : ℕ} (val : (Fin nx → K) → (Fin np → K) → (Fin nc → K) → Fin nq → K) (ddx : (Fin nx → K) → (Fin np → K) → (Fin nc → K) → Matrix (Fin nq) (Fin nx) K)
    (ddp : (Fin nx → K) → (Fin np → K) → (Fin nc → K) → Matrix (Fin nq) (Fin np) K) (ddc : (Fin nx → K) → (Fin np → K) → (Fin nc → K) → Matrix (Fin nq) (Fin nc) K) :
    (ConFn.pure val ddx ddp ddc : ConFn τ K nq nx np nc).Lazy := by
  intro fn hfn t res x p c opts t' res' h
  cases hfn
  cases h
  exact ⟨fun e => by simp [e], fun e => by simp [e]⟩

omit [LinearOrder K] [IsStrictOrderedRing K] in
/-- After a call of an objective function that obeys the options, a derivative is the one of the function if it was asked for, and zero if not, whatever the result object contained. -/
theorem ObjFn.pure_call (f : (Fin nx → K) → (Fin np → K) → (Fin nc → K) → K) (fx : (Fin nx → K) → (Fin np → K) → (Fin nc → K) → Fin nx → K) (fxx : (Fin nx → K) → (Fin np → K) → (Fin nc → K) → Matrix (Fin nx) (Fin nx) K)
    (fxp : (Fin nx → K) → (Fin np → K) → (Fin nc → K) → Matrix (Fin nx) (Fin np) K) (fxc : (Fin nx → K) → (Fin np → K) → (Fin nc → K) → Matrix (Fin nx) (Fin nc) K) (t : τ) (res : ObjRes K nx np nc) (x p c) (opts : EvalOpts) :
    ∃ res', (ObjFn.pure f fx fxx fxp fxc : ObjFn τ K nx np nc).call t res x p c opts = some (t, res') ∧ res'.f = f x p c ∧ res'.fx = fx x p c ∧ (opts.ddx = true → res'.fxx = fxx x p c) ∧ (opts.ddx = false → res'.fxx = 0) ∧
      (opts.ddp = true → res'.fxp = fxp x p c) ∧ (opts.ddp = false → res'.fxp = 0) ∧ (opts.ddc = true → res'.fxc = fxc x p c) ∧ (opts.ddc = false → res'.fxc = 0) := by
  refine ⟨_, rfl, rfl, rfl, fun e => ?_, fun e => ?_, fun e => ?_, fun e => ?_, fun e => ?_, fun e => ?_⟩ <;> simp [e, ObjRes.clear]

omit [LinearOrder K] [IsStrictOrderedRing K] in
/-- The same for constraint functions. -/
theorem ConFn.pure_call {nq : ℕ} (val : (Fin nx → K) → (Fin np → K) → (Fin nc → K) → Fin nq → K) (ddx : (Fin nx → K) → (Fin np → K) → (Fin nc → K) → Matrix (Fin nq) (Fin nx) K) (ddp : (Fin nx → K) → (Fin np → K) → (Fin nc → K) → Matrix (Fin nq) (Fin np) K)
    (ddc : (Fin nx → K) → (Fin np → K) → (Fin nc → K) → Matrix (Fin nq) (Fin nc) K) (t : τ) (res : ConRes K nq nx np nc) (x p c) (opts : EvalOpts) :
    ∃ res', (ConFn.pure val ddx ddp ddc : ConFn τ K nq nx np nc).call t res x p c opts = some (t, res') ∧ res'.val = val x p c ∧ (opts.ddx = true → res'.ddx = ddx x p c) ∧ (opts.ddx = false → res'.ddx = 0) ∧
      (opts.ddp = true → res'.ddp = ddp x p c) ∧ (opts.ddp = false → res'.ddp = 0) ∧ (opts.ddc = true → res'.ddc = ddc x p c) ∧ (opts.ddc = false → res'.ddc = 0) := by
  refine ⟨_, rfl, rfl, fun e => ?_, fun e => ?_, fun e => ?_, fun e => ?_, fun e => ?_, fun e => ?_⟩ <;> simp [e, ConRes.clear]

omit [LinearOrder K] [IsStrictOrderedRing K] in
/-- With such a constraint function the derivatives of the constraints are zero after the call, whatever they were before it: `operator()` clears them (ConstraintFunction.cpp:48-58). -/
theorem skip_clears {nw : ℕ} {F : MFuns τ K nx np nz nc} (hl : F.h.Lazy) {c first t x p} {q : Option (Ech.RWQ K nx np nw)} {t' ev} (h : userCode F c first false false false t x p q = some (t', ev)) : ev.hx = 0 ∧ ev.hp = 0 := by
  rcases Nat.eq_zero_or_pos nz with hz | hz
  · subst hz
    exact ⟨Subsingleton.elim _ _, Subsingleton.elim _ _⟩
  unfold userCode functionEvals at h
  dsimp only at h
  rcases hr : F.r.call t.1 x p c { ddx := false, ddp := false && decide (np ≠ 0), ddc := false && decide (nc ≠ 0), ibasicvars := basicIndices first q } with _ | t1
  · rw [hr] at h; cases h
  rw [hr] at h
  dsimp only at h
  rcases hf : F.f.call t1 t.2.f x p c { ddx := false, ddp := false && decide (np ≠ 0), ddc := false && decide (nc ≠ 0), ibasicvars := basicIndices first q } with _ | ⟨t2, fres⟩
  · rw [hf] at h; cases h
  rw [hf] at h
  dsimp only at h
  rw [if_pos hz.ne'] at h
  rcases hh : F.h.call t2 t.2.h x p c { ddx := false, ddp := false && decide (np ≠ 0), ddc := false && decide (nc ≠ 0), ibasicvars := basicIndices first q } with _ | ⟨t3, hres⟩
  · rw [hh] at h; cases h
  rw [hh] at h
  dsimp only at h
  have hH : hres.ddx = 0 ∧ hres.ddp = 0 := by
    unfold ConFn.call at hh
    split at hh
    · cases hh
    · rename_i fn hfn
      obtain ⟨e1, e2⟩ := hl fn hfn _ _ _ _ _ _ _ _ hh
      exact ⟨e1 rfl, e2 rfl⟩
  split at h
  · cases h
  · rename_i e
    split at e
    · cases e
    · cases e
      cases h
      exact hH

/-- **`updateSkipJacobian` loses the non-linear constraints**: after it (exact arithmetic, constraint function that obeys the options) the error is at most `t` as soon as the gradient *without the terms of the
    non-linear constraints*, `v` and the linear constraints are: neither the value of `h` nor its multipliers play any part. -/
theorem skip_error {cfg : Config K nx np ny nz (τ × ResMem K nx np nz nc)} (hthr : 0 ≤ cfg.env.thr) (heps : cfg.env.eps = 0) (hnx : 0 < nx) {F : MFuns τ K nx np nz nc} (hl : F.h.Lazy) {c first s u s'}
    (hs : Reach cfg s) (h : skipJacobian cfg F c first s u = some s') :
    ∃ t ev rf, userCode F c first false false false s.user u.x u.p s.ech.rwq = some (t, ev) ∧ s'.rf = some rf ∧ RFSpec cfg.env cfg.pb ev u rf ∧ rf.M.Wx = stack cfg.pb.Ax 0 ∧
      ∀ t, 0 ≤ t → (s'.errors.error ≤ t ↔
        (∀ i, i ∉ rf.M.ju → ¬ ((∃ b, rf.M.RWQ.jb b = i) ∧ OnBound cfg.pb.xlower cfg.pb.xupper u.x i) → |ev.fx i + ∑ l, cfg.pb.Ax l i * u.w (Fin.castAdd nz l)| ≤ t) ∧ (∀ q, |ev.v q| ≤ t) ∧
        ∀ b, |∑ l, rf.M.RWQ.Rb b (Fin.castAdd nz l) * (cfg.pb.b l - ∑ j, cfg.pb.Ax l j * u.x j - ∑ q, cfg.pb.Ap l q * u.p q)| ≤ t) := by
  obtain ⟨s1, h1, rfl⟩ := Option.map_eq_some_iff.1 h
  unfold Config.updateF at h1
  split at h1
  · cases h1
  · rename_i t ev hu
    split at h1
    · rename_i rf hrf
      cases h1
      obtain ⟨hx, hp⟩ := skip_clears hl hu
      have hsp := rfUpdate_rfSpec hthr heps.ge hs hnx hrf
      refine ⟨t, ev, rf, hu, rfl, hsp, by rw [hsp.Wx, hx], fun t ht => ?_⟩
      have hR : ∀ b l, rf.M.RWQ.Rb b (Fin.natAdd ny l) = 0 := by
        obtain ⟨hu, hq⟩ := rfUpdate_wUpdate hrf
        rw [hx] at hu
        exact fun b l => Ech.wUpdate_zero hthr hs ev.hp _ hu hq b l
      refine (rf_error_iff heps hsp s.errors.ewbar ht).trans ?_
      have e1 : ∀ i, lagGrad (rfArgs cfg.pb rf.M ev u) i = ev.fx i + ∑ l, cfg.pb.Ax l i * u.w (Fin.castAdd nz l) := by
        intro i
        simp [lagGrad, rfArgs, hsp.Wx, hx, stack]
      have e2 : ∀ b, ∑ l, rf.M.RWQ.Rb b l * feasRes (rfArgs cfg.pb rf.M ev u) l =
          ∑ l, rf.M.RWQ.Rb b (Fin.castAdd nz l) * (cfg.pb.b l - ∑ j, cfg.pb.Ax l j * u.x j - ∑ q, cfg.pb.Ap l q * u.p q) := by
        intro b
        rw [Fin.sum_univ_add]
        simp [feasRes, rfArgs, hsp.Wx, hsp.Wp, stack, hR]
      simp only [e1, e2]
    · cases h1

/-- Functions of `MasterProblem` that compute the values and the derivatives asked for. -/
structure PureFuns (K : Type*) (nx np nz nc : ℕ) where
  f : (Fin nx → K) → (Fin np → K) → (Fin nc → K) → K
  fx : (Fin nx → K) → (Fin np → K) → (Fin nc → K) → Fin nx → K
  fxx : (Fin nx → K) → (Fin np → K) → (Fin nc → K) → Matrix (Fin nx) (Fin nx) K
  fxp : (Fin nx → K) → (Fin np → K) → (Fin nc → K) → Matrix (Fin nx) (Fin np) K
  fxc : (Fin nx → K) → (Fin np → K) → (Fin nc → K) → Matrix (Fin nx) (Fin nc) K
  h : (Fin nx → K) → (Fin np → K) → (Fin nc → K) → Fin nz → K
  hx : (Fin nx → K) → (Fin np → K) → (Fin nc → K) → Matrix (Fin nz) (Fin nx) K
  hp : (Fin nx → K) → (Fin np → K) → (Fin nc → K) → Matrix (Fin nz) (Fin np) K
  hc : (Fin nx → K) → (Fin np → K) → (Fin nc → K) → Matrix (Fin nz) (Fin nc) K
  v : (Fin nx → K) → (Fin np → K) → (Fin nc → K) → Fin np → K
  vx : (Fin nx → K) → (Fin np → K) → (Fin nc → K) → Matrix (Fin np) (Fin nx) K
  vp : (Fin nx → K) → (Fin np → K) → (Fin nc → K) → Matrix (Fin np) (Fin np) K
  vc : (Fin nx → K) → (Fin np → K) → (Fin nc → K) → Matrix (Fin np) (Fin nc) K

/-- The function objects. -/
def PureFuns.funs (G : PureFuns K nx np nz nc) : MFuns τ K nx np nz nc where
  r := ⟨some fun t _ _ _ _ _ _ _ => some t⟩
  f := ObjFn.pure G.f G.fx G.fxx G.fxp G.fxc
  h := ConFn.pure G.h G.hx G.hp G.hc
  v := ConFn.pure G.v G.vx G.vp G.vc

omit [LinearOrder K] [IsStrictOrderedRing K] in
theorem pure_evals {nw : ℕ} (G : PureFuns K nx np nz nc) (c first) (ddx ddp ddc : Bool) (t : τ × ResMem K nx np nz nc) (x p) (q : Option (Ech.RWQ K nx np nw)) :
    ∃ t' ev, userCode G.funs c first ddx ddp ddc t x p q = some (t', ev) ∧ ev.fx = G.fx x p c ∧ ev.h = G.h x p c ∧ ev.v = G.v x p c ∧ (ddx = true → ev.hx = G.hx x p c) ∧ (ddp = true → ev.hp = G.hp x p c) := by
  rcases Nat.eq_zero_or_pos nz with hz | hz <;> rcases Nat.eq_zero_or_pos np with hp | hp
  · subst hz; subst hp
    refine ⟨_, _, rfl, rfl, Subsingleton.elim _ _, Subsingleton.elim _ _, fun _ => Subsingleton.elim _ _, fun _ => Subsingleton.elim _ _⟩
  · subst hz
    unfold userCode functionEvals
    simp only [hp.ne', ne_eq, not_false_eq_true, if_true, not_true_eq_false, if_false]
    refine ⟨_, _, rfl, rfl, Subsingleton.elim _ _, rfl, fun _ => Subsingleton.elim _ _, fun _ => Subsingleton.elim _ _⟩
  · subst hp
    unfold userCode functionEvals
    simp only [hz.ne', ne_eq, not_false_eq_true, if_true, not_true_eq_false, if_false]
    refine ⟨_, _, rfl, rfl, rfl, Subsingleton.elim _ _, fun e => if_pos e, fun _ => ?_⟩
    ext i j
    exact j.elim0
  · unfold userCode functionEvals
    simp only [hz.ne', hp.ne', ne_eq, not_false_eq_true, if_true]
    refine ⟨_, _, rfl, rfl, rfl, rfl, fun e => if_pos e, fun e => if_pos (by simp [e, hp.ne'])⟩

/-- What holds of the intended meaning: without non-linear constraints the residuals of the master problem and the error after `updateSkipJacobian` are those after `update`.  Missing: the
    non-linear constraints, for which it is false (`skip_differs`). -/
theorem skip_agrees_partial {cfg : Config K nx np ny 0 (τ × ResMem K nx np 0 nc)} (hthr : 0 ≤ cfg.env.thr) (heps : 0 ≤ cfg.env.eps) (hnx : 0 < nx) (G : PureFuns K nx np 0 nc) {c first s u s1 s2} (hs : Reach cfg s)
    (h1 : skipJacobian cfg G.funs c first s u = some s1) (h2 : withJacobian cfg G.funs c first s u = some s2) :
    s1.errors.error = s2.errors.error ∧ ∃ rf1 rf2, s1.rf = some rf1 ∧ s2.rf = some rf2 ∧ rf1.res.master = rf2.res.master ∧ rf1.ech = rf2.ech ∧ rf1.status = rf2.status := by
  obtain ⟨t1, ev1, u1, a1, a2, a3, -⟩ := pure_evals G c first false false false s.user u.x u.p s.ech.rwq
  obtain ⟨t2, ev2, u2, b1, b2, b3, -⟩ := pure_evals G c first true true false s.user u.x u.p s.ech.rwq
  obtain ⟨r1, k1, rfl⟩ := Option.map_eq_some_iff.1 h1
  obtain ⟨r2, k2, rfl⟩ := Option.map_eq_some_iff.1 h2
  unfold Config.updateF at k1 k2
  rw [u1] at k1
  rw [u2] at k2
  dsimp only at k1 k2
  split at k1
  · rename_i rf1 hrf1
    split at k2
    · rename_i rf2 hrf2
      cases k1
      cases k2
      obtain ⟨e1, e2, e3, e4⟩ := rf_error_congr hthr heps hs hnx (a1.trans b1.symm) (a3.trans b3.symm) (a2.trans b2.symm) (Subsingleton.elim _ _) (Subsingleton.elim _ _) hrf2 hrf1
      exact ⟨e4 _ _, rf1, rf2, rfl, rfl, e3, e1, e2⟩
    · cases k2
  · cases k1

/-- In release builds both calls return. -/
theorem skip_returns {cfg : Config K nx np ny nz (τ × ResMem K nx np nz nc)} (hthr : 0 ≤ cfg.env.thr) (heps : 0 ≤ cfg.env.eps) (hd : cfg.env.debug = false) (hnx : 0 < nx) (G : PureFuns K nx np nz nc) (c first) {s}
    (hs : Reach cfg s) (u) : (∃ s1, skipJacobian cfg G.funs c first s u = some s1) ∧ ∃ s2, withJacobian cfg G.funs c first s u = some s2 := by
  obtain ⟨t1, ev1, u1, -⟩ := pure_evals G c first false false false s.user u.x u.p s.ech.rwq
  obtain ⟨t2, ev2, u2, -⟩ := pure_evals G c first true true false s.user u.x u.p s.ech.rwq
  obtain ⟨rf1, k1, -⟩ := rfUpdate_release hthr heps hd cfg.pb hs hnx s.ax ev1 u
  obtain ⟨rf2, k2, -⟩ := rfUpdate_release hthr heps hd cfg.pb hs hnx s.ax ev2 u
  constructor
  · unfold skipJacobian Config.updateF
    rw [u1]
    dsimp only
    rw [k1]
    exact ⟨_, rfl⟩
  · unfold withJacobian Config.updateF
    rw [u2]
    dsimp only
    rw [k2]
    exact ⟨_, rfl⟩

/-! ## Witness -/

/-- `x₀ = 1` and `x₁ - 2 = 0` with `f = 0`. -/
def skipPb : MProblem ℚ 2 0 1 1 where
  Ax := !![1, 0]
  Ap := 0
  b := ![1]
  xlower := fun _ => none
  xupper := fun _ => none
  plower := fun _ => none
  pupper := fun _ => none

/-- The functions of the witness. -/
def skipFuns : PureFuns ℚ 2 0 1 0 where
  f := fun _ _ _ => 0
  fx := fun _ _ _ => 0
  fxx := fun _ _ _ => 0
  fxp := fun _ _ _ => 0
  fxc := fun _ _ _ => 0
  h := fun x _ _ => ![x 1 - 2]
  hx := fun _ _ _ => !![0, 1]
  hp := fun _ _ _ => 0
  hc := fun _ _ _ => 0
  v := fun _ _ _ => 0
  vx := fun _ _ _ => 0
  vp := fun _ _ _ => 0
  vc := fun _ _ _ => 0

/-- **`updateSkipJacobian` reports no error at a point that violates a constraint**: at `(1, 0)` with zero multipliers, in release builds with exact rank decisions, from every reachable state. -/
theorem skip_differs {cfg : Config ℚ 2 0 1 1 (τ × ResMem ℚ 2 0 1 0)} (hpb : cfg.pb = skipPb) (hthr : 0 ≤ cfg.env.thr) (heps : cfg.env.eps = 0) (hd : cfg.env.debug = false) (ho : ∀ M, (cfg.env.o M).lu.Z = 0) (c first)
    {s} (hs : Reach cfg s) :
    ∃ s1 s2, skipJacobian cfg skipFuns.funs c first s { x := ![1, 0], p := 0, w := 0 } = some s1 ∧ withJacobian cfg skipFuns.funs c first s { x := ![1, 0], p := 0, w := 0 } = some s2 ∧
      s1.errors.error = 0 ∧ 2 ≤ s2.errors.error := by
  have hAx : cfg.pb.Ax = !![1, 0] := congrArg MProblem.Ax hpb
  have hb : cfg.pb.b = ![1] := congrArg MProblem.b hpb
  obtain ⟨t1, ev1, u1, a1, a2, a3, -⟩ := pure_evals skipFuns c first false false false s.user ![1, 0] 0 s.ech.rwq
  obtain ⟨t2, ev2, u2, b1, b2, b3, b4, -⟩ := pure_evals skipFuns c first true true false s.user ![1, 0] 0 s.ech.rwq
  obtain ⟨rf1, k1, -⟩ := rfUpdate_release hthr heps.ge hd cfg.pb hs (by norm_num) s.ax ev1 { x := ![1, 0], p := 0, w := 0 }
  obtain ⟨rf2, k2, hsp⟩ := rfUpdate_release hthr heps.ge hd cfg.pb hs (by norm_num) s.ax ev2 { x := ![1, 0], p := 0, w := 0 }
  have e1 : skipJacobian cfg skipFuns.funs c first s { x := ![1, 0], p := 0, w := 0 } = some (cfg.updateE { s with user := t1, ech := rf1.ech, rf := some rf1, ax := rf1.res.master.x } { x := ![1, 0], p := 0, w := 0 }) := by
    unfold skipJacobian Config.updateF
    dsimp only
    rw [u1]
    dsimp only
    rw [k1]
    rfl
  have e2 : withJacobian cfg skipFuns.funs c first s { x := ![1, 0], p := 0, w := 0 } = some (cfg.updateE { s with user := t2, ech := rf2.ech, rf := some rf2, ax := rf2.res.master.x } { x := ![1, 0], p := 0, w := 0 }) := by
    unfold withJacobian Config.updateF
    dsimp only
    rw [u2]
    dsimp only
    rw [k2]
    rfl
  refine ⟨_, _, e1, e2, le_antisymm ?_ (rf_error_nonneg _), ?_⟩
  · obtain ⟨t, ev, rf, hu, -, -, -, herr⟩ := skip_error hthr heps (by norm_num) (ConFn.pure_lazy _ _ _ _) hs e1
    rw [u1] at hu
    cases hu
    refine (herr 0 le_rfl).2 ⟨fun i _ _ => ?_, fun q => q.elim0, fun b => ?_⟩
    · rw [a1]
      simp [skipFuns]
    · simp [hAx, hb]
  · have hWx : ∀ l i, rf2.M.Wx l i = stack !![1, 0] !![0, 1] l i := by
      intro l i
      rw [hsp.Wx, hAx, b4 rfl]
      rfl
    have hfull := rf_full_rank ho hsp (by
      intro y hy
      have h0 := hy 0
      have h1 := hy 1
      simp only [hWx] at h0 h1
      funext l
      fin_cases l
      · simpa [Fin.sum_univ_succ, stack, Fin.addCases] using h0
      · simpa [Fin.sum_univ_succ, stack, Fin.addCases] using h1)
    have key := (rfUpdate_small_error_feasible heps.ge hsp hfull s.errors.ewbar _ 0 _ (fun i q => q.elim0)
      (fun b => Finset.single_le_sum (f := fun b => ∑ l, |rf2.M.RWQ.Rb b l| * |starRes rf2.M.ju (rfArgs cfg.pb rf2.M ev2 { x := ![1, 0], p := 0, w := 0 }) l|)
        (fun _ _ => Finset.sum_nonneg fun _ _ => mul_nonneg (abs_nonneg _) (abs_nonneg _)) (Finset.mem_univ b)) le_rfl).2 0
    have hinj : Function.Injective rf2.M.RWQ.jb := fun a b e => Sum.inl_injective (hsp.perm.1 (a₁ := Sum.inl a) (a₂ := Sum.inl b) e)
    have hsum : ∑ b, |ev2.hx 0 (rf2.M.RWQ.jb b)| ≤ 1 := by
      have : ∑ b, |ev2.hx 0 (rf2.M.RWQ.jb b)| ≤ ∑ i, |ev2.hx 0 i| := by
        have e := Finset.sum_map Finset.univ ⟨_, hinj⟩ (fun i => |ev2.hx 0 i|)
        refine le_trans (le_of_eq e.symm) ?_
        exact Finset.sum_le_sum_of_subset_of_nonneg (Finset.subset_univ _) fun _ _ _ => abs_nonneg _
      refine this.trans ?_
      rw [b4 rfl]
      simp [skipFuns]
    have hnn := rf_error_nonneg (pb := cfg.pb) (u := { x := ![1, 0], p := 0, w := 0 }) (s := rf2) s.errors.ewbar
    rw [heps, b2] at key
    simp only [mul_zero, zero_mul, add_zero] at key
    have h2 : |skipFuns.h ![1, 0] 0 c 0| = 2 := by simp [skipFuns]
    rw [h2] at key
    exact key.trans (mul_le_of_le_one_left hnn hsum)

/-- Non-vacuity of the theorems: an exact rank decision exists, and the state after `initialize` is reachable. -/
example : ∃ (cfg : Config ℚ 2 0 1 1 (Unit × ResMem ℚ 2 0 1 0)) (s : Parts ℚ 2 0 1 1 (Unit × ResMem ℚ 2 0 1 0) cfg.pb.Ax), cfg.pb = skipPb ∧ 0 ≤ cfg.env.thr ∧ cfg.env.eps = 0 ∧ cfg.env.debug = false ∧
    (∀ M, (cfg.env.o M).lu.Z = 0) ∧ Reach cfg s := by
  obtain ⟨o, ho⟩ := Ech.exists_exact_oracle (K := ℚ)
  let F : ∀ n, (A : Matrix (Fin n) (Fin n) ℚ) → LU.FullLU A := fun n A => (LU.exists_fullLU n A).some
  let env : Env ℚ := { o := o, sort := Ech.sortImpl, P := fun _ => Idx.stableImpl, thr := 0, eps := 0, debug := false }
  let cfg : Config ℚ 2 0 1 1 (Unit × ResMem ℚ 2 0 1 0) :=
    { env := env, pb := skipPb, method := .fullspace, inners := fun c => ⟨luInner 0 (Fintype.equivFin _) (F _) 0, luInner 0 (Fintype.equivFin _) (F _) 0, luInner 0 (Fintype.equivFin _) (F _) 0⟩, user := fun _ _ _ _ => none, userJac := fun _ _ _ _ => none, phi := none }
  exact ⟨cfg, cfg.start ((), ⟨⟨0, 0, 0, 0, 0, false, false, true⟩, ⟨0, 0, 0, 0, false, true⟩, ⟨0, 0, 0, 0, false, true⟩⟩) 0 ⟨0, 0, 0, 0, 0, 0, 0, 0⟩ 0 ⟨0, 0, 0⟩, rfl, le_rfl, rfl, rfl, ho, Ech.WReach.init 0⟩

end Optima
