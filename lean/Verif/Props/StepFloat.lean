import Verif.Model.StepFloat
import Verif.Props.ExtendFloat
import Verif.Props.NullFloat
import Verif.Props.LinearSolver
import Verif.Props.FloatResidual

/-!
# C85: the step of the linear solver in rounded arithmetic
-/

namespace Optima.FStep

open FNull FEch

variable {p nx np nw : ℕ}

section residuals
variable {be bi ne ni u : Type} [Fintype be] [Fintype bi] [Fintype ne] [Fintype ni] [DecidableEq be] [DecidableEq bi]
variable (C : Canon (FNum p) nx np nw be bi ne ni u) (a v : CVec (FNum p) np be bi ne ni)

/-- The entry of `[I S]` for a basic variable and a stable one. -/
def basis (k : be ⊕ bi) : (be ⊕ bi) ⊕ (ne ⊕ ni) → ℚ := Sum.elim (fun i => if k = i then 1 else 0) fun j => (C.Sbsns k j).val

/-- The residual of the equation `Hss*xs + Hsp*p + [I S]'*wbs = a.xs`. -/
def resX (s : (be ⊕ bi) ⊕ (ne ⊕ ni)) : ℚ := (a.xs s).val - (∑ j, (C.Hss s j).val * (v.xs j).val + ∑ q, (C.Hsp s q).val * (v.p q).val + ∑ k, basis C k s * (v.wbs k).val)

/-- The residual of the equation `Vps*xs + Vpp*p = a.p`. -/
def resP (q : Fin np) : ℚ := (a.p q).val - (∑ j, (C.Vps q j).val * (v.xs j).val + ∑ q', (C.Vpp q q').val * (v.p q').val)

/-- The residual of the equation `xbs + S*xns + Sp*p = a.wbs`. -/
def resW (k : be ⊕ bi) : ℚ := (a.wbs k).val - ((v.xs (.inl k)).val + ∑ j, (C.Sbsns k j).val * (v.xs (.inr j)).val + ∑ q, (C.Sbsp k q).val * (v.p q).val)

end residuals

variable {M : MasterMatrix ℚ nx np nw} {c : CanonPack ℚ nx np nw} {C : Canon (FNum p) nx np nw (Fin c.nbe) (Fin c.nbi) (Fin c.nne) (Fin c.nni) (Fin c.nnu)} {a v : CVec (FNum p) np (Fin c.nbe) (Fin c.nbi) (Fin c.nne) (Fin c.nni)}
  {au : Fin c.nnu → FNum p} {U : MVec (FNum p) nx np nw}

/-- **C85** From the canonical to the master problem: the errors of the equations of the master problem after a step are those of the canonical problem, those of the echelon form (`R*W(:,j) = [I S]` for the gradient, `W(:,jb)*S = W(:,jn)` and `W(:,jb)*Sp = Wp` for the constraints), and the
    roundings of `w = tr(R)*wbs`, whatever the canonical solver.  `t` is the right-hand side of the constraints, which `W(:,jb)*a.wbs` should be. -/
theorem master_double (hp : 0 < p) (h : CanonSpec M c) (hC : c.mat = canonVal C) (hs : Step C v au U) (t : Fin nw → ℚ) :
    (∀ s, |(a.xs s).val - (∑ j, (if j ∈ M.ju then 0 else M.Hxx (C.js s) j * (U.x j).val) + ∑ q, M.Hxp (C.js s) q * (U.p q).val + ∑ l, M.Wx l (C.js s) * (U.w l).val)| ≤
      |resX C a v s| + ∑ k, |∑ l, (C.Rbs k l).val * M.Wx l (C.js s) - basis C k s| * |(v.wbs k).val| + roundings p (c.nbe + c.nbi) * ∑ l, |M.Wx l (C.js s)| * ∑ k, |(C.Rbs k l).val * (v.wbs k).val|) ∧
    (∀ q, (a.p q).val - (∑ j, (if j ∈ M.ju then 0 else M.Vpx q j * (U.x j).val) + ∑ q', M.Vpp q q' * (U.p q').val) = resP C a v q) ∧
    (∀ l, |∑ j, (if j ∈ M.ju then 0 else M.Wx l j * (U.x j).val) + ∑ q, M.Wp l q * (U.p q).val - t l| ≤
      |∑ k, M.Wx l (C.js (.inl k)) * (a.wbs k).val - t l| + ∑ k, |M.Wx l (C.js (.inl k))| * |resW C a v k| +
      ∑ j, |∑ k, M.Wx l (C.js (.inl k)) * (C.Sbsns k j).val - M.Wx l (C.js (.inr j))| * |(v.xs (.inr j)).val| + ∑ q, |∑ k, M.Wx l (C.js (.inl k)) * (C.Sbsp k q).val - M.Wp l q| * |(v.p q).val|) ∧
    ∀ k, U.x (C.ju k) = au k := by
  have hjs : c.mat.js = C.js := by rw [hC]; rfl
  have hH : ∀ r s, (C.Hss r s).val = M.Hxx (C.js r) (C.js s) := fun r s => by rw [← hjs, ← h.Hss, hC]; rfl
  have hHp : ∀ r q, (C.Hsp r q).val = M.Hxp (C.js r) q := fun r q => by rw [← hjs, ← h.Hsp, hC]; rfl
  have hV : ∀ q s, (C.Vps q s).val = M.Vpx q (C.js s) := fun q s => by rw [← hjs, ← h.Vps, hC]; rfl
  have hVp : ∀ q q', (C.Vpp q q').val = M.Vpp q q' := fun q q' => by rw [← h.Vpp, hC]; rfl
  have hsum : ∀ f : Fin nx → ℚ, (∑ j, if j ∈ M.ju then 0 else f j * (U.x j).val) = ∑ s, f (C.js s) * (v.xs s).val := by
    intro f
    rw [← sum_stable h (fun j => f j * (U.x j).val), hjs]
    exact Finset.sum_congr rfl fun s _ => by rw [hs.stable]
  refine ⟨fun s => ?_, fun q => ?_, fun l => ?_, hs.unstable⟩
  · have hw : ∀ l, |(U.w l).val - ∑ k, (C.Rbs k l).val * (v.wbs k).val| ≤ roundings p (c.nbe + c.nbi) * ∑ k, |(C.Rbs k l).val * (v.wbs k).val| := by
      intro l
      have := isMul_error hp (hs.w l)
      rwa [Fintype.card_sum, Fintype.card_fin, Fintype.card_fin] at this
    have e1 : ∑ l, M.Wx l (C.js s) * (U.w l).val = ∑ k, basis C k s * (v.wbs k).val + ∑ k, (∑ l, (C.Rbs k l).val * M.Wx l (C.js s) - basis C k s) * (v.wbs k).val +
        ∑ l, M.Wx l (C.js s) * ((U.w l).val - ∑ k, (C.Rbs k l).val * (v.wbs k).val) := by
      have e2 : ∑ k, (∑ l, (C.Rbs k l).val * M.Wx l (C.js s)) * (v.wbs k).val = ∑ l, M.Wx l (C.js s) * ∑ k, (C.Rbs k l).val * (v.wbs k).val := by
        simp only [Finset.sum_mul, Finset.mul_sum]
        rw [Finset.sum_comm]
        exact Finset.sum_congr rfl fun _ _ => Finset.sum_congr rfl fun _ _ => by ring
      simp only [sub_mul, mul_sub, Finset.sum_sub_distrib, e2]
      ring
    have e3 : (a.xs s).val - (∑ j, (if j ∈ M.ju then 0 else M.Hxx (C.js s) j * (U.x j).val) + ∑ q, M.Hxp (C.js s) q * (U.p q).val + ∑ l, M.Wx l (C.js s) * (U.w l).val) =
        resX C a v s - ∑ k, (∑ l, (C.Rbs k l).val * M.Wx l (C.js s) - basis C k s) * (v.wbs k).val - ∑ l, M.Wx l (C.js s) * ((U.w l).val - ∑ k, (C.Rbs k l).val * (v.wbs k).val) := by
      rw [hsum, e1, hs.p]
      unfold resX
      simp only [hH, hHp]
      ring
    rw [e3]
    refine (abs_sub _ _).trans (add_le_add ((abs_sub _ _).trans (add_le_add le_rfl ?_)) (weighted hw))
    exact (Finset.abs_sum_le_sum_abs _ _).trans (le_of_eq (Finset.sum_congr rfl fun _ _ => abs_mul _ _))
  · rw [hsum, hs.p]
    unfold resP
    simp only [hV, hVp]
  · rw [hsum, Fintype.sum_sum_type, hs.p]
    have e1 : ∑ k, M.Wx l (C.js (.inl k)) * (v.xs (.inl k)).val + ∑ j, M.Wx l (C.js (.inr j)) * (v.xs (.inr j)).val + ∑ q, M.Wp l q * (v.p q).val - t l =
        (∑ k, M.Wx l (C.js (.inl k)) * (a.wbs k).val - t l) - ∑ k, M.Wx l (C.js (.inl k)) * resW C a v k - ∑ j, (∑ k, M.Wx l (C.js (.inl k)) * (C.Sbsns k j).val - M.Wx l (C.js (.inr j))) * (v.xs (.inr j)).val -
        ∑ q, (∑ k, M.Wx l (C.js (.inl k)) * (C.Sbsp k q).val - M.Wp l q) * (v.p q).val := by
      have e2 : ∑ j, (∑ k, M.Wx l (C.js (.inl k)) * (C.Sbsns k j).val) * (v.xs (.inr j)).val = ∑ k, M.Wx l (C.js (.inl k)) * ∑ j, (C.Sbsns k j).val * (v.xs (.inr j)).val := by
        simp only [Finset.sum_mul, Finset.mul_sum]
        rw [Finset.sum_comm]
        exact Finset.sum_congr rfl fun _ _ => Finset.sum_congr rfl fun _ _ => by ring
      have e3 : ∑ q, (∑ k, M.Wx l (C.js (.inl k)) * (C.Sbsp k q).val) * (v.p q).val = ∑ k, M.Wx l (C.js (.inl k)) * ∑ q, (C.Sbsp k q).val * (v.p q).val := by
        simp only [Finset.sum_mul, Finset.mul_sum]
        rw [Finset.sum_comm]
        exact Finset.sum_congr rfl fun _ _ => Finset.sum_congr rfl fun _ _ => by ring
      unfold resW
      simp only [sub_mul, mul_sub, mul_add, Finset.sum_sub_distrib, Finset.sum_add_distrib, e2, e3]
      ring
    rw [e1]
    have tri : ∀ {ι : Type} [Fintype ι] (f g : ι → ℚ), |∑ i, f i * g i| ≤ ∑ i, |f i| * |g i| := fun f g => (Finset.abs_sum_le_sum_abs _ _).trans (le_of_eq (Finset.sum_congr rfl fun _ _ => abs_mul _ _))
    exact (abs_sub _ _).trans (add_le_add ((abs_sub _ _).trans (add_le_add ((abs_sub _ _).trans (add_le_add le_rfl (tri _ _))) (tri _ _))) (tri _ _))

/-- **C85** For a right-hand side of the master problem, `W(:,jb)*a.wbs` is `a.w` up to the errors of `W(:,jb)*R = I` and roundings. -/
theorem rhs_double (hp : 0 < p) {am : MVec (FNum p) nx np nw} (hr : Rhs C am a au) (l : Fin nw) :
    |∑ k, M.Wx l (C.js (.inl k)) * (a.wbs k).val - (am.w l).val| ≤ ∑ d, |∑ k, M.Wx l (C.js (.inl k)) * (C.Rbs k d).val - if l = d then 1 else 0| * |(am.w d).val| +
      roundings p nw * ∑ k, |M.Wx l (C.js (.inl k))| * ∑ d, |(C.Rbs k d).val * (am.w d).val| := by
  have hw : ∀ k, |(a.wbs k).val - ∑ d, (C.Rbs k d).val * (am.w d).val| ≤ roundings p nw * ∑ d, |(C.Rbs k d).val * (am.w d).val| := by
    intro k
    have := isMul_error hp (hr.wbs k)
    rwa [Fintype.card_fin] at this
  have e : ∑ k, M.Wx l (C.js (.inl k)) * (a.wbs k).val - (am.w l).val = ∑ d, (∑ k, M.Wx l (C.js (.inl k)) * (C.Rbs k d).val - if l = d then 1 else 0) * (am.w d).val +
      ∑ k, M.Wx l (C.js (.inl k)) * ((a.wbs k).val - ∑ d, (C.Rbs k d).val * (am.w d).val) := by
    have e1 : ∑ d, (∑ k, M.Wx l (C.js (.inl k)) * (C.Rbs k d).val) * (am.w d).val = ∑ k, M.Wx l (C.js (.inl k)) * ∑ d, (C.Rbs k d).val * (am.w d).val := by
      simp only [Finset.sum_mul, Finset.mul_sum]
      rw [Finset.sum_comm]
      exact Finset.sum_congr rfl fun _ _ => Finset.sum_congr rfl fun _ _ => by ring
    have e2 : ∑ d, (if l = d then (1 : ℚ) else 0) * (am.w d).val = (am.w l).val := by simp
    simp only [sub_mul, mul_sub, Finset.sum_sub_distrib, e1, e2]
    ring
  rw [e]
  exact (abs_add_le _ _).trans (add_le_add ((Finset.abs_sum_le_sum_abs _ _).trans (le_of_eq (Finset.sum_congr rfl fun _ _ => abs_mul _ _))) (weighted hw))

/-- **C85** The step for a right-hand side of the master problem: every variable is unstable and gets its entry of the right-hand side, or is one of the stable variables, whose equations hold up to the errors of `master_double`; so do the equations of the parameters and the constraints, the latter
    with the errors of `W(:,jb)*R = I` and the roundings of `R*a.w` besides. -/
theorem solve_double (hp : 0 < p) (h : CanonSpec M c) (hC : c.mat = canonVal C) {am : MVec (FNum p) nx np nw} (hr : Rhs C am a au) (hs : Step C v au U) :
    (∀ j, j ∈ M.ju → U.x j = am.x j) ∧
    (∀ j, j ∉ M.ju → ∃ s, C.js s = j ∧ |(am.x j).val - (∑ i, (if i ∈ M.ju then 0 else M.Hxx j i * (U.x i).val) + ∑ q, M.Hxp j q * (U.p q).val + ∑ l, M.Wx l j * (U.w l).val)| ≤
      |resX C a v s| + ∑ k, |∑ l, (C.Rbs k l).val * M.Wx l j - basis C k s| * |(v.wbs k).val| + roundings p (c.nbe + c.nbi) * ∑ l, |M.Wx l j| * ∑ k, |(C.Rbs k l).val * (v.wbs k).val|) ∧
    (∀ q, (am.p q).val - (∑ j, (if j ∈ M.ju then 0 else M.Vpx q j * (U.x j).val) + ∑ q', M.Vpp q q' * (U.p q').val) = resP C a v q) ∧
    ∀ l, |∑ j, (if j ∈ M.ju then 0 else M.Wx l j * (U.x j).val) + ∑ q, M.Wp l q * (U.p q).val - (am.w l).val| ≤
      ∑ d, |∑ k, M.Wx l (C.js (.inl k)) * (C.Rbs k d).val - if l = d then 1 else 0| * |(am.w d).val| + roundings p nw * ∑ k, |M.Wx l (C.js (.inl k))| * ∑ d, |(C.Rbs k d).val * (am.w d).val| + ∑ k, |M.Wx l (C.js (.inl k))| * |resW C a v k| +
      ∑ j, |∑ k, M.Wx l (C.js (.inl k)) * (C.Sbsns k j).val - M.Wx l (C.js (.inr j))| * |(v.xs (.inr j)).val| + ∑ q, |∑ k, M.Wx l (C.js (.inl k)) * (C.Sbsp k q).val - M.Wp l q| * |(v.p q).val| := by
  obtain ⟨h1, h2, h3, h4⟩ := master_double (a := a) hp h hC hs fun l => (am.w l).val
  have hsplit : Function.Bijective (Sum.elim C.js C.ju) := by
    have := h.split
    rw [hC] at this
    exact this
  have hju : ∀ j, j ∈ M.ju ↔ ∃ k, C.ju k = j := by
    intro j
    have := h.unstable j
    rw [hC] at this
    exact this.symm
  refine ⟨fun j hj => ?_, fun j hj => ?_, fun q => ?_, fun l => ?_⟩
  · obtain ⟨k, rfl⟩ := (hju j).1 hj
    rw [h4, hr.xu]
  · obtain ⟨s | k, e⟩ := hsplit.2 j
    · refine ⟨s, e, ?_⟩
      have e' : C.js s = j := e
      rw [← e', ← hr.xs]
      exact h1 s
    · exact absurd ((hju j).2 ⟨k, e⟩) hj
  · rw [← hr.p]
    exact h2 q
  · refine (h3 l).trans ?_
    exact add_le_add (add_le_add (add_le_add (rhs_double hp hr l) le_rfl) le_rfl) le_rfl

/-! ## The canonical solvers -/

section canonical
variable {be bi ne ni u : Type} [Fintype be] [Fintype bi] [Fintype ne] [Fintype ni] [DecidableEq be] [DecidableEq bi] {N rank0 : ℕ}

theorem sum_basis_basic (C : Canon (FNum p) nx np nw be bi ne ni u) (f : be ⊕ bi → ℚ) (i : be ⊕ bi) : ∑ k, basis C k (.inl i) * f k = f i := by
  simp [basis]

/-- The residuals after the null-space method, C82. -/
theorem null_residuals {C : Canon (FNum p) nx np nw be bi ne ni u} {D : Decomposed C} {a : CVec (FNum p) np be bi ne ni} {e : NullT np be ne ni ≃ Fin N} (s : Solved D a e rank0) (hp : 0 < p) (hk : s.S.Keeps N)
    (hN : 16 * (N + 1) ≤ 2 ^ p) (hm : 16 * FNull.count np be bi ne ni ≤ 2 ^ p) :
    let d := s.step
    let lu : NullT np be ne ni → ℚ := fun t => 8 * (N + 1) / 2 ^ p * s.S.terms (e t)
    let ε : ℚ := 5 * FNull.count np be bi ne ni / 2 ^ p
    (∀ r, |resX C a d r| ≤ Sum.elim (Sum.elim (fun i => lu (.inl i) + ε * FNull.sizeX C a d (.inl (.inl i))) fun i => ε * FNull.sizeX C a d (.inl (.inr i)))
      (fun i => lu (.inr (.inl i)) + ε * (FNull.sizeX C a d (.inr i) + ∑ k, |(C.Sbsns (.inr k) i).val| * FNull.sizeX C a d (.inl (.inr k)))) r) ∧
    (∀ q, |resP C a d q| ≤ lu (.inr (.inr (.inl q))) + ε * FNull.sizeP C a d q) ∧
    ∀ k, |resW C a d k| ≤ Sum.elim (fun k => lu (.inr (.inr (.inr k)))) (fun k => ε * FNull.sizeE C a d k) k := by
  intro d lu ε
  obtain ⟨h1, h2, h3, h4, h5, h6⟩ := nullspace_double s hp hk hN hm
  refine ⟨fun r => ?_, h4, fun k => ?_⟩
  · unfold resX
    rcases r with (i | i) | j
    · rw [sum_basis_basic C (fun k => (d.wbs k).val)]
      exact h1 i
    · rw [sum_basis_basic C (fun k => (d.wbs k).val)]
      exact h2 i
    · exact h3 j
  · rcases k with k | k
    · exact h5 k
    · exact h6 k

/-- The residuals after the full-space method, C81. -/
theorem full_residuals (hp : 0 < p) (C : Canon (FNum p) nx np nw be bi ne ni u) (a : CVec (FNum p) np be bi ne ni) (e : FullT np be bi ne ni ≃ Fin N) (F : FLU.Factors fun i j => fullMatrix C (e.symm i) (e.symm j)) (rank0 : ℕ)
    (S : FLU.Solves F rank0 fun i => fullRhs a (e.symm i)) (hk : S.Keeps N) (hN : 16 * (N + 1) ≤ 2 ^ p) :
    let d := fullSolve (fun _ _ t => S.x (e t)) C a
    let ε : FullT np be bi ne ni → ℚ := fun t => 8 * (N + 1) / 2 ^ p * S.terms (e t)
    (∀ r, |resX C a d r| ≤ Sum.elim (fun i => ε (.inl i)) (fun i => ε (.inr (.inl i))) r) ∧ (∀ q, |resP C a d q| ≤ ε (.inr (.inr (.inl q)))) ∧ ∀ k, |resW C a d k| ≤ ε (.inr (.inr (.inr k))) := by
  intro d ε
  obtain ⟨h1, h2, h3, h4⟩ := FLU.fullspace_double hp C a e F rank0 S hk hN
  refine ⟨fun r => ?_, h3, h4⟩
  unfold resX
  rcases r with i | j
  · rw [sum_basis_basic C (fun k => (d.wbs k).val)]
    exact h1 i
  · exact h2 j

end canonical

/-! ## Every master matrix of doubles -/

/-- The canonical matrix of a master matrix of doubles has doubles. -/
theorem exists_canon {M : MasterMatrix (FNum p) nx np nw} {c : CanonPack ℚ nx np nw} (h : CanonSpec (masterVal M) c) :
    ∃ C : Canon (FNum p) nx np nw (Fin c.nbe) (Fin c.nbi) (Fin c.nne) (Fin c.nni) (Fin c.nnu), c.mat = canonVal C := by
  obtain ⟨σ, τ, -, -, -, -, hS, hSp, hR⟩ := h.ech
  refine ⟨{ Hss := fun i j => M.Hxx (c.mat.js i) (c.mat.js j), Hsp := fun i q => M.Hxp (c.mat.js i) q, Vps := fun q j => M.Vpx q (c.mat.js j), Vpp := M.Vpp, Sbsns := fun k j => M.RWQ.Sbn (σ k) (τ (.inl j)), Sbsp := fun k q => M.RWQ.Sbp (σ k) q,
            Rbs := fun k l => M.RWQ.Rb (σ k) l, jb := c.mat.jb, jn := c.mat.jn, js := c.mat.js, ju := c.mat.ju }, ?_⟩
  have e1 : c.mat.Hss = fun i j => (M.Hxx (c.mat.js i) (c.mat.js j)).val := funext fun i => funext fun j => h.Hss i j
  have e2 : c.mat.Hsp = fun i q => (M.Hxp (c.mat.js i) q).val := funext fun i => funext fun q => h.Hsp i q
  have e3 : c.mat.Vps = fun q j => (M.Vpx q (c.mat.js j)).val := funext fun q => funext fun j => h.Vps q j
  have e4 : c.mat.Vpp = fun q q' => (M.Vpp q q').val := h.Vpp
  have e5 : c.mat.Sbsns = fun k j => (M.RWQ.Sbn (σ k) (τ (.inl j))).val := funext fun k => funext fun j => hS k j
  have e6 : c.mat.Sbsp = fun k q => (M.RWQ.Sbp (σ k) q).val := funext fun k => funext fun q => hSp k q
  have e7 : c.mat.Rbs = fun k l => (M.RWQ.Rb (σ k) l).val := funext fun k => funext fun l => hR k l
  unfold canonVal
  dsimp only
  rw [← e1, ← e2, ← e3, ← e4, ← e5, ← e6, ← e7]

/-- Every canonical step is written to a step of the master problem. -/
theorem exists_step {nbe nbi nne nni nnu : ℕ} (C : Canon (FNum p) nx np nw (Fin nbe) (Fin nbi) (Fin nne) (Fin nni) (Fin nnu)) (hC : Function.Bijective (Sum.elim C.js C.ju)) (v : CVec (FNum p) np (Fin nbe) (Fin nbi) (Fin nne) (Fin nni)) (au : Fin nnu → FNum p)
    (u0 : MVec (FNum p) nx np nw) : Step C v au (step C v au u0) := by
  have hinj : ∀ r s, C.js r = C.js s → r = s := fun r s e => Sum.inl_injective (hC.1 (by simpa using e))
  have hinju : ∀ r s, C.ju r = C.ju s → r = s := fun r s e => Sum.inr_injective (hC.1 (by simpa using e))
  have hne : ∀ r s, C.ju r ≠ C.js s := fun r s e => by
    have := hC.1 (a₁ := .inr r) (a₂ := .inl s) (by simpa using e)
    cases this
  have get : ∀ {n : ℕ} (l : List (Fin n)) (x : Fin nx → FNum p) (idx : Fin n → Fin nx) (b : Fin n → FNum p), Function.Injective idx → l.Nodup → ∀ k ∈ l, l.foldl (fun x k => Function.update x (idx k) (b k)) x (idx k) = b k := by
    intro n l
    induction l with
    | nil => intro _ _ _ _ _ k hk; cases hk
    | cons i l ih =>
      intro x idx b hi hl k hk
      rw [List.nodup_cons] at hl
      rw [List.foldl_cons]
      rcases List.mem_cons.1 hk with rfl | hk
      · have other : ∀ (l : List (Fin n)) (x : Fin nx → FNum p), k ∉ l → l.foldl (fun x k => Function.update x (idx k) (b k)) x (idx k) = x (idx k) := by
          intro l
          induction l with
          | nil => intro _ _; rfl
          | cons j l ih =>
            intro x hk
            rw [List.foldl_cons, ih _ (fun h => hk (List.mem_cons_of_mem _ h)), Function.update_of_ne (fun h => hk (by rw [hi h]; exact List.mem_cons_self))]
        rw [other l _ hl.1, Function.update_self]
      · exact ih _ idx b hi hl.2 k hk
  have keep : ∀ {n : ℕ} (l : List (Fin n)) (x : Fin nx → FNum p) (idx : Fin n → Fin nx) (b : Fin n → FNum p) (i : Fin nx), (∀ k, idx k ≠ i) → l.foldl (fun x k => Function.update x (idx k) (b k)) x i = x i := by
    intro n l
    induction l with
    | nil => intro _ _ _ _ _; rfl
    | cons j l ih =>
      intro x idx b i hi
      rw [List.foldl_cons, ih _ _ _ _ hi, Function.update_of_ne (hi j).symm]
  have nd : ∀ n, (List.finRange n).Nodup := List.nodup_finRange
  refine ⟨fun s => ?_, fun k => ?_, rfl, fun l => ?_⟩
  · unfold step
    dsimp only
    rw [keep _ _ _ _ _ (fun k => hne k s)]
    rcases s with (s | s) | (s | s)
    · rw [keep _ _ _ _ _ (fun k e => by cases hinj _ _ e), keep _ _ _ _ _ (fun k e => by cases hinj _ _ e), keep _ _ _ _ _ (fun k e => by cases hinj _ _ e)]
      exact get _ _ (fun k => C.js (.inl (.inl k))) (fun k => v.xs (.inl (.inl k))) (fun _ _ e => by simpa using hinj _ _ e) (nd _) s (List.mem_finRange s)
    · rw [keep _ _ _ _ _ (fun k e => by cases hinj _ _ e), keep _ _ _ _ _ (fun k e => by cases hinj _ _ e)]
      exact get _ _ (fun k => C.js (.inl (.inr k))) (fun k => v.xs (.inl (.inr k))) (fun _ _ e => by simpa using hinj _ _ e) (nd _) s (List.mem_finRange s)
    · rw [keep _ _ _ _ _ (fun k e => by cases hinj _ _ e)]
      exact get _ _ (fun k => C.js (.inr (.inl k))) (fun k => v.xs (.inr (.inl k))) (fun _ _ e => by simpa using hinj _ _ e) (nd _) s (List.mem_finRange s)
    · exact get _ _ (fun k => C.js (.inr (.inr k))) (fun k => v.xs (.inr (.inr k))) (fun _ _ e => by simpa using hinj _ _ e) (nd _) s (List.mem_finRange s)
  · exact get _ _ C.ju au hinju (nd _) k (List.mem_finRange k)
  · refine ⟨(List.finRange nbe).map Sum.inl ++ (List.finRange nbi).map Sum.inr, ?_, ?_, sums_value _⟩
    · rw [List.nodup_append]
      refine ⟨(nd _).map Sum.inl_injective, (nd _).map Sum.inr_injective, ?_⟩
      intro x hx y hy
      simp only [List.mem_map] at hx hy
      obtain ⟨i, -, rfl⟩ := hx
      obtain ⟨j, -, rfl⟩ := hy
      simp
    · rintro (k | k) <;> simp

/-- **C85** The hypotheses of the theorems above can be met for every master matrix of doubles whose echelon form orders all variables, every set of unstable non-basic variables and every right-hand side: the canonical matrix exists and has the entries of the master matrix, and the null-space
    method followed by the last lines of `LinearSolver::solve` gives a step. -/
theorem step_total (hp : 0 < p) (M : MasterMatrix (FNum p) nx np nw) (Pb : Idx.PartitionImpl (Fin M.RWQ.nb)) (Pn : Idx.PartitionImpl (Fin M.RWQ.nn)) (hQ : Function.Bijective (Sum.elim M.RWQ.jb M.RWQ.jn)) (hju : M.ju.Nodup) (hb : ∀ k, M.RWQ.jb k ∉ M.ju)
    (x : Fin nx → FNum p) (y : Fin np → FNum p) (r : Fin nw → FNum p) (rank0 : ℕ) :
    ∃ (c : CanonPack ℚ nx np nw) (C : Canon (FNum p) nx np nw (Fin c.nbe) (Fin c.nbi) (Fin c.nne) (Fin c.nni) (Fin c.nnu)) (a : CVec (FNum p) np (Fin c.nbe) (Fin c.nbi) (Fin c.nne) (Fin c.nni)) (au : Fin c.nnu → FNum p) (D : Decomposed C)
      (e : NullT np (Fin c.nbe) (Fin c.nne) (Fin c.nni) ≃ Fin (Fintype.card (NullT np (Fin c.nbe) (Fin c.nne) (Fin c.nni)))) (s : Solved D a e rank0) (U : MVec (FNum p) nx np nw),
      canonicalize (masterVal M) Pb Pn = .ok c ∧ CanonSpec (masterVal M) c ∧ c.mat = canonVal C ∧ Rhs C { x := x, p := y, w := r } a au ∧ Step C s.step au U := by
  obtain ⟨c, hc, h⟩ := canonicalize_spec (masterVal M) Pb Pn hQ hju hb
  obtain ⟨C, hC⟩ := exists_canon h
  have hr : ∃ a : CVec (FNum p) np (Fin c.nbe) (Fin c.nbi) (Fin c.nne) (Fin c.nni), Rhs C { x := x, p := y, w := r } a (fun k => x (C.ju k)) :=
    ⟨{ xs := fun s => x (C.js s), p := y, wbs := fun k => mul (fun l => C.Rbs k l) r }, fun _ => rfl, fun _ => rfl, rfl, fun k => isMul_mul _ _⟩
  obtain ⟨a, ha⟩ := hr
  obtain ⟨D, ⟨s⟩⟩ := null_total hp C a (Fintype.equivFin _) rank0
  have hsplit : Function.Bijective (Sum.elim C.js C.ju) := by
    have := h.split
    rw [hC] at this
    exact this
  exact ⟨c, C, a, _, D, _, s, _, hc, h, hC, ha, exists_step C hsplit s.step _ { x := x, p := y, w := r }⟩

/-- The matrix with `H = [0.1 1/3; 1/3 3]` and `W = [0.3 0.1]`, with `x0` basic. -/
def smallMaster : MasterMatrix Double 2 0 1 where
  Hxx := ![![.fl (1 / 10), .fl (1 / 3)], ![.fl (1 / 3), .fl 3]]
  Hxp := fun _ q => q.elim0
  isHxxDiag := false
  Vpx := fun q => q.elim0
  Vpp := fun q => q.elim0
  Wx := fun _ => ![.fl (3 / 10), .fl (1 / 10)]
  Wp := fun _ q => q.elim0
  RWQ := { nb := 1, nn := 1, Rb := fun _ _ => 1 / .fl (3 / 10), Sbn := fun _ _ => .fl (1 / 10) / .fl (3 / 10), Sbp := fun _ q => q.elim0, jb := fun _ => 0, jn := fun _ => 1 }
  js := [0, 1]
  ju := []

/-- The theorems apply to it: for every right-hand side there is a canonical matrix and a step computed by the null-space method, and the constraint is then met up to the residual of that method and the errors of `0.3*R = 1` and `0.3*S = 0.1`, which are not zero. -/
example (x : Fin 2 → Double) (r : Fin 1 → Double) : ∃ (c : CanonPack ℚ 2 0 1) (C : Canon Double 2 0 1 (Fin c.nbe) (Fin c.nbi) (Fin c.nne) (Fin c.nni) (Fin c.nnu)) (a v : CVec Double 0 (Fin c.nbe) (Fin c.nbi) (Fin c.nne) (Fin c.nni)) (U : MVec Double 2 0 1),
    canonicalize (masterVal smallMaster) Idx.stableImpl Idx.stableImpl = .ok c ∧
      |∑ j, (smallMaster.Wx 0 j).val * (U.x j).val - (r 0).val| ≤ |∑ k, (smallMaster.Wx 0 (C.js (.inl k))).val * (a.wbs k).val - (r 0).val| + ∑ k, |(smallMaster.Wx 0 (C.js (.inl k))).val| * |resW C a v k| +
        ∑ j, |∑ k, (smallMaster.Wx 0 (C.js (.inl k))).val * (C.Sbsns k j).val - (smallMaster.Wx 0 (C.js (.inr j))).val| * |(v.xs (.inr j)).val| ∧
      (smallMaster.Wx 0 0).val * (smallMaster.RWQ.Rb (0 : Fin 1) 0).val ≠ 1 ∧ (smallMaster.Wx 0 0).val * (smallMaster.RWQ.Sbn (0 : Fin 1) (0 : Fin 1)).val ≠ (smallMaster.Wx 0 1).val := by
  obtain ⟨c, C, a, au, D, e, s, U, h1, h2, h3, h4, h5⟩ := step_total (by norm_num) smallMaster Idx.stableImpl Idx.stableImpl (by constructor <;> decide) (by decide) (by decide) x (fun q => q.elim0) r 0
  have h := (master_double (a := a) (by norm_num) h2 h3 h5 fun l => (r l).val).2.2.1 0
  refine ⟨c, C, a, s.step, U, h1, ?_, by decide +kernel, by decide +kernel⟩
  simpa [masterVal, smallMaster] using h

/-! ## The constraints after a Newton step -/

section newton
variable {nz ny : ℕ} {r : FloatView p nx np ny nz} {P : FloatProblem p nx np ny} {o : MVec (FNum p) nx np (ny + nz)}

/-- What is left of the constraint `l` linearised at `o` after the step `(dx, dp)`: `b - Ax*(x + dx) - Ap*(p + dp)`, and `-(h + Jx*dx + Jp*dp)`. -/
def linearised (r : FloatView p nx np ny nz) (P : FloatProblem p nx np ny) (o : MVec (FNum p) nx np (ny + nz)) (dx : Fin nx → ℚ) (dp : Fin np → ℚ) (l : Fin (ny + nz)) : ℚ :=
  r.feasibility P o l - ∑ j, r.Wx P l j * dx j - ∑ q, r.Wp P l q * dp q

/-- **C85** With the right-hand side `awbs` computed by the residual function, a step that leaves the unstable variables unchanged satisfies every linearised constraint up to: the error of `W(:,jb)*R = I` times the residuals before; the errors of `R*W = [I S]`, the roundings of `awbs` and the
    residuals of the canonical solver; and the errors of `W(:,jb)*S = W(:,jn)` and `W(:,jb)*Sp = Wp`. -/
theorem linearised_double (hp : 0 < p) (h : r.Computes P o) (dx : Fin nx → ℚ) (dp : Fin np → ℚ) (hu : ∀ k, dx (r.ju k) = 0) (l : Fin (ny + nz)) :
    |linearised r P o dx dp l| ≤ ∑ d, |∑ i, r.Wx P l (r.jb i) * (r.R i d).val - if l = d then 1 else 0| * |r.feasibility P o d| +
      ∑ i, |r.Wx P l (r.jb i)| * (|r.defect P o i| + roundings p (ny + nz + 2 * nx + 2 * np + 6) * r.canonicalSize P o i + |(r.awbs i).val - (dx (r.jb i) + ∑ n, (r.S i n).val * dx (r.jn n) + ∑ q, (r.Sp i q).val * dp q)|) +
      ∑ n, |∑ i, r.Wx P l (r.jb i) * (r.S i n).val - r.Wx P l (r.jn n)| * |dx (r.jn n)| + ∑ q, |∑ i, r.Wx P l (r.jb i) * (r.Sp i q).val - r.Wp P l q| * |dp q| := by
  set W : Fin r.nb → ℚ := fun i => r.Wx P l (r.jb i) with hW
  set e : Fin r.nb → ℚ := fun i => (r.awbs i).val - (∑ d, (r.R i d).val * r.feasibility P o d + r.defect P o i) with he
  set s : Fin r.nb → ℚ := fun i => (r.awbs i).val - (dx (r.jb i) + ∑ n, (r.S i n).val * dx (r.jn n) + ∑ q, (r.Sp i q).val * dp q) with hs
  have x1 : ∀ {n : ℕ} (A : Fin r.nb → Fin n → ℚ) (y : Fin n → ℚ), ∑ d, (∑ i, W i * A i d) * y d = ∑ i, W i * ∑ d, A i d * y d := by
    intro n A y
    simp only [Finset.sum_mul, Finset.mul_sum]
    rw [Finset.sum_comm]
    exact Finset.sum_congr rfl fun _ _ => Finset.sum_congr rfl fun _ _ => by ring
  have x2 : ∑ d, (if l = d then (1 : ℚ) else 0) * r.feasibility P o d = r.feasibility P o l := by simp
  have key : linearised r P o dx dp l = -(∑ d, (∑ i, W i * (r.R i d).val - if l = d then 1 else 0) * r.feasibility P o d) + ∑ i, W i * (s i - e i - r.defect P o i) +
      ∑ n, (∑ i, W i * (r.S i n).val - r.Wx P l (r.jn n)) * dx (r.jn n) + ∑ q, (∑ i, W i * (r.Sp i q).val - r.Wp P l q) * dp q := by
    have x3 : ∑ i, W i * (s i - e i - r.defect P o i) = ∑ i, W i * (∑ d, (r.R i d).val * r.feasibility P o d) - ∑ i, W i * dx (r.jb i) - ∑ i, W i * (∑ n, (r.S i n).val * dx (r.jn n)) - ∑ i, W i * (∑ q, (r.Sp i q).val * dp q) := by
      simp only [← Finset.sum_sub_distrib]
      exact Finset.sum_congr rfl fun i _ => by simp only [hs, he]; ring
    rw [x3]
    simp only [sub_mul, Finset.sum_sub_distrib, x1, x2]
    unfold linearised
    rw [r.sum_split fun j => r.Wx P l j * dx j]
    simp only [hu, mul_zero, Finset.sum_const_zero, hW]
    ring
  have tri : ∀ {ι : Type} [Fintype ι] (f g : ι → ℚ), |∑ i, f i * g i| ≤ ∑ i, |f i| * |g i| := fun f g => (Finset.abs_sum_le_sum_abs _ _).trans (le_of_eq (Finset.sum_congr rfl fun _ _ => abs_mul _ _))
  rw [key]
  refine (abs_add_le _ _).trans (add_le_add ((abs_add_le _ _).trans (add_le_add ((abs_add_le _ _).trans (add_le_add ?_ ?_)) (tri _ _))) (tri _ _))
  · rw [abs_neg]
    exact tri _ _
  · refine (tri _ _).trans (Finset.sum_le_sum fun i _ => mul_le_mul_of_nonneg_left ?_ (abs_nonneg _))
    have := FloatView.awbs_error hp h i
    have t1 := (abs_sub (s i - e i) (r.defect P o i)).trans (add_le_add (abs_sub (s i) (e i)) le_rfl)
    have t2 : |e i| ≤ roundings p (ny + nz + 2 * nx + 2 * np + 6) * r.canonicalSize P o i := this
    linarith

/-- **C85** The linear constraints at the point `u.x = uo.x + du.x`, `u.p = uo.p + du.p` of the Newton step (NewtonStep.cpp:62-63): the linearised residual, and half a unit in the last place of every variable. -/
theorem linear_after (dx : Fin nx → FNum p) (dp : Fin np → FNum p) (l : Fin ny) :
    |∑ j, (P.Ax l j).val * (o.x j + dx j).val + ∑ q, (P.Ap l q).val * (o.p q + dp q).val - (P.b l).val| ≤ |linearised r P o (fun j => (dx j).val) (fun q => (dp q).val) (.castAdd nz l)| +
      1 / 2 ^ p * (∑ j, |(P.Ax l j).val| * |(o.x j).val + (dx j).val| + ∑ q, |(P.Ap l q).val| * |(o.p q).val + (dp q).val|) := by
  have hr : ∀ a b : FNum p, |(a + b).val - (a.val + b.val)| ≤ 1 / 2 ^ p * |a.val + b.val| := fun a b => by
    rw [FNum.val_add]
    exact (Fl.rnd_error p _).trans (le_of_eq (by ring))
  have e : ∑ j, (P.Ax l j).val * (o.x j + dx j).val + ∑ q, (P.Ap l q).val * (o.p q + dp q).val - (P.b l).val = -linearised r P o (fun j => (dx j).val) (fun q => (dp q).val) (.castAdd nz l) +
      ∑ j, (P.Ax l j).val * ((o.x j + dx j).val - ((o.x j).val + (dx j).val)) + ∑ q, (P.Ap l q).val * ((o.p q + dp q).val - ((o.p q).val + (dp q).val)) := by
    simp only [linearised, FloatView.feasibility, FloatView.Wx, FloatView.Wp, Fin.addCases_left, mul_sub, mul_add, Finset.sum_sub_distrib, Finset.sum_add_distrib]
    ring
  rw [e, mul_add, ← add_assoc]
  refine (abs_add_le _ _).trans (add_le_add ((abs_add_le _ _).trans (add_le_add (le_of_eq (abs_neg _)) (weighted fun j => hr _ _))) (weighted fun q => hr _ _))

/-- One variable and one constraint `a*x = b`, where the step is `dx = awbs`: after one step from any `x` the violation is the defect `a*R - 1` times the violation before, and roundings. -/
theorem one_after (hp : 0 < p) (P : OneProblem p) (o : MVec (FNum p) 1 0 1) :
    |P.a.val * (o.x 0 + (P.eval o).awbs).val - P.b.val| ≤ |P.a.val * (P.R 0 0).val - 1| * |P.b.val - P.a.val * (o.x 0).val| + |P.a.val| * (|((P.R 0 0).val * P.a.val - 1) * (o.x 0).val| + roundings p 9 * (|(P.R 0 0).val| * |P.b.val| + |(o.x 0).val|)) +
      1 / 2 ^ p * (|P.a.val| * |(o.x 0).val + (P.eval o).awbs.val|) := by
  have h1 := linearised_double (ny := 1) (nz := 0) hp ((P.floatMachine hp).computes (P.eval o) o (P.view o) ⟨rfl, rfl⟩).1 (fun _ => (P.eval o).awbs.val) (fun q => q.elim0) (fun k => k.elim0) 0
  have h2 := linear_after (nz := 0) (ny := 1) (r := P.view o) (P := P.data) (o := o) (fun _ => (P.eval o).awbs) (fun q => q.elim0) 0
  have e0 : (P.view o).feasibility P.data o 0 = P.b.val - P.a.val * (o.x 0).val := by
    change (P.data.b 0).val - ∑ i, (P.data.Ax 0 i).val * (o.x i).val - ∑ k, (P.data.Ap 0 k).val * (o.p k).val = _
    rw [Fin.sum_univ_one, Fin.sum_univ_zero, sub_zero]
    rfl
  have e1 : ∀ f : Fin (1 + 0) → ℚ, ∑ d, f d = f 0 := fun f => Fin.sum_univ_one (M := ℚ) _
  have e2 : ∀ f : Fin (P.view o).nb → ℚ, ∑ d, f d = f (0 : Fin 1) := fun f => Fin.sum_univ_one (M := ℚ) _
  have e3 : ∀ f : Fin (P.view o).nn → ℚ, ∑ d, f d = 0 := fun f => Fin.sum_univ_zero (M := ℚ) _
  simp only [e1, e2, e3, Fin.sum_univ_zero, add_zero, e0, P.view_defect, P.view_canonicalSize] at h1
  rw [Fin.sum_univ_one, Fin.sum_univ_zero, Fin.sum_univ_one, Fin.sum_univ_zero] at h2
  simp only [add_zero] at h2
  refine h2.trans (add_le_add (h1.trans (le_of_eq ?_)) le_rfl)
  have e4 : |((P.view o).awbs (0 : Fin 1)).val - (P.eval o).awbs.val| = 0 := by
    rw [abs_eq_zero]
    exact sub_self _
  rw [e4]
  simp only [if_true, add_zero]
  rfl

/-- The constraint `3*x = 1` with `R*3 - 1 = -2^-46`: from every `x` in `[-1,1]` one step leads to a violation below `2^-42`. -/
example (o : MVec Double 1 0 1) (ho : |(o.x 0).val| ≤ 1) : |3 * (o.x 0 + ((feasibility (.fl 3) 1).eval o).awbs).val - 1| < 1 / 2 ^ 42 := by
  have h := one_after (by norm_num) (feasibility (.fl 3) 1) o
  have ea : (feasibility (.fl 3) 1).a.val = 3 := by decide +kernel
  have eb : (feasibility (.fl 3) 1).b.val = 1 := by decide +kernel
  have eR : ((feasibility (.fl 3) 1).R 0 0).val = (1 - 1 / 2 ^ 46) / 3 := by decide +kernel
  have hw := FloatView.awbs_error (ny := 1) (nz := 0) (by norm_num) (((feasibility (.fl 3) 1).floatMachine (by norm_num)).computes _ o ((feasibility (.fl 3) 1).view o) ⟨rfl, rfl⟩).1 (0 : Fin 1)
  rw [OneProblem.view_feasibility, OneProblem.view_defect, OneProblem.view_canonicalSize, ea, eb, eR] at hw
  rw [ea, eb, eR] at h
  change |((feasibility (.fl 3) 1).eval o).awbs.val - _| ≤ roundings 53 9 * _ at hw
  set x := (o.x 0).val
  set w := ((feasibility (.fl 3) 1).eval o).awbs.val
  have hr : roundings 53 9 ≤ 1 / 2 ^ 49 := by norm_num [roundings]
  have hr0 := roundings_nonneg 53 9
  have hx := abs_le.1 ho
  have a1 : |1 - 3 * x| ≤ 4 := by rw [abs_le]; constructor <;> linarith
  have eR' : |((1 : ℚ) - 1 / 2 ^ 46) / 3| * |1| ≤ 1 := by norm_num [abs_of_pos]
  have a2 : roundings 53 9 * (|((1 : ℚ) - 1 / 2 ^ 46) / 3| * |1| + |x|) ≤ 1 / 2 ^ 49 * 2 := mul_le_mul hr (by linarith) (by positivity) (by positivity)
  have a3 : |x + w| ≤ 1 := by
    have := abs_le.1 (hw.trans a2)
    rw [abs_le]
    norm_num at this ⊢
    constructor <;> linarith
  have a4 : |((1 - 1 / 2 ^ 46) / 3 * 3 - 1) * x| ≤ 1 / 2 ^ 46 := by
    rw [abs_mul]
    norm_num
    linarith
  have a5 : |(3 : ℚ) * ((1 - 1 / 2 ^ 46) / 3) - 1| * |1 - 3 * x| ≤ 1 / 2 ^ 46 * 4 := mul_le_mul (by norm_num) a1 (abs_nonneg _) (by norm_num)
  have e3 : |(3 : ℚ)| = 3 := by norm_num
  rw [e3] at h
  refine h.trans_lt ?_
  norm_num at a2 a4 a5 ⊢
  linarith

end newton

end Optima.FStep
