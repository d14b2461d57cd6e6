import Verif.Props.FixedPoint
import Verif.Props.Infeasible

/-!
# C61: close to a regular solution the solver converges
-/

set_option linter.unusedSectionVars false

namespace Optima

open Matrix

variable {K : Type*} [Field K] [LinearOrder K] [IsStrictOrderedRing K] {nx np ny nz : ℕ} {τ : Type*}

/-- The functions of a problem with affine `h`; the objective and `v` are arbitrary. -/
structure Smooth (K : Type*) (nx np nz : ℕ) where
  g : (Fin nx → K) → (Fin np → K) → Fin nx → K
  H : (Fin nx → K) → (Fin np → K) → Matrix (Fin nx) (Fin nx) K
  Hp : (Fin nx → K) → (Fin np → K) → Matrix (Fin nx) (Fin np) K
  hx : Matrix (Fin nz) (Fin nx) K
  hp : Matrix (Fin nz) (Fin np) K
  h0 : Fin nz → K
  v : (Fin nx → K) → (Fin np → K) → Fin np → K
  vx : (Fin nx → K) → (Fin np → K) → Matrix (Fin np) (Fin nx) K
  vp : (Fin nx → K) → (Fin np → K) → Matrix (Fin np) (Fin np) K

/-- What the user functions return at `(x, p)`. -/
structure Smooth.Returns (F : Smooth K nx np nz) (x : Fin nx → K) (p : Fin np → K) (ev : Evals K nx np nz) : Prop where
  fx : ev.fx = F.g x p
  fxx : ev.fxx = F.H x p
  fxp : ev.fxp = F.Hp x p
  h : ev.h = F.hx *ᵥ x + F.hp *ᵥ p + F.h0
  hx : ev.hx = F.hx
  hp : ev.hp = F.hp
  v : ev.v = F.v x p
  vx : ev.vx = F.vx x p
  vp : ev.vp = F.vp x p

/-- The gradient of the Lagrangian. -/
def Smooth.mult (F : Smooth K nx np nz) (pb : MProblem K nx np ny nz) (u : MVec K nx np (ny + nz)) (i : Fin nx) : K :=
  F.g u.x u.p i + ∑ l, pb.Ax l i * u.w (Fin.castAdd nz l) + ∑ l, F.hx l i * u.w (Fin.natAdd ny l)

/-- The distance in `x` and `p` is at most `e`. -/
def Near (us : MVec K nx np (ny + nz)) (e : K) (x : Fin nx → K) (p : Fin np → K) : Prop := (∀ i, |x i - us.x i| ≤ e) ∧ ∀ q, |p q - us.p q| ≤ e

/-- `us` is a regular solution: the variables in `A` are on a bound there, the others are not within the distance `ρ`.  Close to it the derivatives describe the functions up to `L` times the square of the distance, and the linearised conditions determine
    `x` and `p` stably (constant `C`). -/
structure Smooth.Regular (F : Smooth K nx np nz) (pb : MProblem K nx np ny nz) (A : Fin nx → Prop) (us : MVec K nx np (ny + nz)) (ρ L C D G σ : K) : Prop where
  ρ_nonneg : 0 ≤ ρ
  L_nonneg : 0 ≤ L
  C_nonneg : 0 ≤ C
  /-- first-order conditions -/
  grad : ∀ i, ¬ A i → F.mult pb us i = 0
  feas_v : F.v us.x us.p = 0
  feas_lin : ∀ l, ∑ j, pb.Ax l j * us.x j + ∑ q, pb.Ap l q * us.p q = pb.b l
  feas_h : F.hx *ᵥ us.x + F.hp *ᵥ us.p + F.h0 = 0
  /-- the active bounds and the signs of their multipliers -/
  active : ∀ i, A i → (pb.xlower i = some (us.x i) ∧ σ < F.mult pb us i) ∨ (pb.xupper i = some (us.x i) ∧ F.mult pb us i < -σ)
  /-- the other bounds are far away -/
  inside : ∀ u : MVec K nx np (ny + nz), Near us ρ u.x u.p → (∀ i, A i → u.x i = us.x i) → InBounds pb.bounds u ∧ ∀ i, ¬ A i → pb.Interior u i
  /-- Taylor -/
  taylor_g : ∀ x p x' p' e, Near us ρ x p → Near us ρ x' p' → (∀ j, |x' j - x j| ≤ e) → (∀ q, |p' q - p q| ≤ e) → ∀ i, ¬ A i →
    |F.g x' p' i - F.g x p i - ∑ j, F.H x p i j * (x' j - x j) - ∑ q, F.Hp x p i q * (p' q - p q)| ≤ L * e ^ 2
  taylor_v : ∀ x p x' p' e, Near us ρ x p → Near us ρ x' p' → (∀ j, |x' j - x j| ≤ e) → (∀ q, |p' q - p q| ≤ e) → ∀ r,
    |F.v x' p' r - F.v x p r - ∑ j, F.vx x p r j * (x' j - x j) - ∑ q, F.vp x p r q * (p' q - p q)| ≤ L * e ^ 2
  lip : ∀ x p e, Near us e x p → e ≤ ρ → ∀ i, A i → |F.g x p i - F.g us.x us.p i| ≤ G * e
  /-- stability of the linearised conditions -/
  stable : ∀ x p, Near us ρ x p → ∀ (d : MVec K nx np (ny + nz)) (t : K), 0 ≤ t → (∀ i, A i → d.x i = 0) →
    (∀ l, ∑ j, pb.Ax l j * d.x j + ∑ q, pb.Ap l q * d.p q = 0) → (∀ l, ∑ j, F.hx l j * d.x j + ∑ q, F.hp l q * d.p q = 0) →
    (∀ i, ¬ A i → |∑ j, F.H x p i j * d.x j + ∑ q, F.Hp x p i q * d.p q + (∑ l, pb.Ax l i * d.w (Fin.castAdd nz l) + ∑ l, F.hx l i * d.w (Fin.natAdd ny l))| ≤ t) →
    (∀ r, |∑ j, F.vx x p r j * d.x j + ∑ q, F.vp x p r q * d.p q| ≤ t) →
    (∀ i, |d.x i| ≤ C * t) ∧ (∀ q, |d.p q| ≤ C * t) ∧ ∀ i, A i → |∑ l, pb.Ax l i * d.w (Fin.castAdd nz l) + ∑ l, F.hx l i * d.w (Fin.natAdd ny l)| ≤ D * t
  /-- the gradients of the constraints and of the active bounds are linearly independent -/
  licq : ∀ (y : Fin ny → K) (z : Fin nz → K), (∀ i, ¬ A i → ∑ l, pb.Ax l i * y l + ∑ l, F.hx l i * z l = 0) → y = 0 ∧ z = 0
  /-- the distance is small enough -/
  contraction : 2 * (C * L * ρ) ≤ 1
  margin : (G * C + D) * L * ρ ^ 2 ≤ σ
  σ_nonneg : 0 ≤ σ

section

variable {F : Smooth K nx np nz} {pb : MProblem K nx np ny nz} {A : Fin nx → Prop} {us : MVec K nx np (ny + nz)} {ρ L C D G σ : K} {env : Env K} {ev ev' : Evals K nx np nz} {uo u du : MVec K nx np (ny + nz)} {rf rf' : RFState K nx np ny nz pb.Ax}

theorem Near.mono {e e' : K} {x : Fin nx → K} {p : Fin np → K} (h : Near us e x p) (he : e ≤ e') : Near us e' x p := ⟨fun i => (h.1 i).trans he, fun q => (h.2 q).trans he⟩

theorem Smooth.mult_eq (hev : F.Returns u.x u.p ev) (i : Fin nx) : pb.mult ev u i = F.mult pb u i := by
  unfold MProblem.mult Smooth.mult
  rw [hev.fx, hev.hx]

/-- The equations of the step, in terms of the problem. -/
theorem Smooth.step_eqs (h : RFSpec env pb ev uo rf) (hev : F.Returns uo.x uo.p ev) (hju : ∀ i, i ∈ rf.M.ju ↔ A i) (hdu : SolvesMaster rf.M rf.res.master du) (hx : ∀ i, u.x i = uo.x i + du.x i)
    (hp : ∀ q, u.p q = uo.p q + du.p q) (hw : ∀ l, u.w l = uo.w l + du.w l) :
    (∀ i, A i → u.x i = uo.x i) ∧
    (∀ i, ¬ A i → ∑ j, F.H uo.x uo.p i j * (u.x j - uo.x j) + ∑ q, F.Hp uo.x uo.p i q * (u.p q - uo.p q) + F.g uo.x uo.p i + (∑ l, pb.Ax l i * u.w (Fin.castAdd nz l) + ∑ l, F.hx l i * u.w (Fin.natAdd ny l)) = 0) ∧
    (∀ r, ∑ j, F.vx uo.x uo.p r j * (u.x j - uo.x j) + ∑ q, F.vp uo.x uo.p r q * (u.p q - uo.p q) + F.v uo.x uo.p r = 0) ∧
    (∀ l, ∑ j, pb.Ax l j * u.x j + ∑ q, pb.Ap l q * u.p q = pb.b l) ∧ F.hx *ᵥ u.x + F.hp *ᵥ u.p + F.h0 = 0 := by
  obtain ⟨ax0, hres⟩ := h.res
  obtain ⟨m1, m2, m3, m4, m5, m6⟩ := residual_master env.eps h.canon ax0 (rfArgs pb rf.M ev uo)
  rw [← hres] at m1 m2 m3 m4 m5 m6
  have hz : ∀ i, i ∈ rf.M.ju → du.x i = 0 := fun i hi => by rw [hdu.unstable i hi, m2 i hi]
  have drop : ∀ f : Fin nx → K, ∑ j, (if j ∈ rf.M.ju then 0 else f j * du.x j) = ∑ j, f j * du.x j := fun f => Finset.sum_congr rfl fun j _ => by
    by_cases hj : j ∈ rf.M.ju
    · simp [hj, hz j hj]
    · simp [hj]
  have dx : ∀ j, u.x j - uo.x j = du.x j := fun j => by rw [hx]; ring
  have dp : ∀ j, u.p j - uo.p j = du.p j := fun j => by rw [hp]; ring
  refine ⟨fun i hi => by rw [hx, hz i ((hju i).2 hi), add_zero], fun i hi => ?_, fun r => ?_, fun l => ?_, funext fun l => ?_⟩
  · have hi' : i ∉ rf.M.ju := fun e => hi ((hju i).1 e)
    have e := hdu.stable i hi'
    rw [m1 i hi', drop] at e
    unfold lagGrad rfArgs at e
    dsimp only at e
    rw [h.Hxx, h.Hxp, hev.fxx, hev.fxp, hev.fx, h.Wx, hev.hx] at e
    rw [Fin.sum_univ_add] at e
    simp only [stack, Fin.addCases_left, Fin.addCases_right] at e
    simp only [dx, dp, hw, mul_add, Finset.sum_add_distrib]
    linear_combination e
  · have e := hdu.par r
    rw [m3 r, drop] at e
    change _ = - ev.v r at e
    rw [h.Vpx, h.Vpp, hev.vx, hev.vp, hev.v] at e
    simp only [dx, dp]
    linear_combination e
  · have e := hdu.constr (Fin.castAdd nz l)
    rw [m4, drop] at e
    simp only [feasRes, Fin.addCases_left] at e
    change _ = pb.b l - ∑ j, rf.M.Wx (Fin.castAdd nz l) j * uo.x j - ∑ q, rf.M.Wp (Fin.castAdd nz l) q * uo.p q at e
    rw [h.Wx, h.Wp] at e
    simp only [stack, Fin.addCases_left] at e
    simp only [hx, hp, mul_add, Finset.sum_add_distrib]
    linear_combination e
  · have e := hdu.constr (Fin.natAdd ny l)
    rw [m4, drop] at e
    simp only [feasRes, Fin.addCases_right] at e
    change _ = - ev.h l at e
    rw [h.Wx, h.Wp, hev.h, hev.hx, hev.hp] at e
    simp only [stack, Fin.addCases_right, Pi.add_apply, mulVec, dotProduct] at e
    simp only [Pi.add_apply, mulVec, dotProduct, Pi.zero_apply, hx, hp, mul_add, Finset.sum_add_distrib]
    linear_combination e

/-- One step: the new distance is at most `C L` times the square of the old one, and the gradient on the active bounds keeps its sign. -/
theorem Smooth.Regular.step (R : F.Regular pb A us ρ L C D G σ) (h : RFSpec env pb ev uo rf) (hev : F.Returns uo.x uo.p ev) (hju : ∀ i, i ∈ rf.M.ju ↔ A i) (hdu : SolvesMaster rf.M rf.res.master du) (hx : ∀ i, u.x i = uo.x i + du.x i)
    (hp : ∀ q, u.p q = uo.p q + du.p q) (hw : ∀ l, u.w l = uo.w l + du.w l) {e : K} (he0 : 0 ≤ e) (heρ : e ≤ ρ) (hA : ∀ i, A i → uo.x i = us.x i) (hn : Near us e uo.x uo.p) :
    (∀ i, A i → u.x i = us.x i) ∧ Near us (C * L * e ^ 2) u.x u.p ∧ C * L * e ^ 2 ≤ e ∧ (∀ i, A i → 0 < F.mult pb us i → 0 < F.mult pb u i) ∧ (∀ i, A i → F.mult pb us i < 0 → F.mult pb u i < 0) := by
  obtain ⟨k1, k2, k3, k4, k5⟩ := Smooth.step_eqs h hev hju hdu hx hp hw
  have hns : Near us ρ us.x us.p := ⟨fun i => by simpa using R.ρ_nonneg, fun i => by simpa using R.ρ_nonneg⟩
  have hno := hn.mono heρ
  have hdx : ∀ j, |us.x j - uo.x j| ≤ e := fun j => by rw [abs_sub_comm]; exact hn.1 j
  have hdp : ∀ j, |us.p j - uo.p j| ≤ e := fun j => by rw [abs_sub_comm]; exact hn.2 j
  have hL : 0 ≤ L * e ^ 2 := mul_nonneg R.L_nonneg (by positivity)
  have hs := R.stable uo.x uo.p hno ⟨fun i => u.x i - us.x i, fun q => u.p q - us.p q, fun l => u.w l - us.w l⟩ (L * e ^ 2) hL (fun i hi => by dsimp only; rw [k1 i hi, hA i hi, sub_self])
    (fun l => by
      have e1 := k4 l
      have e2 := R.feas_lin l
      simp only [mul_sub, Finset.sum_sub_distrib]
      linear_combination e1 - e2)
    (fun l => by
      have e1 := congrFun k5 l
      have e2 := congrFun R.feas_h l
      simp only [Pi.add_apply, mulVec, dotProduct, Pi.zero_apply] at e1 e2
      simp only [mul_sub, Finset.sum_sub_distrib]
      linear_combination e1 - e2)
    (fun i hi => by
      have e1 := k2 i hi
      have e2 := R.grad i hi
      have e3 := R.taylor_g uo.x uo.p us.x us.p e hno hns hdx hdp i hi
      unfold Smooth.mult at e2
      refine le_trans (le_of_eq ?_) e3
      congr 1
      simp only [mul_sub, Finset.sum_sub_distrib] at e1 ⊢
      linear_combination e1 - e2)
    (fun r => by
      have e1 := k3 r
      have e2 := congrFun R.feas_v r
      have e3 := R.taylor_v uo.x uo.p us.x us.p e hno hns hdx hdp r
      refine le_trans (le_of_eq ?_) e3
      congr 1
      simp only [mul_sub, Finset.sum_sub_distrib, Pi.zero_apply] at e1 e2 ⊢
      linear_combination e1 - e2)
  obtain ⟨s1, s2, s3⟩ := hs
  dsimp only at s1 s2 s3
  have hnew : Near us (C * L * e ^ 2) u.x u.p := ⟨fun i => (s1 i).trans (by rw [mul_assoc]), fun q => (s2 q).trans (by rw [mul_assoc])⟩
  have hle : C * L * e ^ 2 ≤ e := by
    have h1 : C * L * e ≤ C * L * ρ := mul_le_mul_of_nonneg_left heρ (mul_nonneg R.C_nonneg R.L_nonneg)
    have h2 := R.contraction
    have h3 : C * L * e ≤ 1 := by linarith
    calc C * L * e ^ 2 = C * L * e * e := by ring
      _ ≤ 1 * e := mul_le_mul_of_nonneg_right h3 he0
      _ = e := one_mul e
  have hsig : ∀ i, A i → |F.mult pb u i - F.mult pb us i| ≤ σ := by
    intro i hi
    have e1 := R.lip u.x u.p _ hnew (hle.trans heρ) i hi
    have e2 := s3 i hi
    have e3 : F.mult pb u i - F.mult pb us i = (F.g u.x u.p i - F.g us.x us.p i) + (∑ l, pb.Ax l i * (u.w (Fin.castAdd nz l) - us.w (Fin.castAdd nz l)) + ∑ l, F.hx l i * (u.w (Fin.natAdd ny l) - us.w (Fin.natAdd ny l))) := by
      unfold Smooth.mult
      simp only [mul_sub, Finset.sum_sub_distrib]
      ring
    rw [e3]
    refine (abs_add_le _ _).trans ((add_le_add e1 e2).trans ?_)
    have e4 : e ^ 2 ≤ ρ ^ 2 := by gcongr
    have hc : 0 ≤ (G * C + D) * L ∨ (G * C + D) * L < 0 := le_or_gt _ _
    have e5 : G * (C * L * e ^ 2) + D * (L * e ^ 2) = (G * C + D) * L * e ^ 2 := by ring
    rw [e5]
    rcases hc with hc | hc
    · exact (mul_le_mul_of_nonneg_left e4 hc).trans R.margin
    · exact (mul_nonpos_of_nonpos_of_nonneg hc.le (by positivity)).trans R.σ_nonneg
  refine ⟨fun i hi => (k1 i hi).trans (hA i hi), hnew, hle, fun i hi hpos => ?_, fun i hi hneg => ?_⟩
  · have := abs_le.1 (hsig i hi)
    rcases R.active i hi with ⟨-, a⟩ | ⟨-, a⟩
    · linarith
    · have := R.σ_nonneg; linarith
  · have := abs_le.1 (hsig i hi)
    rcases R.active i hi with ⟨-, a⟩ | ⟨-, a⟩
    · have := R.σ_nonneg; linarith
    · linarith

/-- The reported error after a step is quadratic in the old distance. -/
theorem Smooth.Regular.error (heps : env.eps = 0) (R : F.Regular pb A us ρ L C D G σ) (h : RFSpec env pb ev uo rf) (h' : RFSpec env pb ev' u rf') (hev : F.Returns uo.x uo.p ev) (hev' : F.Returns u.x u.p ev')
    (hju : ∀ i, i ∈ rf.M.ju ↔ A i) (hju' : ∀ i, i ∈ rf'.M.ju ↔ A i) (hdu : SolvesMaster rf.M rf.res.master du) (hx : ∀ i, u.x i = uo.x i + du.x i) (hp : ∀ q, u.p q = uo.p q + du.p q) (hw : ∀ l, u.w l = uo.w l + du.w l)
    {e : K} (he0 : 0 ≤ e) (heρ : e ≤ ρ) (hA : ∀ i, A i → uo.x i = us.x i) (hn : Near us e uo.x uo.p) (ew0) :
    (residualErrors rf'.C.mat pb.xlower pb.xupper u.x rf'.res ew0).error ≤ L * (e + C * L * e ^ 2) ^ 2 := by
  obtain ⟨k1, k2, k3, k4, k5⟩ := Smooth.step_eqs h hev hju hdu hx hp hw
  obtain ⟨n1, n2, n3, -, -⟩ := R.step h hev hju hdu hx hp hw he0 heρ hA hn
  have hno := hn.mono heρ
  have hnu := n2.mono (n3.trans heρ)
  have hd : ∀ a b c : K, ∀ e1 e2 : K, |a - c| ≤ e1 → |b - c| ≤ e2 → |b - a| ≤ e1 + e2 := fun a b c e1 e2 h1 h2 => by
    rw [abs_le] at *; constructor <;> linarith
  have hdx : ∀ j, |u.x j - uo.x j| ≤ e + C * L * e ^ 2 := fun j => hd _ _ _ _ _ (hn.1 j) (n2.1 j)
  have hdp : ∀ j, |u.p j - uo.p j| ≤ e + C * L * e ^ 2 := fun j => hd _ _ _ _ _ (hn.2 j) (n2.2 j)
  obtain ⟨ax0', hres'⟩ := h'.res
  obtain ⟨m1', m2', m3', m4', m5', m6'⟩ := residual_master env.eps h'.canon ax0' (rfArgs pb rf'.M ev' u)
  rw [← hres'] at m1' m2' m3' m4' m5' m6'
  have hE' := rf_echelon heps h'
  rw [error_le_iff h'.canon (basics_le_rows h'.canon h'.b) _ _ _ _ _ _ (mul_nonneg R.L_nonneg (by positivity))]
  refine ⟨fun i hi _ => ?_, fun q => ?_, fun b => ?_⟩
  · have hi' : ¬ A i := fun hA => hi ((hju' i).2 hA)
    rw [m1' i hi, abs_neg]
    refine le_trans (le_of_eq ?_) (R.taylor_g uo.x uo.p u.x u.p _ hno hnu hdx hdp i hi')
    congr 1
    have e1 := k2 i hi'
    unfold lagGrad rfArgs
    dsimp only
    rw [hev'.fx, h'.Wx, hev'.hx]
    simp only [stack, Fin.addCases_left, Fin.addCases_right]
    linear_combination e1
  · rw [m3' q]
    change |- ev'.v q| ≤ _
    rw [abs_neg, hev'.v]
    refine le_trans (le_of_eq ?_) (R.taylor_v uo.x uo.p u.x u.p _ hno hnu hdx hdp q)
    congr 1
    linear_combination k3 q
  · have hf : ∀ l, feasRes (rfArgs pb rf'.M ev' u) l = 0 := by
      intro l
      refine Fin.addCases (fun l => ?_) (fun l => ?_) l
      · simp only [feasRes, Fin.addCases_left]
        change pb.b l - ∑ j, rf'.M.Wx (Fin.castAdd nz l) j * u.x j - ∑ q, rf'.M.Wp (Fin.castAdd nz l) q * u.p q = 0
        rw [h'.Wx, h'.Wp]
        simp only [stack, Fin.addCases_left]
        linear_combination -(k4 l)
      · simp only [feasRes, Fin.addCases_right]
        change - ev'.h l = 0
        rw [hev'.h, k5]
        simp
    rw [hres', heps, residual_canonical_exact h'.canon hE' ax0' (rfArgs pb rf'.M ev' u) rfl rfl b]
    simp only [hf, mul_zero, Finset.sum_const_zero, abs_zero]
    exact mul_nonneg R.L_nonneg (by positivity)

/-- A point close to the solution, on the active bounds, at which the gradient has the right sign there. -/
structure Smooth.Good (F : Smooth K nx np nz) (pb : MProblem K nx np ny nz) (A : Fin nx → Prop) (us : MVec K nx np (ny + nz)) (e : K) (u : MVec K nx np (ny + nz)) : Prop where
  near : Near us e u.x u.p
  active : ∀ i, A i → u.x i = us.x i
  pos : ∀ i, A i → 0 < F.mult pb us i → 0 < F.mult pb u i
  neg : ∀ i, A i → F.mult pb us i < 0 → F.mult pb u i < 0

/-- Exactly the variables in `A` are unstable at such a point. -/
theorem Smooth.Regular.ju (ho : ∀ M, (env.o M).lu.Z = 0) (R : F.Regular pb A us ρ L C D G σ) (hcase : (∀ i, ¬ A i) ∨ (env.thr = 0 ∧ 0 < ny + nz)) (h : RFSpec env pb ev u rf) (hev : F.Returns u.x u.p ev) {e : K} (heρ : e ≤ ρ)
    (hu : F.Good pb A us e u) (i : Fin nx) : i ∈ rf.M.ju ↔ A i := by
  obtain ⟨-, hint⟩ := R.inside u (hu.near.mono heρ) hu.active
  rcases hcase with hc | ⟨hthr, hc⟩
  · refine ⟨fun hi => ?_, fun hi => absurd hi (hc i)⟩
    have := hint i (hc i)
    rcases (h.unstable i hi).2 with h1 | h1
    · exact absurd h1.1 this.1
    · exact absurd h1.1 this.2
  · have hq : pb.Licq ev u := by
      intro y z hyz
      rw [hev.hx] at hyz
      exact R.licq y z fun i hi => hyz i (hint i hi)
    rw [(unstable_iff_held hthr ho hc h hq).2 i]
    constructor
    · intro hh
      by_contra hn
      rcases hh with h1 | h1
      · exact (hint i hn).1 h1.1
      · exact (hint i hn).2 h1.1
    · intro hA
      have hσ := R.σ_nonneg
      unfold MProblem.Held
      rw [Smooth.mult_eq hev, hu.active i hA]
      rcases R.active i hA with ⟨h1, h2⟩ | ⟨h1, h2⟩
      · exact Or.inl ⟨h1, hu.pos i hA (by linarith)⟩
      · exact Or.inr ⟨h1, hu.neg i hA (by linarith)⟩

/-- The rows of the constraints are linearly independent. -/
theorem Smooth.Regular.rows (R : F.Regular pb A us ρ L C D G σ) (h : RFSpec env pb ev u rf) (hev : F.Returns u.x u.p ev) : ∀ y : Fin (ny + nz) → K, (∀ i, ∑ l, rf.M.Wx l i * y l = 0) → y = 0 := by
  intro y hy
  obtain ⟨e1, e2⟩ := R.licq (fun l => y (Fin.castAdd nz l)) (fun l => y (Fin.natAdd ny l)) fun i _ => by
    have := hy i
    rw [h.Wx, hev.hx, Fin.sum_univ_add] at this
    simpa only [stack, Fin.addCases_left, Fin.addCases_right] using this
  funext l
  refine Fin.addCases (fun l => ?_) (fun l => ?_) l
  · exact congrFun e1 l
  · exact congrFun e2 l

/-- The linearisation has only the zero solution. -/
theorem Smooth.Regular.nonsingular (R : F.Regular pb A us ρ L C D G σ) (h : RFSpec env pb ev u rf) (hev : F.Returns u.x u.p ev) (hn : Near us ρ u.x u.p) (hju : ∀ i, i ∈ rf.M.ju ↔ A i) (d : MVec K nx np (ny + nz))
    (hd : SolvesMaster rf.M ⟨0, 0, 0⟩ d) : d = ⟨0, 0, 0⟩ := by
  have drop : ∀ f : Fin nx → K, ∑ j, (if j ∈ rf.M.ju then 0 else f j * d.x j) = ∑ j, f j * d.x j := fun f => Finset.sum_congr rfl fun j _ => by
    by_cases hj : j ∈ rf.M.ju
    · simp [hj, hd.unstable j hj]
    · simp [hj]
  have st := hd.stable
  have pa := hd.par
  have co := hd.constr
  simp only [drop] at st pa co
  have hst : ∀ i, ¬ A i → ∑ j, F.H u.x u.p i j * d.x j + ∑ q, F.Hp u.x u.p i q * d.p q + (∑ l, pb.Ax l i * d.w (Fin.castAdd nz l) + ∑ l, F.hx l i * d.w (Fin.natAdd ny l)) = 0 := fun i hi => by
    have e := st i (fun hj => hi ((hju i).1 hj))
    rw [h.Hxx, h.Hxp, hev.fxx, hev.fxp, h.Wx, hev.hx, Fin.sum_univ_add] at e
    simpa only [stack, Fin.addCases_left, Fin.addCases_right, Pi.zero_apply] using e
  obtain ⟨s1, s2, -⟩ := R.stable u.x u.p hn d 0 le_rfl (fun i hi => hd.unstable i ((hju i).2 hi))
    (fun l => by
      have e := co (Fin.castAdd nz l)
      rw [h.Wx, h.Wp] at e
      simpa only [stack, Fin.addCases_left, Pi.zero_apply] using e)
    (fun l => by
      have e := co (Fin.natAdd ny l)
      rw [h.Wx, h.Wp, hev.hx, hev.hp] at e
      simpa only [stack, Fin.addCases_right, Pi.zero_apply] using e)
    (fun i hi => by rw [hst i hi, abs_zero])
    (fun r => by
      have e := pa r
      rw [h.Vpx, h.Vpp, hev.vx, hev.vp] at e
      rw [e]; simp)
  have z1 : d.x = 0 := funext fun i => abs_eq_zero.1 (le_antisymm (by simpa using s1 i) (abs_nonneg _))
  have z2 : d.p = 0 := funext fun i => abs_eq_zero.1 (le_antisymm (by simpa using s2 i) (abs_nonneg _))
  obtain ⟨e1, e2⟩ := R.licq (fun l => d.w (Fin.castAdd nz l)) (fun l => d.w (Fin.natAdd ny l)) fun i hi => by
    have := hst i hi
    rw [z1, z2] at this
    simpa using this
  ext i
  · rw [z1]
  · rw [z2]
  · refine Fin.addCases (fun l => ?_) (fun l => ?_) i
    · exact congrFun e1 l
    · exact congrFun e2 l

end

/-- The distance after `n` iterations: `ρ q ^ (2 ^ n - 1)` with `q = C L ρ`. -/
def quadRate (ρ q : K) (n : ℕ) : K := ρ * q ^ (2 ^ n - 1)

theorem quadRate_succ (ρ a : K) (n : ℕ) : quadRate ρ (a * ρ) (n + 1) = a * quadRate ρ (a * ρ) n ^ 2 := by
  unfold quadRate
  have : 2 ^ (n + 1) - 1 = (2 ^ n - 1) * 2 + 1 := by have := Nat.one_le_two_pow (n := n); omega
  rw [this, pow_succ, pow_mul]
  ring

theorem quadRate_nonneg {ρ q : K} (hρ : 0 ≤ ρ) (hq : 0 ≤ q) (n : ℕ) : 0 ≤ quadRate ρ q n := mul_nonneg hρ (pow_nonneg hq _)

theorem quadRate_le {ρ q : K} (hρ : 0 ≤ ρ) (hq : 0 ≤ q) (hq1 : q ≤ 1) {n m : ℕ} (h : n ≤ m) : quadRate ρ q m ≤ quadRate ρ q n :=
  mul_le_mul_of_nonneg_left (pow_le_pow_of_le_one hq hq1 (Nat.sub_le_sub_right (Nat.pow_le_pow_right (by norm_num) h) 1)) hρ

section

variable {F : Smooth K nx np nz} {A : Fin nx → Prop} {cfg : Config K nx np ny nz τ} {us : MVec K nx np (ny + nz)} {ρ L C D G σ : K}

/-- The state of the loop after `k` iterations, ready for another. -/
structure ConvInv (F : Smooth K nx np nz) (A : Fin nx → Prop) (cfg : Config K nx np ny nz τ) (us : MVec K nx np (ny + nz)) (ρ q : K) (k : ℕ) (s : SolveState (Parts K nx np ny nz τ cfg.pb.Ax) K nx np (ny + nz)) : Prop where
  reach : Reach cfg s.mach
  eval : EvaluatedAt cfg s.mach s.u
  good : F.Good cfg.pb A us (quadRate ρ q k) s.u
  iterations : s.iterations = k

/-- Everything assumed about the solver and the user functions. -/
structure ConvHyp (F : Smooth K nx np nz) (A : Fin nx → Prop) (cfg : Config K nx np ny nz τ) (us : MVec K nx np (ny + nz)) (ρ L C D G σ : K) : Prop where
  regular : F.Regular cfg.pb A us ρ L C D G σ
  thr : 0 ≤ cfg.env.thr
  eps : cfg.env.eps = 0
  release : cfg.env.debug = false
  oracle : ∀ M, (cfg.env.o M).lu.Z = 0
  nx_pos : 0 < nx
  phi : cfg.phi = none
  lu : LUInners cfg
  method : cfg.method ≠ .rangespace
  case : (∀ i, ¬ A i) ∨ (cfg.env.thr = 0 ∧ 0 < ny + nz)
  user : ∀ t x p q, Near us ρ x p → ∃ t' ev, cfg.user t x p q = some (t', ev) ∧ F.Returns x p ev

theorem ConvHyp.q_nonneg (X : ConvHyp F A cfg us ρ L C D G σ) : 0 ≤ C * L * ρ := mul_nonneg (mul_nonneg X.regular.C_nonneg X.regular.L_nonneg) X.regular.ρ_nonneg

theorem ConvHyp.q_le (X : ConvHyp F A cfg us ρ L C D G σ) : C * L * ρ ≤ 1 := by
  have := X.regular.contraction
  have := X.q_nonneg
  linarith

theorem ConvHyp.rate_le (X : ConvHyp F A cfg us ρ L C D G σ) (k : ℕ) : quadRate ρ (C * L * ρ) k ≤ ρ :=
  (quadRate_le X.regular.ρ_nonneg X.q_nonneg X.q_le (Nat.zero_le k)).trans (by simp [quadRate])

theorem ConvHyp.evalOk (X : ConvHyp F A cfg us ρ L C D G σ) {s} (hs : Reach cfg s) {u : MVec K nx np (ny + nz)} (hu : Near us ρ u.x u.p) (check) : ∃ s', (cfg.machine check).eval s u = some s' := by
  obtain ⟨t', ev, e, -⟩ := X.user s.user u.x u.p s.ech.rwq hu
  obtain ⟨rf, hrf, -⟩ := rfUpdate_release X.thr X.eps.ge X.release cfg.pb hs X.nx_pos s.ax ev u
  have : ∃ s', cfg.updateF cfg.user s u = some s' := by
    unfold Config.updateF
    rw [e]
    dsimp only
    rw [hrf]
    exact ⟨_, rfl⟩
  obtain ⟨s', h'⟩ := this
  exact ⟨cfg.updateE s' u, by change (cfg.updateF cfg.user s u).map _ = _; rw [h']; rfl⟩

/-- One pass through the loop body. -/
theorem ConvHyp.step (X : ConvHyp F A cfg us ρ L C D G σ) (check) (o : SolveOptions K) {k : ℕ} {s} (hs : ConvInv F A cfg us ρ (C * L * ρ) k s) (huo : s.uo = s.u) :
    ∃ s1, Optima.step (cfg.machine check) o cfg.pb.bounds s = some s1 ∧ ConvInv F A cfg us ρ (C * L * ρ) (k + 1) s1 ∧ s1.mach.errors.error ≤ L * (quadRate ρ (C * L * ρ) k + quadRate ρ (C * L * ρ) (k + 1)) ^ 2 := by
  have hinv := machine_inv X.thr X.eps.ge X.nx_pos (cfg := cfg) check
  have R := X.regular
  have hle := X.rate_le k
  have h0 := quadRate_nonneg R.ρ_nonneg X.q_nonneg k
  obtain ⟨ev, rf, ew0, hrf, hspec, herr, t0, t1, q, hu⟩ := hs.eval
  have hev : F.Returns s.u.x s.u.p ev := by
    obtain ⟨t', ev', e, hr⟩ := X.user t0 s.u.x s.u.p q (hs.good.near.mono hle)
    rw [hu] at e; cases e; exact hr
  have hju := R.ju X.oracle X.case hspec hev hle hs.good
  have hE := rf_echelon X.eps hspec
  obtain ⟨hR, hC⟩ := full_row_rank hE (rf_full_rank X.oracle hspec (R.rows hspec hev))
  have hInner := luInners_ok X.lu X.method hspec.canon hE hR (R.nonsingular hspec hev (hs.good.near.mono hle) hju) rf.res.master
  have hn : ∃ r, cfg.newton s.mach s.u = some r := by unfold Config.newton; rw [hrf]; exact ⟨_, rfl⟩
  obtain ⟨⟨sm, un⟩, hn⟩ := hn
  obtain ⟨dn, hdn, hx, hp, hw⟩ := newton_solves X.eps hrf hspec hR (hC _) hInner (fun e => absurd e X.method) hn
  obtain ⟨g1, g2, g3, g4, g5⟩ := R.step hspec hev hju hdn hx hp hw h0 hle hs.good.active hs.good.near
  have hrate : quadRate ρ (C * L * ρ) (k + 1) = C * L * quadRate ρ (C * L * ρ) k ^ 2 := quadRate_succ ρ (C * L) k
  have hgood : F.Good cfg.pb A us (quadRate ρ (C * L * ρ) (k + 1)) un := ⟨by rw [hrate]; exact g2, g1, g4, g5⟩
  have hle' := X.rate_le (k + 1)
  have hnear := hgood.near.mono hle'
  have hin := (R.inside un hnear hgood.active).1
  have hino := (R.inside s.u (hs.good.near.mono hle) hs.good.active).1
  have hq : Reach cfg sm := hinv.newton _ _ _ _ hs.reach hn
  obtain ⟨s2, he2⟩ := X.evalOk hq hnear check
  obtain ⟨q2, p2⟩ := hinv.eval _ _ _ hq he2
  refine ⟨{ s with mach := s2, u := un, iterations := s.iterations + 1, trace := un :: s.trace }, ?_, ⟨q2, p2, hgood, by rw [← hs.iterations]⟩, ?_⟩
  · unfold Optima.step
    dsimp only
    rw [huo, show (cfg.machine check).newton s.mach s.u = some (sm, un) from hn]
    dsimp only
    rw [transform_no_phi (by change Option.map _ cfg.phi = none; rw [X.phi]; rfl)]
    dsimp only
    unfold errorControl
    dsimp only
    rw [backtrack_accepts o.debug o.minmax hino hin]
    dsimp only
    unfold evalAt
    dsimp only
    rw [he2]
  · obtain ⟨ev', rf', ew0', hrf', hspec', herr', t0', t1', q', hu'⟩ := p2
    have hev' : F.Returns un.x un.p ev' := by
      obtain ⟨t', ev'', e, hr⟩ := X.user t0' un.x un.p q' hnear
      rw [hu'] at e; cases e; exact hr
    change s2.errors.error ≤ _
    rw [herr', hrate]
    exact R.error X.eps hspec hspec' hev hev' hju (R.ju X.oracle X.case hspec' hev' hle' hgood) hdn hx hp hw h0 hle hs.good.active hs.good.near ew0'

theorem ConvHyp.loop (X : ConvHyp F A cfg us ρ L C D G σ) (o : SolveOptions K) {s r} (h : Loop (cfg.machine none) o cfg.pb.bounds s r) :
    ∀ k, ConvInv F A cfg us ρ (C * L * ρ) k s → s.uo = s.u → ∃ t, r = some t ∧ Near us (quadRate ρ (C * L * ρ) t.iterations) t.u.x t.u.p ∧ (∀ i, A i → t.u.x i = us.x i) ∧ k < t.iterations ∧
      ∀ N, k ≤ N → N < o.maxiters → L * (quadRate ρ (C * L * ρ) N + quadRate ρ (C * L * ρ) (N + 1)) ^ 2 < o.tolerance → t.iterations ≤ N + 1 := by
  have herr : ∀ {k N : ℕ} {e : K}, k = N → e ≤ L * (quadRate ρ (C * L * ρ) k + quadRate ρ (C * L * ρ) (k + 1)) ^ 2 → L * (quadRate ρ (C * L * ρ) N + quadRate ρ (C * L * ρ) (N + 1)) ^ 2 < o.tolerance → e < o.tolerance := by
    rintro k N e rfl h1 h2
    exact h1.trans_lt h2
  induction h with
  | stepFails s h =>
    intro k hs huo
    obtain ⟨s1, h1, -⟩ := X.step none o hs huo
    rw [h] at h1; cases h1
  | checkFails s s1 h h' =>
    intro k hs huo
    exfalso
    unfold stepping at h'
    dsimp only at h'
    split_ifs at h'
    split at h'
    · cases h'
    · rw [show (cfg.machine none).check = none from rfl] at h'
      cases h'
  | stop s s1 s2 h h' =>
    intro k hs huo
    obtain ⟨s1', h1, h2, h3⟩ := X.step none o hs huo
    rw [h] at h1; cases h1
    obtain ⟨b1, b2, -, b4, -, b6, b7⟩ := stepping_spec h'
    refine ⟨s2, rfl, ?_, ?_, ?_, ?_⟩
    · rw [b1, b2, h2.iterations]; exact h2.good.near
    · rw [b1]; exact h2.good.active
    · rw [b2, h2.iterations]; exact Nat.lt_succ_self k
    · intro N hN _ _
      rw [b2, h2.iterations]; omega
  | again s s1 s2 r h h' _ ih =>
    intro k hs huo
    obtain ⟨s1', h1, h2, h3⟩ := X.step none o hs huo
    rw [h] at h1; cases h1
    obtain ⟨b1, b2, -, b4, -, b6, b7⟩ := stepping_spec h'
    have hle : s1.iterations ≤ o.maxiters := by
      by_contra hn
      have := (b6 (not_le.1 hn)).1
      cases this
    obtain ⟨c1, c2⟩ := b7 hle
    have hmach : s2.mach = s1.mach := by
      unfold stepping at h'
      dsimp only at h'
      split_ifs at h'
      · cases h'
      split at h'
      · simp only [Option.some.injEq, Prod.mk.injEq] at h'
        rw [← h'.1]
      · rw [show (cfg.machine none).check = none from rfl] at h'
        cases h'; rfl
    obtain ⟨t, rfl, a2, a3, a4, a5⟩ := ih (k + 1) ⟨by rw [hmach]; exact h2.reach, by rw [hmach, b1]; exact h2.eval, by rw [b1]; exact h2.good, by rw [b2]; exact h2.iterations⟩ (c1.trans b1.symm)
    refine ⟨t, rfl, a2, a3, by omega, fun N hN hN1 hN2 => ?_⟩
    rcases Nat.eq_or_lt_of_le hN with e | e
    · exfalso
      have hb : true = false := c2.2 (Or.inl (herr e h3 hN2))
      cases hb
    · exact a5 N e hN1 hN2

/-- **C61**: quadratic convergence close to a regular solution.  The objective and the equations `v` are arbitrary functions, `h` is affine; `us` satisfies the first-order conditions with strictly complementary active bounds `A` and linearly independent
    gradients, and within the distance `ρ` the derivatives returned describe the functions up to `L` times the squared distance and the linearised conditions are stable with constant `C`, `C L ρ ≤ 1/2`.  In exact arithmetic (full-space or null-space
    method, no transformation `phi`, no user check) every solve started within `ρ` (with the active bounds and the signs of their multipliers identified) ends normally; after `n` iterations the distance is at most `ρ (C L ρ)^(2^n - 1)`, and
    it succeeds after at most `N + 1` iterations as soon as the error bound for `N` is below the tolerance.  Missing: non-linear `h`, for which the claim is false (`curved_constraint_diverges`).  The user functions may be stateful and may throw at any point that is not within `ρ`. -/
theorem local_convergence_partial (X : ConvHyp F A cfg us ρ L C D G σ) (o : SolveOptions K) (user : τ) (mem errors ax du) (history : History K) (u : MVec K nx np (ny + nz)) (hu : F.Good cfg.pb A us ρ u) :
    ∃ t, (∀ r, Solve (cfg.machine none) o cfg.pb.bounds (cfg.start user mem errors ax du) history u r ↔ r = some t) ∧
      Near us (ρ * (C * L * ρ) ^ (2 ^ t.iterations - 1)) t.u.x t.u.p ∧ (∀ i, A i → t.u.x i = us.x i) ∧
      ∀ N, N < o.maxiters → 9 * L * (ρ * (C * L * ρ) ^ (2 ^ N - 1)) ^ 2 < 4 * o.tolerance → (solveResult o t).succeeded = true ∧ (solveResult o t).iterations ≤ N + 1 := by
  have R := X.regular
  have hinv := machine_inv X.thr X.eps.ge X.nx_pos (cfg := cfg) none
  have hin := (R.inside u hu.near hu.active).1
  have hcl := clampVec_of_inBounds hin
  obtain ⟨s0, he0⟩ := X.evalOk (start_reach cfg user mem errors ax du) hu.near none
  obtain ⟨q0, p0⟩ := hinv.eval _ _ _ (start_reach cfg user mem errors ax du) he0
  let a0 : SolveState (Parts K nx np ny nz τ cfg.pb.Ax) K nx np (ny + nz) := { mach := s0, u := u, uo := u, iterations := 0, history := history.init, trace := [u] }
  have ha0 : solveInit (cfg.machine none) cfg.pb.bounds (cfg.start user mem errors ax du) history u = some a0 := by
    unfold solveInit evalAt
    simp only [hcl, he0, a0]
  obtain ⟨r, hr, -⟩ := loop_terminates (cfg.machine none) o cfg.pb.bounds a0
  obtain ⟨t, rfl, c1, c2, c3, c4⟩ := X.loop o hr 0 ⟨q0, p0, by simpa [quadRate] using hu, rfl⟩ rfl
  have hsol : Solve (cfg.machine none) o cfg.pb.bounds (cfg.start user mem errors ax du) history u (some t) := .run a0 _ ha0 hr
  refine ⟨t, fun r => ?_, c1, c2, fun N hN htol => ?_⟩
  · obtain ⟨⟨r0, -, h1⟩, -⟩ := solve_budget (cfg.machine none) o cfg.pb.bounds (cfg.start user mem errors ax du) history u
    constructor
    · intro hr; rw [h1 r hr, h1 _ hsol]
    · rintro rfl; exact hsol
  · have hN0 := quadRate_nonneg R.ρ_nonneg X.q_nonneg N
    have hle := X.rate_le N
    have hhalf : 2 * quadRate ρ (C * L * ρ) (N + 1) ≤ quadRate ρ (C * L * ρ) N := by
      rw [quadRate_succ]
      have h1 : C * L * quadRate ρ (C * L * ρ) N ≤ C * L * ρ := mul_le_mul_of_nonneg_left hle (mul_nonneg R.C_nonneg R.L_nonneg)
      have h2 := R.contraction
      calc 2 * (C * L * quadRate ρ (C * L * ρ) N ^ 2) = 2 * (C * L * quadRate ρ (C * L * ρ) N) * quadRate ρ (C * L * ρ) N := by ring
        _ ≤ 1 * quadRate ρ (C * L * ρ) N := mul_le_mul_of_nonneg_right (by linarith) hN0
        _ = _ := one_mul _
    have hN1 := quadRate_nonneg R.ρ_nonneg X.q_nonneg (N + 1)
    have hsq : (quadRate ρ (C * L * ρ) N + quadRate ρ (C * L * ρ) (N + 1)) ^ 2 ≤ (3 / 2 * quadRate ρ (C * L * ρ) N) ^ 2 := by
      apply pow_le_pow_left₀ (add_nonneg hN0 hN1)
      linarith
    have hlt : L * (quadRate ρ (C * L * ρ) N + quadRate ρ (C * L * ρ) (N + 1)) ^ 2 < o.tolerance := by
      have h1 := mul_le_mul_of_nonneg_left hsq R.L_nonneg
      have h2 : 9 * L * quadRate ρ (C * L * ρ) N ^ 2 < 4 * o.tolerance := htol
      nlinarith
    have := c4 N (Nat.zero_le N) hN hlt
    refine ⟨?_, this⟩
    change decide (t.iterations ≤ o.maxiters) = true
    simpa using by omega

end

/-! ### Non-vacuity

`min (x0³ + x1³)/3 + 2 x2` subject to `x0 + x1 + x2 = 2`, `p² - 1 = 0` and `x ≥ 0`: the solution is `x = (1, 1, 0)`, `p = 1` with the bound of `x2` active.  From every start within the distance `1/2` (with `x2 = 0`, and a multiplier above `-2`) five iterations reach the tolerance `10⁻⁹`. -/

/-- The problem data. -/
def exCubicProblem : MProblem ℚ 3 1 1 0 where
  Ax := fun _ _ => 1
  Ap := 0
  b := fun _ => 2
  xlower := fun _ => some 0
  xupper := fun _ => none
  plower := fun _ => none
  pupper := fun _ => none

/-- The functions. -/
def exCubic : Smooth ℚ 3 1 0 where
  g := fun x _ => ![x 0 ^ 2, x 1 ^ 2, 2]
  H := fun x _ => !![2 * x 0, 0, 0; 0, 2 * x 1, 0; 0, 0, 0]
  Hp := fun _ _ => 0
  hx := 0
  hp := 0
  h0 := 0
  v := fun _ p _ => p 0 ^ 2 - 1
  vx := fun _ _ => 0
  vp := fun _ p _ _ => 2 * p 0

/-- The solution. -/
def exCubicSolution : MVec ℚ 3 1 (1 + 0) := { x := ![1, 1, 0], p := fun _ => 1, w := fun _ => -1 }

/-- The variable on its bound. -/
def exCubicActive (i : Fin 3) : Prop := i = 2

theorem exCubic_sum (w : Fin (1 + 0) → ℚ) (i : Fin 3) : ∑ l, exCubicProblem.Ax l i * w (Fin.castAdd 0 l) + ∑ l, exCubic.hx l i * w (Fin.natAdd 1 l) = w 0 := by
  simp [exCubicProblem]

theorem exCubic_near {e : ℚ} {x : Fin 3 → ℚ} {p : Fin 1 → ℚ} (h : Near exCubicSolution e x p) : |x 0 - 1| ≤ e ∧ |x 1 - 1| ≤ e ∧ |x 2| ≤ e ∧ |p 0 - 1| ≤ e := by
  refine ⟨h.1 0, h.1 1, ?_, h.2 0⟩
  simpa [exCubicSolution] using h.1 2

theorem exCubic_regular : exCubic.Regular exCubicProblem exCubicActive exCubicSolution (1/2) 1 1 1 0 (1/2) where
  ρ_nonneg := by norm_num
  L_nonneg := by norm_num
  C_nonneg := by norm_num
  grad := by unfold exCubicActive; decide +kernel
  feas_v := by decide +kernel
  feas_lin := by decide +kernel
  feas_h := by decide +kernel
  active := by
    rintro i rfl
    exact Or.inl ⟨rfl, by decide +kernel⟩
  inside := by
    intro u hu hA
    obtain ⟨h0, h1, h2, h3⟩ := exCubic_near hu
    have e2 : u.x 2 = 0 := hA 2 rfl
    rw [abs_le] at h0 h1
    refine ⟨⟨fun i => ⟨fun l e => ?_, fun l e => (by cases e)⟩, fun i => ⟨fun l e => (by cases e), fun l e => (by cases e)⟩⟩, fun i hi => ⟨fun e => ?_, fun e => (by cases e)⟩⟩
    · cases e
      revert i
      rw [Fin.forall_fin_succ, Fin.forall_fin_two]
      refine ⟨by linarith, ?_, ?_⟩
      · change 0 ≤ u.x 1; linarith
      · change 0 ≤ u.x 2; rw [e2]
    · have e' : 0 = u.x i := Option.some.inj e
      revert i
      rw [Fin.forall_fin_succ, Fin.forall_fin_two]
      refine ⟨fun _ _ e' => by linarith, fun _ _ e' => ?_, fun h => absurd rfl h⟩
      change 0 = u.x 1 at e'
      linarith
  taylor_g := by
    intro x p x' p' e _ _ hx _ i hi
    revert i
    rw [Fin.forall_fin_succ, Fin.forall_fin_two]
    have sq : ∀ a : ℚ, |a| ≤ e → |a ^ 2| ≤ e ^ 2 := fun a ha => by rw [abs_pow]; exact pow_le_pow_left₀ (abs_nonneg a) ha 2
    refine ⟨fun _ => ?_, fun _ => ?_, fun h => absurd rfl h⟩
    · have := sq _ (hx 0)
      refine le_trans (le_of_eq (congrArg abs ?_)) (this.trans (one_mul (e ^ 2)).ge)
      simp [exCubic, Fin.sum_univ_three]
      ring
    · have := sq _ (hx 1)
      refine le_trans (le_of_eq (congrArg abs ?_)) (this.trans (one_mul (e ^ 2)).ge)
      simp [exCubic, Fin.sum_univ_three]
      ring
  taylor_v := by
    intro x p x' p' e _ _ _ hp r
    have : |(p' 0 - p 0) ^ 2| ≤ e ^ 2 := by rw [abs_pow]; exact pow_le_pow_left₀ (abs_nonneg _) (hp 0) 2
    refine le_trans (le_of_eq (congrArg abs ?_)) (this.trans (one_mul (e ^ 2)).ge)
    simp [exCubic, Fin.sum_univ_three]
    ring
  lip := by
    rintro x p e _ _ i rfl
    simp [exCubic]
  stable := by
    intro x p hn d t ht hA hlin _ hg hv
    obtain ⟨h0, h1, h2, h3⟩ := exCubic_near hn
    have z2 : d.x 2 = 0 := hA 2 rfl
    have l := hlin 0
    have g0 := hg 0 (by unfold exCubicActive; decide)
    have g1 := hg 1 (by unfold exCubicActive; decide)
    have v0 := hv 0
    rw [exCubic_sum] at g0 g1
    simp only [exCubic_sum]
    simp [exCubicProblem, exCubic, Fin.sum_univ_three, z2] at l g0 g1 v0
    rw [abs_le] at h0 h1 h3 g0 g1
    rw [abs_of_pos (by linarith : 0 < p 0)] at v0
    have e1 : d.x 1 = - d.x 0 := by linarith
    rw [e1] at g1
    have b0 : |d.x 0| ≤ 1 * t := by rw [abs_le]; constructor <;> nlinarith
    refine ⟨fun i => ?_, fun q => ?_, fun i _ => ?_⟩
    · revert i
      rw [Fin.forall_fin_succ, Fin.forall_fin_two]
      refine ⟨b0, ?_, ?_⟩
      · change |d.x 1| ≤ _; rw [e1, abs_neg]; exact b0
      · change |d.x 2| ≤ _; rw [z2]; simpa using ht
    · rw [Subsingleton.elim q 0]
      nlinarith [abs_nonneg (d.p 0)]
    · have a0 : 0 < x 0 := by linarith
      have a1 : 0 < x 1 := by linarith
      rw [abs_le]
      constructor
      · nlinarith [mul_le_mul_of_nonneg_left g0.1 a1.le, mul_le_mul_of_nonneg_left g1.1 a0.le]
      · nlinarith [mul_le_mul_of_nonneg_left g0.2 a1.le, mul_le_mul_of_nonneg_left g1.2 a0.le]
  licq := by
    intro y z h
    have := h 0 (by unfold exCubicActive; decide)
    simp [exCubicProblem] at this
    exact ⟨funext fun i => by rw [Subsingleton.elim i 0]; exact this, funext fun i => i.elim0⟩
  contraction := by norm_num
  margin := by norm_num
  σ_nonneg := by norm_num

/-- What the user functions return. -/
def exCubicEvals (x : Fin 3 → ℚ) (p : Fin 1 → ℚ) : Evals ℚ 3 1 0 where
  f := (x 0 ^ 3 + x 1 ^ 3) / 3 + 2 * x 2
  fx := exCubic.g x p
  fxx := exCubic.H x p
  fxp := exCubic.Hp x p
  diagfxx := true
  h := exCubic.hx *ᵥ x + exCubic.hp *ᵥ p + exCubic.h0
  hx := exCubic.hx
  hp := exCubic.hp
  v := exCubic.v x p
  vx := exCubic.vx x p
  vp := exCubic.vp x p
  succeeded := true

/-- Every hypothesis of `local_convergence_partial` is met. -/
example : ∃ cfg : Config ℚ 3 1 1 0 Unit, cfg.pb = exCubicProblem ∧ ∀ mem errors ax du history (u : MVec ℚ 3 1 (1 + 0)), |u.x 0 - 1| ≤ 1/2 → |u.x 1 - 1| ≤ 1/2 → u.x 2 = 0 → |u.p 0 - 1| ≤ 1/2 → -2 < u.w 0 →
    ∃ t, Solve (cfg.machine none) { maxiters := 200, tolerance := 1/1000000000, minmax := false, debug := false } cfg.pb.bounds (cfg.start () mem errors ax du) history u (some t) ∧
      (solveResult (K := ℚ) { maxiters := 200, tolerance := 1/1000000000, minmax := false, debug := false } t).succeeded = true ∧
      (solveResult (K := ℚ) { maxiters := 200, tolerance := 1/1000000000, minmax := false, debug := false } t).iterations ≤ 5 := by
  obtain ⟨oracle, ho⟩ := Ech.exists_exact_oracle (K := ℚ)
  let F : ∀ n, (A : Matrix (Fin n) (Fin n) ℚ) → LU.FullLU A := fun n A => (LU.exists_fullLU n A).some
  let cfg : Config ℚ 3 1 1 0 Unit :=
    { env := { o := oracle, sort := Ech.sortImpl, P := fun n => Idx.stableImpl, thr := 0, eps := 0, debug := false }
      pb := exCubicProblem
      method := .nullspace
      inners := fun c => ⟨luInner 0 (Fintype.equivFin _) (F _) 0, luInner 0 (Fintype.equivFin _) (F _) 0, luInner 0 (Fintype.equivFin _) (F _) 0⟩
      user := fun t x p _ => some (t, exCubicEvals x p)
      userJac := fun t x p _ => some (t, exCubicEvals x p)
      phi := none }
  have X : ConvHyp exCubic exCubicActive cfg exCubicSolution (1/2) 1 1 1 0 (1/2) :=
    ⟨exCubic_regular, le_rfl, rfl, rfl, ho, by norm_num, rfl, fun c => ⟨_, _, _, Fintype.equivFin _, Fintype.equivFin _, Fintype.equivFin _, F, 0, rfl⟩, (by intro h; cases h), Or.inr ⟨rfl, by norm_num⟩,
      fun t x p q _ => ⟨t, exCubicEvals x p, rfl, ⟨rfl, rfl, rfl, rfl, rfl, rfl, rfl, rfl, rfl⟩⟩⟩
  refine ⟨cfg, rfl, fun mem errors ax du history u h0 h1 h2 h3 hw => ?_⟩
  have hm : ∀ u : MVec ℚ 3 1 (1 + 0), exCubic.mult exCubicProblem u 2 = 2 + u.w 0 := fun u => by
    unfold Smooth.mult
    rw [add_assoc, exCubic_sum]
    rfl
  have hg : exCubic.Good cfg.pb exCubicActive exCubicSolution (1/2) u := by
    refine ⟨⟨fun i => ?_, fun q => ?_⟩, ?_, ?_, ?_⟩
    · revert i
      rw [Fin.forall_fin_succ, Fin.forall_fin_two]
      refine ⟨h0, h1, ?_⟩
      change |u.x 2 - 0| ≤ _
      rw [h2]; norm_num
    · rw [Subsingleton.elim q 0]; exact h3
    · rintro i rfl; exact h2
    · rintro i rfl _
      rw [show cfg.pb = exCubicProblem from rfl, hm]; linarith
    · rintro i rfl h
      rw [show cfg.pb = exCubicProblem from rfl, hm] at h
      norm_num [exCubicSolution] at h
  obtain ⟨t, a1, -, -, a4⟩ := local_convergence_partial X { maxiters := 200, tolerance := 1/1000000000, minmax := false, debug := false } () mem errors ax du history u hg
  obtain ⟨b1, b2⟩ := a4 4 (by norm_num) (by norm_num)
  exact ⟨t, (a1 _).2 rfl, b1, b2⟩

end Optima
