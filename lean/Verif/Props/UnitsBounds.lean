import Verif.Props.Units

/-!
# C76 with bounds: where the basic variables do not depend on the units, the iterates do not either

The counterpart of `units_change_iterates`: the units enter through the weights of the variables (and the pivots of the factorisation) only.
-/

set_option linter.unusedSectionVars false

namespace Optima

open Matrix

variable {K : Type*} [Field K] [LinearOrder K] [IsStrictOrderedRing K] {nx np ny nz ny' nz' : ℕ} {τ τ' : Type*}

/-- Every variable has its own unit (positive factor) and origin. -/
structure Chart.Units (φ : Chart K nx np) (d : Fin nx → K) (e : Fin np → K) : Prop where
  T : φ.T = diagonal d
  S : φ.S = diagonal e
  d_pos : ∀ i, 0 < d i
  e_pos : ∀ q, 0 < e q

/-- The bounds in the new units. -/
structure Chart.SameBounds (φ : Chart K nx np) (d : Fin nx → K) (e : Fin np → K) (pb : MProblem K nx np ny nz) (pb' : MProblem K nx np ny' nz') : Prop where
  xlower : ∀ i, pb.xlower i = (pb'.xlower i).map fun l => d i * l + φ.t i
  xupper : ∀ i, pb.xupper i = (pb'.xupper i).map fun l => d i * l + φ.t i
  plower : ∀ q, pb.plower q = (pb'.plower q).map fun l => e q * l + φ.s q
  pupper : ∀ q, pb.pupper q = (pb'.pupper q).map fun l => e q * l + φ.s q

/-- Corresponding points. -/
structure Chart.Corr (φ : Chart K nx np) (c : K) (C : Matrix (Fin (ny' + nz')) (Fin (ny + nz)) K) (u : MVec K nx np (ny + nz)) (u' : MVec K nx np (ny' + nz')) : Prop where
  x : u.x = φ.x u'.x
  p : u.p = φ.p u'.p
  w : u.w = c⁻¹ • (Cᵀ *ᵥ u'.w)

section control
variable {φ : Chart K nx np} {d : Fin nx → K} {e : Fin np → K} {pb : MProblem K nx np ny nz} {pb' : MProblem K nx np ny' nz'} {c : K} {C : Matrix (Fin (ny' + nz')) (Fin (ny + nz)) K}

theorem Chart.Units.x (h : φ.Units d e) (x i) : φ.x x i = d i * x i + φ.t i := by
  simp [Chart.x, h.T, mulVec_diagonal]

theorem Chart.Units.p (h : φ.Units d e) (p q) : φ.p p q = e q * p q + φ.s q := by
  simp [Chart.p, h.S, mulVec_diagonal]

theorem affine_lt {a t v w : K} (ha : 0 < a) : a * v + t < a * w + t ↔ v < w := by
  rw [add_lt_add_iff_right, mul_lt_mul_iff_right₀ ha]

theorem affine_le {a t v w : K} (ha : 0 < a) : a * v + t ≤ a * w + t ↔ v ≤ w := by
  rw [add_le_add_iff_right, mul_le_mul_iff_right₀ ha]

theorem affine_eq {a t v w : K} (ha : 0 < a) : a * v + t = a * w + t ↔ v = w := by
  rw [add_left_inj, mul_right_inj' ha.ne']

theorem affine_some {a t v : K} (ha : 0 < a) {o : Option K} : o.map (fun l => a * l + t) = some (a * v + t) ↔ o = some v := by
  cases o with
  | none => simp
  | some l => simp only [Option.map_some, Option.some.injEq, affine_eq ha]

theorem clamp_affine {a t : K} (ha : 0 < a) (lo hi : Option K) (v : K) : clamp (lo.map fun l => a * l + t) (hi.map fun l => a * l + t) (a * v + t) = a * clamp lo hi v + t := by
  have hm : Monotone fun v : K => a * v + t := fun v w h => (affine_le ha).2 h
  have h1 : ∀ v w : K, max (a * v + t) (a * w + t) = a * max v w + t := fun v w => (hm.map_max (a := v) (b := w)).symm
  have h2 : ∀ v w : K, min (a * v + t) (a * w + t) = a * min v w + t := fun v w => (hm.map_min (a := v) (b := w)).symm
  cases lo <;> cases hi <;> simp [clamp, h1, h2]

theorem blend_affine (β a t v w : K) : blend β (a * v + t) (a * w + t) = a * blend β v w + t := by
  unfold blend
  ring

theorem IsFactor.rescale (hu : φ.Units d e) (hb : φ.SameBounds d e pb pb') {nw nw' : ℕ} {uo u : MVec K nx np nw} {uo' u' : MVec K nx np nw'} (xo : uo.x = φ.x uo'.x) (po : uo.p = φ.p uo'.p) (xu : u.x = φ.x u'.x) (pu : u.p = φ.p u'.p) {β : K}
    (h : IsFactor pb'.bounds uo' u' β) : IsFactor pb.bounds uo u β := by
  refine ⟨h.pos, h.le_one, fun i c hc hx => ?_, fun i c hc hx => ?_, fun i c hc hx => ?_, fun i c hc hx => ?_, ?_⟩
  · rw [show pb.bounds.xupper i = _ from hb.xupper i] at hc
    obtain ⟨c', h1, rfl⟩ := Option.map_eq_some_iff.1 hc
    rw [xo, xu, hu.x, hu.x] at hx ⊢
    rw [affine_lt (hu.d_pos i), affine_le (hu.d_pos i)] at hx
    rw [blend_affine, affine_le (hu.d_pos i)]
    exact h.x_upper i c' h1 hx
  · rw [show pb.bounds.xlower i = _ from hb.xlower i] at hc
    obtain ⟨c', h1, rfl⟩ := Option.map_eq_some_iff.1 hc
    rw [xo, xu, hu.x, hu.x] at hx ⊢
    rw [affine_lt (hu.d_pos i), affine_le (hu.d_pos i)] at hx
    rw [blend_affine, affine_le (hu.d_pos i)]
    exact h.x_lower i c' h1 hx
  · rw [show pb.bounds.pupper i = _ from hb.pupper i] at hc
    obtain ⟨c', h1, rfl⟩ := Option.map_eq_some_iff.1 hc
    rw [po, pu, hu.p, hu.p] at hx ⊢
    rw [affine_lt (hu.e_pos i), affine_le (hu.e_pos i)] at hx
    rw [blend_affine, affine_le (hu.e_pos i)]
    exact h.p_upper i c' h1 hx
  · rw [show pb.bounds.plower i = _ from hb.plower i] at hc
    obtain ⟨c', h1, rfl⟩ := Option.map_eq_some_iff.1 hc
    rw [po, pu, hu.p, hu.p] at hx ⊢
    rw [affine_lt (hu.e_pos i), affine_le (hu.e_pos i)] at hx
    rw [blend_affine, affine_le (hu.e_pos i)]
    exact h.p_lower i c' h1 hx
  · rcases h.tight with ht | ⟨i, l, h0, h1, h2⟩ | ⟨i, l, h0, h1, h2⟩ | ⟨i, l, h0, h1, h2⟩ | ⟨i, l, h0, h1, h2⟩
    · exact .inl ht
    · refine .inr (.inl ⟨i, _, (hb.xupper i).trans (by rw [show pb'.xupper i = some l from h0]; rfl), ?_, ?_⟩)
      · rw [xu, hu.x]; exact (affine_lt (hu.d_pos i)).2 h1
      · rw [xo, xu, hu.x, hu.x, blend_affine, h2]
    · refine .inr (.inr (.inl ⟨i, _, (hb.xlower i).trans (by rw [show pb'.xlower i = some l from h0]; rfl), ?_, ?_⟩))
      · rw [xu, hu.x]; exact (affine_lt (hu.d_pos i)).2 h1
      · rw [xo, xu, hu.x, hu.x, blend_affine, h2]
    · refine .inr (.inr (.inr (.inl ⟨i, _, (hb.pupper i).trans (by rw [show pb'.pupper i = some l from h0]; rfl), ?_, ?_⟩)))
      · rw [pu, hu.p]; exact (affine_lt (hu.e_pos i)).2 h1
      · rw [po, pu, hu.p, hu.p, blend_affine, h2]
    · refine .inr (.inr (.inr (.inr ⟨i, _, (hb.plower i).trans (by rw [show pb'.plower i = some l from h0]; rfl), ?_, ?_⟩)))
      · rw [pu, hu.p]; exact (affine_lt (hu.e_pos i)).2 h1
      · rw [po, pu, hu.p, hu.p, blend_affine, h2]

/-- Clamping to the bounds. -/
theorem Chart.Corr.clampVec (hu : φ.Units d e) (hb : φ.SameBounds d e pb pb') {u : MVec K nx np (ny + nz)} {u' : MVec K nx np (ny' + nz')} (h : φ.Corr c C u u') : φ.Corr c C (clampVec pb.bounds u) (clampVec pb'.bounds u') := by
  refine ⟨funext fun i => ?_, funext fun q => ?_, h.w⟩
  · rw [hu.x]
    change clamp (pb.xlower i) (pb.xupper i) (u.x i) = d i * clamp (pb'.xlower i) (pb'.xupper i) (u'.x i) + _
    rw [hb.xlower, hb.xupper, h.x, hu.x, clamp_affine (hu.d_pos i)]
  · rw [hu.p]
    change clamp (pb.plower q) (pb.pupper q) (u.p q) = e q * clamp (pb'.plower q) (pb'.pupper q) (u'.p q) + _
    rw [hb.plower, hb.pupper, h.p, hu.p, clamp_affine (hu.e_pos q)]

/-- The step control does not depend on the units. -/
theorem backtrack_units (hu : φ.Units d e) (hb : φ.SameBounds d e pb pb') {debug debug' minmax : Bool} {uo un v : MVec K nx np (ny + nz)} {uo' un' v' : MVec K nx np (ny' + nz')} (hi : InBounds pb.bounds uo) (hi' : InBounds pb'.bounds uo')
    (ho : φ.Corr c C uo uo') (hn : φ.Corr c C un un') (hv : backtrack debug minmax pb.bounds uo un = some v) (hv' : backtrack debug' minmax pb'.bounds uo' un' = some v') : φ.Corr c C v v' := by
  have xl : ∀ i, pb.bounds.xlower i = (pb'.bounds.xlower i).map fun l => d i * l + φ.t i := hb.xlower
  have xh : ∀ i, pb.bounds.xupper i = (pb'.bounds.xupper i).map fun l => d i * l + φ.t i := hb.xupper
  have pl : ∀ i, pb.bounds.plower i = (pb'.bounds.plower i).map fun l => e i * l + φ.s i := hb.plower
  have ph : ∀ i, pb.bounds.pupper i = (pb'.bounds.pupper i).map fun l => e i * l + φ.s i := hb.pupper
  cases minmax with
  | true =>
    obtain ⟨a, a1, -, a2, a3, a4⟩ := backtrack_minmax debug hi un
    obtain ⟨b, b1, -, b2, b3, b4⟩ := backtrack_minmax debug' hi' un'
    cases hv.symm.trans a1
    cases hv'.symm.trans b1
    refine ⟨funext fun i => ?_, funext fun q => ?_, by rw [a2, b2, hn.w]⟩
    · rw [a3, hu.x, b3, xl, xh, hn.x, hu.x, clamp_affine (hu.d_pos i)]
    · rw [a4, hu.p, b4, pl, ph, hn.p, hu.p, clamp_affine (hu.e_pos q)]
  | false =>
    obtain ⟨a, β, a1, af, -, a2, a3, a4, -⟩ := backtrack_spec debug hi un
    obtain ⟨b, β', b1, bf, -, b2, b3, b4, -⟩ := backtrack_spec debug' hi' un'
    cases hv.symm.trans a1
    cases hv'.symm.trans b1
    cases (bf.rescale hu hb ho.x ho.p hn.x hn.p).unique af
    refine ⟨funext fun i => ?_, funext fun q => ?_, funext fun l => ?_⟩
    · rw [a3, hu.x, b3, xl, xh, hn.x, ho.x, hu.x, hu.x, blend_affine, clamp_affine (hu.d_pos i)]
    · rw [a4, hu.p, b4, pl, ph, hn.p, ho.p, hu.p, hu.p, blend_affine, clamp_affine (hu.e_pos q)]
    · have hw : v'.w = (1 - β) • uo'.w + β • un'.w := funext fun l => by rw [b2, blend]; simp [mul_comm]
      rw [a2, hw, ho.w, hn.w, mulVec_add, mulVec_smul, mulVec_smul]
      simp only [blend, Pi.smul_apply, Pi.add_apply, smul_eq_mul]
      ring

end control

section algebra
variable {F : Smooth K nx np nz} {pb : MProblem K nx np ny nz} {F' : Smooth K nx np nz'} {pb' : MProblem K nx np ny' nz'} {φ : Chart K nx np} {d : Fin nx → K} {e : Fin np → K} {c : K} {V V' : Matrix (Fin np) (Fin np) K}
  {C : Matrix (Fin (ny' + nz')) (Fin (ny + nz)) K} {D : Matrix (Fin (ny + nz)) (Fin (ny' + nz')) K} {u : MVec K nx np (ny + nz)} {u' : MVec K nx np (ny' + nz')} {B U : Fin nx → Prop}

theorem Smooth.lag_eq (F : Smooth K nx np nz) (pb : MProblem K nx np ny nz) (u : MVec K nx np (ny + nz)) : F.lag pb u = F.g u.x u.p + (stack pb.Ax F.hx)ᵀ *ᵥ u.w := rfl

theorem Smooth.Recast.lag (h : F.Recast pb F' pb' φ c V V' C D) (hu : φ.Units d e) (hc : φ.Corr c C u u') (i) : F'.lag pb' u' i = c * d i * F.lag pb u i := by
  have : F'.lag pb' u' = c • (φ.Tᵀ *ᵥ F.lag pb u) := by
    rw [Smooth.lag_eq, Smooth.lag_eq, h.g, h.Wx, hc.w, ← hc.x, ← hc.p]
    simp only [transpose_mul, mul_assoc, ← mulVec_mulVec, mulVec_add, mulVec_smul, smul_add, smul_smul, mul_inv_cancel₀ h.hc, one_smul]
  rw [this, hu.T, diagonal_transpose]
  simp only [Pi.smul_apply, mulVec_diagonal, smul_eq_mul]
  ring

/-- The same variables are held. -/
theorem Smooth.Recast.held (h : F.Recast pb F' pb' φ c V V' C D) (hc0 : 0 < c) (hu : φ.Units d e) (hb : φ.SameBounds d e pb pb') (hc : φ.Corr c C u u') (i) : F.Held pb B u i ↔ F'.Held pb' B u' i := by
  unfold Smooth.Held
  have hp : 0 < c * d i := mul_pos hc0 (hu.d_pos i)
  have e1 : 0 < F'.lag pb' u' i ↔ 0 < F.lag pb u i := by rw [h.lag hu hc]; exact mul_pos_iff_of_pos_left hp
  have e2 : F'.lag pb' u' i < 0 ↔ F.lag pb u i < 0 := by rw [h.lag hu hc]; exact ⟨fun h => by_contra fun hn => absurd h (not_lt.2 (mul_nonneg hp.le (not_lt.1 hn))), mul_neg_of_pos_of_neg hp⟩
  rw [e1, e2, hb.xlower, hb.xupper, hc.x, hu.x, affine_some (hu.d_pos i), affine_some (hu.d_pos i)]

theorem Smooth.nonsingularOn_iff (F : Smooth K nx np nz) (pb : MProblem K nx np ny nz) (U x p) : F.NonsingularOn pb U x p ↔ ∀ dx dp w z, (∀ i, U i → dx i = 0) → (∀ i, ¬ U i → z i = 0) → F.H x p *ᵥ dx + F.Hp x p *ᵥ dp + (stack pb.Ax F.hx)ᵀ *ᵥ w = z →
    F.vx x p *ᵥ dx + F.vp x p *ᵥ dp = 0 → stack pb.Ax F.hx *ᵥ dx + stack pb.Ap F.hp *ᵥ dp = 0 → dx = 0 ∧ dp = 0 := by
  constructor
  · intro h dx dp w z h0 hz h1 h2 h3
    exact h dx dp w h0 (fun i hi => (congrFun h1 i).trans (hz i hi)) (congrFun h2) (congrFun h3)
  · intro h dx dp w h0 h1 h2 h3
    exact h dx dp w _ h0 (fun i hi => h1 i hi) rfl (funext h2) (funext h3)

theorem Smooth.newtonOn_iff (F : Smooth K nx np nz) (pb : MProblem K nx np ny nz) (U x p x1 p1 w1) : F.NewtonOn pb U x p x1 p1 w1 ↔ (∀ i, U i → x1 i = x i) ∧ (∃ z, (∀ i, ¬ U i → z i = 0) ∧ F.H x p *ᵥ (x1 - x) + F.Hp x p *ᵥ (p1 - p) + F.g x p + (stack pb.Ax F.hx)ᵀ *ᵥ w1 = z) ∧
    F.vx x p *ᵥ (x1 - x) + F.vp x p *ᵥ (p1 - p) + F.v x p = 0 ∧ stack pb.Ax F.hx *ᵥ x1 + stack pb.Ap F.hp *ᵥ p1 = F.rhs pb := by
  constructor
  · exact fun h => ⟨h.held, ⟨_, fun i hi => h.grad i hi, rfl⟩, funext h.par, funext h.con⟩
  · rintro ⟨h0, ⟨z, hz, h1⟩, h2, h3⟩
    exact ⟨h0, fun i hi => (congrFun h1 i).trans (hz i hi), congrFun h2, congrFun h3⟩

theorem Chart.pull (φ : Chart K nx np) (k : K) (z : Fin nx → K) : φ.Tᵀ *ᵥ (k • (φ.T'ᵀ *ᵥ z)) = k • z := by
  rw [mulVec_smul, mulVec_mulVec, ← transpose_mul, φ.T_inv, transpose_one, one_mulVec]

theorem Smooth.Recast.nonsingularOn (h : F.Recast pb F' pb' φ c V V' C D) (hu : φ.Units d e) {x p} (hn : F.NonsingularOn pb U (φ.x x) (φ.p p)) : F'.NonsingularOn pb' U x p := by
  rw [Smooth.nonsingularOn_iff] at hn ⊢
  intro dx dp w z h0 hz h1 h2 h3
  rw [h.H, h.Hp, h.Wx] at h1
  rw [h.vx, h.vp] at h2
  rw [h.Wx, h.Wp] at h3
  have hTz : ∀ i, ¬ U i → (c⁻¹ • (φ.T'ᵀ *ᵥ z)) i = 0 := by
    intro i hi
    have e1 : φ.Tᵀ *ᵥ (φ.T'ᵀ *ᵥ z) = z := by rw [mulVec_mulVec, ← transpose_mul, φ.T_inv, transpose_one, one_mulVec]
    have e2 := congrFun e1 i
    rw [hu.T, diagonal_transpose, mulVec_diagonal, hz i hi] at e2
    rw [Pi.smul_apply, (mul_eq_zero.1 e2).resolve_left (hu.d_pos i).ne', smul_zero]
  obtain ⟨e1, e2⟩ := hn (φ.T *ᵥ dx) (φ.S *ᵥ dp) (c⁻¹ • (Cᵀ *ᵥ w)) (c⁻¹ • (φ.T'ᵀ *ᵥ z)) (fun i hi => by rw [hu.T, mulVec_diagonal, h0 i hi, mul_zero]) hTz (mulVec_cancel φ.T_transpose (by
    have := congrArg (c⁻¹ • ·) h1
    rw [φ.pull c⁻¹ z, ← this]
    simp only [smul_add, smul_mulVec, transpose_mul, mul_assoc, ← mulVec_mulVec, smul_smul, inv_mul_cancel₀ h.hc, one_smul, mulVec_add, mulVec_smul]))
    (mulVec_cancel h.hV (by simpa only [mul_assoc, ← mulVec_mulVec, mulVec_add, mulVec_zero] using h2)) (mulVec_cancel h.hC (by simpa only [mul_assoc, ← mulVec_mulVec, mulVec_add, mulVec_zero] using h3))
  exact ⟨mulVec_cancel φ.T_inv (by rw [e1, mulVec_zero]), mulVec_cancel φ.S_inv (by rw [e2, mulVec_zero])⟩

/-- A solution of Newton's equations in the new units is one in the old. -/
theorem Smooth.Recast.newtonOn (h : F.Recast pb F' pb' φ c V V' C D) (hu : φ.Units d e) {x p x1 p1 w1} (hn : F'.NewtonOn pb' U x p x1 p1 w1) : F.NewtonOn pb U (φ.x x) (φ.p p) (φ.x x1) (φ.p p1) (c⁻¹ • (Cᵀ *ᵥ w1)) := by
  rw [Smooth.newtonOn_iff] at hn ⊢
  obtain ⟨h0, ⟨z, hz, h1⟩, h2, h3⟩ := hn
  rw [h.H, h.Hp, h.g, h.Wx] at h1
  rw [h.vx, h.vp, h.v] at h2
  rw [h.Wx, h.Wp, h.b] at h3
  rw [φ.x_sub, φ.p_sub]
  refine ⟨fun i hi => by rw [hu.x, hu.x, h0 i hi], ⟨c⁻¹ • (φ.T'ᵀ *ᵥ z), fun i hi => ?_, mulVec_cancel φ.T_transpose ?_⟩, mulVec_cancel h.hV ?_, mulVec_cancel h.hC ?_⟩
  · have e1 : φ.Tᵀ *ᵥ (φ.T'ᵀ *ᵥ z) = z := by rw [mulVec_mulVec, ← transpose_mul, φ.T_inv, transpose_one, one_mulVec]
    have e2 := congrFun e1 i
    rw [hu.T, diagonal_transpose, mulVec_diagonal, hz i hi] at e2
    rw [Pi.smul_apply, (mul_eq_zero.1 e2).resolve_left (hu.d_pos i).ne', smul_zero]
  · have := congrArg (c⁻¹ • ·) h1
    rw [φ.pull c⁻¹ z, ← this]
    simp only [smul_add, smul_mulVec, transpose_mul, mul_assoc, ← mulVec_mulVec, smul_smul, inv_mul_cancel₀ h.hc, one_smul, mulVec_add, mulVec_smul]
  · simpa only [mul_assoc, ← mulVec_mulVec, mulVec_add, mulVec_zero] using h2
  · simp only [mul_assoc, ← mulVec_mulVec, mulVec_sub] at h3
    simp only [Chart.x, Chart.p, mulVec_add]
    linear_combination (exp := 1) h3

/-- Newton's equations determine the trial point and, with independent constraints, the multipliers. -/
theorem Smooth.NewtonOn.unique (hr : ∀ y : Fin (ny + nz) → K, (∀ i, ∑ l, stack pb.Ax F.hx l i * y l = 0) → y = 0) {wt} (hB : Preferred (stack pb.Ax F.hx) wt B) (hBU : ∀ i, U i → ¬ B i) {x p x1 p1 w1 x2 p2 w2} (hn : F.NonsingularOn pb U x p)
    (a : F.NewtonOn pb U x p x1 p1 w1) (b : F.NewtonOn pb U x p x2 p2 w2) : x1 = x2 ∧ p1 = p2 ∧ w1 = w2 := by
  obtain ⟨e1, e2⟩ := hn (fun j => x1 j - x2 j) (fun q => p1 q - p2 q) (fun l => w1 l - w2 l) (fun i hi => by rw [a.held i hi, b.held i hi, sub_self])
    (fun i hi => by have ha := a.grad i hi; have hb := b.grad i hi; simp only [mul_sub, Finset.sum_sub_distrib] at ha hb ⊢; linear_combination ha - hb)
    (fun r => by have ha := a.par r; have hb := b.par r; simp only [mul_sub, Finset.sum_sub_distrib] at ha hb ⊢; linear_combination ha - hb)
    (fun l => by have ha := a.con l; have hb := b.con l; simp only [mul_sub, Finset.sum_sub_distrib] at ha hb ⊢; linear_combination ha - hb)
  have ex : x1 = x2 := funext fun j => sub_eq_zero.1 (congrFun e1 j)
  have ep : p1 = p2 := funext fun j => sub_eq_zero.1 (congrFun e2 j)
  refine ⟨ex, ep, ?_⟩
  subst ex ep
  have hst : ∀ i, ¬ U i → ∑ l, stack pb.Ax F.hx l i * (w1 l - w2 l) = 0 := by
    intro i hi
    have ha := a.grad i hi
    have hb := b.grad i hi
    simp only [mul_sub, Finset.sum_sub_distrib] at ha hb ⊢
    linear_combination ha - hb
  have := hr (fun l => w1 l - w2 l) fun i => by
    by_cases hi : U i
    · obtain ⟨k, c1, c2, -⟩ := hB.exch i (hBU i hi)
      have key : ∑ l, stack pb.Ax F.hx l i * (w1 l - w2 l) = ∑ j, k j * ∑ l, stack pb.Ax F.hx l j * (w1 l - w2 l) := by
        simp only [c2, Finset.sum_mul, Finset.mul_sum]
        rw [Finset.sum_comm]
        exact Finset.sum_congr rfl fun k _ => Finset.sum_congr rfl fun j _ => by ring
      rw [key]
      refine Finset.sum_eq_zero fun j _ => ?_
      by_cases hj : B j
      · rw [hst j fun hc => hBU j hc hj, mul_zero]
      · rw [c1 j hj, zero_mul]
    · exact hst i hi
  exact funext fun l => sub_eq_zero.1 (congrFun this l)

end algebra

/-- The points visited by a solve with bounds, the start first: basic variables that no variable of larger weight can replace, Newton's equations with the variables held on their bounds, the step control. -/
structure Smooth.BoundedWalk (F : Smooth K nx np nz) {σ : Type*} (o : SolveOptions K) (pb : MProblem K nx np ny nz) (s : SolveState σ K nx np (ny + nz)) : Prop where
  length : s.trace.length = s.iterations + 1
  last : s.trace.reverse[s.iterations]? = some s.u
  inside : ∀ v ∈ s.trace, InBounds pb.bounds v
  next : ∀ k a b, s.trace.reverse[k]? = some a → s.trace.reverse[k + 1]? = some b → ∃ B un, Preferred (stack pb.Ax F.hx) (weights pb a.x) B ∧
    (F.NonsingularOn pb (F.Held pb B a) a.x a.p → F.NewtonOn pb (F.Held pb B a) a.x a.p un.x un.p un.w) ∧ backtrack o.debug o.minmax pb.bounds a un = some b

section one
variable {F : Smooth K nx np nz} {cfg : Config K nx np ny nz τ}

theorem BoundedSolve.walk_step (X : BoundedSolve F cfg) {o : SolveOptions K} {s s1} (h1 : Reach cfg s.mach) (h2 : EvaluatedAt cfg s.mach s.u) (h3 : s.uo = s.u) (hb : InBounds cfg.pb.bounds s.u) (hw : F.BoundedWalk o cfg.pb s)
    (hs : Optima.step (cfg.machine none) o cfg.pb.bounds s = some s1) : Reach cfg s1.mach ∧ EvaluatedAt cfg s1.mach s1.u ∧ InBounds cfg.pb.bounds s1.u ∧ F.BoundedWalk o cfg.pb s1 := by
  obtain ⟨s0, a0, a1, a2, a3, a4, a5, sm, un, a6, a7⟩ := X.step o h1 h2 h3 hb
  cases hs.symm.trans a0
  obtain ⟨B, P⟩ := X.spec h2
  have hl : s.trace.reverse.length = s.iterations + 1 := by rw [List.length_reverse, hw.length]
  refine ⟨a1, a2, a3, by rw [a5, a4, List.length_cons, hw.length], ?_, fun v hv => ?_, fun k a b ha hb => ?_⟩
  · rw [a5, List.reverse_cons, a4, List.getElem?_append_right hl.le, hl, Nat.sub_self]
    rfl
  · rw [a5] at hv
    rcases List.mem_cons.1 hv with rfl | hv
    · exact a3
    · exact hw.inside v hv
  · rw [a5, List.reverse_cons] at ha hb
    rcases lt_or_ge (k + 1) (s.iterations + 1) with hk | hk
    · rw [List.getElem?_append_left (by omega)] at ha hb
      exact hw.next k a b ha hb
    · rw [List.getElem?_append_right (by omega)] at hb
      obtain ⟨hb1, hb2⟩ := List.getElem?_eq_some_iff.1 hb
      obtain rfl : k = s.iterations := by simp only [List.length_singleton] at hb1; omega
      rw [List.getElem?_append_left (by omega), hw.last] at ha
      cases ha
      rw [List.getElem_singleton] at hb2
      rw [← hb2]
      exact ⟨B, un, P.basis, fun hn => P.newton hn _ _ a6, a7⟩

theorem bounded_walk_stepping {o : SolveOptions K} {s s1 : SolveState (Parts K nx np ny nz τ cfg.pb.Ax) K nx np (ny + nz)} {b} (hw : F.BoundedWalk o cfg.pb s) (hs : stepping (cfg.machine none) o s = some (s1, b)) : F.BoundedWalk o cfg.pb s1 := by
  obtain ⟨b1, b2, -, b4, b5, b6, b7⟩ := stepping_spec hs
  exact ⟨by rw [b5, b2]; exact hw.length, by rw [b5, b2, b1]; exact hw.last, by rw [b5]; exact hw.inside, by rw [b5]; exact hw.next⟩

theorem BoundedSolve.walk_loop (X : BoundedSolve F cfg) {o : SolveOptions K} {s r} (hl : Loop (cfg.machine none) o cfg.pb.bounds s r) : ∀ t, r = some t → Reach cfg s.mach → EvaluatedAt cfg s.mach s.u → s.uo = s.u → InBounds cfg.pb.bounds s.u → F.BoundedWalk o cfg.pb s →
    F.BoundedWalk o cfg.pb t ∧ s.trace <:+ t.trace := by
  induction hl with
  | stepFails s h => intro t e; cases e
  | checkFails s s1 h h' => intro t e; cases e
  | stop s s1 s2 h h' =>
    rintro t ⟨⟩ h1 h2 h3 hb hw
    obtain ⟨c1, c2, c3, c4⟩ := X.walk_step h1 h2 h3 hb hw h
    obtain ⟨s0, a0, -, -, -, -, a5, -⟩ := X.step o h1 h2 h3 hb
    cases h.symm.trans a0
    refine ⟨bounded_walk_stepping c4 h', ?_⟩
    rw [(stepping_spec h').2.2.2.2.1, a5]
    exact List.suffix_cons _ _
  | again s s1 s2 r h h' _ ih =>
    intro t e h1 h2 h3 hb hw
    obtain ⟨c1, c2, c3, c4⟩ := X.walk_step h1 h2 h3 hb hw h
    obtain ⟨s0, a0, -, -, -, -, a5, -⟩ := X.step o h1 h2 h3 hb
    cases h.symm.trans a0
    obtain ⟨b1, b2, -, b4, b5, b6, b7⟩ := stepping_spec h'
    obtain ⟨d1, d2⟩ := ih t e (by rw [machine_stepping h']; exact c1) (by rw [machine_stepping h', b1]; exact c2) ((b7 (continue_le h')).1.trans b1.symm) (by rw [b1]; exact c3) (bounded_walk_stepping c4 h')
    rw [b5, a5] at d2
    exact ⟨d1, (List.suffix_cons _ _).trans d2⟩

theorem BoundedSolve.walk (X : BoundedSolve F cfg) {o : SolveOptions K} {user mem errors ax du} {history : History K} {u : MVec K nx np (ny + nz)} {t}
    (ht : Solve (cfg.machine none) o cfg.pb.bounds (cfg.start user mem errors ax du) history u (some t)) : F.BoundedWalk o cfg.pb t ∧ t.trace.reverse[0]? = some (clampVec cfg.pb.bounds u) := by
  have hinv := machine_inv X.thr.ge X.eps.ge X.nx_pos (cfg := cfg) none
  cases ht with
  | run s r es hl =>
    obtain ⟨su, suo, sit, -, str⟩ := solveInit_spec es
    obtain ⟨q0, p0⟩ := evalAt_inv hinv (s := { mach := cfg.start user mem errors ax du, u := clampVec cfg.pb.bounds u, uo := clampVec cfg.pb.bounds u, iterations := 0, history := history.init, trace := [] })
      (start_reach cfg user mem errors ax du) es
    have hin := clampVec_inBounds X.bounds u
    obtain ⟨w1, l, hl⟩ := X.walk_loop hl t rfl q0 p0 (suo.trans su.symm) (by rw [su]; exact hin) ⟨by rw [str, sit]; rfl, by rw [str, sit, su]; rfl, fun v hv => by rw [str, List.mem_singleton] at hv; rw [hv]; exact hin, fun k a b _ hb => by rw [str] at hb; simp at hb⟩
    refine ⟨w1, ?_⟩
    rw [← hl, str, List.reverse_append]
    rfl

end one

section two
variable {F : Smooth K nx np nz} {cfg : Config K nx np ny nz τ} {F' : Smooth K nx np nz'} {cfg' : Config K nx np ny' nz' τ'} {φ : Chart K nx np} {d : Fin nx → K} {e : Fin np → K} {c : K} {V V' : Matrix (Fin np) (Fin np) K}
  {C : Matrix (Fin (ny' + nz')) (Fin (ny + nz)) K} {D : Matrix (Fin (ny + nz)) (Fin (ny' + nz')) K}

/-- **C76 (with bounds, independent constraints, exact arithmetic)**: a problem given in other units and with other origins of the variables, with the objective function multiplied by a positive constant and the conditions and constraints replaced by equivalent
    linear combinations, is solved by the same iterates in these units, multipliers included, as long as both solves run and if at the points visited the weights determine the same basic variables in both units and the linearised conditions are regular. -/
theorem units_with_bounds_partial (X : BoundedSolve F cfg) (X' : BoundedSolve F' cfg') (h : F.Recast cfg.pb F' cfg'.pb φ c V V' C D) (hc : 0 < c) (hu : φ.Units d e) (hb : φ.SameBounds d e cfg.pb cfg'.pb) {o o' : SolveOptions K} (hmm : o'.minmax = o.minmax)
    {user mem errors ax du} {history : History K} {u : MVec K nx np (ny + nz)} {user' mem' errors' ax' du'} {history' : History K} {u' : MVec K nx np (ny' + nz')} (huu : φ.Corr c C u u') {t t'}
    (ht : Solve (cfg.machine none) o cfg.pb.bounds (cfg.start user mem errors ax du) history u (some t)) (ht' : Solve (cfg'.machine none) o' cfg'.pb.bounds (cfg'.start user' mem' errors' ax' du') history' u' (some t'))
    (hns : ∀ v ∈ t.trace, ∀ B, Preferred (stack cfg.pb.Ax F.hx) (weights cfg.pb v.x) B → F.NonsingularOn cfg.pb (F.Held cfg.pb B v) v.x v.p)
    (hbs : ∀ v ∈ t.trace, ∀ x', v.x = φ.x x' → ∀ B B', Preferred (stack cfg.pb.Ax F.hx) (weights cfg.pb v.x) B → Preferred (stack cfg'.pb.Ax F'.hx) (weights cfg'.pb x') B' → ∀ i, B i ↔ B' i) :
    (∀ (k : ℕ) v v', t.trace.reverse[k]? = some v → t'.trace.reverse[k]? = some v' → φ.Corr c C v v') ∧ (t.iterations = t'.iterations → φ.Corr c C t.u t'.u) ∧
    t.trace.length = t.iterations + 1 ∧ t'.trace.length = t'.iterations + 1 := by
  obtain ⟨w, w0⟩ := X.walk ht
  obtain ⟨w', w0'⟩ := X'.walk ht'
  have key : ∀ (k : ℕ) v v', t.trace.reverse[k]? = some v → t'.trace.reverse[k]? = some v' → φ.Corr c C v v' := by
    intro k
    induction k with
    | zero =>
      intro v v' hv hv'
      cases w0.symm.trans hv
      cases w0'.symm.trans hv'
      exact huu.clampVec hu hb
    | succ k ih =>
      intro v v' hv hv'
      obtain ⟨l1, -⟩ := List.getElem?_eq_some_iff.1 hv
      obtain ⟨l1', -⟩ := List.getElem?_eq_some_iff.1 hv'
      have e := List.getElem?_eq_getElem (l := t.trace.reverse) (show k < _ by omega)
      have e' := List.getElem?_eq_getElem (l := t'.trace.reverse) (show k < _ by omega)
      have hm := List.mem_reverse.1 (List.mem_of_getElem? e)
      have hm' := List.mem_reverse.1 (List.mem_of_getElem? e')
      have hk := ih _ _ e e'
      generalize t.trace.reverse[k]'(by omega) = a at *
      generalize t'.trace.reverse[k]'(by omega) = a' at *
      obtain ⟨B, un, p1, p2, p3⟩ := w.next k _ _ e hv
      obtain ⟨B', un', p1', p2', p3'⟩ := w'.next k _ _ e' hv'
      obtain rfl : B = B' := funext fun i => propext (hbs a hm a'.x hk.x B B' p1 p1' i)
      have hn := hns a hm B p1
      have hU : F.Held cfg.pb B a = F'.Held cfg'.pb B a' := funext fun i => propext (h.held hc hu hb hk i)
      have n1 := p2 hn
      rw [hk.x, hk.p, hU] at hn n1
      obtain ⟨f1, f2, f3⟩ := n1.unique X.rows p1 (fun i hi => hi.2.1) hn (h.newtonOn hu (p2' (h.nonsingularOn hu hn)))
      rw [hmm] at p3'
      exact backtrack_units hu hb (w.inside _ hm) (w'.inside _ hm') hk ⟨f1, f2, f3⟩ p3 p3'
  exact ⟨key, fun e => key t.iterations _ _ w.last (e ▸ w'.last), w.length, w'.length⟩

end two

/-! ### Non-vacuity

The problem of C71, `min x0²/2 + x1 + x1²/2 - cos(x1)/4` subject to `x0 = 1` and `x1 ≥ 0`, in the units and with the origins `x0 = 2 x0' + 1`, `x1 = 3 x1' + 3`, with the objective function multiplied by 5. -/

/-- The units. -/
noncomputable def otherUnits : Chart ℝ 2 0 where
  T := Matrix.diagonal ![2, 3]
  t := ![1, 3]
  S := 1
  s := 0
  T' := Matrix.diagonal ![1/2, 1/3]
  S' := 1
  T_inv := by ext i j; fin_cases i <;> fin_cases j <;> norm_num [Matrix.mul_apply, Fin.sum_univ_two]
  S_inv := by simp

/-- The functions in these units. -/
noncomputable def slopeUnits : Smooth ℝ 2 0 0 where
  g := fun x p => (5 : ℝ) • (otherUnits.Tᵀ *ᵥ slope.g (otherUnits.x x) (otherUnits.p p))
  H := fun x p => (5 : ℝ) • (otherUnits.Tᵀ * slope.H (otherUnits.x x) (otherUnits.p p) * otherUnits.T)
  Hp := 0
  hx := 0
  hp := 0
  h0 := 0
  v := 0
  vx := 0
  vp := 0

/-- The constraint and the bound in these units: `2 x0' = 0`, `x1' ≥ -1`. -/
def edgeUnits : MProblem ℝ 2 0 1 0 where
  Ax := fun _ => ![2, 0]
  Ap := fun _ q => q.elim0
  b := fun _ => 0
  xlower := ![none, some (-1)]
  xupper := fun _ => none
  plower := fun _ => none
  pupper := fun _ => none

theorem slopeUnits_stack : ∀ l, stack edgeUnits.Ax slopeUnits.hx l = ![2, 0] := by
  intro l
  obtain rfl : l = Fin.castAdd 0 (0 : Fin 1) := Fin.ext (by omega)
  funext j
  simp only [stack, Fin.addCases_left, edgeUnits]

theorem slopeUnits_recast : slope.Recast edge slopeUnits edgeUnits otherUnits 5 1 1 1 1 := by
  refine ⟨by norm_num, by simp, by simp, fun x p => rfl, fun x p => rfl, fun x p => funext fun i => funext fun q => q.elim0, fun x p => funext fun q => q.elim0, fun x p => funext fun q => q.elim0, fun x p => funext fun q => q.elim0, ?_, funext fun i => funext fun q => q.elim0, ?_⟩
  · rw [Matrix.one_mul]
    ext l j
    rw [slopeUnits_stack, otherUnits, mul_diagonal, slope_stack.1]
    fin_cases j <;> simp
  · funext l
    rw [one_mulVec]
    simp only [Pi.sub_apply, slope_stack.2.2.1, mulVec, slope_stack.1]
    obtain rfl : l = Fin.castAdd 0 (0 : Fin 1) := Fin.ext (by omega)
    simp only [Smooth.rhs, Fin.addCases_left, edgeUnits, otherUnits]
    simp

/-- A column of zeros is not basic. -/
theorem only_first {m : ℕ} {W : Matrix (Fin m) (Fin 2) ℝ} {a : ℝ} (ha : a ≠ 0) (l0 : Fin m) (hW : ∀ l, W l = ![a, 0]) {wt B} (hB : Preferred W wt B) : B 0 ∧ ¬ B 1 := by
  have h1 : ¬ B 1 := by
    intro h1
    have := congrFun (hB.indep ![0, 1] (fun j hj => by revert hj; revert j; rw [Fin.forall_fin_two]; exact ⟨fun _ => rfl, fun h => absurd h1 h⟩) fun l => by simp [hW, Fin.sum_univ_two]) 1
    simp at this
  refine ⟨by_contra fun h0 => ?_, h1⟩
  obtain ⟨c, c1, c2, -⟩ := hB.exch 0 h0
  have := c2 l0
  rw [Fin.sum_univ_two, c1 0 h0, c1 1 h1, hW] at this
  exact ha (by simpa using this)

/-- From `(x0, x1) = (5, 3)`, which is `(2, 0)` in the other units, whatever the options but for a common step control. -/
example : ∃ cfg cfg' : Config ℝ 2 0 1 0 Unit, cfg.pb = edge ∧ cfg'.pb = edgeUnits ∧ ∀ o o' : SolveOptions ℝ, o'.minmax = o.minmax → ∃ t t',
    Solve (cfg.machine none) o cfg.pb.bounds (cfg.start () 0 ⟨0, 0, 0, 0, 0, 0, 0, 0⟩ 0 ⟨0, 0, 0⟩) (History.init default) ⟨![5, 3], 0, fun _ => 6⟩ (some t) ∧
    Solve (cfg'.machine none) o' cfg'.pb.bounds (cfg'.start () 0 ⟨0, 0, 0, 0, 0, 0, 0, 0⟩ 0 ⟨0, 0, 0⟩) (History.init default) ⟨![2, 0], 0, fun _ => 30⟩ (some t') ∧
    (∀ (k : ℕ) v v', t.trace.reverse[k]? = some v → t'.trace.reverse[k]? = some v' → v.x 0 = 2 * v'.x 0 + 1 ∧ v.x 1 = 3 * v'.x 1 + 3 ∧ 5 * v.w 0 = v'.w 0) ∧ t.trace.length = t.iterations + 1 ∧ t'.trace.length = t'.iterations + 1 := by
  let f : (Fin 2 → ℝ) → Evals ℝ 2 0 0 := fun x =>
    { f := x 0 ^ 2 / 2 + x 1 + x 1 ^ 2 / 2 - Real.cos (x 1) / 4, fx := slope.g x 0, fxx := slope.H x 0, fxp := 0, diagfxx := true, h := 0, hx := 0, hp := 0, v := 0, vx := 0, vp := 0, succeeded := true }
  let f' : (Fin 2 → ℝ) → Evals ℝ 2 0 0 := fun x => { f x with f := 5 * (f (otherUnits.x x)).f, fx := slopeUnits.g x 0, fxx := slopeUnits.H x 0 }
  let cfg : Config ℝ 2 0 1 0 Unit := { env := exactEnv, pb := edge, method := .nullspace, inners := exactInners, user := fun t x _ _ => some (t, f x), userJac := fun t x _ _ => some (t, f x), phi := none }
  let cfg' : Config ℝ 2 0 1 0 Unit := { env := exactEnv, pb := edgeUnits, method := .fullspace, inners := exactInners, user := fun t x _ _ => some (t, f' x), userJac := fun t x _ _ => some (t, f' x), phi := none }
  have hb : ConsistentBounds edge.bounds := inBounds_consistent (u := ⟨![0, 0], 0, (0 : Fin 0 → ℝ)⟩) ⟨by rw [Fin.forall_fin_two]; simp [edge, MProblem.bounds, Between], fun q => q.elim0⟩
  have hb' : ConsistentBounds edgeUnits.bounds := inBounds_consistent (u := ⟨![0, 0], 0, (0 : Fin 0 → ℝ)⟩) ⟨by rw [Fin.forall_fin_two]; simp [edgeUnits, MProblem.bounds, Between], fun q => q.elim0⟩
  have X : BoundedSolve slope cfg := ⟨hb, rfl, rfl, rfl, exactEnv_oracle, by norm_num, rfl, fun c => exactInners_lu c, (by intro h; cases h),
    fun t x p q => ⟨t, f x, rfl, ⟨rfl, rfl, rfl, funext fun l => l.elim0, rfl, rfl, rfl, rfl, rfl⟩⟩, by
      intro y hy
      have := hy 0
      simp only [cfg, slope_stack.1] at this
      funext l
      obtain rfl : l = 0 := Fin.ext (by omega)
      simpa using this⟩
  have X' : BoundedSolve slopeUnits cfg' := ⟨hb', rfl, rfl, rfl, exactEnv_oracle, by norm_num, rfl, fun c => exactInners_lu c, (by intro h; cases h),
    fun t x p q => ⟨t, f' x, rfl, ⟨by rw [Subsingleton.elim p 0], by rw [Subsingleton.elim p 0], rfl, funext fun l => l.elim0, rfl, rfl, rfl, rfl, rfl⟩⟩, by
      intro y hy
      have := hy 0
      simp only [cfg', slopeUnits_stack] at this
      funext l
      obtain rfl : l = 0 := Fin.ext (by omega)
      simpa using this⟩
  refine ⟨cfg, cfg', rfl, rfl, fun o o' hmm => ?_⟩
  obtain ⟨t, ht⟩ := solve_returns X.thr.ge X.eps.ge X.debug X.nx_pos none (noPhi X.phi) (fun t x p q => ⟨_, rfl⟩) (fun f hf => by cases hf) o X.bounds () 0 ⟨0, 0, 0, 0, 0, 0, 0, 0⟩ 0 ⟨0, 0, 0⟩ (History.init default) ⟨![5, 3], 0, fun _ => 6⟩
  obtain ⟨t', ht'⟩ := solve_returns X'.thr.ge X'.eps.ge X'.debug X'.nx_pos none (noPhi X'.phi) (fun t x p q => ⟨_, rfl⟩) (fun f hf => by cases hf) o' X'.bounds () 0 ⟨0, 0, 0, 0, 0, 0, 0, 0⟩ 0 ⟨0, 0, 0⟩ (History.init default) ⟨![2, 0], 0, fun _ => 30⟩
  have hU : otherUnits.Units ![2, 3] (fun _ => 1) := ⟨rfl, by ext q; exact q.elim0, by rw [Fin.forall_fin_two]; norm_num, fun q => q.elim0⟩
  obtain ⟨a1, -, a2, a3⟩ := units_with_bounds_partial X X' slopeUnits_recast (by norm_num) hU
    ⟨by rw [Fin.forall_fin_two]; norm_num [cfg, cfg', edge, edgeUnits, otherUnits], fun _ => rfl, fun q => q.elim0, fun q => q.elim0⟩ hmm
    (by
      refine ⟨?_, funext fun q => q.elim0, ?_⟩
      · funext i
        rw [hU.x]
        fin_cases i <;> norm_num [otherUnits]
      · funext l
        obtain rfl : l = 0 := Fin.ext (by omega)
        norm_num) ht ht'
    (fun v _ B hB => (slope_regular v).2 B hB) (fun v _ x' _ B B' hB hB' => by
      obtain ⟨b1, b2⟩ := only_first one_ne_zero 0 slope_stack.1 hB
      obtain ⟨c1, c2⟩ := only_first two_ne_zero 0 slopeUnits_stack hB'
      rw [Fin.forall_fin_two]
      exact ⟨⟨fun _ => c1, fun _ => b1⟩, ⟨fun h => absurd h b2, fun h => absurd h c2⟩⟩)
  refine ⟨t, t', ht, ht', fun k v v' hv hv' => ?_, a2, a3⟩
  have hk := a1 k v v' hv hv'
  refine ⟨?_, ?_, ?_⟩
  · rw [hk.x, hU.x]; simp [otherUnits]
  · rw [hk.x, hU.x]; simp [otherUnits]
  · rw [hk.w]; simp

end Optima
