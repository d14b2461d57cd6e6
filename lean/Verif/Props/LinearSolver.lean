import Verif.Model.LinearSolver
import Verif.Props.LinearSolvers
import Verif.Props.Canonicalizer
import Verif.Props.LU
import Mathlib.LinearAlgebra.Matrix.ToLinearEquiv

/-!
# C25: `LinearSolver`
-/

set_option linter.unusedSectionVars false

namespace Optima

open Matrix

variable {K : Type*} [Field K] {nx np nw : ℕ}

section assign
variable {m n : ℕ}

theorem assignFn_get (v : Fin m → K) (idx : Fin n → Fin m) (h : Function.Injective idx) (b : Fin n → K) (k : Fin n) : assignFn v idx b (idx k) = b k := by
  unfold assignFn
  have key := foldl_finRange_inv (n := n) (f := fun v k => Function.update v (idx k) (b k)) (b := v) (P := fun l (w : Fin m → K) => ∀ k ∈ l, w (idx k) = b k) (by simp) ?_
  · exact key k (List.mem_finRange k)
  · intro l w a ih k hk
    by_cases e : k = a
    · subst e; rw [Function.update_self]
    · rw [Function.update_of_ne (fun h' => e (h h'))]
      rw [List.mem_append, List.mem_singleton] at hk
      exact ih k (hk.resolve_right e)

theorem assignFn_of_ne (v : Fin m → K) (idx : Fin n → Fin m) (b : Fin n → K) (i : Fin m) (hi : ∀ k, idx k ≠ i) : assignFn v idx b i = v i := by
  unfold assignFn
  refine foldl_finRange_inv (n := n) (P := fun _ (w : Fin m → K) => w i = v i) rfl ?_
  intro l w a ih
  rw [Function.update_of_ne (Ne.symm (hi a)), ih]
end assign

/-- The variables written by `linSolveCanonical`. -/
theorem linSolveCanonical_x (m : Method) {nbe nbi nne nni nnu : ℕ} (I : Inners K np nbe nbi nne nni) (C : Canon K nx np nw (Fin nbe) (Fin nbi) (Fin nne) (Fin nni) (Fin nnu))
    (h : Function.Bijective (Sum.elim C.js C.ju)) (a : CVec K np (Fin nbe) (Fin nbi) (Fin nne) (Fin nni)) (au : Fin nnu → K) (u0 : MVec K nx np nw) :
    (∀ s, (linSolveCanonical m I C a au u0).x (C.js s) = (solveCanonical m I C a).xs s) ∧ ∀ k, (linSolveCanonical m I C a au u0).x (C.ju k) = au k := by
  have hinj : ∀ r s, C.js r = C.js s → r = s := fun r s e => Sum.inl_injective (h.1 (by simpa using e))
  have hinju : ∀ r s, C.ju r = C.ju s → r = s := fun r s e => Sum.inr_injective (h.1 (by simpa using e))
  have hne : ∀ r s, C.ju r ≠ C.js s := fun r s e => by
    have := h.1 (a₁ := .inr r) (a₂ := .inl s) (by simpa using e)
    cases this
  unfold linSolveCanonical
  dsimp only
  constructor
  · intro s
    rw [assignFn_of_ne _ _ _ _ (fun k => hne k s)]
    rcases s with (s | s) | (s | s)
    · rw [assignFn_of_ne _ _ _ _ (fun k e => by cases hinj _ _ e), assignFn_of_ne _ _ _ _ (fun k e => by cases hinj _ _ e), assignFn_of_ne _ _ _ _ (fun k e => by cases hinj _ _ e)]
      exact assignFn_get u0.x (fun k => C.js (.inl (.inl k))) (fun r s e => by simpa using hinj _ _ e) _ s
    · rw [assignFn_of_ne _ _ _ _ (fun k e => by cases hinj _ _ e), assignFn_of_ne _ _ _ _ (fun k e => by cases hinj _ _ e)]
      exact assignFn_get _ (fun k => C.js (.inl (.inr k))) (fun r s e => by simpa using hinj _ _ e) _ s
    · rw [assignFn_of_ne _ _ _ _ (fun k e => by cases hinj _ _ e)]
      exact assignFn_get _ (fun k => C.js (.inr (.inl k))) (fun r s e => by simpa using hinj _ _ e) _ s
    · exact assignFn_get _ (fun k => C.js (.inr (.inr k))) (fun r s e => by simpa using hinj _ _ e) _ s
  · intro k
    exact assignFn_get _ C.ju (fun r s e => hinju _ _ e) _ k

/-- The master system `M*u = a`, equation by equation (the specification): stationarity of the stable variables, `x = a.x` for the unstable ones, the equations for `p` and the linear constraints with the
    contribution of the unstable variables left out. -/
structure SolvesMaster (M : MasterMatrix K nx np nw) (a u : MVec K nx np nw) : Prop where
  stable : ∀ i, i ∉ M.ju → ∑ j, (if j ∈ M.ju then 0 else M.Hxx i j * u.x j) + ∑ q, M.Hxp i q * u.p q + ∑ l, M.Wx l i * u.w l = a.x i
  unstable : ∀ i, i ∈ M.ju → u.x i = a.x i
  par : ∀ q, ∑ j, (if j ∈ M.ju then 0 else M.Vpx q j * u.x j) + ∑ q', M.Vpp q q' * u.p q' = a.p q
  constr : ∀ l, ∑ j, (if j ∈ M.ju then 0 else M.Wx l j * u.x j) + ∑ q, M.Wp l q * u.p q = a.w l

/-- `SolvesMaster` is `D*u = a` for the dense matrix `D` of `M`. -/
theorem solvesMaster_iff (M : MasterMatrix K nx np nw) (h : ValidSplit M.js M.ju) (a u : MVec K nx np nw) : SolvesMaster M a u ↔ M.dense *ᵥ u.vec = a.vec := by
  have hD := dense_spec M h
  have hx : ∀ i, (M.dense *ᵥ u.vec) (.inl i) = if i ∈ M.ju then u.x i else
      ∑ j, (if j ∈ M.ju then 0 else M.Hxx i j * u.x j) + ∑ q, M.Hxp i q * u.p q + ∑ l, M.Wx l i * u.w l := by
    intro i
    simp only [mulVec, dotProduct, Fintype.sum_sum_type, MVec.vec, Sum.elim_inl, Sum.elim_inr, hD.xx, hD.xp, hD.xw]
    by_cases hi : i ∈ M.ju
    · simp [hi]
    · simp only [hi, false_or, if_false, ← add_assoc]
      congr 2
      refine Finset.sum_congr rfl fun j _ => ?_
      by_cases hj : j ∈ M.ju
      · have : i ≠ j := fun e => hi (e ▸ hj)
        simp [hj, this]
      · simp [hj]
  have hp : ∀ q, (M.dense *ᵥ u.vec) (.inr (.inl q)) = ∑ j, (if j ∈ M.ju then 0 else M.Vpx q j * u.x j) + ∑ q', M.Vpp q q' * u.p q' := by
    intro q
    simp only [mulVec, dotProduct, Fintype.sum_sum_type, MVec.vec, Sum.elim_inl, Sum.elim_inr, hD.px, hD.pp, hD.pw, ite_mul, zero_mul, Finset.sum_const_zero, add_zero]
  have hw : ∀ l, (M.dense *ᵥ u.vec) (.inr (.inr l)) = ∑ j, (if j ∈ M.ju then 0 else M.Wx l j * u.x j) + ∑ q, M.Wp l q * u.p q := by
    intro l
    simp only [mulVec, dotProduct, Fintype.sum_sum_type, MVec.vec, Sum.elim_inl, Sum.elim_inr, hD.wx, hD.wp, hD.ww, ite_mul, zero_mul, Finset.sum_const_zero, add_zero]
  constructor
  · intro s
    funext r
    rcases r with i | q | l
    · rw [hx]
      split_ifs with hi
      · exact s.unstable i hi
      · exact s.stable i hi
    · rw [hp]; exact s.par q
    · rw [hw]; exact s.constr l
  · intro e
    constructor
    · intro i hi
      have := congrFun e (.inl i)
      rw [hx, if_neg hi] at this
      exact this
    · intro i hi
      have := congrFun e (.inl i)
      rw [hx, if_pos hi] at this
      exact this
    · intro q; have := congrFun e (.inr (.inl q)); rw [hp] at this; exact this
    · intro l; have := congrFun e (.inr (.inr l)); rw [hw] at this; exact this

variable [LinearOrder K] [IsStrictOrderedRing K]

/-- Sums over the stable variables in the order of the canonical form. -/
theorem sum_stable {M : MasterMatrix K nx np nw} {c : CanonPack K nx np nw} (h : CanonSpec M c) (f : Fin nx → K) : ∑ s, f (c.mat.js s) = ∑ j, if j ∈ M.ju then 0 else f j := by
  rw [← (Equiv.ofBijective _ h.split).sum_comp, Fintype.sum_sum_type]
  have hu : ∀ k, c.mat.ju k ∈ M.ju := fun k => (h.unstable _).1 ⟨k, rfl⟩
  have hs : ∀ s, c.mat.js s ∉ M.ju := fun s hs => by
    obtain ⟨k, e⟩ := (h.unstable _).2 hs
    have := h.split.1 (a₁ := .inr k) (a₂ := .inl s) (by simpa using e)
    cases this
  simp [Equiv.ofBijective_apply, hu, hs]

/-- The constraint rows are combinations of the echelonised ones: `[Wx Wp] = Wx(jb)*Rb*[Wx Wp]`. -/
def RowsSpanned (M : MasterMatrix K nx np nw) : Prop :=
  (∀ l j, M.Wx l j = ∑ b, M.Wx l (M.RWQ.jb b) * ∑ r, M.RWQ.Rb b r * M.Wx r j) ∧ ∀ l q, M.Wp l q = ∑ b, M.Wx l (M.RWQ.jb b) * ∑ r, M.RWQ.Rb b r * M.Wp r q

/-- The right-hand side of the constraints is attained: `a.w = Wx*x + Wp*p` for some `x`, `p`. -/
def Consistent (M : MasterMatrix K nx np nw) (a : MVec K nx np nw) : Prop := ∃ (x : Fin nx → K) (p : Fin np → K), ∀ l, a.w l = ∑ j, M.Wx l j * x j + ∑ q, M.Wp l q * p q

theorem project_range {M : MasterMatrix K nx np nw} (h : RowsSpanned M) (x : Fin nx → K) (p : Fin np → K) (l : Fin nw) :
    ∑ j, M.Wx l j * x j + ∑ q, M.Wp l q * p q = ∑ b, M.Wx l (M.RWQ.jb b) * ∑ r, M.RWQ.Rb b r * (∑ j, M.Wx r j * x j + ∑ q, M.Wp r q * p q) := by
  have e1 : ∑ j, M.Wx l j * x j = ∑ b, M.Wx l (M.RWQ.jb b) * ∑ r, M.RWQ.Rb b r * ∑ j, M.Wx r j * x j := by
    calc ∑ j, M.Wx l j * x j = ∑ j, ∑ b, ∑ r, M.Wx l (M.RWQ.jb b) * (M.RWQ.Rb b r * (M.Wx r j * x j)) := by
          refine Finset.sum_congr rfl fun j _ => ?_
          rw [h.1 l j, Finset.sum_mul]
          refine Finset.sum_congr rfl fun b _ => ?_
          rw [Finset.mul_sum, Finset.sum_mul]
          exact Finset.sum_congr rfl fun r _ => by ring
      _ = _ := by
          rw [Finset.sum_comm]
          refine Finset.sum_congr rfl fun b _ => ?_
          rw [Finset.sum_comm, Finset.mul_sum]
          refine Finset.sum_congr rfl fun r _ => ?_
          rw [Finset.mul_sum, Finset.mul_sum]
  have e2 : ∑ q, M.Wp l q * p q = ∑ b, M.Wx l (M.RWQ.jb b) * ∑ r, M.RWQ.Rb b r * ∑ q, M.Wp r q * p q := by
    calc ∑ q, M.Wp l q * p q = ∑ q, ∑ b, ∑ r, M.Wx l (M.RWQ.jb b) * (M.RWQ.Rb b r * (M.Wp r q * p q)) := by
          refine Finset.sum_congr rfl fun j _ => ?_
          rw [h.2 l j, Finset.sum_mul]
          refine Finset.sum_congr rfl fun b _ => ?_
          rw [Finset.mul_sum, Finset.sum_mul]
          exact Finset.sum_congr rfl fun r _ => by ring
      _ = _ := by
          rw [Finset.sum_comm]
          refine Finset.sum_congr rfl fun b _ => ?_
          rw [Finset.sum_comm, Finset.mul_sum]
          refine Finset.sum_congr rfl fun r _ => ?_
          rw [Finset.mul_sum, Finset.mul_sum]
  rw [e1, e2, ← Finset.sum_add_distrib]
  refine Finset.sum_congr rfl fun b _ => ?_
  rw [← mul_add, ← Finset.sum_add_distrib]
  congr 1
  exact Finset.sum_congr rfl fun r _ => by ring

/-- The echelon identities that `EchelonizerW` establishes (C19), with exact `Sbp`. -/
structure EchelonOK (M : MasterMatrix K nx np nw) : Prop where
  b : M.RWQ.Rb * M.Wx.submatrix id M.RWQ.jb = 1
  n : M.RWQ.Rb * M.Wx.submatrix id M.RWQ.jn = M.RWQ.Sbn
  p : M.RWQ.Rb * M.Wp = M.RWQ.Sbp

/-- From a solution of the canonical system to a solution of the master system. -/
theorem canonical_to_master {M : MasterMatrix K nx np nw} {c : CanonPack K nx np nw} (h : CanonSpec M c) (hE : EchelonOK M) (hR : RowsSpanned M) (a : MVec K nx np nw) (hc : Consistent M a)
    (m : Method) (I : Inners K np c.nbe c.nbi c.nne c.nni) (u0 : MVec K nx np nw)
    (hs : SolvesCanonical c.mat { xs := a.x ∘ c.mat.js, p := a.p, wbs := c.mat.Rbs *ᵥ a.w } (solveCanonical m I c.mat { xs := a.x ∘ c.mat.js, p := a.p, wbs := c.mat.Rbs *ᵥ a.w })) :
    SolvesMaster M a (linSolve m I c.mat a u0) := by
  obtain ⟨hx, hxu⟩ := linSolveCanonical_x m I c.mat h.split { xs := a.x ∘ c.mat.js, p := a.p, wbs := c.mat.Rbs *ᵥ a.w } (a.x ∘ c.mat.ju) u0
  obtain ⟨eb, en, ep⟩ := canonical_echelon h hE.b hE.n hE.p
  change ∀ s, (linSolve m I c.mat a u0).x (c.mat.js s) = _ at hx
  change ∀ s, (linSolve m I c.mat a u0).x (c.mat.ju s) = _ at hxu
  have hp : (linSolve m I c.mat a u0).p = (solveCanonical m I c.mat { xs := a.x ∘ c.mat.js, p := a.p, wbs := c.mat.Rbs *ᵥ a.w }).p := rfl
  have hw : (linSolve m I c.mat a u0).w = c.mat.Rbsᵀ *ᵥ (solveCanonical m I c.mat { xs := a.x ∘ c.mat.js, p := a.p, wbs := c.mat.Rbs *ᵥ a.w }).wbs := rfl
  generalize linSolve m I c.mat a u0 = U at *
  generalize solveCanonical m I c.mat { xs := a.x ∘ c.mat.js, p := a.p, wbs := c.mat.Rbs *ᵥ a.w } = v at *
  have hu : ∀ k, c.mat.ju k ∈ M.ju := fun k => (h.unstable _).1 ⟨k, rfl⟩
  have hsurj : ∀ i, i ∉ M.ju → ∃ s, c.mat.js s = i := by
    intro i hi
    obtain ⟨r, hr⟩ := h.split.2 i
    rcases r with s | k
    · exact ⟨s, hr⟩
    · exact absurd (hr ▸ hu k) hi
  -- Wᵀ w in terms of wbs
  have hWw : ∀ i, ∑ l, M.Wx l i * U.w l = ∑ b, (∑ l, c.mat.Rbs b l * M.Wx l i) * v.wbs b := by
    intro i
    rw [hw]
    simp only [mulVec, dotProduct, transpose_apply]
    calc ∑ l, M.Wx l i * ∑ b, c.mat.Rbs b l * v.wbs b = ∑ l, ∑ b, c.mat.Rbs b l * M.Wx l i * v.wbs b := by
          refine Finset.sum_congr rfl fun l _ => ?_
          rw [Finset.mul_sum]
          exact Finset.sum_congr rfl fun b _ => by ring
      _ = _ := by
          rw [Finset.sum_comm]
          exact Finset.sum_congr rfl fun b _ => by rw [Finset.sum_mul]
  have hebS : ∀ b b', ∑ l, c.mat.Rbs b l * M.Wx l (c.mat.js (.inl b')) = if b = b' then 1 else 0 := by
    intro b b'
    have := congrFun (congrFun eb b) b'
    simpa [mul_apply, Matrix.one_apply] using this
  have henS : ∀ b k, ∑ l, c.mat.Rbs b l * M.Wx l (c.mat.js (.inr k)) = c.mat.Sbsns b k := by
    intro b k
    have := congrFun (congrFun en b) k
    simpa [mul_apply] using this
  have hepS : ∀ b q, ∑ l, c.mat.Rbs b l * M.Wp l q = c.mat.Sbsp b q := by
    intro b q
    have := congrFun (congrFun ep b) q
    simpa [mul_apply] using this
  have hxs : ∀ g : Fin nx → K, ∑ j, (if j ∈ M.ju then 0 else g j * U.x j) = ∑ s, g (c.mat.js s) * v.xs s := by
    intro g
    rw [← sum_stable h (fun j => g j * U.x j)]
    exact Finset.sum_congr rfl fun s _ => by rw [hx]
  constructor
  · intro i hi
    obtain ⟨s, rfl⟩ := hsurj i hi
    rw [hxs (fun j => M.Hxx (c.mat.js s) j), hWw, hp]
    rcases s with b | k
    · have := hs.basic b
      simp only [h.Hss, h.Hsp] at this
      simp only [hebS, ite_mul, one_mul, zero_mul, Finset.sum_ite_eq', Finset.mem_univ, if_true]
      exact this
    · have := hs.nonbasic k
      simp only [h.Hss, h.Hsp] at this
      simp only [henS]
      exact this
  · intro i hi
    obtain ⟨k, rfl⟩ := (h.unstable i).2 hi
    exact hxu k
  · intro q
    rw [hxs (fun j => M.Vpx q j), hp]
    have := hs.par q
    simp only [h.Vps, h.Vpp] at this
    exact this
  · -- the residual is in the range of [Wx Wp] and vanishes after multiplication with Rb
    obtain ⟨x', p', hx'⟩ := hc
    obtain ⟨σ, τ, hσ, hτ, jb, jn, S, Sp, R⟩ := h.ech
    have hfeas : ∀ b, ∑ r, M.RWQ.Rb b r * (∑ j, M.Wx r j * (if j ∈ M.ju then 0 else U.x j) + ∑ q, M.Wp r q * U.p q) = ∑ r, M.RWQ.Rb b r * a.w r := by
      intro b
      obtain ⟨b, rfl⟩ := hσ.2 b
      have hf := hs.feas b
      simp only [mulVec, dotProduct] at hf
      simp only [R] at hf
      rw [← hf]
      simp only [mul_add, Finset.sum_add_distrib]
      have t1 : ∑ r, M.RWQ.Rb (σ b) r * ∑ j, M.Wx r j * (if j ∈ M.ju then 0 else U.x j) = ∑ s, (∑ r, c.mat.Rbs b r * M.Wx r (c.mat.js s)) * v.xs s := by
        rw [← hxs (fun j => ∑ r, c.mat.Rbs b r * M.Wx r j)]
        simp only [Finset.mul_sum]
        rw [Finset.sum_comm]
        refine Finset.sum_congr rfl fun j _ => ?_
        split_ifs
        · simp
        · rw [Finset.sum_mul]
          exact Finset.sum_congr rfl fun r _ => by rw [R]; ring
      have t2 : ∑ r, M.RWQ.Rb (σ b) r * ∑ q, M.Wp r q * U.p q = ∑ q, c.mat.Sbsp b q * v.p q := by
        simp only [Finset.mul_sum]
        rw [Finset.sum_comm]
        refine Finset.sum_congr rfl fun q _ => ?_
        rw [← hepS, Finset.sum_mul, hp]
        exact Finset.sum_congr rfl fun r _ => by rw [R]; ring
      rw [t1, t2, Fintype.sum_sum_type]
      simp only [hebS, henS, ite_mul, one_mul, zero_mul, Finset.sum_ite_eq, Finset.mem_univ, if_true]
    intro l
    have l1 := project_range hR (fun j => if j ∈ M.ju then 0 else U.x j) U.p l
    have l2 := project_range hR x' p' l
    simp only [← hx'] at l2
    simp only [hfeas] at l1
    rw [l2, ← l1]
    congr 1
    exact Finset.sum_congr rfl fun j _ => by split_ifs <;> simp

/-- The right-hand side handed to the canonical solver. -/
def canonRhs (c : CanonPack K nx np nw) (a : MVec K nx np nw) : CVec K np (Fin c.nbe) (Fin c.nbi) (Fin c.nne) (Fin c.nni) := { xs := a.x ∘ c.mat.js, p := a.p, wbs := c.mat.Rbs *ᵥ a.w }

/-- The inner solver of method `m` solves the system the method assembles for the right-hand side `a`. -/
def InnerOK (m : Method) (c : CanonPack K nx np nw) (I : Inners K np c.nbe c.nbi c.nne c.nni) (a : MVec K nx np nw) : Prop :=
  match m with
  | .fullspace => fullMatrix c.mat *ᵥ I.full (fullMatrix c.mat) (fullRhs (canonRhs c a)) = fullRhs (canonRhs c a)
  | .nullspace => nullMatrix c.mat (nullDecompose c.mat) *ᵥ I.null (nullMatrix c.mat (nullDecompose c.mat)) (nullRhs c.mat (nullDecompose c.mat) (canonRhs c a)).2 =
      (nullRhs c.mat (nullDecompose c.mat) (canonRhs c a)).2
  | .rangespace => (rangeDecompose c.mat).2 *ᵥ I.range (rangeDecompose c.mat).2 (rangeRhs c.mat (rangeDecompose c.mat).1 (canonRhs c a)) =
      rangeRhs c.mat (rangeDecompose c.mat).1 (canonRhs c a)

/-- **C25, part**: for every master matrix (any sizes, any set of unstable non-basic variables, dependent rows allowed), every consistent right-hand side and whatever `u` held before,
    the linear solver with the full-space or null-space method returns `u` with `M*u = a` and `u.x = a.x` at the unstable variables, provided the inner solver solves its system.
    With the range-space method this holds for diagonal `Hxx` without explicit basic variables and with non-zero explicit pivots (missing: explicit basic variables, where it is false,
    `linearSolver_rangespace_wrong`). -/
theorem linearSolver_solves_partial {M : MasterMatrix K nx np nw} {c : CanonPack K nx np nw} (h : CanonSpec M c) (hE : EchelonOK M) (hR : RowsSpanned M) (a : MVec K nx np nw)
    (hc : Consistent M a) (m : Method) (I : Inners K np c.nbe c.nbi c.nne c.nni) (u0 : MVec K nx np nw) (hin : InnerOK m c I a)
    (hm : m = .rangespace → (∀ i j, i ≠ j → M.Hxx i j = 0) ∧ c.nbe = 0 ∧ ∀ k, c.mat.hne k ≠ 0) : SolvesMaster M a (linSolve m I c.mat a u0) := by
  refine canonical_to_master h hE hR a hc m I u0 ?_
  cases m with
  | fullspace => exact (fullspace_solves I.full c.mat (canonRhs c a)).2 hin
  | nullspace => exact (nullspace_solves I.null c.mat (canonRhs c a)).2 hin
  | rangespace =>
    obtain ⟨h1, h2, h3⟩ := hm rfl
    have : IsEmpty (Fin c.nbe) := by rw [h2]; infer_instance
    refine (rangespace_solves_partial I.range c.mat ?_ h3 (canonRhs c a)).2 hin
    intro s t hst
    rw [h.Hss]
    exact h1 _ _ fun e => hst (Sum.inl_injective (h.split.1 (by simpa using e)))

/-! ## With the `LU` inner solver -/

theorem luInner_solves {T : Type} [Fintype T] {n : ℕ} (eps : K) (heps : 0 ≤ eps) (e : T ≃ Fin n) (F : (A : Matrix (Fin n) (Fin n) K) → LU.FullLU A) (rank0 : ℕ) (M : Matrix T T K) (r : T → K)
    (y : Fin n → K) (hy : LU.Forward (F (M.submatrix e.symm e.symm)) (r ∘ e.symm) y)
    (hreg : ∀ j, if n = 1 then (F (M.submatrix e.symm e.symm)).matrixLU j j ≠ 0 else eps * |y j| < |(F (M.submatrix e.symm e.symm)).matrixLU j j|) :
    M *ᵥ luInner eps e F rank0 M r = r := by
  have := LU.lu_solve eps heps (F (M.submatrix e.symm e.symm)) rank0 (r ∘ e.symm) y hy hreg
  funext t
  have ht := congrFun this (e t)
  simp only [Function.comp_apply, Equiv.symm_apply_apply] at ht
  rw [← ht]
  simp only [mulVec, dotProduct, luInner, Function.comp_apply, submatrix_apply, Equiv.symm_apply_apply]
  rw [← e.sum_comp]
  simp

/-- With a zero threshold (exact arithmetic), the `LU` solver solves every non-singular system. -/
theorem luInner_exact {T : Type} [Fintype T] [DecidableEq T] {n : ℕ} (e : T ≃ Fin n) (F : (A : Matrix (Fin n) (Fin n) K) → LU.FullLU A) (rank0 : ℕ) (M : Matrix T T K) (r : T → K)
    (hM : ∀ v, M *ᵥ v = 0 → v = 0) : M *ᵥ luInner 0 e F rank0 M r = r := by
  have hdet : M.det ≠ 0 := by
    intro h0
    obtain ⟨v, hv, hv0⟩ := Matrix.exists_mulVec_eq_zero_iff.2 h0
    exact hv (hM v hv0)
  generalize hlu : F (M.submatrix e.symm e.symm) = lu
  have hdiag : ∀ j, lu.matrixLU j j ≠ 0 := by
    have h1 : (M.submatrix e.symm e.symm).det ≠ 0 := by rwa [det_submatrix_equiv_self]
    have h2 : ((M.submatrix e.symm e.symm).submatrix lu.p lu.q).det ≠ 0 := by
      have : (M.submatrix e.symm e.symm).submatrix lu.p lu.q = ((M.submatrix e.symm e.symm).submatrix lu.p id).submatrix id lu.q := by ext; rfl
      rw [this, det_permute', det_permute]
      refine mul_ne_zero ?_ (mul_ne_zero ?_ h1) <;>
      · refine Int.cast_ne_zero.2 (Units.ne_zero _)
    rw [lu.factor, det_mul] at h2
    have h3 := right_ne_zero_of_mul h2
    rw [det_of_isUpperTriangular] at h3
    · intro j
      have := Finset.prod_ne_zero_iff.1 h3 j (Finset.mem_univ j)
      simpa [LU.upper] using this
    · intro i j hij
      simp only [LU.upper]
      rw [if_neg]
      simpa using hij
  refine luInner_solves 0 le_rfl e F rank0 M r (Tri.lowerSolve lu.matrixLU ((r ∘ e.symm) ∘ lu.p)) ?_ ?_
  · rw [hlu]; exact LU.lowerSolve_eq _ _
  · rw [hlu]
    intro j
    split_ifs
    · exact hdiag j
    · rw [zero_mul]; exact abs_pos.2 (hdiag j)

/-- A non-singular master matrix has a non-singular canonical form. -/
theorem canonical_injective {M : MasterMatrix K nx np nw} {c : CanonPack K nx np nw} (h : CanonSpec M c) (hE : EchelonOK M) (hR : RowsSpanned M)
    (hM : ∀ u, SolvesMaster M ⟨0, 0, 0⟩ u → u = ⟨0, 0, 0⟩) (v) (hv : SolvesCanonical c.mat ⟨0, 0, 0⟩ v) : v = ⟨0, 0, 0⟩ := by
  let I : Inners K np c.nbe c.nbi c.nne c.nni := ⟨fun _ _ => v.pack, fun _ _ => 0, fun _ _ => 0⟩
  have hrhs : ({ xs := (⟨0, 0, 0⟩ : MVec K nx np nw).x ∘ c.mat.js, p := (⟨0, 0, 0⟩ : MVec K nx np nw).p, wbs := c.mat.Rbs *ᵥ (⟨0, 0, 0⟩ : MVec K nx np nw).w } :
      CVec K np (Fin c.nbe) (Fin c.nbi) (Fin c.nne) (Fin c.nni)) = ⟨0, 0, 0⟩ := by
    ext s
    · rfl
    · rfl
    · simp
  have hsol : solveCanonical .fullspace I c.mat ⟨0, 0, 0⟩ = v := by
    ext s
    · rcases s with s | s <;> rfl
    · rfl
    · rfl
  have hm := canonical_to_master h hE hR ⟨0, 0, 0⟩ ⟨0, 0, by simp⟩ .fullspace I ⟨0, 0, 0⟩ (by rw [hrhs, hsol]; exact hv)
  have h0 := hM _ hm
  have hx := (linSolveCanonical_x .fullspace I c.mat h.split ⟨0, 0, 0⟩ (0 : Fin c.nnu → K) ⟨0, 0, 0⟩).1
  have hl : linSolve .fullspace I c.mat ⟨0, 0, 0⟩ ⟨0, 0, 0⟩ = linSolveCanonical .fullspace I c.mat ⟨0, 0, 0⟩ (0 : Fin c.nnu → K) (⟨0, 0, 0⟩ : MVec K nx np nw) := by
    unfold linSolve; rw [hrhs]; rfl
  rw [hl] at h0
  rw [h0, hsol] at hx
  have hw : c.mat.Rbsᵀ *ᵥ v.wbs = 0 := by
    have := congrArg MVec.w h0
    simpa [linSolveCanonical, hsol] using this
  ext s
  · exact (hx s).symm
  · have := congrArg MVec.p h0
    simp only [linSolveCanonical, hsol] at this
    exact congrFun this s
  · obtain ⟨eb, -, -⟩ := canonical_echelon h hE.b hE.n hE.p
    have : (M.Wx.submatrix id (c.mat.js ∘ Sum.inl))ᵀ *ᵥ c.mat.Rbsᵀ *ᵥ v.wbs = v.wbs := by
      rw [mulVec_mulVec, ← transpose_mul, eb, transpose_one, one_mulVec]
    rw [hw, mulVec_zero] at this
    rw [← this]

/-- **C25, part** End to end: a non-singular master matrix with the code's `LU` inner solver (threshold zero, i.e. exact arithmetic; any `FullPivLU` implementation satisfying its contract):
    the full-space and null-space methods return the solution of `M*u = a` for every right-hand side. Missing: the range-space method. -/
theorem linearSolver_lu_partial {M : MasterMatrix K nx np nw} {c : CanonPack K nx np nw} (h : CanonSpec M c) (hs : ValidSplit M.js M.ju) (hE : EchelonOK M) (hR : RowsSpanned M)
    (a : MVec K nx np nw) (hc : Consistent M a) (hM : ∀ v, M.dense *ᵥ v = 0 → v = 0) (m : Method) (hm : m ≠ .rangespace)
    {n1 n2 n3 : ℕ} (e1 : FullT np (Fin c.nbe) (Fin c.nbi) (Fin c.nne) (Fin c.nni) ≃ Fin n1) (e2 : NullT np (Fin c.nbe) (Fin c.nne) (Fin c.nni) ≃ Fin n2)
    (e3 : RangeT np (Fin c.nbe) (Fin c.nbi) (Fin c.nni) ≃ Fin n3) (F : ∀ n, (A : Matrix (Fin n) (Fin n) K) → LU.FullLU A) (rank0 : ℕ) (u0 : MVec K nx np nw) :
    M.dense *ᵥ (linSolve m ⟨luInner 0 e1 (F n1) rank0, luInner 0 e2 (F n2) rank0, luInner 0 e3 (F n3) rank0⟩ c.mat a u0).vec = a.vec := by
  rw [← solvesMaster_iff M hs]
  have hz : (⟨0, 0, 0⟩ : MVec K nx np nw).vec = 0 := by funext r; rcases r with r | r | r <;> rfl
  have hinj := canonical_injective h hE hR (fun u hu => by
    rw [solvesMaster_iff M hs, hz] at hu
    have := hM _ hu
    ext i
    · exact congrFun this (.inl i)
    · exact congrFun this (.inr (.inl i))
    · exact congrFun this (.inr (.inr i)))
  refine linearSolver_solves_partial h hE hR a hc m _ u0 ?_ (fun e => absurd e hm)
  cases m with
  | fullspace => exact luInner_exact e1 (F n1) rank0 _ _ ((fullspace_injective c.mat).2 hinj)
  | nullspace => exact luInner_exact e2 (F n2) rank0 _ _ ((nullspace_injective c.mat).2 hinj)
  | rangespace => exact absurd rfl hm

/-- With as many basic variables as constraints, the rows are spanned and every right-hand side is consistent. -/
theorem full_row_rank {M : MasterMatrix K nx np nw} (hE : EchelonOK M) (hn : M.RWQ.nb = nw) : RowsSpanned M ∧ ∀ a, Consistent M a := by
  have key : ∀ (f : Fin nw → K) l, f l = ∑ b, M.Wx l (M.RWQ.jb b) * ∑ r, M.RWQ.Rb b r * f r := by
    have hb := hE.b
    have : M.Wx.submatrix id M.RWQ.jb * M.RWQ.Rb = 1 := by
      have e : Fin M.RWQ.nb ≃ Fin nw := finCongr hn
      exact (Matrix.mul_eq_one_comm_of_equiv e).1 hb
    intro f l
    have h1 : (M.Wx.submatrix id M.RWQ.jb * M.RWQ.Rb) *ᵥ f = f := by rw [this, one_mulVec]
    rw [← mulVec_mulVec] at h1
    have := congrFun h1 l
    simpa [mulVec, dotProduct] using this.symm
  refine ⟨⟨fun l j => key (fun l => M.Wx l j) l, fun l q => key (fun l => M.Wp l q) l⟩, fun a => ?_⟩
  refine ⟨fun j => ∑ b, if j = M.RWQ.jb b then ∑ r, M.RWQ.Rb b r * a.w r else 0, 0, fun l => ?_⟩
  rw [key a.w l]
  simp only [Pi.zero_apply, mul_zero, Finset.sum_const_zero, add_zero]
  conv_rhs => rw [Finset.sum_congr rfl fun j _ => Finset.mul_sum _ _ _, Finset.sum_comm]
  refine Finset.sum_congr rfl fun b _ => ?_
  simp only [mul_ite, mul_zero, Finset.sum_ite_eq', Finset.sum_ite_eq, Finset.mem_univ, if_true]

/-- `minimise x² - x subject to x = 1` -/
def exRangeM : MasterMatrix ℚ 1 0 1 where
  Hxx := fun _ _ => 2
  Hxp := fun _ _ => 0
  isHxxDiag := true
  Vpx := fun _ _ => 0
  Vpp := fun _ _ => 0
  Wx := fun _ _ => 1
  Wp := fun _ _ => 0
  RWQ := { nb := 1, nn := 0, Rb := fun _ _ => 1, Sbn := fun _ _ => 0, Sbp := fun _ _ => 0, jb := fun _ => 0, jn := isEmptyElim }
  js := [0]
  ju := []

/-- **C25, negation** for the range-space method: with one variable, `Hxx = 2` and the constraint `x = b`, for every result of the canonicalizer, every inner solver that solves the
    reduced system and the right-hand side `a = (1, 1)` the result does not solve the master system (which is non-singular). -/
theorem linearSolver_rangespace_wrong : EchelonOK exRangeM ∧ RowsSpanned exRangeM ∧ (∀ i j, i ≠ j → exRangeM.Hxx i j = 0) ∧
    (∃ u, SolvesMaster exRangeM ⟨fun _ => 1, fun _ => 0, fun _ => 1⟩ u) ∧ (∀ u, SolvesMaster exRangeM ⟨0, 0, 0⟩ u → u = ⟨0, 0, 0⟩) ∧
    (∀ Pb Pn, ∃ c, canonicalize exRangeM Pb Pn = .ok c ∧ CanonSpec exRangeM c) ∧
    ∀ c, CanonSpec exRangeM c → ∀ (I : Inners ℚ 0 c.nbe c.nbi c.nne c.nni) (u0 : MVec ℚ 1 0 1), InnerOK .rangespace c I ⟨fun _ => 1, fun _ => 0, fun _ => 1⟩ →
      ¬ SolvesMaster exRangeM ⟨fun _ => 1, fun _ => 0, fun _ => 1⟩ (linSolve .rangespace I c.mat ⟨fun _ => 1, fun _ => 0, fun _ => 1⟩ u0) := by
  refine ⟨⟨?_, ?_, ?_⟩, ⟨?_, ?_⟩, ?_, ?_, ?_, ?_, ?_⟩
  · ext i j
    change Fin 1 at i j
    rw [Subsingleton.elim i 0, Subsingleton.elim j 0]
    change ∑ l : Fin 1, (1 : ℚ) * 1 = 1
    simp
  · ext i j; exact Fin.elim0 j
  · ext i j; exact isEmptyElim j
  · intro l j
    change (1 : ℚ) = ∑ b : Fin 1, 1 * ∑ r : Fin 1, 1 * 1
    simp
  · intro l q; exact isEmptyElim q
  · intro i j h; exact absurd (Subsingleton.elim i j) h
  · refine ⟨⟨fun _ => 1, fun _ => 0, fun _ => -1⟩, ?_, ?_, ?_, ?_⟩
    · intro i _; simp [exRangeM]; norm_num
    · intro i hi; simp [exRangeM] at hi
    · intro q; exact isEmptyElim q
    · intro l; simp [exRangeM]
  · intro u hu
    have h1 := hu.stable 0 (by simp [exRangeM])
    have h2 := hu.constr 0
    simp [exRangeM] at h1 h2
    ext i
    · rw [Subsingleton.elim i 0]; exact h2
    · exact isEmptyElim i
    · rw [Subsingleton.elim i 0]; rw [h2] at h1; simpa using h1
  · intro Pb Pn
    refine canonicalize_spec exRangeM Pb Pn ⟨?_, ?_⟩ (by simp [exRangeM]) (by simp [exRangeM])
    · unfold Function.Injective; decide
    · unfold Function.Surjective; decide
  · intro c h I u0 hin hs
    obtain ⟨σ, τ, hσ, hτ, jb, jn, S, Sp, R⟩ := h.ech
    have hbi : IsEmpty (Fin c.nbi) := ⟨fun k => h.bi k ⟨by show (1:ℚ) ≤ |2|; norm_num, fun q => isEmptyElim q⟩⟩
    have hn : IsEmpty ((Fin c.nne ⊕ Fin c.nni) ⊕ Fin c.nnu) := ⟨fun k => (show Fin 0 from τ k).elim0⟩
    have hne : IsEmpty (Fin c.nne) := ⟨fun k => hn.elim (.inl (.inl k))⟩
    have hni : IsEmpty (Fin c.nni) := ⟨fun k => hn.elim (.inl (.inr k))⟩
    obtain ⟨b, hb⟩ := hσ.2 (0 : Fin 1)
    obtain ⟨i, rfl⟩ : ∃ i, b = .inl i := by
      rcases b with i | i
      · exact ⟨i, rfl⟩
      · exact isEmptyElim i
    have huniq : ∀ j : Fin c.nbe, j = i := fun j => Sum.inl_injective (hσ.1 ((Subsingleton.elim (α := Fin 1) _ _ : (show Fin 1 from σ (.inl j)) = σ (.inl i))))
    have : Unique (Fin c.nbe) := ⟨⟨i⟩, huniq⟩
    have hH : ∀ j, c.mat.hbe j = 2 := fun j => h.Hss _ _
    have hRb : ∀ b l, c.mat.Rbs b l = 1 := fun b l => R b l
    -- the reduced system
    have hin' : (rangeDecompose c.mat).2 *ᵥ I.range (rangeDecompose c.mat).2 (rangeRhs c.mat (rangeDecompose c.mat).1 (canonRhs c ⟨fun _ => 1, fun _ => 0, fun _ => 1⟩)) =
      rangeRhs c.mat (rangeDecompose c.mat).1 (canonRhs c ⟨fun _ => 1, fun _ => 0, fun _ => 1⟩) := hin
    have hw : (linSolve .rangespace I c.mat ⟨fun _ => 1, fun _ => 0, fun _ => 1⟩ u0).w 0 =
        I.range (rangeDecompose c.mat).2 (rangeRhs c.mat (rangeDecompose c.mat).1 (canonRhs c ⟨fun _ => 1, fun _ => 0, fun _ => 1⟩)) (.inr (.inr (.inl i))) := by
      show ∑ b, c.mat.Rbs b 0 * (rangeSolve I.range c.mat (canonRhs c ⟨fun _ => 1, fun _ => 0, fun _ => 1⟩)).wbs b = _
      rw [Fintype.sum_sum_type, Fintype.sum_unique, hRb]
      simp [rangeSolve, rangeRecover, huniq default]
    generalize I.range (rangeDecompose c.mat).2 (rangeRhs c.mat (rangeDecompose c.mat).1 (canonRhs c ⟨fun _ => 1, fun _ => 0, fun _ => 1⟩)) = r at hin' hw
    have h3 := congrFun ((range_blocks c.mat r _).1 hin').2.2.1 i
    have hrhs : rangeRhs c.mat (rangeDecompose c.mat).1 (canonRhs c ⟨fun _ => 1, fun _ => 0, fun _ => 1⟩) (.inr (.inr (.inl i))) = 1 / 2 := by
      simp [rangeRhs, canonRhs, hH, mulVec, dotProduct, hRb]; norm_num
    rw [hrhs] at h3
    simp [mulVec_diagonal, mulVec, dotProduct, hH, diagonal_apply, Matrix.mul_apply] at h3
    have h1 := hs.stable 0 (by simp [exRangeM])
    have h2 := hs.constr 0
    simp [exRangeM] at h1 h2
    rw [hw] at h1
    linarith

/-- Non-vacuity: the hypotheses of `linearSolver_lu_partial` hold for `exMaster` (three variables, one unstable, one parameter, one constraint) and every right-hand side. -/
example (Pb Pn) (a : MVec ℚ 3 1 1) : (∃ c, canonicalize exMaster Pb Pn = .ok c ∧ CanonSpec exMaster c) ∧ ValidSplit exMaster.js exMaster.ju ∧ EchelonOK exMaster ∧ RowsSpanned exMaster ∧
    Consistent exMaster a ∧ (∀ v, exMaster.dense *ᵥ v = 0 → v = 0) ∧ ∀ n, Nonempty ((A : Matrix (Fin n) (Fin n) ℚ) → LU.FullLU A) := by
  have hE : EchelonOK exMaster := by
    refine ⟨?_, ?_, ?_⟩ <;> ext i j
    · change Fin 1 at i j
      rw [Subsingleton.elim i 0, Subsingleton.elim j 0]
      change ∑ l : Fin 1, (1 : ℚ) * 1 = 1
      simp
    · change Fin 2 at j
      change ∑ l : Fin 1, (1 : ℚ) * (![1, 2, 1] : Fin 3 → ℚ) ((![1, 2] : Fin 2 → Fin 3) j) = (![2, 1] : Fin 2 → ℚ) j
      revert j; decide +kernel
    · change ∑ l : Fin 1, (1 : ℚ) * 1 = 1
      simp
  have hv : ValidSplit exMaster.js exMaster.ju := by unfold ValidSplit; decide
  obtain ⟨hR, hC⟩ := full_row_rank hE rfl
  refine ⟨canonicalize_spec exMaster Pb Pn ⟨?_, ?_⟩ (by decide) (by decide), hv, hE, hR, hC a, ?_, fun n => ⟨fun A => (LU.exists_fullLU n A).some⟩⟩
  · unfold Function.Injective; decide
  · unfold Function.Surjective; decide
  · intro v h
    have hvec : (⟨fun i => v (.inl i), fun i => v (.inr (.inl i)), fun i => v (.inr (.inr i))⟩ : MVec ℚ 3 1 1).vec = v := by
      funext r; rcases r with r | r | r <;> rfl
    have hz : (⟨0, 0, 0⟩ : MVec ℚ 3 1 1).vec = 0 := by funext r; rcases r with r | r | r <;> rfl
    have hs := (solvesMaster_iff exMaster hv ⟨0, 0, 0⟩ ⟨fun i => v (.inl i), fun i => v (.inr (.inl i)), fun i => v (.inr (.inr i))⟩).2 (by rw [hvec, h, hz])
    have h0 := hs.stable 0 (by decide)
    have h1 := hs.stable 1 (by decide)
    have h2 := hs.unstable 2 (by decide)
    have h3 := hs.par 0
    have h4 := hs.constr 0
    simp [exMaster, Fin.sum_univ_three] at h0 h1 h2 h3 h4
    have hx0 : v (.inl 0) = 0 := by linarith
    have hx1 : v (.inl 1) = 0 := by linarith
    have hp : v (.inr (.inl 0)) = 0 := by linarith
    have hw : v (.inr (.inr 0)) = 0 := by linarith
    funext r
    rcases r with r | r | r
    · fin_cases r
      · exact hx0
      · exact hx1
      · exact h2
    · rw [Subsingleton.elim r 0]; exact hp
    · rw [Subsingleton.elim r 0]; exact hw

end Optima
