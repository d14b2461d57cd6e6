import Verif.Props.EquivalentBounded
import Verif.Props.EquivalentBounds

/-!
# C76: the iterates do not depend on the units and coordinates in which a problem is given

Newton's method is covariant under affine changes of the variables and under scaling of the objective function and of the conditions.  The iterations of the solver inherit this without bounds; when they are stopped does depend on the units.
With bounds the iterates depend on them too, through the choice of the basic variables.
-/

set_option linter.unusedSectionVars false

namespace Optima

open Matrix

variable {K : Type*} [Field K] [LinearOrder K] [IsStrictOrderedRing K] {nx np ny nz ny' nz' : ℕ} {τ τ' : Type*}

/-- New coordinates: `x = T x' + t` and `p = S p' + s`. -/
structure Chart (K : Type*) [Field K] (nx np : ℕ) where
  T : Matrix (Fin nx) (Fin nx) K
  t : Fin nx → K
  S : Matrix (Fin np) (Fin np) K
  s : Fin np → K
  T' : Matrix (Fin nx) (Fin nx) K
  S' : Matrix (Fin np) (Fin np) K
  T_inv : T' * T = 1
  S_inv : S' * S = 1

def Chart.x (φ : Chart K nx np) (x : Fin nx → K) : Fin nx → K := φ.T *ᵥ x + φ.t
def Chart.p (φ : Chart K nx np) (p : Fin np → K) : Fin np → K := φ.S *ᵥ p + φ.s

/-- The second problem is the first in new coordinates, with the objective function multiplied by `c`, and with the conditions `v = 0` and the constraints replaced by equivalent linear combinations. -/
structure Smooth.Recast (F : Smooth K nx np nz) (pb : MProblem K nx np ny nz) (F' : Smooth K nx np nz') (pb' : MProblem K nx np ny' nz') (φ : Chart K nx np) (c : K) (V V' : Matrix (Fin np) (Fin np) K)
    (C : Matrix (Fin (ny' + nz')) (Fin (ny + nz)) K) (D : Matrix (Fin (ny + nz)) (Fin (ny' + nz')) K) : Prop where
  hc : c ≠ 0
  hV : V' * V = 1
  hC : D * C = 1
  g : ∀ x p, F'.g x p = c • (φ.Tᵀ *ᵥ F.g (φ.x x) (φ.p p))
  H : ∀ x p, F'.H x p = c • (φ.Tᵀ * F.H (φ.x x) (φ.p p) * φ.T)
  Hp : ∀ x p, F'.Hp x p = c • (φ.Tᵀ * F.Hp (φ.x x) (φ.p p) * φ.S)
  v : ∀ x p, F'.v x p = V *ᵥ F.v (φ.x x) (φ.p p)
  vx : ∀ x p, F'.vx x p = V * F.vx (φ.x x) (φ.p p) * φ.T
  vp : ∀ x p, F'.vp x p = V * F.vp (φ.x x) (φ.p p) * φ.S
  Wx : stack pb'.Ax F'.hx = C * stack pb.Ax F.hx * φ.T
  Wp : stack pb'.Ap F'.hp = C * stack pb.Ap F.hp * φ.S
  b : F'.rhs pb' = C *ᵥ (F.rhs pb - stack pb.Ax F.hx *ᵥ φ.t - stack pb.Ap F.hp *ᵥ φ.s)

section algebra
variable {F : Smooth K nx np nz} {pb : MProblem K nx np ny nz} {F' : Smooth K nx np nz'} {pb' : MProblem K nx np ny' nz'} {φ : Chart K nx np} {c : K} {V V' : Matrix (Fin np) (Fin np) K}
  {C : Matrix (Fin (ny' + nz')) (Fin (ny + nz)) K} {D : Matrix (Fin (ny + nz)) (Fin (ny' + nz')) K}

/-- A left inverse cancels. -/
theorem mulVec_cancel {m n : ℕ} {A : Matrix (Fin n) (Fin m) K} {B : Matrix (Fin m) (Fin n) K} (h : B * A = 1) {a b : Fin m → K} (e : A *ᵥ a = A *ᵥ b) : a = b := by
  have := congrArg (B *ᵥ ·) e
  simpa only [mulVec_mulVec, h, one_mulVec] using this

theorem Chart.T_transpose (φ : Chart K nx np) : φ.T'ᵀ * φ.Tᵀ = 1 := by
  rw [← transpose_mul, mul_eq_one_comm.1 φ.T_inv, transpose_one]

theorem Chart.x_sub (φ : Chart K nx np) (a b : Fin nx → K) : φ.x a - φ.x b = φ.T *ᵥ (a - b) := by
  unfold Chart.x
  rw [mulVec_sub]
  abel

theorem Chart.p_sub (φ : Chart K nx np) (a b : Fin np → K) : φ.p a - φ.p b = φ.S *ᵥ (a - b) := by
  unfold Chart.p
  rw [mulVec_sub]
  abel

theorem Smooth.nonsingular_iff (F : Smooth K nx np nz) (pb : MProblem K nx np ny nz) (x p) : F.Nonsingular pb x p ↔ ∀ dx dp w, F.H x p *ᵥ dx + F.Hp x p *ᵥ dp + (stack pb.Ax F.hx)ᵀ *ᵥ w = 0 →
    F.vx x p *ᵥ dx + F.vp x p *ᵥ dp = 0 → stack pb.Ax F.hx *ᵥ dx + stack pb.Ap F.hp *ᵥ dp = 0 → dx = 0 ∧ dp = 0 := by
  exact ⟨fun h dx dp w h1 h2 h3 => h dx dp w (congrFun h1) (congrFun h2) (congrFun h3), fun h dx dp w h1 h2 h3 => h dx dp w (funext h1) (funext h2) (funext h3)⟩

theorem Smooth.newtonPoint_iff (F : Smooth K nx np nz) (pb : MProblem K nx np ny nz) (x p x1 p1 w1) : F.NewtonPoint pb x p x1 p1 w1 ↔ F.H x p *ᵥ (x1 - x) + F.Hp x p *ᵥ (p1 - p) + F.g x p + (stack pb.Ax F.hx)ᵀ *ᵥ w1 = 0 ∧
    F.vx x p *ᵥ (x1 - x) + F.vp x p *ᵥ (p1 - p) + F.v x p = 0 ∧ stack pb.Ax F.hx *ᵥ x1 + stack pb.Ap F.hp *ᵥ p1 = F.rhs pb :=
  ⟨fun h => ⟨funext h.grad, funext h.par, funext h.con⟩, fun h => ⟨congrFun h.1, congrFun h.2.1, congrFun h.2.2⟩⟩

/-- Regularity does not depend on the coordinates. -/
theorem Smooth.Recast.nonsingular (h : F.Recast pb F' pb' φ c V V' C D) {x p} (hn : F.Nonsingular pb (φ.x x) (φ.p p)) : F'.Nonsingular pb' x p := by
  rw [Smooth.nonsingular_iff] at hn ⊢
  intro dx dp w h1 h2 h3
  rw [h.H, h.Hp, h.Wx] at h1
  rw [h.vx, h.vp] at h2
  rw [h.Wx, h.Wp] at h3
  obtain ⟨e1, e2⟩ := hn (φ.T *ᵥ dx) (φ.S *ᵥ dp) (c⁻¹ • (Cᵀ *ᵥ w)) (mulVec_cancel φ.T_transpose (by
    have := congrArg (c⁻¹ • ·) h1
    simpa only [smul_add, smul_mulVec, transpose_mul, mul_assoc, ← mulVec_mulVec, smul_smul, inv_mul_cancel₀ h.hc, one_smul, mulVec_add, mulVec_smul, mulVec_zero, smul_zero] using this))
    (mulVec_cancel h.hV (by simpa only [mul_assoc, ← mulVec_mulVec, mulVec_add, mulVec_zero] using h2)) (mulVec_cancel h.hC (by simpa only [mul_assoc, ← mulVec_mulVec, mulVec_add, mulVec_zero] using h3))
  exact ⟨mulVec_cancel φ.T_inv (by rw [e1, mulVec_zero]), mulVec_cancel φ.S_inv (by rw [e2, mulVec_zero])⟩

/-- A solution of Newton's equations in the new coordinates is one in the old. -/
theorem Smooth.Recast.newton (h : F.Recast pb F' pb' φ c V V' C D) {x p x1 p1 w1} (hn : F'.NewtonPoint pb' x p x1 p1 w1) : F.NewtonPoint pb (φ.x x) (φ.p p) (φ.x x1) (φ.p p1) (c⁻¹ • (Cᵀ *ᵥ w1)) := by
  rw [Smooth.newtonPoint_iff] at hn ⊢
  obtain ⟨h1, h2, h3⟩ := hn
  rw [h.H, h.Hp, h.g, h.Wx] at h1
  rw [h.vx, h.vp, h.v] at h2
  rw [h.Wx, h.Wp, h.b] at h3
  rw [φ.x_sub, φ.p_sub]
  refine ⟨mulVec_cancel φ.T_transpose ?_, mulVec_cancel h.hV ?_, mulVec_cancel h.hC ?_⟩
  · have := congrArg (c⁻¹ • ·) h1
    simpa only [smul_add, smul_mulVec, transpose_mul, mul_assoc, ← mulVec_mulVec, smul_smul, inv_mul_cancel₀ h.hc, one_smul, mulVec_add, mulVec_smul, mulVec_zero, smul_zero] using this
  · simpa only [mul_assoc, ← mulVec_mulVec, mulVec_add, mulVec_zero] using h2
  · simp only [mul_assoc, ← mulVec_mulVec, mulVec_sub] at h3
    simp only [Chart.x, Chart.p, mulVec_add]
    linear_combination (exp := 1) h3

/-- Newton's equations determine the point. -/
theorem Smooth.NewtonPoint.unique {x p x1 p1 w1 x2 p2 w2} (hn : F.Nonsingular pb x p) (h1 : F.NewtonPoint pb x p x1 p1 w1) (h2 : F.NewtonPoint pb x p x2 p2 w2) : x1 = x2 ∧ p1 = p2 := by
  rw [Smooth.nonsingular_iff] at hn
  rw [Smooth.newtonPoint_iff] at h1 h2
  obtain ⟨e1, e2⟩ := hn (x1 - x2) (p1 - p2) (w1 - w2)
    (by have := congrArg₂ (· - ·) h1.1 h2.1; simp only [mulVec_sub] at this ⊢; linear_combination (exp := 1) this)
    (by have := congrArg₂ (· - ·) h1.2.1 h2.2.1; simp only [mulVec_sub] at this ⊢; linear_combination (exp := 1) this)
    (by have := congrArg₂ (· - ·) h1.2.2 h2.2.2; simp only [mulVec_sub] at this ⊢; linear_combination (exp := 1) this)
  exact ⟨sub_eq_zero.1 e1, sub_eq_zero.1 e2⟩

end algebra

/-- The points visited by a solve, the start first, follow Newton's equations wherever they are regular. -/
structure Smooth.Walk (F : Smooth K nx np nz) {σ : Type*} (pb : MProblem K nx np ny nz) (s : SolveState σ K nx np (ny + nz)) : Prop where
  length : s.trace.length = s.iterations + 1
  last : s.trace.reverse[s.iterations]? = some s.u
  next : ∀ k a b, s.trace.reverse[k]? = some a → s.trace.reverse[k + 1]? = some b → F.Nonsingular pb a.x a.p → F.NewtonPoint pb a.x a.p b.x b.p b.w

section one
variable {F : Smooth K nx np nz} {cfg : Config K nx np ny nz τ}

theorem FreeSolve.walk_step (X : FreeSolve F cfg) {o : SolveOptions K} {s s1} (h1 : Reach cfg s.mach) (h2 : EvaluatedAt cfg s.mach s.u) (h3 : s.uo = s.u) (hw : F.Walk cfg.pb s) (hs : Optima.step (cfg.machine none) o cfg.pb.bounds s = some s1) :
    Reach cfg s1.mach ∧ EvaluatedAt cfg s1.mach s1.u ∧ F.Walk cfg.pb s1 := by
  obtain ⟨s0, a0, a1, a2, a3, a4, a5⟩ := X.step o h1 h2 h3
  cases hs.symm.trans a0
  have hl : s.trace.reverse.length = s.iterations + 1 := by rw [List.length_reverse, hw.length]
  refine ⟨a1, a2, by rw [a4, a3, List.length_cons, hw.length], ?_, fun k a b ha hb => ?_⟩
  · rw [a4, List.reverse_cons, a3, List.getElem?_append_right hl.le, hl, Nat.sub_self]
    rfl
  · rw [a4, List.reverse_cons] at ha hb
    rcases lt_or_ge (k + 1) (s.iterations + 1) with hk | hk
    · rw [List.getElem?_append_left (by omega)] at ha hb
      exact hw.next k a b ha hb
    · rw [List.getElem?_append_right (by omega)] at hb
      obtain ⟨hb1, hb2⟩ := List.getElem?_eq_some_iff.1 hb
      obtain rfl : k = s.iterations := by simp only [List.length_singleton] at hb1; omega
      rw [List.getElem?_append_left (by omega), hw.last] at ha
      cases ha
      rw [List.getElem_singleton] at hb2
      rw [← hb2]
      exact a5

theorem walk_stepping {o : SolveOptions K} {s s1 : SolveState (Parts K nx np ny nz τ cfg.pb.Ax) K nx np (ny + nz)} {b} (hw : F.Walk cfg.pb s) (hs : stepping (cfg.machine none) o s = some (s1, b)) : F.Walk cfg.pb s1 := by
  obtain ⟨b1, b2, -, b4, b5, b6, b7⟩ := stepping_spec hs
  exact ⟨by rw [b5, b2]; exact hw.length, by rw [b5, b2, b1]; exact hw.last, by rw [b5]; exact hw.next⟩

theorem FreeSolve.walk_loop (X : FreeSolve F cfg) {o : SolveOptions K} {s r} (hl : Loop (cfg.machine none) o cfg.pb.bounds s r) : ∀ t, r = some t → Reach cfg s.mach → EvaluatedAt cfg s.mach s.u → s.uo = s.u → F.Walk cfg.pb s → F.Walk cfg.pb t := by
  induction hl with
  | stepFails s h => intro t e; cases e
  | checkFails s s1 h h' => intro t e; cases e
  | stop s s1 s2 h h' =>
    rintro t ⟨⟩ h1 h2 h3 hw
    exact walk_stepping (X.walk_step h1 h2 h3 hw h).2.2 h'
  | again s s1 s2 r h h' _ ih =>
    intro t e h1 h2 h3 hw
    obtain ⟨c1, c2, c3⟩ := X.walk_step h1 h2 h3 hw h
    obtain ⟨b1, b2, -, b4, b5, b6, b7⟩ := stepping_spec h'
    have hle : s1.iterations ≤ o.maxiters := by
      by_contra hn
      have := (b6 (by omega)).1
      cases this
    exact ih t e (by rw [machine_stepping h']; exact c1) (by rw [machine_stepping h', b1]; exact c2) ((b7 hle).1.trans b1.symm) (walk_stepping c3 h')

theorem FreeSolve.walk (X : FreeSolve F cfg) {o : SolveOptions K} {user mem errors ax du} {history : History K} {u : MVec K nx np (ny + nz)} {t}
    (ht : Solve (cfg.machine none) o cfg.pb.bounds (cfg.start user mem errors ax du) history u (some t)) : F.Walk cfg.pb t ∧ t.trace.reverse[0]? = some u := by
  have hinv := machine_inv X.thr X.eps.ge X.nx_pos (cfg := cfg) none
  cases ht with
  | run s r es hl =>
    obtain ⟨su, suo, sit, -, str⟩ := solveInit_spec es
    obtain ⟨q0, p0⟩ := evalAt_inv hinv (s := { mach := cfg.start user mem errors ax du, u := clampVec cfg.pb.bounds u, uo := clampVec cfg.pb.bounds u, iterations := 0, history := history.init, trace := [] })
      (start_reach cfg user mem errors ax du) es
    rw [clampVec_of_inBounds (X.unbounded.inBounds u)] at su suo str
    refine ⟨X.walk_loop hl t rfl q0 p0 (suo.trans su.symm) ⟨by rw [str, sit]; rfl, by rw [str, sit, su]; rfl, fun k a b _ hb => ?_⟩, ?_⟩
    · rw [str] at hb
      simp at hb
    · obtain ⟨l, hl⟩ := X.trace hl t rfl q0 p0 (suo.trans su.symm)
      rw [← hl, str, List.reverse_append]
      rfl

end one

section two
variable {F : Smooth K nx np nz} {cfg : Config K nx np ny nz τ} {F' : Smooth K nx np nz'} {cfg' : Config K nx np ny' nz' τ'} {φ : Chart K nx np} {c : K} {V V' : Matrix (Fin np) (Fin np) K}
  {C : Matrix (Fin (ny' + nz')) (Fin (ny + nz)) K} {D : Matrix (Fin (ny + nz)) (Fin (ny' + nz')) K}

/-- **C76 (no bounds, independent constraints, exact arithmetic)**: a problem given in other units or coordinates (any invertible affine change of `x` and of `p`), with the objective function multiplied by a constant and the conditions and constraints replaced by
    equivalent linear combinations, is solved by the same iterates in these coordinates: the `k`-th points of the two solves correspond, as long as both run, whatever the options, the linear solvers, the initial multipliers and the memory left by earlier solves. -/
theorem units_partial (X : FreeSolve F cfg) (X' : FreeSolve F' cfg') (h : F.Recast cfg.pb F' cfg'.pb φ c V V' C D) {o o' : SolveOptions K} {user mem errors ax du} {history : History K} {u : MVec K nx np (ny + nz)} {user' mem' errors' ax' du'}
    {history' : History K} {u' : MVec K nx np (ny' + nz')} (hx : u.x = φ.x u'.x) (hp : u.p = φ.p u'.p) {t t'} (ht : Solve (cfg.machine none) o cfg.pb.bounds (cfg.start user mem errors ax du) history u (some t))
    (ht' : Solve (cfg'.machine none) o' cfg'.pb.bounds (cfg'.start user' mem' errors' ax' du') history' u' (some t')) (hns : ∀ v ∈ t.trace, F.Nonsingular cfg.pb v.x v.p) :
    (∀ (k : ℕ) v v', t.trace.reverse[k]? = some v → t'.trace.reverse[k]? = some v' → v.x = φ.x v'.x ∧ v.p = φ.p v'.p) ∧ (t.iterations = t'.iterations → t.u.x = φ.x t'.u.x ∧ t.u.p = φ.p t'.u.p) ∧
    t.trace.length = t.iterations + 1 ∧ t'.trace.length = t'.iterations + 1 := by
  obtain ⟨w, w0⟩ := X.walk ht
  obtain ⟨w', w0'⟩ := X'.walk ht'
  have key : ∀ (k : ℕ) v v', t.trace.reverse[k]? = some v → t'.trace.reverse[k]? = some v' → v.x = φ.x v'.x ∧ v.p = φ.p v'.p := by
    intro k
    induction k with
    | zero =>
      intro v v' hv hv'
      cases w0.symm.trans hv
      cases w0'.symm.trans hv'
      exact ⟨hx, hp⟩
    | succ k ih =>
      intro v v' hv hv'
      obtain ⟨l1, -⟩ := List.getElem?_eq_some_iff.1 hv
      obtain ⟨l1', -⟩ := List.getElem?_eq_some_iff.1 hv'
      have e := List.getElem?_eq_getElem (l := t.trace.reverse) (show k < _ by omega)
      have e' := List.getElem?_eq_getElem (l := t'.trace.reverse) (show k < _ by omega)
      obtain ⟨ix, ip⟩ := ih _ _ e e'
      have hn := hns _ (List.mem_reverse.1 (List.mem_of_getElem? e))
      have n1 := w.next k _ _ e hv hn
      rw [ix, ip] at hn n1
      exact n1.unique hn (h.newton (w'.next k _ _ e' hv' (h.nonsingular hn)))
  exact ⟨key, fun e => key t.iterations _ _ w.last (e ▸ w'.last), w.length, w'.length⟩

end two

/-! ### When the iterations stop depends on the units -/

/-- The functions of `min c·(a x + d)⁴/4` without constraints. -/
def quartic (c a d : ℝ) : Smooth ℝ 1 0 0 where
  g := fun x _ _ => c * a * (a * x 0 + d) ^ 3
  H := fun x _ _ _ => c * a ^ 2 * (3 * (a * x 0 + d) ^ 2)
  Hp := 0
  hx := 0
  hp := 0
  h0 := 0
  v := 0
  vx := 0
  vp := 0

theorem quartic_nonsingular {pb : MProblem ℝ 1 0 0 0} (hpb : pb = freeLine) {c a d : ℝ} (hc : c ≠ 0) (ha : a ≠ 0) {x : Fin 1 → ℝ} (hx : a * x 0 + d ≠ 0) (p) : (quartic c a d).Nonsingular pb x p := by
  subst hpb
  intro dx dp w h1 _ _
  refine ⟨funext fun i => ?_, funext fun q => q.elim0⟩
  have := h1 0
  simp [quartic, hc, ha, hx] at this
  rw [Subsingleton.elim i 0]
  exact this

theorem quartic_newton {pb : MProblem ℝ 1 0 0 0} (hpb : pb = freeLine) {c a d : ℝ} (hc : c ≠ 0) (ha : a ≠ 0) {x x1 : Fin 1 → ℝ} (hx : a * x 0 + d ≠ 0) {p p1 w1} (h : (quartic c a d).NewtonPoint pb x p x1 p1 w1) :
    a * x1 0 + d = 2 / 3 * (a * x 0 + d) := by
  subst hpb
  have := h.grad 0
  simp [quartic] at this
  have e : c * a * (a * x 0 + d) ^ 2 * (3 * (a * x1 0 + d) - 2 * (a * x 0 + d)) = 0 := by linear_combination this
  have : 3 * (a * x1 0 + d) - 2 * (a * x 0 + d) = 0 := by simpa [hc, ha, hx] using e
  linear_combination this / 3

section
variable {cfg : Config ℝ 1 0 0 0 τ} {c a d : ℝ}

theorem quartic_error (X : FreeSolve (quartic c a d) cfg) {s u} (hs : EvaluatedAt cfg s u) : s.errors.error = |c * a * (a * u.x 0 + d) ^ 3| := by
  refine le_antisymm (X.error_le hs (abs_nonneg _) (fun i => ?_) (fun q => q.elim0) fun l => (l : Fin 0).elim0) ?_
  · simp [quartic]
  · have := Smooth.free_error_ge X.unbounded X.user hs 0
    rw [FreeSolve.mult_eq] at this
    simpa [quartic] using this

/-- The iterates. -/
theorem quartic_walk (X : FreeSolve (quartic c a d) cfg) (hpb : cfg.pb = freeLine) (hc : c ≠ 0) (ha : a ≠ 0) {o : SolveOptions ℝ} {user mem errors ax du} {history : History ℝ} {u : MVec ℝ 1 0 (0 + 0)} (hx : a * u.x 0 + d ≠ 0) {t}
    (ht : Solve (cfg.machine none) o cfg.pb.bounds (cfg.start user mem errors ax du) history u (some t)) : (∀ (k : ℕ) v, t.trace.reverse[k]? = some v → a * v.x 0 + d = (2 / 3) ^ k * (a * u.x 0 + d)) ∧ a * t.u.x 0 + d = (2 / 3) ^ t.iterations * (a * u.x 0 + d) := by
  obtain ⟨w, w0⟩ := X.walk ht
  have key : ∀ (k : ℕ) v, t.trace.reverse[k]? = some v → a * v.x 0 + d = (2 / 3) ^ k * (a * u.x 0 + d) := by
    intro k
    induction k with
    | zero => intro v hv; cases w0.symm.trans hv; simp
    | succ k ih =>
      intro v hv
      obtain ⟨l1, -⟩ := List.getElem?_eq_some_iff.1 hv
      have e := List.getElem?_eq_getElem (l := t.trace.reverse) (show k < _ by omega)
      have ih := ih _ e
      have hz : a * (t.trace.reverse[k]'(by omega)).x 0 + d ≠ 0 := by rw [ih]; exact mul_ne_zero (by positivity) hx
      have n := w.next k _ _ e hv (quartic_nonsingular hpb hc ha hz _)
      rw [quartic_newton hpb hc ha hz n, ih]
      ring
  exact ⟨key, key _ _ w.last⟩

/-- **C76 is false for the end of the iterations**: for `min c·x⁴/4` from `x > 0`, every tolerance and every limit of iterations, the solve succeeds after one iteration, at `2x/3`, for small `c > 0`, and fails for large `c`. -/
theorem units_decide_success (X : FreeSolve (quartic c 1 0) cfg) (hpb : cfg.pb = freeLine) (hc : 0 < c) {o : SolveOptions ℝ} (hm : 1 ≤ o.maxiters) {user mem errors ax du} {history : History ℝ} {u : MVec ℝ 1 0 (0 + 0)} (hx : 0 < u.x 0) {t}
    (ht : Solve (cfg.machine none) o cfg.pb.bounds (cfg.start user mem errors ax du) history u (some t)) :
    (c * (2 / 3 * u.x 0) ^ 3 < o.tolerance → (solveResult o t).succeeded = true ∧ (solveResult o t).iterations = 1 ∧ t.u.x 0 = 2 / 3 * u.x 0) ∧
    (o.tolerance ≤ c * ((2 / 3) ^ o.maxiters * u.x 0) ^ 3 → (solveResult o t).succeeded = false ∧ (solveResult o t).iterations = o.maxiters + 1) := by
  have hinv := machine_inv X.thr X.eps.ge X.nx_pos (cfg := cfg) none
  have hxu : (1 : ℝ) * u.x 0 + 0 ≠ 0 := by simpa using hx.ne'
  obtain ⟨hk, hfin⟩ := quartic_walk X hpb hc.ne' one_ne_zero hxu ht
  simp only [one_mul, add_zero] at hk hfin
  obtain ⟨q, ev⟩ := solve_inv hinv o cfg.pb.bounds (start_reach cfg user mem errors ax du) history u t ht
  have he := quartic_error X ev
  simp only [one_mul, add_zero, mul_one] at he
  constructor
  · intro hlt
    have hit : t.iterations = 1 := by
      cases ht with
      | run s r es hl =>
        obtain ⟨su, suo, sit, -, str⟩ := solveInit_spec es
        obtain ⟨q0, p0⟩ := evalAt_inv hinv (s := { mach := cfg.start user mem errors ax du, u := clampVec cfg.pb.bounds u, uo := clampVec cfg.pb.bounds u, iterations := 0, history := history.init, trace := [] })
          (start_reach cfg user mem errors ax du) es
        rw [clampVec_of_inBounds (X.unbounded.inBounds u)] at su suo str
        obtain ⟨s1, a0, a1, a2, a3, a4, a5⟩ := X.step o q0 p0 (suo.trans su.symm)
        cases hl with
        | stop _ s1' _ h1 h2 =>
          cases h1.symm.trans a0
          rw [(stepping_spec h2).2.1, a3, sit]
        | again _ s1' s2 _ h1 h2 h3 =>
          cases h1.symm.trans a0
          exfalso
          obtain ⟨-, -, -, -, -, -, b7⟩ := stepping_spec h2
          have e1 := quartic_error X a2
          have n1 := a5 (by rw [su]; exact quartic_nonsingular hpb hc.ne' one_ne_zero hxu _)
          rw [su] at n1
          have e2 := quartic_newton hpb hc.ne' one_ne_zero hxu n1
          simp only [one_mul, add_zero, mul_one] at e1 e2
          rw [e2, abs_of_pos (by positivity)] at e1
          have := (b7 (by rw [a3, sit]; exact hm)).2.2 (Or.inl (by change s1.mach.errors.error < _; rw [e1]; exact hlt))
          cases this
    refine ⟨?_, hit, by rw [hfin, hit, pow_one]⟩
    change decide (t.iterations ≤ o.maxiters) = true
    rw [hit]
    exact decide_eq_true hm
  · intro hle
    have hs : (solveResult o t).succeeded = false := by
      by_contra hn
      have hn : (solveResult o t).succeeded = true := by simpa using hn
      have hi : t.iterations ≤ o.maxiters := of_decide_eq_true hn
      rcases success_converged _ _ _ _ _ _ t ht hn with h1 | ⟨t1, -, -, f, t2, hf, -⟩
      · have h1 : t.mach.errors.error < o.tolerance := h1
        rw [he, hfin, abs_of_pos (by positivity)] at h1
        have hp : ((2 : ℝ) / 3) ^ o.maxiters ≤ (2 / 3) ^ t.iterations := pow_le_pow_of_le_one (by norm_num) (by norm_num) hi
        have : c * ((2 / 3) ^ o.maxiters * u.x 0) ^ 3 ≤ c * ((2 / 3) ^ t.iterations * u.x 0) ^ 3 := by gcongr
        linarith
      · cases hf
    have hb := ((solve_budget (cfg.machine none) o cfg.pb.bounds (cfg.start user mem errors ax du) history u).2 t ht)
    refine ⟨hs, ?_⟩
    obtain ⟨_, n, _, _, -, -, -, -, e, hn, -, -⟩ := hb
    have hs : ¬ t.iterations ≤ o.maxiters := of_decide_eq_false hs
    change t.iterations = n + 1 at e
    change t.iterations = _
    omega

end

theorem quartic_solves (c a d : ℝ) : ∃ cfg : Config ℝ 1 0 0 0 Unit, cfg.pb = freeLine ∧ FreeSolve (quartic c a d) cfg ∧
    ∀ o u, ∃ t, Solve (cfg.machine none) o cfg.pb.bounds (cfg.start () 0 ⟨0, 0, 0, 0, 0, 0, 0, 0⟩ 0 ⟨0, 0, 0⟩) (History.init default) u (some t) := by
  obtain ⟨cfg, h1, h2, h3, h4, h5, h6, h7, h8, h9⟩ := exists_exact_config freeLine fun x _ =>
    { f := c * (a * x 0 + d) ^ 4 / 4, fx := fun _ => c * a * (a * x 0 + d) ^ 3, fxx := fun _ _ => c * a ^ 2 * (3 * (a * x 0 + d) ^ 2), fxp := 0, diagfxx := true, h := 0, hx := 0, hp := 0, v := 0, vx := 0, vp := 0, succeeded := true }
  have X : FreeSolve (quartic c a d) cfg := ⟨by rw [h1]; exact ⟨fun i => ⟨rfl, rfl⟩, fun q => q.elim0⟩, h2, h3, h4, h5, by norm_num, h6, h7, h8,
    fun t x p q => ⟨t, _, h9 t x p q, ⟨rfl, rfl, rfl, funext fun l => l.elim0, rfl, rfl, rfl, rfl, rfl⟩⟩, by
      rw [h1]
      intro y hy
      exact funext fun l : Fin 0 => l.elim0⟩
  exact ⟨cfg, h1, X, fun o u => solve_returns h2 h3.ge h4 (by norm_num) none (noPhi h6) (fun t x p q => ⟨_, h9 t x p q⟩) (fun f hf => by cases hf) o (inBounds_consistent (X.unbounded.inBounds u)) () 0 ⟨0, 0, 0, 0, 0, 0, 0, 0⟩ 0 ⟨0, 0, 0⟩ (History.init default) u⟩

/-- `x = 2 x' + 1`. -/
noncomputable def halved : Chart ℝ 1 0 where
  T := !![2]
  t := ![1]
  S := 1
  s := 0
  T' := !![1/2]
  S' := 1
  T_inv := by ext i j; fin_cases i; fin_cases j; norm_num [Matrix.mul_apply]
  S_inv := by simp

/-- `min x⁴/4` from 3 and, in the unit and with the origin of `x = 2 x' + 1` and the objective function in a unit three times smaller, `min 3(2x' + 1)⁴/4` from 1: the `k`-th points are `(2/3)ᵏ 3` and `((2/3)ᵏ 3 - 1)/2`. -/
example : ∃ cfg cfg' : Config ℝ 1 0 0 0 Unit, cfg.pb = freeLine ∧ cfg'.pb = freeLine ∧ ∀ o o' : SolveOptions ℝ, ∃ t t',
    Solve (cfg.machine none) o cfg.pb.bounds (cfg.start () 0 ⟨0, 0, 0, 0, 0, 0, 0, 0⟩ 0 ⟨0, 0, 0⟩) (History.init default) ⟨![3], 0, 0⟩ (some t) ∧
    Solve (cfg'.machine none) o' cfg'.pb.bounds (cfg'.start () 0 ⟨0, 0, 0, 0, 0, 0, 0, 0⟩ 0 ⟨0, 0, 0⟩) (History.init default) ⟨![1], 0, 0⟩ (some t') ∧
    (∀ (k : ℕ) v v', t.trace.reverse[k]? = some v → t'.trace.reverse[k]? = some v' → v.x 0 = 2 * v'.x 0 + 1) ∧ (t.iterations = t'.iterations → t.u.x 0 = 2 * t'.u.x 0 + 1) ∧ t.u.x 0 = (2 / 3) ^ t.iterations * 3 := by
  obtain ⟨cfg, h1, X, r⟩ := quartic_solves 1 1 0
  obtain ⟨cfg', h1', X', r'⟩ := quartic_solves 3 2 1
  refine ⟨cfg, cfg', h1, h1', fun o o' => ?_⟩
  obtain ⟨t, ht⟩ := r o ⟨![3], 0, 0⟩
  obtain ⟨t', ht'⟩ := r' o' ⟨![1], 0, 0⟩
  obtain ⟨hk, hf⟩ := quartic_walk X h1 one_ne_zero one_ne_zero (by norm_num) ht
  have hx : ∀ x : Fin 1 → ℝ, halved.x x 0 = 2 * x 0 + 1 := fun x => by simp [halved, Chart.x, dotProduct]
  have R : (quartic 1 1 0).Recast cfg.pb (quartic 3 2 1) cfg'.pb halved 3 1 1 1 1 := by
    rw [h1, h1']
    refine ⟨by norm_num, by simp, by simp, fun x p => ?_, fun x p => ?_, fun x p => ?_, fun x p => ?_, fun x p => ?_, fun x p => ?_, ?_, ?_, ?_⟩
    · funext i; fin_cases i
      simp [quartic, halved, Chart.x, mulVec, dotProduct]
      ring
    · funext i j; fin_cases i; fin_cases j
      simp only [Matrix.smul_apply, Matrix.mul_apply]
      simp [quartic, halved, Chart.x, dotProduct]
      ring
    all_goals first
      | (funext i j; exact Fin.elim0 j)
      | (funext i; exact Fin.elim0 i)
  have U := units_partial X X' R (by funext i; fin_cases i; simp [hx]; norm_num) (by funext q; exact q.elim0) ht ht' (fun v hv => by
    obtain ⟨k, hk', rfl⟩ := List.getElem_of_mem (List.mem_reverse.2 hv)
    have := hk k _ (List.getElem?_eq_getElem hk')
    refine quartic_nonsingular h1 one_ne_zero one_ne_zero ?_ _
    rw [this]
    norm_num)
  refine ⟨t, t', ht, ht', fun k v v' e e' => ?_, fun e => ?_, ?_⟩
  · rw [(U.1 k v v' e e').1, hx]
  · rw [(U.2.1 e).1, hx]
  · simpa using hf

/-- The tolerance 10⁻⁹, at most 200 iterations, from `x = 1`: `min 10⁻⁹ x⁴/4` stops at 2/3, `min 10²⁰⁰ x⁴/4` fails. -/
example : ∃ cfg cfg' : Config ℝ 1 0 0 0 Unit, ∃ t t',
    Solve (cfg.machine none) exactOptions cfg.pb.bounds (cfg.start () 0 ⟨0, 0, 0, 0, 0, 0, 0, 0⟩ 0 ⟨0, 0, 0⟩) (History.init default) ⟨![1], 0, 0⟩ (some t) ∧
    Solve (cfg'.machine none) exactOptions cfg'.pb.bounds (cfg'.start () 0 ⟨0, 0, 0, 0, 0, 0, 0, 0⟩ 0 ⟨0, 0, 0⟩) (History.init default) ⟨![1], 0, 0⟩ (some t') ∧
    (solveResult exactOptions t).succeeded = true ∧ t.u.x 0 = 2 / 3 ∧ (solveResult exactOptions t').succeeded = false := by
  obtain ⟨cfg, h1, X, r⟩ := quartic_solves (1 / 10 ^ 9) 1 0
  obtain ⟨cfg', h1', X', r'⟩ := quartic_solves (10 ^ 200) 1 0
  obtain ⟨t, ht⟩ := r exactOptions ⟨![1], 0, 0⟩
  obtain ⟨t', ht'⟩ := r' exactOptions ⟨![1], 0, 0⟩
  have u1 := (units_decide_success X h1 (by positivity) (by norm_num [exactOptions]) (by norm_num) ht).1 (by norm_num [exactOptions])
  have u2 := (units_decide_success X' h1' (by positivity) (by norm_num [exactOptions]) (by norm_num) ht').2 (by norm_num [exactOptions])
  exact ⟨cfg, cfg', t, t', ht, ht', u1.1, by simpa using u1.2.2, u2.1⟩

/-! ### With bounds the iterates depend on the units -/

/-- A factorisation of a single row takes the entry of largest magnitude as the pivot, as `Eigen::FullPivLU` does. -/
def LargestPivot (o : Ech.LUOracle ℝ) : Prop := ∀ (a : Fin 2 → ℝ) (j k : Fin 2), |a k| < |a j| → ∃ b, (o ⟨1, 2, fun _ => a⟩).lu.q (Sum.inl b) = j

theorem exists_largestPivot : ∃ o : Ech.LUOracle ℝ, (∀ M, (o M).lu.Z = 0) ∧ LargestPivot o := by
  have key : ∀ M : Ech.Mat ℝ, ∃ L : Ech.LURes M, L.lu.Z = 0 ∧ ∀ (a : Fin 2 → ℝ) (j k : Fin 2), M = ⟨1, 2, fun _ => a⟩ → |a k| < |a j| → ∃ b, (L.lu.q (Sum.inl b)).val = j.val := by
    intro M
    by_cases hM : ∃ (a : Fin 2 → ℝ) (j k : Fin 2), M = ⟨1, 2, fun _ => a⟩ ∧ |a k| < |a j|
    · obtain ⟨a, j, k, rfl, hlt⟩ := hM
      have hjk : j ≠ k := fun e => by rw [e] at hlt; exact lt_irrefl _ hlt
      have haj : a j ≠ 0 := fun e => by rw [e, abs_zero] at hlt; exact absurd (abs_nonneg (a k)) (not_le.2 hlt)
      refine ⟨⟨1, 1, 0, ⟨Sum.elim (fun _ => 0) Fin.elim0, Sum.elim (fun _ => j) (fun _ => k), ?_, ?_, 1, 0, Matrix.of fun _ _ => a j, Matrix.of fun _ _ => a k, 0, fun i => one_apply_eq _, fun i l h => ?_, fun _ => haj, fun i l h => ?_, ?_⟩⟩, rfl, ?_⟩
      · exact ⟨fun x y _ => by rcases x with x | x <;> rcases y with y | y <;> first | exact x.elim0 | exact y.elim0 | rw [Subsingleton.elim x y], fun x => ⟨Sum.inl 0, Subsingleton.elim _ _⟩⟩
      · refine ⟨fun x y e => ?_, fun x => ?_⟩
        · rcases x with x | x <;> rcases y with y | y
          · rw [Subsingleton.elim x y]
          · exact absurd e hjk
          · exact absurd e hjk.symm
          · rw [Subsingleton.elim x y]
        · rcases pair_cases hjk x with rfl | rfl
          · exact ⟨Sum.inl 0, rfl⟩
          · exact ⟨Sum.inr 0, rfl⟩
      · exact absurd h (by rw [Subsingleton.elim i l]; exact lt_irrefl _)
      · exact absurd h (by rw [Subsingleton.elim i l]; exact lt_irrefl _)
      · ext r c
        rcases r with r | r
        · rcases c with c | c <;> simp [Subsingleton.elim r 0] <;> rfl
        · exact r.elim0
      · intro a' j' k' e hlt'
        have e : (fun _ => a : Matrix (Fin 1) (Fin 2) ℝ) = fun _ => a' := by
          injection e with e1 e2
          injection e2 with e3 e4
        have e : a = a' := congrFun e 0
        subst e
        refine ⟨0, ?_⟩
        rcases pair_cases hjk j' with h | h
        · exact congrArg _ h.symm
        · rw [h] at hlt'
          rcases pair_cases hjk k' with h' | h'
          · rw [h'] at hlt'
            exact absurd hlt (not_lt.2 hlt'.le)
          · rw [h'] at hlt'
            exact absurd hlt' (lt_irrefl _)
    · obtain ⟨nb, nn, nl, lu, hz⟩ := Ech.exists_fullPivLU M.1 M.2.1 M.2.2
      exact ⟨⟨nb, nn, nl, lu⟩, hz, fun a j k e hlt => absurd ⟨a, j, k, e, hlt⟩ hM⟩
  choose L hL using key
  exact ⟨L, fun M => (hL M).1, fun a j k h => let ⟨b, hb⟩ := (hL ⟨1, 2, fun _ => a⟩).2 a j k rfl h; ⟨b, Fin.ext hb⟩⟩

/-- `min g·y + |y|²/4` in the units `yi = ai xi`. -/
noncomputable def inUnits (a g : Fin 2 → ℝ) : Smooth ℝ 2 0 0 where
  g := fun x _ i => a i * (g i + a i * x i / 2)
  H := fun _ _ => Matrix.diagonal fun i => a i ^ 2 / 2
  Hp := 0
  hx := 0
  hp := 0
  h0 := 0
  v := 0
  vx := 0
  vp := 0

/-- `y0 + y1 = 1`, `y ≥ 0`, in the units `yi = ai xi`. -/
def shareUnits (a : Fin 2 → ℝ) : MProblem ℝ 2 0 1 0 where
  Ax := fun _ => a
  Ap := 0
  b := fun _ => 1
  xlower := fun _ => some 0
  xupper := fun _ => none
  plower := fun _ => none
  pupper := fun _ => none

/-- The change of units. -/
noncomputable def unitsChart (a a' : Fin 2 → ℝ) (ha : ∀ i, 0 < a i) (ha' : ∀ i, 0 < a' i) : Chart ℝ 2 0 where
  T := Matrix.diagonal fun i => a' i / a i
  t := 0
  S := 1
  s := 0
  T' := Matrix.diagonal fun i => a i / a' i
  S' := 1
  T_inv := by
    rw [diagonal_mul_diagonal, ← diagonal_one]
    congr 1
    funext i
    have := (ha i).ne'
    have := (ha' i).ne'
    field_simp
  S_inv := by simp

/-- The problems for different `a` are the same problem in different units. -/
theorem inUnits_recast (g : Fin 2 → ℝ) {a a' : Fin 2 → ℝ} (ha : ∀ i, 0 < a i) (ha' : ∀ i, 0 < a' i) : (inUnits a g).Recast (shareUnits a) (inUnits a' g) (shareUnits a') (unitsChart a a' ha ha') 1 1 1 1 1 := by
  have hx : ∀ x : Fin 2 → ℝ, ∀ i, (unitsChart a a' ha ha').x x i = a' i / a i * x i := fun x i => by simp [unitsChart, Chart.x, mulVec_diagonal]
  have hst : stack (shareUnits a').Ax (inUnits a' g).hx = stack (shareUnits a).Ax (inUnits a g).hx * (unitsChart a a' ha ha').T := by
    ext l i
    have : l = Fin.castAdd 0 0 := Subsingleton.elim (α := Fin 1) _ _
    subst this
    have h1 := (ha i).ne'
    simp only [unitsChart, mul_diagonal, stack, Fin.addCases_left, shareUnits]
    field_simp
  refine ⟨one_ne_zero, by simp, by simp, fun x p => ?_, fun x p => ?_, fun x p => ?_, fun x p => ?_, fun x p => ?_, fun x p => ?_, by rw [Matrix.one_mul]; exact hst, ?_, ?_⟩
  · funext i
    have h1 := (ha i).ne'
    have e : ((unitsChart a a' ha ha').Tᵀ *ᵥ (inUnits a g).g ((unitsChart a a' ha ha').x x) ((unitsChart a a' ha ha').p p)) i = a' i / a i * (a i * (g i + a i * (a' i / a i * x i) / 2)) := by
      rw [← hx x i]
      simp only [unitsChart, diagonal_transpose, mulVec_diagonal, inUnits]
    rw [one_smul, e]
    simp only [inUnits]
    field_simp
  · simp only [one_smul, inUnits, unitsChart, diagonal_transpose, diagonal_mul_diagonal]
    congr 1
    funext i
    have h1 := (ha i).ne'
    field_simp
  all_goals first
    | (funext i j; exact Fin.elim0 j)
    | (funext i; exact Fin.elim0 i)
    | skip
  funext l
  have : l = Fin.castAdd 0 0 := Subsingleton.elim (α := Fin 1) _ _
  subst this
  simp [Smooth.rhs, shareUnits, inUnits, unitsChart]

theorem IsTied.of_returns {cfg : Config ℝ 2 0 1 0 τ} {a g : Fin 2 → ℝ} (ha : ∀ i, 0 < a i) (hpb : cfg.pb = shareUnits a) (hu : ∀ t x p q, ∃ t' ev, cfg.user t x p q = some (t', ev) ∧ (inUnits a g).Returns x p ev) : IsTied cfg a g := by
  refine ⟨ha, fun l => by rw [hpb]; rfl, fun l => by rw [hpb]; rfl, fun l => by rw [hpb]; rfl, fun l => by rw [hpb]; rfl, fun t x p q => ?_⟩
  obtain ⟨t', ev, e, h⟩ := hu t x p q
  exact ⟨t', ev, e, fun i => by rw [h.fx]; rfl, h.fxx⟩

/-- **C76 is false for the iterates with bounds**: `min y0 + 2 y1 + |y|²/4`, `y0 + y1 = 1`, `y ≥ 0`, from `(0, 0)`, in exact arithmetic with the full-space or null-space method.  In units in which the coefficient of `y0` in the constraint is the larger one
    the solution is reached in one step; in units in which it is the smaller one the first step leads to `y = (0, 1)`, where the iterations go on.  With `maxiters = 1` the first solve succeeds and the second fails. -/
theorem units_change_iterates {cfg : Config ℝ 2 0 1 0 τ} {cfg' : Config ℝ 2 0 1 0 τ'} {a a' : Fin 2 → ℝ} (ha : ∀ i, 0 < a i) (ha' : ∀ i, 0 < a' i) (hlt : a 1 < a 0) (hlt' : a' 0 < a' 1) (hpb : cfg.pb = shareUnits a) (hpb' : cfg'.pb = shareUnits a')
    (hu : ∀ t x p q, ∃ t' ev, cfg.user t x p q = some (t', ev) ∧ (inUnits a ![1, 2]).Returns x p ev) (hu' : ∀ t x p q, ∃ t' ev, cfg'.user t x p q = some (t', ev) ∧ (inUnits a' ![1, 2]).Returns x p ev) (henv : cfg'.env = cfg.env)
    (hthr : 0 ≤ cfg.env.thr) (heps : cfg.env.eps = 0) (hd : cfg.env.debug = false) (ho : ∀ M, (cfg.env.o M).lu.Z = 0) (hpiv : LargestPivot cfg.env.o) (hphi : cfg.phi = none) (hphi' : cfg'.phi = none) (hlu : LUInners cfg) (hlu' : LUInners cfg')
    (hm : cfg.method ≠ .rangespace) (hm' : cfg'.method ≠ .rangespace) (o : SolveOptions ℝ) (hmax : 1 ≤ o.maxiters) (htol : 0 < o.tolerance) (htol2 : o.tolerance ≤ a' 0 * (3/2)) (user : τ) (mem errors ax du) (history : History ℝ) (user' : τ')
    (mem' errors' ax' du') (history' : History ℝ) (u : MVec ℝ 2 0 (1 + 0)) (hx : ∀ i, u.x i = 0) (hw : ∀ l, u.w l = 0) :
    ∃ t t', (∀ r, Solve (cfg.machine none) o cfg.pb.bounds (cfg.start user mem errors ax du) history u r ↔ r = some t) ∧ (∀ r, Solve (cfg'.machine none) o cfg'.pb.bounds (cfg'.start user' mem' errors' ax' du') history' u r ↔ r = some t') ∧
      (a 0 * t.u.x 0 = 1 ∧ t.u.x 1 = 0 ∧ t.mach.errors.error = 0 ∧ (solveResult o t).iterations = 1 ∧ (solveResult o t).succeeded = true) ∧
      2 ≤ (solveResult o t').iterations ∧ (o.maxiters = 1 → (solveResult o t').succeeded = false) := by
  have h := IsTied.of_returns ha hpb hu
  have h' := IsTied.of_returns ha' hpb' hu'
  have hj : ∃ b, (cfg.env.o ⟨1, 2, cfg.pb.Ax⟩).lu.q (Sum.inl b) = 0 := by
    rw [hpb]
    exact hpiv a 0 1 (by rw [abs_of_pos (ha 1), abs_of_pos (ha 0)]; exact hlt)
  have hj' : ∃ b, (cfg'.env.o ⟨1, 2, cfg'.pb.Ax⟩).lu.q (Sum.inl b) = 1 := by
    rw [hpb', henv]
    exact hpiv a' 1 0 (by rw [abs_of_pos (ha' 1), abs_of_pos (ha' 0)]; exact hlt')
  obtain ⟨t, a1, a2, -⟩ := h.solve (j := 0) (k := 1) hthr heps hd ho hphi hlu hm (by decide) hj (by simp) o hmax htol user mem errors ax du history u hx hw
  obtain ⟨t', b1, -, b2⟩ := h'.solve (j := 1) (k := 0) (by rw [henv]; exact hthr) (by rw [henv]; exact heps) (by rw [henv]; exact hd) (by rw [henv]; exact ho) hphi' hlu' hm' (by decide) hj' (by simp) o hmax htol user' mem' errors' ax' du' history' u hx hw
  obtain ⟨c1, c2, c3, c4⟩ := a2 (by norm_num)
  have d := b2 (by norm_num) (by norm_num; linarith)
  refine ⟨t, t', a1, b1, ⟨by rw [c1, mul_inv_cancel₀ (ha 0).ne'], c2, c3, c4, ?_⟩, d, fun e => ?_⟩
  · exact decide_eq_true (show t.iterations ≤ _ by rw [show t.iterations = 1 from c4]; exact hmax)
  · exact decide_eq_false (show ¬ t'.iterations ≤ _ by rw [e]; exact not_le.2 d)

/-- Two configurations: `y = (2 x0, x1)` and `y = (x0, 2 x1)`. -/
example : ∃ cfg cfg' : Config ℝ 2 0 1 0 Unit, cfg.pb = shareUnits ![2, 1] ∧ cfg'.pb = shareUnits ![1, 2] ∧ cfg'.env = cfg.env ∧ ∀ u : MVec ℝ 2 0 (1 + 0), (∀ i, u.x i = 0) → (∀ l, u.w l = 0) → ∃ t t',
    Solve (cfg.machine none) { exactOptions with maxiters := 1 } cfg.pb.bounds (cfg.start () 0 ⟨0, 0, 0, 0, 0, 0, 0, 0⟩ 0 ⟨0, 0, 0⟩) (History.init default) u (some t) ∧
    Solve (cfg'.machine none) { exactOptions with maxiters := 1 } cfg'.pb.bounds (cfg'.start () 0 ⟨0, 0, 0, 0, 0, 0, 0, 0⟩ 0 ⟨0, 0, 0⟩) (History.init default) u (some t') ∧
    (solveResult { exactOptions with maxiters := 1 } t).succeeded = true ∧ t.u.x 0 = 1/2 ∧ (solveResult { exactOptions with maxiters := 1 } t').succeeded = false := by
  obtain ⟨lu, hz, hp⟩ := exists_largestPivot
  let f : (Fin 2 → ℝ) → (Fin 2 → ℝ) → Evals ℝ 2 0 0 := fun a x =>
    { f := a 0 * x 0 + 2 * (a 1 * x 1) + ((a 0 * x 0) ^ 2 + (a 1 * x 1) ^ 2) / 4, fx := (inUnits a ![1, 2]).g x 0, fxx := (inUnits a ![1, 2]).H x 0, fxp := 0, diagfxx := true, h := 0, hx := 0, hp := 0, v := 0, vx := 0, vp := 0, succeeded := true }
  let c : (Fin 2 → ℝ) → Config ℝ 2 0 1 0 Unit := fun a =>
    { env := { exactEnv with o := lu }, pb := shareUnits a, method := .nullspace, inners := exactInners, user := fun t x _ _ => some (t, f a x), userJac := fun t x _ _ => some (t, f a x), phi := none }
  have hc : ∀ a, ∀ t x p q, ∃ t' ev, (c a).user t x p q = some (t', ev) ∧ (inUnits a ![1, 2]).Returns x p ev := fun a t x p q =>
    ⟨t, f a x, rfl, ⟨rfl, rfl, rfl, funext fun l => l.elim0, rfl, rfl, rfl, rfl, rfl⟩⟩
  refine ⟨c ![2, 1], c ![1, 2], rfl, rfl, rfl, fun u hx hw => ?_⟩
  obtain ⟨t, t', h1, h2, h3, h4, h5⟩ := units_change_iterates (cfg := c ![2, 1]) (cfg' := c ![1, 2]) (a := ![2, 1]) (a' := ![1, 2]) (by rw [Fin.forall_fin_two]; norm_num) (by rw [Fin.forall_fin_two]; norm_num) (by norm_num) (by norm_num) rfl rfl
    (hc _) (hc _) rfl le_rfl rfl rfl hz hp rfl rfl (fun p => exactInners_lu p) (fun p => exactInners_lu p) (by intro h; cases h) (by intro h; cases h) { exactOptions with maxiters := 1 } le_rfl (by norm_num [exactOptions]) (by norm_num [exactOptions])
    () 0 ⟨0, 0, 0, 0, 0, 0, 0, 0⟩ 0 ⟨0, 0, 0⟩ (History.init default) () 0 ⟨0, 0, 0, 0, 0, 0, 0, 0⟩ 0 ⟨0, 0, 0⟩ (History.init default) u hx hw
  refine ⟨t, t', (h1 _).2 rfl, (h2 _).2 rfl, h3.2.2.2.2, ?_, h5 rfl⟩
  have := h3.1
  norm_num at this
  linarith

end Optima
