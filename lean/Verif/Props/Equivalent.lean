import Verif.Props.Methods
import Verif.Props.History
import Verif.Props.GlobalConvergence
import Verif.Props.Divergence
import Verif.Props.FloatEchelon

/-!
# C71: the way the constraints and variables are written down does not change the iterates

Without bounds the iterates of a solve are those of Newton's method on the set of feasible points.  They do not depend on the order of the variables, on the order, scaling and mixing of the constraints, on whether affine constraints are given
as linear constraints or by `h`, on the initial multipliers, on the pivots of the LU decompositions and on the method of the linear solver.
-/

set_option linter.unusedSectionVars false

namespace Optima

open Matrix

variable {K : Type*} [Field K] [LinearOrder K] [IsStrictOrderedRing K] {nx nx' np ny nz ny' nz' : ℕ} {τ τ' : Type*}

/-- The right-hand sides of all constraints. -/
def Smooth.rhs (F : Smooth K nx np nz) (pb : MProblem K nx np ny nz) : Fin (ny + nz) → K := Fin.addCases pb.b (fun l => - F.h0 l)

/-- The constraints of the second problem are linear combinations of those of the first, with the variables renamed by `e`. -/
def Smooth.Rewrites (F : Smooth K nx np nz) (pb : MProblem K nx np ny nz) (F' : Smooth K nx' np nz') (pb' : MProblem K nx' np ny' nz') (e : Fin nx ≃ Fin nx') : Prop :=
  ∃ C : Matrix (Fin (ny' + nz')) (Fin (ny + nz)) K, (∀ l j, stack pb'.Ax F'.hx l (e j) = ∑ k, C l k * stack pb.Ax F.hx k j) ∧ (∀ l q, stack pb'.Ap F'.hp l q = ∑ k, C l k * stack pb.Ap F.hp k q) ∧
    ∀ l, F'.rhs pb' l = ∑ k, C l k * F.rhs pb k

/-- The same objective and the same `v`, with the variables renamed by `e`. -/
structure Smooth.SameFunctions (F : Smooth K nx np nz) (F' : Smooth K nx' np nz') (e : Fin nx ≃ Fin nx') : Prop where
  g : ∀ x p i, F'.g x p (e i) = F.g (x ∘ e) p i
  H : ∀ x p i j, F'.H x p (e i) (e j) = F.H (x ∘ e) p i j
  Hp : ∀ x p i q, F'.Hp x p (e i) q = F.Hp (x ∘ e) p i q
  v : ∀ x p, F'.v x p = F.v (x ∘ e) p
  vx : ∀ x p r j, F'.vx x p r (e j) = F.vx (x ∘ e) p r j
  vp : ∀ x p, F'.vp x p = F.vp (x ∘ e) p

/-- The linearised conditions determine `x` and `p`. -/
def Smooth.Nonsingular (F : Smooth K nx np nz) (pb : MProblem K nx np ny nz) (x : Fin nx → K) (p : Fin np → K) : Prop :=
  ∀ (dx : Fin nx → K) (dp : Fin np → K) (w : Fin (ny + nz) → K), (∀ i, ∑ j, F.H x p i j * dx j + ∑ q, F.Hp x p i q * dp q + ∑ l, stack pb.Ax F.hx l i * w l = 0) →
    (∀ r, ∑ j, F.vx x p r j * dx j + ∑ q, F.vp x p r q * dp q = 0) → (∀ l, ∑ j, stack pb.Ax F.hx l j * dx j + ∑ q, stack pb.Ap F.hp l q * dp q = 0) → dx = 0 ∧ dp = 0

/-- Newton's equations at `(x, p)` for the new point `(x1, p1)` with multipliers `w1`. -/
structure Smooth.NewtonPoint (F : Smooth K nx np nz) (pb : MProblem K nx np ny nz) (x : Fin nx → K) (p : Fin np → K) (x1 : Fin nx → K) (p1 : Fin np → K) (w1 : Fin (ny + nz) → K) : Prop where
  grad : ∀ i, ∑ j, F.H x p i j * (x1 j - x j) + ∑ q, F.Hp x p i q * (p1 q - p q) + F.g x p i + ∑ l, stack pb.Ax F.hx l i * w1 l = 0
  par : ∀ r, ∑ j, F.vx x p r j * (x1 j - x j) + ∑ q, F.vp x p r q * (p1 q - p q) + F.v x p r = 0
  con : ∀ l, ∑ j, stack pb.Ax F.hx l j * x1 j + ∑ q, stack pb.Ap F.hp l q * p1 q = F.rhs pb l

/-- What is assumed of each of the two solves: no bounds, exact arithmetic, release build, the functions `F`, independent constraints. -/
structure FreeSolve (F : Smooth K nx np nz) (cfg : Config K nx np ny nz τ) : Prop where
  unbounded : Unbounded cfg.pb
  thr : 0 ≤ cfg.env.thr
  eps : cfg.env.eps = 0
  debug : cfg.env.debug = false
  oracle : ∀ M, (cfg.env.o M).lu.Z = 0
  nx_pos : 0 < nx
  phi : cfg.phi = none
  lu : LUInners cfg
  method : cfg.method ≠ .rangespace
  user : ∀ t x p q, ∃ t' ev, cfg.user t x p q = some (t', ev) ∧ F.Returns x p ev
  rows : ∀ y : Fin (ny + nz) → K, (∀ i, ∑ l, stack cfg.pb.Ax F.hx l i * y l = 0) → y = 0

section algebra
variable {F : Smooth K nx np nz} {pb : MProblem K nx np ny nz} {F' : Smooth K nx' np nz'} {pb' : MProblem K nx' np ny' nz'} {e : Fin nx ≃ Fin nx'}

theorem Smooth.SameFunctions.symm (h : F.SameFunctions F' e) : F'.SameFunctions F e.symm := by
  have ee : ∀ x : Fin nx → K, (x ∘ e.symm) ∘ e = x := fun x => by funext i; simp
  refine ⟨fun x p i => ?_, fun x p i j => ?_, fun x p i q => ?_, fun x p => ?_, fun x p r j => ?_, fun x p => ?_⟩
  · have := h.g (x ∘ e.symm) p (e.symm i); rw [ee] at this; rw [← this]; simp
  · have := h.H (x ∘ e.symm) p (e.symm i) (e.symm j); rw [ee] at this; rw [← this]; simp
  · have := h.Hp (x ∘ e.symm) p (e.symm i) q; rw [ee] at this; rw [← this]; simp
  · have := h.v (x ∘ e.symm) p; rw [ee] at this; rw [this]
  · have := h.vx (x ∘ e.symm) p r (e.symm j); rw [ee] at this; rw [← this]; simp
  · have := h.vp (x ∘ e.symm) p; rw [ee] at this; rw [this]

/-- Multipliers of the second problem give multipliers of the first with the same effect. -/
theorem Smooth.Rewrites.mult (h : F.Rewrites pb F' pb' e) (w' : Fin (ny' + nz') → K) : ∃ w : Fin (ny + nz) → K, ∀ i, ∑ l, stack pb'.Ax F'.hx l (e i) * w' l = ∑ k, stack pb.Ax F.hx k i * w k := by
  obtain ⟨C, h1, -, -⟩ := h
  refine ⟨fun k => ∑ l, C l k * w' l, fun i => ?_⟩
  simp only [h1, Finset.sum_mul, Finset.mul_sum]
  rw [Finset.sum_comm]
  exact Finset.sum_congr rfl fun k _ => Finset.sum_congr rfl fun l _ => by ring

/-- Points that satisfy the constraints of the first problem satisfy those of the second (`t = 1`), and the same for directions (`t = 0`). -/
theorem Smooth.Rewrites.con (h : F.Rewrites pb F' pb' e) (t : K) {x' : Fin nx' → K} {p : Fin np → K} (hx : ∀ l, ∑ j, stack pb.Ax F.hx l j * x' (e j) + ∑ q, stack pb.Ap F.hp l q * p q = t * F.rhs pb l) (l) :
    ∑ j, stack pb'.Ax F'.hx l j * x' j + ∑ q, stack pb'.Ap F'.hp l q * p q = t * F'.rhs pb' l := by
  obtain ⟨C, h1, h2, h3⟩ := h
  rw [← e.sum_comp fun j => stack pb'.Ax F'.hx l j * x' j, h3]
  simp only [h1, h2, Finset.sum_mul]
  rw [Finset.sum_comm, Finset.sum_comm (s := Finset.univ (α := Fin np)), ← Finset.sum_add_distrib, Finset.mul_sum]
  refine Finset.sum_congr rfl fun k _ => ?_
  have := hx k
  calc _ = C l k * (∑ j, stack pb.Ax F.hx k j * x' (e j) + ∑ q, stack pb.Ap F.hp k q * p q) := by
        rw [mul_add, Finset.mul_sum, Finset.mul_sum]
        exact congrArg₂ _ (Finset.sum_congr rfl fun j _ => by ring) (Finset.sum_congr rfl fun q _ => by ring)
    _ = _ := by rw [this]; ring

theorem sum_reindex (e : Fin nx ≃ Fin nx') (f : Fin nx' → K) : ∑ j, f j = ∑ j, f (e j) := (e.sum_comp f).symm

theorem Smooth.Nonsingular.transfer (hf : F.SameFunctions F' e) (h : F.Rewrites pb F' pb' e) (h' : F'.Rewrites pb' F pb e.symm) {x' : Fin nx' → K} {p} (hn : F.Nonsingular pb (x' ∘ e) p) : F'.Nonsingular pb' x' p := by
  intro dx dp w h1 h2 h3
  obtain ⟨w0, hw⟩ := h.mult w
  refine (hn (dx ∘ e) dp w0 (fun i => ?_) (fun r => ?_) fun l => ?_).elim fun e1 e2 => ?_
  · have := h1 (e i)
    rw [sum_reindex e, hw i] at this
    simp only [hf.H, hf.Hp] at this
    exact this
  · have := h2 r
    rw [sum_reindex e] at this
    simp only [hf.vx, hf.vp] at this
    exact this
  · have := h'.con 0 (x' := dx ∘ e) (p := dp) (fun l => by
      have := h3 l
      rw [zero_mul]
      simpa using this) l
    rwa [zero_mul] at this
  · refine ⟨funext fun i => ?_, e2⟩
    have := congrFun e1 (e.symm i)
    simpa using this

/-- The new points agree. -/
theorem Smooth.NewtonPoint.agree (hf : F.SameFunctions F' e) (h : F.Rewrites pb F' pb' e) (h' : F'.Rewrites pb' F pb e.symm) {x' : Fin nx' → K} {p} (hn : F.Nonsingular pb (x' ∘ e) p) {x1 p1 w1 x1' p1' w1'}
    (a : F.NewtonPoint pb (x' ∘ e) p x1 p1 w1) (b : F'.NewtonPoint pb' x' p x1' p1' w1') :
    x1 = x1' ∘ e ∧ p1 = p1' ∧ ∀ i, ∑ l, stack pb.Ax F.hx l i * w1 l = ∑ l, stack pb'.Ax F'.hx l (e i) * w1' l := by
  obtain ⟨w0, hw⟩ := h.mult w1'
  have b1 : ∀ i, ∑ j, F.H (x' ∘ e) p i j * (x1' (e j) - x' (e j)) + ∑ q, F.Hp (x' ∘ e) p i q * (p1' q - p q) + F.g (x' ∘ e) p i + ∑ l, stack pb'.Ax F'.hx l (e i) * w1' l = 0 := by
    intro i
    have := b.grad (e i)
    rw [sum_reindex e] at this
    simpa only [hf.H, hf.Hp, hf.g] using this
  have b2 : ∀ r, ∑ j, F.vx (x' ∘ e) p r j * (x1' (e j) - x' (e j)) + ∑ q, F.vp (x' ∘ e) p r q * (p1' q - p q) + F.v (x' ∘ e) p r = 0 := by
    intro r
    have := b.par r
    rw [sum_reindex e] at this
    simpa only [hf.vx, hf.vp, hf.v] using this
  have b3 : ∀ l, ∑ j, stack pb.Ax F.hx l j * x1' (e j) + ∑ q, stack pb.Ap F.hp l q * p1' q = F.rhs pb l := by
    intro l
    have := h'.con 1 (x' := x1' ∘ e) (p := p1') (fun l => by
      have := b.con l
      rw [one_mul]
      simpa using this) l
    rwa [one_mul] at this
  refine (hn (fun j => x1 j - x1' (e j)) (fun q => p1 q - p1' q) (fun l => w1 l - w0 l) (fun i => ?_) (fun r => ?_) fun l => ?_).elim fun e1 e2 => ?_
  · have ha := a.grad i
    have hb := b1 i
    rw [hw] at hb
    simp only [Function.comp_apply, mul_sub, Finset.sum_sub_distrib] at ha hb ⊢
    linear_combination ha - hb
  · have ha := a.par r
    have hb := b2 r
    simp only [Function.comp_apply, mul_sub, Finset.sum_sub_distrib] at ha hb ⊢
    linear_combination ha - hb
  · have ha := a.con l
    have hb := b3 l
    simp only [mul_sub, Finset.sum_sub_distrib] at ha hb ⊢
    linear_combination ha - hb
  · have ex : x1 = x1' ∘ e := funext fun j => sub_eq_zero.1 (congrFun e1 j)
    have ep : p1 = p1' := funext fun j => sub_eq_zero.1 (congrFun e2 j)
    refine ⟨ex, ep, fun i => ?_⟩
    have := a.grad i
    rw [ex, ep] at this
    have hb := b1 i
    simp only [Function.comp_apply] at this
    linear_combination this - hb

end algebra

section one
variable {F : Smooth K nx np nz} {cfg : Config K nx np ny nz τ}

theorem sum_stack {n : ℕ} (A : Matrix (Fin ny) (Fin n) K) (J : Matrix (Fin nz) (Fin n) K) (w : Fin (ny + nz) → K) (i : Fin n) :
    ∑ l, stack A J l i * w l = ∑ l, A l i * w (Fin.castAdd nz l) + ∑ l, J l i * w (Fin.natAdd ny l) := by
  rw [Fin.sum_univ_add]
  simp only [stack, Fin.addCases_left, Fin.addCases_right]

theorem FreeSolve.newton (X : FreeSolve F cfg) {s sm uo un} (hs : EvaluatedAt cfg s uo) (hns : F.Nonsingular cfg.pb uo.x uo.p) (hn : cfg.newton s uo = some (sm, un)) : F.NewtonPoint cfg.pb uo.x uo.p un.x un.p un.w := by
  obtain ⟨k1, k2, k3, k4⟩ := Smooth.free_step X.eps X.oracle X.lu X.method X.unbounded X.user (fun y z hyz => by
      have := X.rows (Fin.addCases y z) fun i => by
        rw [sum_stack]
        simpa only [Fin.addCases_left, Fin.addCases_right] using hyz i
      refine ⟨funext fun l => ?_, funext fun l => ?_⟩
      · have h := congrFun this (Fin.castAdd nz l); simpa only [Fin.addCases_left, Pi.zero_apply] using h
      · have h := congrFun this (Fin.natAdd ny l); simpa only [Fin.addCases_right, Pi.zero_apply] using h) hs
    (fun d h1 h2 h3 h4 => hns d.x d.p d.w (fun i => by rw [sum_stack]; exact h1 i) h2 fun l => by
      refine Fin.addCases (fun l => ?_) (fun l => ?_) l
      · simpa only [stack, Fin.addCases_left] using h3 l
      · simpa only [stack, Fin.addCases_right] using h4 l) hn
  refine ⟨fun i => by rw [sum_stack]; exact k1 i, k2, fun l => ?_⟩
  refine Fin.addCases (fun l => ?_) (fun l => ?_) l
  · simpa only [stack, Smooth.rhs, Fin.addCases_left] using k3 l
  · have := congrFun k4 l
    simp only [stack, Smooth.rhs, Fin.addCases_right]
    simp only [Pi.add_apply, Pi.zero_apply, mulVec, dotProduct] at this
    linear_combination this

theorem Smooth.free_error_v (huser : ∀ t x p q, ∃ t' ev, cfg.user t x p q = some (t', ev) ∧ F.Returns x p ev) {s u} (hs : EvaluatedAt cfg s u) (q : Fin np) : |F.v u.x u.p q| ≤ s.errors.error := by
  obtain ⟨ev, rf, ew0, hrf, hspec, herr, t0, t1, q0, hu⟩ := hs
  have hev : F.Returns u.x u.p ev := by
    obtain ⟨t', ev', e, hr⟩ := huser t0 u.x u.p q0
    rw [hu] at e; cases e; exact hr
  obtain ⟨ax0, hres⟩ := hspec.res
  obtain ⟨m1, m2, m3, m4, m5, m6⟩ := residual_master cfg.env.eps hspec.canon ax0 (rfArgs cfg.pb rf.M ev u)
  rw [← hres] at m3
  have h0 : 0 ≤ s.errors.error := by rw [herr]; exact le_trans (normInf_nonneg _) (le_max_right _ _)
  have hle := (error_le_iff hspec.canon (basics_le_rows hspec.canon hspec.b) cfg.pb.xlower cfg.pb.xupper u.x rf.res ew0 _ h0).1 (by rw [herr])
  have := hle.2.1 q
  rw [m3 q, abs_neg] at this
  rw [← hev.v]
  exact this

theorem FreeSolve.mult_eq (F : Smooth K nx np nz) (pb : MProblem K nx np ny nz) (u : MVec K nx np (ny + nz)) (i : Fin nx) : F.mult pb u i = F.g u.x u.p i + ∑ l, stack pb.Ax F.hx l i * u.w l := by
  rw [sum_stack]
  unfold Smooth.mult
  ring

/-- The error at a point that satisfies the constraints is at most every bound of the residuals of the other conditions. -/
theorem FreeSolve.error_le (X : FreeSolve F cfg) {s u} (hs : EvaluatedAt cfg s u) {c : K} (hc : 0 ≤ c) (hg : ∀ i, |F.g u.x u.p i + ∑ l, stack cfg.pb.Ax F.hx l i * u.w l| ≤ c) (hv : ∀ q, |F.v u.x u.p q| ≤ c)
    (hA : ∀ l, ∑ j, stack cfg.pb.Ax F.hx l j * u.x j + ∑ q, stack cfg.pb.Ap F.hp l q * u.p q = F.rhs cfg.pb l) : s.errors.error ≤ c := by
  refine Smooth.free_error X.eps X.unbounded X.user hs hc (fun i => by rw [FreeSolve.mult_eq]; exact hg i) hv (fun l => ?_) (funext fun l => ?_)
  · have := hA (Fin.castAdd nz l)
    simpa only [stack, Smooth.rhs, Fin.addCases_left] using this
  · have := hA (Fin.natAdd ny l)
    simp only [stack, Smooth.rhs, Fin.addCases_right] at this
    simp only [Pi.add_apply, Pi.zero_apply, mulVec, dotProduct]
    linear_combination this

theorem FreeSolve.error_nonneg {s : Parts K nx np ny nz τ cfg.pb.Ax} {u} (hs : EvaluatedAt cfg s u) : 0 ≤ s.errors.error := by
  obtain ⟨ev, rf, ew0, hrf, hspec, herr, -⟩ := hs
  rw [herr]
  exact le_trans (normInf_nonneg _) (le_max_right _ _)

/-- One iteration. -/
theorem FreeSolve.step (X : FreeSolve F cfg) (o : SolveOptions K) {s} (h1 : Reach cfg s.mach) (h2 : EvaluatedAt cfg s.mach s.u) (h3 : s.uo = s.u) :
    ∃ s1, step (cfg.machine none) o cfg.pb.bounds s = some s1 ∧ Reach cfg s1.mach ∧ EvaluatedAt cfg s1.mach s1.u ∧ s1.iterations = s.iterations + 1 ∧ s1.trace = s1.u :: s.trace ∧
      (F.Nonsingular cfg.pb s.u.x s.u.p → F.NewtonPoint cfg.pb s.u.x s.u.p s1.u.x s1.u.p s1.u.w) := by
  have hinv := machine_inv X.thr X.eps.ge X.nx_pos (cfg := cfg) none
  obtain ⟨ev, rf, ew0, hrf, hrest⟩ := id h2
  have hn : ∃ tm un, cfg.newton s.mach s.uo = some (tm, un) := by
    unfold Config.newton
    rw [hrf]
    exact ⟨_, _, rfl⟩
  obtain ⟨tm, un, hn⟩ := hn
  have hev : ∀ (t : Parts K nx np ny nz τ cfg.pb.Ax) v, Reach cfg t → ∃ t', (cfg.machine none).eval t v = some t' := by
    intro t v ht
    obtain ⟨t', ev, hu, -⟩ := X.user t.user v.x v.p t.ech.rwq
    obtain ⟨rf, hrf, -⟩ := rfUpdate_release X.thr X.eps.ge X.debug cfg.pb ht X.nx_pos t.ax ev v
    obtain ⟨t1, h⟩ : ∃ t1, cfg.updateF cfg.user t v = some t1 := by
      unfold Config.updateF
      rw [hu]
      dsimp only
      rw [hrf]
      exact ⟨_, rfl⟩
    exact ⟨cfg.updateE t1 v, by change Option.map _ (cfg.updateF cfg.user t v) = _; rw [h]; rfl⟩
  have hr : Reach cfg tm := hinv.newton _ _ _ _ h1 hn
  obtain ⟨t', ht'⟩ := hev tm un hr
  have hstep : Optima.step (cfg.machine none) o cfg.pb.bounds s = some { s with mach := t', u := un, iterations := s.iterations + 1, trace := un :: s.trace } := by
    unfold Optima.step
    dsimp only
    rw [show (cfg.machine none).newton s.mach s.uo = some (tm, un) from hn]
    dsimp only
    rw [transform_no_phi (by change Option.map _ cfg.phi = none; rw [X.phi]; rfl)]
    dsimp only
    unfold errorControl
    dsimp only
    rw [backtrack_accepts o.debug o.minmax (X.unbounded.inBounds _) (X.unbounded.inBounds _)]
    dsimp only
    unfold evalAt
    dsimp only
    rw [ht']
  refine ⟨_, hstep, ?_⟩
  obtain ⟨f1, f2⟩ := hinv.eval _ _ _ hr ht'
  rw [h3] at hn
  exact ⟨f1, f2, rfl, rfl, fun hns => X.newton h2 hns hn⟩

theorem machine_stepping {o : SolveOptions K} {s s1 : SolveState (Parts K nx np ny nz τ cfg.pb.Ax) K nx np (ny + nz)} {b} (h : stepping (cfg.machine none) o s = some (s1, b)) : s1.mach = s.mach := by
  unfold stepping at h
  dsimp only at h
  split_ifs at h
  · cases h; rfl
  split at h
  · simp only [Option.some.injEq, Prod.mk.injEq] at h
    rw [← h.1]
  · rw [show (cfg.machine none).check = none from rfl] at h
    cases h; rfl

theorem FreeSolve.trace (X : FreeSolve F cfg) {o : SolveOptions K} {s r} (hl : Loop (cfg.machine none) o cfg.pb.bounds s r) : ∀ t, r = some t → Reach cfg s.mach → EvaluatedAt cfg s.mach s.u → s.uo = s.u → s.trace <:+ t.trace := by
  induction hl with
  | stepFails s h => intro t e; cases e
  | checkFails s s1 h h' => intro t e; cases e
  | stop s s1 s2 h h' =>
    rintro t ⟨⟩ h1 h2 h3
    obtain ⟨s0, a0, a1, a2, a3, a4, -⟩ := X.step o h1 h2 h3
    cases h.symm.trans a0
    obtain ⟨b1, b2, -, b4, b5, b6, b7⟩ := stepping_spec h'
    rw [b5, a4]
    exact List.suffix_cons _ _
  | again s s1 s2 r h h' _ ih =>
    intro t e h1 h2 h3
    obtain ⟨s0, a0, a1, a2, a3, a4, -⟩ := X.step o h1 h2 h3
    cases h.symm.trans a0
    obtain ⟨b1, b2, -, b4, b5, b6, b7⟩ := stepping_spec h'
    have hle : s1.iterations ≤ o.maxiters := by
      by_contra hn
      have := (b6 (by omega)).1
      cases this
    have := ih t e (by rw [machine_stepping h']; exact a1) (by rw [machine_stepping h', b1]; exact a2) ((b7 hle).1.trans b1.symm)
    rw [b5, a4] at this
    exact (List.suffix_cons _ _).trans this

end one

section two
variable {F : Smooth K nx np nz} {cfg : Config K nx np ny nz τ} {F' : Smooth K nx' np nz'} {cfg' : Config K nx' np ny' nz' τ'} {e : Fin nx ≃ Fin nx'}

/-- The points of two solves agree, and the multipliers have the same effect. -/
structure SamePoint (F : Smooth K nx np nz) (pb : MProblem K nx np ny nz) (F' : Smooth K nx' np nz') (pb' : MProblem K nx' np ny' nz') (e : Fin nx ≃ Fin nx') (u : MVec K nx np (ny + nz)) (u' : MVec K nx' np (ny' + nz')) : Prop where
  x : u.x = u'.x ∘ e
  p : u.p = u'.p
  mult : ∀ i, ∑ l, stack pb.Ax F.hx l i * u.w l = ∑ l, stack pb'.Ax F'.hx l (e i) * u'.w l

theorem error_same (X : FreeSolve F cfg) (X' : FreeSolve F' cfg') (hf : F.SameFunctions F' e) {s u s' u'} (hs : EvaluatedAt cfg s u) (hs' : EvaluatedAt cfg' s' u') (hu : SamePoint F cfg.pb F' cfg'.pb e u u')
    (hA : ∀ l, ∑ j, stack cfg.pb.Ax F.hx l j * u.x j + ∑ q, stack cfg.pb.Ap F.hp l q * u.p q = F.rhs cfg.pb l) : s.errors.error ≤ s'.errors.error := by
  refine X.error_le hs (FreeSolve.error_nonneg hs') (fun i => ?_) (fun q => ?_) hA
  · rw [hu.mult, hu.x, hu.p, ← hf.g]
    have := Smooth.free_error_ge X'.unbounded X'.user hs' (e i)
    rwa [FreeSolve.mult_eq] at this
  · rw [hu.x, hu.p, ← hf.v]
    exact Smooth.free_error_v X'.user hs' q

/-- The same `x` and `p`. -/
def SameXP (e : Fin nx ≃ Fin nx') {nw nw' : ℕ} (u : MVec K nx np nw) (u' : MVec K nx' np nw') : Prop := u.x = u'.x ∘ e ∧ u.p = u'.p

/-- What two solves that return `t` and `t'` have in common. -/
structure SameOutcome (F : Smooth K nx np nz) (cfg : Config K nx np ny nz τ) (F' : Smooth K nx' np nz') (cfg' : Config K nx' np ny' nz' τ') (e : Fin nx ≃ Fin nx')
    (t : SolveState (Parts K nx np ny nz τ cfg.pb.Ax) K nx np (ny + nz)) (t' : SolveState (Parts K nx' np ny' nz' τ' cfg'.pb.Ax) K nx' np (ny' + nz')) : Prop where
  point : SamePoint F cfg.pb F' cfg'.pb e t.u t'.u
  iterations : t.iterations = t'.iterations
  error : t.mach.errors.error = t'.mach.errors.error
  trace : List.Forall₂ (SameXP e) t.trace t'.trace

theorem step_same (X : FreeSolve F cfg) (X' : FreeSolve F' cfg') (hf : F.SameFunctions F' e) (h : F.Rewrites cfg.pb F' cfg'.pb e) (h' : F'.Rewrites cfg'.pb F cfg.pb e.symm) {o : SolveOptions K} {s s1 s'}
    (h1 : Reach cfg s.mach) (h2 : EvaluatedAt cfg s.mach s.u) (h3 : s.uo = s.u) (h1' : Reach cfg' s'.mach) (h2' : EvaluatedAt cfg' s'.mach s'.u) (h3' : s'.uo = s'.u) (hx : SameXP e s.u s'.u) (hi : s.iterations = s'.iterations)
    (ht : List.Forall₂ (SameXP e) s.trace s'.trace) (hns : F.Nonsingular cfg.pb s.u.x s.u.p) (hst : step (cfg.machine none) o cfg.pb.bounds s = some s1) :
    ∃ s1', step (cfg'.machine none) o cfg'.pb.bounds s' = some s1' ∧ Reach cfg s1.mach ∧ EvaluatedAt cfg s1.mach s1.u ∧ Reach cfg' s1'.mach ∧ EvaluatedAt cfg' s1'.mach s1'.u ∧ SameOutcome F cfg F' cfg' e s1 s1' := by
  obtain ⟨s0, a0, a1, a2, a3, a4, a5⟩ := X.step o h1 h2 h3
  cases hst.symm.trans a0
  obtain ⟨s1', b0, b1, b2, b3, b4, b5⟩ := X'.step o h1' h2' h3'
  have n1 := a5 hns
  rw [hx.1, hx.2] at hns n1
  have n2 := b5 (hns.transfer hf h h')
  obtain ⟨c1, c2, c3⟩ := n1.agree hf h h' hns n2
  have hp : SamePoint F cfg.pb F' cfg'.pb e s1.u s1'.u := ⟨c1, c2, c3⟩
  refine ⟨s1', b0, a1, a2, b1, b2, hp, by rw [a3, b3, hi], le_antisymm (error_same X X' hf a2 b2 hp n1.con) ?_, by rw [a4, b4]; exact .cons ⟨c1, c2⟩ ht⟩
  refine error_same X' X hf.symm b2 a2 ⟨?_, c2.symm, fun i => ?_⟩ n2.con
  · rw [c1]; funext i; simp
  · have := c3 (e.symm i)
    rw [this]
    simp

theorem loop_same (X : FreeSolve F cfg) (X' : FreeSolve F' cfg') (hf : F.SameFunctions F' e) (h : F.Rewrites cfg.pb F' cfg'.pb e) (h' : F'.Rewrites cfg'.pb F cfg.pb e.symm) {o : SolveOptions K} {s r}
    (hl : Loop (cfg.machine none) o cfg.pb.bounds s r) : ∀ t, r = some t → (∀ v ∈ t.trace, F.Nonsingular cfg.pb v.x v.p) → ∀ s', Reach cfg s.mach → EvaluatedAt cfg s.mach s.u → s.uo = s.u → Reach cfg' s'.mach → EvaluatedAt cfg' s'.mach s'.u →
      s'.uo = s'.u → SameXP e s.u s'.u → s.iterations = s'.iterations → s.u ∈ s.trace → List.Forall₂ (SameXP e) s.trace s'.trace → ∃ t', Loop (cfg'.machine none) o cfg'.pb.bounds s' (some t') ∧ SameOutcome F cfg F' cfg' e t t' := by
  have hsame : ∀ {s1 s2 s1'} {b : Bool}, stepping (cfg.machine none) o s1 = some (s2, b) → SameOutcome F cfg F' cfg' e s1 s1' → ∃ s2', stepping (cfg'.machine none) o s1' = some (s2', b) ∧ SameOutcome F cfg F' cfg' e s2 s2' := by
    intro s1 s2 s1' b hs ho
    have hq : ∃ s2' b', stepping (cfg'.machine none) o s1' = some (s2', b') := by
      unfold stepping
      dsimp only
      split_ifs
      · exact ⟨_, _, rfl⟩
      split
      · exact ⟨_, _, rfl⟩
      · rw [show (cfg'.machine none).check = none from rfl]
        exact ⟨_, _, rfl⟩
    obtain ⟨s2', b', hs'⟩ := hq
    obtain ⟨b1, b2, -, b4, b5, b6, b7⟩ := stepping_spec hs
    obtain ⟨d1, d2, -, d4, d5, d6, d7⟩ := stepping_spec hs'
    have hb : b = b' := by
      have key : b = false ↔ b' = false := by
        by_cases hi : s1.iterations ≤ o.maxiters
        · rw [(b7 hi).2, (d7 (by rw [← ho.iterations]; exact hi)).2]
          have e1 : (cfg.machine none).error s1.mach = (cfg'.machine none).error s1'.mach := ho.error
          rw [e1]
          refine or_congr Iff.rfl (and_congr Iff.rfl ⟨?_, ?_⟩)
          · rintro ⟨f, t, hc, -⟩; cases hc
          · rintro ⟨f, t, hc, -⟩; cases hc
        · exact ⟨fun _ => (d6 (by rw [← ho.iterations]; omega)).1, fun _ => (b6 (by omega)).1⟩
      cases b <;> cases b' <;> simp_all
    subst hb
    refine ⟨s2', hs', ?_⟩
    have p := ho.point
    rw [← b1, ← d1] at p
    exact ⟨p, by rw [b2, d2, ho.iterations], by rw [machine_stepping hs, machine_stepping hs', ho.error], by rw [b5, d5]; exact ho.trace⟩
  induction hl with
  | stepFails s h => intro t e; cases e
  | checkFails s s1 h h' => intro t e; cases e
  | stop s s1 s2 hs hs' =>
    rintro t ⟨⟩ hns s' h1 h2 h3 h1' h2' h3' hx hi hm ht
    have htr := X.trace (.stop s s1 s2 hs hs') _ rfl h1 h2 h3
    obtain ⟨s1', c0, c1, c2, c3, c4, c5⟩ := step_same X X' hf h h' h1 h2 h3 h1' h2' h3' hx hi ht (hns _ (htr.subset hm)) hs
    obtain ⟨s2', d1, d2⟩ := hsame hs' c5
    exact ⟨s2', .stop _ _ _ c0 d1, d2⟩
  | again s s1 s2 r hs hs' hl ih =>
    intro t et hns s' h1 h2 h3 h1' h2' h3' hx hi hm ht
    have htr := X.trace (.again s s1 s2 r hs hs' hl) _ et h1 h2 h3
    obtain ⟨s1', c0, c1, c2, c3, c4, c5⟩ := step_same X X' hf h h' h1 h2 h3 h1' h2' h3' hx hi ht (hns _ (htr.subset hm)) hs
    obtain ⟨s2', d1, d2⟩ := hsame hs' c5
    obtain ⟨a1, a2, -, -, a5, a6, a7⟩ := stepping_spec hs'
    obtain ⟨b1, b2, -, -, b5, b6, b7⟩ := stepping_spec d1
    have hle : s1.iterations ≤ o.maxiters := by
      by_contra hn
      have := (a6 (by omega)).1
      cases this
    have hmem : s1.u ∈ s1.trace := by
      obtain ⟨s0, q0, -, -, -, q4, -⟩ := X.step o h1 h2 h3
      cases hs.symm.trans q0
      rw [q4]
      exact List.mem_cons_self
    obtain ⟨t', l1, l2⟩ := ih t et hns s2' (by rw [machine_stepping hs']; exact c1) (by rw [machine_stepping hs', a1]; exact c2) ((a7 hle).1.trans a1.symm) (by rw [machine_stepping d1]; exact c3)
      (by rw [machine_stepping d1, b1]; exact c4) ((b7 (by rw [← c5.iterations]; exact hle)).1.trans b1.symm) ⟨d2.point.x, d2.point.p⟩ d2.iterations (by rw [a1, a5]; exact hmem) d2.trace
    exact ⟨t', .again _ _ _ _ c0 d1 l1, l2⟩

/-- **C71 (no bounds, independent constraints, exact arithmetic)**: two solves of the same problem written down in two ways — the variables in another order, the constraints in another order, scaled, added to each other, given as linear constraints
or by `h` — with different linear solvers, pivots, initial multipliers and memory left by earlier solves, visit the same points, report the same errors, numbers of iterations and success, and return the same point, with multipliers of the same effect. -/
theorem equivalent_formulations_partial (X : FreeSolve F cfg) (X' : FreeSolve F' cfg') (hf : F.SameFunctions F' e) (h : F.Rewrites cfg.pb F' cfg'.pb e) (h' : F'.Rewrites cfg'.pb F cfg.pb e.symm) (o : SolveOptions K)
    (user mem errors ax du) (history : History K) (u : MVec K nx np (ny + nz)) (user' mem' errors' ax' du') (history' : History K) (u' : MVec K nx' np (ny' + nz')) (hx : u.x = u'.x ∘ e) (hp : u.p = u'.p) {t}
    (ht : Solve (cfg.machine none) o cfg.pb.bounds (cfg.start user mem errors ax du) history u (some t)) (hns : ∀ v ∈ t.trace, F.Nonsingular cfg.pb v.x v.p) :
    ∃ t', (∀ r, Solve (cfg'.machine none) o cfg'.pb.bounds (cfg'.start user' mem' errors' ax' du') history' u' r ↔ r = some t') ∧ SameOutcome F cfg F' cfg' e t t' ∧
      (solveResult o t).succeeded = (solveResult o t').succeeded ∧ (solveResult o t).iterations = (solveResult o t').iterations := by
  obtain ⟨t', ht'⟩ := solve_returns X'.thr X'.eps.ge X'.debug X'.nx_pos none (noPhi X'.phi) (fun t x p q => by obtain ⟨a, b, c, -⟩ := X'.user t x p q; exact ⟨_, c⟩) (fun f hf => by cases hf) o (inBounds_consistent (X'.unbounded.inBounds u'))
    user' mem' errors' ax' du' history' u'
  have huq : ∀ r, Solve (cfg'.machine none) o cfg'.pb.bounds (cfg'.start user' mem' errors' ax' du') history' u' r ↔ r = some t' := by
    intro r
    obtain ⟨⟨r0, h0, h1⟩, -⟩ := solve_budget (cfg'.machine none) o cfg'.pb.bounds (cfg'.start user' mem' errors' ax' du') history' u'
    constructor
    · intro hr; rw [h1 r hr, h1 _ ht']
    · rintro rfl; exact ht'
  have hinv := machine_inv X.thr X.eps.ge X.nx_pos (cfg := cfg) none
  have hinv' := machine_inv X'.thr X'.eps.ge X'.nx_pos (cfg := cfg') none
  have key : SameOutcome F cfg F' cfg' e t t' := by
    cases ht with
    | run s r es hl =>
      cases ht' with
      | run s' r' es' hl' =>
        obtain ⟨su, suo, sit, -, str⟩ := solveInit_spec es
        obtain ⟨q0, p0⟩ := evalAt_inv hinv (s := { mach := cfg.start user mem errors ax du, u := clampVec cfg.pb.bounds u, uo := clampVec cfg.pb.bounds u, iterations := 0, history := history.init, trace := [] })
          (start_reach cfg user mem errors ax du) es
        obtain ⟨su', suo', sit', -, str'⟩ := solveInit_spec es'
        obtain ⟨q0', p0'⟩ := evalAt_inv hinv' (s := { mach := cfg'.start user' mem' errors' ax' du', u := clampVec cfg'.pb.bounds u', uo := clampVec cfg'.pb.bounds u', iterations := 0, history := history'.init, trace := [] })
          (start_reach cfg' user' mem' errors' ax' du') es'
        rw [clampVec_of_inBounds (X.unbounded.inBounds u)] at su suo str
        rw [clampVec_of_inBounds (X'.unbounded.inBounds u')] at su' suo' str'
        obtain ⟨t2, l1, l2⟩ := loop_same X X' hf h h' hl t rfl hns s' q0 p0 (suo.trans su.symm) q0' p0' (suo'.trans su'.symm) (by rw [su, su']; exact ⟨hx, hp⟩) (by rw [sit, sit']) (by rw [su, str]; simp)
          (by rw [str, str']; exact .cons ⟨hx, hp⟩ .nil)
        obtain ⟨r0, -, h1⟩ := loop_terminates (cfg'.machine none) o cfg'.pb.bounds s'
        have := (h1 _ l1).trans (h1 _ hl').symm
        cases this
        exact l2
  refine ⟨t', huq, key, ?_, key.iterations⟩
  change decide (t.iterations ≤ o.maxiters) = decide (t'.iterations ≤ o.maxiters)
  rw [key.iterations]

end two

/-! ### Non-vacuity

Minimise `x0²/2 - cos(x0)/4 + x1²` subject to `x0 + x1 = 2`, written down again with the variables in the other order and the constraint as `h(x) = 3 x0 + 3 x1 - 6`. -/

/-- The functions of the first problem. -/
noncomputable def wavePair : Smooth ℝ 2 0 0 where
  g := fun x _ => ![x 0 + Real.sin (x 0) / 4, 2 * x 1]
  H := fun x _ => !![1 + Real.cos (x 0) / 4, 0; 0, 2]
  Hp := 0
  hx := 0
  hp := 0
  h0 := 0
  v := 0
  vx := 0
  vp := 0

/-- The functions of the second problem. -/
noncomputable def wavePair' : Smooth ℝ 2 0 1 where
  g := fun x _ => ![2 * x 0, x 1 + Real.sin (x 1) / 4]
  H := fun x _ => !![2, 0; 0, 1 + Real.cos (x 1) / 4]
  Hp := 0
  hx := fun _ _ => 3
  hp := fun _ q => q.elim0
  h0 := fun _ => -6
  v := 0
  vx := 0
  vp := 0

/-- The second problem has no linear constraints. -/
def noLinear : MProblem ℝ 2 0 0 1 where
  Ax := fun i => i.elim0
  Ap := fun i => i.elim0
  b := fun i => i.elim0
  xlower := fun _ => none
  xupper := fun _ => none
  plower := fun _ => none
  pupper := fun _ => none

theorem wave_same : wavePair.SameFunctions wavePair' (Equiv.swap 0 1) := by
  refine ⟨fun x p => ?_, fun x p => ?_, fun x p i q => q.elim0, fun x p => funext fun q => q.elim0, fun x p r => r.elim0, fun x p => funext fun q => q.elim0⟩
  · rw [Fin.forall_fin_two]; simp [wavePair, wavePair']
  · simp only [Fin.forall_fin_two]; simp [wavePair, wavePair']

theorem wave_stack : (∀ l j, stack plane.Ax wavePair.hx l j = 1) ∧ (∀ l j, stack noLinear.Ax wavePair'.hx l j = 3) ∧ (∀ l, wavePair.rhs plane l = 2) ∧ ∀ l, wavePair'.rhs noLinear l = 6 := by
  refine ⟨fun l j => ?_, fun l j => ?_, fun l => ?_, fun l => ?_⟩
  · obtain rfl : l = Fin.castAdd 0 (0 : Fin 1) := Fin.ext (by omega); simp only [stack, Fin.addCases_left, plane]
  · obtain rfl : l = Fin.natAdd 0 (0 : Fin 1) := Fin.ext (by omega); simp only [stack, Fin.addCases_right, wavePair']
  · obtain rfl : l = Fin.castAdd 0 (0 : Fin 1) := Fin.ext (by omega); simp only [Smooth.rhs, Fin.addCases_left, plane]
  · obtain rfl : l = Fin.natAdd 0 (0 : Fin 1) := Fin.ext (by omega); simp only [Smooth.rhs, Fin.addCases_right, wavePair']; norm_num

theorem wave_rewrites : wavePair.Rewrites plane wavePair' noLinear (Equiv.swap 0 1) ∧ wavePair'.Rewrites noLinear wavePair plane (Equiv.swap 0 1 : Fin 2 ≃ Fin 2).symm := by
  obtain ⟨h1, h2, h3, h4⟩ := wave_stack
  refine ⟨⟨fun _ _ => 3, fun l j => ?_, fun l q => q.elim0, fun l => ?_⟩, ⟨fun _ _ => 1 / 3, fun l j => ?_, fun l q => q.elim0, fun l => ?_⟩⟩
  · rw [h2]; simp [h1]
  · rw [h4]; simp [h3]; norm_num
  · rw [h1]; simp [h2]
  · rw [h3]; simp [h4]; norm_num

theorem wave_nonsingular (x : Fin 2 → ℝ) (p : Fin 0 → ℝ) : wavePair.Nonsingular plane x p := by
  intro dx dp w h1 h2 h3
  refine ⟨?_, funext fun q => q.elim0⟩
  have a0 := h1 0
  have a1 := h1 1
  have a2 := h3 (Fin.castAdd 0 0)
  simp only [wave_stack.1] at a0 a1 a2
  simp [wavePair, Fin.sum_univ_two] at a0 a1 a2
  have hc := Real.neg_one_le_cos (x 0)
  have e : (3 + Real.cos (x 0) / 4) * dx 0 = 0 := by linear_combination a0 - a1 + 2 * a2
  have z0 : dx 0 = 0 := (mul_eq_zero.1 e).resolve_left (by linarith)
  have z1 : dx 1 = 0 := by rw [z0] at a2; linarith
  funext i
  revert i
  rw [Fin.forall_fin_two]
  exact ⟨z0, z1⟩

/-- From `(x0, x1) = (5, 1)`, whatever the options, the two solves visit the same points. -/
example : ∃ (cfg : Config ℝ 2 0 1 0 Unit) (cfg' : Config ℝ 2 0 0 1 Unit), cfg.pb = plane ∧ cfg'.pb = noLinear ∧ ∀ o : SolveOptions ℝ, ∃ t t',
    Solve (cfg.machine none) o cfg.pb.bounds (cfg.start () 0 ⟨0, 0, 0, 0, 0, 0, 0, 0⟩ 0 ⟨0, 0, 0⟩) (History.init default) ⟨![5, 1], 0, fun _ => 7⟩ (some t) ∧
    Solve (cfg'.machine none) o cfg'.pb.bounds (cfg'.start () 0 ⟨0, 0, 0, 0, 0, 0, 0, 0⟩ 0 ⟨0, 0, 0⟩) (History.init default) ⟨![1, 5], 0, fun _ => -2⟩ (some t') ∧
    t.iterations = t'.iterations ∧ t.u.x 0 = t'.u.x 1 ∧ t.u.x 1 = t'.u.x 0 ∧ t.u.w 0 = 3 * t'.u.w 0 := by
  obtain ⟨cfg, h1, h2, h3, h4, h5, h6, h7, h8, h9⟩ := exists_exact_config plane fun x _ =>
    { f := x 0 ^ 2 / 2 - Real.cos (x 0) / 4 + x 1 ^ 2, fx := ![x 0 + Real.sin (x 0) / 4, 2 * x 1], fxx := !![1 + Real.cos (x 0) / 4, 0; 0, 2], fxp := 0, diagfxx := true, h := 0, hx := 0, hp := 0, v := 0, vx := 0, vp := 0, succeeded := true }
  obtain ⟨cfg', k1, k2, k3, k4, k5, k6, k7, k8, k9⟩ := exists_exact_config noLinear fun x _ =>
    { f := x 1 ^ 2 / 2 - Real.cos (x 1) / 4 + x 0 ^ 2, fx := ![2 * x 0, x 1 + Real.sin (x 1) / 4], fxx := !![2, 0; 0, 1 + Real.cos (x 1) / 4], fxp := 0, diagfxx := true, h := fun _ => 3 * x 0 + 3 * x 1 - 6, hx := fun _ _ => 3, hp := 0, v := 0, vx := 0,
      vp := 0, succeeded := true }
  have X : FreeSolve wavePair cfg := ⟨by rw [h1]; exact ⟨fun i => ⟨rfl, rfl⟩, fun q => q.elim0⟩, h2, h3, h4, h5, by norm_num, h6, h7, h8,
    fun t x p q => ⟨t, _, h9 t x p q, ⟨rfl, rfl, rfl, funext fun l => l.elim0, rfl, rfl, rfl, rfl, rfl⟩⟩, by
      rw [h1]
      intro y hy
      have := hy 0
      simp only [wave_stack.1] at this
      funext l
      obtain rfl : l = 0 := Fin.ext (by omega)
      simpa using this⟩
  have X' : FreeSolve wavePair' cfg' := ⟨by rw [k1]; exact ⟨fun i => ⟨rfl, rfl⟩, fun q => q.elim0⟩, k2, k3, k4, k5, by norm_num, k6, k7, k8,
    fun t x p q => ⟨t, _, k9 t x p q, ⟨rfl, rfl, rfl, by funext l; simp [wavePair', mulVec, dotProduct, Fin.sum_univ_two]; ring, rfl, funext fun l => funext fun q => q.elim0, rfl, rfl, rfl⟩⟩, by
      rw [k1]
      intro y hy
      have := hy 0
      simp only [wave_stack.2.1] at this
      funext l
      obtain rfl : l = 0 := Fin.ext (by omega)
      simpa using this⟩
  refine ⟨cfg, cfg', h1, k1, fun o => ?_⟩
  obtain ⟨t, ht⟩ := solve_returns h2 h3.ge h4 (by norm_num) none (noPhi h6) (fun t x p q => ⟨_, h9 t x p q⟩) (fun f hf => by cases hf) o (inBounds_consistent (X.unbounded.inBounds ⟨![5, 1], 0, fun _ => 7⟩))
    () 0 ⟨0, 0, 0, 0, 0, 0, 0, 0⟩ 0 ⟨0, 0, 0⟩ (History.init default) ⟨![5, 1], 0, fun _ => 7⟩
  obtain ⟨t', a1, a2, -⟩ := equivalent_formulations_partial X X' wave_same (by rw [h1, k1]; exact wave_rewrites.1) (by rw [h1, k1]; exact wave_rewrites.2) o () 0 ⟨0, 0, 0, 0, 0, 0, 0, 0⟩ 0 ⟨0, 0, 0⟩ (History.init default) ⟨![5, 1], 0, fun _ => 7⟩
    () 0 ⟨0, 0, 0, 0, 0, 0, 0, 0⟩ 0 ⟨0, 0, 0⟩ (History.init default) ⟨![1, 5], 0, fun _ => -2⟩ (by funext i; revert i; rw [Fin.forall_fin_two]; simp) rfl ht (fun v _ => by rw [h1]; exact wave_nonsingular _ _)
  refine ⟨t, t', ht, (a1 _).2 rfl, a2.iterations, ?_, ?_, ?_⟩
  · have := congrFun a2.point.x 0; simpa using this
  · have := congrFun a2.point.x 1; simpa using this
  · have := a2.point.mult 0
    have q1 : ∀ l j, stack cfg.pb.Ax wavePair.hx l j = 1 := by rw [h1]; exact wave_stack.1
    have q2 : ∀ l j, stack cfg'.pb.Ax wavePair'.hx l j = 3 := by rw [k1]; exact wave_stack.2.1
    simp only [q1, q2] at this
    simpa using this

/-! ### In double arithmetic -/

/-- **C71 is false in double arithmetic**: from the solution `x = 1`, the constraint `x = 1` gives success at `x = 1`; multiplied by `10⁸` it gives success at `x = 0`, for the same options. -/
theorem scaling_changes_solution {o : SolveOptions Double} (hm : 1 ≤ o.maxiters) (htol : 0 < o.tolerance.val) (mach mach' : OneState 53) (history history' : History Double) (u : MVec Double 1 0 1) (hx : u.x 0 = 1) (hw : u.w 0 = 0) :
    (∃ t, (∀ r, Solve (feasibility (.fl 1) (.fl 1)).machine o OneProblem.bounds mach history u r ↔ r = some t) ∧ (solveResult o t).succeeded = true ∧ (t.u.x 0).val = 1) ∧
    ∃ t, (∀ r, Solve (feasibility (.fl (10 ^ 8)) (.fl (10 ^ 8))).machine o OneProblem.bounds mach' history' u r ↔ r = some t) ∧ (solveResult o t).succeeded = true ∧ (t.u.x 0).val = 0 := by
  constructor
  · have hn : ((feasibility (.fl 1) (.fl 1)).newton ((feasibility (.fl 1) (.fl 1)).eval u) u).x 0 = .fl 1 ∧ ((feasibility (.fl 1) (.fl 1)).newton ((feasibility (.fl 1) (.fl 1)).eval u) u).w 0 = 0 := by
      dsimp only [OneProblem.newton, OneProblem.eval]
      rw [hx, hw]
      constructor <;> decide +kernel
    obtain ⟨t, g1, g2, g3, g4, -⟩ := (feasibility (.fl 1) (.fl 1)).one_step_solve (by norm_num) hm mach history u (fun v hvx hvw => by
      have e : OneProblem.error ((feasibility (.fl 1) (.fl 1)).eval v) = 0 := by
        dsimp only [OneProblem.error, OneProblem.eval]
        rw [hvx, hvw, hn.1, hn.2]
        decide +kernel
      rw [e, FNum.lt_iff, FNum.val_zero]
      exact htol)
    refine ⟨t, g1, g2, ?_⟩
    rw [g4, hn.1]
    decide +kernel
  · obtain ⟨t, g1, g2, -, g4, -⟩ := double_wrong_success (feasibility (.fl (10 ^ 8)) (.fl (10 ^ 8))) (by decide +kernel) rfl hm htol mach' history' u hw
    exact ⟨t, g1, g2, g4⟩

/-- The hypotheses hold for the default options. -/
example : ∃ (o : SolveOptions Double) (u : MVec Double 1 0 1), 1 ≤ o.maxiters ∧ 0 < o.tolerance.val ∧ u.x 0 = 1 ∧ u.w 0 = 0 :=
  ⟨{ maxiters := 200, tolerance := .fl (1 / 10 ^ 8), minmax := false, debug := false }, ⟨fun _ => 1, fun i => i.elim0, fun _ => 0⟩, by norm_num, by decide +kernel, rfl, rfl⟩

end Optima
