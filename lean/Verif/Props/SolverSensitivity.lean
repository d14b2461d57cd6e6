import Verif.Props.SensitivityDerivative
import Mathlib.Analysis.Calculus.Deriv.Prod

/-!
# C41 for `Solver`: the sensitivities are the derivatives of the user's solution
-/

set_option linter.unusedSectionVars false

namespace Optima

open Matrix Filter Topology

/-- The functions of the user's problem and their derivatives, depending on `x`, `p` and the parameters `c`. -/
structure UFuns (nx np nbe nbg nhe nhg nc : ℕ) where
  fx : (Fin nx → ℝ) → (Fin np → ℝ) → (Fin nc → ℝ) → Fin nx → ℝ
  fxx : (Fin nx → ℝ) → (Fin np → ℝ) → (Fin nc → ℝ) → Matrix (Fin nx) (Fin nx) ℝ
  fxp : (Fin nx → ℝ) → (Fin np → ℝ) → (Fin nc → ℝ) → Matrix (Fin nx) (Fin np) ℝ
  fxc : (Fin nx → ℝ) → (Fin np → ℝ) → (Fin nc → ℝ) → Matrix (Fin nx) (Fin nc) ℝ
  he : (Fin nx → ℝ) → (Fin np → ℝ) → (Fin nc → ℝ) → Fin nhe → ℝ
  hex : (Fin nx → ℝ) → (Fin np → ℝ) → (Fin nc → ℝ) → Matrix (Fin nhe) (Fin nx) ℝ
  hep : (Fin nx → ℝ) → (Fin np → ℝ) → (Fin nc → ℝ) → Matrix (Fin nhe) (Fin np) ℝ
  hec : (Fin nx → ℝ) → (Fin np → ℝ) → (Fin nc → ℝ) → Matrix (Fin nhe) (Fin nc) ℝ
  hg : (Fin nx → ℝ) → (Fin np → ℝ) → (Fin nc → ℝ) → Fin nhg → ℝ
  hgx : (Fin nx → ℝ) → (Fin np → ℝ) → (Fin nc → ℝ) → Matrix (Fin nhg) (Fin nx) ℝ
  hgp : (Fin nx → ℝ) → (Fin np → ℝ) → (Fin nc → ℝ) → Matrix (Fin nhg) (Fin np) ℝ
  hgc : (Fin nx → ℝ) → (Fin np → ℝ) → (Fin nc → ℝ) → Matrix (Fin nhg) (Fin nc) ℝ
  v : (Fin nx → ℝ) → (Fin np → ℝ) → (Fin nc → ℝ) → Fin np → ℝ
  vx : (Fin nx → ℝ) → (Fin np → ℝ) → (Fin nc → ℝ) → Matrix (Fin np) (Fin nx) ℝ
  vp : (Fin nx → ℝ) → (Fin np → ℝ) → (Fin nc → ℝ) → Matrix (Fin np) (Fin np) ℝ
  vc : (Fin nx → ℝ) → (Fin np → ℝ) → (Fin nc → ℝ) → Matrix (Fin np) (Fin nc) ℝ
  be : (Fin nc → ℝ) → Fin nbe → ℝ
  bg : (Fin nc → ℝ) → Fin nbg → ℝ

/-- `F` is differentiable at `(x, p, c)` with the partial derivatives `a`, `b`, `d`. -/
def JacAt {n m k : ℕ} (F : (Fin n → ℝ) → (Fin m → ℝ) → (Fin k → ℝ) → ℝ) (x : Fin n → ℝ) (p : Fin m → ℝ) (c : Fin k → ℝ) (a : Fin n → ℝ) (b : Fin m → ℝ) (d : Fin k → ℝ) : Prop :=
  ∃ L : ((Fin n → ℝ) × (Fin m → ℝ) × (Fin k → ℝ)) →L[ℝ] ℝ, HasFDerivAt (fun u : (Fin n → ℝ) × (Fin m → ℝ) × (Fin k → ℝ) => F u.1 u.2.1 u.2.2) L (x, p, c) ∧
    ∀ dx dp dc, L (dx, dp, dc) = ∑ j, a j * dx j + ∑ q, b q * dp q + ∑ k, d k * dc k

section
variable {τ : Type*} {nx np nbe nbg nhe nhg nc : ℕ}

/-- The matrices are the derivatives of the functions at `(x, p, c)`; `bec`, `bgc` those of `be`, `bg`. -/
structure UFuns.Derivs (U : UFuns nx np nbe nbg nhe nhg nc) (P : UProblem τ ℝ nx np nbe nbg nhe nhg nc) (x : Fin nx → ℝ) (p : Fin np → ℝ) (c : Fin nc → ℝ) : Prop where
  fx : ∀ j, JacAt (fun x p c => U.fx x p c j) x p c (U.fxx x p c j) (U.fxp x p c j) (U.fxc x p c j)
  he : ∀ l, JacAt (fun x p c => U.he x p c l) x p c (U.hex x p c l) (U.hep x p c l) (U.hec x p c l)
  hg : ∀ l, JacAt (fun x p c => U.hg x p c l) x p c (U.hgx x p c l) (U.hgp x p c l) (U.hgc x p c l)
  v : ∀ q, JacAt (fun x p c => U.v x p c q) x p c (U.vx x p c q) (U.vp x p c q) (U.vc x p c q)
  be : ∀ l, JacAt (fun (_ : Fin 0 → ℝ) (_ : Fin 0 → ℝ) c => U.be c l) 0 0 c 0 0 (P.bec l)
  bg : ∀ l, JacAt (fun (_ : Fin 0 → ℝ) (_ : Fin 0 → ℝ) c => U.bg c l) 0 0 c 0 0 (P.bgc l)

/-- The user's code returns these values and derivatives when it is asked for all of them. -/
structure UFuns.Implemented (U : UFuns nx np nbe nbg nhe nhg nc) (P : UProblem τ ℝ nx np nbe nbg nhe nhg nc) : Prop where
  f : ∃ fn, P.f.fn = some fn ∧ ∀ t x p o t' q, o.ddx = true → o.ddp = decide (np ≠ 0) → o.ddc = decide (nc ≠ 0) → fn t cleanObj x p P.c o = some (t', q) →
    q.fx = U.fx x p P.c ∧ q.fxx = U.fxx x p P.c ∧ q.fxp = U.fxp x p P.c ∧ q.fxc = U.fxc x p P.c
  he : ∃ fn, P.he.fn = some fn ∧ ∀ t x p o t' q, o.ddx = true → o.ddp = decide (np ≠ 0) → o.ddc = decide (nc ≠ 0) → fn t cleanCon x p P.c o = some (t', q) →
    q.val = U.he x p P.c ∧ q.ddx = U.hex x p P.c ∧ q.ddp = U.hep x p P.c ∧ q.ddc = U.hec x p P.c
  hg : ∃ fn, P.hg.fn = some fn ∧ ∀ t x p o t' q, o.ddx = true → o.ddp = decide (np ≠ 0) → o.ddc = decide (nc ≠ 0) → fn t cleanCon x p P.c o = some (t', q) →
    q.val = U.hg x p P.c ∧ q.ddx = U.hgx x p P.c ∧ q.ddp = U.hgp x p P.c ∧ q.ddc = U.hgc x p P.c
  v : ∃ fn, P.v.fn = some fn ∧ ∀ t x p o t' q, o.ddx = true → o.ddp = decide (np ≠ 0) → o.ddc = decide (nc ≠ 0) → fn t cleanCon x p P.c o = some (t', q) →
    q.val = U.v x p P.c ∧ q.ddx = U.vx x p P.c ∧ q.ddp = U.vp x p P.c ∧ q.ddc = U.vc x p P.c

/-- The derivatives that the master problem's functions return. -/
structure MasterDerivs (U : UFuns nx np nbe nbg nhe nhg nc) (x : Fin nx → ℝ) (p : Fin np → ℝ) (c : Fin nc → ℝ) (ev : Evals ℝ (nx + nbg + nhg) np (nhe + nhg)) (m : ResMem ℝ (nx + nbg + nhg) np (nhe + nhg) nc) : Prop where
  fx : ev.fx = cat3 (U.fx x p c) (fun _ => 0) (fun _ => 0)
  fxx : ev.fxx = fun i j => cat3 (fun i => cat3 (U.fxx x p c i) (fun _ => 0) (fun _ => 0) j) (fun _ => 0) (fun _ => 0) i
  fxp : ev.fxp = fun i j => cat3 (fun i => U.fxp x p c i j) (fun _ => 0) (fun _ => 0) i
  hx : ev.hx = fun i j => cat2 (fun i => cat3 (U.hex x p c i) (fun _ => 0) (fun _ => 0) j) (fun i => cat3 (U.hgx x p c i) (fun _ => 0) (fun k => if i = k then 1 else 0) j) i
  hp : ev.hp = fun i j => cat2 (fun i => U.hep x p c i j) (fun i => U.hgp x p c i j) i
  vx : ev.vx = fun i j => cat3 (U.vx x p c i) (fun _ => 0) (fun _ => 0) j
  vp : ev.vp = U.vp x p c
  fxc : m.f.fxc = fun i j => cat3 (fun i => U.fxc x p c i j) (fun _ => 0) (fun _ => 0) i
  hc : m.h.ddc = fun i j => cat2 (fun i => U.hec x p c i j) (fun i => U.hgc x p c i j) i
  vc : m.v.ddc = U.vc x p c

theorem master_derivs {U : UFuns nx np nbe nbg nhe nhg nc} {P : UProblem τ ℝ nx np nbe nbg nhe nhg nc} (hU : U.Implemented P) {first : List ℕ} {s s' : τ × ResMem ℝ (nx + nbg + nhg) np (nhe + nhg) nc}
    {xbar : Fin (nx + nbg + nhg) → ℝ} {p : Fin np → ℝ} {q : Option (Ech.RWQ ℝ (nx + nbg + nhg) np (nbe + nbg + (nhe + nhg)))} {ev}
    (h : userCode (masterFuns P) P.c first true true true s xbar p q = some (s', ev)) : MasterDerivs U (fun i => xbar (ixX nbg nhg i)) p P.c ev s'.2 := by
  obtain ⟨ff, hff, hf⟩ := hU.f
  obtain ⟨fe, hfe, he⟩ := hU.he
  obtain ⟨fg, hfg, hg⟩ := hU.hg
  obtain ⟨fv, hfv, hv⟩ := hU.v
  have ef : P.f = ⟨some ff⟩ := by rw [← hff]
  have ee : P.he = ⟨some fe⟩ := by rw [← hfe]
  have eg : P.hg = ⟨some fg⟩ := by rw [← hfg]
  have ev' : P.v = ⟨some fv⟩ := by rw [← hfv]
  unfold userCode at h
  split at h
  · cases h
  rename_i t m ok hfe
  simp only [Option.some.injEq, Prod.mk.injEq] at h
  obtain ⟨rfl, rfl⟩ := h
  unfold functionEvals at hfe
  dsimp only at hfe
  split at hfe
  · cases hfe
  split at hfe
  · cases hfe
  rename_i t2 fres h2
  split at hfe
  · cases hfe
  rename_i t3 hres h3
  split at hfe
  · cases hfe
  rename_i t4 vres h4
  simp only [Option.some.injEq, Prod.mk.injEq] at hfe
  obtain ⟨-, rfl, -⟩ := hfe
  rw [show (masterFuns P).f = ⟨some (masterF (nbg := nbg) (nhg := nhg) P.f)⟩ from rfl, objective_sees_clean, ef, masterF_spec] at h2
  obtain ⟨q1, h2, -, f2, f3, f4, f5, f6, f7, f8, f9, f10, f11, f12, f13, f14, f15, -⟩ := h2
  obtain ⟨k1, k2, k3, k4⟩ := hf _ _ _ _ _ _ rfl rfl rfl h2
  have keyh : (hres.ddx = fun i j => cat2 (fun i => cat3 (U.hex (fun i => xbar (ixX nbg nhg i)) p P.c i) (fun _ => 0) (fun _ => 0) j)
      (fun i => cat3 (U.hgx (fun i => xbar (ixX nbg nhg i)) p P.c i) (fun _ => 0) (fun k => if i = k then 1 else 0) j) i) ∧
      (hres.ddp = fun i j => cat2 (fun i => U.hep (fun i => xbar (ixX nbg nhg i)) p P.c i j) (fun i => U.hgp (fun i => xbar (ixX nbg nhg i)) p P.c i j) i) ∧
      (hres.ddc = fun i j => cat2 (fun i => U.hec (fun i => xbar (ixX nbg nhg i)) p P.c i j) (fun i => U.hgc (fun i => xbar (ixX nbg nhg i)) p P.c i j) i) := by
    by_cases hz : nhe + nhg ≠ 0
    · rw [if_pos hz, show (masterFuns P).h = ⟨some (masterH (nbg := nbg) P.he P.hg)⟩ from rfl, constraint_sees_clean, ee, eg, masterH_spec] at h3
      obtain ⟨t1, e, g, h5, h6, a1, a2, a3, a4, a5, a6, a7, a8, a9, a10, a11, a12, -⟩ := h3
      obtain ⟨-, b2, b3, b4⟩ := he _ _ _ _ _ _ rfl rfl rfl h5
      obtain ⟨-, c2, c3, c4⟩ := hg _ _ _ _ _ _ rfl rfl rfl h6
      refine ⟨?_, ?_, ?_⟩
      · ext i j
        revert i
        rw [forall_cat2]
        refine ⟨fun i => ?_, fun i => ?_⟩ <;> revert j <;> rw [forall_xbar] <;> simp [a3, a4, a5, a6, a7, a8, b2, c2]
      · ext i j
        revert i
        rw [forall_cat2]
        simp [a9, a10, b3, c3]
      · ext i j
        revert i
        rw [forall_cat2]
        simp [a11, a12, b4, c4]
    · refine ⟨funext fun i => ?_, funext fun i => ?_, funext fun i => ?_⟩ <;> exact absurd i.2 (by omega)
  have keyv : (vres.ddx = fun i j => cat3 (U.vx (fun i => xbar (ixX nbg nhg i)) p P.c i) (fun _ => 0) (fun _ => 0) j) ∧ vres.ddp = U.vp (fun i => xbar (ixX nbg nhg i)) p P.c ∧
      vres.ddc = U.vc (fun i => xbar (ixX nbg nhg i)) p P.c := by
    by_cases hp : np ≠ 0
    · rw [if_pos hp, show (masterFuns P).v = ⟨some (masterV (nbg := nbg) (nhg := nhg) P.v)⟩ from rfl, constraint_sees_clean, ev', masterV_spec] at h4
      obtain ⟨q2, h5, a1, a2, a3, a4, a5, a6, -⟩ := h4
      obtain ⟨b1, b2, b3, b4⟩ := hv _ _ _ _ _ _ rfl rfl rfl h5
      refine ⟨?_, a5.trans b3, a6.trans b4⟩
      ext i j
      revert j
      rw [forall_xbar]
      simp [a2, a3, a4, b2]
    · refine ⟨funext fun i => ?_, funext fun i => ?_, funext fun i => ?_⟩ <;> exact absurd i.2 (by omega)
  refine ⟨?_, ?_, ?_, keyh.1, keyh.2.1, keyv.1, keyv.2.1, ?_, keyh.2.2, keyv.2.2⟩
  · refine ext_xbar (fun i => ?_) (fun i => ?_) (fun i => ?_)
    · refine (f2 i).trans ?_
      rw [k1]
      simp
    · refine (f3 i).trans ?_
      simp
    · refine (f4 i).trans ?_
      simp
  · change fres.fxx = _
    ext i j
    revert i
    rw [forall_xbar]
    refine ⟨fun i => ?_, by simp [f6], by simp [f7]⟩
    revert j
    rw [forall_xbar]
    simp [f5, f8, f9, k2]
  · change fres.fxp = _
    ext i j
    revert i
    rw [forall_xbar]
    simp [f10, f11, f12, k3]
  · ext i j
    revert i
    rw [forall_xbar]
    simp [f13, f14, f15, k4]

/-- The parameters moving with unit speed in direction `i`. -/
def movePar (c : Fin nc → ℝ) (i : Fin nc) (t : ℝ) : Fin nc → ℝ := fun k => c k + if k = i then t else 0

/-- The chain rule along a family of points. -/
theorem JacAt.chain {n m : ℕ} {F : (Fin n → ℝ) → (Fin m → ℝ) → (Fin nc → ℝ) → ℝ} {c : Fin nc → ℝ} {i : Fin nc} {x : ℝ → Fin n → ℝ} {p : ℝ → Fin m → ℝ} {x' : Fin n → ℝ} {p' : Fin m → ℝ} {a b d}
    (h : JacAt F (x 0) (p 0) c a b d) (hx : ∀ j, HasDerivAt (fun t => x t j) (x' j) 0) (hp : ∀ j, HasDerivAt (fun t => p t j) (p' j) 0) :
    HasDerivAt (fun t => F (x t) (p t) (movePar c i t)) (∑ j, a j * x' j + ∑ q, b q * p' q + d i) 0 := by
  obtain ⟨L, hL, e⟩ := h
  have h1 : HasDerivAt x x' 0 := hasDerivAt_pi.2 hx
  have h2 : HasDerivAt p p' 0 := hasDerivAt_pi.2 hp
  have h3 : HasDerivAt (movePar c i) (fun k => if k = i then 1 else 0) 0 := by
    rw [hasDerivAt_pi]
    intro k
    unfold movePar
    by_cases hk : k = i
    · simpa [hk] using (hasDerivAt_id (0 : ℝ)).const_add (c i)
    · simpa [hk] using hasDerivAt_const (0 : ℝ) (c k)
  have h4 : HasDerivAt (fun t => (x t, p t, movePar c i t)) (x', p', fun k => if k = i then 1 else 0) 0 := h1.prodMk (h2.prodMk h3)
  have e0 : (x 0, p 0, movePar c i 0) = (x 0, p 0, c) := by
    have : movePar c i 0 = c := by funext k; simp [movePar]
    rw [this]
  rw [← e0] at hL
  have := HasFDerivAt.comp_hasDerivAt (0 : ℝ) hL h4
  rw [e] at this
  simpa using! this

/-- A family of points of the user's problem, with multipliers. -/
structure UFamily (nx np nbe nbg nhe nhg : ℕ) where
  x : ℝ → Fin nx → ℝ
  p : ℝ → Fin np → ℝ
  ye : ℝ → Fin nbe → ℝ
  yg : ℝ → Fin nbg → ℝ
  ze : ℝ → Fin nhe → ℝ
  zg : ℝ → Fin nhg → ℝ

/-- The multipliers of the bounds, `s = g + Aex' ye + Agx' yg + hex' ze + hgx' zg`, with the parameters `c`. -/
def UFamily.s (F : UFamily nx np nbe nbg nhe nhg) (P : UProblem τ ℝ nx np nbe nbg nhe nhg nc) (U : UFuns nx np nbe nbg nhe nhg nc) (i : Fin nc) (t : ℝ) (j : Fin nx) : ℝ :=
  U.fx (F.x t) (F.p t) (movePar P.c i t) j + ∑ l, P.Aex l j * F.ye t l + ∑ l, P.Agx l j * F.yg t l + ∑ l, U.hex (F.x t) (F.p t) (movePar P.c i t) l j * F.ze t l +
    ∑ l, U.hgx (F.x t) (F.p t) (movePar P.c i t) l j * F.zg t l

/-- The slacks of the inequality constraints. -/
def UFamily.xbg (F : UFamily nx np nbe nbg nhe nhg) (P : UProblem τ ℝ nx np nbe nbg nhe nhg nc) (U : UFuns nx np nbe nbg nhe nhg nc) (i : Fin nc) (t : ℝ) (l : Fin nbg) : ℝ :=
  U.bg (movePar P.c i t) l - ∑ j, P.Agx l j * F.x t j - ∑ q, P.Agp l q * F.p t q
def UFamily.xhg (F : UFamily nx np nbe nbg nhe nhg) (P : UProblem τ ℝ nx np nbe nbg nhe nhg nc) (U : UFuns nx np nbe nbg nhe nhg nc) (i : Fin nc) (t : ℝ) (l : Fin nhg) : ℝ :=
  -U.hg (F.x t) (F.p t) (movePar P.c i t) l

/-- Which variables and inequality constraints are active with a non-zero multiplier at `t = 0`. -/
structure Active (nx nbg nhg : ℕ) where
  x : Fin nx → Prop
  bg : Fin nbg → Prop
  hg : Fin nhg → Prop

def UFamily.active (F : UFamily nx np nbe nbg nhe nhg) (P : UProblem τ ℝ nx np nbe nbg nhe nhg nc) (U : UFuns nx np nbe nbg nhe nhg nc) (i : Fin nc) : Active nx nbg nhg where
  x j := (P.xlower j = some (F.x 0 j) ∧ 0 < F.s P U i 0 j) ∨ (P.xupper j = some (F.x 0 j) ∧ F.s P U i 0 j < 0)
  bg l := F.xbg P U i 0 l = 0 ∧ F.yg 0 l < 0
  hg l := F.xhg P U i 0 l = 0 ∧ F.zg 0 l < 0

/-- The KKT equations of the user's problem with the parameters `c + t e_i`, for `t` near zero, with a constant active set. -/
structure UFamily.Kkt (F : UFamily nx np nbe nbg nhe nhg) (P : UProblem τ ℝ nx np nbe nbg nhe nhg nc) (U : UFuns nx np nbe nbg nhe nhg nc) (i : Fin nc) : Prop where
  free : ∀ᶠ t in 𝓝 0, ∀ j, ¬ (F.active P U i).x j → F.s P U i t j = 0
  held : ∀ᶠ t in 𝓝 0, ∀ j, (F.active P U i).x j → F.x t j = F.x 0 j
  v : ∀ᶠ t in 𝓝 0, U.v (F.x t) (F.p t) (movePar P.c i t) = 0
  be : ∀ᶠ t in 𝓝 0, ∀ l, ∑ j, P.Aex l j * F.x t j + ∑ q, P.Aep l q * F.p t q = U.be (movePar P.c i t) l
  he : ∀ᶠ t in 𝓝 0, U.he (F.x t) (F.p t) (movePar P.c i t) = 0
  bg : ∀ᶠ t in 𝓝 0, ∀ l, ((F.active P U i).bg l → F.xbg P U i t l = 0) ∧ (¬ (F.active P U i).bg l → F.yg t l = 0)
  hg : ∀ᶠ t in 𝓝 0, ∀ l, ((F.active P U i).hg l → F.xhg P U i t l = 0) ∧ (¬ (F.active P U i).hg l → F.zg t l = 0)

/-- The linearised equations for the direction `(dx, dp, dye, dyg, dze, dzg)`. -/
structure ULin (P : UProblem τ ℝ nx np nbe nbg nhe nhg nc) (U : UFuns nx np nbe nbg nhe nhg nc) (x : Fin nx → ℝ) (p : Fin np → ℝ) (a : Active nx nbg nhg) (dx : Fin nx → ℝ) (dp : Fin np → ℝ) (dye : Fin nbe → ℝ) (dyg : Fin nbg → ℝ)
    (dze : Fin nhe → ℝ) (dzg : Fin nhg → ℝ) : Prop where
  free : ∀ j, ¬ a.x j → ∑ k, U.fxx x p P.c j k * dx k + ∑ q, U.fxp x p P.c j q * dp q + ∑ l, P.Aex l j * dye l + ∑ l, P.Agx l j * dyg l + ∑ l, U.hex x p P.c l j * dze l + ∑ l, U.hgx x p P.c l j * dzg l = 0
  held : ∀ j, a.x j → dx j = 0
  v : ∀ q, ∑ j, U.vx x p P.c q j * dx j + ∑ r, U.vp x p P.c q r * dp r = 0
  be : ∀ l, ∑ j, P.Aex l j * dx j + ∑ q, P.Aep l q * dp q = 0
  he : ∀ l, ∑ j, U.hex x p P.c l j * dx j + ∑ q, U.hep x p P.c l q * dp q = 0
  bg : ∀ l, (a.bg l → ∑ j, P.Agx l j * dx j + ∑ q, P.Agp l q * dp q = 0) ∧ (¬ a.bg l → dyg l = 0)
  hg : ∀ l, (a.hg l → ∑ j, U.hgx x p P.c l j * dx j + ∑ q, U.hgp x p P.c l q * dp q = 0) ∧ (¬ a.hg l → dzg l = 0)

/-- The derivative of a family at `t = 0`, and the derivatives of the Jacobians along it. -/
structure UTangent (nx np nbe nbg nhe nhg : ℕ) where
  x' : Fin nx → ℝ
  p' : Fin np → ℝ
  ye' : Fin nbe → ℝ
  yg' : Fin nbg → ℝ
  ze' : Fin nhe → ℝ
  zg' : Fin nhg → ℝ
  hex' : Matrix (Fin nhe) (Fin nx) ℝ
  hgx' : Matrix (Fin nhg) (Fin nx) ℝ

structure UFamily.Smooth (F : UFamily nx np nbe nbg nhe nhg) (P : UProblem τ ℝ nx np nbe nbg nhe nhg nc) (U : UFuns nx np nbe nbg nhe nhg nc) (i : Fin nc) (T : UTangent nx np nbe nbg nhe nhg) : Prop where
  x : ∀ j, HasDerivAt (fun t => F.x t j) (T.x' j) 0
  p : ∀ j, HasDerivAt (fun t => F.p t j) (T.p' j) 0
  ye : ∀ j, HasDerivAt (fun t => F.ye t j) (T.ye' j) 0
  yg : ∀ j, HasDerivAt (fun t => F.yg t j) (T.yg' j) 0
  ze : ∀ j, HasDerivAt (fun t => F.ze t j) (T.ze' j) 0
  zg : ∀ j, HasDerivAt (fun t => F.zg t j) (T.zg' j) 0
  hex : ∀ l j, HasDerivAt (fun t => U.hex (F.x t) (F.p t) (movePar P.c i t) l j) (T.hex' l j) 0
  hgx : ∀ l j, HasDerivAt (fun t => U.hgx (F.x t) (F.p t) (movePar P.c i t) l j) (T.hgx' l j) 0

/-- The derivatives of the slacks. -/
def UTangent.xbg' (T : UTangent nx np nbe nbg nhe nhg) (P : UProblem τ ℝ nx np nbe nbg nhe nhg nc) (i : Fin nc) (l : Fin nbg) : ℝ := P.bgc l i - ∑ j, P.Agx l j * T.x' j - ∑ q, P.Agp l q * T.p' q
def UTangent.xhg' (T : UTangent nx np nbe nbg nhe nhg) (P : UProblem τ ℝ nx np nbe nbg nhe nhg nc) (U : UFuns nx np nbe nbg nhe nhg nc) (x : Fin nx → ℝ) (p : Fin np → ℝ) (i : Fin nc) (l : Fin nhg) : ℝ :=
  -(∑ j, U.hgx x p P.c l j * T.x' j + ∑ q, U.hgp x p P.c l q * T.p' q + U.hgc x p P.c l i)

theorem movePar_zero (c : Fin nc → ℝ) (i : Fin nc) : movePar c i 0 = c := by funext k; simp [movePar]

section family
variable {F : UFamily nx np nbe nbg nhe nhg} {P : UProblem τ ℝ nx np nbe nbg nhe nhg nc} {U : UFuns nx np nbe nbg nhe nhg nc} {i : Fin nc} {T : UTangent nx np nbe nbg nhe nhg}

theorem xbg_deriv (hD : U.Derivs P (F.x 0) (F.p 0) P.c) (hF : F.Smooth P U i T) (l : Fin nbg) : HasDerivAt (fun t => F.xbg P U i t l) (T.xbg' P i l) 0 := by
  have h1 : HasDerivAt (fun t => U.bg (movePar P.c i t) l) (P.bgc l i) 0 := by
    have := JacAt.chain (x := fun _ => 0) (p := fun _ => 0) (x' := 0) (p' := 0) (i := i) (hD.bg l) (fun j => j.elim0) (fun j => j.elim0)
    simpa using this
  exact (h1.sub (HasDerivAt.fun_sum fun j _ => (hF.x j).const_mul _)).sub (HasDerivAt.fun_sum fun q _ => (hF.p q).const_mul _)

theorem xhg_deriv (hD : U.Derivs P (F.x 0) (F.p 0) P.c) (hF : F.Smooth P U i T) (l : Fin nhg) : HasDerivAt (fun t => F.xhg P U i t l) (T.xhg' P U (F.x 0) (F.p 0) i l) 0 :=
  (JacAt.chain (hD.hg l) hF.x hF.p).neg

/-- The family in the variables of the master problem. -/
def UFamily.master (F : UFamily nx np nbe nbg nhe nhg) (P : UProblem τ ℝ nx np nbe nbg nhe nhg nc) (U : UFuns nx np nbe nbg nhe nhg nc) (i : Fin nc) (T : UTangent nx np nbe nbg nhe nhg) :
    Family (nx + nbg + nhg) np (nbe + nbg) (nhe + nhg) where
  x := fun t => cat3 (F.x t) (F.xbg P U i t) (F.xhg P U i t)
  p := F.p
  w := fun t => cat2 (cat2 (F.ye t) (F.yg t)) (cat2 (F.ze t) (F.zg t))
  g := fun t => cat3 (U.fx (F.x t) (F.p t) (movePar P.c i t)) (fun _ => 0) (fun _ => 0)
  h := fun t => cat2 (U.he (F.x t) (F.p t) (movePar P.c i t)) (fun l => U.hg (F.x t) (F.p t) (movePar P.c i t) l + F.xhg P U i t l)
  hx := fun t k j => cat2 (fun k => cat3 (U.hex (F.x t) (F.p t) (movePar P.c i t) k) (fun _ => 0) (fun _ => 0) j)
    (fun k => cat3 (U.hgx (F.x t) (F.p t) (movePar P.c i t) k) (fun _ => 0) (fun m => if k = m then 1 else 0) j) k
  v := fun t => U.v (F.x t) (F.p t) (movePar P.c i t)
  b := fun t => cat2 (U.be (movePar P.c i t)) (U.bg (movePar P.c i t))
  x' := cat3 T.x' (T.xbg' P i) (T.xhg' P U (F.x 0) (F.p 0) i)
  p' := T.p'
  w' := cat2 (cat2 T.ye' T.yg') (cat2 T.ze' T.zg')
  hx' := fun k j => cat2 (fun k => cat3 (T.hex' k) (fun _ => 0) (fun _ => 0) j) (fun k => cat3 (T.hgx' k) (fun _ => 0) (fun _ => 0) j) k

theorem master_smooth (hD : U.Derivs P (F.x 0) (F.p 0) P.c) (hF : F.Smooth P U i T) {ev m} (hev : MasterDerivs (nbg := nbg) U (F.x 0) (F.p 0) P.c ev m) :
    (F.master P U i T).Smooth ev m.f.fxc m.h.ddc m.v.ddc (masterBc P) i where
  x := forall_xbar.2 ⟨fun j => by simpa [UFamily.master] using hF.x j, fun l => by simpa [UFamily.master] using xbg_deriv hD hF l, fun l => by simpa [UFamily.master] using xhg_deriv hD hF l⟩
  p := hF.p
  w := by
    refine forall_cat2.2 ⟨forall_cat2.2 ⟨fun l => ?_, fun l => ?_⟩, forall_cat2.2 ⟨fun l => ?_, fun l => ?_⟩⟩
    · simpa [UFamily.master] using hF.ye l
    · simpa [UFamily.master] using hF.yg l
    · simpa [UFamily.master] using hF.ze l
    · simpa [UFamily.master] using hF.zg l
  g := by
    rw [hev.fxx, hev.fxp, hev.fxc]
    refine forall_xbar.2 ⟨fun j => ?_, fun l => ?_, fun l => ?_⟩
    · have := JacAt.chain (i := i) (hD.fx j) hF.x hF.p
      simpa [UFamily.master, sum_xbar] using this
    · simpa [UFamily.master, sum_xbar] using hasDerivAt_const (0 : ℝ) (0 : ℝ)
    · simpa [UFamily.master, sum_xbar] using hasDerivAt_const (0 : ℝ) (0 : ℝ)
  h := by
    rw [hev.hx, hev.hp, hev.hc]
    refine forall_cat2.2 ⟨fun l => ?_, fun l => ?_⟩
    · have := JacAt.chain (i := i) (hD.he l) hF.x hF.p
      simpa [UFamily.master, sum_xbar] using this
    · have e := (JacAt.chain (i := i) (hD.hg l) hF.x hF.p).add (xhg_deriv hD hF l)
      simp only [UFamily.master, cat2, Fin.addCases_right]
      refine e.congr_deriv ?_
      rw [sum_xbar]
      simp [UTangent.xhg']
      ring
  v := by
    intro q
    have := JacAt.chain (i := i) (hD.v q) hF.x hF.p
    rw [hev.vx, hev.vp, hev.vc]
    simpa [UFamily.master, sum_xbar] using this
  b := by
    refine forall_cat2.2 ⟨fun l => ?_, fun l => ?_⟩
    · have := JacAt.chain (x := fun _ => 0) (p := fun _ => 0) (x' := 0) (p' := 0) (i := i) (hD.be l) (fun j => j.elim0) (fun j => j.elim0)
      simpa [UFamily.master, masterBc] using this
    · have := JacAt.chain (x := fun _ => 0) (p := fun _ => 0) (x' := 0) (p' := 0) (i := i) (hD.bg l) (fun j => j.elim0) (fun j => j.elim0)
      simpa [UFamily.master, masterBc] using this
  hx := by
    refine forall_cat2.2 ⟨fun l => forall_xbar.2 ⟨fun j => ?_, fun j => ?_, fun j => ?_⟩, fun l => forall_xbar.2 ⟨fun j => ?_, fun j => ?_, fun j => ?_⟩⟩
    · simpa [UFamily.master] using hF.hex l j
    · simpa [UFamily.master] using hasDerivAt_const (0 : ℝ) (0 : ℝ)
    · simpa [UFamily.master] using hasDerivAt_const (0 : ℝ) (0 : ℝ)
    · simpa [UFamily.master] using hF.hgx l j
    · simpa [UFamily.master] using hasDerivAt_const (0 : ℝ) (0 : ℝ)
    · simpa [UFamily.master] using hasDerivAt_const (0 : ℝ) (if l = j then (1 : ℝ) else 0)
  hx0 := by
    rw [hev.hx]
    simp only [UFamily.master, movePar_zero]
    rfl

/-- The multipliers of the master problem. -/
theorem master_s {mem} (hA : IsMasterAx P.Aex P.Agx (masterProblem P mem).Ax) (t : ℝ) :
    (∀ j, (F.master P U i T).s (masterProblem P mem).Ax t (ixX nbg nhg j) = F.s P U i t j) ∧ (∀ l, (F.master P U i T).s (masterProblem P mem).Ax t (ixBg nx nhg l) = F.yg t l) ∧
    ∀ l, (F.master P U i T).s (masterProblem P mem).Ax t (ixHg nx nbg l) = F.zg t l := by
  unfold Family.s
  refine ⟨fun j => ?_, fun l => ?_, fun l => ?_⟩ <;> rw [Fin.sum_univ_add, Fin.sum_univ_add]
  · simp [UFamily.master, hA.ex, hA.gx, UFamily.s]
    ring
  · simp [UFamily.master, hA.ebg, hA.gbg]
  · simp [UFamily.master, hA.ehg, hA.ghg]

/-- Without meta-stable variables the unstable variables are the active ones. -/
theorem unstable_active {env : Env ℝ} {mem} (hA : IsMasterAx P.Aex P.Agx (masterProblem P mem).Ax) {ev m u} {rf : RFState ℝ (nx + nbg + nhg) np (nbe + nbg) (nhe + nhg) (masterProblem P mem).Ax}
    (h : RFSpec env (masterProblem P mem) ev u rf) (hev : MasterDerivs (nbg := nbg) U (F.x 0) (F.p 0) P.c ev m) (hx : u.x = (F.master P U i T).x 0) (hw : u.w = (F.master P U i T).w 0) (hms : rf.status.jms = []) :
    (∀ j, ixX nbg nhg j ∈ rf.M.ju ↔ (F.active P U i).x j) ∧ (∀ l, ixBg nx nhg l ∈ rf.M.ju ↔ (F.active P U i).bg l) ∧ ∀ l, ixHg nx nbg l ∈ rf.M.ju ↔ (F.active P U i).hg l := by
  have hs : ∀ j, rf.status.s j = (F.master P U i T).s (masterProblem P mem).Ax 0 j := by
    intro j
    rw [h.mult, h.Wx, hw]
    unfold Family.s
    dsimp only
    rw [Fin.sum_univ_add, hev.fx, hev.hx]
    simp only [stack, Fin.addCases_left, Fin.addCases_right, UFamily.master, movePar_zero]
    ring
  obtain ⟨s1, s2, s3⟩ := master_s (F := F) (U := U) (i := i) (T := T) hA 0
  have key : ∀ j, j ∈ rf.M.ju ↔ ((masterProblem P mem).xlower j = some (u.x j) ∧ 0 < rf.status.s j) ∨ ((masterProblem P mem).xupper j = some (u.x j) ∧ rf.status.s j < 0) := by
    intro j
    constructor
    · exact fun hj => (h.unstable j hj).2
    · intro hj
      have hm : j ∉ rf.status.jms := by rw [hms]; simp
      rw [h.jms] at hm
      have h1 : 0 < rf.M.RWQ.nb := by
        by_contra h0
        exact hm ⟨fun h1 => absurd h1 h0, hj⟩
      refine h.unstable_all h1 j (fun b hb => hm ⟨fun _ => ⟨b, hb⟩, hj⟩) hj
  refine ⟨fun j => ?_, fun l => ?_, fun l => ?_⟩
  · rw [key, hs, s1, hx]
    simp [masterProblem, UFamily.master, UFamily.active]
  · rw [key, hs, s2, hx]
    simp [masterProblem, UFamily.master, UFamily.active, eq_comm]
  · rw [key, hs, s3, hx]
    simp [masterProblem, UFamily.master, UFamily.active, eq_comm]

theorem master_kkt' {mem} (hA : IsMasterAx P.Aex P.Agx (masterProblem P mem).Ax) {ju : List (Fin (nx + nbg + nhg))} (h1 : ∀ j, ixX nbg nhg j ∈ ju ↔ (F.active P U i).x j)
    (h2 : ∀ l, ixBg nx nhg l ∈ ju ↔ (F.active P U i).bg l) (h3 : ∀ l, ixHg nx nbg l ∈ ju ↔ (F.active P U i).hg l) (hK : F.Kkt P U i) : (F.master P U i T).Kkt (masterProblem P mem) ju where
  stable := by
    filter_upwards [hK.free, hK.bg, hK.hg] with t k1 k2 k3
    obtain ⟨s1, s2, s3⟩ := master_s (F := F) (U := U) (i := i) (T := T) hA t
    refine forall_xbar.2 ⟨fun j => ?_, fun l => ?_, fun l => ?_⟩
    · rw [s1, h1]; exact k1 j
    · rw [s2, h2]; exact (k2 l).2
    · rw [s3, h3]; exact (k3 l).2
  unstable := by
    filter_upwards [hK.held, hK.bg, hK.hg] with t k1 k2 k3
    refine forall_xbar.2 ⟨fun j => ?_, fun l => ?_, fun l => ?_⟩
    · rw [h1]; simpa [UFamily.master] using k1 j
    · rw [h2]
      intro ha
      have e := (k2 l).1 ha
      simp only [UFamily.master, cat3_Bg]
      rw [e]; exact ha.1.symm
    · rw [h3]
      intro ha
      have e := (k3 l).1 ha
      simp only [UFamily.master, cat3_Hg]
      rw [e]; exact ha.1.symm
  v := hK.v
  h := by
    filter_upwards [hK.he] with t k1
    refine funext (forall_cat2.2 ⟨fun l => ?_, fun l => ?_⟩)
    · simpa [UFamily.master] using congrFun k1 l
    · simp [UFamily.master, UFamily.xhg]
  b := by
    filter_upwards [hK.be] with t k1
    refine forall_cat2.2 ⟨fun l => ?_, fun l => ?_⟩
    · rw [lin_be hA]
      simpa [UFamily.master, masterProblem] using k1 l
    · rw [lin_bg hA]
      simp [UFamily.master, masterProblem, UFamily.xbg]
      ring

/-- If the linearised equations of the user's problem have only the zero solution, the Jacobian of the master problem is non-singular. -/
theorem master_nonsingular {env : Env ℝ} {mem} (hA : IsMasterAx P.Aex P.Agx (masterProblem P mem).Ax) {ev m u} {rf : RFState ℝ (nx + nbg + nhg) np (nbe + nbg) (nhe + nhg) (masterProblem P mem).Ax}
    (h : RFSpec env (masterProblem P mem) ev u rf) (hev : MasterDerivs (nbg := nbg) U (F.x 0) (F.p 0) P.c ev m) {a : Active nx nbg nhg} (h1 : ∀ j, ixX nbg nhg j ∈ rf.M.ju ↔ a.x j)
    (h2 : ∀ l, ixBg nx nhg l ∈ rf.M.ju ↔ a.bg l) (h3 : ∀ l, ixHg nx nbg l ∈ rf.M.ju ↔ a.hg l)
    (hL : ∀ dx dp dye dyg dze dzg, ULin P U (F.x 0) (F.p 0) a dx dp dye dyg dze dzg → dx = 0 ∧ dp = 0 ∧ dye = 0 ∧ dyg = 0 ∧ dze = 0 ∧ dzg = 0) :
    ∀ d, SolvesMaster rf.M ⟨0, 0, 0⟩ d → d = ⟨0, 0, 0⟩ := by
  intro d hd
  have drop : ∀ f : Fin (nx + nbg + nhg) → ℝ, ∑ j, (if j ∈ rf.M.ju then 0 else f j * d.x j) = ∑ j, f j * d.x j := fun f => Finset.sum_congr rfl fun j _ => by
    by_cases hj : j ∈ rf.M.ju
    · simp [hj, hd.unstable j hj]
    · simp [hj]
  have st := hd.stable
  have pa := hd.par
  have co := hd.constr
  simp only [drop] at st pa co
  have hw : ∀ j, ∑ l, rf.M.Wx l j * d.w l =
      (∑ l, (masterProblem P mem).Ax (Fin.castAdd nbg l) j * d.w (Fin.castAdd (nhe + nhg) (Fin.castAdd nbg l)) + ∑ l, (masterProblem P mem).Ax (Fin.natAdd nbe l) j * d.w (Fin.castAdd (nhe + nhg) (Fin.natAdd nbe l))) +
      (∑ l, ev.hx (Fin.castAdd nhg l) j * d.w (Fin.natAdd (nbe + nbg) (Fin.castAdd nhg l)) + ∑ l, ev.hx (Fin.natAdd nhe l) j * d.w (Fin.natAdd (nbe + nbg) (Fin.natAdd nhe l))) := by
    intro j
    rw [Fin.sum_univ_add, h.Wx, Fin.sum_univ_add, Fin.sum_univ_add]
    simp [stack]
  simp only [hw] at st
  have rbe : ∀ l, ∑ j, P.Aex l j * d.x (ixX nbg nhg j) + ∑ q, P.Aep l q * d.p q = 0 := by
    intro l
    have := co (Fin.castAdd _ (Fin.castAdd _ l))
    rw [h.Wx, h.Wp] at this
    simp only [stack, Fin.addCases_left] at this
    rw [lin_be hA] at this
    simpa [masterProblem] using this
  have rbg : ∀ l, ∑ j, P.Agx l j * d.x (ixX nbg nhg j) + d.x (ixBg nx nhg l) + ∑ q, P.Agp l q * d.p q = 0 := by
    intro l
    have := co (Fin.castAdd _ (Fin.natAdd _ l))
    rw [h.Wx, h.Wp] at this
    simp only [stack, Fin.addCases_left] at this
    rw [lin_bg hA] at this
    simpa [masterProblem] using this
  have rhe : ∀ l, ∑ j, U.hex (F.x 0) (F.p 0) P.c l j * d.x (ixX nbg nhg j) + ∑ q, U.hep (F.x 0) (F.p 0) P.c l q * d.p q = 0 := by
    intro l
    have := co (Fin.natAdd _ (Fin.castAdd _ l))
    rw [h.Wx, h.Wp, hev.hx, hev.hp] at this
    simpa [stack, sum_xbar] using this
  have rhg : ∀ l, ∑ j, U.hgx (F.x 0) (F.p 0) P.c l j * d.x (ixX nbg nhg j) + d.x (ixHg nx nbg l) + ∑ q, U.hgp (F.x 0) (F.p 0) P.c l q * d.p q = 0 := by
    intro l
    have := co (Fin.natAdd _ (Fin.natAdd _ l))
    rw [h.Wx, h.Wp, hev.hx, hev.hp] at this
    simpa [stack, sum_xbar] using this
  obtain ⟨e1, e2, e3, e4, e5, e6⟩ := hL (fun j => d.x (ixX nbg nhg j)) d.p (fun l => d.w (Fin.castAdd _ (Fin.castAdd _ l))) (fun l => d.w (Fin.castAdd _ (Fin.natAdd _ l)))
    (fun l => d.w (Fin.natAdd _ (Fin.castAdd _ l))) (fun l => d.w (Fin.natAdd _ (Fin.natAdd _ l))) {
      free := by
        intro j hj
        have := st (ixX nbg nhg j) (by rwa [h1])
        rw [h.Hxx, h.Hxp, hev.fxx, hev.fxp, hev.hx] at this
        simp [sum_xbar, hA.ex, hA.gx] at this
        linear_combination this
      held := fun j hj => hd.unstable _ ((h1 j).2 hj)
      v := by
        intro q
        have := pa q
        rw [h.Vpx, h.Vpp, hev.vx, hev.vp] at this
        simpa [sum_xbar] using this
      be := rbe
      he := rhe
      bg := by
        intro l
        refine ⟨fun ha => ?_, fun ha => ?_⟩
        · have e : d.x (ixBg nx nhg l) = 0 := hd.unstable _ ((h2 l).2 ha)
          have := rbg l
          rw [e] at this
          linear_combination this
        · have := st (ixBg nx nhg l) (by rwa [h2])
          rw [h.Hxx, h.Hxp, hev.fxx, hev.fxp, hev.hx] at this
          simpa [sum_xbar, hA.ebg, hA.gbg] using this
      hg := by
        intro l
        refine ⟨fun ha => ?_, fun ha => ?_⟩
        · have e : d.x (ixHg nx nbg l) = 0 := hd.unstable _ ((h3 l).2 ha)
          have := rhg l
          rw [e] at this
          linear_combination this
        · have := st (ixHg nx nbg l) (by rwa [h3])
          rw [h.Hxx, h.Hxp, hev.fxx, hev.fxp, hev.hx] at this
          simpa [sum_xbar, hA.ehg, hA.ghg] using this }
  have ex : ∀ j, d.x (ixX nbg nhg j) = 0 := fun j => congrFun e1 j
  have ep : ∀ q, d.p q = 0 := fun q => congrFun e2 q
  ext j
  · revert j
    refine forall_xbar.2 ⟨ex, fun l => ?_, fun l => ?_⟩
    · simpa [ex, ep] using rbg l
    · simpa [ex, ep] using rhg l
  · exact ep j
  · revert j
    exact forall_cat2.2 ⟨forall_cat2.2 ⟨fun l => congrFun e3 l, fun l => congrFun e4 l⟩, forall_cat2.2 ⟨fun l => congrFun e5 l, fun l => congrFun e6 l⟩⟩

/-- The curvature of the constraints in the variable `j`. -/
def UTangent.curv (T : UTangent nx np nbe nbg nhe nhg) (F : UFamily nx np nbe nbg nhe nhg) (j : Fin nx) : ℝ := ∑ l, T.hex' l j * F.ze 0 l + ∑ l, T.hgx' l j * F.zg 0 l

theorem master_curv : (∀ j, (F.master P U i T).curv (ixX nbg nhg j) = T.curv F j) ∧ (∀ l, (F.master P U i T).curv (ixBg nx nhg l) = 0) ∧ ∀ l, (F.master P U i T).curv (ixHg nx nbg l) = 0 := by
  unfold Family.curv
  refine ⟨fun j => ?_, fun l => ?_, fun l => ?_⟩ <;> rw [Fin.sum_univ_add] <;> simp [UFamily.master, UTangent.curv]

end family

/-- What the parts of the master solver hold after an evaluation. -/
theorem updateF_spec {K : Type*} [Field K] [LinearOrder K] [IsStrictOrderedRing K] {nx np ny nz : ℕ} {τ : Type*} {cfg : Config K nx np ny nz τ} (hthr : 0 ≤ cfg.env.thr) (heps : 0 ≤ cfg.env.eps) (hnx : 0 < nx) {user} {s s'} {u}
    (hq : Reach cfg s) (h : cfg.updateF user s u = some s') : ∃ t ev rf, user s.user u.x u.p s.ech.rwq = some (t, ev) ∧ s'.rf = some rf ∧ RFSpec cfg.env cfg.pb ev u rf ∧ s'.user = t := by
  unfold Config.updateF at h
  split at h
  · cases h
  · rename_i t ev hu
    rcases rfUpdate_spec hthr heps cfg.pb hq hnx s.ax ev u with ⟨rf, hrf, hspec⟩ | ⟨hf, -⟩
    · rw [hrf] at h
      cases h
      exact ⟨t, ev, rf, hu, rfl, hspec, rfl⟩
    · rw [hf] at h; cases h

/-- The computed sensitivities are the derivatives of the family. -/
structure USens.Derivative (sens : USens ℝ nx np nbe nbg nhe nhg nc) (F : UFamily nx np nbe nbg nhe nhg) (P : UProblem τ ℝ nx np nbe nbg nhe nhg nc) (U : UFuns nx np nbe nbg nhe nhg nc) (i : Fin nc) : Prop where
  x : ∀ j, HasDerivAt (fun t => F.x t j) (sens.xc j i) 0
  p : ∀ j, HasDerivAt (fun t => F.p t j) (sens.pc j i) 0
  ye : ∀ j, HasDerivAt (fun t => F.ye t j) (sens.yec j i) 0
  yg : ∀ j, HasDerivAt (fun t => F.yg t j) (sens.ygc j i) 0
  ze : ∀ j, HasDerivAt (fun t => F.ze t j) (sens.zec j i) 0
  zg : ∀ j, HasDerivAt (fun t => F.zg t j) (sens.zgc j i) 0
  xbg : ∀ l, HasDerivAt (fun t => F.xbg P U i t l) (sens.xbgc l i) 0
  xhg : ∀ l, HasDerivAt (fun t => F.xhg P U i t l) (sens.xhgc l i) 0

/-- The user's state is the point of the family at `t = 0`. -/
structure UFamily.Starts (F : UFamily nx np nbe nbg nhe nhg) (P : UProblem τ ℝ nx np nbe nbg nhe nhg nc) (U : UFuns nx np nbe nbg nhe nhg nc) (i : Fin nc) (S : UState ℝ nx np nbe nbg nhe nhg) : Prop where
  x : S.x = F.x 0
  p : S.p = F.p 0
  ye : S.ye = F.ye 0
  yg : S.yg = F.yg 0
  ze : S.ze = F.ze 0
  zg : S.zg = F.zg 0
  xbg : S.xbg = F.xbg P U i 0
  xhg : S.xhg = F.xhg P U i 0

/-- The statement of `solver_sensitivity_partial` for one run of the sensitivity solver. -/
theorem sensitivity_user {env : Env ℝ} (heps : env.eps = 0) (ho : ∀ M, (env.o M).lu.Z = 0) {P : UProblem τ ℝ nx np nbe nbg nhe nhg nc} {mem : Matrix (Fin (nbe + nbg)) (Fin (nx + nbg + nhg)) ℝ}
    (hA : IsMasterAx P.Aex P.Agx (masterProblem P mem).Ax) {ev : Evals ℝ (nx + nbg + nhg) np (nhe + nhg)} {u} {rf : RFState ℝ (nx + nbg + nhg) np (nbe + nbg) (nhe + nhg) (masterProblem P mem).Ax}
    (hspec : RFSpec env (masterProblem P mem) ev u rf) {I : Inners ℝ np rf.C.nbe rf.C.nbi rf.C.nne rf.C.nni} (hI : LUObjects rf.C I) (hms : rf.status.jms = []) {U : UFuns nx np nbe nbg nhe nhg nc} {F : UFamily nx np nbe nbg nhe nhg}
    {i : Fin nc} {T : UTangent nx np nbe nbg nhe nhg} {m : ResMem ℝ (nx + nbg + nhg) np (nhe + nhg) nc} (hev : MasterDerivs (nbg := nbg) U (F.x 0) (F.p 0) P.c ev m) (hux : u.x = (F.master P U i T).x 0)
    (huw : u.w = (F.master P U i T).w 0) (hD : U.Derivs P (F.x 0) (F.p 0) P.c) (hF : F.Smooth P U i T) (hK : F.Kkt P U i)
    (hL : ∀ dx dp dye dyg dze dzg, ULin P U (F.x 0) (F.p 0) (F.active P U i) dx dp dye dyg dze dzg → dx = 0 ∧ dp = 0 ∧ dye = 0 ∧ dyg = 0 ∧ dze = 0 ∧ dzg = 0) (r0 s0)
    {sens : USens ℝ nx np nbe nbg nhe nhg nc} (hsens : sens = unpackSens (sensSolve rf I m.f.fxc m.h.ddc m.v.ddc (masterBc P) r0 s0)) :
    (sens.Derivative F P U i ↔ ∀ j, ¬ (F.active P U i).x j → T.curv F j = 0) ∧
    (∀ j, ¬ (F.active P U i).x j → HasDerivAt (fun t => F.s P U i t j) (sens.sc j i) 0) ∧
    ((∀ j, ¬ (F.active P U i).x j → T.curv F j = 0) → ∀ j, (F.active P U i).x j →
      (HasDerivAt (fun t => F.s P U i t j) (sens.sc j i) 0 ↔ ∑ k, U.fxx (F.x 0) (F.p 0) P.c j k * T.x' k + ∑ q, U.fxp (F.x 0) (F.p 0) P.c j q * T.p' q + T.curv F j = 0)) := by
  subst hsens
  obtain ⟨a1, a2, a3⟩ := unstable_active hA hspec hev hux huw hms
  have hMK := master_kkt' (T := T) hA a1 a2 a3 hK
  have hMS := master_smooth hD hF hev
  obtain ⟨c1, c2, c3⟩ := master_curv (F := F) (P := P) (U := U) (i := i) (T := T)
  obtain ⟨k1, k2, k3, k4⟩ := sensitivity_derivative heps ho hspec hI r0 s0 (master_nonsingular hA hspec hev a1 a2 a3 hL) hms hMS hMK
  have hcurv : (∀ j, j ∉ rf.M.ju → (F.master P U i T).curv j = 0) ↔ ∀ j, ¬ (F.active P U i).x j → T.curv F j = 0 := by
    rw [forall_xbar]
    simp only [a1, c1, c2, c3, implies_true, and_true]
  have hms' : ∀ j t, (F.master P U i T).s (masterProblem P mem).Ax t (ixX nbg nhg j) = F.s P U i t j := fun j t => (master_s (F := F) (U := U) (i := i) (T := T) hA t).1 j
  have hds : ∀ j, HasDerivAt (fun t => F.s P U i t j) ((F.master P U i T).s' (masterProblem P mem).Ax ev m.f.fxc i (ixX nbg nhg j)) 0 := fun j => by simpa only [hms'] using k2 (ixX nbg nhg j)
  have hsc : ∀ j, (unpackSens (nbe := nbe) (nbg := nbg) (nhe := nhe) (nhg := nhg) (sensSolve rf I m.f.fxc m.h.ddc m.v.ddc (masterBc P) r0 s0)).sc j i = (sensSolve rf I m.f.fxc m.h.ddc m.v.ddc (masterBc P) r0 s0).sc (ixX nbg nhg j) i := fun j => rfl
  refine ⟨?_, fun j hj => ?_, fun hz j hj => ?_⟩
  · rw [← hcurv, ← k1]
    constructor
    · intro hd
      have q1 : ∀ j, _ = T.x' j := fun j => (hd.x j).unique (hF.x j)
      ext j
      · revert j
        refine forall_xbar.2 ⟨fun j => ?_, fun l => ?_, fun l => ?_⟩
        · simpa [MSens.col, UFamily.master, unpackSens] using (hd.x j).unique (hF.x j)
        · simpa [MSens.col, UFamily.master, unpackSens] using (hd.xbg l).unique (xbg_deriv hD hF l)
        · simpa [MSens.col, UFamily.master, unpackSens] using (hd.xhg l).unique (xhg_deriv hD hF l)
      · exact (hd.p j).unique (hF.p j)
      · revert j
        refine forall_cat2.2 ⟨forall_cat2.2 ⟨fun l => ?_, fun l => ?_⟩, forall_cat2.2 ⟨fun l => ?_, fun l => ?_⟩⟩
        · simpa [MSens.col, UFamily.master, unpackSens] using (hd.ye l).unique (hF.ye l)
        · simpa [MSens.col, UFamily.master, unpackSens] using (hd.yg l).unique (hF.yg l)
        · simpa [MSens.col, UFamily.master, unpackSens] using (hd.ze l).unique (hF.ze l)
        · simpa [MSens.col, UFamily.master, unpackSens] using (hd.zg l).unique (hF.zg l)
    · intro e
      have ex := fun j => congrFun (congrArg MVec.x e) j
      have ep := fun j => congrFun (congrArg MVec.p e) j
      have ew := fun j => congrFun (congrArg MVec.w e) j
      simp only [MSens.col] at ex ep ew
      refine ⟨fun j => (hF.x j).congr_deriv ?_, fun j => (hF.p j).congr_deriv ?_, fun l => (hF.ye l).congr_deriv ?_, fun l => (hF.yg l).congr_deriv ?_, fun l => (hF.ze l).congr_deriv ?_, fun l => (hF.zg l).congr_deriv ?_,
        fun l => (xbg_deriv hD hF l).congr_deriv ?_, fun l => (xhg_deriv hD hF l).congr_deriv ?_⟩
      · refine Eq.trans ?_ (ex (ixX nbg nhg j)).symm; simp [UFamily.master]
      · refine Eq.trans ?_ (ep j).symm; simp [UFamily.master]
      · refine Eq.trans ?_ (ew (Fin.castAdd _ (Fin.castAdd _ l))).symm; simp [UFamily.master]
      · refine Eq.trans ?_ (ew (Fin.castAdd _ (Fin.natAdd _ l))).symm; simp [UFamily.master]
      · refine Eq.trans ?_ (ew (Fin.natAdd _ (Fin.castAdd _ l))).symm; simp [UFamily.master]
      · refine Eq.trans ?_ (ew (Fin.natAdd _ (Fin.natAdd _ l))).symm; simp [UFamily.master]
      · refine Eq.trans ?_ (ex (ixBg nx nhg l)).symm; simp [UFamily.master]
      · refine Eq.trans ?_ (ex (ixHg nx nbg l)).symm; simp [UFamily.master]
  · refine (hds j).congr_deriv ?_
    rw [hsc, k3 _ (by rwa [a1])]
  · have := k4 (hcurv.2 hz) (ixX nbg nhg j) ((a1 j).2 hj)
    rw [← hsc, c1, hev.fxx, hev.fxp] at this
    rw [show (HasDerivAt (fun t => F.s P U i t j) ((unpackSens (nbe := nbe) (nbg := nbg) (nhe := nhe) (nhg := nhg) (sensSolve rf I m.f.fxc m.h.ddc m.v.ddc (masterBc P) r0 s0)).sc j i) 0 ↔ (unpackSens (nbe := nbe) (nbg := nbg) (nhe := nhe) (nhg := nhg) (sensSolve rf I m.f.fxc m.h.ddc m.v.ddc (masterBc P) r0 s0)).sc j i = (F.master P U i T).s' (masterProblem P mem).Ax ev m.f.fxc i (ixX nbg nhg j)) from
      ⟨fun hd => hd.unique (hds j), fun e => by rw [e]; exact hds j⟩, this]
    simp [sum_xbar, UFamily.master]

/-- **C41**: let `Solver::solve(problem, state, sensitivity)` return at a point of a family of KKT points of the user's problem with constant active set, where the linearised KKT equations have only the zero solution and no basic
    variable is held on a bound, in exact arithmetic and with the matrix of the linear constraints assembled correctly.  Then
    the computed sensitivities of `x`, `p`, `ye`, `yg`, `ze`, `zg` and of the slacks are the derivatives of the family exactly if the curvature of the constraints `he`, `hg` (weighted with the multipliers) vanishes for the
    variables that are not held: it does for constraints linear in `x` with constant coefficients, and the code leaves it out;
    those of `s` are the derivatives for the variables that are not held; for a held variable `j` they are exactly if `fxx*x' + fxp*p'` (and the curvature) vanishes there: the code leaves out this term. -/
theorem solver_sensitivity_partial {env : Env ℝ} {method : Method} {inners : ∀ c : CanonPack ℝ (nx + nbg + nhg) np (nbe + nbg + (nhe + nhg)), Inners ℝ np c.nbe c.nbi c.nne c.nni} {part : Idx.PartitionImpl ℕ} {o : SolveOptions ℝ}
    {P : UProblem τ ℝ nx np nbe nbg nhe nhg nc} {mem : Matrix (Fin (nbe + nbg)) (Fin (nx + nbg + nhg)) ℝ} {S S' : UState ℝ nx np nbe nbg nhe nhg} {result : Result ℝ} {check}
    {h : SolverReturns env method inners part o P mem S S' result check} {I : ∀ c : CanonPack ℝ (nx + nbg + nhg) np (nbe + nbg + (nhe + nhg)), Inners ℝ np c.nbe c.nbi c.nne c.nni} {sens : USens ℝ nx np nbe nbg nhe nhg nc}
    (hs : SensReturns h I sens) (hthr : 0 ≤ env.thr) (heps : env.eps = 0) (ho : ∀ M, (env.o M).lu.Z = 0) (hnx : 0 < nx) (hA : IsMasterAx P.Aex P.Agx (masterProblem P mem).Ax) (hI : ∀ c, LUObjects c (I c))
    (hms : hs.rf2.status.jms = []) {U : UFuns nx np nbe nbg nhe nhg nc} (hU : U.Implemented P) {F : UFamily nx np nbe nbg nhe nhg} {i : Fin nc} {T : UTangent nx np nbe nbg nhe nhg} (hD : U.Derivs P (F.x 0) (F.p 0) P.c)
    (hF : F.Smooth P U i T) (hK : F.Kkt P U i) (h0 : F.Starts P U i S')
    (hL : ∀ dx dp dye dyg dze dzg, ULin P U (F.x 0) (F.p 0) (F.active P U i) dx dp dye dyg dze dzg → dx = 0 ∧ dp = 0 ∧ dye = 0 ∧ dyg = 0 ∧ dze = 0 ∧ dzg = 0) :
    (sens.Derivative F P U i ↔ ∀ j, ¬ (F.active P U i).x j → T.curv F j = 0) ∧
    (∀ j, ¬ (F.active P U i).x j → HasDerivAt (fun t => F.s P U i t j) (sens.sc j i) 0) ∧
    ((∀ j, ¬ (F.active P U i).x j → T.curv F j = 0) → ∀ j, (F.active P U i).x j →
      (HasDerivAt (fun t => F.s P U i t j) (sens.sc j i) 0 ↔ ∑ k, U.fxx (F.x 0) (F.p 0) P.c j k * T.x' k + ∑ q, U.fxp (F.x 0) (F.p 0) P.c j q * T.p' q + T.curv F j = 0)) := by
  have hreach := (solve_inv (machine_inv (cfg := solverConfig env method inners P mem) hthr heps.ge (by omega) check) o _ (start_reach _ (h.t0, h.res) h.memW h.errors h.ax h.du) h.history _ _ h.solved).1
  obtain ⟨parts, rf2, r0, s0, hupd, hst, rfl⟩ := hs
  dsimp only at hms
  obtain ⟨t, ev, rf, hu, hrf, hspec, hpu⟩ := updateF_spec hthr heps.ge (by omega) hreach hupd
  obtain rfl : rf = rf2 := Option.some.inj (hrf.symm.trans hst)
  have hpk := solver_blocks h
  have hux : h.final.u.x = (F.master P U i T).x 0 := by
    rw [← hpk]; simp only [packState, UFamily.master, h0.x, h0.xbg, h0.xhg]
  have hup : h.final.u.p = F.p 0 := by rw [← hpk]; simp only [packState, h0.p]
  have huw : h.final.u.w = (F.master P U i T).w 0 := by
    rw [← hpk]; simp only [packState, UFamily.master, h0.ye, h0.yg, h0.ze, h0.zg]
  have hev : MasterDerivs (nbg := nbg) U (F.x 0) (F.p 0) P.c ev parts.user.2 := by
    have := master_derivs (nbg := nbg) hU hu
    rw [hpu]
    rwa [hup, hux, show (fun i_1 => (F.master P U i T).x 0 (ixX nbg nhg i_1)) = F.x 0 from by funext j; simp [UFamily.master]] at this
  exact sensitivity_user heps ho hA hspec (hI rf.C) hms hev hux huw hD hF hK hL r0 s0 rfl

end

end Optima
