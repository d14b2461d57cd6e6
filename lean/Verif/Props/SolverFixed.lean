import Verif.Props.FixedPoint
import Verif.Props.SolverState

/-!
# C54 for `Solver`: solutions of the user's problem are fixed points
-/

set_option linter.unusedSectionVars false

namespace Optima

open Matrix

variable {K : Type*} [Field K] [LinearOrder K] [IsStrictOrderedRing K] {τ : Type*} {nx np nbe nbg nhe nhg nc : ℕ}

/-- The values and derivatives of the user's functions at a point. -/
structure UEvals (K : Type*) (nx np nhe nhg : ℕ) where
  fx : Fin nx → K
  fxx : Matrix (Fin nx) (Fin nx) K
  fxp : Matrix (Fin nx) (Fin np) K
  he : Fin nhe → K
  hex : Matrix (Fin nhe) (Fin nx) K
  hep : Matrix (Fin nhe) (Fin np) K
  hg : Fin nhg → K
  hgx : Matrix (Fin nhg) (Fin nx) K
  hgp : Matrix (Fin nhg) (Fin np) K
  v : Fin np → K
  vx : Matrix (Fin np) (Fin nx) K
  vp : Matrix (Fin np) (Fin np) K

/-- At the point `(x, p)`, in whatever state it is, the user's code returns these values; elsewhere it may return anything or throw. -/
structure UEvals.Returned (E : UEvals K nx np nhe nhg) (P : UProblem τ K nx np nbe nbg nhe nhg nc) (x : Fin nx → K) (p : Fin np → K) : Prop where
  r : ∀ t (xbar : Fin (nx + nbg + nhg) → K) o, (∀ i, xbar (ixX nbg nhg i) = x i) → ∃ t', P.r.call t xbar p P.c o = some t'
  f : ∃ fn, P.f.fn = some fn ∧ ∀ t o, o.ddx = true → o.ddp = decide (np ≠ 0) → ∃ t' q, fn t cleanObj x p P.c o = some (t', q) ∧ q.fx = E.fx ∧ q.fxx = E.fxx ∧ q.fxp = E.fxp
  he : ∃ fn, P.he.fn = some fn ∧ ∀ t o, o.ddx = true → o.ddp = decide (np ≠ 0) → ∃ t' q, fn t cleanCon x p P.c o = some (t', q) ∧ q.val = E.he ∧ q.ddx = E.hex ∧ q.ddp = E.hep
  hg : ∃ fn, P.hg.fn = some fn ∧ ∀ t o, o.ddx = true → o.ddp = decide (np ≠ 0) → ∃ t' q, fn t cleanCon x p P.c o = some (t', q) ∧ q.val = E.hg ∧ q.ddx = E.hgx ∧ q.ddp = E.hgp
  v : ∃ fn, P.v.fn = some fn ∧ ∀ t o, o.ddx = true → o.ddp = decide (np ≠ 0) → ∃ t' q, fn t cleanCon x p P.c o = some (t', q) ∧ q.val = E.v ∧ q.ddx = E.vx ∧ q.ddp = E.vp

/-- The values and derivatives of the functions of the master problem. -/
structure UEvals.Master (E : UEvals K nx np nhe nhg) (xhg : Fin nhg → K) (ev : Evals K (nx + nbg + nhg) np (nhe + nhg)) : Prop where
  fx : ev.fx = cat3 E.fx (fun _ => 0) (fun _ => 0)
  fxx : ev.fxx = fun i j => cat3 (fun i => cat3 (E.fxx i) (fun _ => 0) (fun _ => 0) j) (fun _ => 0) (fun _ => 0) i
  fxp : ev.fxp = fun i j => cat3 (fun i => E.fxp i j) (fun _ => 0) (fun _ => 0) i
  h : ev.h = cat2 E.he (fun l => E.hg l + xhg l)
  hx : ev.hx = fun i j => cat2 (fun i => cat3 (E.hex i) (fun _ => 0) (fun _ => 0) j) (fun i => cat3 (E.hgx i) (fun _ => 0) (fun k => if i = k then 1 else 0) j) i
  hp : ev.hp = fun i j => cat2 (fun i => E.hep i j) (fun i => E.hgp i j) i
  v : ev.v = E.v
  vx : ev.vx = fun i j => cat3 (E.vx i) (fun _ => 0) (fun _ => 0) j
  vp : ev.vp = E.vp

theorem UEvals.returns {E : UEvals K nx np nhe nhg} {P : UProblem τ K nx np nbe nbg nhe nhg nc} {x : Fin nx → K} {p : Fin np → K} (hE : E.Returned P x p) (first : List ℕ) (ddc : Bool) (s : τ × ResMem K (nx + nbg + nhg) np (nhe + nhg) nc)
    {xbar : Fin (nx + nbg + nhg) → K} (hx : ∀ i, xbar (ixX nbg nhg i) = x i) (q : Option (Ech.RWQ K (nx + nbg + nhg) np (nbe + nbg + (nhe + nhg)))) :
    ∃ s' ev, userCode (masterFuns P) P.c first true true ddc s xbar p q = some (s', ev) ∧ E.Master (fun l => xbar (ixHg nx nbg l)) ev := by
  obtain ⟨ff, hff, hf⟩ := hE.f
  obtain ⟨fe, hfe, he⟩ := hE.he
  obtain ⟨fg, hfg, hg⟩ := hE.hg
  obtain ⟨fv, hfv, hv⟩ := hE.v
  have ef : P.f = ⟨some ff⟩ := by rw [← hff]
  have ee : P.he = ⟨some fe⟩ := by rw [← hfe]
  have eg : P.hg = ⟨some fg⟩ := by rw [← hfg]
  have ev' : P.v = ⟨some fv⟩ := by rw [← hfv]
  have hx' : (fun i => xbar (ixX nbg nhg i)) = x := funext hx
  let o : EvalOpts := { ddx := true, ddp := true && decide (np ≠ 0), ddc := ddc && decide (nc ≠ 0), ibasicvars := basicIndices first q }
  obtain ⟨t1, e1⟩ := hE.r s.1 xbar o hx
  have e2 : ∃ t2 fres, (masterFuns P).f.call t1 s.2.f xbar p P.c o = some (t2, fres) ∧ (fres.fx = cat3 E.fx (fun _ => 0) (fun _ => 0)) ∧
      (fres.fxx = fun i j => cat3 (fun i => cat3 (E.fxx i) (fun _ => 0) (fun _ => 0) j) (fun _ => 0) (fun _ => 0) i) ∧ fres.fxp = fun i j => cat3 (fun i => E.fxp i j) (fun _ => 0) (fun _ => 0) i := by
    obtain ⟨t2, q1, h1, k1, k2, k3⟩ := hf t1 o rfl rfl
    obtain ⟨fres, h2⟩ : ∃ fres, (masterFuns P).f.call t1 s.2.f xbar p P.c o = some (t2, fres) := by
      rw [show (masterFuns P).f = ⟨some (masterF (nbg := nbg) (nhg := nhg) P.f)⟩ from rfl, objective_sees_clean, ef]
      unfold masterF
      dsimp only
      rw [objective_sees_clean, hx', h1]
      exact ⟨_, rfl⟩
    refine ⟨t2, fres, h2, ?_⟩
    rw [show (masterFuns P).f = ⟨some (masterF (nbg := nbg) (nhg := nhg) P.f)⟩ from rfl, objective_sees_clean, ef, masterF_spec, hx'] at h2
    obtain ⟨q', h2, -, f2, f3, f4, f5, f6, f7, f8, f9, f10, f11, f12, -⟩ := h2
    rw [h1] at h2
    cases h2
    refine ⟨ext_xbar (fun i => by rw [f2, k1]; simp) (fun i => by rw [f3]; simp) (fun i => by rw [f4]; simp), ?_, ?_⟩
    · ext i j
      revert i
      rw [forall_xbar]
      refine ⟨fun i => ?_, by simp [f6], by simp [f7]⟩
      revert j
      rw [forall_xbar]
      simp [f5, f8, f9, k2]
    · ext i j
      revert i
      rw [forall_xbar]
      simp [f10, f11, f12, k3]
  obtain ⟨t2, fres, e2, f1, f2, f3⟩ := e2
  have e3 : ∃ t3 hres, (if nhe + nhg ≠ 0 then (masterFuns P).h.call t2 s.2.h xbar p P.c o else some (t2, s.2.h)) = some (t3, hres) ∧ (hres.val = cat2 E.he (fun l => E.hg l + xbar (ixHg nx nbg l))) ∧
      (hres.ddx = fun i j => cat2 (fun i => cat3 (E.hex i) (fun _ => 0) (fun _ => 0) j) (fun i => cat3 (E.hgx i) (fun _ => 0) (fun k => if i = k then 1 else 0) j) i) ∧
      hres.ddp = fun i j => cat2 (fun i => E.hep i j) (fun i => E.hgp i j) i := by
    by_cases hz : nhe + nhg ≠ 0
    · rw [if_pos hz]
      obtain ⟨t3, q1, h1, k1, k2, k3⟩ := he t2 o rfl rfl
      obtain ⟨t4, q2, h2, l1, l2, l3⟩ := hg t3 o rfl rfl
      obtain ⟨hres, h3⟩ : ∃ hres, (masterFuns P).h.call t2 s.2.h xbar p P.c o = some (t4, hres) := by
        rw [show (masterFuns P).h = ⟨some (masterH (nbg := nbg) P.he P.hg)⟩ from rfl, constraint_sees_clean, ee, eg]
        unfold masterH
        dsimp only
        rw [constraint_sees_clean, hx', h1]
        dsimp only
        rw [constraint_sees_clean, h2]
        exact ⟨_, rfl⟩
      refine ⟨t4, hres, h3, ?_⟩
      rw [show (masterFuns P).h = ⟨some (masterH (nbg := nbg) P.he P.hg)⟩ from rfl, constraint_sees_clean, ee, eg, masterH_spec, hx'] at h3
      obtain ⟨t1', e, g, h5, h6, a1, a2, a3, a4, a5, a6, a7, a8, a9, a10, -⟩ := h3
      rw [h1] at h5
      cases h5
      rw [h2] at h6
      cases h6
      refine ⟨funext (forall_cat2.2 ⟨fun i => ?_, fun i => ?_⟩), ?_, ?_⟩
      · rw [a1, k1]; simp
      · rw [a2, l1]; simp
      · ext i j
        revert i
        rw [forall_cat2]
        refine ⟨fun i => ?_, fun i => ?_⟩ <;> revert j <;> rw [forall_xbar] <;> simp [a3, a4, a5, a6, a7, a8, k2, l2]
      · ext i j
        revert i
        rw [forall_cat2]
        simp [a9, a10, k3, l3]
    · rw [if_neg hz]
      refine ⟨_, _, rfl, funext fun i => ?_, funext fun i => ?_, funext fun i => ?_⟩ <;> exact absurd i.2 (by omega)
  obtain ⟨t3, hres, e3, h1, h2, h3⟩ := e3
  have e4 : ∃ t4 vres, (if np ≠ 0 then (masterFuns P).v.call t3 s.2.v xbar p P.c o else some (t3, s.2.v)) = some (t4, vres) ∧ vres.val = E.v ∧
      (vres.ddx = fun i j => cat3 (E.vx i) (fun _ => 0) (fun _ => 0) j) ∧ vres.ddp = E.vp := by
    by_cases hp : np ≠ 0
    · rw [if_pos hp]
      obtain ⟨t4, q1, h1, k1, k2, k3⟩ := hv t3 o rfl rfl
      obtain ⟨vres, h2⟩ : ∃ vres, (masterFuns P).v.call t3 s.2.v xbar p P.c o = some (t4, vres) := by
        rw [show (masterFuns P).v = ⟨some (masterV (nbg := nbg) (nhg := nhg) P.v)⟩ from rfl, constraint_sees_clean, ev']
        unfold masterV
        rw [constraint_sees_clean, hx', h1]
        exact ⟨_, rfl⟩
      refine ⟨t4, vres, h2, ?_⟩
      rw [show (masterFuns P).v = ⟨some (masterV (nbg := nbg) (nhg := nhg) P.v)⟩ from rfl, constraint_sees_clean, ev', masterV_spec, hx'] at h2
      obtain ⟨q2, h5, a1, a2, a3, a4, a5, -⟩ := h2
      rw [h1] at h5
      cases h5
      refine ⟨a1.trans k1, ?_, a5.trans k3⟩
      ext i j
      revert j
      rw [forall_xbar]
      simp [a2, a3, a4, k2]
    · rw [if_neg hp]
      refine ⟨_, _, rfl, funext fun i => ?_, funext fun i => ?_, funext fun i => ?_⟩ <;> exact absurd i.2 (by omega)
  obtain ⟨t4, vres, e4, v1, v2, v3⟩ := e4
  refine ⟨(t4, { f := fres, h := hres, v := vres }), ResMem.evals { f := fres, h := hres, v := vres } (fres.succeeded && hres.succeeded && vres.succeeded), ?_, ⟨f1, f2, f3, h1, h2, h3, v1, v2, v3⟩⟩
  · unfold userCode functionEvals
    dsimp only
    rw [show (masterFuns P).r.call s.1 xbar p P.c o = some t1 from e1]
    dsimp only
    rw [show (masterFuns P).f.call t1 s.2.f xbar p P.c o = _ from e2]
    dsimp only
    rw [show (if nhe + nhg ≠ 0 then (masterFuns P).h.call t2 s.2.h xbar p P.c o else some (t2, s.2.h)) = _ from e3]
    dsimp only
    rw [show (if np ≠ 0 then (masterFuns P).v.call t3 s.2.v xbar p P.c o else some (t3, s.2.v)) = _ from e4]

/-- The multipliers of the bounds of `x`. -/
def UEvals.mult (E : UEvals K nx np nhe nhg) (P : UProblem τ K nx np nbe nbg nhe nhg nc) (S : UState K nx np nbe nbg nhe nhg) (j : Fin nx) : K :=
  E.fx j + ∑ l, P.Aex l j * S.ye l + ∑ l, P.Agx l j * S.yg l + ∑ l, E.hex l j * S.ze l + ∑ l, E.hgx l j * S.zg l

/-- `x(j)` is held on a bound by its multiplier. -/
def UEvals.Held (E : UEvals K nx np nhe nhg) (P : UProblem τ K nx np nbe nbg nhe nhg nc) (S : UState K nx np nbe nbg nhe nhg) (j : Fin nx) : Prop :=
  (P.xlower j = some (S.x j) ∧ 0 < E.mult P S j) ∨ (P.xupper j = some (S.x j) ∧ E.mult P S j < 0)

/-- The point is feasible. -/
structure UEvals.Feasible (E : UEvals K nx np nhe nhg) (P : UProblem τ K nx np nbe nbg nhe nhg nc) (S : UState K nx np nbe nbg nhe nhg) : Prop where
  x : ∀ i, Between (P.xlower i) (P.xupper i) (S.x i)
  p : ∀ i, Between (P.plower i) (P.pupper i) (S.p i)
  v : ∀ q, E.v q = 0
  be : ∀ l, ∑ j, P.Aex l j * S.x j + ∑ q, P.Aep l q * S.p q = P.be l
  bg : ∀ l, P.bg l ≤ ∑ j, P.Agx l j * S.x j + ∑ q, P.Agp l q * S.p q
  he : ∀ l, E.he l = 0
  hg : ∀ l, 0 ≤ E.hg l

/-- The first-order conditions: the point is feasible, the gradient of the Lagrangian vanishes except for the variables held on a bound, multipliers of inequality constraints are non-positive and vanish when the constraint is not active. -/
structure UEvals.Kkt (E : UEvals K nx np nhe nhg) (P : UProblem τ K nx np nbe nbg nhe nhg nc) (S : UState K nx np nbe nbg nhe nhg) : Prop extends E.Feasible P S where
  grad : ∀ j, E.mult P S j = 0 ∨ E.Held P S j
  yg : ∀ l, S.yg l ≤ 0
  zg : ∀ l, S.zg l ≤ 0
  compl_bg : ∀ l, S.yg l = 0 ∨ ∑ j, P.Agx l j * S.x j + ∑ q, P.Agp l q * S.p q = P.bg l
  compl_hg : ∀ l, S.zg l = 0 ∨ E.hg l = 0

/-- The slacks in the state are those of the point. -/
structure UEvals.Slacks (E : UEvals K nx np nhe nhg) (P : UProblem τ K nx np nbe nbg nhe nhg nc) (S : UState K nx np nbe nbg nhe nhg) : Prop where
  bg : ∀ l, S.xbg l = P.bg l - ∑ j, P.Agx l j * S.x j - ∑ q, P.Agp l q * S.p q
  hg : ∀ l, S.xhg l = -E.hg l

/-- The gradients of the active constraints (equalities, active inequalities, active bounds) are linearly independent. -/
def UEvals.Licq (E : UEvals K nx np nhe nhg) (P : UProblem τ K nx np nbe nbg nhe nhg nc) (S : UState K nx np nbe nbg nhe nhg) : Prop :=
  ∀ (ye : Fin nbe → K) (yg : Fin nbg → K) (ze : Fin nhe → K) (zg : Fin nhg → K), (∀ l, ∑ j, P.Agx l j * S.x j + ∑ q, P.Agp l q * S.p q ≠ P.bg l → yg l = 0) → (∀ l, E.hg l ≠ 0 → zg l = 0) →
    (∀ j, P.xlower j ≠ some (S.x j) → P.xupper j ≠ some (S.x j) → ∑ l, P.Aex l j * ye l + ∑ l, P.Agx l j * yg l + ∑ l, E.hex l j * ze l + ∑ l, E.hgx l j * zg l = 0) → ye = 0 ∧ yg = 0 ∧ ze = 0 ∧ zg = 0

/-- The linearised first-order conditions for a direction. -/
structure UEvals.Lin (E : UEvals K nx np nhe nhg) (P : UProblem τ K nx np nbe nbg nhe nhg nc) (S : UState K nx np nbe nbg nhe nhg) (dx : Fin nx → K) (dp : Fin np → K) (dye : Fin nbe → K) (dyg : Fin nbg → K)
    (dze : Fin nhe → K) (dzg : Fin nhg → K) : Prop where
  free : ∀ j, ¬ E.Held P S j → ∑ k, E.fxx j k * dx k + ∑ q, E.fxp j q * dp q + ∑ l, P.Aex l j * dye l + ∑ l, P.Agx l j * dyg l + ∑ l, E.hex l j * dze l + ∑ l, E.hgx l j * dzg l = 0
  held : ∀ j, E.Held P S j → dx j = 0
  v : ∀ q, ∑ j, E.vx q j * dx j + ∑ r, E.vp q r * dp r = 0
  be : ∀ l, ∑ j, P.Aex l j * dx j + ∑ q, P.Aep l q * dp q = 0
  he : ∀ l, ∑ j, E.hex l j * dx j + ∑ q, E.hep l q * dp q = 0
  bg : ∀ l, (S.yg l < 0 → ∑ j, P.Agx l j * dx j + ∑ q, P.Agp l q * dp q = 0) ∧ (¬ S.yg l < 0 → dyg l = 0)
  hg : ∀ l, (S.zg l < 0 → ∑ j, E.hgx l j * dx j + ∑ q, E.hgp l q * dp q = 0) ∧ (¬ S.zg l < 0 → dzg l = 0)

section master

variable {E : UEvals K nx np nhe nhg} {P : UProblem τ K nx np nbe nbg nhe nhg nc} {mem : Matrix (Fin (nbe + nbg)) (Fin (nx + nbg + nhg)) K} {ev : Evals K (nx + nbg + nhg) np (nhe + nhg)}

/-- A sum over the multipliers, block by block. -/
theorem sum_four {f : Fin (nbe + nbg) → K} {g : Fin (nhe + nhg) → K} : ∑ l, f l + ∑ l, g l = (∑ l, f (Fin.castAdd nbg l) + ∑ l, f (Fin.natAdd nbe l)) + (∑ l, g (Fin.castAdd nhg l) + ∑ l, g (Fin.natAdd nhe l)) := by
  rw [Fin.sum_univ_add, Fin.sum_univ_add]

theorem master_cols (hA : IsMasterAx P.Aex P.Agx (masterProblem P mem).Ax)
    (hx : ev.hx = fun i j => cat2 (fun i => cat3 (E.hex i) (fun _ => 0) (fun _ => 0) j) (fun i => cat3 (E.hgx i) (fun _ => 0) (fun k => if i = k then 1 else 0) j) i) (y : Fin (nbe + nbg) → K) (z : Fin (nhe + nhg) → K) :
    (∀ j, ∑ l, (masterProblem P mem).Ax l (ixX nbg nhg j) * y l + ∑ l, ev.hx l (ixX nbg nhg j) * z l = ∑ l, P.Aex l j * y (Fin.castAdd nbg l) + ∑ l, P.Agx l j * y (Fin.natAdd nbe l) +
      ∑ l, E.hex l j * z (Fin.castAdd nhg l) + ∑ l, E.hgx l j * z (Fin.natAdd nhe l)) ∧
    (∀ k, ∑ l, (masterProblem P mem).Ax l (ixBg nx nhg k) * y l + ∑ l, ev.hx l (ixBg nx nhg k) * z l = y (Fin.natAdd nbe k)) ∧
    ∀ k, ∑ l, (masterProblem P mem).Ax l (ixHg nx nbg k) * y l + ∑ l, ev.hx l (ixHg nx nbg k) * z l = z (Fin.natAdd nhe k) := by
  refine ⟨fun j => ?_, fun k => ?_, fun k => ?_⟩ <;> rw [sum_four, hx]
  · simp only [hA.ex, hA.gx]
    simp
    ring
  · simp [hA.ebg, hA.gbg]
  · simp [hA.ehg, hA.ghg]

theorem master_mult (hA : IsMasterAx P.Aex P.Agx (masterProblem P mem).Ax) (hfx : ev.fx = cat3 E.fx (fun _ => 0) (fun _ => 0))
    (hx : ev.hx = fun i j => cat2 (fun i => cat3 (E.hex i) (fun _ => 0) (fun _ => 0) j) (fun i => cat3 (E.hgx i) (fun _ => 0) (fun k => if i = k then 1 else 0) j) i) (S : UState K nx np nbe nbg nhe nhg) :
    (∀ j, (masterProblem P mem).mult ev (packState S) (ixX nbg nhg j) = E.mult P S j) ∧ (∀ l, (masterProblem P mem).mult ev (packState S) (ixBg nx nhg l) = S.yg l) ∧
    ∀ l, (masterProblem P mem).mult ev (packState S) (ixHg nx nbg l) = S.zg l := by
  obtain ⟨c1, c2, c3⟩ := master_cols hA hx (fun l => (packState S).w (Fin.castAdd _ l)) (fun l => (packState S).w (Fin.natAdd _ l))
  unfold MProblem.mult
  refine ⟨fun j => ?_, fun l => ?_, fun l => ?_⟩ <;> rw [add_assoc]
  · rw [c1, hfx]
    simp [packState, UEvals.mult]
    ring
  · rw [c2, hfx]; simp [packState]
  · rw [c3, hfx]; simp [packState]

theorem master_held (hA : IsMasterAx P.Aex P.Agx (masterProblem P mem).Ax) (hfx : ev.fx = cat3 E.fx (fun _ => 0) (fun _ => 0))
    (hx : ev.hx = fun i j => cat2 (fun i => cat3 (E.hex i) (fun _ => 0) (fun _ => 0) j) (fun i => cat3 (E.hgx i) (fun _ => 0) (fun k => if i = k then 1 else 0) j) i) (S : UState K nx np nbe nbg nhe nhg) :
    (∀ j, (masterProblem P mem).Held ev (packState S) (ixX nbg nhg j) ↔ E.Held P S j) ∧ (∀ l, (masterProblem P mem).Held ev (packState S) (ixBg nx nhg l) ↔ S.xbg l = 0 ∧ S.yg l < 0) ∧
    ∀ l, (masterProblem P mem).Held ev (packState S) (ixHg nx nbg l) ↔ S.xhg l = 0 ∧ S.zg l < 0 := by
  obtain ⟨m1, m2, m3⟩ := master_mult hA hfx hx S
  unfold MProblem.Held
  refine ⟨fun j => ?_, fun l => ?_, fun l => ?_⟩
  · rw [m1]; simp [masterProblem, packState, UEvals.Held]
  · rw [m2]; simp [masterProblem, packState, eq_comm]
  · rw [m3]; simp [masterProblem, packState, eq_comm]

/-- Independence of the active gradients of the user's problem is that of the master problem. -/
theorem master_licq (hA : IsMasterAx P.Aex P.Agx (masterProblem P mem).Ax)
    (hx : ev.hx = fun i j => cat2 (fun i => cat3 (E.hex i) (fun _ => 0) (fun _ => 0) j) (fun i => cat3 (E.hgx i) (fun _ => 0) (fun k => if i = k then 1 else 0) j) i) {S : UState K nx np nbe nbg nhe nhg}
    (hS : E.Slacks P S) (hq : E.Licq P S) : (masterProblem P mem).Licq ev (packState S) := by
  intro y z h
  obtain ⟨c1, c2, c3⟩ := master_cols hA hx y z
  obtain ⟨e1, e2, e3, e4⟩ := hq (fun l => y (Fin.castAdd nbg l)) (fun l => y (Fin.natAdd nbe l)) (fun l => z (Fin.castAdd nhg l)) (fun l => z (Fin.natAdd nhe l))
    (fun l hl => by
      have := h (ixBg nx nhg l) ⟨by simp [masterProblem], by
        simp only [masterProblem, packState, cat3_Bg]
        intro e
        apply hl
        have := hS.bg l
        rw [← Option.some.inj e] at this
        linear_combination this⟩
      rwa [c2] at this)
    (fun l hl => by
      have := h (ixHg nx nbg l) ⟨by simp [masterProblem], by
        simp only [masterProblem, packState, cat3_Hg]
        intro e
        apply hl
        have := hS.hg l
        rw [← Option.some.inj e] at this
        linear_combination this⟩
      rwa [c3] at this)
    (fun j h1 h2 => by
      have := h (ixX nbg nhg j) ⟨by simpa [masterProblem, packState] using h1, by simpa [masterProblem, packState] using h2⟩
      rwa [c1] at this)
  exact ⟨funext (forall_cat2.2 ⟨fun l => congrFun e1 l, fun l => congrFun e2 l⟩), funext (forall_cat2.2 ⟨fun l => congrFun e3 l, fun l => congrFun e4 l⟩)⟩

theorem master_kktAt (hA : IsMasterAx P.Aex P.Agx (masterProblem P mem).Ax) {S : UState K nx np nbe nbg nhe nhg} (hM : E.Master S.xhg ev) (hS : E.Slacks P S) (hk : E.Kkt P S) : (masterProblem P mem).KktAt ev (packState S) := by
  obtain ⟨m1, m2, m3⟩ := master_mult hA hM.fx hM.hx S
  obtain ⟨k1, k2, k3⟩ := master_held hA hM.fx hM.hx S
  refine ⟨forall_xbar.2 ⟨fun j => ?_, fun l => ?_, fun l => ?_⟩, fun q => ?_, forall_cat2.2 ⟨fun l => ?_, fun l => ?_⟩, forall_cat2.2 ⟨fun l => ?_, fun l => ?_⟩⟩
  · rw [m1, k1]; exact hk.grad j
  · rw [m2, k2]
    rcases hk.compl_bg l with h | h
    · exact Or.inl h
    · rcases (hk.yg l).lt_or_eq with h' | h'
      · refine Or.inr ⟨?_, h'⟩
        rw [hS.bg, ← h]; ring
      · exact Or.inl h'
  · rw [m3, k3]
    rcases hk.compl_hg l with h | h
    · exact Or.inl h
    · rcases (hk.zg l).lt_or_eq with h' | h'
      · refine Or.inr ⟨?_, h'⟩
        rw [hS.hg, h, neg_zero]
      · exact Or.inl h'
  · rw [hM.v]; exact hk.v q
  · rw [lin_be hA]
    simpa [masterProblem, packState] using hk.be l
  · rw [lin_bg hA]
    simp only [masterProblem, packState, cat3_X, cat3_Bg, cat2, Fin.addCases_right]
    rw [hS.bg l]; ring
  · rw [hM.h]; simpa using hk.he l
  · rw [hM.h]; simp [hS.hg l]

/-- A linear system of the master problem with only the zero solution, from that of the user. -/
theorem master_linAt (hA : IsMasterAx P.Aex P.Agx (masterProblem P mem).Ax) {S : UState K nx np nbe nbg nhe nhg} (hM : E.Master S.xhg ev) (hS : E.Slacks P S) (hk : E.Kkt P S)
    (hL : ∀ dx dp dye dyg dze dzg, E.Lin P S dx dp dye dyg dze dzg → dx = 0 ∧ dp = 0 ∧ dye = 0 ∧ dyg = 0 ∧ dze = 0 ∧ dzg = 0) (d : MVec K (nx + nbg + nhg) np (nbe + nbg + (nhe + nhg)))
    (hd : (masterProblem P mem).LinAt ev (packState S) d) : d = ⟨0, 0, 0⟩ := by
  obtain ⟨k1, k2, k3⟩ := master_held hA hM.fx hM.hx S
  obtain ⟨c1, c2, c3⟩ := master_cols hA hM.hx (fun l => d.w (Fin.castAdd _ l)) (fun l => d.w (Fin.natAdd _ l))
  have kbg : ∀ l, (S.xbg l = 0 ∧ S.yg l < 0) ↔ S.yg l < 0 := fun l => ⟨fun h => h.2, fun h => ⟨by
    rw [hS.bg, ← (hk.compl_bg l).resolve_left h.ne]; ring, h⟩⟩
  have khg : ∀ l, (S.xhg l = 0 ∧ S.zg l < 0) ↔ S.zg l < 0 := fun l => ⟨fun h => h.2, fun h => ⟨by
    rw [hS.hg, (hk.compl_hg l).resolve_left h.ne, neg_zero], h⟩⟩
  simp only [kbg] at k2
  simp only [khg] at k3
  have rbe : ∀ l, ∑ j, P.Aex l j * d.x (ixX nbg nhg j) + ∑ q, P.Aep l q * d.p q = 0 := by
    intro l
    have := hd.lin (Fin.castAdd _ l)
    rw [lin_be hA] at this
    simpa [masterProblem] using this
  have rbg : ∀ l, ∑ j, P.Agx l j * d.x (ixX nbg nhg j) + d.x (ixBg nx nhg l) + ∑ q, P.Agp l q * d.p q = 0 := by
    intro l
    have := hd.lin (Fin.natAdd _ l)
    rw [lin_bg hA] at this
    simpa [masterProblem] using this
  have rhe : ∀ l, ∑ j, E.hex l j * d.x (ixX nbg nhg j) + ∑ q, E.hep l q * d.p q = 0 := by
    intro l
    have := hd.h (Fin.castAdd _ l)
    rw [hM.hx, hM.hp] at this
    simpa [sum_xbar] using this
  have rhg : ∀ l, ∑ j, E.hgx l j * d.x (ixX nbg nhg j) + d.x (ixHg nx nbg l) + ∑ q, E.hgp l q * d.p q = 0 := by
    intro l
    have := hd.h (Fin.natAdd _ l)
    rw [hM.hx, hM.hp] at this
    simpa [sum_xbar] using this
  obtain ⟨e1, e2, e3, e4, e5, e6⟩ := hL (fun j => d.x (ixX nbg nhg j)) d.p (fun l => d.w (Fin.castAdd _ (Fin.castAdd _ l))) (fun l => d.w (Fin.castAdd _ (Fin.natAdd _ l)))
    (fun l => d.w (Fin.natAdd _ (Fin.castAdd _ l))) (fun l => d.w (Fin.natAdd _ (Fin.natAdd _ l))) {
      free := by
        intro j hj
        have := hd.free (ixX nbg nhg j) (by rwa [k1])
        rw [add_assoc, c1, hM.fxx, hM.fxp] at this
        simp [sum_xbar] at this
        linear_combination this
      held := fun j hj => hd.held _ ((k1 j).2 hj)
      v := by
        intro q
        have := hd.v q
        rw [hM.vx, hM.vp] at this
        simpa [sum_xbar] using this
      be := rbe
      he := rhe
      bg := by
        intro l
        refine ⟨fun ha => ?_, fun ha => ?_⟩
        · have e : d.x (ixBg nx nhg l) = 0 := hd.held _ ((k2 l).2 ha)
          have := rbg l
          rw [e] at this
          linear_combination this
        · have := hd.free (ixBg nx nhg l) (by rwa [k2])
          rw [add_assoc, c2, hM.fxx, hM.fxp] at this
          simpa using this
      hg := by
        intro l
        refine ⟨fun ha => ?_, fun ha => ?_⟩
        · have e : d.x (ixHg nx nbg l) = 0 := hd.held _ ((k3 l).2 ha)
          have := rhg l
          rw [e] at this
          linear_combination this
        · have := hd.free (ixHg nx nbg l) (by rwa [k3])
          rw [add_assoc, c3, hM.fxx, hM.fxp] at this
          simpa using this }
  have ex : ∀ j, d.x (ixX nbg nhg j) = 0 := fun j => congrFun e1 j
  have ep : ∀ q, d.p q = 0 := fun q => congrFun e2 q
  ext j
  · revert j
    refine forall_xbar.2 ⟨ex, fun l => ?_, fun l => ?_⟩
    · simpa [ex, ep] using rbg l
    · simpa [ex, ep] using rhg l
  · exact ep j
  · revert j
    exact forall_cat2.2 ⟨forall_cat2.2 ⟨fun l => congrFun e3 l, fun l => congrFun e4 l⟩, forall_cat2.2 ⟨fun l => congrFun e5 l, fun l => congrFun e6 l⟩⟩

end master

/-- **C54 for `Solver`**: let the state `S` satisfy the first-order conditions of the user's problem, hold the slacks that belong to it, with linearly independent gradients of the active constraints and bounds and with
    linearised first-order conditions that only the zero direction satisfies; the user's functions may be non-linear and need only return at this point.  In exact arithmetic (full-space or null-space method) the solver
    started from `S` returns, whatever the history of the solver object, and every solve from `S` returns the same point after one iteration with success, and with the right multipliers of the bounds.  (`hA`: see C44.) -/
theorem solver_fixed {env : Env K} {method : Method} {inners : ∀ c : CanonPack K (nx + nbg + nhg) np (nbe + nbg + (nhe + nhg)), Inners K np c.nbe c.nbi c.nne c.nni} {E : UEvals K nx np nhe nhg}
    {P : UProblem τ K nx np nbe nbg nhe nhg nc} {mem} (hA : IsMasterAx P.Aex P.Agx (masterProblem P mem).Ax) (hthr : env.thr = 0) (heps : env.eps = 0) (hd : env.debug = false) (ho : ∀ M, (env.o M).lu.Z = 0) (hnx : 0 < nx)
    (hc : 0 < nbe + nbg + nhe + nhg) (hlu : LUInners (solverConfig env method inners P mem)) (hm : method ≠ .rangespace) {S : UState K nx np nbe nbg nhe nhg} (hE : E.Returned P S.x S.p) (hk : E.Kkt P S) (hS : E.Slacks P S)
    (hq : E.Licq P S) (hL : ∀ dx dp dye dyg dze dzg, E.Lin P S dx dp dye dyg dze dzg → dx = 0 ∧ dp = 0 ∧ dye = 0 ∧ dyg = 0 ∧ dze = 0 ∧ dzg = 0) (part : Idx.PartitionImpl ℕ) (o : SolveOptions K) (hmax : 1 ≤ o.maxiters)
    (htol : 0 < o.tolerance) (check) :
    (∀ t0 res memW errors ax du history, ∃ S' result, ∃ h : SolverReturns env method inners part o P mem S S' result check,
      h.t0 = t0 ∧ h.res = res ∧ h.memW = memW ∧ h.errors = errors ∧ h.ax = ax ∧ h.du = du ∧ h.history = history) ∧
    ∀ S' result, SolverReturns env method inners part o P mem S S' result check → result.succeeded = true ∧ result.iterations = 1 ∧ S'.x = S.x ∧ S'.p = S.p ∧ S'.ye = S.ye ∧ S'.yg = S.yg ∧ S'.ze = S.ze ∧ S'.zg = S.zg ∧
      S'.xbg = S.xbg ∧ S'.xhg = S.xhg ∧ S'.s = E.mult P S := by
  have hin : InBounds (masterProblem P mem).bounds (packState S) := by
    refine ⟨forall_xbar.2 ⟨fun i => ?_, fun i => ?_, fun i => ?_⟩, hk.p⟩
    · have := hk.x i
      simpa [MProblem.bounds, masterProblem, packState] using this
    · refine ⟨fun l e => ?_, fun l e => ?_⟩
      · simp [MProblem.bounds, masterProblem] at e
      · simp [MProblem.bounds, masterProblem] at e
        have := hk.bg i
        simp [packState, ← e, hS.bg]
        linarith
    · refine ⟨fun l e => ?_, fun l e => ?_⟩
      · simp [MProblem.bounds, masterProblem] at e
      · simp [MProblem.bounds, masterProblem] at e
        have := hk.hg i
        simp [packState, ← e, hS.hg]
        linarith
  have hxx : ∀ i, (packState S).x (ixX nbg nhg i) = S.x i := fun i => by simp [packState]
  have hxh : (fun l => (packState S).x (ixHg nx nbg l)) = S.xhg := by funext l; simp [packState]
  have key := solution_fixed (cfg := solverConfig env method inners P mem) hthr heps hd ho (by omega) (by omega) rfl hlu hm (packState S) hin (fun t q => by
    obtain ⟨t', ev, e1, e2⟩ := UEvals.returns hE _ false t hxx q
    rw [hxh] at e2
    exact ⟨t', ev, e1, master_kktAt hA e2 hS hk, master_licq hA e2.hx hS hq, fun d hd => master_linAt hA e2 hS hk hL d hd⟩) o hmax htol
  constructor
  · intro t0 res memW errors ax du history
    obtain ⟨t, h1, -⟩ := key (t0, res) memW errors ax du history check
    have ht := (h1 _).2 rfl
    obtain ⟨-, ev, rf, ew0, e1, -⟩ := solve_inv (machine_inv (cfg := solverConfig env method inners P mem) hthr.ge heps.ge (by omega) check) o _ (start_reach _ (t0, res) memW errors ax du) history _ _ ht
    exact ⟨_, _, { t0 := t0, res := res, memW := memW, errors := errors, ax := ax, du := du, history := history, final := t, rf := rf, solved := ht, evaluated := e1, state := rfl, result_eq := rfl },
      rfl, rfl, rfl, rfl, rfl, rfl, rfl⟩
  · rintro S' result ⟨t0, res, memW, errors, ax, du, history, final, rf, solved, evaluated, rfl, rfl⟩
    obtain ⟨t, h1, h2, -, h4, h5⟩ := key (t0, res) memW errors ax du history check
    obtain rfl := Option.some.inj ((h1 _).1 solved)
    refine ⟨h4, h5, ?_⟩
    obtain ⟨-, ev, rf', ew0, e1, e2, -, t1, t2, q, e3⟩ := solve_inv (machine_inv (cfg := solverConfig env method inners P mem) hthr.ge heps.ge (by omega) check) o _ (start_reach _ (t0, res) memW errors ax du) history _ _ solved
    obtain rfl := Option.some.inj (e1.symm.trans evaluated)
    obtain ⟨t', ev', e4, e5⟩ := UEvals.returns hE _ false t1 hxx q
    rw [h2] at e2 e3
    obtain rfl : ev' = ev := by
      have := e4.symm.trans e3
      simp only [Option.some.injEq, Prod.mk.injEq] at this
      exact this.2
    rw [hxh] at e5
    obtain ⟨m1, -⟩ := master_mult hA e5.fx e5.hx S
    simp only [unpackState, finalState, h2]
    refine ⟨?_, ?_, ?_, ?_, ?_, ?_, ?_, ?_, ?_⟩ <;> funext i
    · simp [packState]
    · simp [packState]
    · simp [packState]
    · simp [packState]
    · simp [packState]
    · simp [packState]
    · simp [packState]
    · simp [packState]
    · exact (rf_mult e2 _).trans (m1 i)

end Optima
