import Verif.Props.Solver

/-!
# C37: the slack reformulation is equivalent to the user's problem
-/

set_option linter.unusedSectionVars false

namespace Optima

open Matrix

variable {K : Type*} [Field K] [LinearOrder K] [IsStrictOrderedRing K] {τ : Type*} {nx np nbe nbg nhe nhg nc : ℕ}

/-- The mathematical functions of the user's problem: objective and gradient, constraints and Jacobians, external constraint. -/
structure UserVals (K : Type*) (nx np nhe nhg : ℕ) where
  f : (Fin nx → K) → (Fin np → K) → K
  fx : (Fin nx → K) → (Fin np → K) → Fin nx → K
  he : (Fin nx → K) → (Fin np → K) → Fin nhe → K
  hex : (Fin nx → K) → (Fin np → K) → Matrix (Fin nhe) (Fin nx) K
  hg : (Fin nx → K) → (Fin np → K) → Fin nhg → K
  hgx : (Fin nx → K) → (Fin np → K) → Matrix (Fin nhg) (Fin nx) K
  v : (Fin nx → K) → (Fin np → K) → Fin np → K

/-- The user's code computes these functions whenever it returns (in any state, starting from a clean result object). -/
structure Implements (P : UProblem τ K nx np nbe nbg nhe nhg nc) (U : UserVals K nx np nhe nhg) : Prop where
  f : ∃ fn, P.f.fn = some fn ∧ ∀ t x p o t' q, o.ddx = true → fn t cleanObj x p P.c o = some (t', q) → q.f = U.f x p ∧ ∀ i, q.fx i = U.fx x p i
  he : ∃ fn, P.he.fn = some fn ∧ ∀ t x p o t' q, o.ddx = true → fn t cleanCon x p P.c o = some (t', q) → (∀ i, q.val i = U.he x p i) ∧ ∀ i j, q.ddx i j = U.hex x p i j
  hg : ∃ fn, P.hg.fn = some fn ∧ ∀ t x p o t' q, o.ddx = true → fn t cleanCon x p P.c o = some (t', q) → (∀ i, q.val i = U.hg x p i) ∧ ∀ i j, q.ddx i j = U.hgx x p i j
  v : ∃ fn, P.v.fn = some fn ∧ ∀ t x p o t' q, o.ddx = true → fn t cleanCon x p P.c o = some (t', q) → ∀ i, q.val i = U.v x p i

/-- `ev` are values the master solver obtains for the problem `P` at `(xbar, p)`, with the solver and the user code in any state. -/
def EvaluatesTo (P : UProblem τ K nx np nbe nbg nhe nhg nc) (xbar : Fin (nx + nbg + nhg) → K) (p : Fin np → K) (ev : Evals K (nx + nbg + nhg) np (nhe + nhg)) : Prop :=
  ∃ (first : List ℕ) (ddc : Bool) (s s' : τ × ResMem K (nx + nbg + nhg) np (nhe + nhg) nc) (q : Option (Ech.RWQ K (nx + nbg + nhg) np (nbe + nbg + (nhe + nhg)))), userCode (masterFuns P) P.c first true true ddc s xbar p q = some (s', ev)

/-- The values of the master functions in terms of those of the user. -/
structure MasterVals (U : UserVals K nx np nhe nhg) (xbar : Fin (nx + nbg + nhg) → K) (p : Fin np → K) (ev : Evals K (nx + nbg + nhg) np (nhe + nhg)) : Prop where
  f : ev.f = U.f (fun i => xbar (ixX nbg nhg i)) p
  fx : ∀ i, ev.fx (ixX nbg nhg i) = U.fx (fun i => xbar (ixX nbg nhg i)) p i
  fbg : ∀ i, ev.fx (ixBg nx nhg i) = 0
  fhg : ∀ i, ev.fx (ixHg nx nbg i) = 0
  he : ∀ i, ev.h (Fin.castAdd nhg i) = U.he (fun i => xbar (ixX nbg nhg i)) p i
  hg : ∀ i, ev.h (Fin.natAdd nhe i) = U.hg (fun i => xbar (ixX nbg nhg i)) p i + xbar (ixHg nx nbg i)
  hex : ∀ i j, ev.hx (Fin.castAdd nhg i) (ixX nbg nhg j) = U.hex (fun i => xbar (ixX nbg nhg i)) p i j
  hebg : ∀ i j, ev.hx (Fin.castAdd nhg i) (ixBg nx nhg j) = 0
  hehg : ∀ i j, ev.hx (Fin.castAdd nhg i) (ixHg nx nbg j) = 0
  hgx : ∀ i j, ev.hx (Fin.natAdd nhe i) (ixX nbg nhg j) = U.hgx (fun i => xbar (ixX nbg nhg i)) p i j
  hgbg : ∀ i j, ev.hx (Fin.natAdd nhe i) (ixBg nx nhg j) = 0
  hghg : ∀ i j, ev.hx (Fin.natAdd nhe i) (ixHg nx nbg j) = if i = j then 1 else 0
  v : ∀ i, ev.v i = U.v (fun i => xbar (ixX nbg nhg i)) p i

/-- The master functions compute what they should. -/
theorem master_vals {P : UProblem τ K nx np nbe nbg nhe nhg nc} {U : UserVals K nx np nhe nhg} (hU : Implements P U) {xbar p ev} (h : EvaluatesTo P xbar p ev) : MasterVals U xbar p ev := by
  obtain ⟨first, ddc, s, s', q, h⟩ := h
  obtain ⟨ff, hff, hf⟩ := hU.f
  obtain ⟨fe, hfe, he⟩ := hU.he
  obtain ⟨fg, hfg, hg⟩ := hU.hg
  obtain ⟨fv, hfv, hv⟩ := hU.v
  have ef : P.f = ⟨some ff⟩ := by rw [← hff]
  have ee : P.he = ⟨some fe⟩ := by rw [← hfe]
  have eg : P.hg = ⟨some fg⟩ := by rw [← hfg]
  have ev' : P.v = ⟨some fv⟩ := by rw [← hfv]
  unfold userCode at h
  split at h
  · cases h
  rename_i t m ok hfe
  simp only [Option.some.injEq, Prod.mk.injEq] at h
  obtain ⟨-, rfl⟩ := h
  unfold functionEvals at hfe
  dsimp only at hfe
  split at hfe
  · cases hfe
  split at hfe
  · cases hfe
  rename_i t2 fres h2
  split at hfe
  · cases hfe
  rename_i t3 hres h3
  split at hfe
  · cases hfe
  rename_i t4 vres h4
  simp only [Option.some.injEq, Prod.mk.injEq] at hfe
  obtain ⟨-, rfl, -⟩ := hfe
  rw [show (masterFuns P).f = ⟨some (masterF (nbg := nbg) (nhg := nhg) P.f)⟩ from rfl, objective_sees_clean, ef, masterF_spec] at h2
  obtain ⟨q1, h2, f1, f2, f3, f4, -⟩ := h2
  obtain ⟨k1, k2⟩ := hf _ _ _ _ _ _ rfl h2
  have key : (∀ i, hres.val (Fin.castAdd nhg i) = U.he (fun i => xbar (ixX nbg nhg i)) p i) ∧ (∀ i, hres.val (Fin.natAdd nhe i) = U.hg (fun i => xbar (ixX nbg nhg i)) p i + xbar (ixHg nx nbg i)) ∧
      (∀ i j, hres.ddx (Fin.castAdd nhg i) (ixX nbg nhg j) = U.hex (fun i => xbar (ixX nbg nhg i)) p i j) ∧ (∀ i j, hres.ddx (Fin.castAdd nhg i) (ixBg nx nhg j) = 0) ∧
      (∀ i j, hres.ddx (Fin.castAdd nhg i) (ixHg nx nbg j) = 0) ∧ (∀ i j, hres.ddx (Fin.natAdd nhe i) (ixX nbg nhg j) = U.hgx (fun i => xbar (ixX nbg nhg i)) p i j) ∧
      (∀ i j, hres.ddx (Fin.natAdd nhe i) (ixBg nx nhg j) = 0) ∧ (∀ i j, hres.ddx (Fin.natAdd nhe i) (ixHg nx nbg j) = if i = j then 1 else 0) := by
    by_cases hz : nhe + nhg ≠ 0
    · rw [if_pos hz, show (masterFuns P).h = ⟨some (masterH (nbg := nbg) P.he P.hg)⟩ from rfl, constraint_sees_clean, ee, eg, masterH_spec] at h3
      obtain ⟨t1, e, g, h5, h6, a1, a2, a3, a4, a5, a6, a7, a8, -⟩ := h3
      obtain ⟨b1, b2⟩ := he _ _ _ _ _ _ rfl h5
      obtain ⟨b3, b4⟩ := hg _ _ _ _ _ _ rfl h6
      exact ⟨fun i => (a1 i).trans (b1 i), fun i => by rw [a2 i, b3 i], fun i j => (a3 i j).trans (b2 i j), a4, a5, fun i j => (a6 i j).trans (b4 i j), a7, a8⟩
    · refine ⟨fun i => ?_, fun i => ?_, fun i => ?_, fun i => ?_, fun i => ?_, fun i => ?_, fun i => ?_, fun i => ?_⟩ <;> exact absurd i.2 (by omega)
  have keyv : ∀ i, vres.val i = U.v (fun i => xbar (ixX nbg nhg i)) p i := by
    intro i
    have hp : np ≠ 0 := fun e => absurd i.2 (by omega)
    rw [if_pos hp, show (masterFuns P).v = ⟨some (masterV (nbg := nbg) (nhg := nhg) P.v)⟩ from rfl, constraint_sees_clean, ev', masterV_spec] at h4
    obtain ⟨q2, h5, a1, -⟩ := h4
    rw [a1]
    exact hv _ _ _ _ _ _ rfl h5 i
  exact ⟨f1.trans k1, fun i => (f2 i).trans (k2 i), f3, f4, key.1, key.2.1, key.2.2.1, key.2.2.2.1, key.2.2.2.2.1, key.2.2.2.2.2.1, key.2.2.2.2.2.2.1, key.2.2.2.2.2.2.2, keyv⟩

/-- `(x, p)` satisfies the constraints the user wrote, Problem.hpp:33-64. -/
structure UFeasible (P : UProblem τ K nx np nbe nbg nhe nhg nc) (U : UserVals K nx np nhe nhg) (x : Fin nx → K) (p : Fin np → K) : Prop where
  be : ∀ i, ∑ j, P.Aex i j * x j + ∑ q, P.Aep i q * p q = P.be i
  bg : ∀ i, P.bg i ≤ ∑ j, P.Agx i j * x j + ∑ q, P.Agp i q * p q
  he : ∀ i, U.he x p i = 0
  hg : ∀ i, 0 ≤ U.hg x p i
  v : ∀ i, U.v x p i = 0
  x : ∀ i, Between (P.xlower i) (P.xupper i) (x i)
  p : ∀ i, Between (P.plower i) (P.pupper i) (p i)

variable {nxb ny nz : ℕ}

/-- `(x, p)` satisfies the constraints of a master problem whose functions have the values `ev` there. -/
structure MFeasible (pb : MProblem K nxb np ny nz) (ev : Evals K nxb np nz) (x : Fin nxb → K) (p : Fin np → K) : Prop where
  lin : ∀ l, ∑ j, pb.Ax l j * x j + ∑ q, pb.Ap l q * p q = pb.b l
  h : ∀ l, ev.h l = 0
  v : ∀ i, ev.v i = 0
  x : ∀ i, Between (pb.xlower i) (pb.xupper i) (x i)
  p : ∀ i, Between (pb.plower i) (pb.pupper i) (p i)

/-- Row of an equality constraint. -/
theorem lin_be {P : UProblem τ K nx np nbe nbg nhe nhg nc} {mem} (hA : IsMasterAx P.Aex P.Agx (masterProblem P mem).Ax) (xbar : Fin (nx + nbg + nhg) → K) (i : Fin nbe) :
    ∑ j, (masterProblem P mem).Ax (Fin.castAdd nbg i) j * xbar j = ∑ j, P.Aex i j * xbar (ixX nbg nhg j) := by
  rw [sum_xbar]
  simp [hA.ex, hA.ebg, hA.ehg]

/-- Row of an inequality constraint. -/
theorem lin_bg {P : UProblem τ K nx np nbe nbg nhe nhg nc} {mem} (hA : IsMasterAx P.Aex P.Agx (masterProblem P mem).Ax) (xbar : Fin (nx + nbg + nhg) → K) (i : Fin nbg) :
    ∑ j, (masterProblem P mem).Ax (Fin.natAdd nbe i) j * xbar j = ∑ j, P.Agx i j * xbar (ixX nbg nhg j) + xbar (ixBg nx nhg i) := by
  rw [sum_xbar]
  simp [hA.gx, hA.gbg, hA.ghg]

/-- **C37, feasible points** (whenever the matrix of the master problem is the right one, see C44): a point satisfies the user's constraints if and only if it can be completed by slacks to a point that satisfies those of the master problem;
    the slacks are `xbg = bg - Agx x - Agp p` and `xhg = -hg(x, p)`, and no others. -/
theorem slack_feasible_partial {P : UProblem τ K nx np nbe nbg nhe nhg nc} {U : UserVals K nx np nhe nhg} (hU : Implements P U) {mem} (hA : IsMasterAx P.Aex P.Agx (masterProblem P mem).Ax)
    {x : Fin nx → K} {p : Fin np → K} {xbg : Fin nbg → K} {xhg : Fin nhg → K} {ev} (hev : EvaluatesTo P (cat3 x xbg xhg) p ev) :
    MFeasible (masterProblem P mem) ev (cat3 x xbg xhg) p ↔ UFeasible P U x p ∧ (∀ i, xbg i = P.bg i - (∑ j, P.Agx i j * x j + ∑ q, P.Agp i q * p q)) ∧ ∀ i, xhg i = -U.hg x p i := by
  have hv := master_vals hU hev
  have hX : (fun i => cat3 x xbg xhg (ixX nbg nhg i)) = x := by funext i; simp
  have hAp1 : ∀ i q, (masterProblem P mem).Ap (Fin.castAdd nbg i) q = P.Aep i q := by simp [masterProblem]
  have hAp2 : ∀ i q, (masterProblem P mem).Ap (Fin.natAdd nbe i) q = P.Agp i q := by simp [masterProblem]
  have hb1 : ∀ i, (masterProblem P mem).b (Fin.castAdd nbg i) = P.be i := by simp [masterProblem]
  have hb2 : ∀ i, (masterProblem P mem).b (Fin.natAdd nbe i) = P.bg i := by simp [masterProblem]
  constructor
  · intro h
    have l1 : ∀ i, xbg i = P.bg i - (∑ j, P.Agx i j * x j + ∑ q, P.Agp i q * p q) := fun i => by
      have := h.lin (Fin.natAdd nbe i)
      rw [lin_bg hA, hb2] at this
      simp only [hAp2, cat3_X, cat3_Bg] at this
      linear_combination this
    have l2 : ∀ i, xhg i = -U.hg x p i := fun i => by
      have := h.h (Fin.natAdd nhe i)
      rw [hv.hg, hX, cat3_Hg] at this
      linear_combination this
    refine ⟨⟨fun i => ?_, fun i => ?_, fun i => ?_, fun i => ?_, fun i => ?_, fun i => ?_, fun i => h.p i⟩, l1, l2⟩
    · have := h.lin (Fin.castAdd nbg i)
      rw [lin_be hA, hb1] at this
      simpa only [hAp1, cat3_X] using this
    · have := (h.x (ixBg nx nhg i)).2 0 (by simp [masterProblem])
      rw [cat3_Bg, l1] at this
      linarith
    · have := h.h (Fin.castAdd nhg i)
      rwa [hv.he, hX] at this
    · have := (h.x (ixHg nx nbg i)).2 0 (by simp [masterProblem])
      rw [cat3_Hg, l2] at this
      linarith
    · have := h.v i
      rwa [hv.v, hX] at this
    · have := h.x (ixX nbg nhg i)
      simpa [masterProblem] using this
  · rintro ⟨h, l1, l2⟩
    refine ⟨forall_cat2.2 ⟨fun i => ?_, fun i => ?_⟩, forall_cat2.2 ⟨fun i => ?_, fun i => ?_⟩, fun i => ?_, forall_xbar.2 ⟨fun i => ?_, fun i => ?_, fun i => ?_⟩, fun i => h.p i⟩
    · rw [lin_be hA, hb1]
      simp only [hAp1, cat3_X]
      exact h.be i
    · rw [lin_bg hA, hb2]
      simp only [hAp2, cat3_X, cat3_Bg]
      linear_combination l1 i
    · rw [hv.he, hX]; exact h.he i
    · rw [hv.hg, hX, cat3_Hg]; linear_combination l2 i
    · rw [hv.v, hX]; exact h.v i
    · simpa [masterProblem] using h.x i
    · have := h.bg i
      have := l1 i
      refine ⟨by simp [masterProblem], fun b hb => ?_⟩
      simp only [masterProblem, cat3_Bg, Option.some.injEq] at hb
      rw [cat3_Bg, ← hb]; linarith
    · have := h.hg i
      have := l2 i
      refine ⟨by simp [masterProblem], fun b hb => ?_⟩
      simp only [masterProblem, cat3_Hg, Option.some.injEq] at hb
      rw [cat3_Hg, ← hb]; linarith

/-- **C37, objective**: the objectives coincide. -/
theorem slack_objective {P : UProblem τ K nx np nbe nbg nhe nhg nc} {U : UserVals K nx np nhe nhg} (hU : Implements P U) {x : Fin nx → K} {p : Fin np → K} {xbg : Fin nbg → K} {xhg : Fin nhg → K} {ev}
    (hev : EvaluatesTo P (cat3 x xbg xhg) p ev) : ev.f = U.f x p := by
  rw [(master_vals hU hev).f]; simp

/-- First-order condition for a variable with value `x` between its bounds and derivative `s` of the Lagrangian: a positive derivative only at the lower bound, a negative one only at the upper bound. -/
def SignOK (lower upper : Option K) (x s : K) : Prop := (lower ≠ some x → s ≤ 0) ∧ (upper ≠ some x → 0 ≤ s)

/-- First-order conditions of the user's problem with multipliers `ye, yg, ze, zg` (non-positive for constraints `≥`). -/
structure UKkt (P : UProblem τ K nx np nbe nbg nhe nhg nc) (U : UserVals K nx np nhe nhg) (x : Fin nx → K) (p : Fin np → K) (ye : Fin nbe → K) (yg : Fin nbg → K) (ze : Fin nhe → K) (zg : Fin nhg → K) : Prop where
  feasible : UFeasible P U x p
  grad : ∀ i, SignOK (P.xlower i) (P.xupper i) (x i) (U.fx x p i + ∑ l, P.Aex l i * ye l + ∑ l, P.Agx l i * yg l + ∑ l, U.hex x p l i * ze l + ∑ l, U.hgx x p l i * zg l)
  yg : ∀ i, yg i ≤ 0 ∧ (P.bg i < ∑ j, P.Agx i j * x j + ∑ q, P.Agp i q * p q → yg i = 0)
  zg : ∀ i, zg i ≤ 0 ∧ (0 < U.hg x p i → zg i = 0)

/-- First-order conditions of a master problem. -/
structure MKkt (pb : MProblem K nxb np ny nz) (ev : Evals K nxb np nz) (u : MVec K nxb np (ny + nz)) : Prop where
  feasible : MFeasible pb ev u.x u.p
  grad : ∀ i, SignOK (pb.xlower i) (pb.xupper i) (u.x i) (ev.fx i + ∑ l, pb.Ax l i * u.w (Fin.castAdd nz l) + ∑ l, ev.hx l i * u.w (Fin.natAdd ny l))

/-- The gradient of the master Lagrangian in the three parts: the gradient of the user's Lagrangian, and the multipliers of the inequality constraints. -/
theorem lag_parts {P : UProblem τ K nx np nbe nbg nhe nhg nc} {U : UserVals K nx np nhe nhg} {mem} (hA : IsMasterAx P.Aex P.Agx (masterProblem P mem).Ax) {xbar : Fin (nx + nbg + nhg) → K} {p : Fin np → K} {ev}
    (hv : MasterVals U xbar p ev) (w : Fin (nbe + nbg + (nhe + nhg)) → K) :
    (∀ i, ev.fx (ixX nbg nhg i) + ∑ l, (masterProblem P mem).Ax l (ixX nbg nhg i) * w (Fin.castAdd (nhe + nhg) l) + ∑ l, ev.hx l (ixX nbg nhg i) * w (Fin.natAdd (nbe + nbg) l) =
      U.fx (fun i => xbar (ixX nbg nhg i)) p i + ∑ l, P.Aex l i * w (Fin.castAdd (nhe + nhg) (Fin.castAdd nbg l)) + ∑ l, P.Agx l i * w (Fin.castAdd (nhe + nhg) (Fin.natAdd nbe l)) +
      ∑ l, U.hex (fun i => xbar (ixX nbg nhg i)) p l i * w (Fin.natAdd (nbe + nbg) (Fin.castAdd nhg l)) + ∑ l, U.hgx (fun i => xbar (ixX nbg nhg i)) p l i * w (Fin.natAdd (nbe + nbg) (Fin.natAdd nhe l))) ∧
    (∀ i, ev.fx (ixBg nx nhg i) + ∑ l, (masterProblem P mem).Ax l (ixBg nx nhg i) * w (Fin.castAdd (nhe + nhg) l) + ∑ l, ev.hx l (ixBg nx nhg i) * w (Fin.natAdd (nbe + nbg) l) = w (Fin.castAdd (nhe + nhg) (Fin.natAdd nbe i))) ∧
    ∀ i, ev.fx (ixHg nx nbg i) + ∑ l, (masterProblem P mem).Ax l (ixHg nx nbg i) * w (Fin.castAdd (nhe + nhg) l) + ∑ l, ev.hx l (ixHg nx nbg i) * w (Fin.natAdd (nbe + nbg) l) = w (Fin.natAdd (nbe + nbg) (Fin.natAdd nhe i)) := by
  refine ⟨fun i => ?_, fun i => ?_, fun i => ?_⟩
  · rw [Fin.sum_univ_add, Fin.sum_univ_add]
    simp only [hA.ex, hA.gx, hv.fx, hv.hex, hv.hgx]
    ring
  · rw [Fin.sum_univ_add, Fin.sum_univ_add]
    simp [hA.ebg, hA.gbg, hv.fbg, hv.hebg, hv.hgbg]
  · rw [Fin.sum_univ_add, Fin.sum_univ_add]
    simp [hA.ehg, hA.ghg, hv.fhg, hv.hehg, hv.hghg]

/-- **C37, first-order conditions** (whenever the matrix of the master problem is the right one): the packed state satisfies the conditions of the master problem if and only if it satisfies those of the user's problem and the slacks are the
    residuals of the inequality constraints. -/
theorem slack_kkt_partial {P : UProblem τ K nx np nbe nbg nhe nhg nc} {U : UserVals K nx np nhe nhg} (hU : Implements P U) {mem} (hA : IsMasterAx P.Aex P.Agx (masterProblem P mem).Ax) (S : UState K nx np nbe nbg nhe nhg)
    {ev} (hev : EvaluatesTo P (packState S).x S.p ev) :
    MKkt (masterProblem P mem) ev (packState S) ↔ UKkt P U S.x S.p S.ye S.yg S.ze S.zg ∧ (∀ i, S.xbg i = P.bg i - (∑ j, P.Agx i j * S.x j + ∑ q, P.Agp i q * S.p q)) ∧ ∀ i, S.xhg i = -U.hg S.x S.p i := by
  have hv := master_vals hU hev
  have hf := slack_feasible_partial hU hA (x := S.x) (p := S.p) (xbg := S.xbg) (xhg := S.xhg) hev
  obtain ⟨g1, g2, g3⟩ := lag_parts hA hv (packState S).w
  have hX : (fun i => (packState S).x (ixX nbg nhg i)) = S.x := by funext i; simp [packState]
  simp only [hX] at g1
  have w1 : ∀ l, (packState S).w (Fin.castAdd (nhe + nhg) (Fin.castAdd nbg l)) = S.ye l := by simp [packState]
  have w2 : ∀ l, (packState S).w (Fin.castAdd (nhe + nhg) (Fin.natAdd nbe l)) = S.yg l := by simp [packState]
  have w3 : ∀ l, (packState S).w (Fin.natAdd (nbe + nbg) (Fin.castAdd nhg l)) = S.ze l := by simp [packState]
  have w4 : ∀ l, (packState S).w (Fin.natAdd (nbe + nbg) (Fin.natAdd nhe l)) = S.zg l := by simp [packState]
  simp only [w1, w2, w3, w4] at g1 g2 g3
  have xl : ∀ i, (masterProblem P mem).xlower (ixX nbg nhg i) = P.xlower i := by simp [masterProblem]
  have xu : ∀ i, (masterProblem P mem).xupper (ixX nbg nhg i) = P.xupper i := by simp [masterProblem]
  have bl : ∀ i, (masterProblem P mem).xlower (ixBg nx nhg i) = none := by simp [masterProblem]
  have bu : ∀ i, (masterProblem P mem).xupper (ixBg nx nhg i) = some 0 := by simp [masterProblem]
  have hl : ∀ i, (masterProblem P mem).xlower (ixHg nx nbg i) = none := by simp [masterProblem]
  have hu : ∀ i, (masterProblem P mem).xupper (ixHg nx nbg i) = some 0 := by simp [masterProblem]
  have x1 : ∀ i, (packState S).x (ixX nbg nhg i) = S.x i := by simp [packState]
  have x2 : ∀ i, (packState S).x (ixBg nx nhg i) = S.xbg i := by simp [packState]
  have x3 : ∀ i, (packState S).x (ixHg nx nbg i) = S.xhg i := by simp [packState]
  constructor
  · intro h
    obtain ⟨k1, k2, k3⟩ := hf.1 h.feasible
    obtain ⟨a1, a2, a3⟩ := forall_xbar.1 h.grad
    refine ⟨⟨k1, fun i => ?_, fun i => ?_, fun i => ?_⟩, k2, k3⟩
    · have := a1 i
      rwa [g1, xl, xu, x1] at this
    · have := a2 i
      rw [g2, bl, bu, x2] at this
      refine ⟨this.1 (by simp), fun hlt => le_antisymm (this.1 (by simp)) (this.2 ?_)⟩
      intro e
      have e := Option.some.inj e
      have := k2 i
      linarith
    · have := a3 i
      rw [g3, hl, hu, x3] at this
      refine ⟨this.1 (by simp), fun hlt => le_antisymm (this.1 (by simp)) (this.2 ?_)⟩
      intro e
      have e := Option.some.inj e
      have := k3 i
      linarith
  · rintro ⟨h, k2, k3⟩
    refine ⟨hf.2 ⟨h.feasible, k2, k3⟩, forall_xbar.2 ⟨fun i => ?_, fun i => ?_, fun i => ?_⟩⟩
    · rw [g1, xl, xu, x1]; exact h.grad i
    · rw [g2, bl, bu, x2]
      refine ⟨fun _ => (h.yg i).1, fun hne => ((h.yg i).2 ?_).ge⟩
      have h1 := h.feasible.bg i
      refine lt_of_le_of_ne h1 fun e => hne ?_
      rw [k2 i, ← e, sub_self]
    · rw [g3, hl, hu, x3]
      refine ⟨fun _ => (h.zg i).1, fun hne => ((h.zg i).2 ?_).ge⟩
      have h1 := h.feasible.hg i
      refine lt_of_le_of_ne h1 fun e => hne ?_
      rw [k3 i, ← e, neg_zero]

end Optima
