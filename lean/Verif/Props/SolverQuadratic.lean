import Verif.Props.SolverState

/-!
# C46 for `Solver`: quadratic problems of the user are solved in one iteration
-/

set_option linter.unusedSectionVars false

namespace Optima

open Matrix

/-- A user problem with quadratic objective `x'Hx/2 + x'Hp p + c'x` and affine functions `he`, `hg`, `v`. -/
structure UAffine (K : Type*) (nx np nhe nhg : ℕ) where
  H : Matrix (Fin nx) (Fin nx) K
  Hp : Matrix (Fin nx) (Fin np) K
  c : Fin nx → K
  hex : Matrix (Fin nhe) (Fin nx) K
  hep : Matrix (Fin nhe) (Fin np) K
  he0 : Fin nhe → K
  hgx : Matrix (Fin nhg) (Fin nx) K
  hgp : Matrix (Fin nhg) (Fin np) K
  hg0 : Fin nhg → K
  vx : Matrix (Fin np) (Fin nx) K
  vp : Matrix (Fin np) (Fin np) K
  v0 : Fin np → K

section
variable {K : Type*} [Field K] [LinearOrder K] [IsStrictOrderedRing K] {τ : Type*} {nx np nbe nbg nhe nhg nc : ℕ}

/-- The user's code returns the values and derivatives of these functions whenever it returns, in whatever state it is; it may change its state and report anything else (flags, value of the objective) as it likes. -/
structure UAffine.Implemented (A : UAffine K nx np nhe nhg) (P : UProblem τ K nx np nbe nbg nhe nhg nc) : Prop where
  f : ∃ fn, P.f.fn = some fn ∧ ∀ t x p o t' q, o.ddx = true → o.ddp = decide (np ≠ 0) → fn t cleanObj x p P.c o = some (t', q) → q.fx = A.H *ᵥ x + A.Hp *ᵥ p + A.c ∧ q.fxx = A.H ∧ q.fxp = A.Hp
  he : ∃ fn, P.he.fn = some fn ∧ ∀ t x p o t' q, o.ddx = true → o.ddp = decide (np ≠ 0) → fn t cleanCon x p P.c o = some (t', q) → q.val = A.hex *ᵥ x + A.hep *ᵥ p + A.he0 ∧ q.ddx = A.hex ∧ q.ddp = A.hep
  hg : ∃ fn, P.hg.fn = some fn ∧ ∀ t x p o t' q, o.ddx = true → o.ddp = decide (np ≠ 0) → fn t cleanCon x p P.c o = some (t', q) → q.val = A.hgx *ᵥ x + A.hgp *ᵥ p + A.hg0 ∧ q.ddx = A.hgx ∧ q.ddp = A.hgp
  v : ∃ fn, P.v.fn = some fn ∧ ∀ t x p o t' q, o.ddx = true → o.ddp = decide (np ≠ 0) → fn t cleanCon x p P.c o = some (t', q) → q.val = A.vx *ᵥ x + A.vp *ᵥ p + A.v0 ∧ q.ddx = A.vx ∧ q.ddp = A.vp

/-- The functions of the master problem. -/
def UAffine.master (A : UAffine K nx np nhe nhg) : Affine K (nx + nbg + nhg) np (nhe + nhg) where
  H := fun i j => cat3 (fun i => cat3 (A.H i) (fun _ => 0) (fun _ => 0) j) (fun _ => 0) (fun _ => 0) i
  Hp := fun i j => cat3 (fun i => A.Hp i j) (fun _ => 0) (fun _ => 0) i
  c := cat3 A.c (fun _ => 0) (fun _ => 0)
  hx := fun i j => cat2 (fun i => cat3 (A.hex i) (fun _ => 0) (fun _ => 0) j) (fun i => cat3 (A.hgx i) (fun _ => 0) (fun k => if i = k then 1 else 0) j) i
  hp := fun i j => cat2 (fun i => A.hep i j) (fun i => A.hgp i j) i
  h0 := cat2 A.he0 A.hg0
  vx := fun i j => cat3 (A.vx i) (fun _ => 0) (fun _ => 0) j
  vp := A.vp
  v0 := A.v0

/-- The functions of the master problem return its values and derivatives. -/
theorem UAffine.returns {A : UAffine K nx np nhe nhg} {P : UProblem τ K nx np nbe nbg nhe nhg nc} (hA : A.Implemented P) {first : List ℕ} {ddc : Bool} {s s' : τ × ResMem K (nx + nbg + nhg) np (nhe + nhg) nc}
    {xbar : Fin (nx + nbg + nhg) → K} {p : Fin np → K} {q : Option (Ech.RWQ K (nx + nbg + nhg) np (nbe + nbg + (nhe + nhg)))} {ev}
    (h : userCode (masterFuns P) P.c first true true ddc s xbar p q = some (s', ev)) : (A.master (nbg := nbg)).Returns xbar p ev := by
  obtain ⟨ff, hff, hf⟩ := hA.f
  obtain ⟨fe, hfe, he⟩ := hA.he
  obtain ⟨fg, hfg, hg⟩ := hA.hg
  obtain ⟨fv, hfv, hv⟩ := hA.v
  have ef : P.f = ⟨some ff⟩ := by rw [← hff]
  have ee : P.he = ⟨some fe⟩ := by rw [← hfe]
  have eg : P.hg = ⟨some fg⟩ := by rw [← hfg]
  have ev' : P.v = ⟨some fv⟩ := by rw [← hfv]
  unfold userCode at h
  split at h
  · cases h
  rename_i t m ok hfe
  simp only [Option.some.injEq, Prod.mk.injEq] at h
  obtain ⟨-, rfl⟩ := h
  unfold functionEvals at hfe
  dsimp only at hfe
  split at hfe
  · cases hfe
  split at hfe
  · cases hfe
  rename_i t2 fres h2
  split at hfe
  · cases hfe
  rename_i t3 hres h3
  split at hfe
  · cases hfe
  rename_i t4 vres h4
  simp only [Option.some.injEq, Prod.mk.injEq] at hfe
  obtain ⟨-, rfl, -⟩ := hfe
  rw [show (masterFuns P).f = ⟨some (masterF (nbg := nbg) (nhg := nhg) P.f)⟩ from rfl, objective_sees_clean, ef, masterF_spec] at h2
  obtain ⟨q1, h2, -, f2, f3, f4, f5, f6, f7, f8, f9, f10, f11, f12, -⟩ := h2
  obtain ⟨k1, k2, k3⟩ := hf _ _ _ _ _ _ rfl rfl h2
  have keyh : hres.val = (A.master (nbg := nbg)).hx *ᵥ xbar + (A.master (nbg := nbg)).hp *ᵥ p + (A.master (nbg := nbg)).h0 ∧ hres.ddx = (A.master (nbg := nbg)).hx ∧ hres.ddp = (A.master (nbg := nbg)).hp := by
    by_cases hz : nhe + nhg ≠ 0
    · rw [if_pos hz, show (masterFuns P).h = ⟨some (masterH (nbg := nbg) P.he P.hg)⟩ from rfl, constraint_sees_clean, ee, eg, masterH_spec] at h3
      obtain ⟨t1, e, g, h5, h6, a1, a2, a3, a4, a5, a6, a7, a8, a9, a10, -⟩ := h3
      obtain ⟨b1, b2, b3⟩ := he _ _ _ _ _ _ rfl rfl h5
      obtain ⟨c1, c2, c3⟩ := hg _ _ _ _ _ _ rfl rfl h6
      refine ⟨funext (forall_cat2.2 ⟨fun i => ?_, fun i => ?_⟩), ?_, ?_⟩
      · rw [a1, b1]
        simp [UAffine.master, mulVec, dotProduct, sum_xbar]
      · rw [a2, c1]
        simp [UAffine.master, mulVec, dotProduct, sum_xbar]
        ring
      · ext i j
        revert i
        rw [forall_cat2]
        refine ⟨fun i => ?_, fun i => ?_⟩ <;> revert j <;> rw [forall_xbar] <;> simp [UAffine.master, a3, a4, a5, a6, a7, a8, b2, c2]
      · ext i j
        revert i
        rw [forall_cat2]
        simp [UAffine.master, a9, a10, b3, c3]
    · refine ⟨funext fun i => ?_, funext fun i => ?_, funext fun i => ?_⟩ <;> exact absurd i.2 (by omega)
  have keyv : vres.val = (A.master (nbg := nbg)).vx *ᵥ xbar + (A.master (nbg := nbg)).vp *ᵥ p + (A.master (nbg := nbg)).v0 ∧ vres.ddx = (A.master (nbg := nbg)).vx ∧ vres.ddp = (A.master (nbg := nbg)).vp := by
    by_cases hp : np ≠ 0
    · rw [if_pos hp, show (masterFuns P).v = ⟨some (masterV (nbg := nbg) (nhg := nhg) P.v)⟩ from rfl, constraint_sees_clean, ev', masterV_spec] at h4
      obtain ⟨q2, h5, a1, a2, a3, a4, a5, -⟩ := h4
      obtain ⟨b1, b2, b3⟩ := hv _ _ _ _ _ _ rfl rfl h5
      refine ⟨funext fun i => ?_, ?_, ?_⟩
      · rw [a1, b1]
        simp [UAffine.master, mulVec, dotProduct, sum_xbar]
      · ext i j
        revert j
        rw [forall_xbar]
        simp [UAffine.master, a2, a3, a4, b2]
      · rw [a5, b3]; rfl
    · refine ⟨funext fun i => ?_, funext fun i => ?_, funext fun i => ?_⟩ <;> exact absurd i.2 (by omega)
  refine ⟨?_, ?_, ?_, keyh.1, keyh.2.1, keyh.2.2, keyv.1, keyv.2.1, keyv.2.2⟩
  · refine ext_xbar (fun i => ?_) (fun i => ?_) (fun i => ?_)
    · refine (f2 i).trans ?_
      rw [k1]
      simp [UAffine.master, mulVec, dotProduct, sum_xbar]
    · refine (f3 i).trans ?_
      simp [UAffine.master, mulVec, dotProduct]
    · refine (f4 i).trans ?_
      simp [UAffine.master, mulVec, dotProduct]
  · change fres.fxx = _
    ext i j
    revert i
    rw [forall_xbar]
    refine ⟨fun i => ?_, by simp [UAffine.master, f6], by simp [UAffine.master, f7]⟩
    revert j
    rw [forall_xbar]
    simp [UAffine.master, f5, f8, f9, k2]
  · change fres.fxp = _
    ext i j
    revert i
    rw [forall_xbar]
    simp [UAffine.master, f10, f11, f12, k3]

/-- `(x, p, ye, ze)` satisfies the first-order conditions of the problem without its inequality constraints and bounds. -/
structure UAffine.Kkt (A : UAffine K nx np nhe nhg) (P : UProblem τ K nx np nbe nbg nhe nhg nc) (x : Fin nx → K) (p : Fin np → K) (ye : Fin nbe → K) (ze : Fin nhe → K) : Prop where
  grad : ∀ i, ∑ j, A.H i j * x j + ∑ q, A.Hp i q * p q + A.c i + ∑ l, P.Aex l i * ye l + ∑ l, A.hex l i * ze l = 0
  v : ∀ q, ∑ j, A.vx q j * x j + ∑ q', A.vp q q' * p q' + A.v0 q = 0
  be : ∀ l, ∑ j, P.Aex l j * x j + ∑ q, P.Aep l q * p q = P.be l
  he : ∀ l, ∑ j, A.hex l j * x j + ∑ q, A.hep l q * p q + A.he0 l = 0

/-- The gradient of the Lagrangian of the master problem, block by block. -/
theorem UAffine.master_grad (A : UAffine K nx np nhe nhg) (P : UProblem τ K nx np nbe nbg nhe nhg nc) {mem} (hA : IsMasterAx P.Aex P.Agx (masterProblem P mem).Ax) (S : UState K nx np nbe nbg nhe nhg) :
    (∀ i, (A.master (nbg := nbg)).grad (masterProblem P mem) (packState S) (ixX nbg nhg i) =
      (∑ j, A.H i j * S.x j + ∑ q, A.Hp i q * S.p q + A.c i + ∑ l, P.Aex l i * S.ye l + ∑ l, A.hex l i * S.ze l) + (∑ l, P.Agx l i * S.yg l + ∑ l, A.hgx l i * S.zg l)) ∧
    (∀ i, (A.master (nbg := nbg)).grad (masterProblem P mem) (packState S) (ixBg nx nhg i) = S.yg i) ∧ ∀ i, (A.master (nbg := nbg)).grad (masterProblem P mem) (packState S) (ixHg nx nbg i) = S.zg i := by
  have hX : ∀ i, (packState S).x (ixX nbg nhg i) = S.x i := fun i => by simp [packState]
  have hBg : ∀ i, (packState S).x (ixBg nx nhg i) = S.xbg i := fun i => by simp [packState]
  have hHg : ∀ i, (packState S).x (ixHg nx nbg i) = S.xhg i := fun i => by simp [packState]
  have hwE : ∀ l, (packState S).w (Fin.castAdd (nhe + nhg) (Fin.castAdd nbg l)) = S.ye l := fun i => by simp [packState]
  have hwG : ∀ l, (packState S).w (Fin.castAdd (nhe + nhg) (Fin.natAdd nbe l)) = S.yg l := fun i => by simp [packState]
  have hzE : ∀ l, (packState S).w (Fin.natAdd (nbe + nbg) (Fin.castAdd nhg l)) = S.ze l := fun i => by simp [packState]
  have hzG : ∀ l, (packState S).w (Fin.natAdd (nbe + nbg) (Fin.natAdd nhe l)) = S.zg l := fun i => by simp [packState]
  have hP : (packState S).p = S.p := rfl
  refine ⟨fun i => ?_, fun i => ?_, fun i => ?_⟩ <;> unfold Affine.grad
  · rw [sum_xbar, Fin.sum_univ_add (fun l => (masterProblem P mem).Ax l _ * _), Fin.sum_univ_add (fun l => (A.master (nbg := nbg)).hx l _ * _)]
    simp only [hX, hBg, hHg, hwE, hwG, hzE, hzG, hP, hA.ex, hA.gx]
    simp [UAffine.master]
    ring
  · rw [Fin.sum_univ_add (fun l => (masterProblem P mem).Ax l _ * _), Fin.sum_univ_add (fun l => (A.master (nbg := nbg)).hx l _ * _)]
    simp only [hwE, hwG, hzE, hzG, hP, hA.ebg, hA.gbg]
    simp [UAffine.master]
  · rw [Fin.sum_univ_add (fun l => (masterProblem P mem).Ax l _ * _), Fin.sum_univ_add (fun l => (A.master (nbg := nbg)).hx l _ * _)]
    simp only [hwE, hwG, hzE, hzG, hP, hA.ehg, hA.ghg]
    simp [UAffine.master]

/-- The first-order conditions of the master problem: multipliers of inequality constraints vanish, slacks are what is left. -/
theorem UAffine.master_kkt (A : UAffine K nx np nhe nhg) (P : UProblem τ K nx np nbe nbg nhe nhg nc) {mem} (hA : IsMasterAx P.Aex P.Agx (masterProblem P mem).Ax)
    (S : UState K nx np nbe nbg nhe nhg) : (A.master (nbg := nbg)).Kkt (masterProblem P mem) (packState S) ↔
      A.Kkt P S.x S.p S.ye S.ze ∧ (∀ i, S.yg i = 0) ∧ (∀ i, S.zg i = 0) ∧ (∀ i, S.xbg i = P.bg i - ∑ j, P.Agx i j * S.x j - ∑ q, P.Agp i q * S.p q) ∧
        ∀ i, S.xhg i = -(∑ j, A.hgx i j * S.x j + ∑ q, A.hgp i q * S.p q + A.hg0 i) := by
  have hX : ∀ i, (packState S).x (ixX nbg nhg i) = S.x i := fun i => by simp [packState]
  have hBg : ∀ i, (packState S).x (ixBg nx nhg i) = S.xbg i := fun i => by simp [packState]
  have hHg : ∀ i, (packState S).x (ixHg nx nbg i) = S.xhg i := fun i => by simp [packState]
  have hP : (packState S).p = S.p := rfl
  have hAp1 : ∀ i q, (masterProblem P mem).Ap (Fin.castAdd nbg i) q = P.Aep i q := by simp [masterProblem]
  have hAp2 : ∀ i q, (masterProblem P mem).Ap (Fin.natAdd nbe i) q = P.Agp i q := by simp [masterProblem]
  have hb1 : ∀ i, (masterProblem P mem).b (Fin.castAdd nbg i) = P.be i := by simp [masterProblem]
  have hb2 : ∀ i, (masterProblem P mem).b (Fin.natAdd nbe i) = P.bg i := by simp [masterProblem]
  obtain ⟨g1, g2, g3⟩ := A.master_grad P hA S
  have gv : ∀ q, ∑ j, (A.master (nbg := nbg) (nhg := nhg)).vx q j * (packState S).x j = ∑ j, A.vx q j * S.x j := by
    intro q
    rw [sum_xbar]
    simp only [hX, hBg, hHg]
    simp [UAffine.master]
  have he : ∀ l, ∑ j, (A.master (nbg := nbg)).hx (Fin.castAdd nhg l) j * (packState S).x j + ∑ q, (A.master (nbg := nbg)).hp (Fin.castAdd nhg l) q * (packState S).p q + (A.master (nbg := nbg)).h0 (Fin.castAdd nhg l) =
      ∑ j, A.hex l j * S.x j + ∑ q, A.hep l q * S.p q + A.he0 l := by
    intro l
    rw [sum_xbar]
    simp only [hX, hBg, hHg, hP]
    simp [UAffine.master]
  have hg : ∀ l, ∑ j, (A.master (nbg := nbg)).hx (Fin.natAdd nhe l) j * (packState S).x j + ∑ q, (A.master (nbg := nbg)).hp (Fin.natAdd nhe l) q * (packState S).p q + (A.master (nbg := nbg)).h0 (Fin.natAdd nhe l) =
      (∑ j, A.hgx l j * S.x j + ∑ q, A.hgp l q * S.p q + A.hg0 l) + S.xhg l := by
    intro l
    rw [sum_xbar]
    simp only [hX, hBg, hHg, hP]
    simp [UAffine.master]
    ring
  constructor
  · intro h
    have y0 : ∀ i, S.yg i = 0 := fun i => (g2 i).symm.trans (h.grad _)
    have z0 : ∀ i, S.zg i = 0 := fun i => (g3 i).symm.trans (h.grad _)
    refine ⟨⟨fun i => ?_, fun q => ?_, fun l => ?_, fun l => ?_⟩, y0, z0, fun l => ?_, fun l => ?_⟩
    · have := (g1 i).symm.trans (h.grad _)
      simpa [y0, z0] using this
    · have := h.v q; rwa [gv] at this
    · have := h.lin (Fin.castAdd nbg l)
      rw [lin_be hA, hb1] at this
      simpa only [hX, hAp1, hP] using this
    · exact (he l).symm.trans (h.nonlin _)
    · have := h.lin (Fin.natAdd nbe l)
      rw [lin_bg hA, hb2] at this
      simp only [hX, hBg, hAp2, hP] at this
      linear_combination this
    · have := (hg l).symm.trans (h.nonlin _)
      linear_combination this
  · rintro ⟨h, y0, z0, hs, hz⟩
    refine ⟨forall_xbar.2 ⟨fun i => ?_, fun i => ?_, fun i => ?_⟩, fun q => ?_, forall_cat2.2 ⟨fun l => ?_, fun l => ?_⟩, forall_cat2.2 ⟨fun l => ?_, fun l => ?_⟩⟩
    · refine (g1 i).trans ?_; rw [h.grad i]; simp [y0, z0]
    · exact (g2 i).trans (y0 i)
    · exact (g3 i).trans (z0 i)
    · rw [gv]; exact h.v q
    · rw [lin_be hA, hb1]; simp only [hX, hAp1]; exact h.be l
    · rw [lin_bg hA, hb2]; simp only [hX, hBg, hAp2, hP]; rw [hs]; ring
    · rw [he]; exact h.he l
    · rw [hg, hz]; ring

/-- The gradient of the Lagrangian at the initial state, projected on the bounds. -/
def UAffine.startGrad (A : UAffine K nx np nhe nhg) (P : UProblem τ K nx np nbe nbg nhe nhg nc) (S : UState K nx np nbe nbg nhe nhg) (i : Fin nx) : K :=
  ∑ j, A.H i j * clamp (P.xlower j) (P.xupper j) (S.x j) + ∑ q, A.Hp i q * clamp (P.plower q) (P.pupper q) (S.p q) + A.c i + ∑ l, P.Aex l i * S.ye l + ∑ l, P.Agx l i * S.yg l + ∑ l, A.hex l i * S.ze l + ∑ l, A.hgx l i * S.zg l

variable {env : Env K} {method : Method} {inners : ∀ c : CanonPack K (nx + nbg + nhg) np (nbe + nbg + (nhe + nhg)), Inners K np c.nbe c.nbi c.nne c.nni}

/-- **C46 for `Solver`**: a user problem with quadratic objective and affine functions, whose first-order conditions without inequality constraints and bounds have exactly one solution, and this solution satisfies the
    inequality constraints and the bounds.  In exact arithmetic (full-space or null-space method), started from any state in which no variable is held on a bound by the gradient and no slack by its multiplier (as when the initial
    multipliers of the inequality constraints are zero), the solver returns this solution after one iteration with success, with zero multipliers of the inequality constraints: for every size, every solver history, stateful user code.  (`hA`: see C44.) -/
theorem solver_quadratic {A : UAffine K nx np nhe nhg} {P : UProblem τ K nx np nbe nbg nhe nhg nc} (hP : NeverThrows P) (hI : A.Implemented P) {mem} (hA : IsMasterAx P.Aex P.Agx (masterProblem P mem).Ax)
    (hthr : 0 ≤ env.thr) (heps : env.eps = 0) (hd : env.debug = false) (ho : ∀ M, (env.o M).lu.Z = 0) (hnx : 0 < nx) (hlu : LUInners (solverConfig env method inners P mem)) (hm : method ≠ .rangespace)
    {x : Fin nx → K} {p : Fin np → K} {ye : Fin nbe → K} {ze : Fin nhe → K} (hk : A.Kkt P x p ye ze) (huniq : ∀ x' p' ye' ze', A.Kkt P x' p' ye' ze' → x' = x ∧ p' = p ∧ ye' = ye ∧ ze' = ze)
    (hbg : ∀ i, P.bg i ≤ ∑ j, P.Agx i j * x j + ∑ q, P.Agp i q * p q) (hhg : ∀ i, 0 ≤ ∑ j, A.hgx i j * x j + ∑ q, A.hgp i q * p q + A.hg0 i)
    (hx : ∀ i, Between (P.xlower i) (P.xupper i) (x i)) (hp : ∀ i, Between (P.plower i) (P.pupper i) (p i))
    (part : Idx.PartitionImpl ℕ) (o : SolveOptions K) (hmax : 1 ≤ o.maxiters) (htol : 0 < o.tolerance) (S : UState K nx np nbe nbg nhe nhg)
    (hSx : ∀ i, (P.xlower i = some (clamp (P.xlower i) (P.xupper i) (S.x i)) → A.startGrad P S i ≤ 0) ∧ (P.xupper i = some (clamp (P.xlower i) (P.xupper i) (S.x i)) → 0 ≤ A.startGrad P S i))
    (hSbg : ∀ i, S.xbg i < 0 ∨ 0 ≤ S.yg i) (hShg : ∀ i, S.xhg i < 0 ∨ 0 ≤ S.zg i)
    (t0 : τ) (res memW errors ax du history) :
    ∃ S' result, ∃ h : SolverReturns env method inners part o P mem S S' result none, (h.t0 = t0 ∧ h.res = res ∧ h.memW = memW ∧ h.errors = errors ∧ h.ax = ax ∧ h.du = du ∧ h.history = history) ∧
      result.succeeded = true ∧ result.iterations = 1 ∧ S'.x = x ∧ S'.p = p ∧ S'.ye = ye ∧ S'.ze = ze ∧ S'.yg = 0 ∧ S'.zg = 0 := by
  let ustar : UState K nx np nbe nbg nhe nhg :=
    { x := x, p := p, ye := ye, yg := 0, ze := ze, zg := 0, s := 0, xbg := fun i => P.bg i - ∑ j, P.Agx i j * x j - ∑ q, P.Agp i q * p q,
      xhg := fun i => -(∑ j, A.hgx i j * x j + ∑ q, A.hgp i q * p q + A.hg0 i), js := [], ju := [], jlu := [], juu := [], jb := [], jn := [] }
  have hkm : (A.master (nbg := nbg)).Kkt (masterProblem P mem) (packState ustar) := (A.master_kkt P hA ustar).2 ⟨hk, fun _ => rfl, fun _ => rfl, fun _ => rfl, fun _ => rfl⟩
  have hum : ∀ u', (A.master (nbg := nbg)).Kkt (masterProblem P mem) u' → u' = packState ustar := by
    intro u' h'
    obtain ⟨T, rfl⟩ : ∃ T : UState K nx np nbe nbg nhe nhg, packState T = u' := ⟨unpackState part { u := u', s := 0, js := [], ju := [], jlu := [], juu := [], jb := [], jn := [] }, pack_unpack _ _⟩
    obtain ⟨k, y0, z0, s1, s2⟩ := (A.master_kkt P hA T).1 h'
    obtain ⟨e1, e2, e3, e4⟩ := huniq _ _ _ _ k
    have e5 : T.yg = ustar.yg := funext y0
    have e6 : T.zg = ustar.zg := funext z0
    have e7 : T.xbg = ustar.xbg := funext fun i => by rw [s1 i, e1, e2]
    have e8 : T.xhg = ustar.xhg := funext fun i => by rw [s2 i, e1, e2]
    unfold packState
    rw [e1, e2, e3, e4, e5, e6, e7, e8]
  have hin : InBounds (masterProblem P mem).bounds (packState ustar) := by
    refine ⟨forall_xbar.2 ⟨fun i => ?_, fun i => ?_, fun i => ?_⟩, hp⟩
    · have := hx i
      simpa [MProblem.bounds, masterProblem, packState] using this
    · refine ⟨fun l e => ?_, fun l e => ?_⟩
      · simp [MProblem.bounds, masterProblem] at e
      · simp [MProblem.bounds, masterProblem] at e
        have := hbg i
        simp [packState, ustar, ← e]
        linarith
    · refine ⟨fun l e => ?_, fun l e => ?_⟩
      · simp [MProblem.bounds, masterProblem] at e
      · simp [MProblem.bounds, masterProblem] at e
        have := hhg i
        simp [packState, ustar, ← e]
        linarith
  -- the projected initial state
  let S0 : UState K nx np nbe nbg nhe nhg :=
    { S with x := fun i => clamp (P.xlower i) (P.xupper i) (S.x i), p := fun i => clamp (P.plower i) (P.pupper i) (S.p i), xbg := fun i => min (S.xbg i) 0, xhg := fun i => min (S.xhg i) 0 }
  have hS0 : clampVec (masterProblem P mem).bounds (packState S) = packState S0 := by
    apply MVec.ext
    · exact ext_xbar (by simp [clampVec, MProblem.bounds, masterProblem, packState, S0]) (by simp [clampVec, MProblem.bounds, masterProblem, packState, S0, clamp])
        (by simp [clampVec, MProblem.bounds, masterProblem, packState, S0, clamp])
    · rfl
    · rfl
  obtain ⟨g1, g2, g3⟩ := A.master_grad P hA S0
  have hstart : ∀ i, ((masterProblem P mem).xlower i = some ((packState S0).x i) → (A.master (nbg := nbg)).grad (masterProblem P mem) (packState S0) i ≤ 0) ∧
      ((masterProblem P mem).xupper i = some ((packState S0).x i) → 0 ≤ (A.master (nbg := nbg)).grad (masterProblem P mem) (packState S0) i) := by
    refine forall_xbar.2 ⟨fun i => ?_, fun i => ?_, fun i => ?_⟩
    · have := hSx i
      have e : (A.master (nbg := nbg)).grad (masterProblem P mem) (packState S0) (ixX nbg nhg i) = A.startGrad P S i := by
        rw [g1]; unfold UAffine.startGrad; ring
      rw [e]
      simpa [masterProblem, packState, S0] using this
    · rw [g2]
      refine ⟨by simp [masterProblem], fun e => ?_⟩
      rcases hSbg i with h | h
      · simp [masterProblem, packState, S0] at e
        exact absurd e (not_le.2 h)
      · exact h
    · rw [g3]
      refine ⟨by simp [masterProblem], fun e => ?_⟩
      rcases hShg i with h | h
      · simp [masterProblem, packState, S0] at e
        exact absurd e (not_le.2 h)
      · exact h
  obtain ⟨t, h1, h2, -, h4, h5⟩ := quadratic_solve (cfg := solverConfig env method inners P mem) hthr heps hd ho (by omega) rfl hlu hm (A.master (nbg := nbg))
    (fun t x p q => by
      obtain ⟨⟨t', ev⟩, e⟩ := userCode_returns hP _ true true false t x p q
      exact ⟨t', ev, e, UAffine.returns hI e⟩) (packState ustar) hkm hum hin o hmax htol (t0, res) memW errors ax du history (packState S) (by rw [show (solverConfig env method inners P mem).pb = masterProblem P mem from rfl, hS0]; exact hstart)
  have ht := (h1 _).2 rfl
  obtain ⟨-, ev, rf, ew0, e1, -⟩ := solve_inv (machine_inv (cfg := solverConfig env method inners P mem) hthr heps.ge (by omega) none) o _ (start_reach _ (t0, res) memW errors ax du) history _ _ ht
  refine ⟨_, _, { t0 := t0, res := res, memW := memW, errors := errors, ax := ax, du := du, history := history, final := t, rf := rf, solved := ht, evaluated := e1, state := rfl, result_eq := rfl },
    ⟨rfl, rfl, rfl, rfl, rfl, rfl, rfl⟩, h4, h5, ?_⟩
  simp only [unpackState, finalState, h2]
  refine ⟨?_, ?_, ?_, ?_, ?_, ?_⟩ <;> funext i <;> simp [packState, ustar]

end

/-! ### A concrete problem

`min (x0² + x1²)/2` subject to `x0 + x1 = 2`, `x0 - x1 ≥ -1`, `x ≥ 0`: the solution is `x = (1, 1)`.  The objective reports success or failure (`ok`) at every evaluation. -/

/-- The problem. -/
def exUser (ok : Bool) : UProblem Unit ℚ 2 0 1 1 0 0 0 where
  r := ResFn.default
  f := ⟨some fun t res x _ _ _ => some (t, { res with f := (x 0 ^ 2 + x 1 ^ 2) / 2, fx := x, fxx := 1, succeeded := ok })⟩
  he := ConFn.default
  hg := ConFn.default
  v := ConFn.default
  Aex := fun _ _ => 1
  Aep := fun _ i => i.elim0
  Agx := fun _ => ![1, -1]
  Agp := fun _ i => i.elim0
  be := fun _ => 2
  bg := fun _ => -1
  xlower := fun _ => some 0
  xupper := fun _ => none
  plower := fun i => i.elim0
  pupper := fun i => i.elim0
  c := fun i => i.elim0
  bec := fun _ i => i.elim0
  bgc := fun _ i => i.elim0

/-- Its functions. -/
def exUserAffine : UAffine ℚ 2 0 0 0 where
  H := 1
  Hp := 0
  c := 0
  hex := fun i => i.elim0
  hep := fun i => i.elim0
  he0 := fun i => i.elim0
  hgx := fun i => i.elim0
  hgp := fun i => i.elim0
  hg0 := fun i => i.elim0
  vx := fun i => i.elim0
  vp := fun i => i.elim0
  v0 := fun i => i.elim0

/-- The initial state: `x = (5, 1/2)`, everything else zero (so the slack starts on its bound). -/
def exUserStart : UState ℚ 2 0 1 1 0 0 where
  x := ![5, 1/2]
  p := fun i => i.elim0
  ye := 0
  yg := 0
  ze := fun i => i.elim0
  zg := fun i => i.elim0
  s := 0
  xbg := 0
  xhg := fun i => i.elim0
  js := []
  ju := []
  jlu := []
  juu := []
  jb := []
  jn := []

theorem exUser_neverThrows (ok : Bool) : NeverThrows (exUser ok) := ⟨fun _ _ _ _ _ => ⟨_, rfl⟩, fun _ _ _ _ _ => ⟨_, rfl⟩, fun _ _ _ _ _ => ⟨_, rfl⟩, fun _ _ _ _ _ => ⟨_, rfl⟩, fun _ _ _ _ _ => ⟨_, rfl⟩⟩

theorem exUser_implemented (ok : Bool) : exUserAffine.Implemented (exUser ok) where
  f := by
    refine ⟨_, rfl, fun t x p o t' q _ _ h => ?_⟩
    simp only [Option.some.injEq, Prod.mk.injEq] at h
    obtain ⟨-, rfl⟩ := h
    refine ⟨?_, rfl, ?_⟩
    · funext i; simp [exUserAffine, mulVec, dotProduct]
    · funext i j; exact j.elim0
  he := ⟨_, rfl, fun t x p o t' q _ _ _ => ⟨funext fun i => i.elim0, funext fun i => i.elim0, funext fun i => i.elim0⟩⟩
  hg := ⟨_, rfl, fun t x p o t' q _ _ _ => ⟨funext fun i => i.elim0, funext fun i => i.elim0, funext fun i => i.elim0⟩⟩
  v := ⟨_, rfl, fun t x p o t' q _ _ _ => ⟨funext fun i => i.elim0, funext fun i => i.elim0, funext fun i => i.elim0⟩⟩

theorem exUser_kkt (ok : Bool) : exUserAffine.Kkt (exUser ok) (fun _ => 1) (fun i => i.elim0) (fun _ => -1) (fun i => i.elim0) := by
  refine ⟨?_, fun i => i.elim0, ?_, fun i => i.elim0⟩ <;> simp [exUser, exUserAffine, Matrix.one_apply]

theorem exUser_unique (ok : Bool) (x' p' ye' ze') (h : exUserAffine.Kkt (exUser ok) x' p' ye' ze') : x' = (fun _ => 1) ∧ p' = (fun i => i.elim0) ∧ ye' = (fun _ => -1) ∧ ze' = fun i => i.elim0 := by
  have g0 := h.grad 0
  have g1 := h.grad 1
  have l := h.be 0
  simp [exUser, exUserAffine, Matrix.one_apply] at g0 g1 l
  have e0 : x' 0 = 1 := by linarith
  have e1 : x' 1 = 1 := by linarith
  have e2 : ye' 0 = -1 := by linarith
  refine ⟨?_, funext fun i => i.elim0, ?_, funext fun i => i.elim0⟩
  · funext i; revert i; rw [Fin.forall_fin_two]; exact ⟨e0, e1⟩
  · funext i; rw [Subsingleton.elim i 0]; exact e2

/-- The solver finds the solution in one iteration and reports success, whatever the objective reports, for every history of the solver object that left no stale entry in the matrix. -/
theorem exUser_solved (ok : Bool) : ∃ env : Env ℚ, (0 ≤ env.thr ∧ env.eps = 0 ∧ env.debug = false ∧ ∀ M, (env.o M).lu.Z = 0) ∧ ∃ inners, ∀ part t0 res memW errors ax du history, ∃ S' result,
    ∃ h : SolverReturns env .nullspace inners part { maxiters := 200, tolerance := 1/1000000000, minmax := false, debug := false } (exUser ok) 0 exUserStart S' result none,
      (h.t0 = t0 ∧ h.res = res ∧ h.memW = memW ∧ h.errors = errors ∧ h.ax = ax ∧ h.du = du ∧ h.history = history) ∧ result.succeeded = true ∧ result.iterations = 1 ∧ S'.x = fun _ => 1 := by
  obtain ⟨oracle, ho⟩ := Ech.exists_exact_oracle (K := ℚ)
  let F : ∀ n, (A : Matrix (Fin n) (Fin n) ℚ) → LU.FullLU A := fun n A => (LU.exists_fullLU n A).some
  refine ⟨{ o := oracle, sort := Ech.sortImpl, P := fun n => Idx.stableImpl, thr := 1/100000000, eps := 0, debug := false }, ⟨by norm_num, rfl, rfl, ho⟩,
    fun c => ⟨luInner 0 (Fintype.equivFin _) (F _) 0, luInner 0 (Fintype.equivFin _) (F _) 0, luInner 0 (Fintype.equivFin _) (F _) 0⟩, fun part t0 res memW errors ax du history => ?_⟩
  obtain ⟨S', result, h, h1, h2, h3, h4, -⟩ := solver_quadratic (env := { o := oracle, sort := Ech.sortImpl, P := fun n => Idx.stableImpl, thr := 1/100000000, eps := 0, debug := false }) (method := .nullspace)
    (inners := fun c => ⟨luInner 0 (Fintype.equivFin _) (F _) 0, luInner 0 (Fintype.equivFin _) (F _) 0, luInner 0 (Fintype.equivFin _) (F _) 0⟩)
    (exUser_neverThrows ok) (exUser_implemented ok) (mem := 0) ((assembleAx_iff _ _ _).2 fun _ _ => rfl) (by norm_num) rfl rfl ho (by norm_num)
    (fun c => ⟨_, _, _, Fintype.equivFin _, Fintype.equivFin _, Fintype.equivFin _, F, 0, rfl⟩) (by intro h; cases h) (exUser_kkt ok) (exUser_unique ok)
    (by intro i; simp [exUser]) (fun i => i.elim0) (fun i => ⟨fun l e => (by cases e; exact zero_le_one), fun l e => (by cases e)⟩) (fun i => i.elim0) part
    { maxiters := 200, tolerance := 1/1000000000, minmax := false, debug := false } (by norm_num) (by norm_num) exUserStart
    (by
      have h : ∀ i, (exUser ok).xlower i ≠ some (clamp ((exUser ok).xlower i) ((exUser ok).xupper i) (exUserStart.x i)) := by
        change ∀ i : Fin 2, some (0 : ℚ) ≠ some (clamp (some 0) none (exUserStart.x i))
        decide +kernel
      exact fun i => ⟨fun e => absurd e (h i), fun e => (by cases e)⟩)
    (fun i => Or.inr le_rfl) (fun i => i.elim0) t0 res memW errors ax du history
  exact ⟨S', result, h, h1, h2, h3, h4⟩

end Optima
