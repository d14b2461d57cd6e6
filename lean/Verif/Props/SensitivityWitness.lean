import Verif.Props.SolverSensitivity
import Verif.Props.SolverFixed
import Verif.Props.SolverQuadratic

/-!
# C41: sensitivities at solutions with independent active gradients; where the code is wrong
-/

set_option linter.unusedSectionVars false

namespace Optima

open Matrix Filter Topology

section
variable {τ : Type*} {nx np nbe nbg nhe nhg nc : ℕ}

/-- The values of the functions at a point. -/
def UFuns.evals (U : UFuns nx np nbe nbg nhe nhg nc) (x : Fin nx → ℝ) (p : Fin np → ℝ) (c : Fin nc → ℝ) : UEvals ℝ nx np nhe nhg where
  fx := U.fx x p c
  fxx := U.fxx x p c
  fxp := U.fxp x p c
  he := U.he x p c
  hex := U.hex x p c
  hep := U.hep x p c
  hg := U.hg x p c
  hgx := U.hgx x p c
  hgp := U.hgp x p c
  v := U.v x p c
  vx := U.vx x p c
  vp := U.vp x p c

/-- **C41** with a condition on the problem only: the statement of `solver_sensitivity_partial` holds at points where the gradients of the active constraints and bounds are linearly independent (and there is a constraint). -/
theorem solver_sensitivity_licq_partial {env : Env ℝ} {method : Method} {inners : ∀ c : CanonPack ℝ (nx + nbg + nhg) np (nbe + nbg + (nhe + nhg)), Inners ℝ np c.nbe c.nbi c.nne c.nni} {part : Idx.PartitionImpl ℕ} {o : SolveOptions ℝ}
    {P : UProblem τ ℝ nx np nbe nbg nhe nhg nc} {mem : Matrix (Fin (nbe + nbg)) (Fin (nx + nbg + nhg)) ℝ} {S S' : UState ℝ nx np nbe nbg nhe nhg} {result : Result ℝ} {check}
    {h : SolverReturns env method inners part o P mem S S' result check} {I : ∀ c : CanonPack ℝ (nx + nbg + nhg) np (nbe + nbg + (nhe + nhg)), Inners ℝ np c.nbe c.nbi c.nne c.nni} {sens : USens ℝ nx np nbe nbg nhe nhg nc}
    (hs : SensReturns h I sens) (hthr : env.thr = 0) (heps : env.eps = 0) (ho : ∀ M, (env.o M).lu.Z = 0) (hnx : 0 < nx) (hc : 0 < nbe + nbg + nhe + nhg) (hA : IsMasterAx P.Aex P.Agx (masterProblem P mem).Ax) (hI : ∀ c, LUObjects c (I c))
    {U : UFuns nx np nbe nbg nhe nhg nc} (hU : U.Implemented P) (hbg : U.bg P.c = P.bg) {F : UFamily nx np nbe nbg nhe nhg} {i : Fin nc} {T : UTangent nx np nbe nbg nhe nhg} (hD : U.Derivs P (F.x 0) (F.p 0) P.c)
    (hF : F.Smooth P U i T) (hK : F.Kkt P U i) (h0 : F.Starts P U i S') (hq : (U.evals (F.x 0) (F.p 0) P.c).Licq P S')
    (hL : ∀ dx dp dye dyg dze dzg, ULin P U (F.x 0) (F.p 0) (F.active P U i) dx dp dye dyg dze dzg → dx = 0 ∧ dp = 0 ∧ dye = 0 ∧ dyg = 0 ∧ dze = 0 ∧ dzg = 0) :
    (sens.Derivative F P U i ↔ ∀ j, ¬ (F.active P U i).x j → T.curv F j = 0) ∧
    (∀ j, ¬ (F.active P U i).x j → HasDerivAt (fun t => F.s P U i t j) (sens.sc j i) 0) ∧
    ((∀ j, ¬ (F.active P U i).x j → T.curv F j = 0) → ∀ j, (F.active P U i).x j →
      (HasDerivAt (fun t => F.s P U i t j) (sens.sc j i) 0 ↔ ∑ k, U.fxx (F.x 0) (F.p 0) P.c j k * T.x' k + ∑ q, U.fxp (F.x 0) (F.p 0) P.c j q * T.p' q + T.curv F j = 0)) := by
  refine solver_sensitivity_partial hs hthr.ge heps ho hnx hA hI ?_ hU hD hF hK h0 hL
  have hreach := (solve_inv (machine_inv (cfg := solverConfig env method inners P mem) hthr.ge heps.ge (by omega) check) o _ (start_reach _ (h.t0, h.res) h.memW h.errors h.ax h.du) h.history _ _ h.solved).1
  obtain ⟨parts, rf2, r0, s0, hupd, hst, -⟩ := hs
  dsimp only
  obtain ⟨t, ev, rf, hu, hrf, hspec, hpu⟩ := updateF_spec hthr.ge heps.ge (by omega) hreach hupd
  obtain rfl : rf = rf2 := Option.some.inj (hrf.symm.trans hst)
  have hpk := solver_blocks h
  rw [← hpk] at hspec hu
  have hev := master_derivs (nbg := nbg) hU hu
  have e1 : (fun i => (packState S').x (ixX nbg nhg i)) = F.x 0 := by funext j; simp [packState, h0.x]
  have e2 : (packState S').p = F.p 0 := h0.p
  rw [e1, e2] at hev
  have hsl : (U.evals (F.x 0) (F.p 0) P.c).Slacks P S' := by
    refine ⟨fun l => ?_, fun l => ?_⟩
    · rw [h0.xbg, h0.x, h0.p]; simp [UFamily.xbg, movePar_zero, hbg]
    · rw [h0.xhg]; simp [UFamily.xhg, movePar_zero, UFuns.evals]
  exact (unstable_iff_held hthr ho (by omega) hspec (master_licq (E := U.evals (F.x 0) (F.p 0) P.c) hA hev.hx hsl hq)).1

/-- The solver computes sensitivities when the user's functions return at the solution. -/
theorem sens_exists {K : Type*} [Field K] [LinearOrder K] [IsStrictOrderedRing K] {env : Env K} {method : Method} {inners : ∀ c : CanonPack K (nx + nbg + nhg) np (nbe + nbg + (nhe + nhg)), Inners K np c.nbe c.nbi c.nne c.nni} {part : Idx.PartitionImpl ℕ} {o : SolveOptions K}
    {P : UProblem τ K nx np nbe nbg nhe nhg nc} {mem : Matrix (Fin (nbe + nbg)) (Fin (nx + nbg + nhg)) K} {S S' : UState K nx np nbe nbg nhe nhg} {result : Result K} {check}
    (h : SolverReturns env method inners part o P mem S S' result check) (I : ∀ c : CanonPack K (nx + nbg + nhg) np (nbe + nbg + (nhe + nhg)), Inners K np c.nbe c.nbi c.nne c.nni)
    (hthr : 0 ≤ env.thr) (heps : 0 ≤ env.eps) (hd : env.debug = false) (hnx : 0 < nx) {E : UEvals K nx np nhe nhg} (hE : E.Returned P S'.x S'.p) : ∃ sens, Nonempty (SensReturns h I sens) := by
  have hreach := (solve_inv (machine_inv (cfg := solverConfig env method inners P mem) hthr heps (by omega) check) o _ (start_reach _ (h.t0, h.res) h.memW h.errors h.ax h.du) h.history _ _ h.solved).1
  have hpk := solver_blocks h
  obtain ⟨t', ev, e1, -⟩ := UEvals.returns hE _ true h.final.mach.user (xbar := h.final.u.x) (fun i => by rw [← hpk]; simp [packState]) h.final.mach.ech.rwq
  rw [show S'.p = h.final.u.p by rw [← hpk]; rfl] at e1
  obtain ⟨rf, hrf, -⟩ := rfUpdate_release hthr heps hd (masterProblem P mem) hreach (by omega) h.final.mach.ax ev h.final.u
  obtain ⟨parts, h1, h2⟩ : ∃ parts, (solverConfig env method inners P mem).updateF (solverConfig env method inners P mem).userJac h.final.mach h.final.u = some parts ∧ parts.rf = some rf := by
    unfold Config.updateF
    rw [show (solverConfig env method inners P mem).userJac h.final.mach.user h.final.u.x h.final.u.p h.final.mach.ech.rwq = some (t', ev) from e1]
    dsimp only
    rw [show rfUpdate (solverConfig env method inners P mem).env (solverConfig env method inners P mem).pb h.final.mach.ech h.final.mach.ax ev h.final.u = FOut.ok rf from hrf]
    exact ⟨_, rfl, rfl⟩
  exact ⟨_, ⟨{ parts := parts, rf2 := rf, r0 := ⟨0, 0, 0⟩, s0 := ⟨0, 0, 0, 0⟩, evaluated := h1, state := h2, result := rfl }⟩⟩

end

/-! ### Rules for `JacAt` -/

section rules
variable {n m k : ℕ} {F G : (Fin n → ℝ) → (Fin m → ℝ) → (Fin k → ℝ) → ℝ} {x : Fin n → ℝ} {p : Fin m → ℝ} {c : Fin k → ℝ} {a a' : Fin n → ℝ} {b b' : Fin m → ℝ} {d d' : Fin k → ℝ}

theorem JacAt.const (r : ℝ) : JacAt (fun _ _ _ => r) x p c 0 0 0 := ⟨0, hasFDerivAt_const _ _, by simp⟩

theorem JacAt.coordX (j : Fin n) : JacAt (fun x _ _ => x j) x p c (Pi.single j 1) 0 0 :=
  ⟨(ContinuousLinearMap.proj j).comp (ContinuousLinearMap.fst ℝ _ _), ((ContinuousLinearMap.proj j).comp (ContinuousLinearMap.fst ℝ (Fin n → ℝ) ((Fin m → ℝ) × (Fin k → ℝ)))).hasFDerivAt, by simp [Pi.single_apply]⟩

theorem JacAt.coordC (j : Fin k) : JacAt (fun _ _ c => c j) x p c 0 0 (Pi.single j 1) :=
  ⟨(ContinuousLinearMap.proj j).comp ((ContinuousLinearMap.snd ℝ _ _).comp (ContinuousLinearMap.snd ℝ _ _)),
    ((ContinuousLinearMap.proj j).comp ((ContinuousLinearMap.snd ℝ (Fin m → ℝ) (Fin k → ℝ)).comp (ContinuousLinearMap.snd ℝ (Fin n → ℝ) ((Fin m → ℝ) × (Fin k → ℝ))))).hasFDerivAt, by simp [Pi.single_apply]⟩

theorem JacAt.add (hF : JacAt F x p c a b d) (hG : JacAt G x p c a' b' d') : JacAt (fun x p c => F x p c + G x p c) x p c (a + a') (b + b') (d + d') := by
  obtain ⟨L, hL, e⟩ := hF
  obtain ⟨M, hM, e'⟩ := hG
  refine ⟨L + M, hL.add hM, fun dx dp dc => ?_⟩
  simp only [ContinuousLinearMap.add_apply, e, e', Pi.add_apply, add_mul, Finset.sum_add_distrib]
  ring

theorem JacAt.mul (hF : JacAt F x p c a b d) (hG : JacAt G x p c a' b' d') :
    JacAt (fun x p c => F x p c * G x p c) x p c (F x p c • a' + G x p c • a) (F x p c • b' + G x p c • b) (F x p c • d' + G x p c • d) := by
  obtain ⟨L, hL, e⟩ := hF
  obtain ⟨M, hM, e'⟩ := hG
  refine ⟨F x p c • M + G x p c • L, hL.mul hM, fun dx dp dc => ?_⟩
  simp only [ContinuousLinearMap.add_apply, ContinuousLinearMap.smul_apply, smul_eq_mul, e, e', Pi.add_apply, Pi.smul_apply, add_mul, Finset.sum_add_distrib, mul_assoc, ← Finset.mul_sum]
  ring

theorem JacAt.congr (hF : JacAt F x p c a b d) (h1 : ∀ j, a j = a' j) (h2 : ∀ j, b j = b' j) (h3 : ∀ j, d j = d' j) : JacAt F x p c a' b' d' := by
  rw [show a' = a from funext fun j => (h1 j).symm, show b' = b from funext fun j => (h2 j).symm, show d' = d from funext fun j => (h3 j).symm]; exact hF

end rules

/-! ### A held variable

`min x0*x1 + 2*x1` subject to `x0 + x1 = c`, `x1 ≥ 0`, at `c = 1`: the solution is `(c, 0)`, with multiplier `s1 = c + 2` of the bound. -/

/-- The problem. -/
def heldProblem : UProblem Unit ℝ 2 0 1 0 0 0 1 where
  r := ResFn.default
  f := ⟨some fun t res x _ _ _ => some (t, { res with f := x 0 * x 1 + 2 * x 1, fx := ![x 1, x 0 + 2], fxx := !![0, 1; 1, 0], fxc := 0 })⟩
  he := ConFn.default
  hg := ConFn.default
  v := ConFn.default
  Aex := fun _ _ => 1
  Aep := fun _ i => i.elim0
  Agx := fun i => i.elim0
  Agp := fun i => i.elim0
  be := fun _ => 1
  bg := fun i => i.elim0
  xlower := ![none, some 0]
  xupper := fun _ => none
  plower := fun i => i.elim0
  pupper := fun i => i.elim0
  c := fun _ => 1
  bec := fun _ _ => 1
  bgc := fun i => i.elim0

/-- Its functions. -/
def heldFuns : UFuns 2 0 1 0 0 0 1 where
  fx := fun x _ _ => ![x 1, x 0 + 2]
  fxx := fun _ _ _ => !![0, 1; 1, 0]
  fxp := fun _ _ _ _ i => i.elim0
  fxc := fun _ _ _ => 0
  he := fun _ _ _ i => i.elim0
  hex := fun _ _ _ i => i.elim0
  hep := fun _ _ _ i => i.elim0
  hec := fun _ _ _ i => i.elim0
  hg := fun _ _ _ i => i.elim0
  hgx := fun _ _ _ i => i.elim0
  hgp := fun _ _ _ i => i.elim0
  hgc := fun _ _ _ i => i.elim0
  v := fun _ _ _ i => i.elim0
  vx := fun _ _ _ i => i.elim0
  vp := fun _ _ _ i => i.elim0
  vc := fun _ _ _ i => i.elim0
  be := fun c _ => c 0
  bg := fun _ i => i.elim0

/-- Its solutions. -/
def heldFamily : UFamily 2 0 1 0 0 0 where
  x := fun t => ![1 + t, 0]
  p := fun _ i => i.elim0
  ye := fun _ _ => 0
  yg := fun _ i => i.elim0
  ze := fun _ i => i.elim0
  zg := fun _ i => i.elim0

def heldTangent : UTangent 2 0 1 0 0 0 where
  x' := ![1, 0]
  p' := fun i => i.elim0
  ye' := fun _ => 0
  yg' := fun i => i.elim0
  ze' := fun i => i.elim0
  zg' := fun i => i.elim0
  hex' := fun i => i.elim0
  hgx' := fun i => i.elim0

/-- The state in which the solver is started: the solution. -/
def heldStart : UState ℝ 2 0 1 0 0 0 where
  x := ![1, 0]
  p := fun i => i.elim0
  ye := fun _ => 0
  yg := fun i => i.elim0
  ze := fun i => i.elim0
  zg := fun i => i.elim0
  s := 0
  xbg := fun i => i.elim0
  xhg := fun i => i.elim0
  js := []
  ju := []
  jlu := []
  juu := []
  jb := []
  jn := []

theorem held_implemented : heldFuns.Implemented heldProblem where
  f := by
    refine ⟨_, rfl, fun t x p o t' q _ _ _ h => ?_⟩
    simp only [Option.some.injEq, Prod.mk.injEq] at h
    obtain ⟨-, rfl⟩ := h
    exact ⟨rfl, rfl, funext fun i => funext fun j => j.elim0, rfl⟩
  he := ⟨_, rfl, fun t x p o t' q _ _ _ _ => ⟨funext fun i => i.elim0, funext fun i => i.elim0, funext fun i => i.elim0, funext fun i => i.elim0⟩⟩
  hg := ⟨_, rfl, fun t x p o t' q _ _ _ _ => ⟨funext fun i => i.elim0, funext fun i => i.elim0, funext fun i => i.elim0, funext fun i => i.elim0⟩⟩
  v := ⟨_, rfl, fun t x p o t' q _ _ _ _ => ⟨funext fun i => i.elim0, funext fun i => i.elim0, funext fun i => i.elim0, funext fun i => i.elim0⟩⟩

theorem held_returned : (heldFuns.evals ![1, 0] (fun i => i.elim0) heldProblem.c).Returned heldProblem heldStart.x heldStart.p where
  r := fun _ _ _ _ => ⟨_, rfl⟩
  f := ⟨_, rfl, fun t o _ _ => ⟨_, _, rfl, rfl, rfl, funext fun i => funext fun j => j.elim0⟩⟩
  he := ⟨_, rfl, fun t o _ _ => ⟨_, _, rfl, funext fun i => i.elim0, funext fun i => i.elim0, funext fun i => i.elim0⟩⟩
  hg := ⟨_, rfl, fun t o _ _ => ⟨_, _, rfl, funext fun i => i.elim0, funext fun i => i.elim0, funext fun i => i.elim0⟩⟩
  v := ⟨_, rfl, fun t o _ _ => ⟨_, _, rfl, funext fun i => i.elim0, funext fun i => i.elim0, funext fun i => i.elim0⟩⟩

theorem held_derivs : heldFuns.Derivs heldProblem (heldFamily.x 0) (heldFamily.p 0) heldProblem.c where
  fx := by
    rw [Fin.forall_fin_two]
    constructor
    · exact (JacAt.coordX 1).congr (by rw [Fin.forall_fin_two]; simp [heldFuns]) (fun j => j.elim0) (by simp [heldFuns])
    · exact ((JacAt.coordX 0).add (JacAt.const 2)).congr (by rw [Fin.forall_fin_two]; simp [heldFuns]) (fun j => j.elim0) (by simp [heldFuns])
  he := fun i => i.elim0
  hg := fun i => i.elim0
  v := fun i => i.elim0
  be := fun l => (JacAt.coordC 0).congr (fun j => j.elim0) (fun j => j.elim0) (by simp [heldProblem])
  bg := fun i => i.elim0

theorem held_smooth : heldFamily.Smooth heldProblem heldFuns 0 heldTangent where
  x := by
    rw [Fin.forall_fin_two]
    exact ⟨by simpa [heldFamily, heldTangent] using (hasDerivAt_id (0 : ℝ)).const_add 1, by simpa [heldFamily, heldTangent] using hasDerivAt_const (0 : ℝ) (0 : ℝ)⟩
  p := fun i => i.elim0
  ye := fun _ => by simpa [heldFamily, heldTangent] using hasDerivAt_const (0 : ℝ) (0 : ℝ)
  yg := fun i => i.elim0
  ze := fun i => i.elim0
  zg := fun i => i.elim0
  hex := fun i => i.elim0
  hgx := fun i => i.elim0

theorem held_s (t : ℝ) : heldFamily.s heldProblem heldFuns 0 t 0 = 0 ∧ heldFamily.s heldProblem heldFuns 0 t 1 = 3 + t := by
  constructor <;> simp [UFamily.s, heldFamily, heldFuns, heldProblem]
  ring

theorem held_active : ¬ (heldFamily.active heldProblem heldFuns 0).x 0 ∧ (heldFamily.active heldProblem heldFuns 0).x 1 := by
  have := held_s 0
  constructor <;> simp only [UFamily.active, this.1, this.2] <;> simp [heldProblem, heldFamily]

theorem held_kkt_family : heldFamily.Kkt heldProblem heldFuns 0 where
  free := Eventually.of_forall fun t => by
    rw [Fin.forall_fin_two]
    exact ⟨fun _ => (held_s t).1, fun h => absurd held_active.2 h⟩
  held := Eventually.of_forall fun t => by
    rw [Fin.forall_fin_two]
    exact ⟨fun h => absurd h held_active.1, fun _ => rfl⟩
  v := Eventually.of_forall fun t => funext fun i => i.elim0
  be := Eventually.of_forall fun t l => by simp [heldProblem, heldFamily, heldFuns, movePar]
  he := Eventually.of_forall fun t => funext fun i => i.elim0
  bg := Eventually.of_forall fun t i => i.elim0
  hg := Eventually.of_forall fun t i => i.elim0

theorem held_mult : (heldFuns.evals ![1, 0] (fun i => i.elim0) heldProblem.c).mult heldProblem heldStart 0 = 0 ∧ (heldFuns.evals ![1, 0] (fun i => i.elim0) heldProblem.c).mult heldProblem heldStart 1 = 3 := by
  constructor <;> simp [UEvals.mult, heldFuns, UFuns.evals, heldProblem, heldStart]
  norm_num

theorem held_held : ¬ (heldFuns.evals ![1, 0] (fun i => i.elim0) heldProblem.c).Held heldProblem heldStart 0 ∧ (heldFuns.evals ![1, 0] (fun i => i.elim0) heldProblem.c).Held heldProblem heldStart 1 := by
  have := held_mult
  constructor <;> simp only [UEvals.Held, this.1, this.2] <;> simp [heldProblem, heldStart]

theorem held_kkt : (heldFuns.evals ![1, 0] (fun i => i.elim0) heldProblem.c).Kkt heldProblem heldStart where
  x := by
    rw [Fin.forall_fin_two]
    refine ⟨⟨fun l e => ?_, fun l e => ?_⟩, ⟨fun l e => ?_, fun l e => ?_⟩⟩ <;> simp [heldProblem] at e
    simp [heldStart, ← e]
  p := fun i => i.elim0
  v := fun i => i.elim0
  be := by simp [heldProblem, heldStart]
  bg := fun i => i.elim0
  he := fun i => i.elim0
  hg := fun i => i.elim0
  grad := by
    rw [Fin.forall_fin_two]
    exact ⟨Or.inl held_mult.1, Or.inr held_held.2⟩
  yg := fun i => i.elim0
  zg := fun i => i.elim0
  compl_bg := fun i => i.elim0
  compl_hg := fun i => i.elim0

theorem held_licq : (heldFuns.evals ![1, 0] (fun i => i.elim0) heldProblem.c).Licq heldProblem heldStart := by
  intro ye yg ze zg _ _ h
  have := h 0 (by simp [heldProblem]) (by simp [heldProblem])
  simp [heldProblem] at this
  exact ⟨funext fun i => by rw [Subsingleton.elim i 0]; exact this, funext fun i => i.elim0, funext fun i => i.elim0, funext fun i => i.elim0⟩

theorem held_lin : ∀ dx dp dye dyg dze dzg, (heldFuns.evals ![1, 0] (fun i => i.elim0) heldProblem.c).Lin heldProblem heldStart dx dp dye dyg dze dzg → dx = 0 ∧ dp = 0 ∧ dye = 0 ∧ dyg = 0 ∧ dze = 0 ∧ dzg = 0 := by
  intro dx dp dye dyg dze dzg h
  have h1 := h.held 1 held_held.2
  have h2 := h.be 0
  have h3 := h.free 0 held_held.1
  simp [heldProblem, UFuns.evals, heldFuns, h1] at h2 h3
  refine ⟨?_, funext fun i => i.elim0, funext fun i => by rw [Subsingleton.elim i 0]; exact h3, funext fun i => i.elim0, funext fun i => i.elim0, funext fun i => i.elim0⟩
  funext i
  revert i
  rw [Fin.forall_fin_two]
  exact ⟨h2, h1⟩

theorem held_ulin : ∀ dx dp dye dyg dze dzg, ULin heldProblem heldFuns (heldFamily.x 0) (heldFamily.p 0) (heldFamily.active heldProblem heldFuns 0) dx dp dye dyg dze dzg → dx = 0 ∧ dp = 0 ∧ dye = 0 ∧ dyg = 0 ∧ dze = 0 ∧ dzg = 0 := by
  intro dx dp dye dyg dze dzg h
  have h1 := h.held 1 held_active.2
  have h2 := h.be 0
  have h3 := h.free 0 held_active.1
  simp [heldProblem, heldFuns, h1] at h2 h3
  refine ⟨?_, funext fun i => i.elim0, funext fun i => by rw [Subsingleton.elim i 0]; exact h3, funext fun i => i.elim0, funext fun i => i.elim0, funext fun i => i.elim0⟩
  funext i
  revert i
  rw [Fin.forall_fin_two]
  exact ⟨h2, h1⟩

/-! ### A curved constraint

`min x0^2/2 + c*x0 - x1` subject to `x0^2 + x1 = 0` at `c = 3`: the solution is `(-c/3, -c^2/9)`, with multiplier `1`. -/

/-- The problem. -/
noncomputable def curvedProblem : UProblem Unit ℝ 2 0 0 0 1 0 1 where
  r := ResFn.default
  f := ⟨some fun t res x _ c _ => some (t, { res with f := x 0 * x 0 / 2 + c 0 * x 0 - x 1, fx := ![x 0 + c 0, -1], fxx := !![1, 0; 0, 0], fxc := !![1; 0] })⟩
  he := ⟨some fun t res x _ _ _ => some (t, { res with val := fun _ => x 0 * x 0 + x 1, ddx := fun _ => ![2 * x 0, 1], ddc := 0 })⟩
  hg := ConFn.default
  v := ConFn.default
  Aex := fun i => i.elim0
  Aep := fun i => i.elim0
  Agx := fun i => i.elim0
  Agp := fun i => i.elim0
  be := fun i => i.elim0
  bg := fun i => i.elim0
  xlower := fun _ => none
  xupper := fun _ => none
  plower := fun i => i.elim0
  pupper := fun i => i.elim0
  c := fun _ => 3
  bec := fun i => i.elim0
  bgc := fun i => i.elim0

/-- Its functions. -/
def curvedFuns : UFuns 2 0 0 0 1 0 1 where
  fx := fun x _ c => ![x 0 + c 0, -1]
  fxx := fun _ _ _ => !![1, 0; 0, 0]
  fxp := fun _ _ _ _ i => i.elim0
  fxc := fun _ _ _ => !![1; 0]
  he := fun x _ _ _ => x 0 * x 0 + x 1
  hex := fun x _ _ _ => ![2 * x 0, 1]
  hep := fun _ _ _ _ i => i.elim0
  hec := fun _ _ _ => 0
  hg := fun _ _ _ i => i.elim0
  hgx := fun _ _ _ i => i.elim0
  hgp := fun _ _ _ i => i.elim0
  hgc := fun _ _ _ i => i.elim0
  v := fun _ _ _ i => i.elim0
  vx := fun _ _ _ i => i.elim0
  vp := fun _ _ _ i => i.elim0
  vc := fun _ _ _ i => i.elim0
  be := fun _ i => i.elim0
  bg := fun _ i => i.elim0

/-- Its solutions. -/
noncomputable def curvedFamily : UFamily 2 0 0 0 1 0 where
  x := fun t => ![-(3 + t) / 3, -((3 + t) / 3 * ((3 + t) / 3))]
  p := fun _ i => i.elim0
  ye := fun _ i => i.elim0
  yg := fun _ i => i.elim0
  ze := fun _ _ => 1
  zg := fun _ i => i.elim0

noncomputable def curvedTangent : UTangent 2 0 0 0 1 0 where
  x' := ![-1/3, -2/3]
  p' := fun i => i.elim0
  ye' := fun i => i.elim0
  yg' := fun i => i.elim0
  ze' := fun _ => 0
  zg' := fun i => i.elim0
  hex' := fun _ => ![-2/3, 0]
  hgx' := fun i => i.elim0

/-- The solution at `c = 3`. -/
def curvedStart : UState ℝ 2 0 0 0 1 0 where
  x := ![-1, -1]
  p := fun i => i.elim0
  ye := fun i => i.elim0
  yg := fun i => i.elim0
  ze := fun _ => 1
  zg := fun i => i.elim0
  s := 0
  xbg := fun i => i.elim0
  xhg := fun i => i.elim0
  js := []
  ju := []
  jlu := []
  juu := []
  jb := []
  jn := []

theorem curved_implemented : curvedFuns.Implemented curvedProblem where
  f := by
    refine ⟨_, rfl, fun t x p o t' q _ _ _ h => ?_⟩
    simp only [Option.some.injEq, Prod.mk.injEq] at h
    obtain ⟨-, rfl⟩ := h
    exact ⟨rfl, rfl, funext fun i => funext fun j => j.elim0, rfl⟩
  he := by
    refine ⟨_, rfl, fun t x p o t' q _ _ _ h => ?_⟩
    simp only [Option.some.injEq, Prod.mk.injEq] at h
    obtain ⟨-, rfl⟩ := h
    exact ⟨rfl, rfl, funext fun i => funext fun j => j.elim0, rfl⟩
  hg := ⟨_, rfl, fun t x p o t' q _ _ _ _ => ⟨funext fun i => i.elim0, funext fun i => i.elim0, funext fun i => i.elim0, funext fun i => i.elim0⟩⟩
  v := ⟨_, rfl, fun t x p o t' q _ _ _ _ => ⟨funext fun i => i.elim0, funext fun i => i.elim0, funext fun i => i.elim0, funext fun i => i.elim0⟩⟩

theorem curved_returned : (curvedFuns.evals ![-1, -1] (fun i => i.elim0) curvedProblem.c).Returned curvedProblem curvedStart.x curvedStart.p where
  r := fun _ _ _ _ => ⟨_, rfl⟩
  f := ⟨_, rfl, fun t o _ _ => ⟨_, _, rfl, rfl, rfl, funext fun i => funext fun j => j.elim0⟩⟩
  he := ⟨_, rfl, fun t o _ _ => ⟨_, _, rfl, rfl, rfl, funext fun i => funext fun j => j.elim0⟩⟩
  hg := ⟨_, rfl, fun t o _ _ => ⟨_, _, rfl, funext fun i => i.elim0, funext fun i => i.elim0, funext fun i => i.elim0⟩⟩
  v := ⟨_, rfl, fun t o _ _ => ⟨_, _, rfl, funext fun i => i.elim0, funext fun i => i.elim0, funext fun i => i.elim0⟩⟩

theorem curved_derivs : curvedFuns.Derivs curvedProblem (curvedFamily.x 0) (curvedFamily.p 0) curvedProblem.c where
  fx := by
    rw [Fin.forall_fin_two]
    constructor
    · exact ((JacAt.coordX 0).add (JacAt.coordC 0)).congr (by rw [Fin.forall_fin_two]; simp [curvedFuns]) (fun j => j.elim0) (by simp [curvedFuns])
    · exact (JacAt.const (-1)).congr (by rw [Fin.forall_fin_two]; simp [curvedFuns]) (fun j => j.elim0) (by simp [curvedFuns])
  he := fun l => (((JacAt.coordX 0).mul (JacAt.coordX 0)).add (JacAt.coordX 1)).congr (by rw [Fin.forall_fin_two]; simp [curvedFuns]; ring) (fun j => j.elim0) (by simp [curvedFuns])
  hg := fun i => i.elim0
  v := fun i => i.elim0
  be := fun i => i.elim0
  bg := fun i => i.elim0

theorem curved_smooth : curvedFamily.Smooth curvedProblem curvedFuns 0 curvedTangent := by
  have h1 : HasDerivAt (fun t : ℝ => (3 + t) / 3) (1/3) 0 := ((hasDerivAt_id (0 : ℝ)).const_add 3).div_const 3
  refine ⟨?_, fun i => i.elim0, fun i => i.elim0, fun i => i.elim0, fun i => ?_, fun i => i.elim0, fun l => ?_, fun i => i.elim0⟩
  · rw [Fin.forall_fin_two]
    constructor
    · have := h1.neg
      simp only [curvedFamily, curvedTangent]
      refine (this.congr_deriv (by norm_num)).congr_of_eventuallyEq (Eventually.of_forall fun t => ?_)
      simp
      ring
    · have := (h1.mul h1).neg
      simp only [curvedFamily, curvedTangent]
      refine (this.congr_deriv (by norm_num)).congr_of_eventuallyEq (Eventually.of_forall fun t => ?_)
      simp
  · simpa [curvedFamily, curvedTangent] using hasDerivAt_const (0 : ℝ) (1 : ℝ)
  · rw [Fin.forall_fin_two]
    constructor
    · have := (h1.neg).const_mul 2
      simp only [curvedFamily, curvedTangent, curvedFuns]
      refine (this.congr_deriv (by norm_num)).congr_of_eventuallyEq (Eventually.of_forall fun t => ?_)
      simp
      ring
    · simpa [curvedFamily, curvedTangent, curvedFuns] using hasDerivAt_const (0 : ℝ) (1 : ℝ)

theorem curved_active (j : Fin 2) : ¬ (curvedFamily.active curvedProblem curvedFuns 0).x j := by
  simp [UFamily.active, curvedProblem]

theorem curved_kkt_family : curvedFamily.Kkt curvedProblem curvedFuns 0 where
  free := Eventually.of_forall fun t => by
    rw [Fin.forall_fin_two]
    constructor <;> intro _ <;> simp [UFamily.s, curvedFamily, curvedFuns, curvedProblem, movePar]
    ring
  held := Eventually.of_forall fun t j h => absurd h (curved_active j)
  v := Eventually.of_forall fun t => funext fun i => i.elim0
  be := Eventually.of_forall fun t i => i.elim0
  he := Eventually.of_forall fun t => by
    funext i
    simp [curvedFamily, curvedFuns]
    ring
  bg := Eventually.of_forall fun t i => i.elim0
  hg := Eventually.of_forall fun t i => i.elim0

theorem curved_held (j : Fin 2) : ¬ (curvedFuns.evals ![-1, -1] (fun i => i.elim0) curvedProblem.c).Held curvedProblem curvedStart j := by
  simp [UEvals.Held, curvedProblem]

theorem curved_kkt : (curvedFuns.evals ![-1, -1] (fun i => i.elim0) curvedProblem.c).Kkt curvedProblem curvedStart where
  x := fun i => ⟨fun l e => (by cases e), fun l e => (by cases e)⟩
  p := fun i => i.elim0
  v := fun i => i.elim0
  be := fun i => i.elim0
  bg := fun i => i.elim0
  he := fun i => by simp [UFuns.evals, curvedFuns]
  hg := fun i => i.elim0
  grad := by
    rw [Fin.forall_fin_two]
    constructor <;> left <;> simp [UEvals.mult, curvedFuns, UFuns.evals, curvedProblem, curvedStart]
    norm_num
  yg := fun i => i.elim0
  zg := fun i => i.elim0
  compl_bg := fun i => i.elim0
  compl_hg := fun i => i.elim0

theorem curved_licq : (curvedFuns.evals ![-1, -1] (fun i => i.elim0) curvedProblem.c).Licq curvedProblem curvedStart := by
  intro ye yg ze zg _ _ h
  have := h 1 (by simp [curvedProblem]) (by simp [curvedProblem])
  simp [curvedProblem, UFuns.evals, curvedFuns] at this
  exact ⟨funext fun i => i.elim0, funext fun i => i.elim0, funext fun i => by rw [Subsingleton.elim i 0]; exact this, funext fun i => i.elim0⟩

theorem curved_lin : ∀ dx dp dye dyg dze dzg, (curvedFuns.evals ![-1, -1] (fun i => i.elim0) curvedProblem.c).Lin curvedProblem curvedStart dx dp dye dyg dze dzg →
    dx = 0 ∧ dp = 0 ∧ dye = 0 ∧ dyg = 0 ∧ dze = 0 ∧ dzg = 0 := by
  intro dx dp dye dyg dze dzg h
  have h1 := h.he 0
  have h2 := h.free 1 (curved_held 1)
  have h3 := h.free 0 (curved_held 0)
  simp [curvedProblem, UFuns.evals, curvedFuns] at h1 h2 h3
  have e1 : dx 0 = 0 := by rw [h2] at h3; linarith
  have e2 : dx 1 = 0 := by rw [e1] at h1; linarith
  refine ⟨?_, funext fun i => i.elim0, funext fun i => i.elim0, funext fun i => i.elim0, funext fun i => by rw [Subsingleton.elim i 0]; exact h2, funext fun i => i.elim0⟩
  funext i
  revert i
  rw [Fin.forall_fin_two]
  exact ⟨e1, e2⟩

theorem curved_ulin : ∀ dx dp dye dyg dze dzg, ULin curvedProblem curvedFuns (curvedFamily.x 0) (curvedFamily.p 0) (curvedFamily.active curvedProblem curvedFuns 0) dx dp dye dyg dze dzg →
    dx = 0 ∧ dp = 0 ∧ dye = 0 ∧ dyg = 0 ∧ dze = 0 ∧ dzg = 0 := by
  intro dx dp dye dyg dze dzg h
  have h1 := h.he 0
  have h2 := h.free 1 (curved_active 1)
  have h3 := h.free 0 (curved_active 0)
  simp [curvedProblem, curvedFamily, curvedFuns] at h1 h2 h3
  have e1 : dx 0 = 0 := by rw [h2] at h3; linarith
  have e2 : dx 1 = 0 := by rw [e1] at h1; linarith
  refine ⟨?_, funext fun i => i.elim0, funext fun i => i.elim0, funext fun i => i.elim0, funext fun i => by rw [Subsingleton.elim i 0]; exact h2, funext fun i => i.elim0⟩
  funext i
  revert i
  rw [Fin.forall_fin_two]
  exact ⟨e1, e2⟩

/-! ### What the solver computes -/

/-- Linear solvers made of LU decompositions. -/
noncomputable def exactInners {nx np nw : ℕ} (c : CanonPack ℝ nx np nw) : Inners ℝ np c.nbe c.nbi c.nne c.nni :=
  ⟨luInner 0 (Fintype.equivFin _) (fun A => (LU.exists_fullLU _ A).some) 0, luInner 0 (Fintype.equivFin _) (fun A => (LU.exists_fullLU _ A).some) 0, luInner 0 (Fintype.equivFin _) (fun A => (LU.exists_fullLU _ A).some) 0⟩

theorem exactInners_lu {nx np nw : ℕ} (c : CanonPack ℝ nx np nw) : LUObjects c (exactInners c) := ⟨_, _, _, Fintype.equivFin _, Fintype.equivFin _, Fintype.equivFin _, fun n A => (LU.exists_fullLU n A).some, 0, rfl⟩

/-- An environment with exact arithmetic. -/
noncomputable def exactEnv : Env ℝ := { o := (Ech.exists_exact_oracle (K := ℝ)).choose, sort := Ech.sortImpl, P := fun _ => Idx.stableImpl, thr := 0, eps := 0, debug := false }

theorem exactEnv_oracle : ∀ M, (exactEnv.o M).lu.Z = 0 := (Ech.exists_exact_oracle (K := ℝ)).choose_spec

/-- Default options. -/
noncomputable def exactOptions : SolveOptions ℝ := { maxiters := 200, tolerance := 1/1000000000, minmax := false, debug := false }

/-- **C41, negation for `sc`**: started at the solution of this problem the solver returns it with success in one iteration, and computes sensitivities; in every run those of `x` and `ye` are right, and that of the multiplier `s1 = c + 2`
    of the bound of `x1` is not its derivative. -/
theorem held_sensitivity :
    (∃ S' result, ∃ h : SolverReturns exactEnv .nullspace exactInners Idx.stableImpl exactOptions heldProblem 0 heldStart S' result none, ∃ sens, Nonempty (SensReturns h exactInners sens)) ∧
    ∀ S' result (h : SolverReturns exactEnv .nullspace exactInners Idx.stableImpl exactOptions heldProblem 0 heldStart S' result none) sens, SensReturns h exactInners sens →
      result.succeeded = true ∧ result.iterations = 1 ∧ S'.x = ![1, 0] ∧ S'.s = ![0, 3] ∧ sens.Derivative heldFamily heldProblem heldFuns 0 ∧ HasDerivAt (fun t => heldFamily.s heldProblem heldFuns 0 t 1) 1 0 ∧ sens.sc 1 0 ≠ 1 := by
  have hA : IsMasterAx heldProblem.Aex heldProblem.Agx (masterProblem (nhg := 0) heldProblem 0).Ax := (assembleAx_iff _ _ _).2 fun _ _ => rfl
  obtain ⟨k1, k2⟩ := solver_fixed (env := exactEnv) (method := .nullspace) (inners := exactInners) (E := heldFuns.evals ![1, 0] (fun i => i.elim0) heldProblem.c) hA rfl rfl rfl exactEnv_oracle (by norm_num) (by norm_num)
    (fun c => exactInners_lu c) (by intro h; cases h) held_returned held_kkt ⟨fun i => i.elim0, fun i => i.elim0⟩ held_licq held_lin Idx.stableImpl exactOptions (by norm_num [exactOptions]) (by norm_num [exactOptions]) none
  constructor
  · obtain ⟨S', result, h, -⟩ := k1 () ⟨cleanObj, cleanCon, cleanCon⟩ 0 ⟨0, 0, 0, 0, 0, 0, 0, 0⟩ 0 ⟨0, 0, 0⟩ (History.init default)
    obtain ⟨-, -, e1, e2, -⟩ := k2 _ _ h
    refine ⟨S', result, h, sens_exists h exactInners le_rfl le_rfl rfl (by norm_num) (E := heldFuns.evals ![1, 0] (fun i => i.elim0) heldProblem.c) ?_⟩
    rw [e1, e2]; exact held_returned
  · intro S' result h sens hs
    obtain ⟨a1, a2, a3, a4, a5, a6, a7, a8, a9, a10, a11⟩ := k2 _ _ h
    have hst : heldFamily.Starts heldProblem heldFuns 0 S' := by
      refine ⟨?_, funext fun i => i.elim0, ?_, funext fun i => i.elim0, funext fun i => i.elim0, funext fun i => i.elim0, funext fun i => i.elim0, funext fun i => i.elim0⟩
      · rw [a3]; simp [heldStart, heldFamily]
      · rw [a5]; rfl
    have hq : (heldFuns.evals (heldFamily.x 0) (heldFamily.p 0) heldProblem.c).Licq heldProblem S' := by
      intro ye yg ze zg h1 h2 h3
      refine held_licq ye yg ze zg (fun i => i.elim0) (fun i => i.elim0) ?_
      rw [← a3]
      exact h3
    obtain ⟨b1, b2, b3⟩ := solver_sensitivity_licq_partial hs rfl rfl exactEnv_oracle (by norm_num) (by norm_num) hA (fun c => exactInners_lu c) held_implemented (funext fun i => i.elim0) held_derivs held_smooth held_kkt_family hst hq held_ulin
    have hcurv : ∀ j, heldTangent.curv heldFamily j = 0 := fun j => by simp [UTangent.curv]
    have hd : HasDerivAt (fun t => heldFamily.s heldProblem heldFuns 0 t 1) 1 0 := by
      simp only [held_s]
      exact (hasDerivAt_id (0 : ℝ)).const_add 3
    refine ⟨a1, a2, a3, ?_, b1.2 fun j _ => hcurv j, hd, fun e => ?_⟩
    · rw [a11]
      funext j
      revert j
      rw [Fin.forall_fin_two]
      exact held_mult
    · have := (b3 (fun j _ => hcurv j) 1 held_active.2).1 (by rw [e]; exact hd)
      rw [hcurv, Fin.sum_univ_two] at this
      norm_num [heldFuns, heldTangent] at this

/-- **C41, negation for `xc`**: started at the solution of this problem the solver returns it with success in one iteration, and computes sensitivities; in no run they are the derivatives of the solution. -/
theorem curved_sensitivity :
    (∃ S' result, ∃ h : SolverReturns exactEnv .nullspace exactInners Idx.stableImpl exactOptions curvedProblem 0 curvedStart S' result none, ∃ sens, Nonempty (SensReturns h exactInners sens)) ∧
    ∀ S' result (h : SolverReturns exactEnv .nullspace exactInners Idx.stableImpl exactOptions curvedProblem 0 curvedStart S' result none) sens, SensReturns h exactInners sens →
      result.succeeded = true ∧ result.iterations = 1 ∧ S'.x = ![-1, -1] ∧ ¬ sens.Derivative curvedFamily curvedProblem curvedFuns 0 := by
  have hA : IsMasterAx curvedProblem.Aex curvedProblem.Agx (masterProblem (nhg := 0) curvedProblem 0).Ax := (assembleAx_iff _ _ _).2 fun _ _ => rfl
  obtain ⟨k1, k2⟩ := solver_fixed (env := exactEnv) (method := .nullspace) (inners := exactInners) (E := curvedFuns.evals ![-1, -1] (fun i => i.elim0) curvedProblem.c) hA rfl rfl rfl exactEnv_oracle (by norm_num) (by norm_num)
    (fun c => exactInners_lu c) (by intro h; cases h) curved_returned curved_kkt ⟨fun i => i.elim0, fun i => i.elim0⟩ curved_licq curved_lin Idx.stableImpl exactOptions (by norm_num [exactOptions]) (by norm_num [exactOptions]) none
  constructor
  · obtain ⟨S', result, h, -⟩ := k1 () ⟨cleanObj, cleanCon, cleanCon⟩ 0 ⟨0, 0, 0, 0, 0, 0, 0, 0⟩ 0 ⟨0, 0, 0⟩ (History.init default)
    obtain ⟨-, -, e1, e2, -⟩ := k2 _ _ h
    refine ⟨S', result, h, sens_exists h exactInners le_rfl le_rfl rfl (by norm_num) (E := curvedFuns.evals ![-1, -1] (fun i => i.elim0) curvedProblem.c) ?_⟩
    rw [e1, e2]; exact curved_returned
  · intro S' result h sens hs
    obtain ⟨a1, a2, a3, a4, a5, a6, a7, a8, a9, a10, a11⟩ := k2 _ _ h
    have hst : curvedFamily.Starts curvedProblem curvedFuns 0 S' := by
      refine ⟨?_, funext fun i => i.elim0, funext fun i => i.elim0, funext fun i => i.elim0, ?_, funext fun i => i.elim0, funext fun i => i.elim0, funext fun i => i.elim0⟩
      · rw [a3]; norm_num [curvedStart, curvedFamily]
      · rw [a7]; rfl
    have hq : (curvedFuns.evals (curvedFamily.x 0) (curvedFamily.p 0) curvedProblem.c).Licq curvedProblem S' := by
      intro ye yg ze zg _ _ h
      have := h 1 (by simp [curvedProblem]) (by simp [curvedProblem])
      simp [curvedProblem, UFuns.evals, curvedFuns] at this
      exact ⟨funext fun i => i.elim0, funext fun i => i.elim0, funext fun i => by rw [Subsingleton.elim i 0]; exact this, funext fun i => i.elim0⟩
    obtain ⟨b1, b2, b3⟩ := solver_sensitivity_licq_partial hs rfl rfl exactEnv_oracle (by norm_num) (by norm_num) hA (fun c => exactInners_lu c) curved_implemented (funext fun i => i.elim0) curved_derivs curved_smooth curved_kkt_family hst hq curved_ulin
    refine ⟨a1, a2, a3, fun hd => ?_⟩
    have := b1.1 hd 0 (curved_active 0)
    simp [UTangent.curv, curvedTangent, curvedFamily] at this

end Optima
