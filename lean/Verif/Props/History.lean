import Verif.Props.Problem
import Verif.Props.SensitivityWitness
import Mathlib.Data.Option.Basic

/-!
# A solve does not depend on what the solver object did before

Two runs that start from different memory are compared step by step.
-/

namespace Optima

open Matrix

set_option linter.unusedSectionVars false

variable {K : Type*} [Field K] [LinearOrder K] [IsStrictOrderedRing K] {nx np ny nz : ℕ} {τ τ' σ σ' : Type*}

/-! ## Two machines in step -/

/-- Two machines whose parts are related by `R` after every evaluation (and by `R0` before the first one) do the same. -/
structure MachSim {nw : ℕ} (m : Machine σ K nx np nw) (m' : Machine σ' K nx np nw) (R0 R : σ → σ' → Prop) : Prop where
  start : ∀ s s', R s s' → R0 s s'
  eval : ∀ s s' u, R0 s s' → Option.Rel R (m.eval s u) (m'.eval s' u)
  newton : ∀ s s' u, R s s' → Option.Rel (fun a b => R a.1 b.1 ∧ a.2 = b.2) (m.newton s u) (m'.newton s' u)
  error : ∀ s s', R s s' → m.error s = m'.error s'
  phi : Option.Rel (fun f f' => ∀ s s' xo x, R s s' → Option.Rel (fun a b => R a.1 b.1 ∧ a.2 = b.2) (f s xo x) (f' s' xo x)) m.phi m'.phi
  check : Option.Rel (fun f f' => ∀ s s' uo u r, R s s' → Option.Rel (fun a b => R a.1 b.1 ∧ a.2 = b.2) (f s uo u r) (f' s' uo u r)) m.check m'.check

/-- Two states of a solve with the same iterates. -/
structure StateSim {nw : ℕ} (R : σ → σ' → Prop) (s : SolveState σ K nx np nw) (s' : SolveState σ' K nx np nw) : Prop where
  mach : R s.mach s'.mach
  u : s.u = s'.u
  uo : s.uo = s'.uo
  iterations : s.iterations = s'.iterations
  trace : s.trace = s'.trace

section sim
variable {nw : ℕ} {m : Machine σ K nx np nw} {m' : Machine σ' K nx np nw} {R0 R : σ → σ' → Prop}

theorem rel_cases {α β : Type*} {R : α → β → Prop} {a : Option α} {b : Option β} (h : Option.Rel R a b) : (a = none ∧ b = none) ∨ ∃ x y, a = some x ∧ b = some y ∧ R x y := by
  cases h with
  | none => exact .inl ⟨rfl, rfl⟩
  | some h => exact .inr ⟨_, _, rfl, rfl, h⟩

theorem rel_imp {α β : Type*} {R R' : α → β → Prop} (h : ∀ a b, R a b → R' a b) {a : Option α} {b : Option β} (hr : Option.Rel R a b) : Option.Rel R' a b := by
  cases hr with
  | none => exact .none
  | some hr => exact .some (h _ _ hr)

theorem evalAt_sim (h : MachSim m m' R0 R) {s : SolveState σ K nx np nw} {s' : SolveState σ' K nx np nw} (hs : StateSim R0 s s') : Option.Rel (StateSim R) (evalAt m s) (evalAt m' s') := by
  unfold evalAt
  rw [← hs.u]
  rcases rel_cases (h.eval s.mach s'.mach s.u hs.mach) with ⟨e1, e2⟩ | ⟨t, t', e1, e2, e⟩ <;> rw [e1, e2]
  · exact .none
  · exact .some ⟨e, rfl, hs.uo, hs.iterations, congrArg₂ List.cons rfl hs.trace⟩

theorem StateSim.mono {R' : σ → σ' → Prop} (h : ∀ s s', R s s' → R' s s') {s : SolveState σ K nx np nw} {s' : SolveState σ' K nx np nw} (hs : StateSim R s s') : StateSim R' s s' :=
  ⟨h _ _ hs.mach, hs.u, hs.uo, hs.iterations, hs.trace⟩

theorem transform_sim (h : MachSim m m' R0 R) (B : Bounds K nx np) {s : SolveState σ K nx np nw} {s' : SolveState σ' K nx np nw} (hs : StateSim R s s') :
    Option.Rel (fun a b => StateSim R a.1 b.1 ∧ a.2 = b.2) (transform m B s) (transform m' B s') := by
  unfold transform
  rcases rel_cases h.phi with ⟨e1, e2⟩ | ⟨f, f', e1, e2, e⟩ <;> rw [e1, e2]
  · exact .some ⟨hs, rfl⟩
  dsimp only
  rw [← hs.u, ← hs.uo]
  rcases rel_cases (e s.mach s'.mach s.uo.x s.u.x hs.mach) with ⟨e3, e4⟩ | ⟨⟨t, x, b⟩, ⟨t', x', b'⟩, e3, e4, hR, hx⟩ <;> rw [e3, e4]
  · exact .none
  simp only [Prod.mk.injEq] at hx
  obtain ⟨rfl, rfl⟩ := hx
  dsimp only at hR ⊢
  split_ifs with hb
  · rcases rel_cases (evalAt_sim h (s := { s with mach := t, u := s.u }) (s' := { s' with mach := t', u := s.u, uo := s.uo }) ⟨h.start _ _ hR, rfl, rfl, hs.iterations, hs.trace⟩) with ⟨e5, e6⟩ | ⟨a, a', e5, e6, ha⟩
    · rw [e5, e6]
      exact .none
    · rw [e5, e6]
      exact .some ⟨ha, rfl⟩
  · rcases rel_cases (evalAt_sim h (s := { s with mach := t, u := { s.u with x := fun i => clamp (B.xlower i) (B.xupper i) (x i) } })
      (s' := { s' with mach := t', uo := s.uo, u := { s.u with x := fun i => clamp (B.xlower i) (B.xupper i) (x i) } }) ⟨h.start _ _ hR, rfl, rfl, hs.iterations, hs.trace⟩) with ⟨e5, e6⟩ | ⟨a, a', e5, e6, ha⟩
    · rw [e5, e6]
      exact .none
    · rw [e5, e6]
      dsimp only
      rw [← h.error _ _ hR, ← h.error _ _ ha.mach]
      split_ifs with hc
      · rcases rel_cases (evalAt_sim h (s := { a with u := s.u }) (s' := { a' with u := s.u }) ⟨h.start _ _ ha.mach, rfl, ha.uo, ha.iterations, ha.trace⟩) with ⟨e7, e8⟩ | ⟨c, c', e7, e8, hc⟩ <;> rw [e7, e8]
        · exact .none
        · exact .some ⟨hc, rfl⟩
      · exact .some ⟨ha, rfl⟩

theorem step_sim (h : MachSim m m' R0 R) (o : SolveOptions K) (B : Bounds K nx np) {s : SolveState σ K nx np nw} {s' : SolveState σ' K nx np nw} (hs : StateSim R s s') :
    Option.Rel (StateSim R) (step m o B s) (step m' o B s') := by
  unfold step
  dsimp only
  rw [← hs.uo]
  rcases rel_cases (h.newton s.mach s'.mach s.uo hs.mach) with ⟨e1, e2⟩ | ⟨⟨t, u⟩, ⟨t', u'⟩, e1, e2, hR, hu⟩ <;> rw [e1, e2]
  · exact .none
  dsimp only at hR hu ⊢
  subst hu
  rcases rel_cases (transform_sim h B (s := { s with iterations := s.iterations + 1, mach := t, u := u }) (s' := { s' with iterations := s'.iterations + 1, mach := t', u := u })
    ⟨hR, rfl, hs.uo, congrArg (· + 1) hs.iterations, hs.trace⟩) with ⟨e3, e4⟩ | ⟨⟨a, b⟩, ⟨a', b'⟩, e3, e4, ha, -⟩
  · rw [← hs.uo] at e4
    rw [e3, e4]
    exact .none
  · rw [← hs.uo] at e4
    rw [e3, e4]
    dsimp only at ha ⊢
    unfold errorControl
    rw [← ha.uo, ← ha.u]
    cases backtrack o.debug o.minmax B a.uo a.u with
    | none => exact .none
    | some v => exact evalAt_sim h ⟨h.start _ _ ha.mach, rfl, rfl, ha.iterations, ha.trace⟩

theorem converged_update (h h' : History K) (e tol : K) : (h.update e).converged tol = (h'.update e).converged tol := by
  unfold History.converged History.update
  simp

theorem stepping_sim (h : MachSim m m' R0 R) (o : SolveOptions K) {s : SolveState σ K nx np nw} {s' : SolveState σ' K nx np nw} (hs : StateSim R s s') :
    Option.Rel (fun a b => StateSim R a.1 b.1 ∧ a.2 = b.2) (stepping m o s) (stepping m' o s') := by
  unfold stepping
  dsimp only
  rw [← h.error _ _ hs.mach, ← hs.iterations, converged_update s'.history s.history]
  split_ifs with hi
  · exact .some ⟨⟨hs.mach, hs.u, hs.uo, rfl, hs.trace⟩, rfl⟩
  cases (s.history.update (m.error s.mach)).converged o.tolerance with
  | some c => exact .some ⟨⟨hs.mach, hs.u, hs.u, rfl, hs.trace⟩, rfl⟩
  | none =>
    rcases rel_cases h.check with ⟨e1, e2⟩ | ⟨f, f', e1, e2, e⟩ <;> rw [e1, e2]
    · exact .some ⟨⟨hs.mach, hs.u, hs.u, rfl, hs.trace⟩, rfl⟩
    dsimp only
    rw [← hs.u, ← hs.uo]
    rcases rel_cases (e s.mach s'.mach s.uo s.u { iterations := s.iterations } hs.mach) with ⟨e3, e4⟩ | ⟨⟨t, b⟩, ⟨t', b'⟩, e3, e4, hR, hb⟩ <;> rw [e3, e4]
    · exact .none
    dsimp only at hR hb ⊢
    subst hb
    exact .some ⟨⟨hR, rfl, rfl, rfl, hs.trace⟩, rfl⟩

theorem loop_sim (h : MachSim m m' R0 R) (o : SolveOptions K) (B : Bounds K nx np) {s : SolveState σ K nx np nw} {r} (hl : Loop m o B s r) :
    ∀ {s' : SolveState σ' K nx np nw}, StateSim R s s' → ∃ r', Loop m' o B s' r' ∧ Option.Rel (StateSim R) r r' := by
  induction hl with
  | stepFails s e =>
    intro s' hs
    rcases rel_cases (step_sim h o B hs) with ⟨-, e2⟩ | ⟨a, a', e1, -⟩
    · exact ⟨none, .stepFails _ e2, .none⟩
    · rw [e] at e1; cases e1
  | checkFails s s1 e1 e2 =>
    intro s' hs
    rcases rel_cases (step_sim h o B hs) with ⟨e3, -⟩ | ⟨a, a', e3, e4, ha⟩
    · rw [e1] at e3; cases e3
    · rw [e1] at e3
      cases e3
      rcases rel_cases (stepping_sim h o ha) with ⟨-, e6⟩ | ⟨b, b', e5, -⟩
      · exact ⟨none, .checkFails _ _ e4 e6, .none⟩
      · rw [e2] at e5; cases e5
  | stop s s1 s2 e1 e2 =>
    intro s' hs
    rcases rel_cases (step_sim h o B hs) with ⟨e3, -⟩ | ⟨a, a', e3, e4, ha⟩
    · rw [e1] at e3; cases e3
    · rw [e1] at e3
      cases e3
      rcases rel_cases (stepping_sim h o ha) with ⟨e5, -⟩ | ⟨b, ⟨b', f⟩, e5, e6, hb, hf⟩
      · rw [e2] at e5; cases e5
      · rw [e2] at e5
        cases e5
        dsimp only at hf
        subst hf
        exact ⟨_, .stop _ _ _ e4 e6, .some hb⟩
  | again s s1 s2 r e1 e2 _ ih =>
    intro s' hs
    rcases rel_cases (step_sim h o B hs) with ⟨e3, -⟩ | ⟨a, a', e3, e4, ha⟩
    · rw [e1] at e3; cases e3
    · rw [e1] at e3
      cases e3
      rcases rel_cases (stepping_sim h o ha) with ⟨e5, -⟩ | ⟨b, ⟨b', f⟩, e5, e6, hb, hf⟩
      · rw [e2] at e5; cases e5
      · rw [e2] at e5
        cases e5
        dsimp only at hf
        subst hf
        obtain ⟨r', h1, h2⟩ := ih hb
        exact ⟨r', .again _ _ _ _ e4 e6 h1, h2⟩

/-- Solves with machines in step, whatever the convergence histories, have the same outcome. -/
theorem solve_sim (h : MachSim m m' R0 R) (o : SolveOptions K) (B : Bounds K nx np) {mach : σ} {mach' : σ'} (h0 : R0 mach mach') (history history' : History K) (u : MVec K nx np nw) {r} {r'}
    (hr : Solve m o B mach history u r) (hr' : Solve m' o B mach' history' u r') : Option.Rel (StateSim R) r r' := by
  have key : ∃ r', Solve m' o B mach' history' u r' ∧ Option.Rel (StateSim R) r r' := by
    have e := evalAt_sim h (s := { mach := mach, u := clampVec B u, uo := clampVec B u, iterations := 0, history := history.init, trace := [] })
      (s' := { mach := mach', u := clampVec B u, uo := clampVec B u, iterations := 0, history := history'.init, trace := [] }) ⟨h0, rfl, rfl, rfl, rfl⟩
    cases hr with
    | initFails e1 =>
      rcases rel_cases e with ⟨-, e2⟩ | ⟨a, a', e3, -⟩
      · exact ⟨none, .initFails e2, .none⟩
      · cases e1.symm.trans e3
    | run s r e1 hl =>
      rcases rel_cases e with ⟨e2, -⟩ | ⟨a, a', e3, e4, ha⟩
      · cases e1.symm.trans e2
      · cases e1.symm.trans e3
        obtain ⟨r', h1, h2⟩ := loop_sim h o B hl ha
        exact ⟨r', .run _ _ e4 h1, h2⟩
  obtain ⟨r2, h1, h2⟩ := key
  obtain ⟨⟨q, -, hq⟩, -⟩ := solve_budget m' o B mach' history' u
  rw [hq _ hr', ← hq _ h1]
  exact h2

end sim

/-! ## The parts of the solver -/

theorem assign_mem {nbe nbi nne nni nnu : ℕ} (v v' : Fin nx → K) (js : (Fin nbe ⊕ Fin nbi) ⊕ (Fin nne ⊕ Fin nni) → Fin nx) (ju : Fin nnu → Fin nx) (h : Function.Bijective (Sum.elim js ju))
    (b : (Fin nbe ⊕ Fin nbi) ⊕ (Fin nne ⊕ Fin nni) → K) (c : Fin nnu → K) : assignFn (assignJs v js b) ju c = assignFn (assignJs v' js b) ju c := by
  have hinj : Function.Injective js := fun r s e => Sum.inl_injective (h.1 (by simpa using e))
  have hinju : ∀ r s, ju r = ju s → r = s := fun r s e => Sum.inr_injective (h.1 (by simpa using e))
  funext i
  obtain ⟨s | k, rfl⟩ := h.2 i
  · have hne : ∀ k, ju k ≠ js s := fun k e => by
      have := h.1 (a₁ := .inr k) (a₂ := .inl s) (by simpa using e)
      cases this
    rw [Sum.elim_inl, assignFn_of_ne _ _ _ _ hne, assignFn_of_ne _ _ _ _ hne, (assignJs_spec (nnu := nnu) _ _ _ hinj).1, (assignJs_spec (nnu := nnu) _ _ _ hinj).1]
  · rw [Sum.elim_inr, assignFn_get _ _ hinju, assignFn_get _ _ hinju]

theorem residualUpdate_mem (eps : K) {nbe nbi nne nni nnu : ℕ} (C : Canon K nx np (ny + nz) (Fin nbe) (Fin nbi) (Fin nne) (Fin nni) (Fin nnu)) (h : Function.Bijective (Sum.elim C.js C.ju)) (ax0 ax1 : Fin nx → K)
    (a : ResidualArgs K nx np ny nz) : residualUpdate eps C ax0 a = residualUpdate eps C ax1 a := by
  unfold residualUpdate
  dsimp only
  rw [assign_mem ax0 ax1 C.js C.ju h]

theorem residualErrors_mem {nw nbe nbi nne nni nnu : ℕ} (C : Canon K nx np nw (Fin nbe) (Fin nbi) (Fin nne) (Fin nni) (Fin nnu)) (xlower xupper : Fin nx → Option K) (x : Fin nx → K)
    (r : ResidualOut K nx np nw nbe nbi nne nni) (e e' : Fin nw → K) : residualErrors C xlower xupper x r e = residualErrors C xlower xupper x r e' := by
  have : (fun i : Fin nw => if nw - (nw - (nbe + nbi)) ≤ i.1 then (0 : K) else if h : i.1 < nbe + nbi then |r.canonical.wbs (finSumFinEquiv.symm ⟨i, h⟩)| else e i) =
      (fun i : Fin nw => if nw - (nw - (nbe + nbi)) ≤ i.1 then (0 : K) else if h : i.1 < nbe + nbi then |r.canonical.wbs (finSumFinEquiv.symm ⟨i, h⟩)| else e' i) := by
    funext i
    split_ifs with h1 h2
    · rfl
    · rfl
    · omega
  unfold residualErrors
  dsimp only
  rw [this]

theorem linSolveCanonical_mem (m : Method) {nw nbe nbi nne nni nnu : ℕ} (I : Inners K np nbe nbi nne nni) (C : Canon K nx np nw (Fin nbe) (Fin nbi) (Fin nne) (Fin nni) (Fin nnu))
    (h : Function.Bijective (Sum.elim C.js C.ju)) (a : CVec K np (Fin nbe) (Fin nbi) (Fin nne) (Fin nni)) (au : Fin nnu → K) (u0 u1 : MVec K nx np nw) :
    linSolveCanonical m I C a au u0 = linSolveCanonical m I C a au u1 := by
  have hx : (linSolveCanonical m I C a au u0).x = (linSolveCanonical m I C a au u1).x := by
    funext i
    obtain ⟨s | k, rfl⟩ := h.2 i
    · rw [Sum.elim_inl, (linSolveCanonical_x m I C h a au u0).1, (linSolveCanonical_x m I C h a au u1).1]
    · rw [Sum.elim_inr, (linSolveCanonical_x m I C h a au u0).2, (linSolveCanonical_x m I C h a au u1).2]
  exact congrArg (fun x => ({ x := x, p := (solveCanonical m I C a).p, w := C.Rbsᵀ *ᵥ (solveCanonical m I C a).wbs } : MVec K nx np nw)) hx

/-- The `LU` objects: the member `rank` left by an earlier solve is not used. -/
theorem luInner_mem {T : Type} {n : ℕ} (eps : K) (e : T ≃ Fin n) (F : (A : Matrix (Fin n) (Fin n) K) → LU.FullLU A) (r r' : ℕ) : luInner eps e F r = luInner eps e F r' := by
  funext M b
  unfold luInner LU.solve LU.assembleU
  dsimp only
  split_ifs <;> rfl

/-- The results with another flag `succeeded`. -/
def Evals.flag (ev : Evals K nx np nz) (b : Bool) : Evals K nx np nz := { ev with succeeded := b }

/-- The residual function with another flag `succeeded`. -/
def RFState.flag {Ax : Matrix (Fin ny) (Fin nx) K} (rf : RFState K nx np ny nz Ax) (b : Bool) : RFState K nx np ny nz Ax := { rf with evals := rf.evals.flag b }

/-- Two states of the echelonizer of `W` that differ in memory only: the bottom rows of `W` are overwritten by the next update. -/
structure EchSim {Ax : Matrix (Fin ny) (Fin nx) K} (e e' : Ech.WState K nx np ny nz Ax) : Prop where
  ext : e.ext = e'.ext
  rwq : e.rwq = e'.rwq
  top : ∀ i c, e.W (Fin.castAdd nz i) c = e'.W (Fin.castAdd nz i) c

theorem wUpdate_mem (debug : Bool) (o : Ech.LUOracle K) (sort : Ech.SortImpl K) (thr eps : K) {Ax : Matrix (Fin ny) (Fin nx) K} {e e' : Ech.WState K nx np ny nz Ax} (h : EchSim e e')
    (Jx : Matrix (Fin nz) (Fin nx) K) (Jp : Matrix (Fin nz) (Fin np) K) (w : Fin nx → K) : Ech.wUpdate debug o sort thr eps e Jx Jp w = Ech.wUpdate debug o sort thr eps e' Jx Jp w := by
  have hW : Ech.setJ e.W Jx Jp = Ech.setJ e'.W Jx Jp := by
    unfold Ech.setJ
    funext r c
    refine Fin.addCases (fun i => ?_) (fun j => ?_) r
    · simp only [Fin.addCases_left]; exact h.top i c
    · simp only [Fin.addCases_right]
  obtain ⟨W, ext, q⟩ := e
  obtain ⟨W', ext', q'⟩ := e'
  obtain rfl : ext = ext' := h.ext
  unfold Ech.wUpdate
  dsimp only at hW ⊢
  rw [hW]

/-- The residual function after an update depends on the user's results and the echelonizer only; the flag `succeeded` is stored and not used. -/
theorem rfUpdate_mem {env : Env K} (hthr : 0 ≤ env.thr) (heps : 0 ≤ env.eps) (hnx : 0 < nx) (pb : MProblem K nx np ny nz) {e e' : Ech.WState K nx np ny nz pb.Ax} (h : EchSim e e')
    (hr : Ech.WReach env.debug env.o env.sort env.thr env.eps pb.Ax pb.Ap e) (ax0 ax1 : Fin nx → K) (ev : Evals K nx np nz) (b : Bool) (u : MVec K nx np (ny + nz)) :
    (∃ rf, rfUpdate env pb e ax0 ev u = .ok rf ∧ rfUpdate env pb e' ax1 (ev.flag b) u = .ok (rf.flag b) ∧ RFSpec env pb ev u rf) ∨
    (rfUpdate env pb e ax0 ev u = .assertFail ∧ rfUpdate env pb e' ax1 (ev.flag b) u = .assertFail) := by
  have key : ∀ out, rfUpdate env pb e ax0 ev u = out → (∀ rf, out = .ok rf → RFSpec env pb ev u rf) →
      rfUpdate env pb e' ax1 (ev.flag b) u = (match out with | .ok rf => .ok (rf.flag b) | .assertFail => .assertFail | .error => .error | .sizeMismatch => .sizeMismatch) := by
    intro out hout hspec
    unfold rfUpdate at hout ⊢
    rw [← wUpdate_mem env.debug env.o env.sort env.thr env.eps h]
    change (match Ech.wUpdate env.debug env.o env.sort env.thr env.eps e ev.hx ev.hp (weights pb u.x) with | .assertFail => _ | .sizeMismatch => _ | .ok e' => _) = _
    rcases hw : Ech.wUpdate env.debug env.o env.sort env.thr env.eps e ev.hx ev.hp (weights pb u.x) with e2 | _ | _
    · rw [hw] at hout
      dsimp only at hout ⊢
      cases hq : e2.rwq with
      | none => rw [hq] at hout; subst hout; rfl
      | some q =>
        rw [hq] at hout
        dsimp only at hout ⊢
        by_cases hd : (env.debug && !(Stab.update (env.P nx) { Wx := e2.W.submatrix id Sum.inl, g := ev.fx, x := u.x, w := u.w, xlower := pb.xlower, xupper := pb.xupper, jb := List.ofFn q.jb }).2) = true
        · rw [if_pos hd] at hout
          subst hout
          exact if_pos hd
        · rw [if_neg hd] at hout
          refine (if_neg hd).trans ?_
          rw [show (ev.flag b).fx = ev.fx from rfl]
          generalize Stab.status (Stab.update (env.P nx) { Wx := e2.W.submatrix id Sum.inl, g := ev.fx, x := u.x, w := u.w, xlower := pb.xlower, xupper := pb.xupper, jb := List.ofFn q.jb }).1 = st at hout ⊢
          change (match canonicalize (masterForm ev e2.W q st) (env.P q.nb) (env.P q.nn) with | .error => _ | .sizeMismatch => _ | .ok C => _) = _
          rcases hc : canonicalize (masterForm ev e2.W q st) (env.P q.nb) (env.P q.nn) with C | _ | _
          · erw [hc] at hout
            subst hout
            have hs := (hspec _ rfl).canon.split
            dsimp only at hs ⊢
            rw [residualUpdate_mem env.eps C.mat hs ax1 ax0]
            rfl
          · erw [hc] at hout; subst hout; rfl
          · erw [hc] at hout; subst hout; rfl
    · rw [hw] at hout; subst hout; rfl
    · rw [hw] at hout; subst hout; rfl
  rcases rfUpdate_spec hthr heps pb hr hnx ax0 ev u with ⟨rf, h1, h2⟩ | ⟨h1, -⟩
  · left
    exact ⟨rf, h1, key _ h1 (fun rf' e => by cases e; exact h2), h2⟩
  · right
    exact ⟨h1, key _ h1 (fun rf' e => by cases e)⟩

/-- The parts before an evaluation: they agree up to memory that the evaluation overwrites. -/
structure PartsStart (cfg : Config K nx np ny nz τ) (T : τ → τ → Prop) (s s' : Parts K nx np ny nz τ cfg.pb.Ax) : Prop where
  user : T s.user s'.user
  reach : Reach cfg s
  reach' : Reach cfg s'
  ech : EchSim s.ech s'.ech

/-- The parts after an evaluation: the same canonical form, residuals and errors. -/
structure PartsSim (cfg : Config K nx np ny nz τ) (T : τ → τ → Prop) (s s' : Parts K nx np ny nz τ cfg.pb.Ax) : Prop where
  user : T s.user s'.user
  reach : Reach cfg s
  ech : s.ech = s'.ech
  rf : ∃ rf b, s.rf = some rf ∧ s'.rf = some (rf.flag b) ∧ Function.Bijective (Sum.elim rf.C.mat.js rf.C.mat.ju)
  errors : s.errors = s'.errors

/-- User code that does the same in two states related by `T`, up to the flag `succeeded`, and leaves states related by `T'`. -/
def UserSim (T T' : τ → τ → Prop) (ask : τ → (Fin nx → K) → (Fin np → K) → Option (Ech.RWQ K nx np (ny + nz)) → Option (τ × Evals K nx np nz)) : Prop :=
  ∀ t t' x p q, T t t' → Option.Rel (fun a b => T' a.1 b.1 ∧ ∃ f, b.2 = a.2.flag f) (ask t x p q) (ask t' x p q)

theorem updateF_sim {cfg : Config K nx np ny nz τ} (hthr : 0 ≤ cfg.env.thr) (heps : 0 ≤ cfg.env.eps) (hnx : 0 < nx) {T T' : τ → τ → Prop} {ask} (hu : UserSim T T' ask) {s s' : Parts K nx np ny nz τ cfg.pb.Ax}
    (h : PartsStart cfg T s s') (u : MVec K nx np (ny + nz)) :
    Option.Rel (fun a b => T' a.user b.user ∧ Reach cfg a ∧ a.ech = b.ech ∧ (∃ rf f, a.rf = some rf ∧ b.rf = some (rf.flag f) ∧ ∃ ev, RFSpec cfg.env cfg.pb ev u rf)) (cfg.updateF ask s u) (cfg.updateF ask s' u) := by
  unfold Config.updateF
  rw [← h.ech.rwq]
  rcases rel_cases (hu s.user s'.user u.x u.p s.ech.rwq h.user) with ⟨e1, e2⟩ | ⟨⟨t, ev⟩, ⟨t', ev'⟩, e1, e2, hT, f, hf⟩ <;> rw [e1, e2]
  · exact .none
  dsimp only at hT hf ⊢
  subst hf
  rcases rfUpdate_mem hthr heps hnx cfg.pb h.ech h.reach s.ax s'.ax ev f u with ⟨rf, h1, h2, h3⟩ | ⟨h1, h2⟩ <;> rw [h1, h2]
  · exact .some ⟨hT, h3.reach, rfl, rf, f, rfl, rfl, ev, h3⟩
  · exact .none

theorem machine_sim {cfg : Config K nx np ny nz τ} (hthr : 0 ≤ cfg.env.thr) (heps : 0 ≤ cfg.env.eps) (hnx : 0 < nx) {T : τ → τ → Prop} (hu : UserSim T T cfg.user)
    (hphi : ∀ f, cfg.phi = some f → ∀ t t' xo x, T t t' → Option.Rel (fun a b => T a.1 b.1 ∧ a.2 = b.2) (f t xo x) (f t' xo x)) (check)
    (hcheck : ∀ f, check = some f → ∀ s s' uo u r, PartsSim cfg T s s' → Option.Rel (fun a b => T a.1 b.1 ∧ a.2 = b.2) (f s uo u r) (f s' uo u r)) :
    MachSim (cfg.machine check) (cfg.machine check) (PartsStart cfg T) (PartsSim cfg T) where
  start := fun s s' h => ⟨h.user, h.reach, by unfold Reach; rw [← h.ech]; exact h.reach, by rw [h.ech]; exact ⟨rfl, rfl, fun _ _ => rfl⟩⟩
  eval := by
    intro s s' u h
    change Option.Rel _ ((cfg.updateF cfg.user s u).map _) ((cfg.updateF cfg.user s' u).map _)
    rcases rel_cases (updateF_sim hthr heps hnx hu h u) with ⟨e1, e2⟩ | ⟨a, a', e1, e2, hT, hr, he, rf, f, hrf, hrf', ev, hc⟩ <;> rw [e1, e2]
    · exact .none
    · refine .some ?_
      have h1 : cfg.updateE a u = { a with errors := residualErrors rf.C.mat cfg.pb.xlower cfg.pb.xupper u.x rf.res a.errors.ewbar } := by unfold Config.updateE; rw [hrf]
      have h2 : cfg.updateE a' u = { a' with errors := residualErrors rf.C.mat cfg.pb.xlower cfg.pb.xupper u.x rf.res a'.errors.ewbar } := by unfold Config.updateE; rw [hrf']; rfl
      change PartsSim cfg T (cfg.updateE a u) (cfg.updateE a' u)
      rw [h1, h2]
      exact ⟨hT, hr, he, ⟨rf, f, hrf, hrf', hc.canon.split⟩, residualErrors_mem _ _ _ _ _ _ _⟩
  newton := by
    intro s s' u h
    obtain ⟨rf, f, hrf, hrf', hc⟩ := h.rf
    change Option.Rel _ (cfg.newton s u) (cfg.newton s' u)
    unfold Config.newton
    rw [hrf, hrf']
    refine .some ⟨⟨h.user, h.reach, h.ech, ⟨rf, f, rfl, rfl, hc⟩, h.errors⟩, ?_⟩
    change _ = ({ x := fun i => u.x i + (linSolveCanonical cfg.method (cfg.inners rf.C) rf.C.mat rf.res.canonical 0 s'.du).x i, p := _, w := _ } : MVec K nx np (ny + nz))
    rw [linSolveCanonical_mem cfg.method (cfg.inners rf.C) rf.C.mat hc rf.res.canonical 0 s.du s'.du]
    rfl
  error := fun s s' h => congrArg ErrorsOut.error h.errors
  phi := by
    change Option.Rel _ (cfg.phi.map _) (cfg.phi.map _)
    cases e : cfg.phi with
    | none => exact .none
    | some f =>
      refine .some fun s s' xo x h => ?_
      rcases rel_cases (hphi f e s.user s'.user xo x h.user) with ⟨e1, e2⟩ | ⟨a, a', e1, e2, hT, ha⟩ <;> dsimp only <;> rw [e1, e2]
      · exact .none
      · exact .some ⟨⟨hT, h.reach, h.ech, h.rf, h.errors⟩, ha⟩
  check := by
    change Option.Rel _ (check.map _) (check.map _)
    cases e : check with
    | none => exact .none
    | some f =>
      refine .some fun s s' uo u r h => ?_
      rcases rel_cases (hcheck f e s s' uo u r h) with ⟨e1, e2⟩ | ⟨a, a', e1, e2, hT, ha⟩ <;> dsimp only <;> rw [e1, e2]
      · exact .none
      · exact .some ⟨⟨hT, h.reach, h.ech, h.rf, h.errors⟩, ha⟩

/-- **C70 for `MasterSolver`**: two solves of the same problem from the same starting point by two solver objects with any history (memory of `W`, errors, residual, step and convergence history) have the same
    outcome: the same points are evaluated in the same order, with the same results, iterations and errors; the user code ends in the same state. -/
theorem master_history {cfg : Config K nx np ny nz τ} (hthr : 0 ≤ cfg.env.thr) (heps : 0 ≤ cfg.env.eps) (hnx : 0 < nx) (check)
    (hcheck : ∀ f, check = some f → ∀ s s' uo u r, PartsSim cfg Eq s s' → f s uo u r = f s' uo u r) (o : SolveOptions K) (t : τ) (mem mem' errors errors' ax ax' du du') (history history' : History K) (u : MVec K nx np (ny + nz)) {r r'}
    (h : Solve (cfg.machine check) o cfg.pb.bounds (cfg.start t mem errors ax du) history u r) (h' : Solve (cfg.machine check) o cfg.pb.bounds (cfg.start t mem' errors' ax' du') history' u r') :
    Option.Rel (fun a b => a.u = b.u ∧ a.iterations = b.iterations ∧ a.trace = b.trace ∧ a.mach.user = b.mach.user ∧ a.mach.errors = b.mach.errors ∧ a.mach.ech = b.mach.ech ∧ solveResult o a = solveResult o b) r r' := by
  have := solve_sim (machine_sim hthr heps hnx (T := Eq) (fun t t' x p q e => by
      subst e
      cases cfg.user t x p q with
      | none => exact .none
      | some a => exact .some ⟨rfl, a.2.succeeded, rfl⟩)
    (fun f _ t t' xo x e => by
      subst e
      cases f t xo x with
      | none => exact .none
      | some a => exact .some ⟨rfl, rfl⟩) check (fun f hf s s' uo u r e => by
      rw [hcheck f hf s s' uo u r e]
      cases f s' uo u r with
      | none => exact .none
      | some a => exact .some ⟨rfl, rfl⟩)) o cfg.pb.bounds (mach := cfg.start t mem errors ax du) (mach' := cfg.start t mem' errors' ax' du')
    ⟨rfl, start_reach _ _ _ _ _ _, start_reach _ _ _ _ _ _, ⟨rfl, rfl, fun i c => by simp [Config.start, Ech.wInit]⟩⟩ history history' u h h'
  rcases rel_cases this with ⟨e1, e2⟩ | ⟨a, a', e1, e2, ha⟩ <;> rw [e1, e2]
  · exact .none
  · exact .some ⟨ha.u, ha.iterations, ha.trace, ha.mach.user, ha.mach.errors, ha.mach.ech, by unfold solveResult; rw [ha.iterations]⟩

/-! ## The calls of the user functions -/

variable {nbe nbg nhe nhg nc : ℕ}

/-- The same results, up to the flags. -/
structure ConSame {nq : ℕ} (r r' : ConRes K nq nx np nc) : Prop where
  val : r.val = r'.val
  ddx : r.ddx = r'.ddx
  ddp : r.ddp = r'.ddp
  ddc : r.ddc = r'.ddc

/-- The same results of the user functions, up to the flags of constraints that do not exist. -/
structure ResSame (m m' : ResMem K nx np nz nc) : Prop where
  f : m.f = m'.f
  h : ConSame m.h m'.h
  v : ConSame m.v m'.v

theorem conSame_call {nq : ℕ} (F : ConFn τ K nq nx np nc) (t : τ) (r r' : ConRes K nq nx np nc) (x : Fin nx → K) (p : Fin np → K) (c : Fin nc → K) (opts : EvalOpts) :
    Option.Rel (fun a b => a.1 = b.1 ∧ ConSame a.2 b.2) (if nq ≠ 0 then F.call t r x p c opts else some (t, r)) (if nq ≠ 0 then F.call t r' x p c opts else some (t, r')) := by
  by_cases h : nq = 0
  · subst h
    rw [if_neg (by simp), if_neg (by simp)]
    exact .some ⟨rfl, ⟨funext fun i => i.elim0, funext fun i => i.elim0, funext fun i => i.elim0, funext fun i => i.elim0⟩⟩
  · rw [if_pos h, if_pos h, show F.call t r x p c opts = F.call t r' x p c opts from rfl]
    cases F.call t r' x p c opts with
    | none => exact .none
    | some a => exact .some ⟨rfl, ⟨rfl, rfl, rfl, rfl⟩⟩

/-- The user functions are called with cleared results, so that what they held before does not matter. -/
theorem functionEvals_mem (F : MFuns τ K nx np nz nc) (c : Fin nc → K) (ddx ddp ddc : Bool) (ib : List ℕ) (t : τ) (m m' : ResMem K nx np nz nc) (x : Fin nx → K) (p : Fin np → K) :
    Option.Rel (fun a b => a.1 = b.1 ∧ ResSame a.2.1 b.2.1) (functionEvals F c ddx ddp ddc ib t m x p) (functionEvals F c ddx ddp ddc ib t m' x p) := by
  unfold functionEvals
  dsimp only
  cases F.r.call t x p c { ddx := ddx, ddp := ddp && decide (np ≠ 0), ddc := ddc && decide (nc ≠ 0), ibasicvars := ib } with
  | none => exact .none
  | some t =>
    dsimp only
    rw [show F.f.call t m.f x p c { ddx := ddx, ddp := ddp && decide (np ≠ 0), ddc := ddc && decide (nc ≠ 0), ibasicvars := ib } =
      F.f.call t m'.f x p c { ddx := ddx, ddp := ddp && decide (np ≠ 0), ddc := ddc && decide (nc ≠ 0), ibasicvars := ib } from rfl]
    cases F.f.call t m'.f x p c { ddx := ddx, ddp := ddp && decide (np ≠ 0), ddc := ddc && decide (nc ≠ 0), ibasicvars := ib } with
    | none => exact .none
    | some a =>
      obtain ⟨t, fres⟩ := a
      dsimp only
      rcases rel_cases (conSame_call F.h t m.h m'.h x p c { ddx := ddx, ddp := ddp && decide (np ≠ 0), ddc := ddc && decide (nc ≠ 0), ibasicvars := ib }) with ⟨e1, e2⟩ | ⟨⟨t1, r1⟩, ⟨t2, r2⟩, e1, e2, ht, hr⟩ <;>
        rw [e1, e2]
      · exact .none
      dsimp only at ht hr ⊢
      subst ht
      rcases rel_cases (conSame_call F.v t1 m.v m'.v x p c { ddx := ddx, ddp := ddp && decide (np ≠ 0), ddc := ddc && decide (nc ≠ 0), ibasicvars := ib }) with ⟨e3, e4⟩ | ⟨⟨t3, r3⟩, ⟨t4, r4⟩, e3, e4, ht, hv⟩ <;>
        rw [e3, e4]
      · exact .none
      · exact .some ⟨ht, ⟨rfl, hr, hv⟩⟩

theorem userCode_sim (F : MFuns τ K nx np nz nc) (c : Fin nc → K) (first : List ℕ) (ddx ddp ddc : Bool) :
    UserSim (ny := ny) (fun a b => a.1 = b.1) (fun a b => a.1 = b.1 ∧ ResSame a.2 b.2) (userCode (nw := ny + nz) F c first ddx ddp ddc) := by
  rintro ⟨t, m⟩ ⟨t', m'⟩ x p q h
  dsimp only at h
  subst h
  unfold userCode
  dsimp only
  rcases rel_cases (functionEvals_mem F c ddx ddp ddc (basicIndices first q) t m m' x p) with ⟨e1, e2⟩ | ⟨⟨t1, m1, b1⟩, ⟨t2, m2, b2⟩, e1, e2, ht, hm⟩ <;> rw [e1, e2]
  · exact .none
  · refine .some ⟨⟨ht, hm⟩, b2, ?_⟩
    obtain ⟨hf, ⟨h1, h2, h3, -⟩, ⟨h4, h5, h6, -⟩⟩ := hm
    dsimp only at hf h1 h2 h3 h4 h5 h6
    simp only [ResMem.evals, Evals.flag, hf, h1, h2, h3, h4, h5, h6]

/-! ## The sensitivities -/

theorem foldl_update_of_not_mem {n : ℕ} (g : Fin n → K) (i : Fin n) : ∀ (l : List (Fin n)) (v : Fin n → K), i ∉ l → l.foldl (fun v j => Function.update v j (g j)) v i = v i
  | [], _, _ => rfl
  | j :: l, v, h => by
    rw [List.foldl_cons, foldl_update_of_not_mem g i l _ (fun e => h (List.mem_cons_of_mem _ e)), Function.update_of_ne (fun e : i = j => h (by rw [e]; exact List.mem_cons_self))]

theorem foldl_update_of_mem {n : ℕ} (g : Fin n → K) (i : Fin n) : ∀ (l : List (Fin n)) (v : Fin n → K), i ∈ l → l.foldl (fun v j => Function.update v j (g j)) v i = g i
  | j :: l, v, h => by
    rw [List.foldl_cons]
    by_cases hl : i ∈ l
    · exact foldl_update_of_mem g i l _ hl
    · rw [foldl_update_of_not_mem g i l _ hl]
      rcases List.mem_cons.1 h with rfl | h
      · exact Function.update_self _ _ _
      · exact absurd h hl

theorem sensRhsX_mem (js ju : List (Fin nx)) (h : ∀ i, i ∈ js ∨ i ∈ ju) (rx rx' fc : Fin nx → K) : sensRhsX js ju rx fc = sensRhsX js ju rx' fc := by
  unfold sensRhsX
  dsimp only
  funext i
  by_cases hu : i ∈ ju
  · rw [foldl_update_of_mem (fun _ => (0 : K)) i ju _ hu, foldl_update_of_mem (fun _ => (0 : K)) i ju _ hu]
  · rw [foldl_update_of_not_mem (fun _ => (0 : K)) i ju _ hu, foldl_update_of_not_mem (fun _ => (0 : K)) i ju _ hu]
    have hs := (h i).resolve_right hu
    rw [foldl_update_of_mem (fun j => -fc j) i js _ hs, foldl_update_of_mem (fun j => -fc j) i js _ hs]

theorem setRows_of_not_mem {m n : ℕ} (B : Fin m → Fin n → K) (i : Fin m) (c : Fin n) : ∀ (l : List (Fin m)) (M : Matrix (Fin m) (Fin n) K), i ∉ l → setRows M l B i c = M i c
  | [], _, _ => rfl
  | j :: l, M, h => by
    change setRows (Matrix.of fun r c => if r = j then B r c else M r c) l B i c = _
    rw [setRows_of_not_mem B i c l _ (fun e => h (List.mem_cons_of_mem _ e))]
    exact if_neg (fun e : i = j => h (by rw [e]; exact List.mem_cons_self))

theorem setRows_of_mem {m n : ℕ} (B : Fin m → Fin n → K) (i : Fin m) (c : Fin n) : ∀ (l : List (Fin m)) (M : Matrix (Fin m) (Fin n) K), i ∈ l → setRows M l B i c = B i c
  | j :: l, M, h => by
    change setRows (Matrix.of fun r c => if r = j then B r c else M r c) l B i c = _
    by_cases hl : i ∈ l
    · exact setRows_of_mem B i c l _ hl
    · rw [setRows_of_not_mem B i c l _ hl]
      rcases List.mem_cons.1 h with rfl | h
      · exact if_pos rfl
      · exact absurd h hl

/-- Column `i` of the sensitivities computed from a residual function. -/
def sensU {Ax : Matrix (Fin ny) (Fin nx) K} (rf : RFState K nx np ny nz Ax) (I : Inners K np rf.C.nbe rf.C.nbi rf.C.nne rf.C.nni) (fxc : Matrix (Fin nx) (Fin nc) K)
    (hc : Matrix (Fin nz) (Fin nc) K) (vc : Matrix (Fin np) (Fin nc) K) (bc : Matrix (Fin ny) (Fin nc) K) (i : Fin nc) : MVec K nx np (ny + nz) :=
  linSolve .nullspace I rf.C.mat { x := sensRhsX rf.status.js rf.status.ju 0 (fun j => fxc j i), p := fun q => -vc q i, w := cat2 (fun l => bc l i) (fun l => -hc l i) } ⟨0, 0, 0⟩

theorem sensColumns {Ax : Matrix (Fin ny) (Fin nx) K} (rf : RFState K nx np ny nz Ax) (hj : ∀ i, i ∈ rf.status.js ∨ i ∈ rf.status.ju) (hb : Function.Bijective (Sum.elim rf.C.mat.js rf.C.mat.ju))
    (I : Inners K np rf.C.nbe rf.C.nbi rf.C.nne rf.C.nni) (fxc : Matrix (Fin nx) (Fin nc) K) (hc : Matrix (Fin nz) (Fin nc) K) (vc : Matrix (Fin np) (Fin nc) K) (bc : Matrix (Fin ny) (Fin nc) K) :
    ∀ (l : List (Fin nc)) (s : MVec K nx np (ny + nz) × MSens K nx np (ny + nz) nc),
      (∀ r c, (l.foldl (sensColumn rf I fxc hc vc bc) s).2.xc r c = if c ∈ l then (sensU rf I fxc hc vc bc c).x r else s.2.xc r c) ∧
      (∀ r c, (l.foldl (sensColumn rf I fxc hc vc bc) s).2.pc r c = if c ∈ l then (sensU rf I fxc hc vc bc c).p r else s.2.pc r c) ∧
      (∀ r c, (l.foldl (sensColumn rf I fxc hc vc bc) s).2.wc r c = if c ∈ l then (sensU rf I fxc hc vc bc c).w r else s.2.wc r c)
  | [], s => by simp
  | i :: l, s => by
    have ih := sensColumns rf hj hb I fxc hc vc bc l (sensColumn rf I fxc hc vc bc s i)
    have hu : linSolve .nullspace I rf.C.mat { x := sensRhsX rf.status.js rf.status.ju s.1.x (fun j => fxc j i), p := fun q => -vc q i, w := cat2 (fun l => bc l i) (fun l => -hc l i) }
        { x := fun j => s.2.xc j i, p := fun q => s.2.pc q i, w := fun l => s.2.wc l i } = sensU rf I fxc hc vc bc i := by
      unfold sensU linSolve
      rw [sensRhsX_mem _ _ hj s.1.x 0, linSolveCanonical_mem _ _ _ hb _ _ _ ⟨0, 0, 0⟩]
    have e1 : (sensColumn rf I fxc hc vc bc s i).2.xc = setCol s.2.xc i (sensU rf I fxc hc vc bc i).x := by rw [← hu]; rfl
    have e2 : (sensColumn rf I fxc hc vc bc s i).2.pc = setCol s.2.pc i (sensU rf I fxc hc vc bc i).p := by rw [← hu]; rfl
    have e3 : (sensColumn rf I fxc hc vc bc s i).2.wc = setCol s.2.wc i (sensU rf I fxc hc vc bc i).w := by rw [← hu]; rfl
    rw [e1, e2, e3] at ih
    simp only [List.foldl_cons, List.mem_cons]
    refine ⟨fun r c => ?_, fun r c => ?_, fun r c => ?_⟩
    · rw [ih.1]; unfold setCol; by_cases h : c = i <;> by_cases h' : c ∈ l <;> simp [h, h']
    · rw [ih.2.1]; unfold setCol; by_cases h : c = i <;> by_cases h' : c ∈ l <;> simp [h, h']
    · rw [ih.2.2]; unfold setCol; by_cases h : c = i <;> by_cases h' : c ∈ l <;> simp [h, h']

/-- The sensitivities do not depend on what the sensitivity solver and the result object held before. -/
theorem sensSolve_mem {Ax : Matrix (Fin ny) (Fin nx) K} (rf : RFState K nx np ny nz Ax) (hj : ∀ i, i ∈ rf.status.js ∨ i ∈ rf.status.ju) (hb : Function.Bijective (Sum.elim rf.C.mat.js rf.C.mat.ju))
    (I : Inners K np rf.C.nbe rf.C.nbi rf.C.nne rf.C.nni) (fxc : Matrix (Fin nx) (Fin nc) K) (hc : Matrix (Fin nz) (Fin nc) K) (vc : Matrix (Fin np) (Fin nc) K) (bc : Matrix (Fin ny) (Fin nc) K)
    (r0 r1 : MVec K nx np (ny + nz)) (s0 s1 : MSens K nx np (ny + nz) nc) : sensSolve rf I fxc hc vc bc r0 s0 = sensSolve rf I fxc hc vc bc r1 s1 := by
  obtain ⟨a1, a2, a3⟩ := sensColumns rf hj hb I fxc hc vc bc (List.finRange nc) (r0, s0)
  obtain ⟨b1, b2, b3⟩ := sensColumns rf hj hb I fxc hc vc bc (List.finRange nc) (r1, s1)
  simp only [List.mem_finRange, if_true] at a1 a2 a3 b1 b2 b3
  have c1 : ((List.finRange nc).foldl (sensColumn rf I fxc hc vc bc) (r0, s0)).2.xc = ((List.finRange nc).foldl (sensColumn rf I fxc hc vc bc) (r1, s1)).2.xc := by ext r c; rw [a1, b1]
  have c2 : ((List.finRange nc).foldl (sensColumn rf I fxc hc vc bc) (r0, s0)).2.pc = ((List.finRange nc).foldl (sensColumn rf I fxc hc vc bc) (r1, s1)).2.pc := by ext r c; rw [a2, b2]
  have c3 : ((List.finRange nc).foldl (sensColumn rf I fxc hc vc bc) (r0, s0)).2.wc = ((List.finRange nc).foldl (sensColumn rf I fxc hc vc bc) (r1, s1)).2.wc := by ext r c; rw [a3, b3]
  unfold sensSolve
  dsimp only
  rw [c1, c2, c3]
  congr 1
  ext i c
  by_cases hu : i ∈ rf.status.ju
  · rw [setRows_of_mem _ i c _ _ hu, setRows_of_mem _ i c _ _ hu]
  · have hs := (hj i).resolve_right hu
    rw [setRows_of_not_mem _ i c _ _ hu, setRows_of_not_mem _ i c _ _ hu, setRows_of_mem _ i c _ _ hs, setRows_of_mem _ i c _ _ hs]

/-! ## `Solver` -/

/-- The configuration of `solverConfig` for given data of the master problem. -/
def pbConfig (env : Env K) (method : Method) (inners : ∀ c : CanonPack K (nx + nbg + nhg) np (nbe + nbg + (nhe + nhg)), Inners K np c.nbe c.nbi c.nne c.nni)
    (P : UProblem τ K nx np nbe nbg nhe nhg nc) (pb : MProblem K (nx + nbg + nhg) np (nbe + nbg) (nhe + nhg)) : Config K (nx + nbg + nhg) np (nbe + nbg) (nhe + nhg) (τ × ResMem K (nx + nbg + nhg) np (nhe + nhg) nc) where
  env := env
  pb := pb
  method := method
  inners := inners
  user := userCode (masterFuns P) P.c (firstBasics env.o pb.Ax) true true false
  userJac := userCode (masterFuns P) P.c (firstBasics env.o pb.Ax) true true true
  phi := none

section solver
variable {env : Env K} {method : Method} {inners : ∀ c : CanonPack K (nx + nbg + nhg) np (nbe + nbg + (nhe + nhg)), Inners K np c.nbe c.nbi c.nne c.nni} {P : UProblem τ K nx np nbe nbg nhe nhg nc}
  {pb : MProblem K (nx + nbg + nhg) np (nbe + nbg) (nhe + nhg)}

theorem pb_sim (hthr : 0 ≤ env.thr) (heps : 0 ≤ env.eps) (hnx : 0 < nx + nbg + nhg) (o : SolveOptions K) (t0 : τ) (res res' memW memW' errors errors' ax ax' du du') (history history' : History K)
    (u : MVec K (nx + nbg + nhg) np (nbe + nbg + (nhe + nhg))) {r r'} (h : Solve ((pbConfig env method inners P pb).machine none) o pb.bounds ((pbConfig env method inners P pb).start (t0, res) memW errors ax du) history u r)
    (h' : Solve ((pbConfig env method inners P pb).machine none) o pb.bounds ((pbConfig env method inners P pb).start (t0, res') memW' errors' ax' du') history' u r') :
    Option.Rel (StateSim (PartsSim (pbConfig env method inners P pb) (fun a b => a.1 = b.1))) r r' :=
  solve_sim (machine_sim hthr heps hnx (T := fun a b => a.1 = b.1)
    (fun t t' x p q e => rel_imp (fun _ _ h => ⟨h.1.1, h.2⟩) (userCode_sim (ny := nbe + nbg) (masterFuns P) P.c (firstBasics env.o pb.Ax) true true false t t' x p q e))
    (fun f hf => by cases hf) none (fun f hf => by cases hf)) o pb.bounds (mach := (pbConfig env method inners P pb).start (t0, res) memW errors ax du) (mach' := (pbConfig env method inners P pb).start (t0, res') memW' errors' ax' du')
    ⟨rfl, start_reach _ _ _ _ _ _, start_reach _ _ _ _ _ _, ⟨rfl, rfl, fun i c => by simp [Config.start, Ech.wInit]⟩⟩ history history' u h h'

/-- A run of `Solver::solve` for given data of the master problem: memory, starting state, state of the user functions; and what it returns, the final state of the user functions, the points evaluated and the errors. -/
def SolverRun (env : Env K) (method : Method) (inners : ∀ c : CanonPack K (nx + nbg + nhg) np (nbe + nbg + (nhe + nhg)), Inners K np c.nbe c.nbi c.nne c.nni) (P : UProblem τ K nx np nbe nbg nhe nhg nc)
    (pb : MProblem K (nx + nbg + nhg) np (nbe + nbg) (nhe + nhg)) (part : Idx.PartitionImpl ℕ) (o : SolveOptions K) (S : UState K nx np nbe nbg nhe nhg) (t0 : τ)
    (res : ResMem K (nx + nbg + nhg) np (nhe + nhg) nc) (memW : Matrix (Fin (nbe + nbg + (nhe + nhg))) (Fin (nx + nbg + nhg) ⊕ Fin np) K) (errors : ErrorsOut K (nx + nbg + nhg) np (nbe + nbg + (nhe + nhg))) (ax : Fin (nx + nbg + nhg) → K)
    (du : MVec K (nx + nbg + nhg) np (nbe + nbg + (nhe + nhg))) (history : History K)
    (S' : UState K nx np nbe nbg nhe nhg) (result : Result K) (t : τ) (trace : List (MVec K (nx + nbg + nhg) np (nbe + nbg + (nhe + nhg)))) (err : ErrorsOut K (nx + nbg + nhg) np (nbe + nbg + (nhe + nhg))) : Prop :=
  ∃ final rf, Solve ((pbConfig env method inners P pb).machine none) o pb.bounds ((pbConfig env method inners P pb).start (t0, res) memW errors ax du) history (packState S) (some final) ∧
    final.mach.rf = some rf ∧ S' = unpackState part (finalState rf.status rf.C final.u) ∧ result = solveResult o final ∧ final.mach.user.1 = t ∧ final.trace = trace ∧ final.mach.errors = err

variable {part : Idx.PartitionImpl ℕ} {o : SolveOptions K} {S S1 S2 : UState K nx np nbe nbg nhe nhg} {t0 : τ}
variable {res res' : ResMem K (nx + nbg + nhg) np (nhe + nhg) nc} {memW memW' : Matrix (Fin (nbe + nbg + (nhe + nhg))) (Fin (nx + nbg + nhg) ⊕ Fin np) K}
  {errors errors' : ErrorsOut K (nx + nbg + nhg) np (nbe + nbg + (nhe + nhg))} {ax ax' : Fin (nx + nbg + nhg) → K} {du du' : MVec K (nx + nbg + nhg) np (nbe + nbg + (nhe + nhg))} {history history' : History K}

theorem SolverRun.unique (hthr : 0 ≤ env.thr) (heps : 0 ≤ env.eps) (hnx : 0 < nx + nbg + nhg) {r1 r2 t1 t2 tr1 tr2 e1 e2}
    (h : SolverRun env method inners P pb part o S t0 res memW errors ax du history S1 r1 t1 tr1 e1) (h' : SolverRun env method inners P pb part o S t0 res' memW' errors' ax' du' history' S2 r2 t2 tr2 e2) :
    S1 = S2 ∧ r1 = r2 ∧ t1 = t2 ∧ tr1 = tr2 ∧ e1 = e2 := by
  obtain ⟨f, rf, a1, a2, rfl, rfl, rfl, rfl, rfl⟩ := h
  obtain ⟨f', rf', b1, b2, rfl, rfl, rfl, rfl, rfl⟩ := h'
  cases pb_sim hthr heps hnx o t0 res res' memW memW' errors errors' ax ax' du du' history history' _ a1 b1 with
  | some h =>
    obtain ⟨rf0, b, c1, c2, -⟩ := h.mach.rf
    rw [a2] at c1
    cases c1
    rw [b2] at c2
    cases c2
    refine ⟨?_, ?_, h.mach.user, h.trace, h.mach.errors⟩
    · rw [h.u]; rfl
    · unfold solveResult; rw [h.iterations]

theorem SolverRun.exists (hthr : 0 ≤ env.thr) (heps : 0 ≤ env.eps) (hnx : 0 < nx + nbg + nhg) {r1 t1 tr1 e1}
    (h : SolverRun env method inners P pb part o S t0 res memW errors ax du history S1 r1 t1 tr1 e1) (res' memW' errors' ax' du' history') :
    SolverRun env method inners P pb part o S t0 res' memW' errors' ax' du' history' S1 r1 t1 tr1 e1 := by
  obtain ⟨⟨r, hr, -⟩, -⟩ := solve_budget ((pbConfig env method inners P pb).machine none) o pb.bounds ((pbConfig env method inners P pb).start (t0, res') memW' errors' ax' du') history' (packState S)
  obtain ⟨f, rf, a1, a2, a3⟩ := h
  have hs := pb_sim hthr heps hnx o t0 res res' memW memW' errors errors' ax ax' du du' history history' _ a1 hr
  cases hs with
  | @some _ f' hs =>
    obtain ⟨rf0, b, c1, c2, -⟩ := hs.mach.rf
    have hrun : SolverRun env method inners P pb part o S t0 res' memW' errors' ax' du' history' (unpackState part (finalState (rf0.flag b).status (rf0.flag b).C f'.u)) (solveResult o f') f'.mach.user.1 f'.trace f'.mach.errors :=
      ⟨f', rf0.flag b, hr, c2, rfl, rfl, rfl, rfl, rfl⟩
    obtain ⟨rfl, rfl, rfl, rfl, rfl⟩ := SolverRun.unique hthr heps hnx ⟨f, rf, a1, a2, a3⟩ hrun
    exact hrun

/-- The same with the sensitivities computed after the solve; `r0` and `s0` are the memory of the sensitivity solver. -/
def SensRun (env : Env K) (method : Method) (inners : ∀ c : CanonPack K (nx + nbg + nhg) np (nbe + nbg + (nhe + nhg)), Inners K np c.nbe c.nbi c.nne c.nni) (P : UProblem τ K nx np nbe nbg nhe nhg nc)
    (pb : MProblem K (nx + nbg + nhg) np (nbe + nbg) (nhe + nhg)) (o : SolveOptions K) (S : UState K nx np nbe nbg nhe nhg) (t0 : τ)
    (res : ResMem K (nx + nbg + nhg) np (nhe + nhg) nc) (memW : Matrix (Fin (nbe + nbg + (nhe + nhg))) (Fin (nx + nbg + nhg) ⊕ Fin np) K) (errors : ErrorsOut K (nx + nbg + nhg) np (nbe + nbg + (nhe + nhg))) (ax : Fin (nx + nbg + nhg) → K)
    (du : MVec K (nx + nbg + nhg) np (nbe + nbg + (nhe + nhg))) (history : History K)
    (I : ∀ c : CanonPack K (nx + nbg + nhg) np (nbe + nbg + (nhe + nhg)), Inners K np c.nbe c.nbi c.nne c.nni) (r0 : MVec K (nx + nbg + nhg) np (nbe + nbg + (nhe + nhg))) (s0 : MSens K (nx + nbg + nhg) np (nbe + nbg + (nhe + nhg)) nc)
    (sens : USens K nx np nbe nbg nhe nhg nc) : Prop :=
  ∃ final parts rf2, Solve ((pbConfig env method inners P pb).machine none) o pb.bounds ((pbConfig env method inners P pb).start (t0, res) memW errors ax du) history (packState S) (some final) ∧
    (pbConfig env method inners P pb).updateF (pbConfig env method inners P pb).userJac final.mach final.u = some parts ∧ parts.rf = some rf2 ∧
    sens = unpackSens (sensSolve rf2 (I rf2.C) parts.user.2.f.fxc parts.user.2.h.ddc parts.user.2.v.ddc (masterBc P) r0 s0)

theorem SensRun.unique (hthr : 0 ≤ env.thr) (heps : 0 ≤ env.eps) (hnx : 0 < nx + nbg + nhg) {I} {r0 r0' s0 s0' sens sens'}
    (h : SensRun env method inners P pb o S t0 res memW errors ax du history I r0 s0 sens) (h' : SensRun env method inners P pb o S t0 res' memW' errors' ax' du' history' I r0' s0' sens') : sens = sens' := by
  obtain ⟨f, p, rf, a1, a2, a3, rfl⟩ := h
  obtain ⟨f', p', rf', b1, b2, b3, rfl⟩ := h'
  have hs := pb_sim hthr heps hnx o t0 res res' memW memW' errors errors' ax ax' du du' history history' _ a1 b1
  cases hs with
  | some hs =>
    have hu := updateF_sim hthr heps hnx (cfg := pbConfig env method inners P pb) (userCode_sim (ny := nbe + nbg) (masterFuns P) P.c (firstBasics env.o pb.Ax) true true true) (s := f.mach) (s' := f'.mach)
      ⟨hs.mach.user, hs.mach.reach, by unfold Reach; rw [← hs.mach.ech]; exact hs.mach.reach, by rw [hs.mach.ech]; exact ⟨rfl, rfl, fun _ _ => rfl⟩⟩ f.u
    rw [← hs.u] at b2
    rw [show (pbConfig env method inners P pb).updateF (userCode (masterFuns P) P.c (firstBasics env.o pb.Ax) true true true) f.mach f.u = some p from a2,
      show (pbConfig env method inners P pb).updateF (userCode (masterFuns P) P.c (firstBasics env.o pb.Ax) true true true) f'.mach f.u = some p' from b2] at hu
    cases hu with
    | some hu =>
      obtain ⟨⟨-, hm⟩, -, -, rf0, b, c1, c2, ev, hspec⟩ := hu
      rw [a3] at c1
      cases c1
      rw [b3] at c2
      cases c2
      have hj : ∀ i, i ∈ rf.status.js ∨ i ∈ rf.status.ju := fun i => by rw [hspec.js_eq, hspec.ju_eq]; exact List.mem_append.1 (hspec.split.mem_iff.2 (List.mem_finRange i))
      rw [← hm.f, ← hm.h.ddc, ← hm.v.ddc]
      exact congrArg unpackSens (sensSolve_mem rf hj hspec.canon.split (I rf.C) _ _ _ _ r0 r0' s0 s0')

end solver

theorem masterProblem_mem (P : UProblem τ K nx np nbe nbg nhe nhg nc) {mem mem' : Matrix (Fin (nbe + nbg)) (Fin (nx + nbg + nhg)) K} (h : ∀ i j, mem (Fin.castAdd nbg i) (ixBg nx nhg j) = mem' (Fin.castAdd nbg i) (ixBg nx nhg j)) :
    masterProblem P mem = masterProblem P mem' := by
  have : assembleAx mem P.Aex P.Agx = assembleAx mem' P.Aex P.Agx := by
    unfold assembleAx
    dsimp only
    funext r c
    refine Fin.addCases (fun i => ?_) (fun i => ?_) r <;> refine Fin.addCases (fun k => Fin.addCases (fun j => ?_) (fun j => ?_) k) (fun j => ?_) c <;>
      first | (simp [cat3, cat2, ixX, ixBg, ixHg]; done) | simpa [cat3, cat2, ixX, ixBg, ixHg] using h i j
  unfold masterProblem
  rw [this]

section user
variable {env : Env K} {method : Method} {inners : ∀ c : CanonPack K (nx + nbg + nhg) np (nbe + nbg + (nhe + nhg)), Inners K np c.nbe c.nbi c.nne c.nni} {P : UProblem τ K nx np nbe nbg nhe nhg nc}
  {part : Idx.PartitionImpl ℕ} {o : SolveOptions K} {S S1 S2 : UState K nx np nbe nbg nhe nhg} {r1 r2 : Result K} {mem mem' : Matrix (Fin (nbe + nbg)) (Fin (nx + nbg + nhg)) K}

theorem SolverReturns.run (h : SolverReturns env method inners part o P mem S S1 r1 none) :
    SolverRun env method inners P (masterProblem P mem) part o S h.t0 h.res h.memW h.errors h.ax h.du h.history S1 r1 h.final.mach.user.1 h.final.trace h.final.mach.errors :=
  ⟨h.final, h.rf, h.solved, h.evaluated, h.state, h.result_eq, rfl, rfl, rfl⟩

/-- **C70 for `Solver`, with equal entries of the block that C44 is about** -/
theorem solver_history_partial (hthr : 0 ≤ env.thr) (heps : 0 ≤ env.eps) (hnx : 0 < nx) (hmem : ∀ i j, mem (Fin.castAdd nbg i) (ixBg nx nhg j) = mem' (Fin.castAdd nbg i) (ixBg nx nhg j))
    (h : SolverReturns env method inners part o P mem S S1 r1 none) :
    (∀ res memW errors ax du history, ∃ h' : SolverReturns env method inners part o P mem' S S1 r1 none, h'.t0 = h.t0 ∧ h'.res = res ∧ h'.memW = memW ∧ h'.errors = errors ∧ h'.ax = ax ∧ h'.du = du ∧ h'.history = history) ∧
    ∀ h' : SolverReturns env method inners part o P mem' S S2 r2 none, h'.t0 = h.t0 →
      S2 = S1 ∧ r2 = r1 ∧ h'.final.mach.user.1 = h.final.mach.user.1 ∧ h'.final.trace = h.final.trace ∧ h'.final.mach.errors = h.final.mach.errors := by
  have key : ∀ pb, masterProblem P mem = pb → SolverRun env method inners P pb part o S h.t0 h.res h.memW h.errors h.ax h.du h.history S1 r1 h.final.mach.user.1 h.final.trace h.final.mach.errors := by
    rintro _ rfl
    exact h.run
  have hrun := key _ (masterProblem_mem P hmem)
  refine ⟨fun res memW errors ax du history => ?_, fun h' ht => ?_⟩
  · obtain ⟨final, rf, a1, a2, a3, a4, -⟩ := hrun.exists hthr heps (by omega) res memW errors ax du history
    exact ⟨{ t0 := h.t0, res := res, memW := memW, errors := errors, ax := ax, du := du, history := history, final := final, rf := rf, solved := a1, evaluated := a2, state := a3, result_eq := a4 }, rfl, rfl, rfl, rfl, rfl, rfl, rfl⟩
  · have hrun' := h'.run
    rw [ht] at hrun'
    exact hrun'.unique hthr heps (by omega) hrun

/-- **C70 for the sensitivities**, also whatever the sensitivity solver and the result object held before -/
theorem solver_history_sensitivity_partial (hthr : 0 ≤ env.thr) (heps : 0 ≤ env.eps) (hnx : 0 < nx) (hmem : ∀ i j, mem (Fin.castAdd nbg i) (ixBg nx nhg j) = mem' (Fin.castAdd nbg i) (ixBg nx nhg j))
    {I : ∀ c : CanonPack K (nx + nbg + nhg) np (nbe + nbg + (nhe + nhg)), Inners K np c.nbe c.nbi c.nne c.nni} {sens sens' : USens K nx np nbe nbg nhe nhg nc}
    (h : SolverReturns env method inners part o P mem S S1 r1 none) (h' : SolverReturns env method inners part o P mem' S S2 r2 none) (ht : h'.t0 = h.t0) (hs : SensReturns h I sens) (hs' : SensReturns h' I sens') : sens' = sens := by
  have key : ∀ pb, masterProblem P mem = pb → SensRun env method inners P pb o S h.t0 h.res h.memW h.errors h.ax h.du h.history I hs.r0 hs.s0 sens := by
    rintro _ rfl
    exact ⟨h.final, hs.parts, hs.rf2, h.solved, hs.evaluated, hs.state, hs.result⟩
  have hrun' : SensRun env method inners P (masterProblem P mem') o S h'.t0 h'.res h'.memW h'.errors h'.ax h'.du h'.history I hs'.r0 hs'.s0 sens' :=
    ⟨h'.final, hs'.parts, hs'.rf2, h'.solved, hs'.evaluated, hs'.state, hs'.result⟩
  rw [ht] at hrun'
  exact hrun'.unique hthr heps (by omega) (key _ (masterProblem_mem P hmem))

/-- With linear constraints of only one kind (or none) there is no such block, and any memory will do. -/
theorem solver_history (hthr : 0 ≤ env.thr) (heps : 0 ≤ env.eps) (hnx : 0 < nx) (hone : nbe = 0 ∨ nbg = 0) (h : SolverReturns env method inners part o P mem S S1 r1 none) :
    (∀ res memW errors ax du history, ∃ h' : SolverReturns env method inners part o P mem' S S1 r1 none, h'.t0 = h.t0 ∧ h'.res = res ∧ h'.memW = memW ∧ h'.errors = errors ∧ h'.ax = ax ∧ h'.du = du ∧ h'.history = history) ∧
    (∀ h' : SolverReturns env method inners part o P mem' S S2 r2 none, h'.t0 = h.t0 →
      S2 = S1 ∧ r2 = r1 ∧ h'.final.mach.user.1 = h.final.mach.user.1 ∧ h'.final.trace = h.final.trace ∧ h'.final.mach.errors = h.final.mach.errors) ∧
    ∀ h' : SolverReturns env method inners part o P mem' S S2 r2 none, h'.t0 = h.t0 → ∀ (I : ∀ c : CanonPack K (nx + nbg + nhg) np (nbe + nbg + (nhe + nhg)), Inners K np c.nbe c.nbi c.nne c.nni) (sens sens'),
      SensReturns h I sens → SensReturns h' I sens' → sens' = sens := by
  have hmem : ∀ i j, mem (Fin.castAdd nbg i) (ixBg nx nhg j) = mem' (Fin.castAdd nbg i) (ixBg nx nhg j) := by
    rintro ⟨i, hi⟩ ⟨j, hj⟩
    omega
  obtain ⟨a, b⟩ := solver_history_partial (S2 := S2) (r2 := r2) hthr heps hnx hmem h
  exact ⟨a, b, fun h' ht I sens sens' hs hs' => solver_history_sensitivity_partial hthr heps hnx hmem h h' ht hs hs'⟩

end user

/-! ## The entries that are left over do matter

`min x²/2` subject to `x = 1` and `x ≥ 0`.  The entry of the master matrix in the row of `x = 1` and the column of the slack variable of `x ≥ 0` is not assigned (C44). -/

/-- The problem. -/
def staleProblem : UProblem Unit K 1 0 1 1 0 0 0 where
  r := ResFn.default
  f := ⟨some fun t res x _ _ _ => some (t, { res with f := x 0 ^ 2 / 2, fx := x, fxx := 1 })⟩
  he := ConFn.default
  hg := ConFn.default
  v := ConFn.default
  Aex := fun _ _ => 1
  Aep := fun _ i => i.elim0
  Agx := fun _ _ => 1
  Agp := fun _ i => i.elim0
  be := fun _ => 1
  bg := fun _ => 0
  xlower := fun _ => none
  xupper := fun _ => none
  plower := fun i => i.elim0
  pupper := fun i => i.elim0
  c := fun i => i.elim0
  bec := fun _ i => i.elim0
  bgc := fun _ i => i.elim0

/-- Its functions. -/
def staleAffine : UAffine K 1 0 0 0 where
  H := 1
  Hp := 0
  c := 0
  hex := fun i => i.elim0
  hep := fun i => i.elim0
  he0 := fun i => i.elim0
  hgx := fun i => i.elim0
  hgp := fun i => i.elim0
  hg0 := fun i => i.elim0
  vx := fun i => i.elim0
  vp := fun i => i.elim0
  v0 := fun i => i.elim0

theorem stale_neverThrows : NeverThrows (staleProblem (K := K)) := ⟨fun _ _ _ _ _ => ⟨_, rfl⟩, fun _ _ _ _ _ => ⟨_, rfl⟩, fun _ _ _ _ _ => ⟨_, rfl⟩, fun _ _ _ _ _ => ⟨_, rfl⟩, fun _ _ _ _ _ => ⟨_, rfl⟩⟩

theorem stale_implemented : (staleAffine (K := K)).Implemented staleProblem where
  f := by
    refine ⟨_, rfl, fun t x p o t' q _ _ h => ?_⟩
    simp only [Option.some.injEq, Prod.mk.injEq] at h
    obtain ⟨-, rfl⟩ := h
    refine ⟨?_, rfl, ?_⟩
    · funext i; simp [staleAffine]
    · funext i j; exact j.elim0
  he := ⟨_, rfl, fun t x p o t' q _ _ _ => ⟨funext fun i => i.elim0, funext fun i => i.elim0, funext fun i => i.elim0⟩⟩
  hg := ⟨_, rfl, fun t x p o t' q _ _ _ => ⟨funext fun i => i.elim0, funext fun i => i.elim0, funext fun i => i.elim0⟩⟩
  v := ⟨_, rfl, fun t x p o t' q _ _ _ => ⟨funext fun i => i.elim0, funext fun i => i.elim0, funext fun i => i.elim0⟩⟩

theorem stale_matrix (mem : Matrix (Fin (1 + 1)) (Fin (1 + 1 + 0)) K) : (masterProblem staleProblem mem).Ax = !![1, mem 0 1; 1, 1] := by
  ext i j
  fin_cases i <;> fin_cases j <;> rfl

theorem stale_kkt (mem : Matrix (Fin (1 + 1)) (Fin (1 + 1 + 0)) K) (u : MVec K (1 + 1 + 0) 0 (1 + 1 + (0 + 0))) : ((staleAffine (K := K)).master (nbg := 1)).Kkt (masterProblem staleProblem mem) u ↔
    u.x 0 + (u.w 0 + u.w 1) = 0 ∧ mem 0 1 * u.w 0 + u.w 1 = 0 ∧ u.x 0 + mem 0 1 * u.x 1 = 1 ∧ u.x 0 + u.x 1 = 0 := by
  have hH : ∀ i j, ((staleAffine (K := K)).master (nbg := 1)).H i j = (!![1, 0; 0, 0] : Matrix (Fin 2) (Fin 2) K) i j := by
    intro i j
    fin_cases i <;> fin_cases j <;> rfl
  have hc : ∀ i, ((staleAffine (K := K)).master (nbg := 1)).c i = 0 := by
    intro i
    fin_cases i <;> rfl
  have hb : ∀ i, (masterProblem (staleProblem (K := K)) mem).b i = (![1, 0] : Fin 2 → K) i := by
    intro i
    fin_cases i <;> rfl
  have s1 : ∀ f : Fin (1 + 1 + 0) → K, ∑ i, f i = f 0 + f 1 := fun f => Fin.sum_univ_two f
  have s2 : ∀ f : Fin (1 + 1) → K, ∑ i, f i = f 0 + f 1 := fun f => Fin.sum_univ_two f
  have s3 : ∀ f : Fin (0 + 0) → K, ∑ i, f i = 0 := fun f => Fin.sum_univ_zero f
  have f1 : ∀ p : Fin (1 + 1 + 0) → Prop, (∀ i, p i) ↔ p 0 ∧ p 1 := fun p => Fin.forall_fin_two
  have f2 : ∀ p : Fin (1 + 1) → Prop, (∀ i, p i) ↔ p 0 ∧ p 1 := fun p => Fin.forall_fin_two
  have w0 : (Fin.castAdd (0 + 0) (0 : Fin (1 + 1))) = (0 : Fin (1 + 1 + (0 + 0))) := rfl
  have w1 : (Fin.castAdd (0 + 0) (1 : Fin (1 + 1))) = (1 : Fin (1 + 1 + (0 + 0))) := rfl
  have key : ((staleAffine (K := K)).master (nbg := 1)).Kkt (masterProblem staleProblem mem) u ↔
      (∀ i, ∑ j, ((staleAffine (K := K)).master (nbg := 1)).H i j * u.x j + ((staleAffine (K := K)).master (nbg := 1)).c i + ∑ l, (masterProblem (staleProblem (K := K)) mem).Ax l i * u.w (Fin.castAdd (0 + 0) l) = 0) ∧
      ∀ l, ∑ j, (masterProblem (staleProblem (K := K)) mem).Ax l j * u.x j = (masterProblem (staleProblem (K := K)) mem).b l := by
    constructor
    · intro h
      refine ⟨fun i => ?_, fun l => ?_⟩
      · simpa [s3] using h.grad i
      · simpa using h.lin l
    · rintro ⟨a, b⟩
      refine ⟨fun i => ?_, fun q => q.elim0, fun l => ?_, fun l => l.elim0⟩
      · simpa [s3] using a i
      · simpa using b l
  rw [key]
  simp only [s1, s2, f1, f2, hH, hc, hb, stale_matrix, w0, w1]
  simp [and_assoc]

/-- **C70 is false with linear constraints of both kinds**: the solver reports success at `x = 1 / (1 - m)`, where `m` is the entry left over: in exact arithmetic, with the full-space or null-space method, from every initial state with the slack variable inside
    its bound; for every `m < 1`. -/
theorem stale_solved {env : Env K} {method : Method} {inners : ∀ c : CanonPack K (1 + 1 + 0) 0 (1 + 1 + (0 + 0)), Inners K 0 c.nbe c.nbi c.nne c.nni} (hthr : 0 ≤ env.thr) (heps : env.eps = 0) (hd : env.debug = false)
    (ho : ∀ M, (env.o M).lu.Z = 0) (mem : Matrix (Fin (1 + 1)) (Fin (1 + 1 + 0)) K) (hlu : LUInners (solverConfig env method inners staleProblem mem)) (hm : method ≠ .rangespace) (hlt : mem 0 1 < 1)
    (part : Idx.PartitionImpl ℕ) (o : SolveOptions K) (hmax : 1 ≤ o.maxiters) (htol : 0 < o.tolerance) (S : UState K 1 0 1 1 0 0) (hS : S.xbg 0 < 0) (t0 : Unit) (res memW errors ax du history) :
    ∃ S' result, ∃ h : SolverReturns env method inners part o staleProblem mem S S' result none, (h.t0 = t0 ∧ h.res = res ∧ h.memW = memW ∧ h.errors = errors ∧ h.ax = ax ∧ h.du = du ∧ h.history = history) ∧
      result.succeeded = true ∧ result.iterations = 1 ∧ h.final.mach.errors.error = 0 ∧ S'.x = fun _ => 1 / (1 - mem 0 1) := by
  have hne : 1 - mem 0 1 ≠ 0 := by linarith
  let ustar : MVec K (1 + 1 + 0) 0 (1 + 1 + (0 + 0)) := ⟨![1 / (1 - mem 0 1), -1 / (1 - mem 0 1)], fun i => i.elim0, ![-1 / (1 - mem 0 1) ^ 2, mem 0 1 / (1 - mem 0 1) ^ 2]⟩
  obtain ⟨t, h1, h2, h3, h4, h5⟩ := quadratic_solve (cfg := solverConfig env method inners staleProblem mem) hthr heps hd ho (by norm_num) rfl hlu hm ((staleAffine (K := K)).master (nbg := 1))
    (fun t x p q => by
      obtain ⟨⟨t', ev⟩, e⟩ := userCode_returns stale_neverThrows (firstBasics env.o (masterProblem (staleProblem (K := K)) mem).Ax) true true false t x p q
      exact ⟨t', ev, e, UAffine.returns stale_implemented e⟩) ustar
    ((stale_kkt mem ustar).2 (by
      refine ⟨?_, ?_, ?_, ?_⟩ <;> simp [ustar] <;> field_simp <;> ring))
    (fun u' h' => by
      obtain ⟨a, b, c, d⟩ := (stale_kkt mem u').1 h'
      have e0 : u'.x 0 = 1 / (1 - mem 0 1) := by rw [eq_div_iff hne]; linear_combination c - mem 0 1 * d
      have e1 : u'.x 1 = -1 / (1 - mem 0 1) := by rw [eq_div_iff hne]; linear_combination d - c
      have e2 : u'.w 0 = -1 / (1 - mem 0 1) ^ 2 := by rw [eq_div_iff (pow_ne_zero _ hne)]; linear_combination (1 - mem 0 1) * (a - b) - c + mem 0 1 * d
      have e3 : u'.w 1 = mem 0 1 / (1 - mem 0 1) ^ 2 := by rw [eq_div_iff (pow_ne_zero _ hne)]; linear_combination (1 - mem 0 1) * (b - mem 0 1 * a) + mem 0 1 * c - mem 0 1 ^ 2 * d
      apply MVec.ext
      · funext i; fin_cases i; exacts [e0, e1]
      · funext i; exact i.elim0
      · funext i; fin_cases i; exacts [e2, e3])
    (by
      refine ⟨fun i => ?_, fun q => q.elim0⟩
      fin_cases i
      · exact ⟨fun l e => (by cases e), fun l e => (by cases e)⟩
      · refine ⟨fun l e => (by cases e), fun l e => ?_⟩
        cases e
        exact div_nonpos_of_nonpos_of_nonneg (by norm_num) (by linarith))
    o hmax htol (t0, res) memW errors ax du history (packState S) (by
      intro i
      fin_cases i
      · exact ⟨fun e => (by cases e), fun e => (by cases e)⟩
      · refine ⟨fun e => (by cases e), fun e => ?_⟩
        have e' : (0 : K) = clamp none (some 0) (S.xbg 0) := Option.some.inj e
        rw [clamp_of_between (lower := none) (upper := some (0 : K)) ⟨fun l h => (by cases h), fun l h => (by cases h; exact hS.le)⟩] at e'
        exact absurd e'.symm hS.ne)
  have ht := (h1 _).2 rfl
  obtain ⟨-, ev, rf, ew0, e1, -⟩ := solve_inv (machine_inv (cfg := solverConfig env method inners staleProblem mem) hthr heps.ge (by norm_num) none) o _ (start_reach _ (t0, res) memW errors ax du) history _ _ ht
  refine ⟨_, _, { t0 := t0, res := res, memW := memW, errors := errors, ax := ax, du := du, history := history, final := t, rf := rf, solved := ht, evaluated := e1, state := rfl, result_eq := rfl },
    ⟨rfl, rfl, rfl, rfl, rfl, rfl, rfl⟩, h4, h5, h3, ?_⟩
  simp only [unpackState, finalState, h2]
  funext i
  rw [Subsingleton.elim i 0]
  rfl

/-- A problem solved before with the same solver object: `min (x0² + x1²)/2` subject to `x0 + x1/2 = 1`, `x1 = 0`. -/
def earlierProblem : UProblem Unit K 2 0 2 0 0 0 0 where
  r := ResFn.default
  f := ⟨some fun t res x _ _ _ => some (t, { res with f := (x 0 ^ 2 + x 1 ^ 2) / 2, fx := x, fxx := 1 })⟩
  he := ConFn.default
  hg := ConFn.default
  v := ConFn.default
  Aex := !![1, 1/2; 0, 1]
  Aep := fun _ i => i.elim0
  Agx := fun i => i.elim0
  Agp := fun i => i.elim0
  be := ![1, 0]
  bg := fun i => i.elim0
  xlower := fun _ => none
  xupper := fun _ => none
  plower := fun i => i.elim0
  pupper := fun i => i.elim0
  c := fun i => i.elim0
  bec := fun _ i => i.elim0
  bgc := fun i => i.elim0

/-- Its functions. -/
def earlierAffine : UAffine K 2 0 0 0 where
  H := 1
  Hp := 0
  c := 0
  hex := fun i => i.elim0
  hep := fun i => i.elim0
  he0 := fun i => i.elim0
  hgx := fun i => i.elim0
  hgp := fun i => i.elim0
  hg0 := fun i => i.elim0
  vx := fun i => i.elim0
  vp := fun i => i.elim0
  v0 := fun i => i.elim0

theorem earlier_neverThrows : NeverThrows (earlierProblem (K := K)) := ⟨fun _ _ _ _ _ => ⟨_, rfl⟩, fun _ _ _ _ _ => ⟨_, rfl⟩, fun _ _ _ _ _ => ⟨_, rfl⟩, fun _ _ _ _ _ => ⟨_, rfl⟩, fun _ _ _ _ _ => ⟨_, rfl⟩⟩

theorem earlier_implemented : (earlierAffine (K := K)).Implemented earlierProblem where
  f := by
    refine ⟨_, rfl, fun t x p o t' q _ _ h => ?_⟩
    simp only [Option.some.injEq, Prod.mk.injEq] at h
    obtain ⟨-, rfl⟩ := h
    refine ⟨?_, rfl, ?_⟩
    · funext i; simp [earlierAffine]
    · funext i j; exact j.elim0
  he := ⟨_, rfl, fun t x p o t' q _ _ _ => ⟨funext fun i => i.elim0, funext fun i => i.elim0, funext fun i => i.elim0⟩⟩
  hg := ⟨_, rfl, fun t x p o t' q _ _ _ => ⟨funext fun i => i.elim0, funext fun i => i.elim0, funext fun i => i.elim0⟩⟩
  v := ⟨_, rfl, fun t x p o t' q _ _ _ => ⟨funext fun i => i.elim0, funext fun i => i.elim0, funext fun i => i.elim0⟩⟩

theorem earlier_solved (part : Idx.PartitionImpl ℕ) (mem : Matrix (Fin (2 + 0)) (Fin (2 + 0 + 0)) ℝ) (S : UState ℝ 2 0 2 0 0 0) :
    ∃ S' result, Nonempty (SolverReturns exactEnv .nullspace exactInners part exactOptions earlierProblem mem S S' result none) ∧ result.succeeded = true ∧ S'.x = ![1, 0] := by
  obtain ⟨S', result, h, -, h1, -, h2, -⟩ := solver_quadratic (env := exactEnv) (method := .nullspace) (inners := exactInners) (A := earlierAffine) earlier_neverThrows earlier_implemented (mem := mem)
    ((assembleAx_iff _ _ _).2 fun _ j => j.elim0) le_rfl rfl rfl exactEnv_oracle (by norm_num) (fun c => exactInners_lu c) (by intro h; cases h) (x := ![1, 0]) (p := fun i => i.elim0) (ye := ![-1, 1/2]) (ze := fun i => i.elim0)
    (by
      refine ⟨?_, fun i => i.elim0, ?_, fun i => i.elim0⟩ <;> rw [Fin.forall_fin_two] <;> simp [earlierProblem, earlierAffine, Matrix.one_apply, Fin.sum_univ_two])
    (fun x' p' ye' ze' h => by
      have g0 := h.grad 0
      have g1 := h.grad 1
      have l0 := h.be 0
      have l1 := h.be 1
      simp [earlierProblem, earlierAffine, Matrix.one_apply, Fin.sum_univ_two] at g0 g1 l0 l1
      rw [l1] at l0 g1
      have e0 : x' 0 = 1 := by linarith
      have e2 : ye' 0 = -1 := by linarith
      have e3 : ye' 1 = 1/2 := by linarith
      refine ⟨?_, funext fun i => i.elim0, ?_, funext fun i => i.elim0⟩
      · funext i; fin_cases i; exacts [e0, l1]
      · funext i; fin_cases i; exacts [e2, e3])
    (fun i => i.elim0) (fun i => i.elim0) (fun i => ⟨fun l e => (by cases e), fun l e => (by cases e)⟩) (fun i => i.elim0) part exactOptions (by norm_num [exactOptions]) (by norm_num [exactOptions]) S
    (fun i => ⟨fun e => (by cases e), fun e => (by cases e)⟩) (fun i => i.elim0) (fun i => i.elim0) () ⟨cleanObj, cleanCon, cleanCon⟩ 0 ⟨0, 0, 0, 0, 0, 0, 0, 0⟩ 0 ⟨0, 0, 0⟩ default
  exact ⟨S', result, ⟨h⟩, h1, h2⟩

/-- **Negation of C70**: a solver object that has just solved (with success) a problem with two equality constraints solves the problem above with success at `x = 2`; a solver object whose matrix held zeros, at `x = 1`, the only feasible point.  Same problem, same
    options, same initial state; for every initial state with the slack variable inside its bound, and whatever the matrix held before the earlier solve. -/
theorem solver_history_false (part : Idx.PartitionImpl ℕ) (mem : Matrix (Fin (2 + 0)) (Fin (2 + 0 + 0)) ℝ) (S0 : UState ℝ 2 0 2 0 0 0) (S : UState ℝ 1 0 1 1 0 0) (hS : S.xbg 0 < 0) :
    (∃ S' result, Nonempty (SolverReturns exactEnv .nullspace exactInners part exactOptions earlierProblem mem S0 S' result none) ∧ result.succeeded = true) ∧
    (∃ S' result, Nonempty (SolverReturns exactEnv .nullspace exactInners part exactOptions staleProblem (reshape (by decide) (masterProblem earlierProblem mem).Ax) S S' result none) ∧ result.succeeded = true ∧ S'.x = fun _ => 2) ∧
    (∃ S' result, Nonempty (SolverReturns exactEnv .nullspace exactInners part exactOptions staleProblem 0 S S' result none) ∧ result.succeeded = true ∧ S'.x = fun _ => 1) ∧
    ∀ x : Fin 1 → ℝ, (∀ i, ∑ j, (staleProblem (K := ℝ)).Aex i j * x j = (staleProblem (K := ℝ)).be i) ↔ x = fun _ => 1 := by
  refine ⟨?_, ?_, ?_, fun x => ?_⟩
  · obtain ⟨S', result, h, h1, -⟩ := earlier_solved part mem S0
    exact ⟨S', result, h, h1⟩
  · have e : reshape (m' := 1 + 1) (n' := 1 + 1 + 0) (by decide) (masterProblem (earlierProblem (K := ℝ)) mem).Ax 0 1 = 1/2 := rfl
    obtain ⟨S', result, h, -, h1, -, -, h2⟩ := stale_solved (env := exactEnv) (method := .nullspace) (inners := exactInners) le_rfl rfl rfl exactEnv_oracle (reshape (by decide) (masterProblem earlierProblem mem).Ax)
      (fun c => exactInners_lu c) (by intro h; cases h) (by rw [e]; norm_num) part exactOptions (by norm_num [exactOptions]) (by norm_num [exactOptions]) S hS () ⟨cleanObj, cleanCon, cleanCon⟩ 0 ⟨0, 0, 0, 0, 0, 0, 0, 0⟩ 0 ⟨0, 0, 0⟩ default
    refine ⟨S', result, ⟨h⟩, h1, ?_⟩
    rw [h2, e]
    norm_num
  · obtain ⟨S', result, h, -, h1, -, -, h2⟩ := stale_solved (env := exactEnv) (method := .nullspace) (inners := exactInners) le_rfl rfl rfl exactEnv_oracle 0
      (fun c => exactInners_lu c) (by intro h; cases h) (by simp) part exactOptions (by norm_num [exactOptions]) (by norm_num [exactOptions]) S hS () ⟨cleanObj, cleanCon, cleanCon⟩ 0 ⟨0, 0, 0, 0, 0, 0, 0, 0⟩ 0 ⟨0, 0, 0⟩ default
    refine ⟨S', result, ⟨h⟩, h1, ?_⟩
    rw [h2]
    simp
  · constructor
    · intro h
      funext i
      rw [Subsingleton.elim i 0]
      simpa [staleProblem] using h 0
    · rintro rfl i
      simp [staleProblem]

/-- `solver_history` applies to the earlier problem: a solver object with any other history returns the same state. -/
example (part : Idx.PartitionImpl ℕ) (mem mem' : Matrix (Fin (2 + 0)) (Fin (2 + 0 + 0)) ℝ) (S : UState ℝ 2 0 2 0 0 0) :
    ∃ S' result, S'.x = ![1, 0] ∧ Nonempty (SolverReturns exactEnv .nullspace exactInners part exactOptions earlierProblem mem S S' result none) ∧
      Nonempty (SolverReturns exactEnv .nullspace exactInners part exactOptions earlierProblem mem' S S' result none) := by
  obtain ⟨S', result, ⟨h⟩, -, h2⟩ := earlier_solved part mem S
  obtain ⟨h', -⟩ := (solver_history (mem' := mem') (S2 := S) (r2 := result) le_rfl le_rfl (by norm_num) (Or.inr rfl) h).1 h.res h.memW h.errors h.ax h.du h.history
  exact ⟨S', result, h2, ⟨h⟩, ⟨h'⟩⟩

/-- `solver_history_partial` applies to the problem with constraints of both kinds when the entry is the same. -/
example (part : Idx.PartitionImpl ℕ) (mem : Matrix (Fin (1 + 1)) (Fin (1 + 1 + 0)) ℝ) (hm : mem 0 1 = 0) (S : UState ℝ 1 0 1 1 0 0) (hS : S.xbg 0 < 0) :
    ∃ S' result, S'.x = (fun _ => 1) ∧ Nonempty (SolverReturns exactEnv .nullspace exactInners part exactOptions staleProblem mem S S' result none) := by
  obtain ⟨-, -, ⟨S', result, ⟨h⟩, -, h2⟩, -⟩ := solver_history_false part 0 ⟨0, fun i => i.elim0, 0, fun i => i.elim0, fun i => i.elim0, fun i => i.elim0, 0, fun i => i.elim0, fun i => i.elim0, [], [], [], [], [], []⟩ S hS
  obtain ⟨h', -⟩ := (solver_history_partial (mem' := mem) (S2 := S) (r2 := result) le_rfl le_rfl (by norm_num) (fun i j => by
    rw [Subsingleton.elim i 0, Subsingleton.elim j 0]
    exact hm.symm) h).1 h.res h.memW h.errors h.ax h.du h.history
  exact ⟨S', result, h2, ⟨h'⟩⟩

/-- The sensitivities of a concrete problem (C41), which exist, are the same for all memory. -/
example : ∃ S' result sens, (∃ h : SolverReturns exactEnv .nullspace exactInners Idx.stableImpl exactOptions heldProblem 0 heldStart S' result none, Nonempty (SensReturns h exactInners sens)) ∧
    ∀ mem' S2 r2 (h' : SolverReturns exactEnv .nullspace exactInners Idx.stableImpl exactOptions heldProblem mem' heldStart S2 r2 none) sens', SensReturns h' exactInners sens' → S2 = S' ∧ sens' = sens := by
  obtain ⟨S', result, h, sens, ⟨hs⟩⟩ := held_sensitivity.1
  refine ⟨S', result, sens, ⟨h, ⟨hs⟩⟩, fun mem' S2 r2 h' sens' hs' => ?_⟩
  obtain ⟨-, a, b⟩ := solver_history (mem' := mem') (S2 := S2) (r2 := r2) le_rfl le_rfl (by norm_num) (Or.inr rfl) h
  exact ⟨(a h' rfl).1, b h' rfl exactInners sens sens' hs hs'⟩

end Optima
