import Verif.Props.SolverQuadratic

/-!
# C39, C51, C52, C53 and concrete solves of user problems
-/

set_option linter.unusedSectionVars false

namespace Optima

open Matrix

/-! ## C39: failures of user functions -/

section flags

variable {K : Type*} [AddZeroClass K] [One K] {τ : Type*} {nx np nbe nbg nhe nhg nc : ℕ}

/-- The success flag of an evaluation of the functions of the master problem, exactly: the conjunction of those of the objective, the **inequality** constraint and the external constraint; the flag of the equality
    constraint is overwritten.  A function that is not called (`nhe + nhg = 0`, `np = 0`) counts with the flag of its last call. -/
theorem success_flag {P : UProblem τ K nx np nbe nbg nhe nhg nc} {ff fe fg fv} (hf : P.f.fn = some ff) (he : P.he.fn = some fe) (hg : P.hg.fn = some fg) (hv : P.v.fn = some fv) (ddx ddp ddc : Bool) (ib : List ℕ)
    (t t' : τ) (m m' : ResMem K (nx + nbg + nhg) np (nhe + nhg) nc) (xbar : Fin (nx + nbg + nhg) → K) (p : Fin np → K) (ok : Bool)
    (h : functionEvals (masterFuns P) P.c ddx ddp ddc ib t m xbar p = some (t', m', ok)) :
    let o : EvalOpts := { ddx := ddx, ddp := ddp && decide (np ≠ 0), ddc := ddc && decide (nc ≠ 0), ibasicvars := ib }
    let x : Fin nx → K := fun i => xbar (ixX nbg nhg i)
    ∃ t1 t2 t3 t4 qf qe qg qv, P.r.call t xbar p P.c o = some t1 ∧ ff t1 cleanObj x p P.c o = some (t2, qf) ∧
      (if nhe + nhg ≠ 0 then fe t2 cleanCon x p P.c o = some (t3, qe) ∧ fg t3 cleanCon x p P.c o = some (t4, qg) else t4 = t2 ∧ qg.succeeded = m.h.succeeded) ∧
      (if np ≠ 0 then fv t4 cleanCon x p P.c o = some (t', qv) else t' = t4 ∧ qv.succeeded = m.v.succeeded) ∧ ok = (qf.succeeded && qg.succeeded && qv.succeeded) := by
  intro o x
  have ef : P.f = ⟨some ff⟩ := by rw [← hf]
  have ee : P.he = ⟨some fe⟩ := by rw [← he]
  have eg : P.hg = ⟨some fg⟩ := by rw [← hg]
  have ev : P.v = ⟨some fv⟩ := by rw [← hv]
  unfold functionEvals at h
  dsimp only at h
  split at h
  · cases h
  rename_i t1 h1
  split at h
  · cases h
  rename_i t2 fres h2
  split at h
  · cases h
  rename_i t4 hres h3
  split at h
  · cases h
  rename_i t5 vres h4
  simp only [Option.some.injEq, Prod.mk.injEq] at h
  obtain ⟨rfl, -, rfl⟩ := h
  rw [show (masterFuns P).f = ⟨some (masterF (nbg := nbg) (nhg := nhg) P.f)⟩ from rfl, objective_sees_clean, ef, masterF_spec] at h2
  obtain ⟨qf, h2, -, -, -, -, -, -, -, -, -, -, -, -, -, -, -, -, -, hfs⟩ := h2
  have keyh : ∃ t3 qe qg, (if nhe + nhg ≠ 0 then fe t2 cleanCon x p P.c o = some (t3, qe) ∧ fg t3 cleanCon x p P.c o = some (t4, qg) else t4 = t2 ∧ qg.succeeded = m.h.succeeded) ∧ hres.succeeded = qg.succeeded := by
    by_cases hz : nhe + nhg ≠ 0
    · rw [if_pos hz, show (masterFuns P).h = ⟨some (masterH (nbg := nbg) P.he P.hg)⟩ from rfl, constraint_sees_clean, ee, eg, masterH_spec] at h3
      obtain ⟨t3, qe, qg, a, b, -, -, -, -, -, -, -, -, -, -, -, -, -, hs⟩ := h3
      exact ⟨t3, qe, qg, by rw [if_pos hz]; exact ⟨a, b⟩, hs⟩
    · rw [if_neg hz] at h3
      simp only [Option.some.injEq, Prod.mk.injEq] at h3
      obtain ⟨rfl, rfl⟩ := h3
      exact ⟨t2, cleanCon, { cleanCon with succeeded := m.h.succeeded }, by rw [if_neg hz]; exact ⟨rfl, rfl⟩, rfl⟩
  obtain ⟨t3, qe, qg, k1, k2⟩ := keyh
  have keyv : ∃ qv : ConRes K np nx np nc, (if np ≠ 0 then fv t4 cleanCon x p P.c o = some (t5, qv) else t5 = t4 ∧ qv.succeeded = m.v.succeeded) ∧ vres.succeeded = qv.succeeded := by
    by_cases hz : np ≠ 0
    · rw [if_pos hz, show (masterFuns P).v = ⟨some (masterV (nbg := nbg) (nhg := nhg) P.v)⟩ from rfl, constraint_sees_clean, ev, masterV_spec] at h4
      obtain ⟨qv, a, -, -, -, -, -, -, -, hs⟩ := h4
      exact ⟨qv, by rw [if_pos hz]; exact a, hs⟩
    · rw [if_neg hz] at h4
      simp only [Option.some.injEq, Prod.mk.injEq] at h4
      obtain ⟨rfl, rfl⟩ := h4
      exact ⟨{ cleanCon with succeeded := m.v.succeeded }, by rw [if_neg hz]; exact ⟨rfl, rfl⟩, rfl⟩
  obtain ⟨qv, k3, k4⟩ := keyv
  exact ⟨t1, t2, t3, t4, qf, qe, qg, qv, h1, h2, k1, k3, by rw [hfs, k2, k4]⟩

/-- **C39 in part**: a failure of the objective, of the inequality constraint or of the external constraint is reported. -/
theorem failures_reported_partial {P : UProblem τ K nx np nbe nbg nhe nhg nc} {ff fe fg fv} (hf : P.f.fn = some ff) (he : P.he.fn = some fe) (hg : P.hg.fn = some fg) (hv : P.v.fn = some fv) (ddx ddp ddc : Bool) (ib : List ℕ)
    (t t' : τ) (m m' : ResMem K (nx + nbg + nhg) np (nhe + nhg) nc) (xbar : Fin (nx + nbg + nhg) → K) (p : Fin np → K)
    (h : functionEvals (masterFuns P) P.c ddx ddp ddc ib t m xbar p = some (t', m', true)) :
    let o : EvalOpts := { ddx := ddx, ddp := ddp && decide (np ≠ 0), ddc := ddc && decide (nc ≠ 0), ibasicvars := ib }
    let x : Fin nx → K := fun i => xbar (ixX nbg nhg i)
    ∃ t1 t2 t3 t4 qf qe qg qv, P.r.call t xbar p P.c o = some t1 ∧ ff t1 cleanObj x p P.c o = some (t2, qf) ∧ qf.succeeded = true ∧
      (nhe + nhg ≠ 0 → fe t2 cleanCon x p P.c o = some (t3, qe) ∧ fg t3 cleanCon x p P.c o = some (t4, qg) ∧ qg.succeeded = true) ∧ (nhe + nhg = 0 → t4 = t2) ∧
      (np ≠ 0 → fv t4 cleanCon x p P.c o = some (t', qv) ∧ qv.succeeded = true) := by
  intro o x
  obtain ⟨t1, t2, t3, t4, qf, qe, qg, qv, h1, h2, h3, h4, h5⟩ := success_flag hf he hg hv ddx ddp ddc ib t t' m m' xbar p true h
  have h5 := h5.symm
  simp only [Bool.and_eq_true] at h5
  refine ⟨t1, t2, t3, t4, qf, qe, qg, qv, h1, h2, h5.1.1, fun hz => ?_, fun hz => ?_, fun hz => ?_⟩
  · rw [if_pos hz] at h3; exact ⟨h3.1, h3.2, h5.1.2⟩
  · rw [if_neg (not_not.2 hz)] at h3; exact h3.1
  · rw [if_pos hz] at h4; exact ⟨h4, h5.2⟩

/-- A problem with one variable and one non-linear equality constraint whose function always reports failure. -/
def exFailing : UProblem Unit ℚ 1 0 0 0 1 0 0 where
  r := ResFn.default
  f := ⟨some fun t res _ _ _ _ => some (t, res)⟩
  he := ⟨some fun t res _ _ _ _ => some (t, { res with succeeded := false })⟩
  hg := ConFn.default
  v := ConFn.default
  Aex := fun i => i.elim0
  Aep := fun i => i.elim0
  Agx := fun i => i.elim0
  Agp := fun i => i.elim0
  be := fun i => i.elim0
  bg := fun i => i.elim0
  xlower := fun _ => none
  xupper := fun _ => none
  plower := fun i => i.elim0
  pupper := fun i => i.elim0
  c := fun i => i.elim0
  bec := fun i => i.elim0
  bgc := fun i => i.elim0

/-- **C39 is false**: a failure of the equality constraint is never reported (the call of the unset inequality constraint, which has no rows, resets the flag). -/
theorem he_failure_lost (ddx ddp ddc : Bool) (ib : List ℕ) (m : ResMem ℚ (1 + 0 + 0) 0 (1 + 0) 0) (hv : m.v.succeeded = true) (xbar : Fin (1 + 0 + 0) → ℚ) (p : Fin 0 → ℚ) :
    (∀ t res x p c o, ∃ q, exFailing.he.call t res x p c o = some (t, q) ∧ q.succeeded = false) ∧ ∃ m', functionEvals (masterFuns exFailing) exFailing.c ddx ddp ddc ib () m xbar p = some ((), m', true) := by
  refine ⟨fun t res x p c o => ⟨_, rfl, rfl⟩, ?_⟩
  unfold functionEvals
  refine ⟨_, Option.some_inj.2 (Prod.ext rfl (Prod.ext rfl ?_))⟩
  change (true && true && m.v.succeeded) = true
  rw [hv]
  rfl

/-- **False alarms**: without parameters the external constraint is not called, and the flag of its last call counts: if `v` failed last in a previous solve, every evaluation of a later problem without `p` is reported as failed, although every function succeeds. -/
theorem stale_flag_alarm {P : UProblem τ K nx 0 nbe nbg nhe nhg nc} {ff fe fg fv} (hf : P.f.fn = some ff) (he : P.he.fn = some fe) (hg : P.hg.fn = some fg) (hv : P.v.fn = some fv) (ddx ddp ddc : Bool) (ib : List ℕ)
    (t t' : τ) (m m' : ResMem K (nx + nbg + nhg) 0 (nhe + nhg) nc) (hm : m.v.succeeded = false) (xbar : Fin (nx + nbg + nhg) → K) (p : Fin 0 → K) (ok : Bool)
    (h : functionEvals (masterFuns P) P.c ddx ddp ddc ib t m xbar p = some (t', m', ok)) : ok = false := by
  obtain ⟨t1, t2, t3, t4, qf, qe, qg, qv, h1, h2, h3, h4, h5⟩ := success_flag hf he hg hv ddx ddp ddc ib t t' m m' xbar p ok h
  rw [if_neg (not_not.2 rfl)] at h4
  rw [h5, h4.2, hm]
  simp

end flags

/-! ## C53: success although the objective reports failure -/

/-- **C53 is false**: a solve reports success although the objective function reported failure at every evaluation (so at the returned point too). -/
theorem failure_ignored : (∀ t res x p c o, ∃ q, (exUser false).f.call t res x p c o = some (t, q) ∧ q.succeeded = false) ∧
    ∃ (env : Env ℚ) (inners : _) (S' : _) (result : _), Nonempty (SolverReturns env .nullspace inners Idx.stableImpl { maxiters := 200, tolerance := 1/1000000000, minmax := false, debug := false } (exUser false) 0 exUserStart S' result none) ∧
      result.succeeded = true := by
  refine ⟨fun t res x p c o => ⟨_, rfl, rfl⟩, ?_⟩
  obtain ⟨env, -, inners, h⟩ := exUser_solved false
  obtain ⟨S', result, h, -, h1, -⟩ := h Idx.stableImpl () ⟨cleanObj, cleanCon, cleanCon⟩ 0 ⟨0, 0, 0, 0, 0, 0, 0, 0⟩ 0 ⟨0, 0, 0⟩ []
  exact ⟨env, inners, S', result, ⟨h⟩, h1⟩

/-! ## C51: indices of basic variables given to the user functions -/

section basic

variable {K : Type*} [Field K] [LinearOrder K] [IsStrictOrderedRing K] {τ : Type*} {nx np nbe nbg nhe nhg nc : ℕ} {env : Env K} {P : UProblem τ K nx np nbe nbg nhe nhg nc} {mem : Matrix (Fin (nbe + nbg)) (Fin (nx + nbg + nhg)) K}

/-- With an inequality constraint on the parameters only (a zero row of `Agx`), its slack is a basic variable after every update: an index that is not one of the user's variables is given to the user functions at the
    next evaluation. -/
theorem slack_index_basic {ev u rf} (hs : RFSpec env (masterProblem P mem) ev u rf) (ho : ∀ M, (env.o M).lu.Z = 0) (i : Fin nbg) (hz : ∀ j, P.Agx i j = 0) (first : List ℕ) : nx + i.1 ∈ basicIndices first rf.ech.rwq := by
  rw [hs.rwq]
  simp only [basicIndices, List.mem_map, List.mem_ofFn]
  have hrow : ∀ j, j ≠ ixBg nx nhg i → (masterProblem P mem).Ax (Fin.natAdd nbe i) j = 0 := by
    refine forall_xbar.2 ⟨fun j _ => ?_, fun j hj => ?_, fun j _ => ?_⟩
    · simp [masterProblem, assembleAx, hz]
    · have : i ≠ j := fun e => hj (by rw [e])
      simp [masterProblem, assembleAx, this]
    · simp [masterProblem, assembleAx]
  have hone : (masterProblem P mem).Ax (Fin.natAdd nbe i) (ixBg nx nhg i) = 1 := by simp [masterProblem, assembleAx]
  obtain ⟨k, hk⟩ := hs.perm.2 (ixBg nx nhg i)
  rcases k with k | k
  · exact ⟨_, ⟨k, rfl⟩, by rw [show rf.M.RWQ.jb k = _ from hk]; rfl⟩
  · by_contra hno
    have hb : ∀ b, rf.M.RWQ.jb b ≠ ixBg nx nhg i := fun b e => hno ⟨_, ⟨b, rfl⟩, by rw [e]; rfl⟩
    have := hs.spans ho (Fin.castAdd (nhe + nhg) (Fin.natAdd nbe i)) k
    rw [show rf.M.RWQ.jn k = _ from hk, hs.Wx] at this
    simp only [stack, Fin.addCases_left] at this
    rw [hone, Finset.sum_eq_zero fun b _ => by rw [hrow _ (hb b), zero_mul]] at this
    exact one_ne_zero this

end basic

/-- One variable, and the inequality constraint `0·x ≥ -1`.  The objective `x²/2` keeps a record of the indices of basic variables it was given. -/
def exRecord : UProblem (List (List ℕ)) ℚ 1 0 0 1 0 0 0 where
  r := ResFn.default
  f := ⟨some fun t res x _ _ o => some (o.ibasicvars :: t, { res with f := x 0 ^ 2 / 2, fx := x, fxx := 1 })⟩
  he := ConFn.default
  hg := ConFn.default
  v := ConFn.default
  Aex := fun i => i.elim0
  Aep := fun i => i.elim0
  Agx := fun _ _ => 0
  Agp := fun _ i => i.elim0
  be := fun i => i.elim0
  bg := fun _ => -1
  xlower := fun _ => none
  xupper := fun _ => none
  plower := fun i => i.elim0
  pupper := fun i => i.elim0
  c := fun i => i.elim0
  bec := fun i => i.elim0
  bgc := fun _ i => i.elim0

/-- **C51 is false**: in every solve of this problem, from every initial state and for every history of the solver object, the objective is given the index `1` of a basic variable, although the only variable has index `0`. -/
theorem slack_index_given {env : Env ℚ} (hthr : 0 ≤ env.thr) (heps : 0 ≤ env.eps) (ho : ∀ M, (env.o M).lu.Z = 0) {method inners part o mem S S' result} (h : SolverReturns env method inners part o exRecord mem S S' result none) :
    ∃ l ∈ h.final.mach.user.1, 1 ∈ l := by
  set cfg := solverConfig env method inners exRecord mem with hcfg
  have heval : ∀ s u s', Reach cfg s → (cfg.machine none).eval s u = some s' → Reach cfg s' ∧ 1 ∈ basicIndices (firstBasics env.o (masterProblem exRecord mem).Ax) s'.ech.rwq ∧ s'.user.1 = basicIndices (firstBasics env.o (masterProblem exRecord mem).Ax) s.ech.rwq :: s.user.1 := by
    intro s u s' hq he
    obtain ⟨s1, h1, rfl⟩ := Option.map_eq_some_iff.1 he
    unfold Config.updateF at h1
    split at h1
    · cases h1
    · rename_i t ev hu
      rcases rfUpdate_spec (env := cfg.env) hthr heps cfg.pb hq (by decide) s.ax ev u with ⟨rf, hrf, hspec⟩ | ⟨hf, -⟩
      · rw [hrf] at h1
        cases h1
        refine ⟨hspec.reach, slack_index_basic hspec ho 0 (fun _ => rfl) _, ?_⟩
        cases hu
        rfl
      · rw [hf] at h1; cases h1
  have hinv : MachInv (cfg.machine none) (fun s => Reach cfg s ∧ 1 ∈ basicIndices (firstBasics env.o (masterProblem exRecord mem).Ax) s.ech.rwq) (fun s _ => ∃ l ∈ s.user.1, 1 ∈ l) :=
    { eval := by
        intro s u s' hq he
        obtain ⟨a, b, c⟩ := heval s u s' hq.1 he
        exact ⟨⟨a, b⟩, _, by rw [c]; exact List.mem_cons_self, hq.2⟩
      newton := by
        intro s uo s' u hq he
        change cfg.newton s uo = _ at he
        unfold Config.newton at he
        split at he
        · cases he
        · cases he; exact hq
      phi := by intro f hf; cases hf
      check := by intro f hf; cases hf }
  have hs := h.solved
  cases hs with
  | run s r e hl =>
    obtain ⟨e1, -, -, -, -, e6⟩ := evalAt_u e
    obtain ⟨a, b, -⟩ := heval _ _ _ (start_reach cfg _ _ _ _ _) e6
    exact (loop_inv hinv hl ⟨a, b⟩ _ rfl).2

/-- There are such solves, from every initial state. -/
theorem exRecord_returns (S : UState ℚ 1 0 0 1 0 0) : ∃ env : Env ℚ, (0 ≤ env.thr ∧ 0 ≤ env.eps ∧ ∀ M, (env.o M).lu.Z = 0) ∧ ∀ method inners part o mem, ∃ S' result, Nonempty (SolverReturns env method inners part o exRecord mem S S' result none) := by
  obtain ⟨oracle, ho⟩ := Ech.exists_exact_oracle (K := ℚ)
  refine ⟨{ o := oracle, sort := Ech.sortImpl, P := fun n => Idx.stableImpl, thr := 1/100000000, eps := 0, debug := false }, ⟨by norm_num, le_rfl, ho⟩, fun method inners part o mem => ?_⟩
  obtain ⟨S', result, h, -⟩ := solver_returns (P := exRecord) (mem := mem) (env := { o := oracle, sort := Ech.sortImpl, P := fun n => Idx.stableImpl, thr := 1/100000000, eps := 0, debug := false })
    ⟨fun _ _ _ _ _ => ⟨_, rfl⟩, fun _ _ _ _ _ => ⟨_, rfl⟩, fun _ _ _ _ _ => ⟨_, rfl⟩, fun _ _ _ _ _ => ⟨_, rfl⟩, fun _ _ _ _ _ => ⟨_, rfl⟩⟩ (by norm_num) le_rfl rfl (by norm_num)
    ⟨fun i l h e => (by cases e), fun i => i.elim0⟩ part o S method inners [] ⟨cleanObj, cleanCon, cleanCon⟩ 0 ⟨0, 0, 0, 0, 0, 0, 0, 0⟩ 0 ⟨0, 0, 0⟩ []
  exact ⟨S', result, ⟨h⟩⟩

/-! ## C52: the point given to the resources function -/

section resources

variable {K : Type*} [AddZeroClass K] [One K] {τ : Type*} {nx np nbe nbg nhe nhg nc : ℕ}

/-- **C52 is false**: the resources function is given the variables of the master problem, slacks included; the objective is given the user's variables. So the two see vectors of different sizes as soon as there is an inequality
    constraint. -/
theorem resources_sees_slacks {P : UProblem τ K nx np nbe nbg nhe nhg nc} {fr ff} (hr : P.r.fn = some fr) (hf : P.f.fn = some ff) (ddx ddp ddc : Bool) (ib : List ℕ)
    (t : τ) (m : ResMem K (nx + nbg + nhg) np (nhe + nhg) nc) (xbar : Fin (nx + nbg + nhg) → K) (p : Fin np → K) (r) (h : functionEvals (masterFuns P) P.c ddx ddp ddc ib t m xbar p = some r) :
    let o : EvalOpts := { ddx := ddx, ddp := ddp && decide (np ≠ 0), ddc := ddc && decide (nc ≠ 0), ibasicvars := ib }
    ∃ t1, fr t (nx + nbg + nhg) xbar np p nc P.c o = some t1 ∧ ∃ q, ff t1 cleanObj (fun i => xbar (ixX nbg nhg i)) p P.c o = some q := by
  intro o
  have ef : P.f = ⟨some ff⟩ := by rw [← hf]
  unfold functionEvals at h
  dsimp only at h
  split at h
  · cases h
  rename_i t1 h1
  split at h
  · cases h
  rename_i t2 fres h2
  rw [show (masterFuns P).f = ⟨some (masterF (nbg := nbg) (nhg := nhg) P.f)⟩ from rfl, objective_sees_clean, ef, masterF_spec] at h2
  obtain ⟨qf, h2, -⟩ := h2
  refine ⟨t1, ?_, _, h2⟩
  unfold ResFn.call at h1
  rw [show (masterFuns P).r = P.r from rfl, hr] at h1
  exact h1

end resources

/-! ## C37: a concrete problem, and what goes wrong with a stale matrix entry -/

/-- The mathematical functions of `exUser`. -/
def exUserVals : UserVals ℚ 2 0 0 0 where
  f := fun x _ => (x 0 ^ 2 + x 1 ^ 2) / 2
  fx := fun x _ => x
  he := fun _ _ i => i.elim0
  hex := fun _ _ i => i.elim0
  hg := fun _ _ i => i.elim0
  hgx := fun _ _ i => i.elim0
  v := fun _ _ i => i.elim0

theorem exUser_implements (ok : Bool) : Implements (exUser ok) exUserVals where
  f := by
    refine ⟨_, rfl, fun t x p o t' q _ h => ?_⟩
    simp only [Option.some.injEq, Prod.mk.injEq] at h
    obtain ⟨-, rfl⟩ := h
    exact ⟨rfl, fun i => rfl⟩
  he := ⟨_, rfl, fun t x p o t' q _ _ => ⟨fun i => i.elim0, fun i => i.elim0⟩⟩
  hg := ⟨_, rfl, fun t x p o t' q _ _ => ⟨fun i => i.elim0, fun i => i.elim0⟩⟩
  v := ⟨_, rfl, fun t x p o t' q _ _ i => i.elim0⟩

theorem exUser_feasible (ok : Bool) : UFeasible (exUser ok) exUserVals (fun _ => 1) (fun i => i.elim0) where
  be := by intro i; simp [exUser]
  bg := by intro i; simp [exUser]
  he := fun i => i.elim0
  hg := fun i => i.elim0
  v := fun i => i.elim0
  x := fun i => ⟨fun l e => (by cases e; exact zero_le_one), fun l e => (by cases e)⟩
  p := fun i => i.elim0

/-- **C37 is false with a stale matrix entry** (see `assembleAx_stale` for how one is left): a non-zero entry in the unwritten block cuts off every feasible point whose slack is not zero; here the solution `(1, 1)` cannot be completed
    to a feasible point of the master problem. -/
theorem slack_feasible_stale (ok : Bool) (mem : Matrix (Fin (1 + 1)) (Fin (2 + 1 + 0)) ℚ) (hm : mem (Fin.castAdd 1 0) (ixBg 2 0 0) ≠ 0) : UFeasible (exUser ok) exUserVals (fun _ => 1) (fun i => i.elim0) ∧
    ∀ xbg xhg ev, ¬ MFeasible (masterProblem (exUser ok) mem) ev (cat3 (fun _ => 1) xbg xhg) (fun i => i.elim0) := by
  refine ⟨exUser_feasible ok, fun xbg xhg ev h => ?_⟩
  have h1 := h.lin (Fin.castAdd 1 0)
  have h2 := h.lin (Fin.natAdd 1 0)
  rw [sum_xbar] at h1 h2
  simp [masterProblem, assembleAx, exUser] at h1 h2
  change (1 : ℚ) + 1 + mem (Fin.castAdd 1 0) (ixBg 2 0 0) * xbg 0 = 2 at h1
  change (1 : ℚ) + -1 + 1 * xbg 0 = -1 at h2
  have : xbg 0 = -1 := by linarith
  rw [this] at h1
  exact hm (by linarith)

end Optima
