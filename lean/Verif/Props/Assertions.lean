import Verif.Props.NewtonStep
import Verif.Props.IndexUtils
import Verif.Props.SolverState

/-!
# C73: assertions in debug builds

`env.debug` tells whether `assert` is active.  The library is built in release mode unless asked otherwise (CMakeLists.txt:48-50), where a failed assertion is not noticed.
-/

set_option linter.unusedSectionVars false

namespace Optima

open Matrix

variable {K : Type*} [Field K] [LinearOrder K] [IsStrictOrderedRing K] {nx np ny nz : ℕ} {τ : Type*}

namespace Ech

variable {m n nb nn nl : ℕ}

/-- A swap done by `updateWithPriorityWeights` never fails the assertion on its pivot (Echelonizer.cpp:193). -/
theorem priority_swap_allowed (thr : K) (w : Fin n → K) (e : State K m n nb nn nl) (i : Fin nb) : priorityStep thr w e i = e ∨ ∃ j, swapAllowed thr e i j = true ∧ priorityStep thr w e i = swap e i j := by
  have h := findCandidate_spec thr e w i
  unfold priorityStep
  cases hc : findCandidate thr e w i with
  | none => exact Or.inl rfl
  | some c =>
    rw [hc] at h
    dsimp only
    split_ifs
    · exact Or.inr ⟨c.2, by simpa [swapAllowed] using h.1, rfl⟩
    · exact Or.inl rfl

/-- Without linear constraints the first update of the echelon form fails the assertion of EchelonizerW.cpp:73. -/
theorem wUpdate_assert_no_rows {o : LUOracle K} {sort : SortImpl K} {thr eps : K} {Ax : Matrix (Fin ny) (Fin nx) K} {Ap : Matrix (Fin ny) (Fin np) K} {s : WState K nx np ny nz Ax}
    (h : WReach true o sort thr eps Ax Ap s) (hy : ny = 0) (Jx : Matrix (Fin nz) (Fin nx) K) (Jp : Matrix (Fin nz) (Fin np) K) (w : Fin nx → K) : wUpdate true o sort thr eps s Jx Jp w = .assertFail := by
  have h0 : s.ext.W.1 = 0 := by
    induction h with
    | init => exact hy
    | update a b _ _ _ _ hu ih =>
      unfold wUpdate at hu
      rw [if_pos (by simp [ih])] at hu
      cases hu
  unfold wUpdate
  rw [if_pos (by simp [h0])]

end Ech

/-- The rank decided for the matrix is zero exactly if the matrix is (with an exact rank decision). -/
theorem basics_pos_iff {debug : Bool} {o : Ech.LUOracle K} (ho : ∀ M, (o M).lu.Z = 0) {sort : Ech.SortImpl K} {thr eps : K} (hthr : 0 ≤ thr) (heps : 0 ≤ eps) {Ax : Matrix (Fin ny) (Fin nx) K}
    {Ap : Matrix (Fin ny) (Fin np) K} {s s' : Ech.WState K nx np ny nz Ax} (h : Ech.WReach debug o sort thr eps Ax Ap s) (Jx : Matrix (Fin nz) (Fin nx) K) (Jp : Matrix (Fin nz) (Fin np) K) (w : Fin nx → K)
    (hu : Ech.wUpdate debug o sort thr eps s Jx Jp w = .ok s') {q} (hq : s'.rwq = some q) : 0 < q.nb ↔ stack Ax Jx ≠ 0 := by
  obtain ⟨⟨w1, -, w3, -⟩, q', hq', hbij, hb, -, -⟩ := Ech.echelonW_spec hthr heps h Jx Jp w hu
  obtain rfl : q = q' := Option.some.inj (hq.symm.trans hq')
  have hW : s'.W.submatrix id Sum.inl = stack Ax Jx := by
    funext l i
    refine Fin.addCases (fun l => ?_) (fun l => ?_) l
    · simp only [stack, Fin.addCases_left]; exact w1 l i
    · simp only [stack, Fin.addCases_right]; exact w3 l i
  have hsp := Ech.echelonW_spans ho hthr h Jx Jp w hu q hq
  rw [hW] at hb
  constructor
  · intro h0 hz
    have := congrFun (congrFun hb ⟨0, h0⟩) ⟨0, h0⟩
    rw [hz, Matrix.one_apply_eq] at this
    simp [mul_apply] at this
  · intro hz
    by_contra h0
    have h0 : q.nb = 0 := by omega
    refine hz (hW ▸ ?_)
    funext l i
    obtain ⟨v, rfl⟩ := hbij.2 i
    rcases v with b | k
    · exact absurd b.2 (by omega)
    · have := hsp l k
      refine this.trans (Finset.sum_eq_zero fun b _ => absurd b.2 (by omega))

/-- **C73, one update**: in a debug build, with an exact rank decision, an update of the residual function from a reachable state fails an assertion exactly if the problem has no linear constraint or the matrix
    `[Ax; hx]` is zero; otherwise it returns normally. -/
theorem rfUpdate_assert_iff {env : Env K} (hthr : 0 ≤ env.thr) (heps : 0 ≤ env.eps) (hd : env.debug = true) (ho : ∀ M, (env.o M).lu.Z = 0) (pb : MProblem K nx np ny nz) {e : Ech.WState K nx np ny nz pb.Ax}
    (hr : Ech.WReach env.debug env.o env.sort env.thr env.eps pb.Ax pb.Ap e) (hnx : 0 < nx) (ax0 : Fin nx → K) (ev : Evals K nx np nz) (u : MVec K nx np (ny + nz)) :
    (rfUpdate env pb e ax0 ev u = .assertFail ↔ ny = 0 ∨ stack pb.Ax ev.hx = 0) ∧ (0 < ny → stack pb.Ax ev.hx ≠ 0 → ∃ s, rfUpdate env pb e ax0 ev u = .ok s ∧ RFSpec env pb ev u s) := by
  have hfail : ny = 0 ∨ stack pb.Ax ev.hx = 0 → rfUpdate env pb e ax0 ev u = .assertFail := by
    intro h
    by_cases hy : ny = 0
    · rw [hd] at hr
      unfold rfUpdate
      rw [hd, Ech.wUpdate_assert_no_rows hr hy]
    · obtain ⟨e', hw⟩ := Ech.echelonW_ok hr ev.hx ev.hp (weights pb u.x) (Or.inl hnx) (Or.inr (Nat.pos_of_ne_zero hy))
      obtain ⟨-, q, hq, -⟩ := Ech.echelonW_spec hthr heps hr ev.hx ev.hp _ hw
      refine rfUpdate_assert_no_basics hd pb hnx ax0 ev u hw hq ?_
      by_contra h0
      exact (basics_pos_iff ho hthr heps hr ev.hx ev.hp _ hw hq).1 (Nat.pos_of_ne_zero h0) (h.resolve_left hy)
  have hok : 0 < ny → stack pb.Ax ev.hx ≠ 0 → rfUpdate env pb e ax0 ev u ≠ .assertFail := by
    intro hy hz
    obtain ⟨e', hw⟩ := Ech.echelonW_ok hr ev.hx ev.hp (weights pb u.x) (Or.inl hnx) (Or.inr hy)
    obtain ⟨-, q, hq, hbij, -⟩ := Ech.echelonW_spec hthr heps hr ev.hx ev.hp _ hw
    have hnb := (basics_pos_iff ho hthr heps hr ev.hx ev.hp _ hw hq).2 hz
    have hne : List.ofFn q.jb ≠ [] := by rw [Ne, ← List.length_eq_zero_iff, List.length_ofFn]; omega
    have hnd : (List.ofFn q.jb).Nodup := List.nodup_ofFn.2 fun i j hij => Sum.inl_injective (hbij.1 (by simpa using hij))
    have hflag := (Stab.update_assert (env.P nx) { Wx := e'.W.submatrix id Sum.inl, g := ev.fx, x := u.x, w := u.w, xlower := pb.xlower, xupper := pb.xupper, jb := List.ofFn q.jb } hne).2 hnd
    unfold rfUpdate
    rw [hw]
    dsimp only
    rw [hq]
    dsimp only
    rw [hflag, if_neg (by simp)]
    split <;> simp
  refine ⟨⟨fun h => ?_, hfail⟩, fun hy hz => ?_⟩
  · by_contra hc
    push Not at hc
    exact hok (Nat.pos_of_ne_zero hc.1) hc.2 h
  · rcases rfUpdate_spec hthr heps pb hr hnx ax0 ev u with h | ⟨h, -⟩
    · exact h
    · exact absurd h (hok hy hz)

/-- **C73, solves**: in a debug build, with an exact rank decision, at least one linear constraint and `[Ax; hx]` non-zero wherever the user functions are evaluated (for example `Ax ≠ 0`), every solve returns: no
    assertion fails. -/
theorem solve_returns_debug {cfg : Config K nx np ny nz τ} (hthr : 0 ≤ cfg.env.thr) (heps : 0 ≤ cfg.env.eps) (hd : cfg.env.debug = true) (ho : ∀ M, (cfg.env.o M).lu.Z = 0) (hnx : 0 < nx) (hny : 0 < ny) (check)
    (hphi : ∀ f, cfg.phi = some f → ∀ t xo x, ∃ r, f t xo x = some r) (huser : ∀ t x p q, ∃ t' ev, cfg.user t x p q = some (t', ev) ∧ stack cfg.pb.Ax ev.hx ≠ 0) (hcheck : ∀ f, check = some f → ∀ s uo u r, ∃ q, f s uo u r = some q) (o : SolveOptions K)
    (hB : ConsistentBounds cfg.pb.bounds) (user : τ) (mem errors ax du) (history : History K) (u : MVec K nx np (ny + nz)) :
    ∃ t, Solve (cfg.machine check) o cfg.pb.bounds (cfg.start user mem errors ax du) history u (some t) := by
  refine solve_some (machine_inv hthr heps hnx check) ?_ ?_ ?_ ?_ o hB (start_reach cfg user mem errors ax du) history u
  · intro s u hq
    obtain ⟨t, ev, e, hz⟩ := huser s.user u.x u.p s.ech.rwq
    obtain ⟨rf, hrf, -⟩ := (rfUpdate_assert_iff hthr heps hd ho cfg.pb hq hnx s.ax ev u).2 hny hz
    obtain ⟨s', h⟩ : ∃ s', cfg.updateF cfg.user s u = some s' := by
      unfold Config.updateF
      rw [e]
      dsimp only
      rw [hrf]
      exact ⟨_, rfl⟩
    exact ⟨cfg.updateE s' u, by change Option.map _ (cfg.updateF cfg.user s u) = _; rw [h]; rfl⟩
  · rintro s uo - ⟨v, ev, rf, ew0, e, -⟩
    change ∃ r, cfg.newton s uo = some r
    unfold Config.newton
    rw [e]
    exact ⟨_, rfl⟩
  · intro f hf s xo x
    obtain ⟨g, hg, rfl⟩ := Option.map_eq_some_iff.1 hf
    obtain ⟨q, e⟩ := hphi g hg s.user xo x
    exact ⟨_, by dsimp only; rw [e]; rfl⟩
  · intro f hf s uo u r
    obtain ⟨g, hg, rfl⟩ := Option.map_eq_some_iff.1 hf
    obtain ⟨q, e⟩ := hcheck g hg s uo u r
    exact ⟨_, by dsimp only; rw [e]; rfl⟩

/-- **C73, solves that cannot return**: in a debug build no solve of a problem without linear constraints returns, nor of one whose matrix `[Ax; hx]` is zero at the first evaluation (the point given, moved into the
    bounds), whatever the objective function and the bounds. -/
theorem solve_asserts {cfg : Config K nx np ny nz τ} (hthr : 0 ≤ cfg.env.thr) (heps : 0 ≤ cfg.env.eps) (hd : cfg.env.debug = true) (ho : ∀ M, (cfg.env.o M).lu.Z = 0) (hnx : 0 < nx) (check) (o : SolveOptions K)
    (user : τ) (mem errors ax du) (history : History K) (u : MVec K nx np (ny + nz))
    (hz : ny = 0 ∨ ∀ t' ev, cfg.user user (clampVec cfg.pb.bounds u).x (clampVec cfg.pb.bounds u).p none = some (t', ev) → stack cfg.pb.Ax ev.hx = 0)
    (r) (hs : Solve (cfg.machine check) o cfg.pb.bounds (cfg.start user mem errors ax du) history u r) : r = none := by
  have hev : (cfg.machine check).eval (cfg.start user mem errors ax du) (clampVec cfg.pb.bounds u) = none := by
    change Option.map _ (cfg.updateF cfg.user _ _) = none
    rw [Option.map_eq_none_iff]
    unfold Config.updateF
    split
    · rfl
    · rename_i t ev e
      rw [(rfUpdate_assert_iff hthr heps hd ho cfg.pb (start_reach cfg user mem errors ax du) hnx _ ev _).1.2 (hz.imp_right fun h => h t ev e)]
  cases hs with
  | initFails e => rfl
  | run s r e hl =>
    have e6 := (evalAt_u e).2.2.2.2.2
    change (cfg.machine check).eval (cfg.start user mem errors ax du) (clampVec cfg.pb.bounds u) = some _ at e6
    rw [hev] at e6
    cases e6

/-! ## Problems given to `Solver` -/

section solver

variable {nbe nbg nhe nhg nc : ℕ} {env : Env K} {P : UProblem τ K nx np nbe nbg nhe nhg nc} {mem : Matrix (Fin (nbe + nbg)) (Fin (nx + nbg + nhg)) K}

/-- **C73 for `Solver`**: in a debug build, with an exact rank decision, every solve of a problem with a linear inequality constraint or a non-zero coefficient of `x` in a linear equality constraint returns (user functions that do
    not throw, consistent bounds). -/
theorem solver_returns_debug (hP : NeverThrows P) (hthr : 0 ≤ env.thr) (heps : 0 ≤ env.eps) (hd : env.debug = true) (hor : ∀ M, (env.o M).lu.Z = 0) (hnx : 0 < nx) (hB : UConsistent P) (hA : 0 < nbg ∨ P.Aex ≠ 0)
    (part : Idx.PartitionImpl ℕ) (o : SolveOptions K) (S : UState K nx np nbe nbg nhe nhg) (method inners) (t0 : τ) (res memW errors ax du history) :
    ∃ S' result, ∃ h : SolverReturns env method inners part o P mem S S' result none, h.t0 = t0 ∧ h.res = res ∧ h.memW = memW ∧ h.errors = errors ∧ h.ax = ax ∧ h.du = du ∧ h.history = history := by
  obtain ⟨l, i, hl⟩ : ∃ l i, (masterProblem P mem).Ax l i ≠ 0 := by
    rcases hA with h | h
    · obtain ⟨k⟩ : Nonempty (Fin nbg) := ⟨⟨0, h⟩⟩
      exact ⟨Fin.natAdd nbe k, ixBg nx nhg k, by simp [masterProblem, assembleAx]⟩
    · by_contra hc
      push Not at hc
      refine h (funext fun l => funext fun i => ?_)
      have := hc (Fin.castAdd nbg l) (ixX nbg nhg i)
      simpa [masterProblem, assembleAx] using this
  have hny : 0 < nbe + nbg := l.pos
  have hst : ∀ J : Matrix (Fin (nhe + nhg)) (Fin (nx + nbg + nhg)) K, stack (masterProblem P mem).Ax J ≠ 0 := by
    intro J e
    have := congrFun (congrFun e (Fin.castAdd _ l)) i
    simp only [stack, Fin.addCases_left] at this
    exact hl this
  obtain ⟨t, ht⟩ := solve_returns_debug (cfg := solverConfig env method inners P mem) hthr heps hd hor (by omega) hny none (noPhi rfl)
    (fun s x p q => (userCode_returns hP _ true true false s x p q).elim fun r hr => ⟨r.1, r.2, hr, hst _⟩) (fun f hf => by cases hf) o (masterBounds hB) (t0, res) memW errors ax du history (packState S)
  obtain ⟨-, ev, rf, ew0, h1, -⟩ := solve_inv (machine_inv (cfg := solverConfig env method inners P mem) hthr heps (by omega) none) o _ (start_reach _ (t0, res) memW errors ax du) history _ _ ht
  exact ⟨_, _, { t0 := t0, res := res, memW := memW, errors := errors, ax := ax, du := du, history := history, final := t, rf := rf, solved := ht, evaluated := h1, state := rfl, result_eq := rfl },
    rfl, rfl, rfl, rfl, rfl, rfl, rfl⟩

/-- **C73 is false for problems without linear constraints**: in a debug build no solve of such a problem returns, for any objective, bounds, non-linear constraints, options and history. -/
theorem solver_asserts {P : UProblem τ K nx np 0 0 nhe nhg nc} {mem} (hthr : 0 ≤ env.thr) (heps : 0 ≤ env.eps) (hd : env.debug = true) (hor : ∀ M, (env.o M).lu.Z = 0) (hnx : 0 < nx) {method inners part} {o : SolveOptions K} {S S' result check}
    (h : SolverReturns env method inners part o P mem S S' result check) : False := by
  have := solve_asserts (cfg := solverConfig env method inners P mem) hthr heps hd hor (by omega) check o (h.t0, h.res) h.memW h.errors h.ax h.du h.history (packState S) (Or.inl rfl) _ h.solved
  cases this

end solver

/-- `min (x + 1)²/2` subject to `x + y = 1`, `x, y ≥ 0`, or without the linear constraint. -/
def exDebug (nbe : ℕ) : UProblem Unit ℚ 2 0 nbe 0 0 0 0 where
  r := ResFn.default
  f := ⟨some fun t res x _ _ _ => some (t, { res with f := (x 0 + 1) ^ 2 / 2, fx := fun i => if i = 0 then x 0 + 1 else 0, fxx := fun i j => if i = 0 ∧ j = 0 then 1 else 0, succeeded := true })⟩
  he := ConFn.default
  hg := ConFn.default
  v := ConFn.default
  Aex := fun _ _ => 1
  Aep := fun _ i => i.elim0
  Agx := fun i => i.elim0
  Agp := fun i => i.elim0
  be := fun _ => 1
  bg := fun i => i.elim0
  xlower := fun _ => some 0
  xupper := fun _ => none
  plower := fun i => i.elim0
  pupper := fun i => i.elim0
  c := fun i => i.elim0
  bec := fun _ i => i.elim0
  bgc := fun i => i.elim0

/-- The hypotheses of both theorems are met: in the same debug build every solve of the problem with its linear constraint returns, and none without it. -/
example : ∃ env : Env ℚ, env.debug = true ∧
    (∀ method inners part o mem S t0 res memW errors ax du history, ∃ S' result, ∃ h : SolverReturns env method inners part o (exDebug 1) mem S S' result none, h.t0 = t0 ∧ h.res = res ∧ h.memW = memW ∧ h.errors = errors ∧ h.ax = ax ∧
      h.du = du ∧ h.history = history) ∧
    ∀ method inners part o mem S S' result, SolverReturns env method inners part o (exDebug 0) mem S S' result none → False := by
  obtain ⟨oracle, ho⟩ := Ech.exists_exact_oracle (K := ℚ)
  refine ⟨{ o := oracle, sort := Ech.sortImpl, P := fun n => Idx.stableImpl, thr := 1/100000000, eps := 1/1000, debug := true }, rfl, ?_, ?_⟩
  · intro method inners part o mem S t0 res memW errors ax du history
    refine solver_returns_debug ⟨fun _ _ _ _ _ => ⟨_, rfl⟩, fun _ _ _ _ _ => ⟨_, rfl⟩, fun _ _ _ _ _ => ⟨_, rfl⟩, fun _ _ _ _ _ => ⟨_, rfl⟩, fun _ _ _ _ _ => ⟨_, rfl⟩⟩ (by norm_num) (by norm_num) rfl ho (by norm_num)
      ⟨fun i l r _ e => (by cases e), fun i => i.elim0⟩ (Or.inr ?_) part o S method inners t0 res memW errors ax du history
    intro h
    have := congrFun (congrFun h 0) 0
    norm_num [exDebug] at this
  · intro method inners part o mem S S' result h
    exact solver_asserts (by norm_num) (by norm_num) rfl ho (by norm_num) h

end Optima
