import Verif.Props.Infeasible
import Verif.Props.SolverFixed
import Verif.Props.SolverWitness

/-!
# C59: convex problems: what a reported success says about optimality
-/

set_option linter.unusedSectionVars false

namespace Optima

open Matrix

variable {K : Type*} [Field K] [LinearOrder K] [IsStrictOrderedRing K] {τ : Type*}

/-! ## When the basic variables change -/

namespace Ech

variable {m n nb nn nl nx np ny nz : ℕ}

/-- A pass over the basic variables changes nothing if no non-basic variable outweighs a basic one. -/
theorem loop_kept {thr : K} (w : Fin n → K) (e : State K m n nb nn nl) (h : ∀ i k, w (e.Q (Sum.inr k)) ≤ w (e.Q (Sum.inl i))) : (List.finRange nb).foldl (priorityStep thr w) e = e := by
  refine foldl_finRange_inv (fun _ (e' : State K m n nb nn nl) => e' = e) rfl fun _ e' i he => ?_
  rw [he]
  rcases priorityStep_cases thr w e i with ⟨h1, _⟩ | ⟨j, -, -, h3, -⟩
  · exact h1
  · exact absurd h3 (not_lt.2 (h i j))

/-- All states met during a pass have clean `S` if all canonical forms of the matrix have. -/
theorem cleanTrace_of {A : Matrix (Fin m) (Fin n) K} {thr : K} (hthr : 0 ≤ thr) (w : Fin n → K) {e : State K m n nb nn nl} (h : Inv A e)
    (hc : ∀ (R : Matrix (Fin nb ⊕ Fin nl) (Fin m) K) (S : Matrix (Fin nb) (Fin nn) K) Q, Core A R S Q → CleanS thr S) : CleanTrace thr w e := by
  intro l r hl
  suffices Inv A (l.foldl (priorityStep thr w) e) from hc _ _ _ this.cur
  clear hl r
  induction l using List.reverseRecOn with
  | nil => exact h
  | append_singleton l a ih =>
    rw [List.foldl_append]
    exact priorityStep_inv hthr w ih a

/-- The echelon form after an update without non-linear constraints. -/
theorem wUpdate_form {debug : Bool} {o : LUOracle K} {sort : SortImpl K} {thr eps : K} (hz : nz = 0) {Ax : Matrix (Fin ny) (Fin nx) K} {s s' : WState K nx np ny nz Ax} {Jx : Matrix (Fin nz) (Fin nx) K}
    {Jp : Matrix (Fin nz) (Fin np) K} {w : Fin nx → K} (hu : wUpdate debug o sort thr eps s Jx Jp w = .ok s') :
    s'.ext.eA = s.ext.eA.priority sort thr w ∧ ∃ Rb Sbp, s'.rwq = some ⟨s'.ext.eA.nb, s'.ext.eA.nn, Rb, s'.ext.eA.e.S, Sbp, fun b => s'.ext.eA.e.Q (Sum.inl b), fun k => s'.ext.eA.e.Q (Sum.inr k)⟩ := by
  subst hz
  unfold wUpdate at hu
  split_ifs at hu
  dsimp only at hu
  split at hu
  · rename_i q hq
    cases hu
    have hx : extUpdate o sort thr s.ext Jx w = ⟨s.ext.eA.priority sort thr w, s.ext.eJ, ⟨ny, nx, Ax⟩, (s.ext.eA.priority sort thr w).form⟩ := by
      unfold extUpdate; dsimp only; rw [if_pos (Or.inl rfl)]
    have : ∀ (E : ExtState Ax) (hn : E.W.2.1 = nx), E = ⟨s.ext.eA.priority sort thr w, s.ext.eJ, ⟨ny, nx, Ax⟩, (s.ext.eA.priority sort thr w).form⟩ →
        assembleRWQ (ny := ny) (nz := 0) eps E.form hn ((setJ s.W Jx Jp).submatrix id Sum.inr) = some q →
        E.eA = s.ext.eA.priority sort thr w ∧ ∃ Rb Sbp, q = ⟨E.eA.nb, E.eA.nn, Rb, E.eA.e.S, Sbp, fun b => E.eA.e.Q (Sum.inl b), fun k => E.eA.e.Q (Sum.inr k)⟩ := by
      intro E hn hE hq
      subst hE
      unfold assembleRWQ at hq
      rw [dif_pos (show ny = ny + 0 from rfl)] at hq
      cases hq
      exact ⟨rfl, _, _, rfl⟩
    obtain ⟨h1, Rb, Sbp, h2⟩ := this _ _ hx hq
    exact ⟨h1, Rb, Sbp, congrArg some h2⟩
  · cases hu

/-- Without non-linear constraints, an update keeps the set of basic variables if no non-basic variable outweighs a basic one. -/
theorem wUpdate_basics_kept {debug : Bool} {o : LUOracle K} {sort : SortImpl K} {thr eps : K} (hthr : 0 ≤ thr) (hz : nz = 0) {Ax : Matrix (Fin ny) (Fin nx) K} {Ap : Matrix (Fin ny) (Fin np) K} {s0 s s' : WState K nx np ny nz Ax}
    {Jx0 Jx : Matrix (Fin nz) (Fin nx) K} {Jp0 Jp : Matrix (Fin nz) (Fin np) K} {w0 w : Fin nx → K} (hr : WReach debug o sort thr eps Ax Ap s0) (h0 : wUpdate debug o sort thr eps s0 Jx0 Jp0 w0 = .ok s)
    (hu : wUpdate debug o sort thr eps s Jx Jp w = .ok s') {q q'} (hq : s.rwq = some q) (hq' : s'.rwq = some q') (hw : ∀ b k, w (q.jn k) ≤ w (q.jb b)) (i : Fin nx) :
    (∃ b, q'.jb b = i) ↔ ∃ b, q.jb b = i := by
  obtain ⟨-, Rb0, Sbp0, f0⟩ := wUpdate_form hz h0
  obtain ⟨e1, Rb1, Sbp1, f1⟩ := wUpdate_form hz hu
  have hi := (extReach_inv hthr (wReach_ext (WReach.update _ _ _ _ _ hr h0)).1).a
  rw [f0] at hq
  rw [f1] at hq'
  cases hq
  cases hq'
  dsimp only at hw ⊢
  rw [e1]
  have hl := loop_kept (thr := thr) w s.ext.eA.e (fun i k => hw i k)
  have key : ∀ b, (s.ext.eA.priority sort thr w).e.Q (Sum.inl b) = s.ext.eA.e.Q (Sum.inl (sort.run (fun l => w (s.ext.eA.e.Q (Sum.inl l))) s.ext.eA.e.Kb b)) := by
    intro b
    simp only [EchFor.priority, updateWithPriorityWeights, hl, reorder]
  constructor
  · rintro ⟨b, rfl⟩
    exact ⟨_, (key b).symm⟩
  · rintro ⟨b, rfl⟩
    obtain ⟨c, rfl⟩ := (sort_bij sort (fun l => w (s.ext.eA.e.Q (Sum.inl l))) hi.kb).2 b
    exact ⟨c, key c⟩

/-- Without non-linear constraints, if no canonical form of `Ax` has an entry strictly between zero and the threshold: after an update no non-basic variable with a non-zero entry outweighs the basic variable of its row. -/
theorem wUpdate_opt_clean {debug : Bool} {o : LUOracle K} {sort : SortImpl K} {thr eps : K} (hthr : 0 ≤ thr) (hz : nz = 0) {Ax : Matrix (Fin ny) (Fin nx) K} {Ap : Matrix (Fin ny) (Fin np) K} {s s' : WState K nx np ny nz Ax}
    {Jx : Matrix (Fin nz) (Fin nx) K} {Jp : Matrix (Fin nz) (Fin np) K} {w : Fin nx → K} (hr : WReach debug o sort thr eps Ax Ap s) (hu : wUpdate debug o sort thr eps s Jx Jp w = .ok s')
    (hc : ∀ (nb nn nl : ℕ) (R : Matrix (Fin nb ⊕ Fin nl) (Fin ny) K) (S : Matrix (Fin nb) (Fin nn) K) Q, Core Ax R S Q → CleanS thr S) {q} (hq : s'.rwq = some q) (b k) (h : q.Sbn b k ≠ 0) : w (q.jn k) ≤ w (q.jb b) := by
  obtain ⟨e1, Rb1, Sbp1, f1⟩ := wUpdate_form hz hu
  have hi := (extReach_inv hthr (wReach_ext hr).1).a
  rw [f1] at hq
  cases hq
  revert b k h
  dsimp only
  rw [e1]
  intro b k h
  exact priority_localOpt sort s.ext.eA.e w (cleanTrace_of hthr w hi fun R S Q => hc _ _ _ R S Q) b k h

/-- A single row whose entries have ratios above the threshold. -/
theorem clean_row {A : Matrix (Fin 1) (Fin n) K} {thr : K} (hA : ∀ i j, |A 0 i| ≤ thr * |A 0 j| → A 0 i = 0) (nb nn nl : ℕ) (R : Matrix (Fin nb ⊕ Fin nl) (Fin 1) K) (S : Matrix (Fin nb) (Fin nn) K) (Q) (h : Core A R S Q) : CleanS thr S := by
  intro i k hik
  have h1 := h.topB i i
  have h2 := h.topN i k
  simp only [Finset.univ_unique, Fin.default_eq_zero, Finset.sum_singleton, if_true] at h1 h2
  have h3 : S i k * A 0 (Q (Sum.inl i)) = A 0 (Q (Sum.inr k)) := by rw [← h2]; linear_combination (A 0 (Q (Sum.inr k))) * h1
  have h4 := hA (Q (Sum.inr k)) (Q (Sum.inl i)) (by rw [← h3, abs_mul]; exact mul_le_mul_of_nonneg_right hik (abs_nonneg _))
  rw [← h2, h4, mul_zero]

end Ech

/-- The echelonizer update within an update of the residual function. -/
theorem rfUpdate_wUpdate {nx np ny nz : ℕ} {env : Env K} {pb : MProblem K nx np ny nz} {e : Ech.WState K nx np ny nz pb.Ax} {ax0 ev u rf} (h : rfUpdate env pb e ax0 ev u = .ok rf) :
    Ech.wUpdate env.debug env.o env.sort env.thr env.eps e ev.hx ev.hp (weights pb u.x) = .ok rf.ech ∧ rf.ech.rwq = some rf.M.RWQ := by
  unfold rfUpdate at h
  split at h
  · cases h
  · cases h
  · rename_i e' he
    split at h
    · cases h
    · rename_i q hq
      dsimp only at h
      split_ifs at h
      split at h
      · cases h
      · cases h
      · cases h
        exact ⟨he, hq⟩

section
variable {nx np nbe nbg nhe nhg nc : ℕ} {env : Env K} {method : Method} {inners : ∀ c : CanonPack K (nx + nbg + nhg) np (nbe + nbg + (nhe + nhg)), Inners K np c.nbe c.nbi c.nne c.nni} {part : Idx.PartitionImpl ℕ}
  {o : SolveOptions K} {P : UProblem τ K nx np nbe nbg nhe nhg nc} {mem : Matrix (Fin (nbe + nbg)) (Fin (nx + nbg + nhg)) K} {S S' : UState K nx np nbe nbg nhe nhg} {result : Result K}

/-- The problem is convex in `x` for the parameters `p`: within the bounds, the objective lies above its tangents, `he` is affine and `hg` (feasible where `hg ≥ 0`) lies below its tangents. -/
structure UConvex (P : UProblem τ K nx np nbe nbg nhe nhg nc) (U : UserVals K nx np nhe nhg) (p : Fin np → K) : Prop where
  f : ∀ x x', (∀ i, Between (P.xlower i) (P.xupper i) (x i)) → (∀ i, Between (P.xlower i) (P.xupper i) (x' i)) → U.f x p + ∑ i, U.fx x p i * (x' i - x i) ≤ U.f x' p
  he : ∀ x x', (∀ i, Between (P.xlower i) (P.xupper i) (x i)) → (∀ i, Between (P.xlower i) (P.xupper i) (x' i)) → ∀ l, U.he x' p l = U.he x p l + ∑ i, U.hex x p l i * (x' i - x i)
  hg : ∀ x x', (∀ i, Between (P.xlower i) (P.xupper i) (x i)) → (∀ i, Between (P.xlower i) (P.xupper i) (x' i)) → ∀ l, U.hg x' p l ≤ U.hg x p l + ∑ i, U.hgx x p l i * (x' i - x i)

/-- How far from optimal a state can be per unit of tolerance: distances to the other point and multipliers times the coefficients of the constraints. -/
def gapFactor (P : UProblem τ K nx np nbe nbg nhe nhg nc) (U : UserVals K nx np nhe nhg) (S : UState K nx np nbe nbg nhe nhg) (x' : Fin nx → K) : K :=
  ∑ i, |x' i - S.x i| + ∑ l, |∑ j, P.Agx l j * (x' j - S.x j)| + ∑ l, |∑ j, U.hgx S.x S.p l j * (x' j - S.x j)| +
  ∑ l, |S.ye l| * (∑ j, |P.Aex l j|) + ∑ l, |S.yg l| * (∑ j, |P.Agx l j| + 1) + ∑ l, |S.ze l| * (∑ j, |U.hex S.x S.p l j|) + ∑ l, |S.zg l| * (∑ j, |U.hgx S.x S.p l j| + 1)

/-- **C59, part** (exact arithmetic, as many basic variables as constraints, correctly assembled matrix): if a solve of a convex problem without user check reports success, and no basic variable sits on a bound with a multiplier of the wrong
    sign, then the objective at the returned point is at most that at any point feasible for the same parameters, plus the tolerance times `gapFactor`.  Missing: basic variables on bounds, for which the claim is false (`convex_wrong_success`). -/
theorem convex_success_partial {U : UserVals K nx np nhe nhg} (hU : Implements P U) (hA : IsMasterAx P.Aex P.Agx (masterProblem P mem).Ax) (hthr : 0 ≤ env.thr) (heps : env.eps = 0) (hnx : 0 < nx) (hB : UConsistent P)
    (htol : 0 ≤ o.tolerance) (h : SolverReturns env method inners part o P mem S S' result none) (hsucc : result.succeeded = true) (hfull : h.rf.M.RWQ.nb = nbe + nbg + (nhe + nhg))
    (hx : ∀ i, i.1 ∈ S'.jb → (P.xlower i = some (S'.x i) → 0 ≤ S'.s i) ∧ (P.xupper i = some (S'.x i) → S'.s i ≤ 0))
    (hbg : ∀ l, (∃ b, h.rf.M.RWQ.jb b = ixBg nx nhg l) → S'.xbg l = 0 → S'.yg l ≤ 0) (hhg : ∀ l, (∃ b, h.rf.M.RWQ.jb b = ixHg nx nbg l) → S'.xhg l = 0 → S'.zg l ≤ 0)
    (hC : UConvex P U S'.p) (x' : Fin nx → K) (hx' : UFeasible P U x' S'.p) : U.f S'.x S'.p ≤ U.f x' S'.p + o.tolerance * gapFactor P U S' x' := by
  obtain ⟨b1, b2, b3, b4, -, hs, hg, hyg, hzg⟩ := solver_success_partial hU hA hthr heps.ge hnx hB h hsucc
  obtain ⟨r1, r2, r3, r4⟩ := solver_success_residual_partial hU hA hthr heps hnx hB htol h hsucc hfull
  have c1 := hC.f S'.x x' b1 hx'.x
  have c2 := hC.he S'.x x' b1 hx'.x
  have c3 := hC.hg S'.x x' b1 hx'.x
  -- the variables
  have t1 : ∀ i, -(o.tolerance * |x' i - S'.x i|) ≤ S'.s i * (x' i - S'.x i) := by
    intro i
    have hp : 0 ≤ o.tolerance * |x' i - S'.x i| := mul_nonneg htol (abs_nonneg _)
    have up : P.xlower i = some (S'.x i) → 0 ≤ S'.s i → 0 ≤ S'.s i * (x' i - S'.x i) := fun e h => mul_nonneg h (sub_nonneg.2 ((hx'.x i).1 _ e))
    have dn : P.xupper i = some (S'.x i) → S'.s i ≤ 0 → 0 ≤ S'.s i * (x' i - S'.x i) := fun e h => mul_nonneg_of_nonpos_of_nonpos h (sub_nonpos.2 ((hx'.x i).2 _ e))
    rcases hg i with h1 | ⟨h1, h2⟩ | ⟨h1, h2⟩ | ⟨h1, h2 | h2⟩
    · have := neg_abs_le (S'.s i * (x' i - S'.x i))
      rw [abs_mul] at this
      have := mul_le_mul_of_nonneg_right h1.le (abs_nonneg (x' i - S'.x i))
      linarith
    · linarith [up h1 h2.le]
    · linarith [dn h1 h2.le]
    · linarith [up h2 ((hx i h1).1 h2)]
    · linarith [dn h2 ((hx i h1).2 h2)]
  -- the equality constraints
  have t2 : ∀ l, S'.ye l * ∑ j, P.Aex l j * (x' j - S'.x j) ≤ o.tolerance * (|S'.ye l| * ∑ j, |P.Aex l j|) := by
    intro l
    have e : ∑ j, P.Aex l j * (x' j - S'.x j) = P.be l - (∑ j, P.Aex l j * S'.x j + ∑ q, P.Aep l q * S'.p q) := by
      rw [← hx'.be l]; simp only [mul_sub, Finset.sum_sub_distrib]; ring
    rw [e]
    refine (le_abs_self _).trans ?_
    rw [abs_mul]
    have := mul_le_mul_of_nonneg_left (r1 l) (abs_nonneg (S'.ye l))
    linarith
  have t3 : ∀ l, S'.ze l * ∑ j, U.hex S'.x S'.p l j * (x' j - S'.x j) ≤ o.tolerance * (|S'.ze l| * ∑ j, |U.hex S'.x S'.p l j|) := by
    intro l
    have e : ∑ j, U.hex S'.x S'.p l j * (x' j - S'.x j) = -U.he S'.x S'.p l := by
      have := c2 l
      rw [hx'.he l] at this
      linarith
    rw [e]
    refine (le_abs_self _).trans ?_
    rw [abs_mul, abs_neg]
    have := mul_le_mul_of_nonneg_left (r3 l) (abs_nonneg (S'.ze l))
    linarith
  -- the inequality constraints
  have t4 : ∀ l, S'.yg l * ∑ j, P.Agx l j * (x' j - S'.x j) ≤ o.tolerance * |∑ j, P.Agx l j * (x' j - S'.x j)| + o.tolerance * (|S'.yg l| * (∑ j, |P.Agx l j| + 1)) := by
    intro l
    have hp : 0 ≤ o.tolerance * |∑ j, P.Agx l j * (x' j - S'.x j)| := mul_nonneg htol (abs_nonneg _)
    have hq : 0 ≤ o.tolerance * (|S'.yg l| * (∑ j, |P.Agx l j| + 1)) := mul_nonneg htol (mul_nonneg (abs_nonneg _) (add_nonneg (Finset.sum_nonneg fun _ _ => abs_nonneg _) zero_le_one))
    have main : S'.xbg l = 0 → S'.yg l ≤ 0 → S'.yg l * ∑ j, P.Agx l j * (x' j - S'.x j) ≤ o.tolerance * (|S'.yg l| * (∑ j, |P.Agx l j| + 1)) := by
      intro h1 h2
      have e := r2 l
      rw [h1, sub_zero] at e
      have e2 : -((∑ j, |P.Agx l j| + 1) * o.tolerance) ≤ ∑ j, P.Agx l j * (x' j - S'.x j) := by
        have := (abs_le.1 e).1
        have f := hx'.bg l
        simp only [mul_sub, Finset.sum_sub_distrib]
        linarith
      rw [abs_of_nonpos h2]
      have := mul_le_mul_of_nonpos_left e2 h2
      linarith
    rcases hyg l with h1 | ⟨h1, h2 | h2⟩
    · have := le_abs_self (S'.yg l * ∑ j, P.Agx l j * (x' j - S'.x j))
      rw [abs_mul] at this
      have := mul_le_mul_of_nonneg_right h1.le (abs_nonneg (∑ j, P.Agx l j * (x' j - S'.x j)))
      linarith
    · linarith [main h1 h2.le]
    · linarith [main h1 (hbg l h2 h1)]
  have t5 : ∀ l, S'.zg l * ∑ j, U.hgx S'.x S'.p l j * (x' j - S'.x j) ≤
      o.tolerance * |∑ j, U.hgx S'.x S'.p l j * (x' j - S'.x j)| + o.tolerance * (|S'.zg l| * (∑ j, |U.hgx S'.x S'.p l j| + 1)) := by
    intro l
    have hp : 0 ≤ o.tolerance * |∑ j, U.hgx S'.x S'.p l j * (x' j - S'.x j)| := mul_nonneg htol (abs_nonneg _)
    have hq : 0 ≤ o.tolerance * (|S'.zg l| * (∑ j, |U.hgx S'.x S'.p l j| + 1)) := mul_nonneg htol (mul_nonneg (abs_nonneg _) (add_nonneg (Finset.sum_nonneg fun _ _ => abs_nonneg _) zero_le_one))
    have main : S'.xhg l = 0 → S'.zg l ≤ 0 → S'.zg l * ∑ j, U.hgx S'.x S'.p l j * (x' j - S'.x j) ≤ o.tolerance * (|S'.zg l| * (∑ j, |U.hgx S'.x S'.p l j| + 1)) := by
      intro h1 h2
      have e := r4 l
      rw [h1, add_zero] at e
      have e2 : -((∑ j, |U.hgx S'.x S'.p l j| + 1) * o.tolerance) ≤ ∑ j, U.hgx S'.x S'.p l j * (x' j - S'.x j) := by
        have := (abs_le.1 e).2
        have f := c3 l
        have g := hx'.hg l
        linarith
      rw [abs_of_nonpos h2]
      have := mul_le_mul_of_nonpos_left e2 h2
      linarith
    rcases hzg l with h1 | ⟨h1, h2 | h2⟩
    · have := le_abs_self (S'.zg l * ∑ j, U.hgx S'.x S'.p l j * (x' j - S'.x j))
      rw [abs_mul] at this
      have := mul_le_mul_of_nonneg_right h1.le (abs_nonneg (∑ j, U.hgx S'.x S'.p l j * (x' j - S'.x j)))
      linarith
    · linarith [main h1 h2.le]
    · linarith [main h1 (hhg l h2 h1)]
  -- the Lagrangian
  have key : ∑ i, U.fx S'.x S'.p i * (x' i - S'.x i) = ∑ i, S'.s i * (x' i - S'.x i) - ∑ l, S'.ye l * ∑ j, P.Aex l j * (x' j - S'.x j) - ∑ l, S'.yg l * ∑ j, P.Agx l j * (x' j - S'.x j) -
      ∑ l, S'.ze l * ∑ j, U.hex S'.x S'.p l j * (x' j - S'.x j) - ∑ l, S'.zg l * ∑ j, U.hgx S'.x S'.p l j * (x' j - S'.x j) := by
    have sw : ∀ {m : ℕ} (M : Fin m → Fin nx → K) (y : Fin m → K), ∑ l, y l * ∑ j, M l j * (x' j - S'.x j) = ∑ j, (∑ l, M l j * y l) * (x' j - S'.x j) := by
      intro m M y
      simp only [Finset.mul_sum, Finset.sum_mul]
      rw [Finset.sum_comm]
      exact Finset.sum_congr rfl fun j _ => Finset.sum_congr rfl fun l _ => by ring
    rw [sw P.Aex S'.ye, sw P.Agx S'.yg, sw (U.hex S'.x S'.p) S'.ze, sw (U.hgx S'.x S'.p) S'.zg, ← Finset.sum_sub_distrib, ← Finset.sum_sub_distrib, ← Finset.sum_sub_distrib, ← Finset.sum_sub_distrib]
    refine Finset.sum_congr rfl fun i _ => ?_
    rw [hs i, userGrad]
    ring
  have s1 := Finset.sum_le_sum fun i (_ : i ∈ Finset.univ) => t1 i
  have s2 := Finset.sum_le_sum fun i (_ : i ∈ Finset.univ) => t2 i
  have s3 := Finset.sum_le_sum fun i (_ : i ∈ Finset.univ) => t3 i
  have s4 := Finset.sum_le_sum fun i (_ : i ∈ Finset.univ) => t4 i
  have s5 := Finset.sum_le_sum fun i (_ : i ∈ Finset.univ) => t5 i
  simp only [Finset.sum_add_distrib, Finset.sum_neg_distrib, ← Finset.mul_sum] at s1 s2 s3 s4 s5
  unfold gapFactor
  linarith

end

/-! ## A convex problem solved wrongly -/

/-- Everything known after an evaluation. -/
theorem eval_full {nx np ny nz : ℕ} {cfg : Config K nx np ny nz τ} (hthr : 0 ≤ cfg.env.thr) (heps : 0 ≤ cfg.env.eps) (hnx : 0 < nx) {check} {s s' : Parts K nx np ny nz τ cfg.pb.Ax} {u} (hq : Reach cfg s) (he : (cfg.machine check).eval s u = some s') :
    ∃ t' ev rf ew0, cfg.user s.user u.x u.p s.ech.rwq = some (t', ev) ∧ rfUpdate cfg.env cfg.pb s.ech s.ax ev u = .ok rf ∧ s'.rf = some rf ∧ s'.ech = rf.ech ∧ RFSpec cfg.env cfg.pb ev u rf ∧
      s'.errors = residualErrors rf.C.mat cfg.pb.xlower cfg.pb.xupper u.x rf.res ew0 := by
  obtain ⟨s1, h1, rfl⟩ := Option.map_eq_some_iff.1 he
  unfold Config.updateF at h1
  split at h1
  · cases h1
  · rename_i t ev hu
    rcases rfUpdate_spec hthr heps cfg.pb hq hnx s.ax ev u with ⟨rf, hrf, hspec⟩ | ⟨hf, -⟩
    · rw [hrf] at h1
      cases h1
      exact ⟨t, ev, rf, s.errors.ewbar, hu, hrf, rfl, rfl, hspec, rfl⟩
    · rw [hf] at h1; cases h1

/-- The problem in the form seen by the master solver: `x0 - 2*x1 = 0`, `x ≥ 0`, objective with gradient `(3/2 - 2/(1 + x0)², 0)`. -/
structure IsDegenerate (cfg : Config ℚ 2 0 1 0 τ) : Prop where
  Ax : ∀ l, cfg.pb.Ax l = ![1, -2]
  b : ∀ l, cfg.pb.b l = 0
  xlower : ∀ i, cfg.pb.xlower i = some 0
  xupper : ∀ i, cfg.pb.xupper i = none
  user : ∀ t x p q, ∃ t' ev, cfg.user t x p q = some (t', ev) ∧ ev.fx = ![3/2 - 2 / (1 + x 0) ^ 2, 0] ∧ ev.fxx = !![4 / (1 + x 0) ^ 3, 0; 0, 0]

section
variable {cfg : Config ℚ 2 0 1 0 τ} {ev : Evals ℚ 2 0 0} {u : MVec ℚ 2 0 (1 + 0)} {rf : RFState ℚ 2 0 1 0 cfg.pb.Ax}

theorem IsDegenerate.Wx (h : IsDegenerate cfg) (hs : RFSpec cfg.env cfg.pb ev u rf) (l) : rf.M.Wx l = ![1, -2] := by
  rw [hs.Wx]
  funext j
  have : l = Fin.castAdd 0 0 := Subsingleton.elim (α := Fin 1) _ _
  rw [this]
  simp only [stack, Fin.addCases_left, h.Ax]

/-- Exactly one of the variables is basic. -/
theorem IsDegenerate.basic (h : IsDegenerate cfg) (ho : ∀ M, (cfg.env.o M).lu.Z = 0) (hs : RFSpec cfg.env cfg.pb ev u rf) :
    ((∃ b, rf.M.RWQ.jb b = 0) ∧ ∀ b, rf.M.RWQ.jb b ≠ 1) ∨ ((∃ b, rf.M.RWQ.jb b = 1) ∧ ∀ b, rf.M.RWQ.jb b ≠ 0) := by
  have hW := h.Wx hs
  have hb : ∀ b b', rf.M.RWQ.Rb b 0 * rf.M.Wx 0 (rf.M.RWQ.jb b') = if b = b' then 1 else 0 := by
    intro b b'
    have := congrFun (congrFun hs.b b) b'
    simpa [mul_apply, one_apply] using this
  by_cases h0 : ∃ b, rf.M.RWQ.jb b = 0
  · refine Or.inl ⟨h0, fun b hb1 => ?_⟩
    obtain ⟨b0, hb0⟩ := h0
    have hne : b ≠ b0 := fun e => by rw [e, hb0] at hb1; cases hb1
    have e1 := hb b b
    have e2 := hb b b0
    rw [if_neg hne, hb0, hW] at e2
    rw [if_pos rfl, hb1, hW] at e1
    simp at e1 e2
    rw [e2] at e1
    simp at e1
  · refine Or.inr ⟨?_, fun b e => h0 ⟨b, e⟩⟩
    by_contra h1
    obtain ⟨k, hk⟩ := hs.perm.2 0
    rcases k with b | k
    · exact h0 ⟨b, hk⟩
    · have := hs.spans ho 0 k
      rw [show rf.M.RWQ.jn k = 0 from hk] at this
      rw [Finset.sum_eq_zero fun b _ => ?_, hW] at this
      · simp at this
      · exfalso
        rcases Fin.exists_fin_two.1 ⟨rf.M.RWQ.jb b, rfl⟩ with e | e
        · exact h0 ⟨b, e⟩
        · exact h1 ⟨b, e⟩

/-- The first evaluation, at `(1, 1/2)`: `x0` is basic. -/
theorem IsDegenerate.first (h : IsDegenerate cfg) (ho : ∀ M, (cfg.env.o M).lu.Z = 0) (hthr : 0 ≤ cfg.env.thr) (hthr2 : cfg.env.thr < 1/2) {e : Ech.WState ℚ 2 0 1 0 cfg.pb.Ax} {ax0}
    (hr : Ech.WReach cfg.env.debug cfg.env.o cfg.env.sort cfg.env.thr cfg.env.eps cfg.pb.Ax cfg.pb.Ap e) (hu : u.x = ![1, 1/2]) (hrf : rfUpdate cfg.env cfg.pb e ax0 ev u = .ok rf) (hs : RFSpec cfg.env cfg.pb ev u rf) :
    (∃ b, rf.M.RWQ.jb b = 0) ∧ ∀ b, rf.M.RWQ.jb b ≠ 1 := by
  refine (h.basic ho hs).resolve_right ?_
  rintro ⟨⟨b, hb⟩, h0⟩
  obtain ⟨k, hk⟩ := hs.perm.2 0
  rcases k with c | k
  · exact h0 c hk
  have hk : rf.M.RWQ.jn k = 0 := hk
  obtain ⟨w1, w2⟩ := rfUpdate_wUpdate hrf
  have hW := h.Wx hs
  have e1 := congrFun (congrFun hs.b b) b
  have e2 := congrFun (congrFun hs.n b) k
  simp [mul_apply, hb, hk, hW] at e1 e2
  have := Ech.wUpdate_opt_clean hthr rfl hr w1 (Ech.clean_row (thr := cfg.env.thr) (A := cfg.pb.Ax) ?_) w2 b k (by rw [← e2]; intro e; rw [e] at e1; simp at e1)
  · rw [hb, hk] at this
    unfold weights at this
    simp [hu, h.xlower, h.xupper] at this
    norm_num at this
  · intro i j hij
    exfalso
    revert hij
    rw [h.Ax]
    fin_cases i <;> fin_cases j <;> simp <;> linarith

/-- The step from `(1, 1/2)` to `(-1, -1/2)` ends at `(0, 0)`, in both modes of the step control. -/
theorem IsDegenerate.backtrack (h : IsDegenerate cfg) (debug minmax : Bool) {uo : MVec ℚ 2 0 (1 + 0)} (h1 : uo.x = ![1, 1/2]) (h2 : uo.w = 0) (h3 : u.x = ![-1, -1/2]) (h4 : u.w = 0) :
    ∃ v, backtrack debug minmax cfg.pb.bounds uo u = some v ∧ v.x = ![0, 0] ∧ v.w = 0 := by
  have hl : ∀ i, cfg.pb.bounds.xlower i = some 0 := h.xlower
  have hu : ∀ i, cfg.pb.bounds.xupper i = none := h.xupper
  have hin : InBounds cfg.pb.bounds uo := by
    refine ⟨fun i => ⟨fun l e => ?_, fun l e => ?_⟩, fun i => i.elim0⟩
    · rw [hl] at e
      cases e
      rw [h1]
      fin_cases i <;> simp
    · rw [hu] at e; cases e
  cases minmax with
  | true =>
    obtain ⟨v, e1, -, e3, e4, -⟩ := backtrack_minmax debug hin u
    refine ⟨v, e1, ?_, e3.trans h4⟩
    funext i
    rw [e4, hl, hu, h3]
    fin_cases i <;> simp [clamp] <;> norm_num
  | false =>
    obtain ⟨v, β, e1, hf, hv, e3, e4, -⟩ := backtrack_spec debug hin u
    have b1 := hf.x_lower 0 0 (hl 0) (Or.inl (by rw [h1]; simp))
    rw [h1, h3] at b1
    simp [blend] at b1
    have b2 : β = 1/2 := by
      rcases hf.tight with e | ⟨i, l, e, -⟩ | ⟨i, l, e, hlt, ht⟩ | ⟨i, -⟩ | ⟨i, -⟩
      · linarith
      · rw [hu] at e; cases e
      · rw [hl] at e
        cases e
        rw [h1, h3] at ht
        revert ht
        fin_cases i <;> simp [blend] <;> intro ht <;> linarith
      · exact i.elim0
      · exact i.elim0
    refine ⟨v, e1, ?_, ?_⟩
    · funext i
      rw [e4, hl, hu, h1, h3, b2]
      fin_cases i <;> simp [clamp, blend] <;> norm_num
    · funext i
      rw [e3, h2, h4]
      simp [blend]

theorem IsDegenerate.feasRes (h : IsDegenerate cfg) (hs : RFSpec cfg.env cfg.pb ev u rf) (hx : u.x 0 - 2 * u.x 1 = 0) (l) : feasRes (rfArgs cfg.pb rf.M ev u) l = 0 := by
  have : l = Fin.castAdd 0 0 := Subsingleton.elim (α := Fin 1) _ _
  rw [this]
  simp only [Optima.feasRes, rfArgs, Fin.addCases_left, h.b, h.Wx hs, Fin.sum_univ_two]
  simp
  linarith

theorem IsDegenerate.lagGrad (h : IsDegenerate cfg) (hs : RFSpec cfg.env cfg.pb ev u rf) (hw : u.w = 0) (i) : lagGrad (rfArgs cfg.pb rf.M ev u) i = ev.fx i := by
  simp [Optima.lagGrad, rfArgs, hw]

/-- The Newton step from `(1, 1/2)` leads to `(-1, -1/2)`. -/
theorem IsDegenerate.newton (h : IsDegenerate cfg) (heps : cfg.env.eps = 0) (ho : ∀ M, (cfg.env.o M).lu.Z = 0) (hlu : LUInners cfg) (hm : cfg.method ≠ .rangespace) {s s' : Parts ℚ 2 0 1 0 τ cfg.pb.Ax} {un : MVec ℚ 2 0 (1 + 0)}
    (hrf : s.rf = some rf) (hs : RFSpec cfg.env cfg.pb ev u rf) (hx : u.x = ![1, 1/2]) (hw : u.w = 0) (hfx : ev.fx = ![3/2 - 2 / (1 + u.x 0) ^ 2, 0]) (hfxx : ev.fxx = !![4 / (1 + u.x 0) ^ 3, 0; 0, 0])
    (hn : cfg.newton s u = some (s', un)) : un.x = ![-1, -1/2] ∧ un.w = 0 := by
  have hW := h.Wx hs
  have hju : rf.M.ju = [] := by
    refine List.eq_nil_iff_forall_not_mem.2 fun i hi => ?_
    rcases (hs.unstable i hi).2 with ⟨h1, -⟩ | ⟨h1, -⟩
    · rw [h.xlower, hx] at h1
      revert h1
      fin_cases i <;> simp
    · rw [h.xupper] at h1; cases h1
  have hnot : ∀ i, i ∉ rf.M.ju := by rw [hju]; simp
  have hR : RowsSpanned rf.M := rf_rowsSpanned ho hs fun q => q.elim0
  have hE := rf_echelon heps hs
  rw [hx] at hfx hfxx
  norm_num at hfx hfxx
  have hM : ∀ d, SolvesMaster rf.M ⟨0, 0, 0⟩ d → d.x = 0 ∧ d.p = 0 := by
    intro d hd
    have e0 := hd.stable 0 (hnot 0)
    have e1 := hd.stable 1 (hnot 1)
    have e2 := hd.constr 0
    simp [hnot, hs.Hxx, hfxx, hW, Fin.sum_univ_two] at e0 e1 e2
    refine ⟨?_, funext fun i => i.elim0⟩
    rw [e1] at e0
    simp at e0
    rw [e0] at e2
    funext i
    fin_cases i
    · exact e0
    · simpa using e2
  obtain ⟨ax0, hres⟩ := hs.res
  obtain ⟨m1, m2, m3, m4, m5, m6⟩ := residual_master cfg.env.eps hs.canon ax0 (rfArgs cfg.pb rf.M ev u)
  rw [← hres] at m1 m4
  have hf : ∀ l, Optima.feasRes (rfArgs cfg.pb rf.M ev u) l = 0 := h.feasRes hs (by rw [hx]; simp)
  obtain ⟨du, hdu, d1, -, d3⟩ := newton_solves heps hrf hs hR ⟨0, 0, fun l => by rw [m4, hf]; simp⟩ (luInners_ok_dep hlu hm hs.canon hE hR hM _) (fun e => absurd e hm) hn
  have g := h.lagGrad hs hw
  rw [hfx] at g
  have e0 := hdu.stable 0 (hnot 0)
  have e1 := hdu.stable 1 (hnot 1)
  have e2 := hdu.constr 0
  rw [m1 0 (hnot 0), g] at e0
  rw [m1 1 (hnot 1), g] at e1
  rw [m4, hf] at e2
  simp [hnot, hs.Hxx, hfxx, hW, Fin.sum_univ_two] at e0 e1 e2
  refine ⟨?_, ?_⟩
  · rw [e1] at e0
    funext i
    fin_cases i
    · change un.x 0 = -1
      rw [d1, hx]; simp; linarith
    · change un.x 1 = -1/2
      rw [d1, hx]; simp; linarith
  · funext l
    have : l = 0 := Subsingleton.elim (α := Fin 1) _ _
    rw [this, d3, hw]
    simpa using e1

/-- At `(0, 0)` with zero multiplier, as long as `x0` is basic, the errors are zero: the derivative of the objective along `x0`, which is `-1/2`, is not measured. -/
theorem IsDegenerate.error (h : IsDegenerate cfg) (heps : cfg.env.eps = 0) (hs : RFSpec cfg.env cfg.pb ev u rf) (hx : u.x = ![0, 0]) (hw : u.w = 0) (hfx : ev.fx = ![3/2 - 2 / (1 + u.x 0) ^ 2, 0]) (hb : ∃ b, rf.M.RWQ.jb b = 0) (ew0) :
    (residualErrors rf.C.mat cfg.pb.xlower cfg.pb.xupper u.x rf.res ew0).error = 0 := by
  have hE := rf_echelon heps hs
  obtain ⟨ax0, hres⟩ := hs.res
  obtain ⟨m1, m2, m3, m4, m5, m6⟩ := residual_master cfg.env.eps hs.canon ax0 (rfArgs cfg.pb rf.M ev u)
  rw [← hres] at m1
  have hf : ∀ l, Optima.feasRes (rfArgs cfg.pb rf.M ev u) l = 0 := h.feasRes hs (by rw [hx]; simp)
  refine le_antisymm ?_ (le_trans (normInf_nonneg _) (le_max_right _ _))
  rw [error_le_iff hs.canon (basics_le_rows hs.canon hs.b) _ _ _ _ _ _ le_rfl]
  refine ⟨fun i hi hn => ?_, fun q => q.elim0, fun b => ?_⟩
  · rw [m1 i hi, h.lagGrad hs hw, hfx]
    revert hn
    refine Fin.cases (fun hn => ?_) (fun j hn => ?_) i
    · exact absurd ⟨hb, Or.inl (by rw [h.xlower, hx]; rfl)⟩ hn
    · have : j = 0 := Subsingleton.elim _ _
      rw [this]
      simp
  · rw [hres, heps, residual_canonical_exact hs.canon hE ax0 (rfArgs cfg.pb rf.M ev u) rfl rfl b]
    simp only [hf]
    simp

/-- **C59 (degenerate vertex)**: for every solver history, memory content and all linear solvers but the range-space one, in exact arithmetic the solve started at `(1, 1/2)` returns `(0, 0)` after one iteration, with success and zero error. -/
theorem IsDegenerate.solve (h : IsDegenerate cfg) (hthr : 0 ≤ cfg.env.thr) (hthr2 : cfg.env.thr < 1/2) (heps : cfg.env.eps = 0) (hd : cfg.env.debug = false) (ho : ∀ M, (cfg.env.o M).lu.Z = 0) (hphi : cfg.phi = none)
    (hlu : LUInners cfg) (hm : cfg.method ≠ .rangespace) (o : SolveOptions ℚ) (hmax : 1 ≤ o.maxiters) (htol : 0 < o.tolerance) (user : τ) (mem errors ax du) (history : History ℚ) (u : MVec ℚ 2 0 (1 + 0)) (hx : u.x = ![1, 1/2]) (hw : u.w = 0) :
    ∃ t, (∀ r, Solve (cfg.machine none) o cfg.pb.bounds (cfg.start user mem errors ax du) history u r ↔ r = some t) ∧
      t.u.x = ![0, 0] ∧ t.mach.errors.error = 0 ∧ (solveResult o t).succeeded = true ∧ (solveResult o t).iterations = 1 := by
  have hinv := machine_inv hthr heps.ge (by norm_num) (cfg := cfg) none
  have hl : ∀ i, cfg.pb.bounds.xlower i = some 0 := h.xlower
  have hu : ∀ i, cfg.pb.bounds.xupper i = none := h.xupper
  have hB : ConsistentBounds cfg.pb.bounds := ⟨fun i l r e1 e2 => (by rw [hu] at e2; cases e2), fun i => i.elim0⟩
  obtain ⟨t, ht⟩ := solve_returns hthr heps.ge hd (by norm_num) none (noPhi hphi) (fun t x p q => let ⟨t', ev, e, _⟩ := h.user t x p q; ⟨_, e⟩) (fun f hf => by cases hf) o hB user mem errors ax du history u
  have huq : ∀ r, Solve (cfg.machine none) o cfg.pb.bounds (cfg.start user mem errors ax du) history u r ↔ r = some t := by
    intro r
    obtain ⟨⟨r0, h0, h1⟩, -⟩ := solve_budget (cfg.machine none) o cfg.pb.bounds (cfg.start user mem errors ax du) history u
    constructor
    · intro hr; rw [h1 r hr, h1 _ ht]
    · rintro rfl; exact ht
  refine ⟨t, huq, ?_⟩
  have hcl : (clampVec cfg.pb.bounds u).x = ![1, 1/2] := by
    funext i
    change clamp _ _ (u.x i) = _
    rw [hl, hu, hx]
    fin_cases i <;> simp [clamp]
  cases ht with
  | run s r es hl =>
    obtain ⟨su, suo, sit, -, -⟩ := solveInit_spec es
    have hr0 := start_reach cfg user mem errors ax du
    obtain ⟨e1, -, -, -, -, e6⟩ := evalAt_u (s := { mach := cfg.start user mem errors ax du, u := clampVec cfg.pb.bounds u, uo := clampVec cfg.pb.bounds u, iterations := 0, history := history.init, trace := [] }) es
    obtain ⟨t', ev, rf, ew0, hu1, hrf, hs1, hs2, hspec, herr⟩ := eval_full hthr heps.ge (by norm_num) hr0 e6
    dsimp only at hspec hrf hu1 e1
    rw [← su] at hspec hrf hu1 hcl
    have hsw : s.u.w = 0 := by rw [su]; exact hw
    obtain ⟨t1, ev1, hu2, f1, f2⟩ := h.user (cfg.start user mem errors ax du).user s.u.x s.u.p (cfg.start user mem errors ax du).ech.rwq
    rw [hu1] at hu2
    cases hu2
    obtain ⟨hbas, hbas'⟩ := h.first ho hthr hthr2 hr0 hcl hrf hspec
    have hstep : ∀ s1, step (cfg.machine none) o cfg.pb.bounds s = some s1 → s1.u.x = ![0, 0] ∧ s1.mach.errors.error = 0 ∧ s1.iterations = 1 := by
      intro s1 h1
      unfold step at h1
      dsimp only at h1
      split at h1
      · cases h1
      · rename_i tm un hn
        change cfg.newton s.mach s.uo = some (tm, un) at hn
        rw [suo, ← su] at hn
        obtain ⟨nx, nw⟩ := h.newton heps ho hlu hm hs1 hspec hcl hsw f1 f2 hn
        rw [transform_no_phi (by change Option.map _ cfg.phi = none; rw [hphi]; rfl)] at h1
        dsimp only at h1
        unfold errorControl at h1
        dsimp only at h1
        obtain ⟨v, v1, v2, v3⟩ := h.backtrack (u := un) (uo := s.uo) o.debug o.minmax (by rw [suo, ← su]; exact hcl) (by rw [suo, ← su]; exact hsw) nx nw
        rw [v1] at h1
        dsimp only at h1
        have hech : tm.ech = rf.ech := by
          unfold Config.newton at hn
          rw [hs1] at hn
          cases hn
          exact hs2
        have hq : Reach cfg tm := by
          unfold Reach
          rw [hech]
          exact hspec.reach
        obtain ⟨e1, e2, e3, e4, e5, e6⟩ := evalAt_u h1
        obtain ⟨t2, ev', rf', ew0', hu1', hrf', hs1', hs2', hspec', herr'⟩ := eval_full hthr heps.ge (by norm_num) hq e6
        dsimp only at hspec' hrf' hu1' e1 herr'
        obtain ⟨t3, ev2, hu2', g1, g2⟩ := h.user tm.user v.x v.p tm.ech.rwq
        rw [hu1'] at hu2'
        cases hu2'
        refine ⟨by rw [e1]; exact v2, ?_, ?_⟩
        · rw [herr']
          refine h.error heps hspec' v2 v3 g1 ?_ ew0'
          obtain ⟨w1, w2⟩ := rfUpdate_wUpdate hrf
          obtain ⟨w1', w2'⟩ := rfUpdate_wUpdate hrf'
          rw [hech] at w1'
          refine (Ech.wUpdate_basics_kept hthr rfl hr0 w1 w1' w2 w2' (fun b k => ?_) 0).2 hbas
          have : ∀ i, weights cfg.pb v.x i = -1 := by
            intro i
            unfold weights
            rw [h.xlower, v2]
            fin_cases i <;> simp
          rw [this, this]
        · rw [e3]; change s.iterations + 1 = 1; rw [sit]
    cases hl with
    | stop _ s1 _ h1 h2 =>
      obtain ⟨a1, a2, a3⟩ := hstep s1 h1
      obtain ⟨b1, b2, -, b4, -⟩ := stepping_spec h2
      refine ⟨by rw [b1]; exact a1, b4.trans a2, ?_, ?_⟩
      · change decide (t.iterations ≤ o.maxiters) = true
        rw [b2, a3]; simpa using hmax
      · change t.iterations = 1; rw [b2, a3]
    | again _ s1 s2 _ h1 h2 h3 =>
      obtain ⟨a1, a2, a3⟩ := hstep s1 h1
      obtain ⟨-, -, -, -, -, -, b7⟩ := stepping_spec h2
      have := (b7 (by rw [a3]; exact hmax)).2.2 (Or.inl (by change s1.mach.errors.error < _; rw [a2]; exact htol))
      cases this

end

/-- `min 3/2*x0 + 2/(1 + x0)` subject to `x0 - 2*x1 = 0`, `x ≥ 0`. -/
def exVertex : UProblem Unit ℚ 2 0 1 0 0 0 0 where
  r := ResFn.default
  f := ⟨some fun t res x _ _ _ => some (t, { res with f := 3/2 * x 0 + 2 / (1 + x 0), fx := ![3/2 - 2 / (1 + x 0) ^ 2, 0], fxx := !![4 / (1 + x 0) ^ 3, 0; 0, 0], succeeded := true })⟩
  he := ConFn.default
  hg := ConFn.default
  v := ConFn.default
  Aex := fun _ => ![1, -2]
  Aep := fun _ i => i.elim0
  Agx := fun i => i.elim0
  Agp := fun i => i.elim0
  be := fun _ => 0
  bg := fun i => i.elim0
  xlower := fun _ => some 0
  xupper := fun _ => none
  plower := fun i => i.elim0
  pupper := fun i => i.elim0
  c := fun i => i.elim0
  bec := fun _ i => i.elim0
  bgc := fun i => i.elim0

/-- The functions of `exVertex`. -/
def exVertexVals : UserVals ℚ 2 0 0 0 where
  f := fun x _ => 3/2 * x 0 + 2 / (1 + x 0)
  fx := fun x _ => ![3/2 - 2 / (1 + x 0) ^ 2, 0]
  he := fun _ _ i => i.elim0
  hex := fun _ _ i => i.elim0
  hg := fun _ _ i => i.elim0
  hgx := fun _ _ i => i.elim0
  v := fun _ _ i => i.elim0

theorem exVertex_implements : Implements exVertex exVertexVals where
  f := by
    refine ⟨_, rfl, fun t x p o t' q _ h => ?_⟩
    simp only [Option.some.injEq, Prod.mk.injEq] at h
    obtain ⟨-, rfl⟩ := h
    exact ⟨rfl, fun _ => rfl⟩
  he := ⟨_, rfl, fun t x p o t' q _ _ => ⟨fun i => i.elim0, fun i => i.elim0⟩⟩
  hg := ⟨_, rfl, fun t x p o t' q _ _ => ⟨fun i => i.elim0, fun i => i.elim0⟩⟩
  v := ⟨_, rfl, fun t x p o t' q _ _ i => i.elim0⟩

theorem exVertex_convex (p) : UConvex exVertex exVertexVals p where
  f := by
    intro x x' h h'
    have h0 : 0 ≤ x 0 := (h 0).1 0 rfl
    have h1 : 0 ≤ x' 0 := (h' 0).1 0 rfl
    have e : 3/2 * x' 0 + 2 / (1 + x' 0) - (3/2 * x 0 + 2 / (1 + x 0)) - (3/2 - 2 / (1 + x 0) ^ 2) * (x' 0 - x 0) = 2 * (x' 0 - x 0) ^ 2 / ((1 + x' 0) * (1 + x 0) ^ 2) := by
      have a : 1 + x 0 ≠ 0 := by positivity
      have b : 1 + x' 0 ≠ 0 := by positivity
      field_simp
      ring
    have : 0 ≤ 2 * (x' 0 - x 0) ^ 2 / ((1 + x' 0) * (1 + x 0) ^ 2) := by positivity
    simp [exVertexVals, Fin.sum_univ_two]
    linarith
  he := fun _ _ _ _ l => l.elim0
  hg := fun _ _ _ _ l => l.elim0

theorem exVertex_degenerate (env : Env ℚ) (method inners mem) : IsDegenerate (solverConfig env method inners exVertex mem) where
  Ax := fun l => by
    have hA : IsMasterAx exVertex.Aex exVertex.Agx (masterProblem exVertex mem).Ax := (assembleAx_iff _ _ _).2 fun _ j => j.elim0
    funext j
    have : l = 0 := Subsingleton.elim _ _
    rw [this]
    exact hA.ex 0 j
  b := fun l => cat2_l exVertex.be exVertex.bg l
  xlower := fun i => by
    change (masterProblem exVertex mem).xlower (ixX 0 0 i) = _
    simp [masterProblem, exVertex]
  xupper := fun i => by
    change (masterProblem exVertex mem).xupper (ixX 0 0 i) = _
    simp [masterProblem, exVertex]
  user := fun t x p q => by
    obtain ⟨s', ev, h1, h2⟩ := UEvals.returns (P := exVertex) (x := x) (p := p)
      (E := { fx := ![3/2 - 2 / (1 + x 0) ^ 2, 0], fxx := !![4 / (1 + x 0) ^ 3, 0; 0, 0], fxp := fun _ j => j.elim0, he := fun i => i.elim0, hex := fun i => i.elim0, hep := fun i => i.elim0, hg := fun i => i.elim0, hgx := fun i => i.elim0, hgp := fun i => i.elim0,
              v := fun i => i.elim0, vx := fun i => i.elim0, vp := fun i => i.elim0 })
      { r := fun _ _ _ _ => ⟨_, rfl⟩
        f := ⟨_, rfl, fun t o _ _ => ⟨_, _, rfl, rfl, rfl, funext fun _ => funext fun j => j.elim0⟩⟩
        he := ⟨_, rfl, fun t o _ _ => ⟨_, _, rfl, funext fun i => i.elim0, funext fun i => i.elim0, funext fun i => i.elim0⟩⟩
        hg := ⟨_, rfl, fun t o _ _ => ⟨_, _, rfl, funext fun i => i.elim0, funext fun i => i.elim0, funext fun i => i.elim0⟩⟩
        v := ⟨_, rfl, fun t o _ _ => ⟨_, _, rfl, funext fun i => i.elim0, funext fun i => i.elim0, funext fun i => i.elim0⟩⟩ } (firstBasics env.o (masterProblem exVertex mem).Ax) false t (xbar := x) (fun i => rfl) q
    refine ⟨s', ev, h1, ?_, ?_⟩
    · rw [h2.fx]
      funext i
      exact cat3_X _ _ _ i
    · rw [h2.fxx]
      funext i j
      exact (cat3_X _ _ _ i).trans (cat3_X _ _ _ j)

/-- **C59 is false**: a convex problem (the objective lies above its tangents, the constraints are linear and of full rank) and a starting point within the bounds that satisfies the constraints, for which every solve (in exact arithmetic, with the full-space or
    null-space method, either step mode, any tolerance and any history of the solver object) reports success with zero error at the vertex `(0, 0)`, although `(1/4, 1/8)` is feasible and better: the solver leaves the derivative along a basic variable that
    sits on a bound out of the error. -/
theorem convex_wrong_success : ∃ (P : UProblem Unit ℚ 2 0 1 0 0 0 0) (U : UserVals ℚ 2 0 0 0) (S : UState ℚ 2 0 1 0 0 0), Implements P U ∧ (∀ p, UConvex P U p) ∧ UConsistent P ∧ UFeasible P U S.x S.p ∧
    ∀ env : Env ℚ, 0 ≤ env.thr → env.thr < 1/2 → env.eps = 0 → env.debug = false → (∀ M, (env.o M).lu.Z = 0) → ∀ method inners, method ≠ Method.rangespace → (∀ mem, LUInners (solverConfig env method inners P mem)) →
    ∀ o : SolveOptions ℚ, 1 ≤ o.maxiters → 0 < o.tolerance → ∀ part mem t0 res memW errors ax du history, ∃ S' result, ∃ h : SolverReturns env method inners part o P mem S S' result none,
      (h.t0 = t0 ∧ h.res = res ∧ h.memW = memW ∧ h.errors = errors ∧ h.ax = ax ∧ h.du = du ∧ h.history = history) ∧ result.succeeded = true ∧ result.iterations = 1 ∧ h.final.mach.errors.error = 0 ∧
      ∃ x', UFeasible P U x' S'.p ∧ U.f x' S'.p + 1/50 < U.f S'.x S'.p := by
  refine ⟨exVertex, exVertexVals, ⟨![1, 1/2], fun i => i.elim0, fun _ => 0, fun i => i.elim0, fun i => i.elim0, fun i => i.elim0, fun _ => 0, fun i => i.elim0, fun i => i.elim0, [], [], [], [], [], []⟩,
    exVertex_implements, exVertex_convex, ?_, ?_, ?_⟩
  · exact ⟨fun i l r _ e => (by cases e), fun i => i.elim0⟩
  · refine ⟨fun l => ?_, fun i => i.elim0, fun i => i.elim0, fun i => i.elim0, fun i => i.elim0, fun i => ⟨fun l e => ?_, fun l e => (by cases e)⟩, fun i => i.elim0⟩
    · simp [exVertex]
    · cases e
      fin_cases i <;> simp
  · intro env hthr hthr2 heps hd ho method inners hm hlu o hmax htol part mem t0 res memW errors ax du history
    obtain ⟨t, h1, h2, h3, h4, h5⟩ := (exVertex_degenerate env method inners mem).solve hthr hthr2 heps hd ho rfl (hlu mem) hm o hmax htol (t0, res) memW errors ax du history
      (packState ⟨![1, 1/2], fun i => i.elim0, fun _ => 0, fun i => i.elim0, fun i => i.elim0, fun i => i.elim0, fun _ => 0, fun i => i.elim0, fun i => i.elim0, [], [], [], [], [], []⟩)
      (funext fun i => cat3_X (nbg := 0) (nhg := 0) _ _ _ i) (funext fun i => by
        have : i = Fin.castAdd 0 (Fin.castAdd 0 0) := Subsingleton.elim (α := Fin 1) _ _
        rw [this]
        change cat2 (cat2 (fun _ : Fin 1 => (0 : ℚ)) (fun i : Fin 0 => i.elim0)) (cat2 (fun i : Fin 0 => i.elim0) (fun i : Fin 0 => i.elim0)) (Fin.castAdd (0 + 0) (Fin.castAdd 0 (0 : Fin 1))) = 0
        rw [cat2_l, cat2_l])
    have ht := (h1 _).2 rfl
    obtain ⟨-, ev, rf, ew0, e1, -⟩ := solve_inv (machine_inv (cfg := solverConfig env method inners exVertex mem) hthr heps.ge (by omega) none) o _ (start_reach _ (t0, res) memW errors ax du) history _ _ ht
    refine ⟨_, _, { t0 := t0, res := res, memW := memW, errors := errors, ax := ax, du := du, history := history, final := t, rf := rf, solved := ht, evaluated := e1, state := rfl, result_eq := rfl },
      ⟨rfl, rfl, rfl, rfl, rfl, rfl, rfl⟩, h4, h5, h3, ![1/4, 1/8], ?_, ?_⟩
    · refine ⟨fun l => ?_, fun i => i.elim0, fun i => i.elim0, fun i => i.elim0, fun i => i.elim0, fun i => ⟨fun l e => ?_, fun l e => (by cases e)⟩, fun i => i.elim0⟩
      · simp [exVertex]; norm_num
      · cases e
        fin_cases i <;> simp
    · simp only [unpackState, finalState]
      change (3/2 * (1/4 : ℚ) + 2 / (1 + 1/4)) + 1/50 < 3/2 * t.u.x 0 + 2 / (1 + t.u.x 0)
      rw [h2]
      norm_num

/-- The hypotheses of `convex_success_partial` are met by the solve of a concrete problem, for every history of the solver object: the tolerance times `gapFactor` bounds the distance of the objective from the optimum. -/
example : ∃ (env : Env ℚ) (inners : _), ∀ part t0 res memW errors ax du history, ∃ S' result,
    ∃ h : SolverReturns env .nullspace inners part { maxiters := 200, tolerance := 1/1000000000, minmax := false, debug := false } (exUser true) 0 exUserStart S' result none,
      (h.t0 = t0 ∧ h.res = res ∧ h.memW = memW ∧ h.errors = errors ∧ h.ax = ax ∧ h.du = du ∧ h.history = history) ∧
      ∀ x', UFeasible (exUser true) exUserVals x' S'.p → exUserVals.f S'.x S'.p ≤ exUserVals.f x' S'.p + 1/1000000000 * gapFactor (exUser true) exUserVals S' x' := by
  obtain ⟨env, ⟨hthr, heps, hd, ho⟩, inners, hsol⟩ := exUser_solved true
  refine ⟨env, inners, fun part t0 res memW errors ax du history => ?_⟩
  obtain ⟨S', result, h, h1, h2, h3, h4⟩ := hsol part t0 res memW errors ax du history
  refine ⟨S', result, h, h1, fun x' hx' => ?_⟩
  have hA : IsMasterAx (exUser true).Aex (exUser true).Agx (masterProblem (exUser true) 0).Ax := (assembleAx_iff _ _ _).2 fun _ _ => rfl
  have hB : UConsistent (exUser true) := ⟨fun i l r _ e => (by cases e), fun i => i.elim0⟩
  have hfull : h.rf.M.RWQ.nb = 1 + 1 + (0 + 0) := by
    obtain ⟨ev, hs, -⟩ := solver_evaluated hthr heps.ge (by norm_num) h
    refine rf_full_rank ho hs fun y hy => ?_
    rw [hs.Wx] at hy
    have a := hy (ixX 1 0 0)
    have b := hy (ixX 1 0 1)
    rw [Fin.sum_univ_add, Fin.sum_univ_add] at a b
    simp only [stack, Fin.addCases_left, hA.ex, hA.gx] at a b
    simp [exUser] at a b
    funext l
    refine Fin.addCases (fun l => ?_) (fun l => l.elim0) l
    refine Fin.addCases (fun l => ?_) (fun l => ?_) l
    · rw [Subsingleton.elim l 0]
      simp
      linarith
    · rw [Subsingleton.elim l 0]
      simp
      linarith
  have hxb := (solver_success_residual_partial (exUser_implements true) hA hthr heps (by norm_num) hB (by norm_num) h h2 hfull).2.1 0
  refine convex_success_partial (exUser_implements true) hA hthr heps (by norm_num) hB (by norm_num) h h2 hfull (fun i _ => ⟨fun e => ?_, fun e => (by cases e)⟩) (fun l _ e => ?_) (fun l => l.elim0) ?_ x' hx'
  · rw [h4] at e
    exact absurd (Option.some.inj e) (by norm_num)
  · rw [Subsingleton.elim l 0] at e
    rw [h4, e] at hxb
    exfalso
    revert hxb
    simp [exUser]
    norm_num
  · refine ⟨fun x x' _ _ => ?_, fun _ _ _ _ l => l.elim0, fun _ _ _ _ l => l.elim0⟩
    simp [exUserVals, Fin.sum_univ_two]
    nlinarith [sq_nonneg (x' 0 - x 0), sq_nonneg (x' 1 - x 1)]

/-- Exact pivoting and decompositions as `convex_wrong_success` needs them exist. -/
example : ∃ (env : Env ℚ) (inners : _), (0 ≤ env.thr ∧ env.thr < 1/2 ∧ env.eps = 0 ∧ env.debug = false ∧ ∀ M, (env.o M).lu.Z = 0) ∧ ∀ mem, LUInners (solverConfig env .nullspace inners exVertex mem) := by
  obtain ⟨oracle, ho⟩ := Ech.exists_exact_oracle (K := ℚ)
  let F : ∀ n, (A : Matrix (Fin n) (Fin n) ℚ) → LU.FullLU A := fun n A => (LU.exists_fullLU n A).some
  exact ⟨{ o := oracle, sort := Ech.sortImpl, P := fun n => Idx.stableImpl, thr := 1/100000000, eps := 0, debug := false },
    fun c => ⟨luInner 0 (Fintype.equivFin _) (F _) 0, luInner 0 (Fintype.equivFin _) (F _) 0, luInner 0 (Fintype.equivFin _) (F _) 0⟩, ⟨by norm_num, by norm_num, rfl, rfl, ho⟩,
    fun mem c => ⟨_, _, _, Fintype.equivFin _, Fintype.equivFin _, Fintype.equivFin _, F, 0, rfl⟩⟩

end Optima
