import Verif.Props.LineSearch
import Verif.Props.EquivalentBounded
import Verif.Props.Convex

/-!
# C34 with the state of `ResidualFunction`

The errors minimised by the line search depend on the basic variables, which depend on the evaluations made before. `minimizeBrent` returns the best of the points tried, but the evaluation after it may give another error at this point.
-/

set_option linter.unusedSectionVars false

namespace Optima

open Matrix

namespace Brent

variable {K : Type*} [Field K] [LinearOrder K] [IsStrictOrderedRing K] {σ : Type*}

/-- The calls made from state `s` on, latest first, with the values returned. -/
inductive Calls (f : σ → K → Option (σ × K)) (s : σ) : List (K × K) → σ → Prop
  | nil : Calls f s [] s
  | call {log t a t' y} : Calls f s log t → f t a = some (t', y) → Calls f s ((a, y) :: log) t'

/-- The loop invariant. -/
structure InvM (log : List (K × K)) (a b : K) (s : St K) : Prop where
  lo : a ≤ s.min
  hi : s.max ≤ b
  mx : s.min ≤ s.x
  xM : s.x ≤ s.max
  mem : (s.x, s.fx) ∈ log
  best : ∀ q ∈ log, s.fx ≤ q.2
  inside : ∀ q ∈ log, a ≤ q.1 ∧ q.1 ≤ b

theorem absorb_inv {golden tol a b : K} (hg0 : 0 < golden) (hg1 : golden ≤ 1) (ht : 0 ≤ tol) {log} {s : St K} (h : InvM log a b s) (hd : ¬ done tol s) (fu : K) : InvM ((trial golden tol s, fu) :: log) a b (absorb golden tol s fu) := by
  obtain ⟨t1, t2, -⟩ := trial_inside hg0 hg1 ht h.mx h.xM hd
  unfold absorb
  dsimp only
  generalize trial golden tol s = u at *
  have hu : a ≤ u ∧ u ≤ b := ⟨le_trans h.lo t1, le_trans t2 h.hi⟩
  have hin : ∀ q ∈ (u, fu) :: log, a ≤ q.1 ∧ q.1 ≤ b := by
    intro y hy; rcases List.mem_cons.1 hy with rfl | hy; exacts [hu, h.inside y hy]
  have := h.lo; have := h.hi; have := h.mx; have := h.xM
  split_ifs with c1 c2 c3 c4 c5 c6
  · exact ⟨by dsimp only; linarith, by dsimp only; linarith, c2, t2, by simp, by
      intro y hy; rcases List.mem_cons.1 hy with rfl | hy
      · exact le_rfl
      · exact le_trans c1 (h.best y hy), hin⟩
  · exact ⟨by dsimp only; linarith, by dsimp only; linarith, t1, (not_le.1 c2).le, by simp, by
      intro y hy; rcases List.mem_cons.1 hy with rfl | hy
      · exact le_rfl
      · exact le_trans c1 (h.best y hy), hin⟩
  all_goals
    refine ⟨?_, ?_, ?_, ?_, List.mem_cons_of_mem _ h.mem, ?_, hin⟩
    · dsimp only; linarith [hu.1]
    · dsimp only; linarith [hu.2]
    · dsimp only; linarith
    · dsimp only; linarith
    · intro y hy; rcases List.mem_cons.1 hy with rfl | hy
      · exact (not_le.1 c1).le
      · exact h.best y hy

theorem loopM_inv {f : σ → K → Option (σ × K)} {golden tol a b : K} (hg0 : 0 < golden) (hg1 : golden ≤ 1) (ht : 0 ≤ tol) {s0 : σ} {first : K × K} : ∀ (n : ℕ) (s : σ) (st : St K) (log : List (K × K)), InvM (log ++ [first]) a b st → Calls f s0 (log ++ [first]) s →
    ∀ t r, loopM f golden tol n s st = some (t, r) → ∃ log', InvM (log' ++ [first]) a b r ∧ Calls f s0 (log' ++ [first]) t ∧ log'.length ≤ log.length + n := by
  intro n
  induction n with
  | zero =>
    intro s st log h1 h2 t r h
    cases h
    exact ⟨log, h1, h2, le_rfl⟩
  | succ n ih =>
    intro s st log h1 h2 t r h
    unfold loopM at h
    split_ifs at h with hd
    · cases h
      exact ⟨log, h1, h2, by omega⟩
    · split at h
      · cases h
      · rename_i s' fu hf
        obtain ⟨log', a1, a2, a3⟩ := ih s' _ ((trial golden tol st, fu) :: log) (absorb_inv hg0 hg1 ht h1 hd fu) (.call h2 hf) t r h
        exact ⟨log', a1, a2, by simp only [List.length_cons] at a3; omega⟩

/-- **C06 for functions with a state**: `minimizeBrent` calls the function within the bracket only, first at its upper end, at most `maxiters + 1` times, and returns a point with the smallest value returned. -/
theorem brentM_safe {f : σ → K → Option (σ × K)} {golden tol a b : K} (hg0 : 0 < golden) (hg1 : golden ≤ 1) (ht : 0 ≤ tol) (hab : a ≤ b) {maxiters : ℕ} (hm : maxiters ≠ 0) {s t : σ} {r : St K} (h : minimizeBrentM f golden a b tol maxiters s = some (t, r)) :
    ∃ log y, Calls f s (log ++ [(b, y)]) t ∧ (r.x, r.fx) ∈ log ++ [(b, y)] ∧ (∀ q ∈ log ++ [(b, y)], r.fx ≤ q.2 ∧ a ≤ q.1 ∧ q.1 ≤ b) ∧ log.length ≤ maxiters := by
  unfold minimizeBrentM at h
  split at h
  · cases h
  · rename_i s' b0 h0
    obtain ⟨⟨s1, y⟩, e1, e2⟩ := Option.map_eq_some_iff.1 h0
    cases e2
    obtain ⟨log, c1, c2, c3⟩ := loopM_inv hg0 hg1 ht (first := (b, y)) (runs maxiters) _ _ [] (by
      refine ⟨le_rfl, le_rfl, hab, le_rfl, by simp [init], fun q hq => ?_, fun q hq => ?_⟩
      · obtain rfl : q = (b, y) := by simpa using hq
        exact le_rfl
      · obtain rfl : q = (b, y) := by simpa using hq
        exact ⟨hab, le_rfl⟩) (.call .nil e1) _ _ h
    refine ⟨log, y, c2, c1.mem, fun q hq => ⟨c1.best q hq, c1.inside q hq⟩, ?_⟩
    simpa [runs, hm] using c3

/-- If the values depend on the point only, the function without state decides. -/
theorem brentM_pure {f : σ → K → Option (σ × K)} (g : K → K) (P : σ → Prop) {golden tol a b : K} (hg0 : 0 < golden) (hg1 : golden ≤ 1) (ht : 0 ≤ tol) (hab : a ≤ b) (hf : ∀ s x t y, P s → a ≤ x → x ≤ b → f s x = some (t, y) → P t ∧ y = g x) {maxiters : ℕ} {s t : σ} {r : St K}
    (hs : P s) (h : minimizeBrentM f golden a b tol maxiters s = some (t, r)) : P t ∧ (minimizeBrent g golden a b tol maxiters).1 = r := by
  have key : ∀ (n : ℕ) (s : σ) (st : St K), P s → Inv g a b st → loopM f golden tol n s st = some (t, r) → P t ∧ (loop g golden tol n st).1 = r := by
    intro n
    induction n with
    | zero => intro s st hs _ h; cases h; exact ⟨hs, rfl⟩
    | succ n ih =>
      intro s st hs hi h
      unfold loopM at h
      unfold loop
      split_ifs at h ⊢ with hd
      · cases h; exact ⟨hs, rfl⟩
      · split at h
        · cases h
        · rename_i s' fu hfu
          obtain ⟨t1, t2, -⟩ := trial_inside hg0 hg1 ht hi.mx hi.xM hd
          obtain ⟨p1, rfl⟩ := hf _ _ _ _ hs (hi.lo.trans t1) (t2.trans hi.hi) hfu
          exact ih s' _ p1 (update_inv hg0 hg1 ht hi hd) h
  unfold minimizeBrentM at h
  split at h
  · cases h
  · rename_i s' b0 h0
    obtain ⟨⟨s1, y⟩, e1, e2⟩ := Option.map_eq_some_iff.1 h0
    cases e2
    obtain ⟨p1, rfl⟩ := hf _ _ _ _ hs hab le_rfl e1
    exact key _ _ _ p1 (init_inv g hab) h

end Brent

variable {K : Type*} [Field K] [LinearOrder K] [IsStrictOrderedRing K] {nx np ny nz nw : ℕ} {σ τ : Type*}

theorem mix_onSegment {alpha : K} (h0 : 0 ≤ alpha) (h1 : alpha ≤ 1) (uo u : MVec K nx np nw) : OnSegment alpha uo u (MVec.mix alpha uo u) :=
  ⟨h0, h1, fun i => by simp only [MVec.mix]; ring, fun i => by simp only [MVec.mix]; ring, fun i => by simp only [MVec.mix]; ring⟩

theorem OnSegment.inBounds {alpha : K} {uo u v : MVec K nx np nw} (h : OnSegment alpha uo u v) {B : Bounds K nx np} (h1 : InBounds B uo) (h2 : InBounds B u) : InBounds B v := by
  obtain ⟨a0, a1, ax, ap, -⟩ := h
  have key : ∀ {l h : Option K} {y z : K}, Between l h y → Between l h z → Between l h (y + alpha * (z - y)) := by
    intro l h y z hy hz
    have h1 : 0 ≤ 1 - alpha := by linarith
    refine ⟨fun l' hl => ?_, fun h' hh => ?_⟩
    · have := mul_le_mul_of_nonneg_right (hy.1 l' hl) h1
      have := mul_le_mul_of_nonneg_left (hz.1 l' hl) a0
      linarith
    · have := mul_le_mul_of_nonneg_right (hy.2 h' hh) h1
      have := mul_le_mul_of_nonneg_left (hz.2 h' hh) a0
      linarith
  exact ⟨fun i => by rw [ax]; exact key (h1.1 i) (h2.1 i), fun i => by rw [ap]; exact key (h1.2 i) (h2.2 i)⟩

/-- The evaluations of `F` and `E` at points of the segment from `uo` to `u`, latest first: the fraction and the error found. -/
inductive Tried (M : Machine σ K nx np nw) (uo u : MVec K nx np nw) (s : σ) : List (K × K) → σ → Prop
  | nil : Tried M uo u s [] s
  | eval {log t alpha v t'} : Tried M uo u s log t → OnSegment alpha uo u v → M.eval t v = some t' → Tried M uo u s ((alpha, M.error t') :: log) t'

/-- **C34 (any state, any user functions)**: a line search that returns has tried points of the segment only, the full step first, at most `maxiters + 1` in all; it returns a point that had the smallest error when it was tried, after evaluating `F` and `E` there again. -/
theorem lineSearchM_spec (M : Machine σ K nx np nw) (debug : Bool) {golden tol : K} (hg0 : 0 < golden) (hg1 : golden ≤ 1) (ht : 0 ≤ tol) {maxiters : ℕ} (hm : maxiters ≠ 0) (B : Bounds K nx np) (s t : σ) (uo u v : MVec K nx np nw)
    (h : lineSearchM M debug golden tol maxiters B s uo u = some (t, v)) :
    ∃ log full s1 alpha err, Tried M uo u s (log ++ [(1, full)]) s1 ∧ log.length ≤ maxiters ∧ (alpha, err) ∈ log ++ [(1, full)] ∧ (∀ q ∈ log ++ [(1, full)], err ≤ q.2) ∧ OnSegment alpha uo u v ∧ M.eval s1 v = some t ∧ (InBounds B uo → InBounds B u → InBounds B v) := by
  unfold lineSearchM at h
  split_ifs at h
  split at h
  · cases h
  · rename_i s1 b hb
    obtain ⟨t', e1, e2⟩ := Option.map_eq_some_iff.1 h
    cases e2
    obtain ⟨log, y, c1, c2, c3, c4⟩ := Brent.brentM_safe hg0 hg1 ht (zero_le_one (α := K)) hm hb
    have seg := mix_onSegment (c3 _ c2).2.1 (c3 _ c2).2.2 uo u
    refine ⟨log, y, s1, b.x, b.fx, ?_, c4, c2, fun q hq => (c3 q hq).1, seg, e1, fun h1 h2 => seg.inBounds h1 h2⟩
    have key : ∀ l s', Brent.Calls (fun s alpha => (M.eval s (MVec.mix alpha uo u)).map fun t => (t, M.error t)) s l s' → (∀ q ∈ l, 0 ≤ q.1 ∧ q.1 ≤ 1) → Tried M uo u s l s' := by
      intro l s' hc
      induction hc with
      | nil => exact fun _ => .nil
      | @call log t a t' y hc hf ih =>
        intro hq
        obtain ⟨t1, g1, g2⟩ := Option.map_eq_some_iff.1 hf
        cases g2
        exact .eval (ih fun q h => hq q (List.mem_cons_of_mem _ h)) (mix_onSegment (hq _ List.mem_cons_self).1 (hq _ List.mem_cons_self).2 uo u) g1
    exact key _ _ c1 fun q hq => (c3 q hq).2

/-- If the error depends on the point only, the line search is that of `lineSearch`. -/
theorem lineSearchM_pure (M : Machine σ K nx np nw) (debug : Bool) {golden tol : K} (hg0 : 0 < golden) (hg1 : golden ≤ 1) (ht : 0 ≤ tol) {maxiters : ℕ} (B : Bounds K nx np) (P : σ → Prop) (E : MVec K nx np nw → K) (s t : σ) (uo u v : MVec K nx np nw)
    (hE : ∀ s alpha v t, P s → OnSegment alpha uo u v → M.eval s v = some t → P t ∧ M.error t = E v) (hs : P s) (h : lineSearchM M debug golden tol maxiters B s uo u = some (t, v)) :
    lineSearch debug golden tol maxiters B E uo u = some v ∧ P t ∧ M.error t = E v := by
  unfold lineSearchM at h
  unfold lineSearch
  split_ifs at h ⊢
  split at h
  · cases h
  · rename_i s1 b hb
    obtain ⟨t', e1, e2⟩ := Option.map_eq_some_iff.1 h
    cases e2
    obtain ⟨p1, p2⟩ := Brent.brentM_pure (fun alpha => E (MVec.mix alpha uo u)) P hg0 hg1 ht (zero_le_one (α := K)) (fun s x t y hs h0 h1 hf => by
      obtain ⟨t1, g1, g2⟩ := Option.map_eq_some_iff.1 hf
      cases g2
      exact hE _ _ _ _ hs (mix_onSegment h0 h1 uo u) g1) hs hb
    have hin := Brent.loop_inv (f := fun alpha => E (MVec.mix alpha uo u)) hg0 hg1 ht (Brent.runs maxiters) _ (Brent.init_inv _ (zero_le_one (α := K)))
    have hx : 0 ≤ b.x ∧ b.x ≤ 1 := by
      rw [← p2]
      exact ⟨hin.1.lo.trans hin.1.mx, hin.1.xM.trans hin.1.hi⟩
    refine ⟨?_, hE _ _ _ _ p1 (mix_onSegment hx.1 hx.2 uo u) e1⟩
    dsimp only
    rw [p2]

/-- **C34 (the solver's errors, exact arithmetic)**: where the weights determine the basic variables along the segment, the line search leaves `F` and `E` with an error not larger than that of the full step. -/
theorem lineSearch_no_worse_partial {F : Smooth K nx np nz} {cfg : Config K nx np ny nz τ} (X : BoundedSolve F cfg) (debug : Bool) {golden tol : K} (hg0 : 0 < golden) (hg1 : golden ≤ 1) (ht : 0 ≤ tol) {maxiters : ℕ} (hm : maxiters ≠ 0) {s t} {uo u v : MVec K nx np (ny + nz)}
    (hs : Reach cfg s) (hB : ∀ alpha v, OnSegment alpha uo u v → F.OneBasis cfg.pb v.x) (h : lineSearchM (cfg.machine none) debug golden tol maxiters cfg.pb.bounds s uo u = some (t, v)) {s' t'} (hs' : Reach cfg s') (ht' : (cfg.machine none).eval s' u = some t') :
    t.errors.error ≤ t'.errors.error := by
  classical
  have hinv := machine_inv X.thr.ge X.eps.ge X.nx_pos (cfg := cfg) none
  have same : ∀ alpha v, OnSegment alpha uo u v → ∀ s1 t1 s2 t2, Reach cfg s1 → Reach cfg s2 → (cfg.machine none).eval s1 v = some t1 → (cfg.machine none).eval s2 v = some t2 → t1.errors.error = t2.errors.error := by
    intro alpha v hv s1 t1 s2 t2 h1 h2 e1 e2
    obtain ⟨-, a1⟩ := hinv.eval _ _ _ h1 e1
    obtain ⟨-, a2⟩ := hinv.eval _ _ _ h2 e2
    obtain ⟨-, -, -, -, -, he⟩ := evaluated_same (e := Equiv.refl _) X X ⟨fun _ _ _ => rfl, fun _ _ _ _ => rfl, fun _ _ _ _ => rfl, fun _ _ => rfl, fun _ _ _ _ => rfl, fun _ _ => rfl⟩
      ⟨1, fun l j => by simp [Matrix.one_apply], fun l j => by simp [Matrix.one_apply], fun l => by simp [Matrix.one_apply]⟩ ⟨1, fun l j => by simp [Matrix.one_apply], fun l j => by simp [Matrix.one_apply], fun l => by simp [Matrix.one_apply]⟩
      ⟨fun _ => rfl, fun _ => rfl, rfl, rfl⟩ a1 a2 ⟨rfl, rfl, fun _ => rfl⟩ (hB alpha v hv)
    exact he
  let E : MVec K nx np (ny + nz) → K := fun v => (X.eval hs v).choose.errors.error
  have hE : ∀ s alpha v t, Reach cfg s → OnSegment alpha uo u v → (cfg.machine none).eval s v = some t → Reach cfg t ∧ (cfg.machine none).error t = E v := by
    intro s1 alpha v t h1 hv he
    exact ⟨(hinv.eval _ _ _ h1 he).1, same alpha v hv _ _ _ _ h1 hs he (X.eval hs v).choose_spec⟩
  obtain ⟨a1, -, a3⟩ := lineSearchM_pure (cfg.machine none) debug hg0 hg1 ht cfg.pb.bounds (Reach cfg) E s t uo u v hE hs h
  have full : OnSegment 1 uo u u := by have := mix_onSegment zero_le_one le_rfl uo u; rwa [mix_one] at this
  calc t.errors.error = E v := a3
    _ ≤ E u := (lineSearch_spec debug hg0 hg1 ht hm _ E uo u v a1).2.1
    _ = t'.errors.error := ((hE _ _ _ _ hs' full ht').2).symm

/-! ### A line search that ends with a larger error than the full step

`x0 + 2 x1 = 2.218034`, no objective, from `(0.618034, 0)` with the trial point `(0.618034, 1)`. The points tried are at the fractions 1, 0.618034 and 0.381966025156. At the second the two variables weigh the same; it is tried with `x1` basic and evaluated again with `x0` basic. -/

theorem eval_basics {cfg : Config K nx np ny nz τ} {s t : Parts K nx np ny nz τ cfg.pb.Ax} {v} (h : (cfg.machine none).eval s v = some t) : ∃ (ev : Evals K nx np nz) (rf : _), t.rf = some rf ∧ t.ech = rf.ech ∧ rf.ech.rwq = some rf.M.RWQ ∧
    Ech.wUpdate cfg.env.debug cfg.env.o cfg.env.sort cfg.env.thr cfg.env.eps s.ech ev.hx ev.hp (weights cfg.pb v.x) = .ok rf.ech := by
  obtain ⟨s1, h1, rfl⟩ := Option.map_eq_some_iff.1 h
  unfold Config.updateF at h1
  split at h1
  · cases h1
  · rename_i t' ev _
    split at h1
    · rename_i rf hrf
      cases h1
      obtain ⟨a1, a2⟩ := rfUpdate_wUpdate hrf
      exact ⟨ev, rf, rfl, rfl, a2, a1⟩
    · cases h1

/-- Without non-linear constraints, an evaluation keeps the basic variables if no other variable outweighs one of them. -/
theorem eval_kept {cfg : Config K nx np ny 0 τ} (hthr : 0 ≤ cfg.env.thr) {s0 s1 s2 : Parts K nx np ny 0 τ cfg.pb.Ax} {v1 v2} (h0 : Reach cfg s0) (h1 : (cfg.machine none).eval s0 v1 = some s1) (h2 : (cfg.machine none).eval s1 v2 = some s2) {rf1 rf2} (e1 : s1.rf = some rf1)
    (e2 : s2.rf = some rf2) (hw : ∀ b k, weights cfg.pb v2.x (rf1.M.RWQ.jn k) ≤ weights cfg.pb v2.x (rf1.M.RWQ.jb b)) (i : Fin nx) : (∃ b, rf2.M.RWQ.jb b = i) ↔ ∃ b, rf1.M.RWQ.jb b = i := by
  obtain ⟨ev1, rf, a1, a2, a3, a4⟩ := eval_basics h1
  cases e1.symm.trans a1
  obtain ⟨ev2, rf', b1, b2, b3, b4⟩ := eval_basics h2
  cases e2.symm.trans b1
  rw [a2] at b4
  exact Ech.wUpdate_basics_kept hthr rfl h0 a4 b4 a3 b3 hw i

variable (K) in
/-- No objective. -/
def flat : Smooth K 2 0 0 where
  g := 0
  H := fun _ _ => 1
  Hp := 0
  hx := 0
  hp := 0
  h0 := 0
  v := 0
  vx := 0
  vp := 0

variable (K) in
/-- The constraint. -/
def skew : MProblem K 2 0 1 0 where
  Ax := fun _ => ![1, 2]
  Ap := fun _ q => q.elim0
  b := fun _ => 2218034 / 1000000
  xlower := fun _ => none
  xupper := fun _ => none
  plower := fun _ => none
  pupper := fun _ => none

theorem skew_stack : (∀ l, stack (skew K).Ax (flat K).hx l = ![1, 2]) ∧ ∀ l, (flat K).rhs (skew K) l = 2218034 / 1000000 := by
  refine ⟨fun l => ?_, fun l => ?_⟩
  · obtain rfl : l = Fin.castAdd 0 (0 : Fin 1) := Fin.ext (by omega); funext j; simp only [stack, Fin.addCases_left, skew]
  · obtain rfl : l = Fin.castAdd 0 (0 : Fin 1) := Fin.ext (by omega); simp only [Smooth.rhs, Fin.addCases_left, skew]

theorem skew_preferred {wt : Fin 2 → K} {B} (h : Preferred (stack (skew K).Ax (flat K).hx) wt B) : (B 0 ∧ ¬ B 1 ∧ wt 1 ≤ wt 0) ∨ (B 1 ∧ ¬ B 0 ∧ wt 0 ≤ wt 1) := by
  have hne : ∀ i j : Fin 2, i ≠ j → ¬ B i → B j := by
    intro i j hij hi
    by_contra hj
    have hall : ∀ k, ¬ B k := by
      intro k
      rcases (by omega : k = i ∨ k = j) with rfl | rfl <;> assumption
    obtain ⟨c, c1, c2, -⟩ := h.exch 0 (hall 0)
    have := c2 0
    rw [Fin.sum_univ_two, c1 0 (hall 0), c1 1 (hall 1), skew_stack.1] at this
    simp at this
  have hnb : ¬ (B 0 ∧ B 1) := by
    rintro ⟨h0, h1⟩
    have := congrFun (h.indep ![2, -1] (fun j hj => by revert hj; revert j; rw [Fin.forall_fin_two]; exact ⟨fun h => absurd h0 h, fun h => absurd h1 h⟩) fun l => by simp [skew_stack.1, Fin.sum_univ_two]) 1
    simp at this
  have hex : ∀ i j : Fin 2, i ≠ j → ¬ B i → wt i ≤ wt j := by
    intro i j hij hi
    obtain ⟨c, c1, c2, c3⟩ := h.exch i hi
    refine c3 j fun h0 => ?_
    have := c2 0
    have hall : ∀ k, c k = 0 := by
      intro k
      rcases (by omega : k = i ∨ k = j) with rfl | rfl
      · exact c1 _ hi
      · exact h0
    rw [Fin.sum_univ_two, hall 0, hall 1, skew_stack.1] at this
    revert this
    revert i
    rw [Fin.forall_fin_two]
    constructor <;> simp
  by_cases h0 : B 0
  · have h1 : ¬ B 1 := fun h1 => hnb ⟨h0, h1⟩
    exact .inl ⟨h0, h1, hex 1 0 (by decide) h1⟩
  · exact .inr ⟨hne 0 1 (by decide) h0, h0, hex 0 1 (by decide) h0⟩

section
variable {cfg : Config K 2 0 1 0 τ}

theorem skew_weights (hpb : cfg.pb = skew K) (x : Fin 2 → K) (i) : weights cfg.pb x i = |x i| := by
  rw [hpb]
  simp [weights, skew]

theorem skew_error (hpb : cfg.pb = skew K) {s} {x : Fin 2 → K} {B} (P : PointSpec (flat K) cfg s ⟨x, 0, 0⟩ B) (h0 : 0 ≤ s.errors.error) :
    (B 0 ∧ ¬ B 1 → s.errors.error = |2218034 / 1000000 - (x 0 + 2 * x 1)|) ∧ (B 1 ∧ ¬ B 0 → s.errors.error = |2218034 / 1000000 - (x 0 + 2 * x 1)| / 2) := by
  have hlag : ∀ i, (flat K).lag cfg.pb ⟨x, 0, 0⟩ i = 0 := by
    intro i
    simp [Smooth.lag, flat]
  have hst : ∀ l, stack cfg.pb.Ax (flat K).hx l = ![1, 2] := by rw [hpb]; exact skew_stack.1
  have hd : ∀ l, (flat K).defect cfg.pb ⟨x, 0, 0⟩ l = 2218034 / 1000000 - (x 0 + 2 * x 1) := by
    intro l
    have : (flat K).rhs cfg.pb l = 2218034 / 1000000 := by rw [hpb]; exact skew_stack.2 l
    simp [Smooth.defect, this, hst, Fin.sum_univ_two]
  have key : ∀ t, 0 ≤ t → (s.errors.error ≤ t ↔ ∃ ρ : Fin 2 → K, (∀ j, ¬ B j → ρ j = 0) ∧ ρ 0 + 2 * ρ 1 = 2218034 / 1000000 - (x 0 + 2 * x 1) ∧ ∀ j, |ρ j| ≤ t) := by
    intro t ht
    rw [P.error t ht]
    constructor
    · rintro ⟨-, -, ρ, r1, r2, r3⟩
      refine ⟨ρ, r1, ?_, r3⟩
      have := r2 0
      rw [hd, Fin.sum_univ_two, hst] at this
      simpa using this
    · rintro ⟨ρ, r1, r2, r3⟩
      refine ⟨fun i _ _ => by rw [hlag, abs_zero]; exact ht, fun q => q.elim0, ρ, r1, fun l => ?_, r3⟩
      rw [hd, Fin.sum_univ_two, hst]
      simpa using r2
  generalize 2218034 / 1000000 - (x 0 + 2 * x 1) = d at key ⊢
  constructor
  · rintro ⟨b0, b1⟩
    refine le_antisymm ((key _ (abs_nonneg _)).2 ⟨![d, 0], ?_, ?_, ?_⟩) ?_
    · rw [Fin.forall_fin_two]; exact ⟨fun h => absurd b0 h, fun _ => rfl⟩
    · simp
    · rw [Fin.forall_fin_two]; simp
    · obtain ⟨ρ, r1, r2, r3⟩ := (key _ h0).1 le_rfl
      rw [r1 1 b1] at r2
      have := r3 0
      rw [← r2]
      simpa using this
  · rintro ⟨b1, b0⟩
    have hn := abs_nonneg d
    refine le_antisymm ((key _ (by positivity)).2 ⟨![0, d / 2], ?_, ?_, ?_⟩) ?_
    · rw [Fin.forall_fin_two]; exact ⟨fun _ => rfl, fun h => absurd b1 h⟩
    · simp; ring
    · rw [Fin.forall_fin_two]; simp [abs_div]; positivity
    · obtain ⟨ρ, r1, r2, r3⟩ := (key _ h0).1 le_rfl
      rw [r1 0 b0] at r2
      have := r3 1
      rw [← r2, zero_add, abs_mul, abs_of_pos (zero_lt_two (α := K))]
      linarith

/-- **C34, negation**: in exact arithmetic, with the constant of `minimizeBrent`, two iterations and any sufficiently small tolerance, the line search leaves `F` and `E` with the error 0.363932 although the full step has the error 0.2. -/
theorem lineSearch_worse (X : BoundedSolve (flat K) cfg) (hpb : cfg.pb = skew K) (debug : Bool) {tol : K} (ht : 0 < tol) (ht1 : tol ≤ 1 / 100) {s} (hs : Reach cfg s) :
    ∃ full t v, (cfg.machine none).eval s ⟨![618034 / 1000000, 1], 0, 0⟩ = some full ∧ full.errors.error = 1 / 5 ∧
      lineSearchM (cfg.machine none) debug (381966 / 1000000) tol 2 cfg.pb.bounds s ⟨![618034 / 1000000, 0], 0, 0⟩ ⟨![618034 / 1000000, 1], 0, 0⟩ = some (t, v) ∧ t.errors.error = 363932 / 1000000 := by
  have hinv := machine_inv X.thr.ge X.eps.ge X.nx_pos (cfg := cfg) none
  have mixed : ∀ a : K, MVec.mix a ⟨![618034 / 1000000, 0], 0, 0⟩ ⟨![618034 / 1000000, 1], 0, 0⟩ = (⟨![618034 / 1000000, a], 0, 0⟩ : MVec K 2 0 (1 + 0)) := by
    intro a
    unfold MVec.mix
    congr 1
    · funext i
      revert i
      rw [Fin.forall_fin_two]
      constructor <;> simp
      ring
    · funext i; exact i.elim0
    · funext i; simp
  have pref : ∀ {r : Parts K 2 0 1 0 τ cfg.pb.Ax} {x : Fin 2 → K} {B}, PointSpec (flat K) cfg r ⟨x, 0, 0⟩ B → (B 0 ∧ ¬ B 1 ∧ |x 1| ≤ |x 0|) ∨ (B 1 ∧ ¬ B 0 ∧ |x 0| ≤ |x 1|) := by
    intro r x B P
    have hb := P.basis
    have hst : stack cfg.pb.Ax (flat K).hx = stack (skew K).Ax (flat K).hx := by rw [hpb]
    rw [hst] at hb
    have := skew_preferred hb
    simpa only [skew_weights hpb] using this
  -- the full step
  obtain ⟨s1, e1⟩ := X.eval hs ⟨![618034 / 1000000, 1], 0, 0⟩
  obtain ⟨p1, q1⟩ := hinv.eval _ _ _ hs e1
  obtain ⟨rf1, f1, P1⟩ := X.specAt q1
  have B1 : (∃ b, rf1.M.RWQ.jb b = 1) ∧ ¬ ∃ b, rf1.M.RWQ.jb b = 0 := by
    rcases pref P1 with ⟨-, -, h⟩ | ⟨h1, h0, -⟩
    · simp at h
      rw [abs_of_pos (by norm_num)] at h
      norm_num at h
    · exact ⟨h1, h0⟩
  have E1 : s1.errors.error = 1 / 5 := by
    rw [(skew_error hpb P1 (FreeSolve.error_nonneg q1)).2 B1]
    simp
    rw [abs_of_neg (by norm_num)]
    norm_num
  -- the second point
  obtain ⟨s2, e2⟩ := X.eval p1 ⟨![618034 / 1000000, 618034 / 1000000], 0, 0⟩
  obtain ⟨p2, q2⟩ := hinv.eval _ _ _ p1 e2
  obtain ⟨rf2, f2, P2⟩ := X.specAt q2
  have tie : ∀ i j : Fin 2, weights cfg.pb ![618034 / 1000000, 618034 / 1000000] i ≤ weights cfg.pb ![618034 / 1000000, 618034 / 1000000] j := by
    intro i j
    rw [skew_weights hpb, skew_weights hpb]
    revert i j
    simp only [Fin.forall_fin_two]
    simp
  have B2 : (∃ b, rf2.M.RWQ.jb b = 1) ∧ ¬ ∃ b, rf2.M.RWQ.jb b = 0 := by
    have k := eval_kept X.thr.ge hs e1 e2 f1 f2 (fun _ _ => tie _ _)
    rw [k, k]
    exact B1
  have E2 : s2.errors.error = 181966 / 1000000 := by
    rw [(skew_error hpb P2 (FreeSolve.error_nonneg q2)).2 B2]
    simp
    rw [abs_of_pos (by norm_num)]
    norm_num
  -- the third point
  obtain ⟨s3, e3⟩ := X.eval p2 ⟨![618034 / 1000000, 618034 / 1000000 * (618034 / 1000000)], 0, 0⟩
  obtain ⟨p3, q3⟩ := hinv.eval _ _ _ p2 e3
  obtain ⟨rf3, f3, P3⟩ := X.specAt q3
  have B3 : (∃ b, rf3.M.RWQ.jb b = 0) ∧ ¬ ∃ b, rf3.M.RWQ.jb b = 1 := by
    rcases pref P3 with ⟨h1, h0, -⟩ | ⟨-, -, h⟩
    · exact ⟨h1, h0⟩
    · simp only [cons_val_zero, cons_val_one] at h
      rw [abs_of_pos (by norm_num), abs_of_pos (by norm_num)] at h
      norm_num at h
  have E3 : s3.errors.error = 2218034 / 1000000 - (618034 / 1000000 + 2 * (618034 / 1000000 * (618034 / 1000000))) := by
    rw [(skew_error hpb P3 (FreeSolve.error_nonneg q3)).1 B3]
    simp only [cons_val_zero, cons_val_one]
    rw [abs_of_pos (by norm_num)]
  -- the second point again
  obtain ⟨s4, e4⟩ := X.eval p3 ⟨![618034 / 1000000, 618034 / 1000000], 0, 0⟩
  obtain ⟨p4, q4⟩ := hinv.eval _ _ _ p3 e4
  obtain ⟨rf4, f4, P4⟩ := X.specAt q4
  have B4 : (∃ b, rf4.M.RWQ.jb b = 0) ∧ ¬ ∃ b, rf4.M.RWQ.jb b = 1 := by
    have k := eval_kept X.thr.ge p2 e3 e4 f3 f4 (fun _ _ => tie _ _)
    rw [k, k]
    exact B3
  have E4 : s4.errors.error = 363932 / 1000000 := by
    rw [(skew_error hpb P4 (FreeSolve.error_nonneg q4)).1 B4]
    simp only [cons_val_zero, cons_val_one]
    rw [abs_of_pos (by norm_num)]
    norm_num
  refine ⟨s1, s4, ⟨![618034 / 1000000, 618034 / 1000000], 0, 0⟩, e1, E1, ?_, E4⟩
  have hin : insideX cfg.pb.bounds (⟨![618034 / 1000000, 1], 0, 0⟩ : MVec K 2 0 (1 + 0)) = true := by
    have h1 : ∀ i, cfg.pb.bounds.xupper i = none := by intro i; change cfg.pb.xupper i = none; rw [hpb]; rfl
    have h2 : ∀ i, cfg.pb.bounds.xlower i = none := by intro i; change cfg.pb.xlower i = none; rw [hpb]; rfl
    simp [insideX, h1, h2, above, below]
  -- the first two trial points of `minimizeBrent`
  have step1 : ∀ y : K, ¬ Brent.done tol (Brent.init (fun _ => y) 0 1) ∧ Brent.deltas (381966 / 1000000) tol (Brent.init (fun _ => y) 0 1) = (-1, -(381966 / 1000000)) ∧
      Brent.trial (381966 / 1000000) tol (Brent.init (fun _ => y) 0 1) = 618034 / 1000000 := by
    intro y
    have d : Brent.deltas (381966 / 1000000) tol (Brent.init (fun _ => y) 0 1) = (-1, -(381966 / 1000000)) := by
      unfold Brent.deltas
      rw [if_neg (by simp [Brent.fract1, Brent.init]; linarith)]
      simp only [Brent.goldenStep, Brent.St.mid, Brent.init]
      norm_num
    refine ⟨?_, d, ?_⟩
    · simp only [Brent.done, Brent.St.mid, Brent.fract2, Brent.fract1, Brent.init]
      rw [abs_of_pos (by norm_num), abs_of_pos (by norm_num)]
      intro h
      linarith
    · unfold Brent.trial
      rw [d]
      simp only [Brent.fract1, Brent.init]
      norm_num
      intro h
      exact absurd h (by linarith)
  let b1 : Brent.St K := { min := 0, max := 1, x := 618034 / 1000000, w := 1, v := 1, delta := -(381966 / 1000000), delta2 := -1, fx := 181966 / 1000000, fw := 1 / 5, fv := 1 / 5, log := [618034 / 1000000, 1] }
  have ab1 : Brent.absorb (381966 / 1000000) tol (Brent.init (fun _ => 1 / 5) 0 1) (181966 / 1000000) = b1 := by
    unfold Brent.absorb
    rw [(step1 (1 / 5)).2.1, (step1 (1 / 5)).2.2]
    simp only [Brent.init, b1]
    norm_num
  have step2 : ¬ Brent.done tol b1 ∧ Brent.trial (381966 / 1000000) tol b1 = 618034 / 1000000 * (618034 / 1000000) := by
    have d : (Brent.deltas (381966 / 1000000) tol b1).2 = 381966 / 1000000 * (0 - 618034 / 1000000) := by
      have hg : (Brent.goldenStep (381966 / 1000000) b1).2 = 381966 / 1000000 * (0 - 618034 / 1000000) := by
        simp only [Brent.goldenStep, Brent.St.mid, b1]
        norm_num
      have hq : |(Brent.parabola b1).2 * b1.delta2 / 2| ≤ |(Brent.parabola b1).1| := by simp [Brent.parabola, b1]
      unfold Brent.deltas
      dsimp only
      by_cases c1 : Brent.fract1 tol b1 < |b1.delta2|
      · rw [if_pos c1, if_pos (.inl hq), hg]
      · rw [if_neg c1, hg]
    constructor
    · simp only [Brent.done, Brent.St.mid, Brent.fract2, Brent.fract1, b1]
      rw [abs_of_pos (by norm_num), abs_of_pos (by norm_num)]
      intro h
      linarith
    · unfold Brent.trial
      rw [d]
      simp only [Brent.fract1, b1]
      norm_num
      intro h
      exact absurd h (by linarith)
  have ab2 : ∀ y : K, 181966 / 1000000 < y → (Brent.absorb (381966 / 1000000) tol b1 y).x = 618034 / 1000000 := by
    intro y hy
    unfold Brent.absorb
    dsimp only
    rw [if_neg (not_le.2 hy)]
    split_ifs <;> rfl
  unfold lineSearchM
  rw [hin]
  simp only [Bool.not_true, Bool.and_false, Bool.false_eq_true, if_false, mixed]
  have hbr : ∃ b, Brent.minimizeBrentM (fun s alpha => ((cfg.machine none).eval s ⟨![618034 / 1000000, alpha], 0, 0⟩).map fun t => (t, (cfg.machine none).error t)) (381966 / 1000000) 0 1 tol 2 s = some (s3, b) ∧ b.x = 618034 / 1000000 := by
    refine ⟨Brent.absorb (381966 / 1000000) tol b1 (s3.errors.error), ?_, ab2 _ (by rw [E3]; norm_num)⟩
    unfold Brent.minimizeBrentM Brent.initM
    dsimp only
    rw [e1]
    change Brent.loopM _ _ _ (1 + 1) s1 (Brent.init (fun _ => s1.errors.error) 0 1) = _
    rw [E1]
    unfold Brent.loopM
    rw [if_neg (step1 _).1, (step1 _).2.2, e2]
    change Brent.loopM _ _ _ (0 + 1) s2 (Brent.absorb (381966 / 1000000) tol (Brent.init (fun _ => 1 / 5) 0 1) s2.errors.error) = _
    rw [E2, ab1]
    unfold Brent.loopM
    rw [if_neg step2.1, step2.2, e3]
    rfl
  obtain ⟨b, hb1, hb2⟩ := hbr
  rw [hb1]
  dsimp only
  rw [hb2, e4]
  rfl

end

/-- The hypotheses hold for an exact environment, before any evaluation. -/
example : ∃ cfg : Config ℝ 2 0 1 0 Unit, BoundedSolve (flat ℝ) cfg ∧ cfg.pb = skew ℝ ∧ Reach cfg (cfg.start () 0 ⟨0, 0, 0, 0, 0, 0, 0, 0⟩ 0 ⟨0, 0, 0⟩) := by
  let f : Evals ℝ 2 0 0 := { f := 0, fx := 0, fxx := 1, fxp := 0, diagfxx := true, h := 0, hx := 0, hp := 0, v := 0, vx := 0, vp := 0, succeeded := true }
  let cfg : Config ℝ 2 0 1 0 Unit := { env := exactEnv, pb := skew ℝ, method := .nullspace, inners := exactInners, user := fun t _ _ _ => some (t, f), userJac := fun t _ _ _ => some (t, f), phi := none }
  refine ⟨cfg, ⟨inBounds_consistent (u := ⟨![0, 0], 0, (0 : Fin 0 → ℝ)⟩) ⟨by rw [Fin.forall_fin_two]; simp [cfg, skew, MProblem.bounds, Between], fun q => q.elim0⟩, rfl, rfl, rfl, exactEnv_oracle, by norm_num, rfl, fun c => exactInners_lu c,
    (by intro h; cases h), fun t x p q => ⟨t, f, rfl, ⟨rfl, rfl, rfl, funext fun l => l.elim0, rfl, rfl, rfl, rfl, rfl⟩⟩, ?_⟩, rfl, start_reach cfg () 0 _ 0 _⟩
  intro y hy
  have := hy 0
  simp only [cfg, skew_stack.1] at this
  funext l
  obtain rfl : l = 0 := Fin.ext (by omega)
  simpa using this

end Optima
