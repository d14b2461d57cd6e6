import Verif.Model.Status
import Verif.Props.MasterSolver

/-!
# C35 and C36: error status, convergence rate and results
-/

set_option linter.unusedSectionVars false

namespace Optima

variable {K : Type*} [Field K] [LinearOrder K] [IsStrictOrderedRing K]

/-! ## C35 -/

/-- The status after the updates with the errors `es` (first to last). -/
def ErrorStatus.after (es : List (Fl K)) : ErrorStatus K := es.foldl ErrorStatus.update ErrorStatus.init

/-- The error of the last but one update, if any. -/
def prevError (es : List (Fl K)) : Fl K := es.dropLast.getLast?.getD .inf

/-- The first error that is not `inf`, if any. -/
def firstError (es : List (Fl K)) : Fl K := (es.find? fun e => !e.isInf).getD .inf

theorem after_append (es : List (Fl K)) (e : Fl K) : ErrorStatus.after (es ++ [e]) = (ErrorStatus.after es).update e := by
  unfold ErrorStatus.after; rw [List.foldl_append]; rfl

/-- **C35**: after any sequence of updates with any errors, including infinities and NaNs, the stored values are the last error, the one before, and the first one that is not infinite. -/
theorem errorStatus_values (es : List (Fl K)) : (ErrorStatus.after es).error = es.getLast?.getD .inf ∧ (ErrorStatus.after es).errorprev = prevError es ∧
    (ErrorStatus.after es).errorfirst = firstError es := by
  induction es using List.reverseRecOn with
  | nil => exact ⟨rfl, rfl, rfl⟩
  | append_singleton es e ih =>
    obtain ⟨i1, i2, i3⟩ := ih
    rw [after_append]
    refine ⟨by simp [ErrorStatus.update], by simp [ErrorStatus.update, prevError, i1], ?_⟩
    have key : ∀ o : Option (Fl K), (∀ a, o = some a → a.isInf = false) → (if (o.getD .inf).isInf then e else o.getD .inf) = (o.or (if !e.isInf then some e else none)).getD .inf := by
      intro o ho
      rcases o with _ | a
      · cases e <;> simp [Fl.isInf]
      · simp [ho a rfl]
    have := key (es.find? fun e => !e.isInf) (fun a ha => by simpa using List.find?_some ha)
    simp only [ErrorStatus.update, i3, firstError, List.find?_append]
    rw [this]
    simp [List.find?]
    cases e <;> rfl

/-- The errors are numbers. -/
def Num (e : Fl K) (x : K) : Prop := e = .fin x

/-- **C35 (flags)**: with the last two errors `a` (previous) and `b` (current), the flags hold exactly if the documented comparisons of the numbers hold. -/
theorem errorStatus_flags (o : ErrorStatusOptions K) (es : List (Fl K)) (a b : K) :
    let s := ErrorStatus.after (es ++ [.fin a, .fin b])
    (s.hasDecreased = true ↔ b < a) ∧ (s.hasIncreased = true ↔ a < b) ∧ (s.hasDecreasedSignificantly o = true ↔ b < o.decreased * a) ∧
    (s.hasIncreasedSignificantly o = true ↔ o.increased * a < b) ∧ s.isntFinite = false := by
  intro s
  obtain ⟨h1, h2, -⟩ := errorStatus_values (es ++ [.fin a, .fin b])
  have e : es ++ [Fl.fin a, Fl.fin b] = (es ++ [Fl.fin a]) ++ [Fl.fin b] := by simp
  have h1 : s.error = .fin b := by rw [show s.error = _ from h1]; simp
  have h2 : s.errorprev = .fin a := by rw [show s.errorprev = _ from h2]; unfold prevError; rw [e, List.dropLast_concat]; simp
  simp [ErrorStatus.hasDecreased, ErrorStatus.hasIncreased, ErrorStatus.hasDecreasedSignificantly, ErrorStatus.hasIncreasedSignificantly, ErrorStatus.isntFinite, h1, h2, Fl.lt, Fl.mul, Fl.isFinite]

/-- **C35 (flags, first update)**: after one update with a number, the error has decreased, also significantly, with respect to the initial infinity. -/
theorem errorStatus_first (o : ErrorStatusOptions K) (b : K) :
    let s := ErrorStatus.after [.fin b]
    s.hasDecreased = true ∧ s.hasIncreased = false ∧ s.hasDecreasedSignificantly o = true ∧ s.hasIncreasedSignificantly o = false ∧ s.isntFinite = false := by
  simp [ErrorStatus.after, ErrorStatus.update, ErrorStatus.init, ErrorStatus.hasDecreased, ErrorStatus.hasIncreased, ErrorStatus.hasDecreasedSignificantly, ErrorStatus.hasIncreasedSignificantly,
    ErrorStatus.isntFinite, Fl.lt, Fl.mul, Fl.isFinite]

/-- **C35 (flags, infinities and NaNs)**: `errorIsntFinite` holds exactly if the last error is `inf` or NaN; a NaN (current or previous) satisfies no other flag; an infinite error after a number has increased, also
    significantly. -/
theorem errorStatus_nonfinite (o : ErrorStatusOptions K) (es : List (Fl K)) (e : Fl K) :
    let s := ErrorStatus.after (es ++ [e])
    (s.isntFinite = true ↔ e = .inf ∨ e = .nan) ∧
    (e = .nan ∨ es.getLast? = some .nan → s.hasDecreased = false ∧ s.hasIncreased = false ∧ s.hasDecreasedSignificantly o = false ∧ s.hasIncreasedSignificantly o = false) ∧
    (∀ a, e = .inf → es.getLast? = some (.fin a) → s.hasIncreased = true ∧ s.hasIncreasedSignificantly o = true ∧ s.hasDecreased = false ∧ s.hasDecreasedSignificantly o = false) := by
  intro s
  obtain ⟨h1, h2, -⟩ := errorStatus_values (es ++ [e])
  have h1 : s.error = e := by rw [show s.error = _ from h1]; simp
  have h2 : s.errorprev = es.getLast?.getD .inf := by rw [show s.errorprev = _ from h2]; unfold prevError; rw [List.dropLast_concat]
  refine ⟨?_, ?_, ?_⟩
  · cases e <;> simp [ErrorStatus.isntFinite, h1, Fl.isFinite]
  · rintro (rfl | h)
    · refine ⟨?_, ?_, ?_, ?_⟩ <;> cases hp : s.errorprev <;>
        simp [ErrorStatus.hasDecreased, ErrorStatus.hasIncreased, ErrorStatus.hasDecreasedSignificantly, ErrorStatus.hasIncreasedSignificantly, h1, hp, Fl.lt, Fl.mul]
    · rw [h] at h2
      refine ⟨?_, ?_, ?_, ?_⟩ <;> cases e <;>
        simp [ErrorStatus.hasDecreased, ErrorStatus.hasIncreased, ErrorStatus.hasDecreasedSignificantly, ErrorStatus.hasIncreasedSignificantly, h1, h2, Fl.lt, Fl.mul]
  · rintro a rfl h
    rw [h] at h2
    simp [ErrorStatus.hasDecreased, ErrorStatus.hasIncreased, ErrorStatus.hasDecreasedSignificantly, ErrorStatus.hasIncreasedSignificantly, h1, h2, Fl.lt, Fl.mul]

/-- The assertions hold after `initialize` exactly if the three options are positive. -/
theorem errorStatus_sanity_init (o : ErrorStatusOptions K) (i0 : K) : (ErrorStatus.init (K := K)).sanity o i0 = true ↔ 0 < o.increased ∧ 0 < o.decreased ∧ 0 < i0 := by
  simp [ErrorStatus.sanity, ErrorStatus.init, Fl.lt, Fl.nonneg, and_assoc]

/-- **C35, observation**: in a debug build, a first error of exactly zero (an initial guess that solves the problem) and any NaN stop the program. -/
theorem errorStatus_sanity_fails (o : ErrorStatusOptions K) (i0 : K) (es : List (Fl K)) (e : Fl K) :
    (ErrorStatus.after [Fl.fin 0]).sanity o i0 = false ∧ (ErrorStatus.after (es ++ [.nan])).sanity o i0 = false := by
  constructor
  · simp [ErrorStatus.after, ErrorStatus.update, ErrorStatus.init, ErrorStatus.sanity, Fl.isInf, Fl.lt]
  · have h1 : (ErrorStatus.after (es ++ [.nan])).error = .nan := by
      rw [(errorStatus_values (es ++ [(.nan : Fl K)])).1]; simp
    simp [ErrorStatus.sanity, h1, Fl.nonneg]

/-- Three errors 8, 2, 1: first 8, and the last one has decreased, but not to less than half. -/
example : (ErrorStatus.after [Fl.fin (8 : ℚ), .fin 2, .fin 1]).hasDecreased = true ∧ (ErrorStatus.after [Fl.fin (8 : ℚ), .fin 2, .fin 1]).hasDecreasedSignificantly ⟨2, 1 / 2⟩ = false := by
  decide +kernel

/-! ### The convergence rate -/

/-- The rate from the last three errors of a list, 0 if there are fewer. -/
def rateOf (es : List K) : K :=
  match es.reverse with
  | e1 :: e2 :: e3 :: _ => (e2 - e1) / (e3 - e2)
  | _ => 0

/-- `converged()` without a user check: it holds exactly if there was an update and the last error is below the tolerance. -/
theorem converged_iff_last (tol : K) (h : History K) : h.converged tol = some true ↔ ∃ e, h.getLast? = some e ∧ e < tol := by
  unfold History.converged
  rcases hl : h.getLast? with _ | e
  · simp
  · simp only [Option.some.injEq]
    split_ifs with c
    · simp [c]
    · simp [c]

/-- The user check is asked exactly if there was an update and the last error is not below the tolerance. -/
theorem converged_asks_iff (tol : K) (h : History K) : h.converged tol = none ↔ ∃ e, h.getLast? = some e ∧ ¬ e < tol := by
  unfold History.converged
  rcases hl : h.getLast? with _ | e
  · simp
  · simp only [Option.some.injEq]
    split_ifs with c
    · simp [c]
    · simpa using c

/-- `rate()` is the rate of the whole history. -/
theorem rate_spec (h : History K) : h.rate = rateOf h := by
  unfold History.rate rateOf
  obtain ⟨l, rfl⟩ : ∃ l : List K, h = l.reverse := ⟨h.reverse, by simp⟩
  rw [List.reverse_reverse]
  match l with
  | [] => simp
  | [a] => simp
  | [a, b] => simp
  | a :: b :: c :: l => simp [List.getElem?_append]

variable {nx np nw : ℕ} {σ : Type*}

/-- **C35 (rate), part**: after a solve with at least three iterations the rate is that of the errors of this solve.  (Missing: with fewer iterations it mixes in the errors of previous solves, `rate_mixes_solves`; the
    documentation asks for the rate of the current solve.) -/
theorem rate_current_partial (old new : History K) (h : 3 ≤ new.length) : History.rate (old ++ new) = rateOf new := by
  rw [rate_spec]
  unfold rateOf
  rw [show (old ++ new).reverse = new.reverse ++ old.reverse from List.reverse_append]
  have : 3 ≤ new.reverse.length := by simpa using h
  match hr : new.reverse, this with
  | a :: b :: c :: l, _ => rfl

/-- **C35 (rate), negation**: a solve of one iteration after a previous one of two iterations: the rate is not that of the current solve (for which there is none). -/
theorem rate_mixes_solves : ∃ t, Solve (exMachine none none) (exOptions 3 2) exBounds 0 [9, 5] exStart (some t) ∧ t.iterations = 1 ∧ t.history.rate = 1 ∧ rateOf (t.history.drop 2) = 0 := by
  have h : ((runSolve (exMachine none none) (exOptions 3 2) exBounds 0 [9, 5] exStart 9).map fun t => (t.iterations, t.history)) = some (1, [9, 5, 1]) := by decide +kernel
  rcases ht : runSolve (exMachine none none) (exOptions 3 2) exBounds 0 [9, 5] exStart 9 with _ | t
  · rw [ht] at h; cases h
  · rw [ht] at h
    simp only [Option.map_some, Option.some.injEq, Prod.mk.injEq] at h
    refine ⟨t, runSolve_solve 9 ht, h.1, ?_, ?_⟩
    · rw [h.2]; decide +kernel
    · rw [h.2]; decide +kernel

/-! ## C36 -/

/-- The counters and times of a result: all numeric members except the errors. -/
def Result.counters (r : Result K) : List ℕ × List K :=
  ([r.iterations, r.num_objective_evals, r.num_objective_evals_f, r.num_objective_evals_fx, r.num_objective_evals_fxx, r.num_objective_evals_fxp],
   [r.time, r.time_objective_evals, r.time_objective_evals_f, r.time_objective_evals_fx, r.time_objective_evals_fxx, r.time_objective_evals_fxp, r.time_constraint_evals, r.time_linear_systems, r.time_sensitivities])

/-- **C36, part**: `a += b` adds the iterations, the total number of objective evaluations and the four main times, and keeps the verdict and the error of `b`; accumulating any list of results gives the sums and the verdict
    and error of the last one.  (Missing: the other counters and times, `plus_drops_counters`.) -/
theorem plus_all_partial (r : Result K) (rs : List (Result K)) :
    let t := rs.foldl Result.plus r
    t.iterations = r.iterations + (rs.map (·.iterations)).sum ∧ t.num_objective_evals = r.num_objective_evals + (rs.map (·.num_objective_evals)).sum ∧
    t.time = r.time + (rs.map (·.time)).sum ∧ t.time_objective_evals = r.time_objective_evals + (rs.map (·.time_objective_evals)).sum ∧
    t.time_constraint_evals = r.time_constraint_evals + (rs.map (·.time_constraint_evals)).sum ∧ t.time_linear_systems = r.time_linear_systems + (rs.map (·.time_linear_systems)).sum ∧
    t.succeeded = (rs.getLast?.getD r).succeeded ∧ t.error = (rs.getLast?.getD r).error := by
  induction rs generalizing r with
  | nil => simp
  | cons a rs ih =>
    intro t
    obtain ⟨h1, h2, h3, h4, h5, h6, h7, h8⟩ := ih (r.plus a)
    have ht : t = rs.foldl Result.plus (r.plus a) := rfl
    rw [ht]
    refine ⟨by rw [h1]; simp [Result.plus, add_assoc], by rw [h2]; simp [Result.plus, add_assoc], by rw [h3]; simp [Result.plus, add_assoc], by rw [h4]; simp [Result.plus, add_assoc],
      by rw [h5]; simp [Result.plus, add_assoc], by rw [h6]; simp [Result.plus, add_assoc], ?_, ?_⟩
    · rw [h7]; cases hl : rs.getLast? <;> simp [List.getLast?_cons, hl, Result.plus]
    · rw [h8]; cases hl : rs.getLast? <;> simp [List.getLast?_cons, hl, Result.plus]

/-- **C36, negation**: for all results, the evaluation counters and times per quantity, the time for sensitivities, the failure reason and the optimality and feasibility errors of the added result are dropped. -/
theorem plus_drops_counters (a b : Result K) :
    (a.plus b).num_objective_evals_f = a.num_objective_evals_f ∧ (a.plus b).num_objective_evals_fx = a.num_objective_evals_fx ∧ (a.plus b).num_objective_evals_fxx = a.num_objective_evals_fxx ∧
    (a.plus b).num_objective_evals_fxp = a.num_objective_evals_fxp ∧ (a.plus b).time_objective_evals_f = a.time_objective_evals_f ∧ (a.plus b).time_objective_evals_fx = a.time_objective_evals_fx ∧
    (a.plus b).time_objective_evals_fxx = a.time_objective_evals_fxx ∧ (a.plus b).time_objective_evals_fxp = a.time_objective_evals_fxp ∧ (a.plus b).time_sensitivities = a.time_sensitivities ∧
    (a.plus b).failure_reason = a.failure_reason ∧ (a.plus b).error_optimality = a.error_optimality ∧ (a.plus b).error_feasibility = a.error_feasibility :=
  ⟨rfl, rfl, rfl, rfl, rfl, rfl, rfl, rfl, rfl, rfl, rfl, rfl⟩

/-- A witness: adding a successful result with one sensitivity calculation of one second loses this second. -/
theorem plus_not_sum : ∃ a b : Result ℚ, (a.plus b).counters.2.sum ≠ a.counters.2.sum + b.counters.2.sum :=
  ⟨{}, { time_sensitivities := 1 }, by decide +kernel⟩

/-- **C36, negation (final error)**: whatever happens in a solve, `result.error` (and the optimality and feasibility errors, the times and the numbers of evaluations) keep their initial value 0. -/
theorem solveResult_error (o : SolveOptions K) (s : SolveState σ K nx np nw) : (solveResult o s).error = 0 ∧ (solveResult o s).error_optimality = 0 ∧ (solveResult o s).error_feasibility = 0 ∧
    (solveResult o s).time = 0 ∧ (solveResult o s).num_objective_evals = 0 := ⟨rfl, rfl, rfl, rfl, rfl⟩

/-- A witness: a successful solve whose final residual error is 1. -/
theorem result_error_wrong : ∃ t, Solve (exMachine none none) (exOptions 3 2) exBounds 0 [] exStart (some t) ∧ (solveResult (exOptions 3 2) t).succeeded = true ∧
    (exMachine none none).error t.mach = 1 ∧ (solveResult (exOptions 3 2) t).error = 0 := by
  have h : ((runSolve (exMachine none none) (exOptions 3 2) exBounds 0 [] exStart 9).map fun t => ((solveResult (exOptions 3 2) t).succeeded, t.mach)) = some (true, 1) := by decide +kernel
  rcases ht : runSolve (exMachine none none) (exOptions 3 2) exBounds 0 [] exStart 9 with _ | t
  · rw [ht] at h; cases h
  · rw [ht] at h
    simp only [Option.map_some, Option.some.injEq, Prod.mk.injEq] at h
    exact ⟨t, runSolve_solve 9 ht, h.1, h.2, rfl⟩

end Optima
