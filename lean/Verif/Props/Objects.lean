import Verif.Model.Objects
import Mathlib.Tactic.SplitIfs
import Mathlib.Tactic.Push
import Mathlib.Data.List.Nodup

/-! # Property C57: a solve only calls the functions of the problem it was given

The lambdas of a solve refer to the solver and to the problem; they survive the solve, are copied with the solver, and the solver or the problem they refer to may be gone by then. -/

set_option linter.unusedSectionVars false

namespace Optima.Obj

/-- Every solver variable owns a live `Impl` of its own. -/
structure Owned (h : Heap) : Prop where
  live : ∀ v a, h.vars v = some a → ∃ i, h.impls a = some i
  own : ∀ v w a, h.vars v = some a → h.vars w = some a → v = w

/-- Allocation of a fresh `Impl` for a variable, after its old one (if any) has been freed. -/
theorem Owned.alloc {h : Heap} (H : Owned h) {v a : ℕ} (i : Impl) (ha : h.impls a = none) (hv : h.vars v = none) :
    Owned { h with impls := Function.update h.impls a (some i), vars := Function.update h.vars v (some a) } := by
  have fresh : ∀ w b, h.vars w = some b → b ≠ a := by
    rintro w b hw rfl
    obtain ⟨j, hj⟩ := H.live w b hw
    rw [ha] at hj; cases hj
  refine ⟨fun w b hw => ?_, fun w x b hw hx => ?_⟩
  · by_cases e : w = v
    · subst e
      simp only [Function.update_self, Option.some.injEq] at hw
      subst hw
      exact ⟨i, Function.update_self ..⟩
    · simp only [Function.update_of_ne e] at hw
      obtain ⟨j, hj⟩ := H.live w b hw
      exact ⟨j, by simp only [Function.update_of_ne (fresh w b hw)]; exact hj⟩
  · by_cases ew : w = v <;> by_cases ex : x = v
    · rw [ew, ex]
    · subst ew
      simp only [Function.update_self, Option.some.injEq, Function.update_of_ne ex] at hw hx
      exact absurd hw.symm (fresh x b hx)
    · subst ex
      simp only [Function.update_self, Option.some.injEq, Function.update_of_ne ew] at hw hx
      exact absurd hx.symm (fresh w b hw)
    · simp only [Function.update_of_ne ew, Function.update_of_ne ex] at hw hx
      exact H.own w x b hw hx

/-- Freeing the `Impl` of a variable. -/
theorem Owned.free {h : Heap} (H : Owned h) {v c : ℕ} (hv : h.vars v = some c) :
    Owned { h with impls := Function.update h.impls c none, vars := Function.update h.vars v none } := by
  refine ⟨fun w b hw => ?_, fun w x b hw hx => ?_⟩
  · by_cases e : w = v
    · subst e; simp only [Function.update_self] at hw; cases hw
    · simp only [Function.update_of_ne e] at hw
      have hb : b ≠ c := fun e' => e (H.own w v b hw (e' ▸ hv))
      obtain ⟨j, hj⟩ := H.live w b hw
      exact ⟨j, by simp only [Function.update_of_ne hb]; exact hj⟩
  · by_cases ew : w = v
    · subst ew; simp only [Function.update_self] at hw; cases hw
    · by_cases ex : x = v
      · subst ex; simp only [Function.update_self] at hx; cases hx
      · simp only [Function.update_of_ne ew, Function.update_of_ne ex] at hw hx
        exact H.own w x b hw hx

/-- Changing the contents of a live `Impl`. -/
theorem Owned.write {h : Heap} (H : Owned h) (c : ℕ) (i : Impl) (r : List Frame) : Owned { h with impls := Function.update h.impls c (some i), running := r } := by
  refine ⟨fun w b hw => ?_, H.own⟩
  by_cases e : b = c
  · subst e; exact ⟨i, Function.update_self ..⟩
  · obtain ⟨j, hj⟩ := H.live w b hw
    exact ⟨j, by simp only [Function.update_of_ne e]; exact hj⟩

theorem Owned.step {enter : Bool} {h h' : Heap} {new : List Call} (H : Owned h) (s : Step enter h h' new) : Owned h' := by
  cases s with
  | construct v a hv ha => exact H.alloc _ ha hv
  | copy v w a b i hv hw hi ha => exact H.alloc _ ha hv
  | assign v w a b c i hv _ hw hi ha =>
    have hac : a ≠ c := by
      rintro rfl
      obtain ⟨j, hj⟩ := H.live v a hv
      rw [ha] at hj; cases hj
    have := (H.free hv).alloc (v := v) (a := a) i (by simp only [Function.update_of_ne hac]; exact ha) (Function.update_self ..)
    simp only [Function.update_idem] at this
    rwa [Function.update_comm hac] 
  | destroy v c hv _ => exact H.free hv
  | solve v p c hv _ => exact ⟨H.live, H.own⟩
  | capture v p c i rest hr hv hi => exact H.write c _ _
  | prepare v p c i rest hr hv hi => exact H.write c _ _
  | call v p c i rest hr hv hi => exact H
  | leave fr rest hr => exact ⟨H.live, H.own⟩

/-- **C57 (ownership)** Whatever is constructed, copied, assigned, destroyed and solved, every solver owns a live `Impl` and no two solvers share one. -/
theorem solvers_own {enter : Bool} {h : Heap} {log : List Call} (r : Reach enter h log) :
    (∀ v a, h.vars v = some a → ∃ i, h.impls a = some i) ∧ ∀ v w a, h.vars v = some a → h.vars w = some a → v = w := by
  suffices Owned h from ⟨this.live, this.own⟩
  induction r with
  | start => exact ⟨by simp [Heap.start], by simp [Heap.start]⟩
  | step h h' log new _ s ih => exact ih.step s

/-- What the members hold while a solve of `v` for problem `p` is in a given stage. -/
def Frame.Good (h : Heap) (fr : Frame) : Prop :=
  ∃ c i, h.vars fr.var = some c ∧ h.impls c = some i ∧ (fr.stage = .preparing → i.mproblem = some ⟨c, fr.prob⟩) ∧ (fr.stage = .calling → i.F = some ⟨c, fr.prob⟩)

/-- The invariant of the running solves when no solver is entered twice. -/
structure Running (h : Heap) : Prop where
  owned : Owned h
  good : ∀ fr ∈ h.running, fr.Good h
  nodup : (h.running.map Frame.var).Nodup

/-- Operations on one variable leave the solves of the others alone. -/
theorem Frame.Good.other {h h' : Heap} {fr : Frame} (g : fr.Good h) (hv : h'.vars fr.var = h.vars fr.var) (hi : ∀ c, h.vars fr.var = some c → h'.impls c = h.impls c) : fr.Good h' := by
  obtain ⟨c, i, h1, h2, h3⟩ := g
  exact ⟨c, i, by rw [hv, h1], by rw [hi c h1, h2], h3⟩

theorem Running.step {h h' : Heap} {new : List Call} (H : Running h) (s : Step false h h' new) : Running h' := by
  have fresh : ∀ w b a, h.vars w = some b → h.impls a = none → b ≠ a := by
    rintro w b a hw ha rfl
    obtain ⟨j, hj⟩ := H.owned.live w b hw
    rw [ha] at hj; cases hj
  have O := H.owned.step s
  cases s with
  | construct v a hv ha =>
    refine ⟨O, fun fr hfr => (H.good fr hfr).other ?_ ?_, H.nodup⟩
    · obtain ⟨c, _, h1, _⟩ := H.good fr hfr
      exact Function.update_of_ne (fun e => by rw [e, hv] at h1; cases h1) _ _
    · intro c hc; exact Function.update_of_ne (fresh _ _ _ hc ha) _ _
  | copy v w a b i hv hw hi ha =>
    refine ⟨O, fun fr hfr => (H.good fr hfr).other ?_ ?_, H.nodup⟩
    · obtain ⟨c, _, h1, _⟩ := H.good fr hfr
      exact Function.update_of_ne (fun e => by rw [e, hv] at h1; cases h1) _ _
    · intro c hc; exact Function.update_of_ne (fresh _ _ _ hc ha) _ _
  | assign v w a b c i hv hb hw hi ha =>
    refine ⟨O, fun fr hfr => (H.good fr hfr).other ?_ ?_, H.nodup⟩
    · exact Function.update_of_ne (fun e => hb ⟨fr, hfr, e⟩) _ _
    · intro d hd
      have hdc : d ≠ c := fun e => hb ⟨fr, hfr, H.owned.own _ _ d hd (e ▸ hv)⟩
      show Function.update (Function.update h.impls a (some i)) c none d = _
      rw [Function.update_of_ne hdc, Function.update_of_ne (fresh _ _ _ hd ha)]
  | destroy v c hv hb =>
    refine ⟨O, fun fr hfr => (H.good fr hfr).other ?_ ?_, H.nodup⟩
    · exact Function.update_of_ne (fun e => hb ⟨fr, hfr, e⟩) _ _
    · intro d hd
      exact Function.update_of_ne (fun (e : d = c) => hb ⟨fr, hfr, H.owned.own _ _ d hd (e ▸ hv)⟩) _ _
  | solve v p c hv hb =>
    have hb' : ¬ h.busy v := hb.resolve_left (by decide)
    refine ⟨O, fun fr hfr => ?_, ?_⟩
    · rcases List.mem_cons.mp hfr with rfl | hfr
      · obtain ⟨i, hi⟩ := H.owned.live v c hv
        exact ⟨c, i, hv, hi, by simp, by simp⟩
      · exact H.good fr hfr
    · show (v :: h.running.map Frame.var).Nodup
      refine List.nodup_cons.mpr ⟨fun hm => hb' ?_, H.nodup⟩
      obtain ⟨fr, h1, h2⟩ := List.mem_map.mp hm
      exact ⟨fr, h1, h2⟩
  | capture v p c i rest hr hv hi =>
    have nd := H.nodup
    rw [hr] at nd
    refine ⟨O, fun fr hfr => ?_, nd⟩
    rcases List.mem_cons.mp hfr with rfl | hfr
    · exact ⟨c, _, hv, Function.update_self .., fun _ => rfl, by simp⟩
    · refine (H.good fr (hr ▸ List.mem_cons_of_mem _ hfr)).other rfl fun d hd => ?_
      refine Function.update_of_ne (fun e => ?_) _ _
      have := H.owned.own _ _ d hd (e ▸ hv)
      exact (List.nodup_cons.mp nd).1 (List.mem_map.mpr ⟨fr, hfr, this⟩)
  | prepare v p c i rest hr hv hi =>
    have nd := H.nodup
    rw [hr] at nd
    refine ⟨O, fun fr hfr => ?_, nd⟩
    rcases List.mem_cons.mp hfr with rfl | hfr
    · obtain ⟨c', i', h1, h2, h3, _⟩ := H.good ⟨v, p, .preparing⟩ (hr ▸ List.mem_cons_self)
      have e : c' = c := by rw [hv] at h1; exact (Option.some.inj h1).symm
      subst e
      have e : i' = i := by rw [hi] at h2; exact (Option.some.inj h2).symm
      subst e
      exact ⟨c', _, hv, Function.update_self .., by simp, fun _ => h3 rfl⟩
    · refine (H.good fr (hr ▸ List.mem_cons_of_mem _ hfr)).other rfl fun d hd => ?_
      refine Function.update_of_ne (fun e => ?_) _ _
      have := H.owned.own _ _ d hd (e ▸ hv)
      exact (List.nodup_cons.mp nd).1 (List.mem_map.mpr ⟨fr, hfr, this⟩)
  | call v p c i rest hr hv hi => exact H
  | leave fr rest hr =>
    refine ⟨O, fun fr' hfr => H.good fr' (hr ▸ List.mem_cons_of_mem _ hfr), ?_⟩
    have nd := H.nodup
    rw [hr] at nd
    exact (List.nodup_cons.mp nd).2

theorem Reach.running {h : Heap} {log : List Call} (r : Reach false h log) : Running h := by
  induction r with
  | start => exact ⟨⟨by simp [Heap.start], by simp [Heap.start]⟩, by simp [Heap.start], by simp [Heap.start]⟩
  | step h h' log new _ s ih => exact ih.step s

/-- **C57 (partial: no solver is entered again while it is solving)** Every function called by a solve is the lambda made by that solve: it refers to the solver that is solving, which is alive, and to the
    problem given to this solve.  Lambdas left from earlier solves, from copied or assigned solvers, or referring to destroyed solvers or problems are never called. -/
theorem calls_own_problem_partial {h h' : Heap} {log new : List Call} (r : Reach false h log) (s : Step false h h' new) (k : Call) (hk : k ∈ new) :
    (∃ fr ∈ h.running, fr.var = k.var ∧ fr.prob = k.prob) ∧ h.vars k.var = some k.addr ∧ (∃ i, h.impls k.addr = some i) ∧ k.closure = some ⟨k.addr, k.prob⟩ := by
  have H := r.running
  cases s with
  | call v p c i rest hr hv hi =>
    rw [List.mem_singleton] at hk
    subst hk
    obtain ⟨c', i', h1, h2, _, h4⟩ := H.good ⟨v, p, .calling⟩ (hr ▸ List.mem_cons_self)
    have e : c' = c := by rw [hv] at h1; exact (Option.some.inj h1).symm
    subst e
    have e : i' = i := by rw [hi] at h2; exact (Option.some.inj h2).symm
    subst e
    exact ⟨⟨_, hr ▸ List.mem_cons_self, rfl, rfl⟩, hv, ⟨i', hi⟩, h4 rfl⟩
  | _ => cases hk

/-- The same for the whole history. -/
theorem all_calls_own_problem_partial {h : Heap} {log : List Call} (r : Reach false h log) : ∀ k ∈ log, k.closure = some ⟨k.addr, k.prob⟩ := by
  induction r with
  | start => simp
  | step h h' log new r s ih =>
    intro k hk
    rcases List.mem_append.mp hk with hk | hk
    · exact (calls_own_problem_partial r s k hk).2.2.2
    · exact ih k hk

/-! ## A history with stale references -/

/-- Solver 0 (at address 10) solves problem 5 and is copied to solver 1 (at address 11); then solver 0 is destroyed. -/
def staleHeap : Heap where
  impls := Function.update (Function.update (Function.update (Function.update (Function.update Heap.start.impls 10 (some ⟨none, none⟩)) 10 (some ⟨some ⟨10, 5⟩, none⟩)) 10
    (some ⟨some ⟨10, 5⟩, some ⟨10, 5⟩⟩)) 11 (some ⟨some ⟨10, 5⟩, some ⟨10, 5⟩⟩)) 10 none
  vars := Function.update (Function.update (Function.update Heap.start.vars 0 (some 10)) 1 (some 11)) 0 none
  running := []

/-- The history is possible, and the copy then holds lambdas that refer to the destroyed solver and to the old problem; the theorem above says that they are never called. -/
theorem stale_reachable : (∃ log, Reach false staleHeap log) ∧ staleHeap.vars 1 = some 11 ∧ staleHeap.impls 11 = some ⟨some ⟨10, 5⟩, some ⟨10, 5⟩⟩ ∧ staleHeap.impls 10 = none := by
  refine ⟨?_, rfl, rfl, by simp [staleHeap]⟩
  · have r0 := Reach.start (enter := false)
    have r1 := r0.step _ _ _ _ (Step.construct _ 0 10 rfl rfl)
    have r2 := r1.step _ _ _ _ (Step.solve _ 0 5 10 rfl (Or.inr (by rintro ⟨_, h, _⟩; cases h)))
    have r3 := r2.step _ _ _ _ (Step.capture _ 0 5 10 ⟨none, none⟩ [] rfl rfl rfl)
    have r4 := r3.step _ _ _ _ (Step.prepare _ 0 5 10 _ [] rfl rfl rfl)
    have r5 := r4.step _ _ _ _ (Step.call _ 0 5 10 _ [] rfl rfl rfl)
    have r6 := r5.step _ _ _ _ (Step.leave _ _ [] rfl)
    have r7 := r6.step _ _ _ _ (Step.copy _ 1 0 11 10 _ rfl rfl rfl rfl)
    have r8 := r7.step _ _ _ _ (Step.destroy _ 0 10 rfl (by rintro ⟨_, h, _⟩; cases h))
    exact ⟨_, r8⟩

/-- **C57 (negation)** A solver that is entered again from one of its user functions goes on with the functions of the inner problem: problem 1 is being solved, a user function solves problem 2 with the
    same solver, and then the outer solve calls the lambda that refers to problem 2. -/
theorem reentered_solve_calls_inner : ∃ h log k, Reach true h log ∧ k ∈ log ∧ k.prob = 1 ∧ k.closure = some ⟨k.addr, 2⟩ := by
  have r0 := Reach.start (enter := true)
  have r1 := r0.step _ _ _ _ (Step.construct _ 0 10 rfl rfl)
  have r2 := r1.step _ _ _ _ (Step.solve _ 0 1 10 rfl (Or.inl rfl))
  have r3 := r2.step _ _ _ _ (Step.capture _ 0 1 10 ⟨none, none⟩ [] rfl rfl rfl)
  have r4 := r3.step _ _ _ _ (Step.prepare _ 0 1 10 _ [] rfl rfl rfl)
  have r5 := r4.step _ _ _ _ (Step.solve _ 0 2 10 rfl (Or.inl rfl))
  have r6 := r5.step _ _ _ _ (Step.capture _ 0 2 10 _ _ rfl rfl rfl)
  have r7 := r6.step _ _ _ _ (Step.prepare _ 0 2 10 _ _ rfl rfl rfl)
  have r8 := r7.step _ _ _ _ (Step.leave _ _ _ rfl)
  have r9 := r8.step _ _ _ _ (Step.call _ 0 1 10 _ [] rfl rfl rfl)
  exact ⟨_, _, _, r9, List.mem_cons_self, rfl, rfl⟩

end Optima.Obj
