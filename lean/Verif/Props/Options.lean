import Verif.Model.Options
import Verif.Props.Outputter
import Verif.Props.SolverLoop
import Verif.Props.SolverWitness
import Mathlib.Tactic.SplitIfs
import Mathlib.Tactic.NormNum

/-! # Property C75: a solve uses the options the user last gave to the solver -/

set_option linter.unusedSectionVars false

namespace Optima.Opt

variable {K C : Type*} [Field K]

/-- The options last given to every solver variable; a copy has those of the original at that time. -/
def lastSet : List (Op K C) → ℕ → Option (Options K C)
  | [] => fun _ => none
  | .construct v :: ops => Function.update (lastSet ops) v (some (Options.default K C))
  | .copy v w :: ops => Function.update (lastSet ops) v (lastSet ops w)
  | .assign v w :: ops => Function.update (lastSet ops) v (lastSet ops w)
  | .destroy v :: ops => Function.update (lastSet ops) v none
  | .setOptions v o :: ops => Function.update (lastSet ops) v (some o)
  | .rejected _ :: ops => lastSet ops
  | .solve _ _ _ _ :: ops => lastSet ops
  | .read :: ops => lastSet ops
  | .leave :: ops => lastSet ops

/-- A running solve: the solver, the options it had when `solve` was called, and the dimensions of the problem. -/
structure Request (K C : Type*) where
  var : ℕ
  options : Options K C
  nx : ℕ
  nbg : ℕ
  nhg : ℕ

/-- The names fit the dimensions, if they are needed. -/
def Fits (o : Options K C) (nx nbg nhg : ℕ) : Prop := o.output.active = true → NamesFit o.names.x nx ∧ NamesFit o.names.xbg nbg ∧ NamesFit o.names.xhg nhg

open Classical in
/-- The running solves of a program, innermost first. -/
noncomputable def requests : List (Op K C) → List (Request K C)
  | [] => []
  | .solve v nx nbg nhg :: ops =>
    match lastSet ops v with
    | some o => if Fits o nx nbg nhg then ⟨v, o, nx, nbg, nhg⟩ :: requests ops else requests ops
    | none => requests ops
  | .leave :: ops => (requests ops).tail
  | .construct _ :: ops => requests ops
  | .copy _ _ :: ops => requests ops
  | .assign _ _ :: ops => requests ops
  | .destroy _ :: ops => requests ops
  | .setOptions _ _ :: ops => requests ops
  | .rejected _ :: ops => requests ops
  | .read :: ops => requests ops

/-- The options in use are those requested. -/
structure Serves (u : InUse K C) (q : Request K C) : Prop where
  maxiters : u.maxiters = q.options.maxiters
  tolerance : u.tolerance = q.options.tolerance
  check : u.check = q.options.check
  minmax : u.minmax = q.options.minmax
  method : u.method = q.options.method
  output : u.output = q.options.output
  text : u.text = q.options.text
  p : u.names.p = q.options.names.p
  y : u.names.y = q.options.names.y
  z : u.names.z = q.options.names.z
  x : q.options.output.active = true → u.names.x.length = q.nx + q.nbg + q.nhg ∧ ∃ a b c, u.names.x = a ++ b ++ c ∧ (q.options.names.x ≠ [] → a = q.options.names.x) ∧ (q.options.names.xbg ≠ [] → b = q.options.names.xbg) ∧
    (q.options.names.xhg ≠ [] → c = q.options.names.xhg)

/-- `updateMasterOptions` fails exactly if the names do not fit; otherwise the options in use are those of the solver. -/
theorem updateMasterOptions_spec (i : Impl K C) (v nx nbg nhg : ℕ) :
    (i.updateMasterOptions nx nbg nhg = none ↔ ¬ Fits i.options nx nbg nhg) ∧
    ∀ j, i.updateMasterOptions nx nbg nhg = some j → j.options = i.options ∧ Serves j.msolver.inUse ⟨v, i.options, nx, nbg, nhg⟩ ∧ j.msolver.sensitivitysolver = i.msolver.sensitivitysolver := by
  obtain ⟨h1, h2, h3⟩ := masterNames_spec nx nbg nhg i.options.names
  unfold Impl.updateMasterOptions Fits
  cases ha : i.options.output.active with
  | false =>
    rw [h3]
    refine ⟨by simp, ?_⟩
    intro j hj
    simp only [Option.map_some, Option.some.injEq] at hj
    subst hj
    exact ⟨rfl, ⟨rfl, rfl, rfl, rfl, rfl, rfl, rfl, rfl, rfl, rfl, fun h => absurd (ha.symm.trans h) (by simp)⟩, rfl⟩
  | true =>
    refine ⟨by rw [Option.map_eq_none_iff, h1]; simp, ?_⟩
    intro j hj
    rw [Option.map_eq_some_iff] at hj
    obtain ⟨N, hN, rfl⟩ := hj
    obtain ⟨g1, g2, g3, g4, g5⟩ := h2 N hN
    refine ⟨rfl, ⟨rfl, rfl, rfl, rfl, rfl, rfl, rfl, g2, g3, g4, fun _ => ⟨g1, _, _, _, g5, ?_, ?_, ?_⟩⟩, rfl⟩
    all_goals exact fun h => if_neg h

/-- After a program: every variable has the options last set, the running solves are those requested, and each of them has its options in place. -/
structure Inv (ops : List (Op K C)) (h : Heap K C) : Prop where
  vars : ∀ v, (h.vars v).map Impl.options = lastSet ops v
  running : h.running = (requests ops).map Request.var
  nodup : h.running.Nodup
  serves : ∀ q ∈ requests ops, ∃ i, h.vars q.var = some i ∧ Serves i.msolver.inUse q
  nullspace : ∀ v i, h.vars v = some i → i.msolver.sensitivitysolver = .nullspace

/-- A variable that is not running may be changed. -/
theorem Inv.write {ops ops' : List (Op K C)} {h : Heap K C} (H : Inv ops h) (v : ℕ) (i : Option (Impl K C)) (hl : lastSet ops' = Function.update (lastSet ops) v (i.map Impl.options)) (hr : requests ops' = requests ops)
    (hv : v ∈ h.running → ∃ j k, h.vars v = some j ∧ i = some k ∧ k.msolver = j.msolver) (hn : ∀ k, i = some k → k.msolver.sensitivitysolver = .nullspace) :
    Inv ops' { h with vars := Function.update h.vars v i } := by
  refine ⟨fun w => ?_, by rw [hr]; exact H.running, H.nodup, fun q hq => ?_, fun w k hk => ?_⟩
  · rw [hl]
    by_cases e : w = v
    · subst e; simp
    · simp only [Function.update_of_ne e]; exact H.vars w
  · rw [hr] at hq
    obtain ⟨j, hj, hs⟩ := H.serves q hq
    by_cases e : q.var = v
    · obtain ⟨j', k, h1, rfl, h3⟩ := hv (by rw [H.running, ← e]; exact List.mem_map_of_mem hq)
      rw [e] at hj
      rw [hj] at h1; cases h1
      exact ⟨k, by rw [e]; exact Function.update_self .., by rw [h3]; exact hs⟩
    · exact ⟨j, by simp only [Function.update_of_ne e]; exact hj, hs⟩
  · by_cases e : w = v
    · subst e; simp only [Function.update_self] at hk; exact hn k hk
    · simp only [Function.update_of_ne e] at hk; exact H.nullspace w k hk

theorem Inv.step {ops : List (Op K C)} {h h' : Heap K C} {new : List (InUse K C)} (H : Inv ops h) (op : Op K C) (hs : step false h op = some (h', new)) : Inv (op :: ops) h' := by
  cases op with
  | construct v =>
    simp only [Opt.step] at hs
    split at hs
    · rename_i hv
      cases hs
      refine H.write v _ rfl rfl (fun hm => ?_) (fun k hk => by cases hk; rfl)
      rw [H.running, List.mem_map] at hm
      obtain ⟨q, hq, rfl⟩ := hm
      obtain ⟨i, hi, -⟩ := H.serves q hq
      rw [hv] at hi; cases hi
    · cases hs
  | copy v w =>
    simp only [Opt.step] at hs
    split at hs
    · rename_i i hv hw
      cases hs
      refine H.write v _ (by rw [lastSet, ← H.vars w, hw]) rfl (fun hm => ?_) (fun k hk => by cases hk; exact H.nullspace w _ hw)
      rw [H.running, List.mem_map] at hm
      obtain ⟨q, hq, rfl⟩ := hm
      obtain ⟨i, hi, -⟩ := H.serves q hq
      rw [hv] at hi; cases hi
    · cases hs
  | assign v w =>
    simp only [Opt.step] at hs
    split at hs
    · rename_i j i hv hw
      split_ifs at hs with hb
      cases hs
      exact H.write v _ (by rw [lastSet, ← H.vars w, hw]) rfl (fun hm => absurd hm hb) (fun k hk => by cases hk; exact H.nullspace w _ hw)
    · cases hs
  | destroy v =>
    simp only [Opt.step] at hs
    split at hs
    · split_ifs at hs with hb
      cases hs
      exact H.write v _ rfl rfl (fun hm => absurd hm hb) (fun k hk => by cases hk)
    · cases hs
  | setOptions v o =>
    simp only [Opt.step] at hs
    split at hs
    · rename_i i hv
      cases hs
      exact H.write v _ rfl rfl (fun _ => ⟨i, _, hv, rfl, rfl⟩) (fun k hk => by cases hk; exact H.nullspace v i hv)
    · cases hs
  | rejected v =>
    simp only [Opt.step] at hs
    split at hs
    · cases hs
      exact ⟨H.vars, H.running, H.nodup, H.serves, H.nullspace⟩
    · cases hs
  | solve v nx nbg nhg =>
    simp only [Opt.step] at hs
    split at hs
    · cases hs
    · rename_i i hv
      split_ifs at hs with hb
      have hb : v ∉ h.running := fun hm => hb ⟨trivial, hm⟩
      have hl : lastSet ops v = some i.options := by rw [← H.vars v, hv]; rfl
      obtain ⟨g1, g2⟩ := updateMasterOptions_spec i v nx nbg nhg
      split at hs
      · rename_i hf
        cases hs
        have e : requests (Op.solve v nx nbg nhg :: ops) = requests ops := by
          rw [requests, hl]; exact if_neg (g1.1 hf)
        exact ⟨H.vars, by rw [e]; exact H.running, H.nodup, by rw [e]; exact H.serves, H.nullspace⟩
      · rename_i j hf
        cases hs
        obtain ⟨e1, e2, e3⟩ := g2 j hf
        have e : requests (Op.solve v nx nbg nhg :: ops) = ⟨v, i.options, nx, nbg, nhg⟩ :: requests ops := by
          rw [requests, hl]
          refine if_pos (by_contra fun hn => ?_)
          rw [g1.2 hn] at hf; cases hf
        refine ⟨fun w => ?_, by rw [e, List.map_cons, ← H.running], List.nodup_cons.2 ⟨hb, H.nodup⟩, fun q hq => ?_, fun w k hk => ?_⟩
        · by_cases ew : w = v
          · subst ew
            simp only [Function.update_self, Option.map_some, e1]
            exact hl.symm
          · simp only [Function.update_of_ne ew]; exact H.vars w
        · rw [e] at hq
          rcases List.mem_cons.1 hq with rfl | hq
          · exact ⟨j, Function.update_self .., e2⟩
          · obtain ⟨k, hk, hs⟩ := H.serves q hq
            have : q.var ≠ v := fun e' => hb (by rw [H.running, ← e']; exact List.mem_map_of_mem hq)
            exact ⟨k, by simp only [Function.update_of_ne this]; exact hk, hs⟩
        · by_cases ew : w = v
          · subst ew
            simp only [Function.update_self, Option.some.injEq] at hk
            subst hk
            rw [e3]; exact H.nullspace _ _ hv
          · simp only [Function.update_of_ne ew] at hk; exact H.nullspace w k hk
  | read =>
    simp only [Opt.step] at hs
    split at hs
    · cases hs
    · split at hs
      · cases hs
        exact ⟨H.vars, H.running, H.nodup, H.serves, H.nullspace⟩
      · cases hs
  | leave =>
    simp only [Opt.step] at hs
    split at hs
    · cases hs
    · rename_i v rest hr
      cases hs
      refine ⟨H.vars, ?_, ?_, fun q hq => H.serves q (List.mem_of_mem_tail hq), H.nullspace⟩
      · rw [requests, List.map_tail, ← H.running, hr]; rfl
      · have := H.nodup
        rw [hr] at this
        exact (List.nodup_cons.1 this).2

theorem run_inv {ops : List (Op K C)} {h : Heap K C} {log : List (InUse K C)} (hr : run false ops = some (h, log)) : Inv ops h := by
  induction ops generalizing h log with
  | nil =>
    cases hr
    exact ⟨fun _ => rfl, rfl, List.nodup_nil, fun q hq => absurd hq (by simp [requests]), fun v i hv => absurd hv (by simp [Heap.start])⟩
  | cons op ops ih =>
    simp only [run] at hr
    split at hr
    · cases hr
    · rename_i h0 log0 h0r
      split at hr
      · cases hr
      · rename_i h1 new hs
        cases hr
        exact (ih h0r).step op hs

/-- **C75** (the part that holds): whatever a program does with its solvers — setting options before, after and while solves are running, copying and assigning solvers, solves that fail or throw — as long as no solve is started on a solver
    that is running, all that a solve reads are the options last given to its solver when it was called; only the sensitivity derivatives are always computed with the null-space method. -/
theorem options_used_partial {ops : List (Op K C)} {h : Heap K C} {log : List (InUse K C)} (hr : run false ops = some (h, log)) {h' : Heap K C} {new : List (InUse K C)} (hs : step false h .read = some (h', new)) :
    ∃ q rest u, requests ops = q :: rest ∧ new = [u] ∧ Serves u q ∧ u.sensitivity = .nullspace := by
  have H := run_inv hr
  simp only [Opt.step] at hs
  split at hs
  · cases hs
  · rename_i v rest hrun
    split at hs
    · rename_i i hv
      cases hs
      have e := H.running
      rw [hrun] at e
      cases hq : requests ops with
      | nil => rw [hq] at e; cases e
      | cons q qs =>
        rw [hq, List.map_cons, List.cons.injEq] at e
        obtain ⟨j, hj, hs⟩ := H.serves q (by rw [hq]; exact List.mem_cons_self ..)
        rw [← e.1, hv] at hj
        cases hj
        exact ⟨q, qs, _, rfl, rfl, hs, H.nullspace v i hv⟩
    · cases hs

/-- What a solve was asked to use is what was set last: between `setOptions` and the call of `solve` the variable may be used for anything but another `setOptions`, an assignment or a copy. -/
theorem lastSet_setOptions (ops mid : List (Op K C)) (v : ℕ) (o : Options K C) (hmid : ∀ op ∈ mid, match op with
      | .construct w | .copy w _ | .assign w _ | .destroy w | .setOptions w _ => w ≠ v
      | _ => True) : lastSet (mid ++ .setOptions v o :: ops) v = some o := by
  induction mid with
  | nil => exact Function.update_self ..
  | cons op mid ih =>
    have ih := ih fun op' h => hmid op' (List.mem_cons_of_mem _ h)
    have h := hmid op (List.mem_cons_self ..)
    cases op <;> simp only [List.cons_append, lastSet] at h ⊢ <;> first | exact ih | (rw [Function.update_of_ne (Ne.symm h)]; exact ih)

/-- The options `o'` differ from `o` only in `errorstatus`, `linesearch` and `steepestdescent`. -/
def Alike (o o' : Options K C) : Prop := ∃ e l s, o' = { o with errorstatus := e, linesearch := l, steepestdescent := s }

/-- The same program with other options. -/
def Op.change (φ : Options K C → Options K C) : Op K C → Op K C
  | .setOptions v o => .setOptions v (φ o)
  | op => op

/-- Two solvers that differ in nothing a solve reads. -/
structure Impl.Alike (i j : Impl K C) : Prop where
  options : Opt.Alike i.options j.options
  inUse : i.msolver.inUse = j.msolver.inUse

/-- Two heaps of such solvers. -/
structure Heap.Alike (h g : Heap K C) : Prop where
  vars : ∀ v, Option.Rel Impl.Alike (h.vars v) (g.vars v)
  running : h.running = g.running

theorem Alike.refl (o : Options K C) : Alike o o := ⟨_, _, _, rfl⟩

theorem Heap.Alike.write {h g : Heap K C} (H : h.Alike g) (v : ℕ) {i j : Option (Impl K C)} (hij : Option.Rel Impl.Alike i j) (r : List ℕ) :
    Heap.Alike ⟨Function.update h.vars v i, r⟩ ⟨Function.update g.vars v j, r⟩ := by
  refine ⟨fun w => ?_, rfl⟩
  by_cases e : w = v
  · subst e; simpa using hij
  · simpa [Function.update_of_ne e] using H.vars w

theorem Impl.Alike.update {i j : Impl K C} (H : i.Alike j) (nx nbg nhg : ℕ) : Option.Rel Impl.Alike (i.updateMasterOptions nx nbg nhg) (j.updateMasterOptions nx nbg nhg) := by
  obtain ⟨⟨e, l, s, ho⟩, hu⟩ := H
  unfold Impl.updateMasterOptions
  rw [ho]
  cases masterNames i.options.output.active nx nbg nhg i.options.names with
  | none => exact .none
  | some N =>
    refine .some ⟨⟨e, l, s, rfl⟩, ?_⟩
    have := congrArg InUse.sensitivity hu
    simp only [MasterImpl.inUse] at this
    simp [MasterImpl.inUse, MasterImpl.setOptions, MasterImpl.setErrorControl, this]

/-- Two runs whose heaps are alike and which have read the same. -/
def SameReads : Option (Heap K C × List (InUse K C)) → Option (Heap K C × List (InUse K C)) → Prop := Option.Rel fun a b => a.1.Alike b.1 ∧ a.2 = b.2

theorem Heap.Alike.step {h g : Heap K C} (H : h.Alike g) (enter : Bool) {φ : Options K C → Options K C} (hφ : ∀ o, Opt.Alike o (φ o)) (op : Op K C) : SameReads (step enter h op) (step enter g (op.change φ)) := by
  obtain ⟨hv, hr⟩ := H
  have H : h.Alike g := ⟨hv, hr⟩
  cases op with
  | construct v =>
    have := hv v
    simp only [Op.change, Opt.step]
    generalize h.vars v = a, g.vars v = b at this
    cases this with
    | none => refine .some ⟨?_, rfl⟩; rw [hr]; exact H.write v (.some ⟨.refl _, rfl⟩) _
    | some => exact .none
  | copy v w =>
    have h1 := hv v
    have h2 := hv w
    simp only [Op.change, Opt.step]
    generalize h.vars v = a, g.vars v = b, h.vars w = c, g.vars w = d at h1 h2
    cases h1 with
    | none =>
      cases h2 with
      | none => exact .none
      | some h2 => refine .some ⟨?_, rfl⟩; rw [hr]; exact H.write v (.some h2) _
    | some => exact .none
  | assign v w =>
    have h1 := hv v
    have h2 := hv w
    simp only [Op.change, Opt.step]
    generalize h.vars v = a, g.vars v = b, h.vars w = c, g.vars w = d at h1 h2
    cases h1 with
    | none => exact .none
    | some h1 =>
      cases h2 with
      | none => exact .none
      | some h2 =>
        rw [hr]
        split_ifs
        · exact .none
        · exact .some ⟨H.write v (.some h2) _, rfl⟩
  | destroy v =>
    have h1 := hv v
    simp only [Op.change, Opt.step]
    generalize h.vars v = a, g.vars v = b at h1
    cases h1 with
    | none => exact .none
    | some h1 =>
      rw [hr]
      split_ifs
      · exact .none
      · exact .some ⟨H.write v .none _, rfl⟩
  | setOptions v o =>
    have h1 := hv v
    simp only [Op.change, Opt.step]
    generalize h.vars v = a, g.vars v = b at h1
    cases h1 with
    | none => exact .none
    | some h1 =>
      rename_i i j
      have h2 : Impl.Alike (i.setOptions o) (j.setOptions (φ o)) := ⟨hφ o, h1.inUse⟩
      refine .some ⟨?_, rfl⟩; rw [hr]; exact H.write v (.some h2) _
  | rejected v =>
    have h1 := hv v
    simp only [Op.change, Opt.step]
    generalize h.vars v = a, g.vars v = b at h1
    cases h1 with
    | none => exact .none
    | some h1 => exact .some ⟨H, rfl⟩
  | solve v nx nbg nhg =>
    have h1 := hv v
    simp only [Op.change, Opt.step]
    generalize h.vars v = a, g.vars v = b at h1
    cases h1 with
    | none => exact .none
    | some h1 =>
      simp only [hr]
      split_ifs
      · exact .none
      · rename_i i j _
        have h2 := h1.update nx nbg nhg
        generalize i.updateMasterOptions nx nbg nhg = c, j.updateMasterOptions nx nbg nhg = d at h2
        cases h2 with
        | none => exact .some ⟨H, rfl⟩
        | some h2 => exact .some ⟨H.write v (.some h2) _, rfl⟩
  | read =>
    simp only [Op.change, Opt.step, hr]
    cases g.running with
    | nil => exact .none
    | cons v rest =>
      have h1 := hv v
      dsimp only
      generalize h.vars v = a, g.vars v = b at h1
      cases h1 with
      | none => exact .none
      | some h1 => exact .some ⟨H, by rw [h1.inUse]⟩
  | leave =>
    simp only [Op.change, Opt.step, hr]
    cases g.running with
    | nil => exact .none
    | cons v rest => exact .some ⟨⟨hv, rfl⟩, rfl⟩

/-- **C75 fails for `errorstatus`, `linesearch` and `steepestdescent`**: whatever the user writes there, every program reads the same. -/
theorem options_unread (enter : Bool) {φ : Options K C → Options K C} (hφ : ∀ o, Alike o (φ o)) (ops : List (Op K C)) : SameReads (run enter ops) (run enter (ops.map (Op.change φ))) := by
  induction ops with
  | nil => exact .some ⟨⟨fun _ => .none, rfl⟩, rfl⟩
  | cons op ops ih =>
    simp only [List.map_cons, run]
    generalize run enter ops = a, run enter (ops.map (Op.change φ)) = b at ih
    cases ih with
    | none => exact .none
    | some ih =>
      rename_i x y
      obtain ⟨h, log⟩ := x
      obtain ⟨g, log'⟩ := y
      obtain ⟨h1, h2⟩ := ih
      dsimp only at h1 h2 ⊢
      subst h2
      have h3 := h1.step enter hφ op
      generalize step enter h op = a, step enter g (op.change φ) = b at h3
      cases h3 with
      | none => exact .none
      | some h3 => exact .some ⟨h3.1, by rw [h3.2]⟩

/-- A user who asks for a line search of one iteration from the first increase of the error on. -/
example : ∀ o : Options ℚ Unit, Alike o { o with linesearch := ⟨1, 1, 1, 1⟩ } := fun o => ⟨o.errorstatus, ⟨1, 1, 1, 1⟩, o.steepestdescent, rfl⟩

/-- **C75 fails for sensitivities**: a solver asked for the full-space method computes its sensitivities with the null-space method. -/
theorem sensitivity_method_ignored : ∃ (ops : List (Op K C)) (h : Heap K C) (u : InUse K C) (q : Request K C), run false ops = some (h, [u]) ∧ requests ops = [q] ∧ q.options.method = .fullspace ∧ u.method = .fullspace ∧ u.sensitivity = .nullspace := by
  refine ⟨[.read, .solve 0 2 0 0, .setOptions 0 { Options.default K C with method := .fullspace }, .construct 0], _, _, ⟨0, { Options.default K C with method := .fullspace }, 2, 0, 0⟩, rfl, ?_, rfl, rfl, rfl⟩
  have h : Fits ({ Options.default K C with method := .fullspace } : Options K C) 2 0 0 := fun h => absurd h (by simp [Options.default])
  simp [requests, lastSet, h]

/-- **C75 fails if a solver is used while it is running**: a solve asked for at most 5 iterations goes on with a limit of 1000 after the user function has used the solver with that limit. -/
theorem reentrant_options : ∃ (ops : List (Op K C)) (h : Heap K C) (u : InUse K C) (q : Request K C), run true ops = some (h, [u]) ∧ requests ops = [q] ∧ q.options.maxiters = 5 ∧ u.maxiters = 1000 := by
  refine ⟨[.read, .leave, .solve 0 2 0 0, .setOptions 0 { Options.default K C with maxiters := 1000 }, .solve 0 2 0 0, .setOptions 0 { Options.default K C with maxiters := 5 }, .construct 0], _, _,
    ⟨0, { Options.default K C with maxiters := 5 }, 2, 0, 0⟩, rfl, ?_, rfl, rfl⟩
  have h : ∀ n, Fits ({ Options.default K C with maxiters := n } : Options K C) 2 0 0 := fun n h => absurd h (by simp [Options.default])
  simp [requests, lastSet, h]

/-- Options set before a solve that fails, a copy of the solver, other options set for both while the original is running: it goes on with its own. -/
example (o : Options ℚ Unit) : ∃ h u, run false [.read, .setOptions 1 o, .setOptions 0 o, .copy 1 0, .solve 0 2 1 0, .rejected 0, .setOptions 0 { Options.default ℚ Unit with maxiters := 7 }, .construct 0] = some (h, [u]) ∧
    u.maxiters = 7 := ⟨_, _, rfl, rfl⟩

/-- The options of a solve as the model of the solver takes them; `debug` tells whether assertions are compiled. -/
def InUse.solveOptions (u : InUse K C) (debug : Bool) : SolveOptions K := ⟨u.maxiters, u.tolerance, u.minmax, debug⟩

variable [LinearOrder K] {τ : Type*} {nx np nbe nbg nhe nhg nc : ℕ}

/-- **C75** (limits): in every program without such nested use, a solve that returns has made at most one Newton step more than the `maxiters` last given to its solver, reports success only if it has made no more than that, and only if the error
    is below the `tolerance` last given or the `check` last given accepted. -/
theorem solve_keeps_options {ops : List (Op K C)} {h : Heap K C} {log : List (InUse K C)} (hr : run false ops = some (h, log)) {h' : Heap K C} {u : InUse K C} (hs : step false h .read = some (h', [u])) {q : Request K C} {rest : List (Request K C)}
    (hq : requests ops = q :: rest) {env : Env K} {inners : ∀ c : CanonPack K (nx + nbg + nhg) np (nbe + nbg + (nhe + nhg)), Inners K np c.nbe c.nbi c.nne c.nni} {part : Idx.PartitionImpl ℕ} {debug : Bool}
    {P : UProblem τ K nx np nbe nbg nhe nhg nc} {mem : Matrix (Fin (nbe + nbg)) (Fin (nx + nbg + nhg)) K} {S S' : UState K nx np nbe nbg nhe nhg} {result : Result K}
    (sem : C → Parts K (nx + nbg + nhg) np (nbe + nbg) (nhe + nhg) (τ × ResMem K (nx + nbg + nhg) np (nhe + nhg) nc) (masterProblem P mem).Ax → MVec K (nx + nbg + nhg) np (nbe + nbg + (nhe + nhg)) →
      MVec K (nx + nbg + nhg) np (nbe + nbg + (nhe + nhg)) → Result K → Option ((τ × ResMem K (nx + nbg + nhg) np (nhe + nhg) nc) × Bool))
    (R : SolverReturns env u.method inners part (u.solveOptions debug) P mem S S' result (u.check.map sem)) :
    1 ≤ result.iterations ∧ result.iterations ≤ q.options.maxiters + 1 ∧ (result.succeeded = true ↔ result.iterations ≤ q.options.maxiters) ∧
      (result.succeeded = true → ∃ t, t.u = R.final.u ∧ (((solverConfig env q.options.method inners P mem).machine (q.options.check.map sem)).error t.mach < q.options.tolerance ∨
        CheckAccepts ((solverConfig env q.options.method inners P mem).machine (q.options.check.map sem)) t)) := by
  obtain ⟨q', rest', u', e1, e2, e3, -⟩ := options_used_partial hr hs
  rw [hq] at e1
  cases e1
  cases e2
  obtain ⟨-, g⟩ := solve_budget ((solverConfig env u.method inners P mem).machine (u.check.map sem)) (u.solveOptions debug) (masterProblem P mem).bounds _ R.history (packState S)
  obtain ⟨s, n, t0, t1, -, -, -, g0, g1, g2, -, g3⟩ := g R.final R.solved
  have hm : (u.solveOptions debug).maxiters = q.options.maxiters := e3.maxiters
  have ht : (u.solveOptions debug).tolerance = q.options.tolerance := e3.tolerance
  rw [hm] at g2
  have hi : result.iterations = n + 1 := by rw [R.result_eq]; exact g1
  have hsu : result.succeeded = true ↔ result.iterations ≤ q.options.maxiters := by
    rw [R.result_eq, ← hm]
    simp [solveResult]
  refine ⟨by omega, by omega, hsu, fun hsucc => ⟨t1, (stepping_spec g0).1.symm, ?_⟩⟩
  have h4 := (g3.1 (by rw [R.result_eq] at hsucc; exact hsucc)).2
  unfold Accepted at h4
  rw [ht] at h4
  rw [← e3.method, ← e3.check]
  exact h4

/-- There are such programs and solves: a solver with any options whose output is not active, and the solve of a problem with one inequality constraint. -/
example (o : Options ℚ Unit) (ho : o.output.active = false) (hc : o.check = none) (S : UState ℚ 1 0 0 1 0 0) :
    ∃ (ops : List (Op ℚ Unit)) (h h' : Heap ℚ Unit) (log : List (InUse ℚ Unit)) (u : InUse ℚ Unit) (q : Request ℚ Unit), run false ops = some (h, log) ∧ step false h .read = some (h', [u]) ∧ requests ops = [q] ∧ q.options = o ∧ u.check = none ∧
      ∃ env : Env ℚ, ∀ inners part, ∃ S' result, Nonempty (SolverReturns env u.method inners part (u.solveOptions false) exRecord 0 S S' result none) := by
  obtain ⟨env, -, hall⟩ := exRecord_returns S
  obtain ⟨h1, h2⟩ := updateMasterOptions_spec (⟨o, MasterImpl.new ℚ Unit⟩ : Impl ℚ Unit) 0 1 1 0
  have hf : Fits o 1 1 0 := fun h => absurd (ho.symm.trans h) (by simp)
  cases hu : Impl.updateMasterOptions (⟨o, MasterImpl.new ℚ Unit⟩ : Impl ℚ Unit) 1 1 0 with
  | none => exact absurd hf (h1.1 hu)
  | some j =>
    let vars := Function.update (Function.update (Function.update (fun _ => none) 0 (some (Impl.new ℚ Unit))) 0 (some ⟨o, MasterImpl.new ℚ Unit⟩)) 0 (some j)
    refine ⟨[.solve 0 1 1 0, .setOptions 0 o, .construct 0], ⟨vars, [0]⟩, ⟨vars, [0]⟩, [], j.msolver.inUse, ⟨0, o, 1, 1, 0⟩, ?_, ?_, ?_, rfl, (h2 j hu).2.1.check.trans hc, env, fun inners part => hall _ inners part _ 0⟩
    · simp [vars, run, Opt.step, Heap.start, Impl.setOptions, Impl.new, hu]
    · simp [vars, Opt.step]
    · simp [requests, lastSet, hf]

end Optima.Opt
