import Verif.Props.SlackForm
import Verif.Props.QuadraticSolve

/-!
# C38, C39, C51-C54: states, index sets and success of `Solver::solve`
-/

set_option linter.unusedSectionVars false

namespace Optima

open Matrix

/-! ## C38: packing and unpacking -/

section pack

variable {K : Type*} {nx np nbe nbg nhe nhg : ℕ}

/-- **C38, round trip**: every block of the user's state comes back to its own field, for all sizes (also zero). -/
theorem unpack_pack (part : Idx.PartitionImpl ℕ) (S : UState K nx np nbe nbg nhe nhg) (m : MState K (nx + nbg + nhg) np (nbe + nbg + (nhe + nhg))) (hm : m.u = packState S) :
    let S' := unpackState (nbg := nbg) (nhe := nhe) part m
    S'.x = S.x ∧ S'.p = S.p ∧ S'.ye = S.ye ∧ S'.yg = S.yg ∧ S'.ze = S.ze ∧ S'.zg = S.zg ∧ S'.xbg = S.xbg ∧ S'.xhg = S.xhg := by
  refine ⟨?_, ?_, ?_, ?_, ?_, ?_, ?_, ?_⟩ <;> funext i <;> simp [unpackState, packState, hm]

/-- **C38, round trip**: the user's state holds all of the internal state, so a second solve starts exactly where the first one ended. -/
theorem pack_unpack (part : Idx.PartitionImpl ℕ) (m : MState K (nx + nbg + nhg) np (nbe + nbg + (nhe + nhg))) : packState (unpackState (nbg := nbg) (nhe := nhe) part m) = m.u := by
  apply MVec.ext
  · exact ext_xbar (by simp [unpackState, packState]) (by simp [unpackState, packState]) (by simp [unpackState, packState])
  · rfl
  · refine funext (forall_cat2.2 ⟨forall_cat2.2 ⟨?_, ?_⟩, forall_cat2.2 ⟨?_, ?_⟩⟩) <;> simp [unpackState, packState]

/-- The multipliers `s` of the real variables. -/
theorem unpack_s (part : Idx.PartitionImpl ℕ) (m : MState K (nx + nbg + nhg) np (nbe + nbg + (nhe + nhg))) (i : Fin nx) : (unpackState (nbg := nbg) (nhe := nhe) part m).s i = m.s (ixX nbg nhg i) := rfl

/-- **C38, index sets**: for every implementation of `std::partition`, a reported index set holds exactly the indices of real variables of the internal one, each as often. -/
theorem realIndices_perm (P : Idx.PartitionImpl ℕ) (nx nslack : ℕ) (j : List ℕ) (hj : ∀ i ∈ j, i < nx + nslack) : (realIndices P nx nslack j).Perm (j.filter fun i => decide (i < nx)) := by
  unfold realIndices
  dsimp only
  split_ifs with h
  · have hp := P.perm (fun i => !decide (nx ≤ i)) j
    have hl := P.left (fun i => !decide (nx ≤ i)) j
    have hr := P.right (fun i => !decide (nx ≤ i)) j
    unfold Idx.moveRightIf
    generalize P.run (fun i => !decide (nx ≤ i)) j = r at hp hl hr
    have e : (r.1.filter fun i => decide (i < nx)) = r.1.take r.2 := by
      conv_lhs => rw [← List.take_append_drop r.2 r.1]
      rw [List.filter_append, List.filter_eq_self.2, List.filter_eq_nil_iff.2, List.append_nil]
      · intro i hi; have := hr i hi; simp at this; simpa using this
      · intro i hi; have := hl i hi; simpa using this
    rw [← e]
    exact hp.filter _
  · rw [List.take_length, List.filter_eq_self.2]
    intro i hi
    have := hj i hi
    simp only [decide_eq_true_eq]; omega

/-- **C38, order in part**: the order is kept if there are no slack variables, or if `std::partition` happens to be stable. -/
theorem realIndices_order_partial (P : Idx.PartitionImpl ℕ) (nx nslack : ℕ) (j : List ℕ) (hj : ∀ i ∈ j, i < nx + nslack) (h : nslack = 0 ∨ P = Idx.stableImpl) :
    realIndices P nx nslack j = j.filter fun i => decide (i < nx) := by
  rcases h with rfl | rfl
  · unfold realIndices
    simp only [gt_iff_lt, lt_self_iff_false, if_false, List.take_length]
    rw [List.filter_eq_self.2]
    intro i hi
    have := hj i hi
    simpa using this
  · unfold realIndices
    dsimp only
    split_ifs with h
    · simp only [Idx.moveRightIf, Idx.stableImpl, Idx.stablePartition, List.take_left]
      congr 1; funext i; by_cases h : nx ≤ i <;> simp [h] <;> omega
    · rw [List.take_length, List.filter_eq_self.2]
      intro i hi
      have := hj i hi
      simp only [decide_eq_true_eq]; omega

/-- The two groups `std::partition` of libstdc++ makes of a random-access range: it swaps the first element that fails the predicate with the last one that satisfies it, and continues between them. -/
def gnuPartition {α : Type*} (p : α → Bool) : List α → List α × List α
  | [] => ([], [])
  | a :: l =>
    if p a then
      let r := gnuPartition p l
      (a :: r.1, r.2)
    else
      match h : l.reverse.dropWhile (fun i => !p i) with
      | [] => ([], a :: l)
      | z :: rev =>
        let r := gnuPartition p rev.reverse
        (z :: r.1, r.2 ++ a :: (l.reverse.takeWhile (fun i => !p i)).reverse)
  termination_by l => l.length
  decreasing_by
    · simp
    · have := (List.dropWhile_sublist (l := l.reverse) (fun i => !p i)).length_le
      rw [h] at this
      simp at this ⊢
      omega

theorem gnuPartition_spec {α : Type*} [DecidableEq α] (p : α → Bool) (l : List α) : ((gnuPartition p l).1 ++ (gnuPartition p l).2).Perm l ∧ (∀ i ∈ (gnuPartition p l).1, p i = true) ∧ ∀ i ∈ (gnuPartition p l).2, p i = false := by
  induction l using gnuPartition.induct p with
  | case1 => simp [gnuPartition]
  | case2 a l h ih =>
    rw [gnuPartition, if_pos h]
    refine ⟨by simpa using ih.1, fun i hi => ?_, ih.2.2⟩
    rcases List.mem_cons.1 hi with rfl | hi
    · exact h
    · exact ih.2.1 i hi
  | case3 a l h hd =>
    rw [gnuPartition, if_neg h]
    split
    · refine ⟨by simp, by simp, fun i hi => ?_⟩
      rcases List.mem_cons.1 hi with rfl | hi
      · simpa using h
      · have e := List.takeWhile_append_dropWhile (p := fun i => !p i) (l := l.reverse)
        rw [hd, List.append_nil] at e
        have := List.all_eq_true.1 (List.all_takeWhile (p := fun i => !p i) (l := l.reverse)) i (by rw [e]; simpa using hi)
        simpa using this
    · rename_i z rev hz; rw [hd] at hz; cases hz
  | case4 a l h z rev hd ih =>
    rw [gnuPartition, if_neg h]
    split
    · rename_i hz; rw [hd] at hz; cases hz
    · rename_i z' rev' hz
      rw [hd] at hz
      cases hz
      have hl : l.reverse = l.reverse.takeWhile (fun i => !p i) ++ z :: rev := by rw [← hd]; exact List.takeWhile_append_dropWhile.symm
      have hz : p z = true := by
        have := List.head?_dropWhile_not (fun i => !p i) l.reverse
        rw [hd] at this
        simpa using this
      have htw : ∀ i ∈ l.reverse.takeWhile (fun i => !p i), p i = false := by
        intro i hi
        have := List.all_eq_true.1 (List.all_takeWhile (p := fun i => !p i) (l := l.reverse)) i hi
        simpa using this
      generalize l.reverse.takeWhile (fun i => !p i) = tw at hl htw ⊢
      obtain ⟨i1, i2, i3⟩ := ih
      have hl' : l = rev.reverse ++ z :: tw.reverse := by rw [← l.reverse_reverse, hl]; simp
      refine ⟨?_, fun i hi => ?_, fun i hi => ?_⟩
      · rw [hl']
        dsimp only
        have e : ((gnuPartition p rev.reverse).1 ++ (gnuPartition p rev.reverse).2 ++ (z :: a :: tw.reverse)).Perm (rev.reverse ++ (z :: a :: tw.reverse)) := i1.append_right _
        refine List.Perm.trans ?_ (e.trans ?_)
        · simp only [List.perm_iff_count, List.count_append, List.count_cons]
          intro b; omega
        · simp only [List.perm_iff_count, List.count_append, List.count_cons]
          intro b; omega
      · rcases List.mem_cons.1 hi with rfl | hi
        · exact hz
        · exact i2 i hi
      · rcases List.mem_append.1 hi with hi | hi
        · exact i3 i hi
        · rcases List.mem_cons.1 hi with rfl | hi
          · simpa using h
          · exact htw i (by simpa using hi)

/-- `std::partition` of libstdc++ meets the contract. -/
def gnuImpl {α : Type*} [DecidableEq α] : Idx.PartitionImpl α where
  run p l := ((gnuPartition p l).1 ++ (gnuPartition p l).2, (gnuPartition p l).1.length)
  perm p l := (gnuPartition_spec p l).1
  le p l := by rw [← (gnuPartition_spec p l).1.length_eq]; simp
  left p l i hi := (gnuPartition_spec p l).2.1 i (by simpa using hi)
  right p l i hi := (gnuPartition_spec p l).2.2 i (by simpa using hi)

/-- **C38, the order is not kept**: with one slack variable (index 3) reported first, the indices `1, 2` come back as `2, 1`. -/
theorem realIndices_order_lost : realIndices gnuImpl 3 1 [3, 1, 2] = [2, 1] := by decide +kernel


end pack

/-! ## The results of `Solver::solve` -/

section solver

variable {K : Type*} [Field K] [LinearOrder K] [IsStrictOrderedRing K] {τ : Type*} {nx np nbe nbg nhe nhg nc : ℕ}
variable {env : Env K} {method : Method} {inners : ∀ c : CanonPack K (nx + nbg + nhg) np (nbe + nbg + (nhe + nhg)), Inners K np c.nbe c.nbi c.nne c.nni}
  {part : Idx.PartitionImpl ℕ} {o : SolveOptions K} {P : UProblem τ K nx np nbe nbg nhe nhg nc} {mem : Matrix (Fin (nbe + nbg)) (Fin (nx + nbg + nhg)) K} {S S' : UState K nx np nbe nbg nhe nhg} {result : Result K}

/-- The bounds of the user's problem can be met. -/
def UConsistent (P : UProblem τ K nx np nbe nbg nhe nhg nc) : Prop :=
  (∀ i l h, P.xlower i = some l → P.xupper i = some h → l ≤ h) ∧ ∀ i l h, P.plower i = some l → P.pupper i = some h → l ≤ h

/-- What holds when `Solver::solve` returns. -/
theorem solver_evaluated {check} (hthr : 0 ≤ env.thr) (heps : 0 ≤ env.eps) (hnx : 0 < nx) (h : SolverReturns env method inners part o P mem S S' result check) :
    ∃ ev, RFSpec env (masterProblem P mem) ev h.final.u h.rf ∧ EvaluatesTo P h.final.u.x h.final.u.p ev := by
  obtain ⟨-, ev, rf, ew0, h1, h2, h3, t0, t1, q, h4⟩ := solve_inv (machine_inv (cfg := solverConfig env method inners P mem) hthr heps (by omega) check) o _ (start_reach _ (h.t0, h.res) h.memW h.errors h.ax h.du) h.history _ _ h.solved
  have e : rf = h.rf := Option.some.inj (h1.symm.trans h.evaluated)
  subst e
  exact ⟨ev, h2, _, _, _, _, _, h4⟩

theorem masterBounds (hB : UConsistent P) : ConsistentBounds (masterProblem P mem).bounds := by
  refine ⟨?_, hB.2⟩
  refine forall_xbar.2 ⟨fun i => ?_, fun i => ?_, fun i => ?_⟩
  · simpa [MProblem.bounds, masterProblem] using hB.1 i
  · simp [MProblem.bounds, masterProblem]
  · simp [MProblem.bounds, masterProblem]

theorem filter_real_range (nx k : ℕ) : ((List.range (nx + k)).filter fun i => decide (i < nx)) = List.range nx := by
  rw [List.range_add, List.filter_append, List.filter_eq_self.2, List.filter_eq_nil_iff.2, List.append_nil]
  · intro i hi; simp at hi; obtain ⟨a, -, rfl⟩ := hi; simp
  · intro i hi; simpa using hi

theorem realIndices_mem (part : Idx.PartitionImpl ℕ) {n k : ℕ} (l : List (Fin (n + k))) (i : ℕ) : i ∈ realIndices part n k (l.map Fin.val) ↔ i < n ∧ ∃ j ∈ l, j.1 = i := by
  rw [(realIndices_perm part n k (l.map Fin.val) (by simp only [List.mem_map]; rintro i ⟨a, -, rfl⟩; exact a.2)).mem_iff]
  simp only [List.mem_filter, List.mem_map, decide_eq_true_eq]
  tauto

/-- If two lists together list all internal variables once, then what is reported of them lists all real variables once. -/
theorem realIndices_split (part : Idx.PartitionImpl ℕ) {n k : ℕ} {l1 l2 : List (Fin (n + k))} (h : (l1 ++ l2).Perm (List.finRange (n + k))) :
    (realIndices part n k (l1.map Fin.val) ++ realIndices part n k (l2.map Fin.val)).Perm (List.range n) := by
  have hlt : ∀ l : List (Fin (n + k)), ∀ i ∈ l.map Fin.val, i < n + k := by simp only [List.mem_map]; rintro l i ⟨a, -, rfl⟩; exact a.2
  refine ((realIndices_perm part n k _ (hlt l1)).append (realIndices_perm part n k _ (hlt l2))).trans ?_
  rw [← List.filter_append, ← List.map_append, ← filter_real_range n k]
  refine List.Perm.filter _ ?_
  refine (h.map _).trans ?_
  rw [List.map_coe_finRange_eq_range]

/-- **C38, index sets reported by a solve**: `(js, ju)` and `(jb, jn)` list every real variable exactly once; `ju` is made of `jlu` and `juu`; variables in `jlu` (`juu`) are on their lower (upper) bound with a positive (negative)
    multiplier `s`; basic variables are stable. -/
theorem solver_indices {check} (hthr : 0 ≤ env.thr) (heps : 0 ≤ env.eps) (hnx : 0 < nx) (h : SolverReturns env method inners part o P mem S S' result check) :
    (S'.js ++ S'.ju).Perm (List.range nx) ∧ (S'.jb ++ S'.jn).Perm (List.range nx) ∧ (S'.jlu ++ S'.juu).Perm S'.ju ∧
    (∀ i : Fin nx, i.1 ∈ S'.jlu → P.xlower i = some (S'.x i) ∧ 0 < S'.s i) ∧ (∀ i : Fin nx, i.1 ∈ S'.juu → P.xupper i = some (S'.x i) ∧ S'.s i < 0) ∧ ∀ i ∈ S'.jb, i ∈ S'.js := by
  obtain ⟨ev, hs, -⟩ := solver_evaluated hthr heps hnx h
  have hx : ∀ i, S'.x i = h.final.u.x (ixX nbg nhg i) := fun i => congrArg (fun z => UState.x z i) h.state
  have hS : ∀ i, S'.s i = h.rf.status.s (ixX nbg nhg i) := fun i => congrArg (fun z => UState.s z i) h.state
  -- the slack indices come after the real ones: re-associate `nx + nbg + nhg`
  have hcast : ∀ j : List (Fin (nx + nbg + nhg)), ∃ j' : List (Fin (nx + (nbg + nhg))), j' = j.map (Fin.cast (Nat.add_assoc _ _ _)) ∧ j.map Fin.val = j'.map Fin.val := fun j => ⟨_, rfl, by simp⟩
  have hreal : ∀ (l : List (Fin (nx + nbg + nhg))) (i : ℕ), i ∈ realIndices part nx (nbg + nhg) (l.map Fin.val) ↔ i < nx ∧ ∃ j ∈ l, j.1 = i := by
    intro l i
    obtain ⟨j', rfl, e⟩ := hcast l
    rw [e, realIndices_mem]
    simp
  have hsplit : ∀ l1 l2 : List (Fin (nx + nbg + nhg)), (l1 ++ l2).Perm (List.finRange _) →
      (realIndices part nx (nbg + nhg) (l1.map Fin.val) ++ realIndices part nx (nbg + nhg) (l2.map Fin.val)).Perm (List.range nx) := by
    intro l1 l2 hl
    obtain ⟨l1', rfl, e1⟩ := hcast l1
    obtain ⟨l2', rfl, e2⟩ := hcast l2
    rw [e1, e2]
    refine realIndices_split part ?_
    rw [← List.map_append]
    refine (hl.map _).trans ?_
    rw [List.perm_ext_iff_of_nodup ((List.nodup_map_iff (Fin.cast_injective _)).2 (List.nodup_finRange _)) (List.nodup_finRange _)]
    intro a
    simp only [List.mem_map, List.mem_finRange, true_and, iff_true]
    exact ⟨Fin.cast (Nat.add_assoc _ _ _).symm a, by simp⟩
  have hlt : ∀ l : List (Fin (nx + nbg + nhg)), ∀ i ∈ l.map Fin.val, i < nx + (nbg + nhg) := by simp only [List.mem_map]; rintro l i ⟨a, -, rfl⟩; omega
  obtain ⟨σ, ρ, hσ, hρ, k1, k2, -⟩ := hs.canon.ech
  have hjs : S'.js = realIndices part nx (nbg + nhg) (h.rf.status.js.map Fin.val) := congrArg UState.js h.state
  have hju : S'.ju = realIndices part nx (nbg + nhg) (h.rf.status.ju.map Fin.val) := congrArg UState.ju h.state
  have hjlu : S'.jlu = realIndices part nx (nbg + nhg) (h.rf.status.jlu.map Fin.val) := congrArg UState.jlu h.state
  have hjuu : S'.juu = realIndices part nx (nbg + nhg) (h.rf.status.juu.map Fin.val) := congrArg UState.juu h.state
  have hjb : S'.jb = realIndices part nx (nbg + nhg) ((List.ofFn (fun k => h.rf.C.mat.jb (.inl k)) ++ List.ofFn (fun k => h.rf.C.mat.jb (.inr k))).map Fin.val) := congrArg UState.jb h.state
  have hjn : S'.jn = realIndices part nx (nbg + nhg) ((List.ofFn (fun k => h.rf.C.mat.jn (.inl (.inl k))) ++ List.ofFn (fun k => h.rf.C.mat.jn (.inl (.inr k))) ++
    List.ofFn (fun k => h.rf.C.mat.jn (.inr k))).map Fin.val) := congrArg UState.jn h.state
  have hbas : ∀ i, i ∈ List.ofFn (fun k => h.rf.C.mat.jb (.inl k)) ++ List.ofFn (fun k => h.rf.C.mat.jb (.inr k)) ↔ ∃ b, h.rf.M.RWQ.jb b = i := by
    intro i
    rw [← hs.canon.basic]
    simp only [List.mem_append, List.mem_ofFn, Sum.exists]
  have hnon : ∀ i, i ∈ List.ofFn (fun k => h.rf.C.mat.jn (.inl (.inl k))) ++ List.ofFn (fun k => h.rf.C.mat.jn (.inl (.inr k))) ++ List.ofFn (fun k => h.rf.C.mat.jn (.inr k)) ↔ ∃ b, h.rf.M.RWQ.jn b = i := by
    intro i
    simp only [List.mem_append, List.mem_ofFn]
    constructor
    · rintro ((⟨k, rfl⟩ | ⟨k, rfl⟩) | ⟨k, rfl⟩) <;> exact ⟨_, (k2 _).symm⟩
    · rintro ⟨b, rfl⟩
      obtain ⟨k, rfl⟩ := hρ.2 b
      rw [← k2]
      rcases k with (k | k) | k
      · exact Or.inl (Or.inl ⟨k, rfl⟩)
      · exact Or.inl (Or.inr ⟨k, rfl⟩)
      · exact Or.inr ⟨k, rfl⟩
  have jbinj : Function.Injective h.rf.C.mat.jb := fun a b e => hσ.1 (Sum.inl_injective (hs.perm.1 (by simpa [← k1] using e)))
  have jninj : Function.Injective h.rf.C.mat.jn := fun a b e => hρ.1 (Sum.inr_injective (hs.perm.1 (by simpa [← k2] using e)))
  refine ⟨?_, ?_, ?_, ?_, ?_, ?_⟩
  · rw [hjs, hju]
    refine hsplit _ _ ?_
    rw [hs.js_eq, hs.ju_eq]
    exact hs.split
  · rw [hjb, hjn]
    refine hsplit _ _ ?_
    rw [List.perm_ext_iff_of_nodup ?_ (List.nodup_finRange _)]
    · intro i
      rw [List.mem_append, hbas, hnon]
      simp only [List.mem_finRange, iff_true]
      obtain ⟨b, hb⟩ := hs.perm.2 i
      rcases b with b | b
      · exact Or.inl ⟨b, hb⟩
      · exact Or.inr ⟨b, hb⟩
    · simp only [List.nodup_append, List.nodup_ofFn]
      refine ⟨⟨fun a b e => Sum.inl_injective (jbinj e), fun a b e => Sum.inr_injective (jbinj e), ?_⟩, ⟨⟨fun a b e => Sum.inl_injective (Sum.inl_injective (jninj e)), fun a b e => Sum.inr_injective (Sum.inl_injective (jninj e)), ?_⟩, fun a b e => Sum.inr_injective (jninj e), ?_⟩, ?_⟩
      · intro a ha b hb e
        obtain ⟨k, rfl⟩ := List.mem_ofFn.1 ha
        obtain ⟨k', rfl⟩ := List.mem_ofFn.1 hb
        cases jbinj e
      · intro a ha b hb e
        obtain ⟨k, rfl⟩ := List.mem_ofFn.1 ha
        obtain ⟨k', rfl⟩ := List.mem_ofFn.1 hb
        cases jninj e
      · intro a ha b hb e
        obtain ⟨k', rfl⟩ := List.mem_ofFn.1 hb
        rcases List.mem_append.1 ha with ha | ha <;> obtain ⟨k, rfl⟩ := List.mem_ofFn.1 ha <;> cases jninj e
      · intro a ha b hb e
        subst e
        obtain ⟨c, hc⟩ := (hbas a).1 ha
        obtain ⟨d, hd⟩ := (hnon a).1 hb
        have := hs.perm.1 (show Sum.elim h.rf.M.RWQ.jb h.rf.M.RWQ.jn (Sum.inl c) = Sum.elim h.rf.M.RWQ.jb h.rf.M.RWQ.jn (Sum.inr d) by simp [hc, hd])
        cases this
  · rw [hju, hjlu, hjuu, hs.ju_parts, List.map_append]
    refine ((realIndices_perm part _ _ _ (hlt _)).append (realIndices_perm part _ _ _ (hlt _))).trans ?_
    rw [← List.filter_append]
    exact (realIndices_perm part _ _ _ (by rw [← List.map_append]; exact hlt _)).symm
  · intro i hi
    rw [hjlu, hreal] at hi
    obtain ⟨-, j, hj, e⟩ := hi
    have e : j = ixX nbg nhg i := Fin.ext e
    subst e
    have := hs.jlu _ hj
    rw [hx, hS]
    simpa [masterProblem] using this
  · intro i hi
    rw [hjuu, hreal] at hi
    obtain ⟨-, j, hj, e⟩ := hi
    have e : j = ixX nbg nhg i := Fin.ext e
    subst e
    have := hs.juu _ hj
    rw [hx, hS]
    simpa [masterProblem] using this
  · intro i hi
    rw [hjb, hreal] at hi
    rw [hjs, hreal]
    obtain ⟨hi, j, hj, e⟩ := hi
    refine ⟨hi, j, ?_, e⟩
    rw [hs.js_eq, hs.split.nodup.2.2]
    intro hju
    obtain ⟨b, hb⟩ := (hbas j).1 hj
    exact (hs.unstable j hju).1 b hb

/-- The derivative of the user's Lagrangian with respect to `x(i)`. -/
def userGrad (P : UProblem τ K nx np nbe nbg nhe nhg nc) (U : UserVals K nx np nhe nhg) (S : UState K nx np nbe nbg nhe nhg) (i : Fin nx) : K :=
  U.fx S.x S.p i + ∑ l, P.Aex l i * S.ye l + ∑ l, P.Agx l i * S.yg l + ∑ l, U.hex S.x S.p l i * S.ze l + ∑ l, U.hgx S.x S.p l i * S.zg l

/-- What the blocks of a returned state are. -/
theorem solver_blocks {check} (h : SolverReturns env method inners part o P mem S S' result check) : packState S' = h.final.u :=
  (congrArg packState h.state).trans (pack_unpack part _)

/-- **C50 for `Solver`** (correctly assembled matrix): if a solve without a user check succeeds, then the returned state satisfies the bounds of the user's problem; slacks are not positive; every `v` is below the tolerance;
    the reported `s` is the gradient of the user's Lagrangian, and it is below the tolerance except for variables on a bound, held there by its sign or basic; the multiplier of an inequality constraint is below the tolerance unless
    its slack is zero and it is negative (or the slack is a basic variable). -/
theorem solver_success_partial {U : UserVals K nx np nhe nhg} (hU : Implements P U) (hA : IsMasterAx P.Aex P.Agx (masterProblem P mem).Ax) (hthr : 0 ≤ env.thr) (heps : 0 ≤ env.eps) (hnx : 0 < nx) (hB : UConsistent P)
    (h : SolverReturns env method inners part o P mem S S' result none) (hsucc : result.succeeded = true) :
    (∀ i, Between (P.xlower i) (P.xupper i) (S'.x i)) ∧ (∀ i, Between (P.plower i) (P.pupper i) (S'.p i)) ∧ (∀ i, S'.xbg i ≤ 0) ∧ (∀ i, S'.xhg i ≤ 0) ∧ (∀ i, |U.v S'.x S'.p i| < o.tolerance) ∧
    (∀ i, S'.s i = userGrad P U S' i) ∧
    (∀ i, |S'.s i| < o.tolerance ∨ (P.xlower i = some (S'.x i) ∧ 0 < S'.s i) ∨ (P.xupper i = some (S'.x i) ∧ S'.s i < 0) ∨ (i.1 ∈ S'.jb ∧ (P.xlower i = some (S'.x i) ∨ P.xupper i = some (S'.x i)))) ∧
    (∀ i, |S'.yg i| < o.tolerance ∨ (S'.xbg i = 0 ∧ (S'.yg i < 0 ∨ ∃ b, h.rf.M.RWQ.jb b = ixBg nx nhg i))) ∧
    (∀ i, |S'.zg i| < o.tolerance ∨ (S'.xhg i = 0 ∧ (S'.zg i < 0 ∨ ∃ b, h.rf.M.RWQ.jb b = ixHg nx nbg i))) := by
  have hmB := masterBounds (mem := mem) hB
  obtain ⟨ev, rf, ⟨t0, t1, q, hu⟩, e, hs, hin, hv, hg⟩ := solve_success_kkt (cfg := solverConfig env method inners P mem) hthr heps (by omega) o hmB (h.t0, h.res) h.memW h.errors h.ax h.du h.history _ _ h.solved
    ((congrArg Result.succeeded h.result_eq).symm.trans hsucc)
  have e : rf = h.rf := Option.some.inj (e.symm.trans h.evaluated)
  subst e
  have hpk := solver_blocks h
  have hev : EvaluatesTo P h.final.u.x h.final.u.p ev := ⟨_, _, _, _, _, hu⟩
  have hmv := master_vals hU hev
  have hin : InBounds (masterProblem P mem).bounds h.final.u := hin
  have hx : ∀ i, h.final.u.x (ixX nbg nhg i) = S'.x i := fun i => by rw [← hpk]; simp [packState]
  have hxb : ∀ i, h.final.u.x (ixBg nx nhg i) = S'.xbg i := fun i => by rw [← hpk]; simp [packState]
  have hxh : ∀ i, h.final.u.x (ixHg nx nbg i) = S'.xhg i := fun i => by rw [← hpk]; simp [packState]
  have hX : (fun i => h.final.u.x (ixX nbg nhg i)) = S'.x := funext hx
  have hp : h.final.u.p = S'.p := by rw [← hpk]; rfl
  obtain ⟨g1, g2, g3⟩ := lag_parts (P := P) (mem := mem) hA hmv h.final.u.w
  have w1 : ∀ l, h.final.u.w (Fin.castAdd (nhe + nhg) (Fin.castAdd nbg l)) = S'.ye l := fun l => by rw [← hpk]; simp [packState]
  have w2 : ∀ l, h.final.u.w (Fin.castAdd (nhe + nhg) (Fin.natAdd nbe l)) = S'.yg l := fun l => by rw [← hpk]; simp [packState]
  have w3 : ∀ l, h.final.u.w (Fin.natAdd (nbe + nbg) (Fin.castAdd nhg l)) = S'.ze l := fun l => by rw [← hpk]; simp [packState]
  have w4 : ∀ l, h.final.u.w (Fin.natAdd (nbe + nbg) (Fin.natAdd nhe l)) = S'.zg l := fun l => by rw [← hpk]; simp [packState]
  simp only [w1, w2, w3, w4, hX, hp] at g1 g2 g3
  have hsg : ∀ i, S'.s i = userGrad P U S' i := by
    intro i
    have : S'.s i = h.rf.status.s (ixX nbg nhg i) := congrArg (fun z => UState.s z i) h.state
    rw [this, hs.mult, hs.Wx]
    dsimp only
    rw [Fin.sum_univ_add]
    simp only [stack, Fin.addCases_left, Fin.addCases_right]
    rw [← add_assoc]
    exact g1 i
  change ∀ i : Fin (nx + nbg + nhg), _ at hg
  rw [forall_xbar] at hg
  obtain ⟨hg1, hg2, hg3⟩ := hg
  have hjb : ∀ i : Fin nx, (∃ b, h.rf.M.RWQ.jb b = ixX nbg nhg i) → i.1 ∈ S'.jb := by
    intro i hb
    rw [← hs.canon.basic] at hb
    have : S'.jb = realIndices part nx (nbg + nhg) ((List.ofFn (fun k => h.rf.C.mat.jb (.inl k)) ++ List.ofFn (fun k => h.rf.C.mat.jb (.inr k))).map Fin.val) := congrArg UState.jb h.state
    rw [this, (realIndices_perm part nx (nbg + nhg) _ (by simp only [List.mem_map]; rintro i ⟨a, -, rfl⟩; omega)).mem_iff, List.mem_filter]
    refine ⟨List.mem_map.2 ⟨ixX nbg nhg i, ?_, rfl⟩, by simp⟩
    simpa only [List.mem_append, List.mem_ofFn, Sum.exists] using hb
  refine ⟨fun i => ?_, fun i => ?_, fun i => ?_, fun i => ?_, fun i => ?_, hsg, fun i => ?_, fun i => ?_, fun i => ?_⟩
  · have := hin.1 (ixX nbg nhg i)
    rw [hx] at this
    simpa [MProblem.bounds, masterProblem] using this
  · have := hin.2 i
    rwa [hp] at this
  · have := (hin.1 (ixBg nx nhg i)).2 0 (by simp [MProblem.bounds, masterProblem])
    rwa [hxb] at this
  · have := (hin.1 (ixHg nx nbg i)).2 0 (by simp [MProblem.bounds, masterProblem])
    rwa [hxh] at this
  · have := hv i
    rwa [hmv.v, hX, hp] at this
  · have := hg1 i
    simp only [solverConfig] at this
    rw [g1 i, hx] at this
    change |userGrad P U S' i| < _ ∨ (_ ∧ 0 < userGrad P U S' i) ∨ (_ ∧ userGrad P U S' i < 0) ∨ _ at this
    rw [hsg i]
    rcases this with h1 | h1 | h1 | ⟨h1, h2⟩
    · exact Or.inl h1
    · exact Or.inr (Or.inl (by simpa [masterProblem] using h1))
    · exact Or.inr (Or.inr (Or.inl (by simpa [masterProblem] using h1)))
    · refine Or.inr (Or.inr (Or.inr ⟨hjb i h1, ?_⟩))
      unfold OnBound at h2
      rw [hx] at h2
      simpa [masterProblem] using h2
  · have := hg2 i
    simp only [solverConfig] at this
    rw [g2 i, hxb] at this
    rcases this with h1 | h1 | h1 | ⟨h1, h2⟩
    · exact Or.inl h1
    · simp [masterProblem] at h1
    · refine Or.inr ⟨?_, Or.inl h1.2⟩
      have := h1.1
      simp [masterProblem] at this
      exact this.symm
    · refine Or.inr ⟨?_, Or.inr h1⟩
      unfold OnBound at h2
      rw [hxb] at h2
      simp [masterProblem] at h2
      exact h2.symm
  · have := hg3 i
    simp only [solverConfig] at this
    rw [g3 i, hxh] at this
    rcases this with h1 | h1 | h1 | ⟨h1, h2⟩
    · exact Or.inl h1
    · simp [masterProblem] at h1
    · refine Or.inr ⟨?_, Or.inl h1.2⟩
      have := h1.1
      simp [masterProblem] at this
      exact this.symm
    · refine Or.inr ⟨?_, Or.inr h1⟩
      unfold OnBound at h2
      rw [hxh] at h2
      simp [masterProblem] at h2
      exact h2.symm

/-- A sum over different indices of non-negative terms. -/
theorem sum_jb_le {n m : ℕ} {jb : Fin m → Fin n} (hj : Function.Injective jb) (F : Fin n → K) (hF : ∀ i, 0 ≤ F i) : ∑ b, F (jb b) ≤ ∑ i, F i := by
  rw [← Finset.sum_image (f := F) (s := Finset.univ) (g := jb) (fun a _ b _ e => hj e)]
  exact Finset.sum_le_sum_of_subset_of_nonneg (Finset.subset_univ _) fun i _ _ => hF i

/-- **C50 for `Solver`, residuals** (exact arithmetic, as many basic variables as constraints, correctly assembled matrix): the state of a successful solve, with its slacks, satisfies the constraints in slack form up to the tolerance times
    the sums of the coefficients of the constraint. -/
theorem solver_success_residual_partial {U : UserVals K nx np nhe nhg} (hU : Implements P U) (hA : IsMasterAx P.Aex P.Agx (masterProblem P mem).Ax) (hthr : 0 ≤ env.thr) (heps : env.eps = 0) (hnx : 0 < nx) (hB : UConsistent P)
    (htol : 0 ≤ o.tolerance) (h : SolverReturns env method inners part o P mem S S' result none) (hsucc : result.succeeded = true) (hfull : h.rf.M.RWQ.nb = nbe + nbg + (nhe + nhg)) :
    (∀ i, |P.be i - (∑ j, P.Aex i j * S'.x j + ∑ q, P.Aep i q * S'.p q)| ≤ (∑ j, |P.Aex i j|) * o.tolerance) ∧
    (∀ i, |P.bg i - (∑ j, P.Agx i j * S'.x j + ∑ q, P.Agp i q * S'.p q) - S'.xbg i| ≤ (∑ j, |P.Agx i j| + 1) * o.tolerance) ∧
    (∀ i, |U.he S'.x S'.p i| ≤ (∑ j, |U.hex S'.x S'.p i j|) * o.tolerance) ∧
    (∀ i, |U.hg S'.x S'.p i + S'.xhg i| ≤ (∑ j, |U.hgx S'.x S'.p i j| + 1) * o.tolerance) := by
  have hmB := masterBounds (mem := mem) hB
  obtain ⟨ev0, hs, -⟩ := solver_evaluated hthr heps.ge hnx h
  have hinj : Function.Injective h.rf.M.RWQ.jb := fun a b e => Sum.inl_injective (hs.perm.1 (by simpa using e))
  obtain ⟨ev, rf, ⟨t0, t1, q, hu⟩, e, hlin, hnon⟩ := solve_success_feasible (cfg := solverConfig env method inners P mem) hthr heps (by omega) o hmB (h.t0, h.res) h.memW h.errors h.ax h.du h.history _ _ h.solved
    ((congrArg Result.succeeded h.result_eq).symm.trans hsucc) (fun rf e => by have e : rf = h.rf := Option.some.inj (e.symm.trans h.evaluated); subst e; exact hfull)
  have e : rf = h.rf := Option.some.inj (e.symm.trans h.evaluated)
  subst e
  have hpk := solver_blocks h
  have hev : EvaluatesTo P h.final.u.x h.final.u.p ev := ⟨_, _, _, _, _, hu⟩
  have hmv := master_vals hU hev
  have hx : ∀ i, h.final.u.x (ixX nbg nhg i) = S'.x i := fun i => by rw [← hpk]; simp [packState]
  have hxb : ∀ i, h.final.u.x (ixBg nx nhg i) = S'.xbg i := fun i => by rw [← hpk]; simp [packState]
  have hxh : ∀ i, h.final.u.x (ixHg nx nbg i) = S'.xhg i := fun i => by rw [← hpk]; simp [packState]
  have hX : (fun i => h.final.u.x (ixX nbg nhg i)) = S'.x := funext hx
  have hp : h.final.u.p = S'.p := by rw [← hpk]; rfl
  change ∀ l : Fin (nbe + nbg), |(masterProblem P mem).b l - ∑ j, (masterProblem P mem).Ax l j * h.final.u.x j - ∑ q, (masterProblem P mem).Ap l q * h.final.u.p q| ≤ (∑ b, |(masterProblem P mem).Ax l (h.rf.M.RWQ.jb b)|) * o.tolerance at hlin
  rw [forall_cat2] at hlin
  change ∀ l : Fin (nhe + nhg), _ at hnon
  rw [forall_cat2] at hnon
  have hAp1 : ∀ i q, (masterProblem P mem).Ap (Fin.castAdd nbg i) q = P.Aep i q := by simp [masterProblem]
  have hAp2 : ∀ i q, (masterProblem P mem).Ap (Fin.natAdd nbe i) q = P.Agp i q := by simp [masterProblem]
  have hb1 : ∀ i, (masterProblem P mem).b (Fin.castAdd nbg i) = P.be i := by simp [masterProblem]
  have hb2 : ∀ i, (masterProblem P mem).b (Fin.natAdd nbe i) = P.bg i := by simp [masterProblem]
  refine ⟨fun i => ?_, fun i => ?_, fun i => ?_, fun i => ?_⟩
  · have := hlin.1 i
    rw [lin_be hA, hb1, hp] at this
    simp only [hAp1, hx] at this
    rw [← sub_sub]
    refine this.trans (mul_le_mul_of_nonneg_right ?_ htol)
    refine (sum_jb_le hinj (fun j => |(masterProblem P mem).Ax (Fin.castAdd nbg i) j|) (fun _ => abs_nonneg _)).trans (le_of_eq ?_)
    rw [sum_xbar]
    simp [hA.ex, hA.ebg, hA.ehg]
  · have := hlin.2 i
    rw [lin_bg hA, hb2, hp] at this
    simp only [hAp2, hx, hxb] at this
    have h2 : (∑ b, |(masterProblem P mem).Ax (Fin.natAdd nbe i) (h.rf.M.RWQ.jb b)|) ≤ ∑ j, |P.Agx i j| + 1 := by
      refine (sum_jb_le hinj (fun j => |(masterProblem P mem).Ax (Fin.natAdd nbe i) j|) (fun _ => abs_nonneg _)).trans (le_of_eq ?_)
      rw [sum_xbar]
      simp [hA.gx, hA.gbg, hA.ghg, apply_ite]
    refine le_trans (le_of_eq ?_) (this.trans (mul_le_mul_of_nonneg_right h2 htol))
    congr 1
    ring
  · have := hnon.1 i
    rw [hmv.he, hX, hp] at this
    refine this.trans (mul_le_mul_of_nonneg_right ?_ htol)
    refine (sum_jb_le hinj (fun j => |ev.hx (Fin.castAdd nhg i) j|) (fun _ => abs_nonneg _)).trans (le_of_eq ?_)
    rw [sum_xbar]
    simp [hmv.hex, hmv.hebg, hmv.hehg, hX, hp]
  · have := hnon.2 i
    rw [hmv.hg, hX, hp, hxh] at this
    have h2 : (∑ b, |ev.hx (Fin.natAdd nhe i) (h.rf.M.RWQ.jb b)|) ≤ ∑ j, |U.hgx S'.x S'.p i j| + 1 := by
      refine (sum_jb_le hinj (fun j => |ev.hx (Fin.natAdd nhe i) j|) (fun _ => abs_nonneg _)).trans (le_of_eq ?_)
      rw [sum_xbar]
      simp [hmv.hgx, hmv.hgbg, hmv.hghg, hX, hp, apply_ite]
    exact this.trans (mul_le_mul_of_nonneg_right h2 htol)

/-- **C50 for `Solver`, feasibility** (exact arithmetic, as many basic variables as constraints, correctly assembled matrix): the state of a successful solve satisfies the user's constraints up to the tolerance times the sums of
    the coefficients of the constraint. -/
theorem solver_success_feasible_partial {U : UserVals K nx np nhe nhg} (hU : Implements P U) (hA : IsMasterAx P.Aex P.Agx (masterProblem P mem).Ax) (hthr : 0 ≤ env.thr) (heps : env.eps = 0) (hnx : 0 < nx) (hB : UConsistent P)
    (htol : 0 ≤ o.tolerance) (h : SolverReturns env method inners part o P mem S S' result none) (hsucc : result.succeeded = true) (hfull : h.rf.M.RWQ.nb = nbe + nbg + (nhe + nhg)) :
    (∀ i, |P.be i - (∑ j, P.Aex i j * S'.x j + ∑ q, P.Aep i q * S'.p q)| ≤ (∑ j, |P.Aex i j|) * o.tolerance) ∧
    (∀ i, P.bg i - (∑ j, P.Agx i j * S'.x j + ∑ q, P.Agp i q * S'.p q) ≤ (∑ j, |P.Agx i j| + 1) * o.tolerance) ∧
    (∀ i, |U.he S'.x S'.p i| ≤ (∑ j, |U.hex S'.x S'.p i j|) * o.tolerance) ∧
    (∀ i, -U.hg S'.x S'.p i ≤ (∑ j, |U.hgx S'.x S'.p i j| + 1) * o.tolerance) := by
  obtain ⟨-, -, hs1, hs2, -⟩ := solver_success_partial hU hA hthr heps.ge hnx hB h hsucc
  obtain ⟨h1, h2, h3, h4⟩ := solver_success_residual_partial hU hA hthr heps hnx hB htol h hsucc hfull
  refine ⟨h1, fun i => ?_, h3, fun i => ?_⟩
  · have := (abs_le.1 (h2 i)).2
    linarith [hs1 i]
  · have := (abs_le.1 (h4 i)).1
    linarith [hs2 i]

/-- The user functions never throw. -/
structure NeverThrows (P : UProblem τ K nx np nbe nbg nhe nhg nc) : Prop where
  r : ∀ (n : ℕ) t (x : Fin n → K) (p : Fin np → K) o, ∃ t', P.r.call t x p P.c o = some t'
  f : ∀ t res x p o, ∃ q, P.f.call t res x p P.c o = some q
  he : ∀ t res x p o, ∃ q, P.he.call t res x p P.c o = some q
  hg : ∀ t res x p o, ∃ q, P.hg.call t res x p P.c o = some q
  v : ∀ t res x p o, ∃ q, P.v.call t res x p P.c o = some q

/-- Then neither do those of the master problem. -/
theorem userCode_returns (hP : NeverThrows P) (first : List ℕ) (ddx ddp ddc : Bool) (s : τ × ResMem K (nx + nbg + nhg) np (nhe + nhg) nc) (x : Fin (nx + nbg + nhg) → K) (p : Fin np → K)
    (q : Option (Ech.RWQ K (nx + nbg + nhg) np (nbe + nbg + (nhe + nhg)))) : ∃ r, userCode (masterFuns P) P.c first ddx ddp ddc s x p q = some r := by
  have hf : ∀ t res o, ∃ q, (masterFuns P).f.call t res x p P.c o = some q := by
    intro t res o
    obtain ⟨⟨t', q⟩, e⟩ := hP.f t ({ res.clear with fx := 0, fxx := 0, fxp := 0, fxc := 0 } : ObjRes K (nx + nbg + nhg) np nc).headX (fun i => x (ixX nbg nhg i)) p o
    simp only [masterFuns, ObjFn.call, masterF] at e ⊢
    rw [e]
    exact ⟨_, rfl⟩
  have hh : ∀ t res o, ∃ q, (masterFuns P).h.call t res x p P.c o = some q := by
    intro t res o
    obtain ⟨⟨t1, q1⟩, e1⟩ := hP.he t ({ res.clear with ddx := slackCols res.clear.ddx } : ConRes K (nhe + nhg) (nx + nbg + nhg) np nc).topHe (fun i => x (ixX nbg nhg i)) p o
    obtain ⟨⟨t2, q2⟩, e2⟩ := hP.hg t1 (({ res.clear with ddx := slackCols res.clear.ddx } : ConRes K (nhe + nhg) (nx + nbg + nhg) np nc).setTopHe q1).bottomHg (fun i => x (ixX nbg nhg i)) p o
    simp only [masterFuns, ConFn.call, masterH] at e1 e2 ⊢
    rw [e1]
    dsimp only
    rw [e2]
    exact ⟨_, rfl⟩
  have hv : ∀ t res o, ∃ q, (masterFuns P).v.call t res x p P.c o = some q := by
    intro t res o
    obtain ⟨⟨t', q⟩, e⟩ := hP.v t { res.clear with ddx := fun i j => res.clear.ddx i (ixX nbg nhg j) } (fun i => x (ixX nbg nhg i)) p o
    simp only [masterFuns, ConFn.call, masterV] at e ⊢
    rw [e]
    exact ⟨_, rfl⟩
  unfold userCode functionEvals
  dsimp only
  obtain ⟨t1, e1⟩ := hP.r _ s.1 x p { ddx := ddx, ddp := ddp && decide (np ≠ 0), ddc := ddc && decide (nc ≠ 0), ibasicvars := basicIndices first q }
  rw [show (masterFuns P).r = P.r from rfl, e1]
  dsimp only
  obtain ⟨⟨t2, r2⟩, e2⟩ := hf t1 s.2.f { ddx := ddx, ddp := ddp && decide (np ≠ 0), ddc := ddc && decide (nc ≠ 0), ibasicvars := basicIndices first q }
  rw [e2]
  dsimp only
  obtain ⟨⟨t3, r3⟩, e3⟩ : ∃ q', (if nhe + nhg ≠ 0 then (masterFuns P).h.call t2 s.2.h x p P.c { ddx := ddx, ddp := ddp && decide (np ≠ 0), ddc := ddc && decide (nc ≠ 0), ibasicvars := basicIndices first q } else some (t2, s.2.h)) = some q' := by
    split_ifs
    · exact hh _ _ _
    · exact ⟨_, rfl⟩
  rw [e3]
  dsimp only
  obtain ⟨⟨t4, r4⟩, e4⟩ : ∃ q', (if np ≠ 0 then (masterFuns P).v.call t3 s.2.v x p P.c { ddx := ddx, ddp := ddp && decide (np ≠ 0), ddc := ddc && decide (nc ≠ 0), ibasicvars := basicIndices first q } else some (t3, s.2.v)) = some q' := by
    split_ifs
    · exact hv _ _ _
    · exact ⟨_, rfl⟩
  rw [e4]
  exact ⟨_, rfl⟩

/-- **C49 for `Solver`**: a solve always returns (release builds, user functions that do not throw), whatever they compute, for every initial state, every history of the solver object, every linear solver result. -/
theorem solver_returns (hP : NeverThrows P) (hthr : 0 ≤ env.thr) (heps : 0 ≤ env.eps) (hd : env.debug = false) (hnx : 0 < nx) (hB : UConsistent P) (part : Idx.PartitionImpl ℕ) (o : SolveOptions K) (S : UState K nx np nbe nbg nhe nhg)
    (method inners) (t0 : τ) (res memW errors ax du history) :
    ∃ S' result, ∃ h : SolverReturns env method inners part o P mem S S' result none, h.t0 = t0 ∧ h.res = res ∧ h.memW = memW ∧ h.errors = errors ∧ h.ax = ax ∧ h.du = du ∧ h.history = history := by
  obtain ⟨t, ht⟩ := solve_returns (cfg := solverConfig env method inners P mem) hthr heps hd (by omega) none (noPhi rfl) (fun s x p q => userCode_returns hP _ true true false s x p q) (fun f hf => by cases hf) o
    (masterBounds hB) (t0, res) memW errors ax du history (packState S)
  obtain ⟨-, ev, rf, ew0, h1, -⟩ := solve_inv (machine_inv (cfg := solverConfig env method inners P mem) hthr heps (by omega) none) o _ (start_reach _ (t0, res) memW errors ax du) history _ _ ht
  exact ⟨_, _, { t0 := t0, res := res, memW := memW, errors := errors, ax := ax, du := du, history := history, final := t, rf := rf, solved := ht, evaluated := h1, state := rfl, result_eq := rfl },
    rfl, rfl, rfl, rfl, rfl, rfl, rfl⟩

end solver

end Optima
