import Verif.Props.SolverWitness
import Verif.Props.Sensitivity

/-!
# C51: what the indices of basic variables given to the user functions are
-/

set_option linter.unusedSectionVars false

namespace Optima

open Matrix

variable {K : Type*} [Field K] [LinearOrder K] [IsStrictOrderedRing K] {τ : Type*} {nx np nbe nbg nhe nhg nc : ℕ}

/-- The columns of `W` with the indices in `l` are linearly independent. -/
def IndependentCols {m n : ℕ} (W : Matrix (Fin m) (Fin n) K) (l : List ℕ) : Prop :=
  ∀ c : Fin n → K, (∀ j : Fin n, j.1 ∉ l → c j = 0) → (∀ r, ∑ j, W r j * c j = 0) → c = 0

/-- Distinct indices of variables (slack variables included) with linearly independent columns in the matrix of the linear constraints, completed by some Jacobian of the non-linear constraints. -/
structure GivenIndices {ny n : ℕ} (Ax : Matrix (Fin ny) (Fin n) K) (nz : ℕ) (l : List ℕ) : Prop where
  nodup : l.Nodup
  lt : ∀ i ∈ l, i < n
  length : l.length ≤ ny + nz
  independent : ∃ J : Matrix (Fin nz) (Fin n) K, IndependentCols (stack Ax J) l

/-- A property of the state of the user functions that every call keeps if it is given such indices. -/
structure UProblem.Keeps (P : UProblem τ K nx np nbe nbg nhe nhg nc) (good : List ℕ → Prop) (J : τ → Prop) : Prop where
  r : ∀ fn, P.r.fn = some fn → ∀ t n x m p k c o t', good o.ibasicvars → J t → fn t n x m p k c o = some t' → J t'
  f : ∀ fn, P.f.fn = some fn → ∀ t res x p o t' q, good o.ibasicvars → J t → fn t res x p P.c o = some (t', q) → J t'
  he : ∀ fn, P.he.fn = some fn → ∀ t res x p o t' q, good o.ibasicvars → J t → fn t res x p P.c o = some (t', q) → J t'
  hg : ∀ fn, P.hg.fn = some fn → ∀ t res x p o t' q, good o.ibasicvars → J t → fn t res x p P.c o = some (t', q) → J t'
  v : ∀ fn, P.v.fn = some fn → ∀ t res x p o t' q, good o.ibasicvars → J t → fn t res x p P.c o = some (t', q) → J t'

section calls
variable {P : UProblem τ K nx np nbe nbg nhe nhg nc} {good : List ℕ → Prop} {J : τ → Prop}

theorem functionEvals_keeps (hk : P.Keeps good J) (ddx ddp ddc : Bool) {ib : List ℕ} (hib : good ib) {t t' : τ} {m m' x p ok} (ht : J t) (h : functionEvals (masterFuns P) P.c ddx ddp ddc ib t m x p = some (t', m', ok)) : J t' := by
  unfold functionEvals at h
  dsimp only at h
  split at h
  · cases h
  · rename_i t1 e1
    have h1 : J t1 := by
      change P.r.call _ _ _ _ _ = _ at e1
      unfold ResFn.call at e1
      split at e1
      · cases e1
      · exact hk.r _ (by assumption) _ _ _ _ _ _ _ _ _ (by exact hib) ht e1
    split at h
    · cases h
    · rename_i t2 q2 e2
      have h2 : J t2 := by
        change masterF P.f _ _ _ _ _ _ = _ at e2
        unfold masterF at e2
        dsimp only at e2
        split at e2
        · cases e2
        · rename_i e3
          cases e2
          unfold ObjFn.call at e3
          split at e3
          · cases e3
          · exact hk.f _ (by assumption) _ _ _ _ _ _ _ (by exact hib) h1 e3
      split at h
      · cases h
      · rename_i t3 q3 e3
        have h3 : J t3 := by
          split at e3
          · change masterH P.he P.hg _ _ _ _ _ _ = _ at e3
            unfold masterH at e3
            dsimp only at e3
            split at e3
            · cases e3
            · rename_i e4
              split at e3
              · cases e3
              · rename_i e5
                cases e3
                unfold ConFn.call at e4 e5
                split at e4
                · cases e4
                · split at e5
                  · cases e5
                  · exact hk.hg _ (by assumption) _ _ _ _ _ _ _ (by exact hib) (hk.he _ (by assumption) _ _ _ _ _ _ _ (by exact hib) h2 e4) e5
          · cases e3; exact h2
        split at h
        · cases h
        · rename_i t4 q4 e4
          cases h
          split at e4
          · change masterV P.v _ _ _ _ _ _ = _ at e4
            unfold masterV at e4
            split at e4
            · cases e4
            · rename_i e5
              cases e4
              unfold ConFn.call at e5
              split at e5
              · cases e5
              · exact hk.v _ (by assumption) _ _ _ _ _ _ _ (by exact hib) h3 e5
          · cases e4; exact h3

end calls

/-- From `R * W` on the basic columns being the identity. -/
theorem given_of_left_inverse {ny nz n nb : ℕ} {Ax : Matrix (Fin ny) (Fin n) K} (J : Matrix (Fin nz) (Fin n) K) (jb : Fin nb → Fin n) (hj : Function.Injective jb) (R : Matrix (Fin nb) (Fin (ny + nz)) K)
    (h : R * (stack Ax J).submatrix id jb = 1) : GivenIndices Ax nz ((List.ofFn jb).map Fin.val) where
  nodup := (List.nodup_ofFn.2 hj).map Fin.val_injective
  lt := by
    intro i hi
    obtain ⟨j, -, rfl⟩ := List.mem_map.1 hi
    exact j.2
  length := by
    rw [List.length_map, List.length_ofFn]
    have h1 : (1 : Matrix (Fin nb) (Fin nb) K).rank ≤ R.rank := by rw [← h]; exact Matrix.rank_mul_le_left _ _
    rw [Matrix.rank_one, Fintype.card_fin] at h1
    exact h1.trans (R.rank_le_width)
  independent := by
    refine ⟨J, fun c hc h0 => ?_⟩
    have hs : ∀ r, ∑ b, stack Ax J r (jb b) * c (jb b) = 0 := by
      intro r
      rw [← h0 r, ← Finset.sum_image (s := Finset.univ) (g := jb) (f := fun j => stack Ax J r j * c j) (fun a _ b _ e => hj e)]
      refine Finset.sum_subset (Finset.subset_univ _) fun j _ hj' => ?_
      rw [hc j, mul_zero]
      intro hm
      obtain ⟨k, hk, e⟩ := List.mem_map.1 hm
      obtain ⟨b, rfl⟩ := (List.mem_ofFn' _ _).1 hk
      exact hj' (Finset.mem_image.2 ⟨b, Finset.mem_univ _, Fin.val_injective e⟩)
    have hz : ∀ b, c (jb b) = 0 := by
      intro b
      have e : (R * (stack Ax J).submatrix id jb) *ᵥ (c ∘ jb) = 0 := by
        rw [← Matrix.mulVec_mulVec]
        have : (stack Ax J).submatrix id jb *ᵥ (c ∘ jb) = 0 := funext fun r => hs r
        rw [this, Matrix.mulVec_zero]
      rw [h, Matrix.one_mulVec] at e
      exact congrFun e b
    funext j
    by_cases hm : j.1 ∈ (List.ofFn jb).map Fin.val
    · obtain ⟨k, hk, e⟩ := List.mem_map.1 hm
      obtain ⟨b, rfl⟩ := (List.mem_ofFn' _ _).1 hk
      rw [← Fin.val_injective e]
      exact hz b
    · exact hc j hm

theorem stack_left {ny nz n : ℕ} (A : Matrix (Fin ny) (Fin n) K) (J : Matrix (Fin nz) (Fin n) K) (l : Fin ny) (i : Fin n) : stack A J (Fin.castAdd nz l) i = A l i := Fin.addCases_left l

theorem firstBasics_given {ny n : ℕ} (o : Ech.LUOracle K) (Ax : Matrix (Fin ny) (Fin n) K) (nz : ℕ) : GivenIndices Ax nz (firstBasics o Ax) := by
  have hw : (Ech.extInit o Ax).form.Good := (Ech.extReach_inv (sort := Ech.sortImpl) le_rfl (Ech.ExtReach.init (o := o) (thr := 0))).w
  refine given_of_left_inverse (R := Matrix.of fun b r => Fin.addCases (fun l => (Ech.extInit o Ax).form.R (Sum.inl b) l) (fun _ => 0) r) 0 _ (fun a b e => Sum.inl_injective (hw.qbij.1 e)) ?_
  ext a b
  rw [Matrix.mul_apply, Fin.sum_univ_add]
  simp only [Matrix.of_apply, Fin.addCases_left, Fin.addCases_right, zero_mul, Finset.sum_const_zero, add_zero]
  rw [Matrix.one_apply]
  refine Eq.trans (Finset.sum_congr rfl fun r _ => ?_) (hw.topB a b)
  congr 1
  exact stack_left Ax 0 r _

theorem basicIndices_given {env : Env K} {ny nz n : ℕ} {pb : MProblem K n np ny nz} {ev u rf} (hs : RFSpec env pb ev u rf) (first : List ℕ) : GivenIndices pb.Ax nz (basicIndices first rf.ech.rwq) := by
  rw [hs.rwq]
  have hb := hs.b
  rw [hs.Wx] at hb
  exact given_of_left_inverse ev.hx _ (fun a b e => Sum.inl_injective (hs.perm.1 e)) _ hb

section solve
variable {env : Env K} {method : Method} {inners : ∀ c : CanonPack K (nx + nbg + nhg) np (nbe + nbg + (nhe + nhg)), Inners K np c.nbe c.nbi c.nne c.nni} {part : Idx.PartitionImpl ℕ} {o : SolveOptions K}
  {P : UProblem τ K nx np nbe nbg nhe nhg nc} {mem : Matrix (Fin (nbe + nbg)) (Fin (nx + nbg + nhg)) K} {S S' : UState K nx np nbe nbg nhe nhg} {result : Result K}

theorem updateF_given (hthr : 0 ≤ env.thr) (heps : 0 ≤ env.eps) (hnx : 0 < nx + nbg + nhg) {J : τ → Prop} (hk : P.Keeps (GivenIndices (masterProblem P mem).Ax (nhe + nhg)) J) (jac : Bool) {s s' u}
    (hq : Reach (solverConfig env method inners P mem) s ∧ GivenIndices (masterProblem P mem).Ax (nhe + nhg) (basicIndices (firstBasics env.o (masterProblem P mem).Ax) s.ech.rwq) ∧ J s.user.1)
    (h : (solverConfig env method inners P mem).updateF (userCode (masterFuns P) P.c (firstBasics env.o (masterProblem P mem).Ax) true true jac) s u = some s') :
    Reach (solverConfig env method inners P mem) s' ∧ GivenIndices (masterProblem P mem).Ax (nhe + nhg) (basicIndices (firstBasics env.o (masterProblem P mem).Ax) s'.ech.rwq) ∧ J s'.user.1 := by
  unfold Config.updateF at h
  split at h
  · cases h
  · rename_i t ev hu
    have ht : J t.1 := by
      unfold userCode at hu
      split at hu
      · cases hu
      · rename_i e
        cases hu
        exact functionEvals_keeps hk _ _ _ hq.2.1 hq.2.2 e
    rcases rfUpdate_spec (env := (solverConfig env method inners P mem).env) hthr heps (solverConfig env method inners P mem).pb hq.1 hnx s.ax ev u with ⟨rf, hrf, hspec⟩ | ⟨hf, -⟩
    · rw [hrf] at h
      cases h
      exact ⟨hspec.reach, basicIndices_given hspec _, ht⟩
    · rw [hf] at h; cases h

theorem updateE_same {ny nz n : ℕ} {υ : Type*} (cfg : Config K n np ny nz υ) (s u) : (cfg.updateE s u).ech = s.ech ∧ (cfg.updateE s u).user = s.user := by
  unfold Config.updateE
  split <;> exact ⟨rfl, rfl⟩

/-- **C51**, the part that holds: every list of basic variables given to a user function during a solve consists of distinct indices of variables of the master problem (slacks included), whose columns in the
    matrix of the constraints are linearly independent, at most as many as there are constraints.  Stated as: every property of the state of the user functions that is kept by all calls with such lists is kept by the solve. -/
theorem given_indices_partial (hthr : 0 ≤ env.thr) (heps : 0 ≤ env.eps) (hnx : 0 < nx + nbg + nhg) {check} (h : SolverReturns env method inners part o P mem S S' result check) {J : τ → Prop}
    (hk : P.Keeps (GivenIndices (masterProblem P mem).Ax (nhe + nhg)) J) (hc : ∀ f, check = some f → ∀ s uo u r t b, J s.user.1 → f s uo u r = some (t, b) → J t.1) (h0 : J h.t0) :
    J h.final.mach.user.1 ∧ ∀ {I sens} (h2 : SensReturns h I sens), J h2.parts.user.1 := by
  have hinv : MachInv ((solverConfig env method inners P mem).machine check)
      (fun s => Reach (solverConfig env method inners P mem) s ∧ GivenIndices (masterProblem P mem).Ax (nhe + nhg) (basicIndices (firstBasics env.o (masterProblem P mem).Ax) s.ech.rwq) ∧ J s.user.1) (fun _ _ => True) :=
    { eval := by
        intro s u s' hq he
        obtain ⟨s1, h1, rfl⟩ := Option.map_eq_some_iff.1 he
        refine ⟨?_, trivial⟩
        have := updateF_given hthr heps hnx hk false hq h1
        unfold Reach at this ⊢
        rw [(updateE_same _ s1 u).1, (updateE_same _ s1 u).2]
        exact this
      newton := by
        intro s uo s' u hq he
        change (solverConfig env method inners P mem).newton s uo = _ at he
        unfold Config.newton at he
        split at he
        · cases he
        · cases he; exact hq
      phi := by intro f hf; cases hf
      check := by
        intro f hf s uo u r s' b hq he
        refine ⟨?_, fun _ => trivial⟩
        obtain ⟨g, hg, rfl⟩ := Option.map_eq_some_iff.1 hf
        obtain ⟨q, hq', e⟩ := Option.map_eq_some_iff.1 he
        cases e
        exact ⟨hq.1, hq.2.1, hc g hg _ _ _ _ _ _ hq.2.2 hq'⟩ }
  have hf := (solve_inv hinv _ _ (mach := (solverConfig env method inners P mem).start (h.t0, h.res) h.memW h.errors h.ax h.du) ⟨start_reach _ _ _ _ _ _, firstBasics_given _ _ _, h0⟩ _ _ _ h.solved).1
  exact ⟨hf.2.2, fun h2 => (updateF_given hthr heps hnx hk true hf h2.evaluated).2.2⟩

/-- Without inequality constraints all indices given to the user functions are indices of the user's variables: **C51** holds for such problems. -/
theorem given_indices_users {P : UProblem τ K nx np nbe 0 nhe 0 nc} {inners : ∀ c : CanonPack K (nx + 0 + 0) np (nbe + 0 + (nhe + 0)), Inners K np c.nbe c.nbi c.nne c.nni} {mem S S'}
    (hthr : 0 ≤ env.thr) (heps : 0 ≤ env.eps) (hnx : 0 < nx) {check} (h : SolverReturns env method inners part o P mem S S' result check) {J : τ → Prop}
    (hk : P.Keeps (fun l => l.Nodup ∧ (∀ i ∈ l, i < nx) ∧ l.length ≤ nbe + nhe) J) (hc : ∀ f, check = some f → ∀ s uo u r t b, J s.user.1 → f s uo u r = some (t, b) → J t.1) (h0 : J h.t0) :
    J h.final.mach.user.1 ∧ ∀ {I sens} (h2 : SensReturns h I sens), J h2.parts.user.1 := by
  have w : ∀ l, GivenIndices (masterProblem P mem).Ax (nhe + 0) l → l.Nodup ∧ (∀ i ∈ l, i < nx) ∧ l.length ≤ nbe + nhe := fun l hl => ⟨hl.nodup, hl.lt, hl.length⟩
  exact given_indices_partial hthr heps hnx h ⟨fun fn e t n x m p k c o t' g => hk.r fn e t n x m p k c o t' (w _ g), fun fn e t r x p o t' q g => hk.f fn e t r x p o t' q (w _ g),
    fun fn e t r x p o t' q g => hk.he fn e t r x p o t' q (w _ g), fun fn e t r x p o t' q g => hk.hg fn e t r x p o t' q (w _ g), fun fn e t r x p o t' q g => hk.v fn e t r x p o t' q (w _ g)⟩ hc h0

end solve

/-- `x₀ + x₁ = 1`, with an objective that keeps a record of the lists it was given. -/
def exRecordEq : UProblem (List (List ℕ)) ℚ 2 0 1 0 0 0 0 where
  r := ResFn.default
  f := ⟨some fun t res x _ _ o => some (o.ibasicvars :: t, { res with f := (x 0 ^ 2 + x 1 ^ 2) / 2, fx := x, fxx := 1 })⟩
  he := ConFn.default
  hg := ConFn.default
  v := ConFn.default
  Aex := fun _ _ => 1
  Aep := fun _ i => i.elim0
  Agx := fun i => i.elim0
  Agp := fun i => i.elim0
  be := fun _ => 1
  bg := fun i => i.elim0
  xlower := fun _ => none
  xupper := fun _ => none
  plower := fun i => i.elim0
  pupper := fun i => i.elim0
  c := fun i => i.elim0
  bec := fun _ i => i.elim0
  bgc := fun i => i.elim0

/-- In every solve of this problem every list given to the objective is `[]`, `[0]` or `[1]`. -/
example {env : Env ℚ} (hthr : 0 ≤ env.thr) (heps : 0 ≤ env.eps) {method inners part o mem S S' result} (h : SolverReturns env method inners part o exRecordEq mem S S' result none) (h0 : h.t0 = []) :
    ∀ l ∈ h.final.mach.user.1, l = [] ∨ l = [0] ∨ l = [1] := by
  refine (given_indices_users (J := fun t => ∀ l ∈ t, l = [] ∨ l = [0] ∨ l = [1]) hthr heps (by norm_num) h ⟨?_, ?_, ?_, ?_, ?_⟩ (fun f e => by cases e) (by rw [h0]; simp)).1
  · intro fn e; cases e; intro t n x m p k c o t' _ hJ e; cases e; exact hJ
  · intro fn e; cases e; intro t res x p o t' q g hJ e
    cases e
    intro l hl
    rcases List.mem_cons.1 hl with rfl | hl
    · obtain ⟨-, hlt, hlen⟩ := g
      match o.ibasicvars, hlt, hlen with
      | [], _, _ => exact Or.inl rfl
      | [a], hlt, _ =>
        have := hlt a (by simp)
        interval_cases a <;> simp
    · exact hJ l hl
  · intro fn e; cases e; intro t res x p o t' q g hJ e; cases e; exact hJ
  · intro fn e; cases e; intro t res x p o t' q g hJ e; cases e; exact hJ
  · intro fn e; cases e; intro t res x p o t' q g hJ e; cases e; exact hJ

/-- There are such solves, from every initial state and with an empty record. -/
example (S : UState ℚ 2 0 1 0 0 0) : ∃ env : Env ℚ, (0 ≤ env.thr ∧ 0 ≤ env.eps) ∧ ∀ method inners part o mem, ∃ S' result, ∃ h : SolverReturns env method inners part o exRecordEq mem S S' result none, h.t0 = [] := by
  obtain ⟨oracle, ho⟩ := Ech.exists_exact_oracle (K := ℚ)
  refine ⟨{ o := oracle, sort := Ech.sortImpl, P := fun n => Idx.stableImpl, thr := 1/100000000, eps := 0, debug := false }, ⟨by norm_num, le_rfl⟩, fun method inners part o mem => ?_⟩
  obtain ⟨S', result, h, e, -⟩ := solver_returns (P := exRecordEq) (mem := mem) (env := { o := oracle, sort := Ech.sortImpl, P := fun n => Idx.stableImpl, thr := 1/100000000, eps := 0, debug := false })
    ⟨fun _ _ _ _ _ => ⟨_, rfl⟩, fun _ _ _ _ _ => ⟨_, rfl⟩, fun _ _ _ _ _ => ⟨_, rfl⟩, fun _ _ _ _ _ => ⟨_, rfl⟩, fun _ _ _ _ _ => ⟨_, rfl⟩⟩ (by norm_num) le_rfl rfl (by norm_num)
    ⟨fun i l h e => (by cases e), fun i => i.elim0⟩ part o S method inners [] ⟨cleanObj, cleanCon, cleanCon⟩ 0 ⟨0, 0, 0, 0, 0, 0, 0, 0⟩ 0 ⟨0, 0, 0⟩ []
  exact ⟨S', result, h, e⟩

end Optima
