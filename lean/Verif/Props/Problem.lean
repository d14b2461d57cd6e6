import Verif.Model.Problem
import Verif.Props.SolverQuadratic

/-!
# C40, C55: assignment of problems, states, sensitivities and of matrices with fixed dimensions
-/

set_option linter.unusedSectionVars false

namespace Optima

open Matrix

section
variable {K : Type*} {τ : Type*}

theorem DMat.Same.rfl {A : DMat K} : A.Same A := ⟨Eq.refl _, Eq.refl _, fun _ _ _ _ => Eq.refl _⟩

/-! ## C55: matrices with fixed dimensions -/

/-- **C55**: assigning an expression to a matrix with fixed dimensions never changes its dimensions; it succeeds exactly if the dimensions agree or both are empty, and then the entries are those of the expression. -/
theorem assignFixed_spec (A B : DMat K) :
    (∀ C, A.assignFixed B = some C → C.rows = A.rows ∧ C.cols = A.cols ∧ ((A.rows = B.rows ∧ A.cols = B.cols) → C.Same B)) ∧
    (A.assignFixed B = none ↔ ¬((A.rows = B.rows ∧ A.cols = B.cols) ∨ ((A.rows = 0 ∨ A.cols = 0) ∧ (B.rows = 0 ∨ B.cols = 0)))) := by
  have hsz : ∀ M : DMat K, M.size = 0 ↔ (M.rows = 0 ∨ M.cols = 0) := fun M => Nat.mul_eq_zero
  unfold DMat.assignFixed
  constructor
  · intro C h
    split_ifs at h with h1 h2
    · cases h
      refine ⟨rfl, rfl, fun h => ⟨h.1, h.2, fun i hi j hj => ?_⟩⟩
      rcases (hsz _).1 h1.1 with h | h <;> omega
    · cases h
      push Not at h2
      exact ⟨h2.1.symm, h2.2.symm, fun _ => DMat.Same.rfl⟩
  · split_ifs with h1 h2
    · rw [hsz, hsz] at h1
      simp [h1]
    · rw [hsz, hsz] at h1
      simp only [true_iff]; push Not; refine ⟨fun h => ?_, fun h => ?_⟩
      · rcases h2 with h2 | h2
        · exact absurd h h2
        · exact h2
      · by_contra hc
        exact h1 ⟨h, by tauto⟩
    · push Not at h2
      simp [h2]

/-- Negation for the implicit copy assignment (`problem.Aex = other.Aex`): it replaces the dimensions without an error. -/
theorem copy_changes_dimensions : ∃ A B : DMat ℚ, A.assignFixed B = none ∧ (A.assign B).rows ≠ A.rows :=
  ⟨DMat.const 1 2 0, DMat.const 3 2 0, by decide +kernel, by decide⟩

example : (DMat.const 1 2 (0 : ℚ)).assignFixed (DMat.const 1 2 5) = some (DMat.const 1 2 5) ∧ (DMat.const 0 2 (0 : ℚ)).assignFixed (DMat.const 3 0 5) = some (DMat.const 0 2 0) := ⟨rfl, rfl⟩

/-! ## C40: assigning a problem -/

/-- The functions of two problems are the same. -/
def DProblem.SameFuns (a b : DProblem τ K) : Prop := a.r = b.r ∧ a.f = b.f ∧ a.he = b.he ∧ a.hg = b.hg ∧ a.v = b.v

/-- The data of two problems are the same, sizes included. -/
structure DProblem.SameData (a b : DProblem τ K) : Prop where
  dims : a.dims = b.dims
  Aex : a.Aex.Same b.Aex
  Aep : a.Aep.Same b.Aep
  Agx : a.Agx.Same b.Agx
  Agp : a.Agp.Same b.Agp
  be : a.be.Same b.be
  bg : a.bg.Same b.bg
  xlower : a.xlower.Same b.xlower
  xupper : a.xupper.Same b.xupper
  plower : a.plower.Same b.plower
  pupper : a.pupper.Same b.pupper
  c : a.c.Same b.c
  bec : a.bec.Same b.bec
  bgc : a.bgc.Same b.bgc

/-- **C40 in part** (data): `a = b` copies the dimensions and every data member, whatever the dimensions were before. -/
theorem assign_data_partial (a b : DProblem τ K) : (a.assign b).SameData b :=
  ⟨rfl, .rfl, .rfl, .rfl, .rfl, .rfl, .rfl, .rfl, .rfl, .rfl, .rfl, .rfl, .rfl, .rfl⟩

/-- Negation of the rest of C40: `a = b` leaves all functions of `a` as they were. -/
theorem assign_keeps_functions (a b : DProblem τ K) : (a.assign b).SameFuns a := ⟨rfl, rfl, rfl, rfl, rfl⟩

/-- **C40 in part** (solving): if `a` had the functions of `b` already, then after `a = b` the solver sees the problem `b`. Otherwise it sees the data of `b` with the functions of `a`. -/
theorem assign_user_partial (a b : DProblem τ K) (h : a.SameFuns b) : (a.assign b).user = b.user := by
  obtain ⟨h1, h2, h3, h4, h5⟩ := h
  unfold DProblem.assign DProblem.user
  dsimp only [DMat.assign]
  rw [h1, h2, h3, h4, h5]

/-- **C40 in part** (data, as the solver sees them): after `a = b` every matrix, right-hand side, bound and parameter that the solver reads is the entry of the same member of `b`. -/
theorem assign_seen_partial (a b : DProblem τ K) :
    (∀ i j, (a.assign b).user.Aex i j = b.Aex.val i j) ∧ (∀ i j, (a.assign b).user.Aep i j = b.Aep.val i j) ∧ (∀ i j, (a.assign b).user.Agx i j = b.Agx.val i j) ∧ (∀ i j, (a.assign b).user.Agp i j = b.Agp.val i j) ∧
    (∀ i, (a.assign b).user.be i = b.be.val i 0) ∧ (∀ i, (a.assign b).user.bg i = b.bg.val i 0) ∧ (∀ i, (a.assign b).user.xlower i = b.xlower.val i 0) ∧ (∀ i, (a.assign b).user.xupper i = b.xupper.val i 0) ∧
    (∀ i, (a.assign b).user.plower i = b.plower.val i 0) ∧ (∀ i, (a.assign b).user.pupper i = b.pupper.val i 0) ∧ (∀ i, (a.assign b).user.c i = b.c.val i 0) ∧
    (∀ i j, (a.assign b).user.bec i j = b.bec.val i j) ∧ ∀ i j, (a.assign b).user.bgc i j = b.bgc.val i j :=
  ⟨fun _ _ => rfl, fun _ _ => rfl, fun _ _ => rfl, fun _ _ => rfl, fun _ => rfl, fun _ => rfl, fun _ => rfl, fun _ => rfl, fun _ => rfl, fun _ => rfl, fun _ => rfl, fun _ _ => rfl, fun _ _ => rfl⟩

/-- The copy constructor makes the same problem. -/
theorem copy_user (b : DProblem τ K) : b.copy.SameData b ∧ b.copy.SameFuns b ∧ b.copy.user = b.user :=
  ⟨⟨rfl, .rfl, .rfl, .rfl, .rfl, .rfl, .rfl, .rfl, .rfl, .rfl, .rfl, .rfl, .rfl, .rfl⟩, ⟨rfl, rfl, rfl, rfl, rfl⟩, rfl⟩

/-- The members of a problem have the sizes given by `d`. -/
structure DProblem.HasSizes (P : DProblem τ K) (d : Dims) : Prop where
  dims : P.dims = d
  Aex : P.Aex.rows = d.be ∧ P.Aex.cols = d.x
  Aep : P.Aep.rows = d.be ∧ P.Aep.cols = d.p
  Agx : P.Agx.rows = d.bg ∧ P.Agx.cols = d.x
  Agp : P.Agp.rows = d.bg ∧ P.Agp.cols = d.p
  be : P.be.rows = d.be ∧ P.be.cols = 1
  bg : P.bg.rows = d.bg ∧ P.bg.cols = 1
  xlower : P.xlower.rows = d.x ∧ P.xlower.cols = 1
  xupper : P.xupper.rows = d.x ∧ P.xupper.cols = 1
  plower : P.plower.rows = d.p ∧ P.plower.cols = 1
  pupper : P.pupper.rows = d.p ∧ P.pupper.cols = 1
  c : P.c.rows = d.c ∧ P.c.cols = 1
  bec : P.bec.rows = d.be ∧ P.bec.cols = d.c
  bgc : P.bgc.rows = d.bg ∧ P.bgc.cols = d.c

/-- **C55 (new problems)**: `Problem(dims)` has members of the sizes of `dims`, no bounds and zero data; `Problem()` is `Problem(Dims{})`; both have no functions; a copy and an assigned problem have the sizes of the source. -/
theorem new_problem [Zero K] (d : Dims) : (DProblem.ofDims d : DProblem τ K).HasSizes d ∧ (∀ i < d.x, (DProblem.ofDims d : DProblem τ K).xlower.val i 0 = none ∧ (DProblem.ofDims d : DProblem τ K).xupper.val i 0 = none) ∧
    (∀ i < d.p, (DProblem.ofDims d : DProblem τ K).plower.val i 0 = none ∧ (DProblem.ofDims d : DProblem τ K).pupper.val i 0 = none) ∧
    (∀ i < d.be, (DProblem.ofDims d : DProblem τ K).be.val i 0 = 0 ∧ (∀ j < d.x, (DProblem.ofDims d : DProblem τ K).Aex.val i j = 0) ∧ (∀ j < d.p, (DProblem.ofDims d : DProblem τ K).Aep.val i j = 0) ∧
      ∀ j < d.c, (DProblem.ofDims d : DProblem τ K).bec.val i j = 0) ∧
    (∀ i < d.bg, (DProblem.ofDims d : DProblem τ K).bg.val i 0 = 0 ∧ (∀ j < d.x, (DProblem.ofDims d : DProblem τ K).Agx.val i j = 0) ∧ (∀ j < d.p, (DProblem.ofDims d : DProblem τ K).Agp.val i j = 0) ∧
      ∀ j < d.c, (DProblem.ofDims d : DProblem τ K).bgc.val i j = 0) ∧ (∀ i < d.c, (DProblem.ofDims d : DProblem τ K).c.val i 0 = 0) ∧
    (DProblem.default : DProblem τ K).SameData (DProblem.ofDims ⟨0, 0, 0, 0, 0, 0, 0⟩) ∧ (DProblem.default : DProblem τ K).SameFuns (DProblem.ofDims d) ∧
    ∀ a b : DProblem τ K, b.HasSizes d → (a.assign b).HasSizes d ∧ b.copy.HasSizes d := by
  have hs : ∀ {L : Type _} {m n : ℕ} {a b : L}, m = 0 → (DMat.const m n a).Same (DMat.const m n b) := fun hm => ⟨rfl, rfl, fun i hi => by
    subst hm
    exact absurd hi (Nat.not_lt_zero _)⟩
  refine ⟨⟨rfl, ⟨rfl, rfl⟩, ⟨rfl, rfl⟩, ⟨rfl, rfl⟩, ⟨rfl, rfl⟩, ⟨rfl, rfl⟩, ⟨rfl, rfl⟩, ⟨rfl, rfl⟩, ⟨rfl, rfl⟩, ⟨rfl, rfl⟩, ⟨rfl, rfl⟩, ⟨rfl, rfl⟩, ⟨rfl, rfl⟩, ⟨rfl, rfl⟩⟩, fun _ _ => ⟨rfl, rfl⟩, fun _ _ => ⟨rfl, rfl⟩,
    fun _ _ => ⟨rfl, fun _ _ => rfl, fun _ _ => rfl, fun _ _ => rfl⟩, fun _ _ => ⟨rfl, fun _ _ => rfl, fun _ _ => rfl, fun _ _ => rfl⟩, fun _ _ => rfl,
    ⟨rfl, hs rfl, hs rfl, hs rfl, hs rfl, hs rfl, hs rfl, hs rfl, hs rfl, hs rfl, hs rfl, hs rfl, hs rfl, hs rfl⟩, ⟨rfl, rfl, rfl, rfl, rfl⟩, fun a b hb => ⟨?_, ?_⟩⟩
  · have h := assign_data_partial a b
    refine ⟨h.dims.trans hb.dims, ?_, ?_, ?_, ?_, ?_, ?_, ?_, ?_, ?_, ?_, ?_, ?_, ?_⟩
    · exact ⟨h.Aex.1.trans hb.Aex.1, h.Aex.2.1.trans hb.Aex.2⟩
    · exact ⟨h.Aep.1.trans hb.Aep.1, h.Aep.2.1.trans hb.Aep.2⟩
    · exact ⟨h.Agx.1.trans hb.Agx.1, h.Agx.2.1.trans hb.Agx.2⟩
    · exact ⟨h.Agp.1.trans hb.Agp.1, h.Agp.2.1.trans hb.Agp.2⟩
    · exact ⟨h.be.1.trans hb.be.1, h.be.2.1.trans hb.be.2⟩
    · exact ⟨h.bg.1.trans hb.bg.1, h.bg.2.1.trans hb.bg.2⟩
    · exact ⟨h.xlower.1.trans hb.xlower.1, h.xlower.2.1.trans hb.xlower.2⟩
    · exact ⟨h.xupper.1.trans hb.xupper.1, h.xupper.2.1.trans hb.xupper.2⟩
    · exact ⟨h.plower.1.trans hb.plower.1, h.plower.2.1.trans hb.plower.2⟩
    · exact ⟨h.pupper.1.trans hb.pupper.1, h.pupper.2.1.trans hb.pupper.2⟩
    · exact ⟨h.c.1.trans hb.c.1, h.c.2.1.trans hb.c.2⟩
    · exact ⟨h.bec.1.trans hb.bec.1, h.bec.2.1.trans hb.bec.2⟩
    · exact ⟨h.bgc.1.trans hb.bgc.1, h.bgc.2.1.trans hb.bgc.2⟩
  · exact ⟨hb.dims, hb.Aex, hb.Aep, hb.Agx, hb.Agp, hb.be, hb.bg, hb.xlower, hb.xupper, hb.plower, hb.pupper, hb.c, hb.bec, hb.bgc⟩

/-- A problem with two variables and one equation. -/
example : (DProblem.ofDims ⟨2, 0, 1, 0, 0, 0, 0⟩ : DProblem Unit ℚ).HasSizes ⟨2, 0, 1, 0, 0, 0, 0⟩ := (new_problem _).1

/-- **C55**: assigning a state copies everything, whatever the dimensions were before. -/
theorem state_assign (a b : DState K) : (a.assign b).dims = b.dims ∧ ((a.assign b).x.Same b.x ∧ (a.assign b).p.Same b.p ∧ (a.assign b).ye.Same b.ye ∧ (a.assign b).yg.Same b.yg ∧ (a.assign b).ze.Same b.ze ∧
    (a.assign b).zg.Same b.zg ∧ (a.assign b).s.Same b.s ∧ (a.assign b).xbg.Same b.xbg ∧ (a.assign b).xhg.Same b.xhg) ∧ (a.assign b).js = b.js ∧ (a.assign b).ju = b.ju ∧ (a.assign b).jlu = b.jlu ∧
    (a.assign b).juu = b.juu ∧ (a.assign b).jb = b.jb ∧ (a.assign b).jn = b.jn :=
  ⟨rfl, ⟨.rfl, .rfl, .rfl, .rfl, .rfl, .rfl, .rfl, .rfl, .rfl⟩, rfl, rfl, rfl, rfl, rfl, rfl⟩

/-- **C55**: the same for sensitivities. -/
theorem sens_assign (a b : DSens K) : (a.assign b).dims = b.dims ∧ (a.assign b).xc.Same b.xc ∧ (a.assign b).pc.Same b.pc ∧ (a.assign b).yec.Same b.yec ∧ (a.assign b).ygc.Same b.ygc ∧ (a.assign b).zec.Same b.zec ∧
    (a.assign b).zgc.Same b.zgc ∧ (a.assign b).sc.Same b.sc ∧ (a.assign b).xbgc.Same b.xbgc ∧ (a.assign b).xhgc.Same b.xhgc :=
  ⟨rfl, .rfl, .rfl, .rfl, .rfl, .rfl, .rfl, .rfl, .rfl, .rfl⟩

/-- All matrices of a sensitivity object have the sizes of the given dimensions. -/
structure DSens.Sized (S : DSens K) (d : Dims) : Prop where
  xc : S.xc.rows = d.x ∧ S.xc.cols = d.c
  pc : S.pc.rows = d.p ∧ S.pc.cols = d.c
  yec : S.yec.rows = d.be ∧ S.yec.cols = d.c
  ygc : S.ygc.rows = d.bg ∧ S.ygc.cols = d.c
  zec : S.zec.rows = d.he ∧ S.zec.cols = d.c
  zgc : S.zgc.rows = d.hg ∧ S.zgc.cols = d.c
  sc : S.sc.rows = d.x ∧ S.sc.cols = d.c
  xbgc : S.xbgc.rows = d.bg ∧ S.xbgc.cols = d.c
  xhgc : S.xhgc.rows = d.hg ∧ S.xhgc.cols = d.c

/-- **C55**: resizing a sensitivity object gives every matrix the sizes of the dimensions, and changes nothing if it has them already. -/
theorem sens_resize (S : DSens K) (mem : ℕ → ℕ → K) (d : Dims) : (S.resize mem d).dims = d ∧ (S.resize mem d).Sized d ∧ (S.dims = d → S.Sized d → S.resize mem d = S) := by
  refine ⟨rfl, ⟨⟨rfl, rfl⟩, ⟨rfl, rfl⟩, ⟨rfl, rfl⟩, ⟨rfl, rfl⟩, ⟨rfl, rfl⟩, ⟨rfl, rfl⟩, ⟨rfl, rfl⟩, ⟨rfl, rfl⟩, ⟨rfl, rfl⟩⟩, fun hd h => ?_⟩
  have key : ∀ (A : DMat K) (m n : ℕ), A.rows = m ∧ A.cols = n → A.resize mem m n = A := by
    rintro ⟨r, c, v⟩ m n ⟨rfl, rfl⟩
    simp [DMat.resize]
  obtain ⟨_, _, _, _, _, _, _, _, _, _⟩ := S
  subst hd
  simp only [DSens.resize, key _ _ _ h.xc, key _ _ _ h.pc, key _ _ _ h.yec, key _ _ _ h.ygc, key _ _ _ h.zec, key _ _ _ h.zgc, key _ _ _ h.sc, key _ _ _ h.xbgc, key _ _ _ h.xhgc]

end

section
variable {K : Type*} [Field K] [LinearOrder K] [IsStrictOrderedRing K] {τ : Type*}

/-- **C40 in part** (the data used): after `a = b`, the state of a successful solve of `a` lies within the bounds of `b` and satisfies the linear constraints of `b` up to the tolerance times the coefficients (exact arithmetic, as many basic
    variables as constraints, correctly assembled matrix).
    Missing for the full statement: the functions are still those of `a`, see `assign_solves_another_problem`. -/
theorem assigned_success_partial (a b : DProblem τ K) {env : Env K} {method : Method}
    {inners : ∀ c : CanonPack K (b.dims.x + b.dims.bg + b.dims.hg) b.dims.p (b.dims.be + b.dims.bg + (b.dims.he + b.dims.hg)), Inners K b.dims.p c.nbe c.nbi c.nne c.nni} {part : Idx.PartitionImpl ℕ} {o : SolveOptions K}
    {mem : Matrix (Fin (b.dims.be + b.dims.bg)) (Fin (b.dims.x + b.dims.bg + b.dims.hg)) K} {S S' : UState K b.dims.x b.dims.p b.dims.be b.dims.bg b.dims.he b.dims.hg} {result : Result K} {U : UserVals K b.dims.x b.dims.p b.dims.he b.dims.hg}
    (hU : Implements (a.assign b).user U) (hA : IsMasterAx (fun (i : Fin b.dims.be) (j : Fin b.dims.x) => b.Aex.val i j) (fun (i : Fin b.dims.bg) (j : Fin b.dims.x) => b.Agx.val i j) (masterProblem (a.assign b).user mem).Ax)
    (hthr : 0 ≤ env.thr) (heps : env.eps = 0) (hnx : 0 < b.dims.x) (hBx : ∀ (i : Fin b.dims.x) l h, b.xlower.val i 0 = some l → b.xupper.val i 0 = some h → l ≤ h)
    (hBp : ∀ (i : Fin b.dims.p) l h, b.plower.val i 0 = some l → b.pupper.val i 0 = some h → l ≤ h) (htol : 0 ≤ o.tolerance) (h : SolverReturns env method inners part o (a.assign b).user mem S S' result none)
    (hsucc : result.succeeded = true) (hfull : h.rf.M.RWQ.nb = b.dims.be + b.dims.bg + (b.dims.he + b.dims.hg)) :
    (∀ i : Fin b.dims.x, Between (b.xlower.val i 0) (b.xupper.val i 0) (S'.x i)) ∧ (∀ i : Fin b.dims.p, Between (b.plower.val i 0) (b.pupper.val i 0) (S'.p i)) ∧ (∀ i, S'.xbg i ≤ 0) ∧
    (∀ i : Fin b.dims.be, |b.be.val i 0 - (∑ j : Fin b.dims.x, b.Aex.val i j * S'.x j + ∑ q : Fin b.dims.p, b.Aep.val i q * S'.p q)| ≤ (∑ j : Fin b.dims.x, |b.Aex.val i j|) * o.tolerance) ∧
    (∀ i : Fin b.dims.bg, |b.bg.val i 0 - (∑ j : Fin b.dims.x, b.Agx.val i j * S'.x j + ∑ q : Fin b.dims.p, b.Agp.val i q * S'.p q) - S'.xbg i| ≤ (∑ j : Fin b.dims.x, |b.Agx.val i j| + 1) * o.tolerance) := by
  obtain ⟨h1, h2, h3, -⟩ := solver_success_partial hU hA hthr heps.ge hnx ⟨hBx, hBp⟩ h hsucc
  obtain ⟨g1, g2, -⟩ := solver_success_residual_partial hU hA hthr heps hnx ⟨hBx, hBp⟩ htol h hsucc hfull
  exact ⟨h1, h2, h3, g1, g2⟩

end

/-! ### Negation of C40, end to end

`min |x - a|²/2` subject to `x0 + x1 = 2`: problems that differ in `a` only. -/

/-- The problem with the objective `|x - a|²/2`. -/
def copyProblem (a : ℕ → ℚ) : DProblem Unit ℚ :=
  { DProblem.ofDims ⟨2, 0, 1, 0, 0, 0, 0⟩ with
    f := fun _ _ _ => ⟨some fun t res x _ _ _ => some (t, { res with f := (∑ i, (x i - a i) ^ 2) / 2, fx := fun i => x i - a i, fxx := 1 })⟩
    Aex := DMat.const 1 2 1
    be := DMat.const 1 1 2 }

/-- Its functions. -/
def copyAffine (a : ℕ → ℚ) : UAffine ℚ 2 0 0 0 where
  H := 1
  Hp := 0
  c := fun i => -a i
  hex := fun i => i.elim0
  hep := fun i => i.elim0
  he0 := fun i => i.elim0
  hgx := fun i => i.elim0
  hgp := fun i => i.elim0
  hg0 := fun i => i.elim0
  vx := fun i => i.elim0
  vp := fun i => i.elim0
  v0 := fun i => i.elim0

/-- What the solver sees of it. -/
def copyUser (a : ℕ → ℚ) : UProblem Unit ℚ 2 0 1 0 0 0 0 := (copyProblem a).user

theorem copy_neverThrows (a : ℕ → ℚ) : NeverThrows (copyUser a) := ⟨fun _ _ _ _ _ => ⟨_, rfl⟩, fun _ _ _ _ _ => ⟨_, rfl⟩, fun _ _ _ _ _ => ⟨_, rfl⟩, fun _ _ _ _ _ => ⟨_, rfl⟩, fun _ _ _ _ _ => ⟨_, rfl⟩⟩

theorem copy_implemented (a : ℕ → ℚ) : (copyAffine a).Implemented (copyUser a) where
  f := by
    refine ⟨_, rfl, fun t x p o t' q _ _ h => ?_⟩
    obtain ⟨-, rfl⟩ := Prod.mk.inj (Option.some.inj h)
    refine ⟨?_, rfl, ?_⟩
    · funext i; simp [copyAffine, sub_eq_add_neg]
    · funext i j; exact j.elim0
  he := ⟨_, rfl, fun t x p o t' q _ _ _ => ⟨funext fun i => i.elim0, funext fun i => i.elim0, funext fun i => i.elim0⟩⟩
  hg := ⟨_, rfl, fun t x p o t' q _ _ _ => ⟨funext fun i => i.elim0, funext fun i => i.elim0, funext fun i => i.elim0⟩⟩
  v := ⟨_, rfl, fun t x p o t' q _ _ _ => ⟨funext fun i => i.elim0, funext fun i => i.elim0, funext fun i => i.elim0⟩⟩

/-- The solution. -/
def copySolution (a : ℕ → ℚ) : Fin 2 → ℚ := fun i => a i + (2 - a 0 - a 1) / 2

theorem copy_kkt (a : ℕ → ℚ) : (copyAffine a).Kkt (copyUser a) (copySolution a) (fun i => i.elim0) (fun _ => -(2 - a 0 - a 1) / 2) (fun i => i.elim0) := by
  refine ⟨?_, fun i => i.elim0, ?_, fun i => i.elim0⟩
  · intro i
    simp [copyUser, copyProblem, DProblem.user, copyAffine, copySolution, Matrix.one_apply, DProblem.ofDims, DMat.const]
    ring
  · intro l
    simp [copyUser, copyProblem, DProblem.user, copySolution, DProblem.ofDims, DMat.const, Fin.sum_univ_two]
    ring

theorem copy_unique (a : ℕ → ℚ) (x' p' ye' ze') (h : (copyAffine a).Kkt (copyUser a) x' p' ye' ze') :
    x' = copySolution a ∧ p' = (fun i => i.elim0) ∧ ye' = (fun _ => -(2 - a 0 - a 1) / 2) ∧ ze' = fun i => i.elim0 := by
  have g0 := h.grad 0
  have g1 := h.grad 1
  have l := h.be (0 : Fin 1)
  simp [copyUser, copyProblem, DProblem.user, copyAffine, Matrix.one_apply, DProblem.ofDims, DMat.const, Fin.sum_univ_two] at g0 g1 l
  have e2 : ye' 0 = -(2 - a 0 - a 1) / 2 := by linarith
  refine ⟨?_, funext fun i => i.elim0, ?_, funext fun i => i.elim0⟩
  · funext i; revert i; rw [Fin.forall_fin_two]; exact ⟨by simp [copySolution]; linarith, by simp [copySolution]; linarith⟩
  · funext i; rw [Subsingleton.elim i 0]; exact e2

/-- The problem is solved. -/
theorem copy_solved {env : Env ℚ} (hthr : 0 ≤ env.thr) (heps : env.eps = 0) (hd : env.debug = false) (ho : ∀ M, (env.o M).lu.Z = 0) (F : ∀ n, (A : Matrix (Fin n) (Fin n) ℚ) → LU.FullLU A) (a : ℕ → ℚ) (part : Idx.PartitionImpl ℕ)
    (S : UState ℚ 2 0 1 0 0 0) : ∃ S' result, Nonempty (SolverReturns env .nullspace (fun c => ⟨luInner 0 (Fintype.equivFin _) (F _) 0, luInner 0 (Fintype.equivFin _) (F _) 0, luInner 0 (Fintype.equivFin _) (F _) 0⟩) part
      { maxiters := 200, tolerance := 1/1000000000, minmax := false, debug := false } (copyUser a) 0 S S' result none) ∧ result.succeeded = true ∧ S'.x = copySolution a := by
  obtain ⟨S', result, h, -, h2, -, h4, -⟩ := solver_quadratic (env := env) (method := .nullspace)
    (inners := fun c => ⟨luInner 0 (Fintype.equivFin _) (F _) 0, luInner 0 (Fintype.equivFin _) (F _) 0, luInner 0 (Fintype.equivFin _) (F _) 0⟩)
    (copy_neverThrows a) (copy_implemented a) (mem := 0) ((assembleAx_iff _ _ _).2 fun _ _ => rfl) hthr heps hd ho (by norm_num)
    (fun c => ⟨_, _, _, Fintype.equivFin _, Fintype.equivFin _, Fintype.equivFin _, F, 0, rfl⟩) (by intro h; cases h) (copy_kkt a) (copy_unique a)
    (fun i => i.elim0) (fun i => i.elim0) (fun i => ⟨fun l e => (by cases e), fun l e => (by cases e)⟩) (fun i => i.elim0) part
    { maxiters := 200, tolerance := 1/1000000000, minmax := false, debug := false } (by norm_num) (by norm_num) S
    (fun i => ⟨fun e => (by cases e), fun e => (by cases e)⟩)
    (fun i => i.elim0) (fun i => i.elim0) () ⟨cleanObj, cleanCon, cleanCon⟩ 0 ⟨0, 0, 0, 0, 0, 0, 0, 0⟩ 0 ⟨0, 0, 0⟩ default
  exact ⟨S', result, ⟨h⟩, h2, h4⟩

/-- **Negation of C40, end to end**: two problems of the same dimensions with the same data and different objectives; after `A = B` the solver still finds the solution of `A` and not that of `B`: for every initial state, and the two solutions differ. -/
theorem assign_solves_another_problem : ∃ env : Env ℚ, ∃ inners, ∃ o, ∀ (a b : ℕ → ℚ) part (S : UState ℚ 2 0 1 0 0 0),
    (copyProblem a).SameData (copyProblem b) ∧
    (∃ S' result, Nonempty (SolverReturns env .nullspace inners part o (((copyProblem a).assign (copyProblem b)).user : UProblem Unit ℚ 2 0 1 0 0 0 0) 0 S S' result none) ∧ result.succeeded = true ∧ S'.x = copySolution a) ∧
    (∃ S' result, Nonempty (SolverReturns env .nullspace inners part o ((copyProblem b).user : UProblem Unit ℚ 2 0 1 0 0 0 0) 0 S S' result none) ∧ result.succeeded = true ∧ S'.x = copySolution b) := by
  obtain ⟨oracle, ho⟩ := Ech.exists_exact_oracle (K := ℚ)
  let F : ∀ n, (A : Matrix (Fin n) (Fin n) ℚ) → LU.FullLU A := fun n A => (LU.exists_fullLU n A).some
  refine ⟨{ o := oracle, sort := Ech.sortImpl, P := fun n => Idx.stableImpl, thr := 1/100000000, eps := 0, debug := false },
    fun c => ⟨luInner 0 (Fintype.equivFin _) (F _) 0, luInner 0 (Fintype.equivFin _) (F _) 0, luInner 0 (Fintype.equivFin _) (F _) 0⟩,
    { maxiters := 200, tolerance := 1/1000000000, minmax := false, debug := false }, fun a b part S => ⟨⟨rfl, .rfl, .rfl, .rfl, .rfl, .rfl, .rfl, .rfl, .rfl, .rfl, .rfl, .rfl, .rfl, .rfl⟩, ?_, ?_⟩⟩
  · exact copy_solved (env := { o := oracle, sort := Ech.sortImpl, P := fun n => Idx.stableImpl, thr := 1/100000000, eps := 0, debug := false }) (by norm_num) rfl rfl ho F a part S
  · exact copy_solved (env := { o := oracle, sort := Ech.sortImpl, P := fun n => Idx.stableImpl, thr := 1/100000000, eps := 0, debug := false }) (by norm_num) rfl rfl ho F b part S

/-- For instance: with the objective `((x0 - 2)² + x1²)/2` in `A` and `(x0² + x1²)/2` in `B`, the solutions are `(2, 0)` and `(1, 1)`. -/
example : copySolution (fun i => if i = 0 then 2 else 0) = ![2, 0] ∧ copySolution (fun _ => 0) = ![1, 1] := by decide +kernel

/-- The values of its functions. -/
def copyVals (a : ℕ → ℚ) : UserVals ℚ 2 0 0 0 :=
  { f := fun x _ => (∑ i, (x i - a i) ^ 2) / 2, fx := fun x _ i => x i - a i, he := fun _ _ i => i.elim0, hex := fun _ _ i => i.elim0, hg := fun _ _ i => i.elim0, hgx := fun _ _ i => i.elim0, v := fun _ _ i => i.elim0 }

theorem copy_implements (a : ℕ → ℚ) : Implements (copyUser a) (copyVals a) where
  f := ⟨_, rfl, fun t x p o t' q _ h => by obtain ⟨-, rfl⟩ := Prod.mk.inj (Option.some.inj h); exact ⟨rfl, fun _ => rfl⟩⟩
  he := ⟨_, rfl, fun _ _ _ _ _ _ _ _ => ⟨fun i => i.elim0, fun i => i.elim0⟩⟩
  hg := ⟨_, rfl, fun _ _ _ _ _ _ _ _ => ⟨fun i => i.elim0, fun i => i.elim0⟩⟩
  v := ⟨_, rfl, fun _ _ _ _ _ _ _ _ i => i.elim0⟩

/-- The hypotheses of `assigned_success_partial` are met: after the assignment the sum `x0 + x1` is `2` up to the tolerance. -/
example : ∃ env : Env ℚ, ∃ inners, ∃ o, ∀ (a b : ℕ → ℚ) part (S : UState ℚ 2 0 1 0 0 0), ∃ S' result,
    Nonempty (SolverReturns env .nullspace inners part o (((copyProblem a).assign (copyProblem b)).user : UProblem Unit ℚ 2 0 1 0 0 0 0) 0 S S' result none) ∧ |2 - (S'.x 0 + S'.x 1)| ≤ 2 * o.tolerance := by
  obtain ⟨oracle, ho⟩ := Ech.exists_exact_oracle (K := ℚ)
  let F : ∀ n, (A : Matrix (Fin n) (Fin n) ℚ) → LU.FullLU A := fun n A => (LU.exists_fullLU n A).some
  refine ⟨{ o := oracle, sort := Ech.sortImpl, P := fun n => Idx.stableImpl, thr := 1/100000000, eps := 0, debug := false },
    fun c => ⟨luInner 0 (Fintype.equivFin _) (F _) 0, luInner 0 (Fintype.equivFin _) (F _) 0, luInner 0 (Fintype.equivFin _) (F _) 0⟩,
    { maxiters := 200, tolerance := 1/1000000000, minmax := false, debug := false }, fun a b part S => ?_⟩
  obtain ⟨S', result, ⟨h⟩, h2, -⟩ := copy_solved (env := { o := oracle, sort := Ech.sortImpl, P := fun n => Idx.stableImpl, thr := 1/100000000, eps := 0, debug := false }) (by norm_num) rfl rfl ho F a part S
  refine ⟨S', result, ⟨h⟩, ?_⟩
  have hA : IsMasterAx (copyUser a).Aex (copyUser a).Agx (masterProblem (copyUser a) 0).Ax := (assembleAx_iff _ _ _).2 fun _ _ => rfl
  have hfull : h.rf.M.RWQ.nb = 1 + 0 + (0 + 0) := by
    obtain ⟨ev, hs, -⟩ := solver_evaluated (by norm_num) le_rfl (by norm_num) h
    refine rf_full_rank ho hs fun y hy => ?_
    rw [hs.Wx] at hy
    have a := hy (ixX 0 0 0)
    rw [Fin.sum_univ_add, Fin.sum_univ_add] at a
    simp only [stack, Fin.addCases_left, hA.ex] at a
    simp [copyUser, copyProblem, DProblem.user, DProblem.ofDims, DMat.const] at a
    funext l
    refine Fin.addCases (fun l => ?_) (fun l => l.elim0) l
    refine Fin.addCases (fun l => ?_) (fun l => l.elim0) l
    rw [Subsingleton.elim l 0]
    simpa using a
  have := (assigned_success_partial (copyProblem a) (copyProblem b) (copy_implements a) hA (by norm_num) rfl (show 0 < 2 by norm_num) (fun i l r e => (by cases e)) (fun i => i.elim0) (by norm_num) h h2 hfull).2.2.2.1 (0 : Fin 1)
  have e : |(2 : ℚ) - (∑ j : Fin 2, 1 * S'.x j + ∑ q : Fin 0, 0 * S'.p q)| ≤ (∑ j : Fin 2, |(1 : ℚ)|) * (1/1000000000) := this
  simpa [Fin.sum_univ_two] using e

end Optima
