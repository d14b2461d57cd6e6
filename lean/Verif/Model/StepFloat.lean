import Verif.Model.ExtendFloat
import Verif.Model.NullFloat
import Verif.Model.LinearSolver

/-!
# `LinearSolver` in rounded arithmetic

The step of the master problem made from a step of the canonical one.  `Canonicalizer::update` only copies, permutes and compares numbers, so with the values of doubles it does what `canonicalize` of `Model/Master.lean` does with rational numbers.
-/

namespace Optima.FStep

open FNull FEch

variable {p nx np nw : ℕ} {be bi ne ni u : Type}

/-- The values of a canonical matrix of doubles. -/
def canonVal (C : Canon (FNum p) nx np nw be bi ne ni u) : Canon ℚ nx np nw be bi ne ni u where
  Hss := fun i j => (C.Hss i j).val
  Hsp := fun i q => (C.Hsp i q).val
  Vps := fun q j => (C.Vps q j).val
  Vpp := fun q q' => (C.Vpp q q').val
  Sbsns := fun k j => (C.Sbsns k j).val
  Sbsp := fun k q => (C.Sbsp k q).val
  Rbs := fun k l => (C.Rbs k l).val
  jb := C.jb
  jn := C.jn
  js := C.js
  ju := C.ju

/-- The values of a master matrix of doubles. -/
def masterVal (M : MasterMatrix (FNum p) nx np nw) : MasterMatrix ℚ nx np nw where
  Hxx := fun i j => (M.Hxx i j).val
  Hxp := fun i q => (M.Hxp i q).val
  isHxxDiag := M.isHxxDiag
  Vpx := fun q j => (M.Vpx q j).val
  Vpp := fun q q' => (M.Vpp q q').val
  Wx := fun l j => (M.Wx l j).val
  Wp := fun l q => (M.Wp l q).val
  RWQ := { nb := M.RWQ.nb, nn := M.RWQ.nn, Rb := fun k l => (M.RWQ.Rb k l).val, Sbn := fun k j => (M.RWQ.Sbn k j).val, Sbp := fun k q => (M.RWQ.Sbp k q).val, jb := M.RWQ.jb, jn := M.RWQ.jn }
  js := M.js
  ju := M.ju

/-- The step `U` written by `LinearSolver::solve`, LinearSolver.cpp:122-128, for the step `v` of the canonical problem and the entries `au` of the unstable variables: `w = tr(Rbs)*wbs`, with rounded operations in any order; the other parts are copied. -/
structure Step (C : Canon (FNum p) nx np nw be bi ne ni u) (v : CVec (FNum p) np be bi ne ni) (au : u → FNum p) (U : MVec (FNum p) nx np nw) : Prop where
  stable : ∀ s, U.x (C.js s) = v.xs s
  unstable : ∀ k, U.x (C.ju k) = au k
  p : U.p = v.p
  w : ∀ l, IsMul (fun k => C.Rbs k l) v.wbs (U.w l)

/-- The right-hand side of the canonical problem for one of the master problem, LinearSolver.cpp:80-93: `awbs = Rbs*a.w` with rounded operations in any order. -/
structure Rhs (C : Canon (FNum p) nx np nw be bi ne ni u) (a : MVec (FNum p) nx np nw) (ac : CVec (FNum p) np be bi ne ni) (au : u → FNum p) : Prop where
  xs : ∀ s, ac.xs s = a.x (C.js s)
  xu : ∀ k, au k = a.x (C.ju k)
  p : ac.p = a.p
  wbs : ∀ k, IsMul (fun l => C.Rbs k l) a.w (ac.wbs k)

/-! ## One way of computing it -/

/-- `LinearSolver::solve`, LinearSolver.cpp:122-128, with the sums in the order of the entries; `u0` holds the previous contents. -/
def step {nbe nbi nne nni nnu : ℕ} (C : Canon (FNum p) nx np nw (Fin nbe) (Fin nbi) (Fin nne) (Fin nni) (Fin nnu)) (v : CVec (FNum p) np (Fin nbe) (Fin nbi) (Fin nne) (Fin nni)) (au : Fin nnu → FNum p) (u0 : MVec (FNum p) nx np nw) : MVec (FNum p) nx np nw :=
  let put {n : ℕ} (x : Fin nx → FNum p) (idx : Fin n → Fin nx) (b : Fin n → FNum p) : Fin nx → FNum p := (List.finRange n).foldl (fun x k => Function.update x (idx k) (b k)) x
  let x := put u0.x (fun k => C.js (.inl (.inl k))) fun k => v.xs (.inl (.inl k))
  let x := put x (fun k => C.js (.inl (.inr k))) fun k => v.xs (.inl (.inr k))
  let x := put x (fun k => C.js (.inr (.inl k))) fun k => v.xs (.inr (.inl k))
  let x := put x (fun k => C.js (.inr (.inr k))) fun k => v.xs (.inr (.inr k))
  let x := put x C.ju au
  { x := x, p := v.p
    w := fun l => value (((List.finRange nbe).map Sum.inl ++ (List.finRange nbi).map Sum.inr).map fun k => (C.Rbs k l, v.wbs k)) }

end Optima.FStep
