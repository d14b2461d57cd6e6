import Verif.Model.LinearSolver
import Verif.Model.EchelonW
import Verif.Model.Utils

/-!
# Model of `ResidualVector.cpp`, `ResidualErrors.cpp` and `ResidualFunction.cpp`

Rows of `W` are indexed by `Fin (ny + nz)`: `topRows(ny)` is `Fin.castAdd nz`, `bottomRows(nz)` is `Fin.natAdd ny`.
-/

namespace Optima

open Matrix

variable {K : Type*} [Field K] {nx np ny nz : ℕ}

/-- Eigen's `v(js) = b` for `js = (jbe, jbi, jne, jni)`: entries are written in this order. -/
def assignJs {nbe nbi nne nni : ℕ} (v : Fin nx → K) (js : (Fin nbe ⊕ Fin nbi) ⊕ (Fin nne ⊕ Fin nni) → Fin nx) (b : (Fin nbe ⊕ Fin nbi) ⊕ (Fin nne ⊕ Fin nni) → K) : Fin nx → K :=
  let v := assignFn v (fun k => js (.inl (.inl k))) (fun k => b (.inl (.inl k)))
  let v := assignFn v (fun k => js (.inl (.inr k))) (fun k => b (.inl (.inr k)))
  let v := assignFn v (fun k => js (.inr (.inl k))) (fun k => b (.inr (.inl k)))
  assignFn v (fun k => js (.inr (.inr k))) (fun k => b (.inr (.inr k)))

/-- `ResidualVectorUpdateArgs` without `Mc`, ResidualVector.hpp:30-43. -/
structure ResidualArgs (K : Type*) (nx np ny nz : ℕ) where
  Wx : Matrix (Fin (ny + nz)) (Fin nx) K
  Wp : Matrix (Fin (ny + nz)) (Fin np) K
  x : Fin nx → K
  p : Fin np → K
  y : Fin ny → K
  z : Fin nz → K
  g : Fin nx → K
  v : Fin np → K
  b : Fin ny → K
  h : Fin nz → K

/-- What `masterVector()` and `canonicalVector()` return, ResidualVector.cpp:133-143. `canonicalVector().xu` is zero (`au.fill(0.0)`, line 118). -/
structure ResidualOut (K : Type*) (nx np nw nbe nbi nne nni : ℕ) where
  master : MVec K nx np nw
  canonical : CVec K np (Fin nbe) (Fin nbi) (Fin nne) (Fin nni)

/-- `ResidualVector::Impl::update`, ResidualVector.cpp:50-131.  `ax0` is what `ax` held before (`resize` keeps or leaves it unspecified); `eps` is the machine epsilon of
    `multiplyMatrixVectorWithoutResidualRoundOffError`. -/
def residualUpdate [LinearOrder K] (eps : K) {nbe nbi nne nni nnu : ℕ} (C : Canon K nx np (ny + nz) (Fin nbe) (Fin nbi) (Fin nne) (Fin nni) (Fin nnu)) (ax0 : Fin nx → K)
    (a : ResidualArgs K nx np ny nz) : ResidualOut K nx np (ny + nz) nbe nbi nne nni :=
  let Ax := a.Wx.submatrix (Fin.castAdd nz) id
  let Ap := a.Wp.submatrix (Fin.castAdd nz) id
  let Jx := a.Wx.submatrix (Fin.natAdd ny) id
  let Jp := a.Wp.submatrix (Fin.natAdd ny) id
  let As := Ax.submatrix id C.js
  let Au := Ax.submatrix id C.ju
  let Js := Jx.submatrix id C.js
  let gs := a.g ∘ C.js
  let xs := a.x ∘ C.js
  let xu := a.x ∘ C.ju
  let ax := assignJs ax0 C.js (-(gs + Asᵀ *ᵥ a.y + Jsᵀ *ᵥ a.z))
  let ax := assignFn ax C.ju 0
  let ay := -(Ax *ᵥ a.x + Ap *ᵥ a.p - a.b)
  let az := -a.h
  let awstar : Fin (ny + nz) → K := Fin.addCases (a.b - Au *ᵥ xu) (Js *ᵥ xs + Jp *ᵥ a.p - a.h)
  let awbs := Utils.multiplyClean eps C.Rbs awstar - (xs ∘ Sum.inl + C.Sbsns *ᵥ (xs ∘ Sum.inr) + C.Sbsp *ᵥ a.p)
  { master := { x := ax, p := -a.v, w := Fin.addCases ay az }
    canonical := { xs := ax ∘ C.js, p := -a.v, wbs := awbs } }

/-- The data members of `ResidualErrors::Impl` written by `update`, ResidualErrors.cpp:34-42. -/
structure ErrorsOut (K : Type*) (nx np nw : ℕ) where
  ex : Fin nx → K
  ep : Fin np → K
  ew : Fin nw → K
  ewbar : Fin nw → K
  errorx : K
  errorp : K
  errorw : K
  error : K

/-- `ResidualErrors::Impl::update`, ResidualErrors.cpp:60-109.  `ewbar0` is what `ewbar` held before; `nl = nw - nb` (Canonicalizer.cpp:92), `nbs = nb` for every canonical matrix
    returned by the canonicalizer.  Infinite bounds are `none`. -/
def residualErrors [LinearOrder K] {nw nbe nbi nne nni nnu : ℕ} (C : Canon K nx np nw (Fin nbe) (Fin nbi) (Fin nne) (Fin nni) (Fin nnu)) (xlower xupper : Fin nx → Option K) (x : Fin nx → K)
    (r : ResidualOut K nx np nw nbe nbi nne nni) (ewbar0 : Fin nw → K) : ErrorsOut K nx np nw :=
  let nbs := nbe + nbi
  let nbl := nw - nbs
  let jbs : Fin nbs → Fin nx := fun k => C.js (.inl (finSumFinEquiv.symm k))
  let ex : Fin nx → K := fun i => |r.master.x i|
  let ep : Fin np → K := fun i => |r.master.p i|
  let ew : Fin nw → K := fun i => |r.master.w i|
  let ewbar : Fin nw → K := fun i => if h : i < nbs then |r.canonical.wbs (finSumFinEquiv.symm ⟨i, h⟩)| else ewbar0 i
  let ewbar : Fin nw → K := fun i => if nw - nbl ≤ i then 0 else ewbar i
  let ex := assignFn ex C.ju 0
  let ex := assignFn ex jbs (fun k => if some (x (jbs k)) = xlower (jbs k) then 0 else ex (jbs k))
  let ex := assignFn ex jbs (fun k => if some (x (jbs k)) = xupper (jbs k) then 0 else ex (jbs k))
  let errorx := normInf ex
  let errorp := normInf ep
  let errorw := normInf ewbar
  { ex := ex, ep := ep, ew := ew, ewbar := ewbar, errorx := errorx, errorp := errorp, errorw := errorw, error := max (max errorx errorp) errorw }

/-! ## `ResidualFunction` -/

/-- The results of the user functions at a point: `ObjectiveResult` and the two `ConstraintResult`s (members `fres`, `hres`, `vres`). -/
structure Evals (K : Type*) (nx np nz : ℕ) where
  f : K
  fx : Fin nx → K
  fxx : Matrix (Fin nx) (Fin nx) K
  fxp : Matrix (Fin nx) (Fin np) K
  diagfxx : Bool
  h : Fin nz → K
  hx : Matrix (Fin nz) (Fin nx) K
  hp : Matrix (Fin nz) (Fin np) K
  v : Fin np → K
  vx : Matrix (Fin np) (Fin nx) K
  vp : Matrix (Fin np) (Fin np) K
  succeeded : Bool

/-- The parameters of the external parts and the compiled constants: `FullPivLU`, `std::sort`, `std::partition`, the threshold `1e-8`, the machine epsilon and whether `assert` is active. -/
structure Env (K : Type*) [Field K] [LinearOrder K] where
  o : Ech.LUOracle K
  sort : Ech.SortImpl K
  P : ∀ n, Idx.PartitionImpl (Fin n)
  thr : K
  eps : K
  debug : Bool

/-- The parts of `MasterProblem` used by `ResidualFunction` and `ResidualErrors`. -/
structure MProblem (K : Type*) (nx np ny nz : ℕ) where
  Ax : Matrix (Fin ny) (Fin nx) K
  Ap : Matrix (Fin ny) (Fin np) K
  b : Fin ny → K
  xlower : Fin nx → Option K
  xupper : Fin nx → Option K
  plower : Fin np → Option K
  pupper : Fin np → Option K

/-- Members of `ResidualFunction::Impl` after an update, with `stability.status()` and the master and canonical matrices. -/
structure RFState (K : Type*) (nx np ny nz : ℕ) [Field K] [LinearOrder K] (Ax : Matrix (Fin ny) (Fin nx) K) where
  ech : Ech.WState K nx np ny nz Ax
  evals : Evals K nx np nz
  status : Stab.Status K nx
  M : MasterMatrix K nx np (ny + nz)
  C : CanonPack K nx np (ny + nz)
  res : ResidualOut K nx np (ny + nz) C.nbe C.nbi C.nne C.nni

/-- Outcome of `ResidualFunction::update`. -/
inductive FOut (α : Type*)
  | ok (a : α)
  | assertFail
  | error
  | sizeMismatch

/-- The weights, ResidualFunction.cpp:186-187. -/
def weights [LinearOrder K] (pb : MProblem K nx np ny nz) (x : Fin nx → K) : Fin nx → K :=
  fun i => if some (x i) ≠ pb.xlower i ∧ some (x i) ≠ pb.xupper i then |x i| else -1

/-- `jacobianMatrixMasterForm`, ResidualFunction.cpp:224-234. -/
def masterForm {nw : ℕ} (ev : Evals K nx np nz) (W : Matrix (Fin nw) (Fin nx ⊕ Fin np) K) (q : Ech.RWQ K nx np nw) (st : Stab.Status K nx) : MasterMatrix K nx np nw where
  Hxx := ev.fxx
  Hxp := ev.fxp
  isHxxDiag := ev.diagfxx
  Vpx := ev.vx
  Vpp := ev.vp
  Wx := W.submatrix id Sum.inl
  Wp := W.submatrix id Sum.inr
  RWQ := q
  js := st.js
  ju := st.ju

/-- `ResidualFunction::Impl::update`, ResidualFunction.cpp:113-121, after the user functions returned `ev` (lines 143-160); lines 180-222 follow.  `e` is the member `echelonizerW`, `ax0` the member
    `residual.ax`.  A failed evaluation does not stop the update (line 116). `updateSkipJacobian` differs in the options passed to the user functions only. -/
def rfUpdate [LinearOrder K] (env : Env K) (pb : MProblem K nx np ny nz) (e : Ech.WState K nx np ny nz pb.Ax) (ax0 : Fin nx → K) (ev : Evals K nx np nz) (u : MVec K nx np (ny + nz)) :
    FOut (RFState K nx np ny nz pb.Ax) :=
  match Ech.wUpdate env.debug env.o env.sort env.thr env.eps e ev.hx ev.hp (weights pb u.x) with
  | .assertFail => .assertFail
  | .sizeMismatch => .sizeMismatch
  | .ok e' =>
    match e'.rwq with
    | none => .sizeMismatch
    | some q =>
      let Wx := e'.W.submatrix id Sum.inl
      let t := Stab.update (env.P nx) { Wx := Wx, g := ev.fx, x := u.x, w := u.w, xlower := pb.xlower, xupper := pb.xupper, jb := List.ofFn q.jb }
      if env.debug && !t.2 then .assertFail
      else
        let st := Stab.status t.1
        let M := masterForm ev e'.W q st
        match canonicalize M (env.P M.RWQ.nb) (env.P M.RWQ.nn) with
        | .error => .error
        | .sizeMismatch => .sizeMismatch
        | .ok C =>
          .ok { ech := e', evals := ev, status := st, M := M, C := C,
                res := residualUpdate env.eps C.mat ax0
                  { Wx := M.Wx, Wp := M.Wp, x := u.x, p := u.p, y := fun i => u.w (Fin.castAdd nz i), z := fun j => u.w (Fin.natAdd ny j), g := ev.fx, v := ev.v, b := pb.b, h := ev.h } }

end Optima
