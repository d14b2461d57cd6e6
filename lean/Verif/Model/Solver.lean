import Verif.Model.UserFunctions
import Verif.Model.NewtonStep

/-!
# Model of `Solver.cpp`, and of the calls of the user functions in `ResidualFunction.cpp`

The master variables are `xbar = (x, xbg, xhg)`, indexed by `Fin (nx + nbg + nhg)`; rows of `b = (be, bg)` are indexed by `Fin (nbe + nbg)`, rows of `h = (he, hg)` by `Fin (nhe + nhg)`.
-/

namespace Optima

open Matrix

variable {K : Type*} {τ : Type*} {nx np nbe nbg nhe nhg nc : ℕ}

/-- Position of `x(i)` in `xbar`. -/
def ixX (nbg nhg : ℕ) (i : Fin nx) : Fin (nx + nbg + nhg) := Fin.castAdd nhg (Fin.castAdd nbg i)
/-- Position of `xbg(i)` in `xbar`. -/
def ixBg (nx nhg : ℕ) (i : Fin nbg) : Fin (nx + nbg + nhg) := Fin.castAdd nhg (Fin.natAdd nx i)
/-- Position of `xhg(i)` in `xbar`. -/
def ixHg (nx nbg : ℕ) (i : Fin nhg) : Fin (nx + nbg + nhg) := Fin.natAdd (nx + nbg) i

/-- `v << a, b, c`. -/
def cat3 {α : Type*} (a : Fin nx → α) (b : Fin nbg → α) (c : Fin nhg → α) : Fin (nx + nbg + nhg) → α := Fin.addCases (Fin.addCases a b) c
/-- `v << a, b`. -/
def cat2 {α : Type*} {m n : ℕ} (a : Fin m → α) (b : Fin n → α) : Fin (m + n) → α := Fin.addCases a b

/-- `Problem`, Problem.hpp:33-64, with all members of the sizes given by `dims`. -/
structure UProblem (τ K : Type*) (nx np nbe nbg nhe nhg nc : ℕ) where
  r : ResFn τ K
  f : ObjFn τ K nx np nc
  he : ConFn τ K nhe nx np nc
  hg : ConFn τ K nhg nx np nc
  v : ConFn τ K np nx np nc
  Aex : Matrix (Fin nbe) (Fin nx) K
  Aep : Matrix (Fin nbe) (Fin np) K
  Agx : Matrix (Fin nbg) (Fin nx) K
  Agp : Matrix (Fin nbg) (Fin np) K
  be : Fin nbe → K
  bg : Fin nbg → K
  xlower : Fin nx → Option K
  xupper : Fin nx → Option K
  plower : Fin np → Option K
  pupper : Fin np → Option K
  c : Fin nc → K
  bec : Matrix (Fin nbe) (Fin nc) K
  bgc : Matrix (Fin nbg) (Fin nc) K

/-! ## The functions of the master problem, Solver.cpp:142-236 -/

/-- The views of lines 153-159: the part of the result of the master objective function that belongs to `x`. -/
def ObjRes.headX (res : ObjRes K (nx + nbg + nhg) np nc) : ObjRes K nx np nc where
  f := res.f
  fx := fun i => res.fx (ixX nbg nhg i)
  fxx := fun i j => res.fxx (ixX nbg nhg i) (ixX nbg nhg j)
  fxp := fun i j => res.fxp (ixX nbg nhg i) j
  fxc := fun i j => res.fxc (ixX nbg nhg i) j
  diagfxx := res.diagfxx
  fxx4basicvars := res.fxx4basicvars
  succeeded := res.succeeded

/-- Writing through the views of lines 153-159. -/
def ObjRes.setHeadX (res : ObjRes K (nx + nbg + nhg) np nc) (r : ObjRes K nx np nc) : ObjRes K (nx + nbg + nhg) np nc where
  f := r.f
  fx := cat3 r.fx (fun i => res.fx (ixBg nx nhg i)) (fun i => res.fx (ixHg nx nbg i))
  fxx := fun i j => cat3 (fun i => cat3 (r.fxx i) (fun j => res.fxx (ixX nbg nhg i) (ixBg nx nhg j)) (fun j => res.fxx (ixX nbg nhg i) (ixHg nx nbg j)) j)
    (fun i => res.fxx (ixBg nx nhg i) j) (fun i => res.fxx (ixHg nx nbg i) j) i
  fxp := fun i j => cat3 (fun i => r.fxp i j) (fun i => res.fxp (ixBg nx nhg i) j) (fun i => res.fxp (ixHg nx nbg i) j) i
  fxc := fun i j => cat3 (fun i => r.fxc i j) (fun i => res.fxc (ixBg nx nhg i) j) (fun i => res.fxc (ixHg nx nbg i) j) i
  diagfxx := r.diagfxx
  fxx4basicvars := r.fxx4basicvars
  succeeded := r.succeeded

/-- `mproblem.f`, Solver.cpp:146-162. -/
def masterF [Zero K] (f : ObjFn τ K nx np nc) : ObjSig τ K (nx + nbg + nhg) np nc := fun t resbar xbar p c opts =>
  let resbar := { resbar with fx := 0, fxx := 0, fxp := 0, fxc := 0 }
  match f.call t resbar.headX (fun i => xbar (ixX nbg nhg i)) p c opts with
  | none => none
  | some (t, r) => some (t, resbar.setHeadX r)

/-- The views of lines 172-200 with the rows of `he` and the columns of `x`. -/
def ConRes.topHe (res : ConRes K (nhe + nhg) (nx + nbg + nhg) np nc) : ConRes K nhe nx np nc where
  val := fun i => res.val (Fin.castAdd nhg i)
  ddx := fun i j => res.ddx (Fin.castAdd nhg i) (ixX nbg nhg j)
  ddp := fun i j => res.ddp (Fin.castAdd nhg i) j
  ddc := fun i j => res.ddc (Fin.castAdd nhg i) j
  ddx4basicvars := res.ddx4basicvars
  succeeded := res.succeeded

/-- Writing through these views. -/
def ConRes.setTopHe (res : ConRes K (nhe + nhg) (nx + nbg + nhg) np nc) (r : ConRes K nhe nx np nc) : ConRes K (nhe + nhg) (nx + nbg + nhg) np nc where
  val := cat2 r.val (fun i => res.val (Fin.natAdd nhe i))
  ddx := fun i j => cat2 (fun i => cat3 (r.ddx i) (fun j => res.ddx (Fin.castAdd nhg i) (ixBg nx nhg j)) (fun j => res.ddx (Fin.castAdd nhg i) (ixHg nx nbg j)) j) (fun i => res.ddx (Fin.natAdd nhe i) j) i
  ddp := fun i j => cat2 (fun i => r.ddp i j) (fun i => res.ddp (Fin.natAdd nhe i) j) i
  ddc := fun i j => cat2 (fun i => r.ddc i j) (fun i => res.ddc (Fin.natAdd nhe i) j) i
  ddx4basicvars := r.ddx4basicvars
  succeeded := r.succeeded

/-- The views of lines 172-204 with the rows of `hg` and the columns of `x`. -/
def ConRes.bottomHg (res : ConRes K (nhe + nhg) (nx + nbg + nhg) np nc) : ConRes K nhg nx np nc where
  val := fun i => res.val (Fin.natAdd nhe i)
  ddx := fun i j => res.ddx (Fin.natAdd nhe i) (ixX nbg nhg j)
  ddp := fun i j => res.ddp (Fin.natAdd nhe i) j
  ddc := fun i j => res.ddc (Fin.natAdd nhe i) j
  ddx4basicvars := res.ddx4basicvars
  succeeded := res.succeeded

/-- Writing through these views. -/
def ConRes.setBottomHg (res : ConRes K (nhe + nhg) (nx + nbg + nhg) np nc) (r : ConRes K nhg nx np nc) : ConRes K (nhe + nhg) (nx + nbg + nhg) np nc where
  val := cat2 (fun i => res.val (Fin.castAdd nhg i)) r.val
  ddx := fun i j => cat2 (fun i => res.ddx (Fin.castAdd nhg i) j) (fun i => cat3 (r.ddx i) (fun j => res.ddx (Fin.natAdd nhe i) (ixBg nx nhg j)) (fun j => res.ddx (Fin.natAdd nhe i) (ixHg nx nbg j)) j) i
  ddp := fun i j => cat2 (fun i => res.ddp (Fin.castAdd nhg i) j) (fun i => r.ddp i j) i
  ddc := fun i j => cat2 (fun i => res.ddc (Fin.castAdd nhg i) j) (fun i => r.ddc i j) i
  ddx4basicvars := r.ddx4basicvars
  succeeded := r.succeeded

/-- `ddx` after lines 194-198: the blocks of the slack variables. -/
def slackCols [Zero K] [One K] (ddx : Matrix (Fin (nhe + nhg)) (Fin (nx + nbg + nhg)) K) : Matrix (Fin (nhe + nhg)) (Fin (nx + nbg + nhg)) K := fun i j =>
  cat2 (fun i => cat3 (fun j => ddx (Fin.castAdd nhg i) (ixX nbg nhg j)) (fun _ => 0) (fun _ => 0) j)
    (fun i => cat3 (fun j => ddx (Fin.natAdd nhe i) (ixX nbg nhg j)) (fun _ => 0) (fun j => if i = j then 1 else 0) j) i

/-- `mproblem.h`, Solver.cpp:165-209. -/
def masterH [Zero K] [One K] [Add K] (he : ConFn τ K nhe nx np nc) (hg : ConFn τ K nhg nx np nc) : ConSig τ K (nhe + nhg) (nx + nbg + nhg) np nc := fun t resbar xbar p c opts =>
  let x := fun i => xbar (ixX nbg nhg i)
  let xhg := fun i => xbar (ixHg nx nbg i)
  let resbar := { resbar with ddx := slackCols resbar.ddx }
  match he.call t resbar.topHe x p c opts with
  | none => none
  | some (t, heres) =>
    let resbar := resbar.setTopHe heres
    match hg.call t resbar.bottomHg x p c opts with
    | none => none
    | some (t, hgres) =>
      let resbar := resbar.setBottomHg hgres
      some (t, { resbar with val := cat2 (fun i => resbar.val (Fin.castAdd nhg i)) (fun i => resbar.val (Fin.natAdd nhe i) + xhg i) })

/-- `mproblem.v`, Solver.cpp:212-236. -/
def masterV [Zero K] (v : ConFn τ K np nx np nc) : ConSig τ K np (nx + nbg + nhg) np nc := fun t res xbar p c opts =>
  match v.call t { res with ddx := fun i j => res.ddx i (ixX nbg nhg j) } (fun i => xbar (ixX nbg nhg i)) p c opts with
  | none => none
  | some (t, r) => some (t, { r with ddx := fun i j => cat3 (r.ddx i) (fun _ => 0) (fun _ => 0) j })

/-! ## The data of the master problem, Solver.cpp:238-279 -/

/-- `Ax` after lines 261-266.  `mem` is what the matrix holds after `resize`: the entries of the previous matrix if it had as many entries, anything otherwise. -/
def assembleAx [Zero K] [One K] (mem : Matrix (Fin (nbe + nbg)) (Fin (nx + nbg + nhg)) K) (Aex : Matrix (Fin nbe) (Fin nx) K) (Agx : Matrix (Fin nbg) (Fin nx) K) :
    Matrix (Fin (nbe + nbg)) (Fin (nx + nbg + nhg)) K :=
  -- leftCols(nx) << Aex, Agx
  let A : Matrix (Fin (nbe + nbg)) (Fin (nx + nbg + nhg)) K := fun r c => cat3 (fun j => cat2 (fun i => Aex i j) (fun i => Agx i j) r) (fun j => mem r (ixBg nx nhg j)) (fun j => mem r (ixHg nx nbg j)) c
  -- middleCols(nx, nxbg).bottomRows(nxbg) = identity(nxbg, nxbg)
  let A : Matrix (Fin (nbe + nbg)) (Fin (nx + nbg + nhg)) K := fun r c =>
    cat2 (fun i => A (Fin.castAdd nbg i) c) (fun i => cat3 (fun j => A (Fin.natAdd nbe i) (ixX nbg nhg j)) (fun j => if i = j then 1 else 0) (fun j => A (Fin.natAdd nbe i) (ixHg nx nbg j)) c) r
  -- rightCols(nxhg).fill(0.0)
  fun r c => cat3 (fun j => A r (ixX nbg nhg j)) (fun j => A r (ixBg nx nhg j)) (fun _ => 0) c

/-- The data of `mproblem` used by the residual function, after `updateMasterProblem`; `mem` as above. -/
def masterProblem [Zero K] [One K] (P : UProblem τ K nx np nbe nbg nhe nhg nc) (mem : Matrix (Fin (nbe + nbg)) (Fin (nx + nbg + nhg)) K) : MProblem K (nx + nbg + nhg) np (nbe + nbg) (nhe + nhg) where
  Ax := assembleAx mem P.Aex P.Agx
  Ap := fun r c => cat2 (fun i => P.Aep i c) (fun i => P.Agp i c) r
  b := cat2 P.be P.bg
  xlower := cat3 P.xlower (fun _ => none) (fun _ => none)
  xupper := cat3 P.xupper (fun _ => some 0) (fun _ => some 0)
  plower := P.plower
  pupper := P.pupper

/-- `mproblem.bc`, Solver.cpp:277-279. -/
def masterBc (P : UProblem τ K nx np nbe nbg nhe nhg nc) : Matrix (Fin (nbe + nbg)) (Fin nc) K := fun r c => cat2 (fun i => P.bec i c) (fun i => P.bgc i c) r

/-! ## The state, Solver.cpp:282-343 -/

/-- `State`, State.hpp. Index vectors are lists of numbers. -/
@[ext] structure UState (K : Type*) (nx np nbe nbg nhe nhg : ℕ) where
  x : Fin nx → K
  p : Fin np → K
  ye : Fin nbe → K
  yg : Fin nbg → K
  ze : Fin nhe → K
  zg : Fin nhg → K
  s : Fin nx → K
  xbg : Fin nbg → K
  xhg : Fin nhg → K
  js : List ℕ
  ju : List ℕ
  jlu : List ℕ
  juu : List ℕ
  jb : List ℕ
  jn : List ℕ

/-- `MasterState`, MasterState.hpp:27-36. -/
structure MState (K : Type*) (nx np nw : ℕ) where
  u : MVec K nx np nw
  s : Fin nx → K
  js : List ℕ
  ju : List ℕ
  jlu : List ℕ
  juu : List ℕ
  jb : List ℕ
  jn : List ℕ

/-- `updateMasterState`, Solver.cpp:283-295: the new value of `mstate.u`. -/
def packState (S : UState K nx np nbe nbg nhe nhg) : MVec K (nx + nbg + nhg) np (nbe + nbg + (nhe + nhg)) where
  x := cat3 S.x S.xbg S.xhg
  p := S.p
  w := cat2 (cat2 S.ye S.yg) (cat2 S.ze S.zg)

/-- `move_right_xbg_xhg` followed by `head(k)`, Solver.cpp:310-327.  `P` is `std::partition`. -/
def realIndices (P : Idx.PartitionImpl ℕ) (nx nslack : ℕ) (j : List ℕ) : List ℕ :=
  let r := if nslack > 0 then Idx.moveRightIf P j (fun i => decide (nx ≤ i)) else (j, j.length)
  r.1.take r.2

/-- `updateState`, Solver.cpp:298-328. -/
def unpackState (P : Idx.PartitionImpl ℕ) (m : MState K (nx + nbg + nhg) np (nbe + nbg + (nhe + nhg))) : UState K nx np nbe nbg nhe nhg where
  x := fun i => m.u.x (ixX nbg nhg i)
  xbg := fun i => m.u.x (ixBg nx nhg i)
  xhg := fun i => m.u.x (ixHg nx nbg i)
  ye := fun i => m.u.w (Fin.castAdd (nhe + nhg) (Fin.castAdd nbg i))
  yg := fun i => m.u.w (Fin.castAdd (nhe + nhg) (Fin.natAdd nbe i))
  ze := fun i => m.u.w (Fin.natAdd (nbe + nbg) (Fin.castAdd nhg i))
  zg := fun i => m.u.w (Fin.natAdd (nbe + nbg) (Fin.natAdd nhe i))
  p := m.u.p
  s := fun i => m.s (ixX nbg nhg i)
  js := realIndices P nx (nbg + nhg) m.js
  ju := realIndices P nx (nbg + nhg) m.ju
  jlu := realIndices P nx (nbg + nhg) m.jlu
  juu := realIndices P nx (nbg + nhg) m.juu
  jb := realIndices P nx (nbg + nhg) m.jb
  jn := realIndices P nx (nbg + nhg) m.jn

/-! ## The calls of the user functions, ResidualFunction.cpp:143-160 -/

/-- The members `fres`, `hres`, `vres` of `ResidualFunction::Impl`; `initialize` resizes them and keeps the flags, lines 98-100. -/
structure ResMem (K : Type*) (nx np nz nc : ℕ) where
  f : ObjRes K nx np nc
  h : ConRes K nz nx np nc
  v : ConRes K np nx np nc

/-- The functions of `MasterProblem`. -/
structure MFuns (τ K : Type*) (nx np nz nc : ℕ) where
  r : ResFn τ K
  f : ObjFn τ K nx np nc
  h : ConFn τ K nz nx np nc
  v : ConFn τ K np nx np nc

/-- The functions of the master problem made by `updateMasterProblem`.  (Assigning a lambda to `mproblem.f` makes a non-empty function.) -/
def masterFuns [Zero K] [One K] [Add K] (P : UProblem τ K nx np nbe nbg nhe nhg nc) : MFuns τ K (nx + nbg + nhg) np (nhe + nhg) nc where
  r := P.r
  f := ⟨some (masterF P.f)⟩
  h := ⟨some (masterH P.he P.hg)⟩
  v := ⟨some (masterV P.v)⟩

variable {nz : ℕ}

/-- `updateFunctionEvalsAux`, ResidualFunction.cpp:143-160; the flag is its return value. -/
def functionEvals [Zero K] (F : MFuns τ K nx np nz nc) (c : Fin nc → K) (ddx ddp ddc : Bool) (ibasicvars : List ℕ) (t : τ) (m : ResMem K nx np nz nc) (x : Fin nx → K) (p : Fin np → K) :
    Option (τ × ResMem K nx np nz nc × Bool) :=
  let opts : EvalOpts := { ddx := ddx, ddp := ddp && decide (np ≠ 0), ddc := ddc && decide (nc ≠ 0), ibasicvars := ibasicvars }
  match F.r.call t x p c opts with
  | none => none
  | some t =>
    match F.f.call t m.f x p c opts with
    | none => none
    | some (t, fres) =>
      match if nz ≠ 0 then F.h.call t m.h x p c opts else some (t, m.h) with
      | none => none
      | some (t, hres) =>
        match if np ≠ 0 then F.v.call t m.v x p c opts else some (t, m.v) with
        | none => none
        | some (t, vres) => some (t, { f := fres, h := hres, v := vres }, fres.succeeded && hres.succeeded && vres.succeeded)

/-- What the rest of the residual function uses of `fres`, `hres` and `vres`. -/
def ResMem.evals (m : ResMem K nx np nz nc) (succeeded : Bool) : Evals K nx np nz where
  f := m.f.f
  fx := m.f.fx
  fxx := m.f.fxx
  fxp := m.f.fxp
  diagfxx := m.f.diagfxx
  h := m.h.val
  hx := m.h.ddx
  hp := m.h.ddp
  v := m.v.val
  vx := m.v.ddx
  vp := m.v.ddp
  succeeded := succeeded

/-- The basic variables of `EchelonizerExtended(Ax)`, which `RWQ().jb` gives between `initialize` and the first update: EchelonizerW.cpp:57, EchelonizerW.cpp:138-156, EchelonizerExtended.cpp:64-75. -/
def firstBasics {ny : ℕ} [Field K] [DecidableEq K] (o : Ech.LUOracle K) (Ax : Matrix (Fin ny) (Fin nx) K) : List ℕ :=
  (List.ofFn fun i => (Ech.extInit o Ax).form.Q (Sum.inl i)).map Fin.val

/-- The indices of the basic variables that `RWQ().jb` gives, ResidualFunction.cpp:150-151: those of the last update, or `first` before the first update. -/
def basicIndices {nw : ℕ} [Field K] (first : List ℕ) (q : Option (Ech.RWQ K nx np nw)) : List ℕ :=
  match q with
  | none => first
  | some q => (List.ofFn q.jb).map Fin.val

/-- The user code as seen by `MasterSolver`: the state is that of the user functions and the members `fres`, `hres`, `vres`. -/
def userCode [Field K] {nw : ℕ} (F : MFuns τ K nx np nz nc) (c : Fin nc → K) (first : List ℕ) (ddx ddp ddc : Bool) (t : τ × ResMem K nx np nz nc) (x : Fin nx → K) (p : Fin np → K)
    (q : Option (Ech.RWQ K nx np nw)) : Option ((τ × ResMem K nx np nz nc) × Evals K nx np nz) :=
  match functionEvals F c ddx ddp ddc (basicIndices first q) t.1 t.2 x p with
  | none => none
  | some (t, m, ok) => some ((t, m), m.evals ok)

/-- The configuration of `msolver.solve(mproblem, mstate)` in `Solver::Impl::solve`, Solver.cpp:346-354. -/
def solverConfig [Field K] [LinearOrder K] (env : Env K) (method : Method) (inners : ∀ c : CanonPack K (nx + nbg + nhg) np (nbe + nbg + (nhe + nhg)), Inners K np c.nbe c.nbi c.nne c.nni)
    (P : UProblem τ K nx np nbe nbg nhe nhg nc) (mem : Matrix (Fin (nbe + nbg)) (Fin (nx + nbg + nhg)) K) :
    Config K (nx + nbg + nhg) np (nbe + nbg) (nhe + nhg) (τ × ResMem K (nx + nbg + nhg) np (nhe + nhg) nc) where
  env := env
  pb := masterProblem P mem
  method := method
  inners := inners
  user := userCode (masterFuns P) P.c (firstBasics env.o (masterProblem P mem).Ax) true true false
  userJac := userCode (masterFuns P) P.c (firstBasics env.o (masterProblem P mem).Ax) true true true
  phi := none

/-- `finalize`, MasterSolver.cpp:189-197. -/
def finalState [Field K] [LinearOrder K] {nw : ℕ} (st : Stab.Status K nx) (c : CanonPack K nx np nw) (u : MVec K nx np nw) : MState K nx np nw where
  u := u
  s := st.s
  js := st.js.map Fin.val
  ju := st.ju.map Fin.val
  jlu := st.jlu.map Fin.val
  juu := st.juu.map Fin.val
  jb := (List.ofFn (fun k => c.mat.jb (.inl k)) ++ List.ofFn (fun k => c.mat.jb (.inr k))).map Fin.val
  jn := (List.ofFn (fun k => c.mat.jn (.inl (.inl k))) ++ List.ofFn (fun k => c.mat.jn (.inl (.inr k))) ++ List.ofFn (fun k => c.mat.jn (.inr k))).map Fin.val

/-- `Solver::solve(problem, state)` returning normally, Solver.cpp:346-354, for a solver object with any history: `mem` is the memory of `mproblem.Ax`, `res` the members
    `fres`, `hres`, `vres`; `memW`, `errors`, `ax`, `du`, `history` the memory of the parts of the master solver. -/
structure SolverReturns [Field K] [LinearOrder K] (env : Env K) (method : Method) (inners : ∀ c : CanonPack K (nx + nbg + nhg) np (nbe + nbg + (nhe + nhg)), Inners K np c.nbe c.nbi c.nne c.nni)
    (part : Idx.PartitionImpl ℕ) (o : SolveOptions K) (P : UProblem τ K nx np nbe nbg nhe nhg nc) (mem : Matrix (Fin (nbe + nbg)) (Fin (nx + nbg + nhg)) K) (S S' : UState K nx np nbe nbg nhe nhg) (result : Result K)
    (check : Option (Parts K (nx + nbg + nhg) np (nbe + nbg) (nhe + nhg) (τ × ResMem K (nx + nbg + nhg) np (nhe + nhg) nc) (masterProblem P mem).Ax → MVec K (nx + nbg + nhg) np (nbe + nbg + (nhe + nhg)) →
      MVec K (nx + nbg + nhg) np (nbe + nbg + (nhe + nhg)) → Result K → Option ((τ × ResMem K (nx + nbg + nhg) np (nhe + nhg) nc) × Bool))) where
  t0 : τ
  res : ResMem K (nx + nbg + nhg) np (nhe + nhg) nc
  memW : Matrix (Fin (nbe + nbg + (nhe + nhg))) (Fin (nx + nbg + nhg) ⊕ Fin np) K
  errors : ErrorsOut K (nx + nbg + nhg) np (nbe + nbg + (nhe + nhg))
  ax : Fin (nx + nbg + nhg) → K
  du : MVec K (nx + nbg + nhg) np (nbe + nbg + (nhe + nhg))
  history : History K
  final : SolveState (Parts K (nx + nbg + nhg) np (nbe + nbg) (nhe + nhg) (τ × ResMem K (nx + nbg + nhg) np (nhe + nhg) nc) (masterProblem P mem).Ax) K (nx + nbg + nhg) np (nbe + nbg + (nhe + nhg))
  rf : RFState K (nx + nbg + nhg) np (nbe + nbg) (nhe + nhg) (masterProblem P mem).Ax
  solved : Solve ((solverConfig env method inners P mem).machine check) o (masterProblem P mem).bounds ((solverConfig env method inners P mem).start (t0, res) memW errors ax du) history (packState S) (some final)
  evaluated : final.mach.rf = some rf
  state : S' = unpackState part (finalState rf.status rf.C final.u)
  result_eq : result = solveResult o final

end Optima
