import Verif.Model.Solver

/-!
# Model of `SensitivitySolver.cpp` and of `Solver::solve` with sensitivities
-/

namespace Optima

open Matrix

variable {K : Type*} {τ : Type*} {nx np ny nz nw nbe nbg nhe nhg nc : ℕ}

/-- `MasterSensitivity`, MasterSensitivity.hpp:27-33. -/
@[ext] structure MSens (K : Type*) (nx np nw nc : ℕ) where
  xc : Matrix (Fin nx) (Fin nc) K
  pc : Matrix (Fin np) (Fin nc) K
  wc : Matrix (Fin nw) (Fin nc) K
  sc : Matrix (Fin nx) (Fin nc) K

/-- The checks of `SensitivitySolver::Impl::initialize`, SensitivitySolver.cpp:41-49, with run-time sizes: `true` is an error. -/
def sensInitFails (ny nc bcRows bcCols : ℕ) : Bool := (decide (nc ≠ 0) && decide (bcCols ≠ nc)) || (decide (nc ≠ 0) && decide (bcRows ≠ ny))

/-- `M.col(i) = v`. -/
def setCol {m n : ℕ} (M : Matrix (Fin m) (Fin n) K) (i : Fin n) (v : Fin m → K) : Matrix (Fin m) (Fin n) K := fun r c => if c = i then v r else M r c

/-- `M(js, all) = B(js, all)` for a list of row indices. -/
def setRows {m n : ℕ} (M : Matrix (Fin m) (Fin n) K) (js : List (Fin m)) (B : Fin m → Fin n → K) : Matrix (Fin m) (Fin n) K := js.foldl (fun M j => Matrix.of fun r c => if r = j then B r c else M r c) M

/-- `r.x(js) = ...`, `r.x(ju).fill(0)`, SensitivitySolver.cpp:81-82. -/
def sensRhsX [Zero K] [Neg K] (js ju : List (Fin nx)) (rx : Fin nx → K) (fc : Fin nx → K) : Fin nx → K :=
  let rx := js.foldl (fun v j => Function.update v j (-fc j)) rx
  ju.foldl (fun v j => Function.update v j 0) rx

/-- One pass of the loop, SensitivitySolver.cpp:79-87: the member `r` and the matrices `xc`, `pc`, `wc`.  The method is the null-space method (constructor, lines 34-39). -/
def sensColumn [Field K] [LinearOrder K] {Ax : Matrix (Fin ny) (Fin nx) K} (rf : RFState K nx np ny nz Ax) (I : Inners K np rf.C.nbe rf.C.nbi rf.C.nne rf.C.nni) (fxc : Matrix (Fin nx) (Fin nc) K)
    (hc : Matrix (Fin nz) (Fin nc) K) (vc : Matrix (Fin np) (Fin nc) K) (bc : Matrix (Fin ny) (Fin nc) K) (s : MVec K nx np (ny + nz) × MSens K nx np (ny + nz) nc) (i : Fin nc) :
    MVec K nx np (ny + nz) × MSens K nx np (ny + nz) nc :=
  let r : MVec K nx np (ny + nz) :=
    { x := sensRhsX rf.status.js rf.status.ju s.1.x (fun j => fxc j i), p := fun q => -vc q i, w := cat2 (fun l => bc l i) (fun l => -hc l i) }
  let u := linSolve .nullspace I rf.C.mat r { x := fun j => s.2.xc j i, p := fun q => s.2.pc q i, w := fun l => s.2.wc l i }
  (r, { s.2 with xc := setCol s.2.xc i u.x, pc := setCol s.2.pc i u.p, wc := setCol s.2.wc i u.w })

/-- `SensitivitySolver::Impl::solve`, SensitivitySolver.cpp:51-95; `fxc`, `hc`, `vc` are `res.f.fxc`, `res.h.ddc`, `res.v.ddc`; `r0` and `s0` are what the member `r` and the (resized) result hold before. -/
def sensSolve [Field K] [LinearOrder K] {Ax : Matrix (Fin ny) (Fin nx) K} (rf : RFState K nx np ny nz Ax) (I : Inners K np rf.C.nbe rf.C.nbi rf.C.nne rf.C.nni) (fxc : Matrix (Fin nx) (Fin nc) K)
    (hc : Matrix (Fin nz) (Fin nc) K) (vc : Matrix (Fin np) (Fin nc) K) (bc : Matrix (Fin ny) (Fin nc) K) (r0 : MVec K nx np (ny + nz)) (s0 : MSens K nx np (ny + nz) nc) : MSens K nx np (ny + nz) nc :=
  let s := ((List.finRange nc).foldl (sensColumn rf I fxc hc vc bc) (r0, s0)).2
  let s := { s with xc := setRows s.xc rf.status.jms (fun _ _ => 0) }
  let s := { s with sc := setRows s.sc rf.status.js (fun _ _ => 0) }
  { s with sc := setRows s.sc rf.status.ju (fun j i => fxc j i + ∑ l, rf.M.Wx l j * s.wc l i) }

/-- `Sensitivity`, Sensitivity.hpp. -/
structure USens (K : Type*) (nx np nbe nbg nhe nhg nc : ℕ) where
  xc : Matrix (Fin nx) (Fin nc) K
  pc : Matrix (Fin np) (Fin nc) K
  yec : Matrix (Fin nbe) (Fin nc) K
  ygc : Matrix (Fin nbg) (Fin nc) K
  zec : Matrix (Fin nhe) (Fin nc) K
  zgc : Matrix (Fin nhg) (Fin nc) K
  sc : Matrix (Fin nx) (Fin nc) K
  xbgc : Matrix (Fin nbg) (Fin nc) K
  xhgc : Matrix (Fin nhg) (Fin nc) K

/-- `updateSensitivity`, Solver.cpp:331-343. -/
def unpackSens (m : MSens K (nx + nbg + nhg) np (nbe + nbg + (nhe + nhg)) nc) : USens K nx np nbe nbg nhe nhg nc where
  xc := fun i c => m.xc (ixX nbg nhg i) c
  pc := m.pc
  xbgc := fun i c => m.xc (ixBg nx nhg i) c
  xhgc := fun i c => m.xc (ixHg nx nbg i) c
  yec := fun i c => m.wc (Fin.castAdd (nhe + nhg) (Fin.castAdd nbg i)) c
  ygc := fun i c => m.wc (Fin.castAdd (nhe + nhg) (Fin.natAdd nbe i)) c
  zec := fun i c => m.wc (Fin.natAdd (nbe + nbg) (Fin.castAdd nhg i)) c
  zgc := fun i c => m.wc (Fin.natAdd (nbe + nbg) (Fin.natAdd nhe i)) c
  sc := fun i c => m.sc (ixX nbg nhg i) c

/-- `Solver::solve(problem, state, sensitivity)` returning normally, Solver.cpp:357-366 and MasterSolver.cpp:124-130: after the solve `h`, `F.updateOnlyJacobian` evaluates the user functions and their derivatives at
    the final point (`parts`, with residual function state `rf2`), then the sensitivity solver (with the `LU` objects `I`) is run.  `r0` and `s0` are the memory of the sensitivity solver and of `msensitivity`.
    (`Config.updateF` also recomputes the residual vector, which `updateOnlyJacobian` does not and the sensitivity solver does not use.) -/
structure SensReturns [Field K] [LinearOrder K] {env : Env K} {method : Method} {inners : ∀ c : CanonPack K (nx + nbg + nhg) np (nbe + nbg + (nhe + nhg)), Inners K np c.nbe c.nbi c.nne c.nni}
    {part : Idx.PartitionImpl ℕ} {o : SolveOptions K} {P : UProblem τ K nx np nbe nbg nhe nhg nc} {mem : Matrix (Fin (nbe + nbg)) (Fin (nx + nbg + nhg)) K} {S S' : UState K nx np nbe nbg nhe nhg} {result : Result K} {check}
    (h : SolverReturns env method inners part o P mem S S' result check) (I : ∀ c : CanonPack K (nx + nbg + nhg) np (nbe + nbg + (nhe + nhg)), Inners K np c.nbe c.nbi c.nne c.nni)
    (sens : USens K nx np nbe nbg nhe nhg nc) where
  parts : Parts K (nx + nbg + nhg) np (nbe + nbg) (nhe + nhg) (τ × ResMem K (nx + nbg + nhg) np (nhe + nhg) nc) (masterProblem P mem).Ax
  rf2 : RFState K (nx + nbg + nhg) np (nbe + nbg) (nhe + nhg) (masterProblem P mem).Ax
  r0 : MVec K (nx + nbg + nhg) np (nbe + nbg + (nhe + nhg))
  s0 : MSens K (nx + nbg + nhg) np (nbe + nbg + (nhe + nhg)) nc
  evaluated : (solverConfig env method inners P mem).updateF (solverConfig env method inners P mem).userJac h.final.mach h.final.u = some parts
  state : parts.rf = some rf2
  result : sens = unpackSens (sensSolve rf2 (I rf2.C) parts.user.2.f.fxc parts.user.2.h.ddc parts.user.2.v.ddc (masterBc P) r0 s0)

end Optima
