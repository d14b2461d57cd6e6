import Verif.Model.EchelonExt
import Verif.Model.Utils

/-!
# Model of `Optima/EchelonizerW.cpp`

The rows of `W` are indexed by `Fin (ny + nz)`, its columns by `Fin nx ⊕ Fin np`.  Memory that `resize` leaves unspecified is the parameter `mem`.
-/

namespace Optima.Ech

open Matrix

variable {K : Type*} {nx np ny nz : ℕ}

/-- `MatrixViewRWQ`: `Rb, Sbn, Sbp, jb, jn` (`nw` is the number of columns of `Rb`). -/
structure RWQ (K : Type*) (nx np nw : ℕ) where
  nb : ℕ
  nn : ℕ
  Rb : Matrix (Fin nb) (Fin nw) K
  Sbn : Matrix (Fin nb) (Fin nn) K
  Sbp : Matrix (Fin nb) (Fin np) K
  jb : Fin nb → Fin nx
  jn : Fin nn → Fin nx

/-- Members `W`, `echelonizer` and what `RWQ()` returns (`none` before the first update: `S` is then unspecified memory). -/
structure WState (K : Type*) (nx np ny nz : ℕ) (Ax : Matrix (Fin ny) (Fin nx) K) where
  W : Matrix (Fin (ny + nz)) (Fin nx ⊕ Fin np) K
  ext : ExtState Ax
  rwq : Option (RWQ K nx np (ny + nz))

/-- Outcome of a call: normal, a failed `assert` (debug builds only), or undefined behaviour (a product of matrices whose sizes do not match, or the use of an uninitialised number of rows). -/
inductive WOut (α : Type*)
  | ok (a : α)
  | assertFail
  | sizeMismatch

/-- `initialize(dims, Ax, Ap)`, EchelonizerW.cpp:42-67.  (The guards `if(Ax.size())` skip empty writes only.) -/
def wInit [Field K] [DecidableEq K] (o : LUOracle K) (mem : Matrix (Fin (ny + nz)) (Fin nx ⊕ Fin np) K) (Ax : Matrix (Fin ny) (Fin nx) K)
    (Ap : Matrix (Fin ny) (Fin np) K) : WState K nx np ny nz Ax where
  W := fun r c => Fin.addCases (fun i => Sum.elim (Ax i) (Ap i) c) (fun j => mem (Fin.natAdd ny j) c) r
  ext := extInit o Ax
  rwq := none

/-- The bottom rows of `W` replaced, EchelonizerW.cpp:85-86. -/
def setJ (W : Matrix (Fin (ny + nz)) (Fin nx ⊕ Fin np) K) (Jx : Matrix (Fin nz) (Fin nx) K) (Jp : Matrix (Fin nz) (Fin np) K) :
    Matrix (Fin (ny + nz)) (Fin nx ⊕ Fin np) K :=
  fun r c => Fin.addCases (fun i => W (Fin.castAdd nz i) c) (fun j => Sum.elim (Jx j) (Jp j) c) r

/-- What `RWQ()` returns for a canonical form `f` and the columns `Wp`, EchelonizerW.cpp:91-104, 138-156; `none` if `Rb * Wp` has mismatching sizes. -/
def assembleRWQ [Field K] [LinearOrder K] (eps : K) {M : Mat K} (f : Form M) (hn : M.2.1 = nx) (Wp : Matrix (Fin (ny + nz)) (Fin np) K) :
    Option (RWQ K nx np (ny + nz)) :=
  if h : M.1 = ny + nz then
    let Rb : Matrix (Fin f.nb) (Fin (ny + nz)) K := (f.R.submatrix Sum.inl id).submatrix id (Fin.cast h.symm)
    some ⟨f.nb, f.nn, Rb, f.S, Utils.cleanMat eps (Rb * Wp), fun i => Fin.cast hn (f.Q (Sum.inl i)), fun k => Fin.cast hn (f.Q (Sum.inr k))⟩
  else none

theorem extStep_cols [Field K] [LinearOrder K] (o : LUOracle K) (sort : SortImpl K) (thr : K) {Ax : Matrix (Fin ny) (Fin nx) K} (s : ExtState Ax)
    (Jx : Matrix (Fin nz) (Fin nx) K) (w : Fin nx → K) : (extUpdate o sort thr s Jx w).W.2.1 = nx := by
  by_cases h : nz = 0 ∨ nx = 0
  · exact congrArg (fun s => s.W.2.1) (if_pos h : extUpdate o sort thr s Jx w = _)
  · exact congrArg (fun s => s.W.2.1) (if_neg h : extUpdate o sort thr s Jx w = _)

/-- `update(Jx, Jp, weights)`, EchelonizerW.cpp:69-120.  `debug` tells whether `assert` is active. The call of `cleanResidualRoundoffErrors` on the echelonizer is
    `x + sigma - sigma`, which is `x` in exact arithmetic, so it is not repeated here (it is an operation of `ExtReach`; see
    `Model/FloatEchelon.lean` for rounded arithmetic). -/
def wUpdate [Field K] [LinearOrder K] (debug : Bool) (o : LUOracle K) (sort : SortImpl K) (thr eps : K) {Ax : Matrix (Fin ny) (Fin nx) K} (s : WState K nx np ny nz Ax)
    (Jx : Matrix (Fin nz) (Fin nx) K) (Jp : Matrix (Fin nz) (Fin np) K) (w : Fin nx → K) : WOut (WState K nx np ny nz Ax) :=
  -- assert( echelonizer.R().rows() )
  if debug && s.ext.W.1 == 0 then .assertFail
  -- an empty `Ax` equals the matrix of the default-constructed echelonizer, so its rank was never set (Echelonizer.cpp:114-116 and 229)
  else if nx = 0 ∧ ny = 0 then .sizeMismatch
  else
    let W := setJ s.W Jx Jp
    let ext := extUpdate o sort thr s.ext Jx w
    match assembleRWQ eps ext.form (extStep_cols o sort thr s.ext Jx w) (W.submatrix id Sum.inr) with
    | some q => .ok ⟨W, ext, some q⟩
    | none => .sizeMismatch

/-- Reachable states: `initialize` and then any number of successful updates. -/
inductive WReach [Field K] [LinearOrder K] (debug : Bool) (o : LUOracle K) (sort : SortImpl K) (thr eps : K) (Ax : Matrix (Fin ny) (Fin nx) K) (Ap : Matrix (Fin ny) (Fin np) K) :
    WState K nx np ny nz Ax → Prop
  | init (mem : Matrix (Fin (ny + nz)) (Fin nx ⊕ Fin np) K) : WReach debug o sort thr eps Ax Ap (wInit o mem Ax Ap)
  | update (s s' : WState K nx np ny nz Ax) (Jx : Matrix (Fin nz) (Fin nx) K) (Jp : Matrix (Fin nz) (Fin np) K) (w : Fin nx → K) :
      WReach debug o sort thr eps Ax Ap s → wUpdate debug o sort thr eps s Jx Jp w = .ok s' → WReach debug o sort thr eps Ax Ap s'

end Optima.Ech
