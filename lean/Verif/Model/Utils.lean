import Mathlib.Algebra.Order.Field.Basic
import Mathlib.LinearAlgebra.Matrix.NonsingularInverse
import Mathlib.Data.List.FinRange

/-!
# Model of the remaining numerical utilities of `Optima/Utils.cpp`

`inverseShermanMorrison` (473-479), `bfgs` (261-294), `cleanResidualRoundoffErrors` (534-559),
`multiplyMatrixVectorWithoutResidualRoundOffError` (561-579), `matrixStructure`/`is*Matrix`/`operator<<=` (581-611),
`ensureMinimumDimension` (613-618).
-/

namespace Optima.Utils

open Matrix

/-! ## Sherman-Morrison -/

section Sherman
variable {K : Type*} [Field K] [DecidableEq K] {n : ℕ}

/-- One pass of the loop, Utils.cpp:476-477.  `none`: the divisor `1 + D[i]*invM(i,i)` is zero, so that the C++ code produces
    non-finite entries. -/
def shermanStep (D : Fin n → K) (acc : Option (Matrix (Fin n) (Fin n) K)) (i : Fin n) : Option (Matrix (Fin n) (Fin n) K) :=
  acc.bind fun invM =>
    if 1 + D i * invM i i = 0 then none
    else some (invM - (D i / (1 + D i * invM i i)) • vecMulVec (fun r => invM r i) (fun c => invM i c))

/-- `inverseShermanMorrison(invA, D)`, Utils.cpp:473-479. -/
def inverseShermanMorrison (invA : Matrix (Fin n) (Fin n) K) (D : Fin n → K) : Option (Matrix (Fin n) (Fin n) K) :=
  (List.finRange n).foldl (shermanStep D) (some invA)

end Sherman

/-! ## BFGS -/

section Bfgs
variable {K : Type*} [Field K] {n : ℕ}

/-- The variables captured by the lambda returned by `bfgs()`, Utils.cpp:263-267. `none` is the state in which `x0` is still empty. -/
structure BfgsState (K : Type*) (n : ℕ) where
  x0 : Fin n → K
  g0 : Fin n → K
  H : Matrix (Fin n) (Fin n) K

/-- The update formula, Utils.cpp:288. -/
def bfgsUpdate (H : Matrix (Fin n) (Fin n) K) (dx dg : Fin n → K) : Matrix (Fin n) (Fin n) K :=
  let a := dx ⬝ᵥ dg
  (1 - a⁻¹ • vecMulVec dx dg) * H * (1 - a⁻¹ • vecMulVec dg dx) + a⁻¹ • vecMulVec dx dx

/-- One call of the lambda, Utils.cpp:269-291, for vectors of a fixed dimension `n > 0` (with `n = 0` the C++ test `x0.size() == 0`
    holds in every call; the matrices are then empty). -/
def bfgsCall (s : Option (BfgsState K n)) (x g : Fin n → K) : BfgsState K n :=
  match s with
  | none => { x0 := x, g0 := g, H := diagonal x }
  | some s => { x0 := x, g0 := g, H := bfgsUpdate s.H (x - s.x0) (g - s.g0) }

/-- State after a history of calls. -/
def bfgsRun (calls : List ((Fin n → K) × (Fin n → K))) : Option (BfgsState K n) :=
  calls.foldl (fun s c => some (bfgsCall s c.1 c.2)) none

end Bfgs

/-! ## Removal of round-off errors -/

section Clean
variable {K : Type*} [Field K] [LinearOrder K] {m n : ℕ}

/-- `vec.array().abs().maxCoeff()` (Utils.cpp:538), as a left-to-right maximum. -/
def maxAbs (v : Fin n → K) : K := (List.finRange n).foldl (fun acc i => max acc |v i|) 0

/-- `mat.array().abs().maxCoeff()` (Utils.cpp:551). -/
def maxAbsM (A : Fin m → Fin n → K) : K := (List.finRange m).foldl (fun acc i => max acc (maxAbs (A i))) 0

/-- Vector version, Utils.cpp:533-544.  `eps` is the machine epsilon. -/
def cleanVec (eps : K) (v : Fin n → K) : Fin n → K :=
  if n = 0 then v else
    let threshold := eps * maxAbs v * n
    fun i => if |v i| ≤ threshold then 0 else v i

/-- Matrix version, Utils.cpp:546-559. -/
def cleanMat (eps : K) (A : Fin m → Fin n → K) : Fin m → Fin n → K :=
  if m * n = 0 then A else
    let threshold := eps * maxAbsM A * (max m n : ℕ)
    fun i j => if |A i j| ≤ threshold then 0 else A i j

/-- `multiplyMatrixVectorWithoutResidualRoundOffError(A, x)`, Utils.cpp:561-579. -/
def multiplyClean {ι : Type*} (eps : K) (A : ι → Fin n → K) (x : Fin n → K) : ι → K := fun i =>
  let b := ∑ j, A i j * x j
  let ref := ∑ j, |A i j| * |x j|
  if |b| < ref * eps then 0 else b

end Clean

/-! ## Matrix structure and `<<=` -/

section Structure
variable {K : Type*} [Zero K]

/-- A matrix of dynamic size (`Matrix`/`MatrixView`). -/
structure DMat (K : Type*) where
  rows : ℕ
  cols : ℕ
  val : Fin rows → Fin cols → K

/-- `enum class MatrixStructure`, Utils.hpp:180-185. -/
inductive MatrixStructure | zero | dense | diagonal
  deriving DecidableEq

/-- `isZeroMatrix`, Utils.cpp:588-591. -/
def isZeroMatrix (A : DMat K) : Bool := A.rows * A.cols == 0
/-- `isDiagonalMatrix`, Utils.cpp:593-596. -/
def isDiagonalMatrix (A : DMat K) : Bool := decide (A.rows * A.cols > 1) && A.cols == 1
/-- `isDenseMatrix`, Utils.cpp:598-601. -/
def isDenseMatrix (A : DMat K) : Bool := decide (A.rows * A.cols > 0) && A.rows == A.cols
/-- `matrixStructure`, Utils.cpp:581-586. -/
def matrixStructure (A : DMat K) : MatrixStructure :=
  if isDenseMatrix A then .dense else if isDiagonalMatrix A then .diagonal else .zero

/-- `diag(v)` for the first column of a matrix with at least one column (Utils.cpp:607): an `rows × rows` matrix. -/
def diagOfCol (A : DMat K) (h : 0 < A.cols) : DMat K :=
  { rows := A.rows, cols := A.rows, val := fun i j => if i = j then A.val i ⟨0, h⟩ else 0 }

/-- Outcome of an assignment to a `MatrixRef`: an `Eigen::Ref` cannot be resized, so sizes that differ are an error
    (assertion in debug mode, undefined otherwise). -/
inductive Assign (K : Type*)
  | ok (result : DMat K)
  | sizeMismatch

/-- `mat = src` for an `Eigen::Ref`. -/
def assignRef (mat src : DMat K) : Assign K :=
  if mat.rows = src.rows ∧ mat.cols = src.cols then .ok src else .sizeMismatch

/-- `operator<<=(mat, other)`, Utils.cpp:603-611. -/
def shiftAssign (mat other : DMat K) : Assign K :=
  match matrixStructure other with
  | .dense => assignRef mat other
  | .diagonal => if h : 0 < other.cols then assignRef mat (diagOfCol other h) else .sizeMismatch
  | .zero => .ok mat

/-- `ensureMinimumDimension(mat, rows, cols)`, Utils.cpp:613-618: new dimensions only.  `resize` keeps the contents only when the
    size does not change; `none` is unspecified content. -/
def ensureMinimumDimension (A : DMat K) (rows cols : ℕ) : ℕ × ℕ × Option (DMat K) :=
  let m := max A.rows rows
  let n := max A.cols cols
  (m, n, if m = A.rows ∧ n = A.cols then some A else none)

end Structure

end Optima.Utils
