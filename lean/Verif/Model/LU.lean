import Verif.Model.Triangular
import Mathlib.Algebra.Order.Field.Basic
import Mathlib.Algebra.Order.Group.Abs

/-!
# Model of `Optima/LU.cpp`

`Eigen::FullPivLU` is modelled by its contract.  Arithmetic is exact; `eps` is the machine epsilon used in the code.
-/

namespace Optima.LU

open Matrix

variable {K : Type*} [Field K] {n : ℕ}

/-- The unit lower triangular factor stored in `matrixLU()`. -/
def unitLower (M : Matrix (Fin n) (Fin n) K) : Matrix (Fin n) (Fin n) K := fun i j => if j < i then M i j else if j = i then 1 else 0
/-- The upper triangular factor stored in `matrixLU()`. -/
def upper (M : Matrix (Fin n) (Fin n) K) : Matrix (Fin n) (Fin n) K := fun i j => if i ≤ j then M i j else 0

/-- Contract of `Eigen::FullPivLU<Matrix>::compute` for a square matrix: `P*A*Q = L*U` with `(P*A*Q)(i,j) = A(p i, q j)`, and (complete pivoting) every pivot is the largest entry of its row of `U`. -/
structure FullLU [LinearOrder K] (A : Matrix (Fin n) (Fin n) K) where
  p : Equiv.Perm (Fin n)
  q : Equiv.Perm (Fin n)
  matrixLU : Matrix (Fin n) (Fin n) K
  factor : A.submatrix p q = unitLower matrixLU * upper matrixLU
  dominant : ∀ i j, i ≤ j → |matrixLU i j| ≤ |matrixLU i i|

/-- Working data of `assembleU`: members `U`, `is_li`, `rank` and the vector `y`. -/
structure Work (K : Type*) (n : ℕ) where
  U : Matrix (Fin n) (Fin n) K
  y : Fin n → K
  isLi : Fin n → Bool
  rank : ℕ

variable [LinearOrder K]

/-- One pass of the loop in `assembleU`, LU.cpp:127-146, for the row `j = n - i`.
    `U.row(j).tail(j).fill(0)` clears the last `j` entries of the row, `U.col(j).head(j).fill(0)` the entries above the diagonal. -/
def discard (eps : K) (s : Work K n) (j : Fin n) : Work K n :=
  if |s.U j j| ≤ eps * |s.y j| then
    let U : Matrix (Fin n) (Fin n) K := fun r c => if r = j ∧ n - j.val ≤ c.val then 0 else s.U r c
    let U : Matrix (Fin n) (Fin n) K := fun r c => if c = j ∧ r.val < j.val then 0 else U r c
    let U : Matrix (Fin n) (Fin n) K := fun r c => if r = j ∧ c = j then 1 else U r c
    { U := U
      y := Function.update s.y j 0
      isLi := Function.update s.isLi j false
      rank := s.rank - 1 }
  else s

/-- `assembleU`, LU.cpp:107-147; `rank0` is the value of the member `rank` before the call. -/
def assembleU (eps : K) (M : Matrix (Fin n) (Fin n) K) (y : Fin n → K) (rank0 : ℕ) : Work K n :=
  let s : Work K n := { U := M, y := y, isLi := fun _ => true, rank := rank0 }
  if n = 1 then s
  else (List.finRange n).reverse.foldl (discard eps) { s with rank := n }

/-- `solve(x)`, LU.cpp:85-104.  Returns the solution, the flags `is_li` in the order of the unknowns and the member `rank`.
    (`Q.applyThisOnTheLeft(v)` moves entry `j` to entry `q j`.) -/
def solve (eps : K) {A : Matrix (Fin n) (Fin n) K} (lu : FullLU A) (rank0 : ℕ) (b : Fin n → K) : (Fin n → K) × (Fin n → Bool) × ℕ :=
  let x := b ∘ lu.p
  let x := Tri.lowerSolve lu.matrixLU x
  let s := assembleU eps lu.matrixLU x rank0
  let x := Tri.upperSolve s.U s.y
  (x ∘ lu.q.symm, s.isLi ∘ lu.q.symm, s.rank)

/-- `LU::P()`, LU.cpp:198-201, as the map `i ↦ p i`. -/
def reportedP {A : Matrix (Fin n) (Fin n) K} (lu : FullLU A) : Equiv.Perm (Fin n) := lu.p
/-- `LU::Q()`, LU.cpp:203-206: it returns `lu.permutationP()`.  `(A*Q)(i,j) = A(i, σ j)` where `σ` is the index array of `Q`; the index array of `P` is `p⁻¹`. -/
def reportedQ {A : Matrix (Fin n) (Fin n) K} (lu : FullLU A) : Equiv.Perm (Fin n) := lu.p.symm

end Optima.LU
