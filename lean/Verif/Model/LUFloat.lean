import Verif.Model.LU
import Verif.Model.FloatResidual

/-!
# `LU` in rounded arithmetic

`Eigen::FullPivLU`, the triangular solvers and `LU::solve` with every operation rounded.  `Model/LU.lean` is the model in exact arithmetic.

As in `Model/FloatResidual.lean` no order of the additions is assumed in the triangular solvers (Eigen works with blocks of columns) and in the factorisation; divisions are divisions (not products with the reciprocal).
`Factors.compute` and `solveInOrder` are one way of doing it: Gaussian elimination with complete pivoting and substitution, without blocks.
-/

namespace Optima.FLU

variable {p n : ℕ}

/-- The terms of `a - Σ f k * g k`, where `k` runs over the indices in `P`. -/
def minus (a : FNum p) (P : Fin n → Prop) [DecidablePred P] (f g : Fin n → FNum p) : Terms p := (a, 1) :: Terms.neg (((List.finRange n).filter fun k => P k).map fun k => (f k, g k))

/-- What `Eigen::FullPivLU<Matrix>::compute` (LU.cpp:74) gives for a square matrix of floating-point numbers: the matrix with both factors and the permutations, `(P*A*Q)(i,j) = A(rowPerm i, colPerm j)`.
    Gaussian elimination computes each entry of `U` as `A(i,j) - Σ L(i,k)*U(k,j)` and divides those of `L` by the pivot; by complete pivoting the pivot is at least as large as the entries it divides and as the rest of its row.
    Eigen stops at a zero pivot, where all entries left are zero; `0/0` is zero here. -/
structure Factors (A : Fin n → Fin n → FNum p) where
  rowPerm : Equiv.Perm (Fin n)
  colPerm : Equiv.Perm (Fin n)
  M : Fin n → Fin n → FNum p
  upper : ∀ i j, i ≤ j → Terms.Sums (minus (A (rowPerm i) (colPerm j)) (· < i) (M i) (fun k => M k j)) (M i j)
  lower : ∀ i j, j < i → ∃ s, Terms.Sums (minus (A (rowPerm i) (colPerm j)) (· < j) (M i) (fun k => M k j)) s ∧ s.abs ≤ (M j j).abs ∧ M i j = s / M j j
  dominant : ∀ i j, i ≤ j → (M i j).abs ≤ (M i i).abs

/-- One pass of the loop in `assembleU`, LU.cpp:127-146; see `LU.discard`. -/
def discard (s : LU.Work (FNum p) n) (j : Fin n) : LU.Work (FNum p) n :=
  if (s.U j j).abs ≤ FNum.epsilon * (s.y j).abs then
    let U : Fin n → Fin n → FNum p := fun r c => if r = j ∧ n - j.val ≤ c.val then 0 else s.U r c
    let U : Fin n → Fin n → FNum p := fun r c => if c = j ∧ r.val < j.val then 0 else U r c
    let U : Fin n → Fin n → FNum p := fun r c => if r = j ∧ c = j then 1 else U r c
    { U := U
      y := Function.update s.y j 0
      isLi := Function.update s.isLi j false
      rank := s.rank - 1 }
  else s

/-- `assembleU`, LU.cpp:107-147. -/
def assembleU (M : Fin n → Fin n → FNum p) (y : Fin n → FNum p) (rank0 : ℕ) : LU.Work (FNum p) n :=
  let s : LU.Work (FNum p) n := { U := M, y := y, isLi := fun _ => true, rank := rank0 }
  if n = 1 then s
  else (List.finRange n).reverse.foldl discard { s with rank := n }

/-- `LU::solve(x)`, LU.cpp:85-104: `y` is `x` after line 97 and `z` after line 99. -/
structure Solves {A : Fin n → Fin n → FNum p} (F : Factors A) (rank0 : ℕ) (b : Fin n → FNum p) where
  y : Fin n → FNum p
  z : Fin n → FNum p
  /-- `x = Lv.solve(P*x)` -/
  forward : ∀ i, Terms.Sums (minus (b (F.rowPerm i)) (· < i) (F.M i) y) (y i)
  /-- `assembleU(x); x = Uv.solve(x)` -/
  backward : ∀ i, ∃ s, Terms.Sums (minus ((assembleU F.M y rank0).y i) (i < ·) ((assembleU F.M y rank0).U i) z) s ∧ z i = s / (assembleU F.M y rank0).U i i

/-- The vector `x` at the end: `Q.applyThisOnTheLeft(x)`, LU.cpp:100, moves entry `j` to entry `colPerm j`. -/
def Solves.x {A : Fin n → Fin n → FNum p} {F : Factors A} {rank0 : ℕ} {b : Fin n → FNum p} (S : Solves F rank0 b) : Fin n → FNum p := S.z ∘ F.colPerm.symm

/-! ## Elimination without blocks -/

/-- The matrix and the permutations in `FullPivLU::computeInPlace`. -/
structure St (p n : ℕ) where
  M : Fin n → Fin n → FNum p
  rowPerm : Equiv.Perm (Fin n)
  colPerm : Equiv.Perm (Fin n)

/-- The position of the largest entry of the block below and to the right of `(k, k)`, the first one in column-major order. -/
def biggest (M : Fin n → Fin n → FNum p) (k : Fin n) : Fin n × Fin n :=
  (((List.finRange n).flatMap fun j => (List.finRange n).map fun i => (i, j)).filter fun ij => k ≤ ij.1 ∧ k ≤ ij.2).foldl (fun best ij => if (M best.1 best.2).abs < (M ij.1 ij.2).abs then ij else best) (k, k)

/-- One step of the elimination in `FullPivLU::computeInPlace` (called in LU.cpp:74): pivot search, exchanges, division of the column, update of the block. -/
def elim (s : St p n) (k : Fin n) : St p n :=
  let r := (biggest s.M k).1
  let c := (biggest s.M k).2
  if (s.M r c).abs = 0 then s
  else
    let M : Fin n → Fin n → FNum p := fun i j => s.M (Equiv.swap k r i) (Equiv.swap k c j)
    let M : Fin n → Fin n → FNum p := fun i j => if k < i ∧ j = k then M i k / M k k else M i j
    let M : Fin n → Fin n → FNum p := fun i j => if k < i ∧ k < j then M i j - M i k * M k j else M i j
    { M := M, rowPerm := (Equiv.swap k r).trans s.rowPerm, colPerm := (Equiv.swap k c).trans s.colPerm }

/-- The first `t` steps. -/
def elimUpTo (A : Fin n → Fin n → FNum p) : ℕ → St p n
  | 0 => { M := A, rowPerm := Equiv.refl _, colPerm := Equiv.refl _ }
  | t + 1 => if h : t < n then elim (elimUpTo A t) ⟨t, h⟩ else elimUpTo A t

/-- `a - Σ f k * g k`, where `k` runs over the list. -/
def subtract (a : FNum p) (l : List (Fin n)) (f g : Fin n → FNum p) : FNum p := l.foldl (fun s k => s - f k * g k) a

/-- Forward substitution: the first `t` unknowns. -/
def forwardUpTo (M : Fin n → Fin n → FNum p) (b : Fin n → FNum p) : ℕ → (Fin n → FNum p)
  | 0 => 0
  | t + 1 =>
    let y := forwardUpTo M b t
    if h : t < n then Function.update y ⟨t, h⟩ (subtract (b ⟨t, h⟩) ((List.finRange n).filter fun k => k < ⟨t, h⟩) (M ⟨t, h⟩) y) else y

/-- Backward substitution: the last `t` unknowns. -/
def backwardUpTo (U : Fin n → Fin n → FNum p) (y : Fin n → FNum p) : ℕ → (Fin n → FNum p)
  | 0 => 0
  | t + 1 =>
    let z := backwardUpTo U y t
    if h : t < n then
      let i : Fin n := ⟨n - 1 - t, by omega⟩
      Function.update z i (subtract (y i) ((List.finRange n).filter fun k => i < k) (U i) z / U i i)
    else z

end Optima.FLU
