import Mathlib.Algebra.Field.Basic
import Mathlib.Data.Matrix.Mul
import Mathlib.Data.List.FinRange

/-!
# Model of Eigen's triangular solvers

`triangularView<UnitLower>().solve`, `triangularView<Upper>().solve`, as called in Echelonizer.cpp:137-139, 154-159 and LU.cpp:91-99, by substitution (Eigen's blocked loops compute the same values in exact arithmetic).
-/

namespace Optima.Tri

variable {K : Type*} [Field K] {n : ℕ}

/-- Forward substitution (Echelonizer.cpp:154, LU.cpp:97) with a unit lower triangular matrix: the first `k` unknowns. -/
def lowerUpTo (L : Matrix (Fin n) (Fin n) K) (b : Fin n → K) : ℕ → (Fin n → K)
  | 0 => 0
  | k + 1 =>
    let x := lowerUpTo L b k
    if h : k < n then Function.update x ⟨k, h⟩ (b ⟨k, h⟩ - ∑ j, if j.val < k then L ⟨k, h⟩ j * x j else 0) else x

/-- `L.triangularView<UnitLower>().solve(b)`, Echelonizer.cpp:154, LU.cpp:97. -/
def lowerSolve (L : Matrix (Fin n) (Fin n) K) (b : Fin n → K) : Fin n → K := lowerUpTo L b n

/-- Backward substitution (Echelonizer.cpp:155, 159, LU.cpp:99) with an upper triangular matrix: the last `k` unknowns. -/
def upperUpTo (U : Matrix (Fin n) (Fin n) K) (b : Fin n → K) : ℕ → (Fin n → K)
  | 0 => 0
  | k + 1 =>
    let x := upperUpTo U b k
    if h : k < n then
      let i : Fin n := ⟨n - 1 - k, by omega⟩
      Function.update x i ((b i - ∑ j, if i < j then U i j * x j else 0) / U i i)
    else x

/-- `U.triangularView<Upper>().solve(b)`, Echelonizer.cpp:155, 159, LU.cpp:99. -/
def upperSolve (U : Matrix (Fin n) (Fin n) K) (b : Fin n → K) : Fin n → K := upperUpTo U b n

/-- `solve` applied to every column of a matrix. -/
def solveCols {ι : Type*} (solve : (Fin n → K) → (Fin n → K)) (X : Matrix (Fin n) ι K) : Matrix (Fin n) ι K :=
  fun i c => solve (fun r => X r c) i

end Optima.Tri
