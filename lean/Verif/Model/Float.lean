import Mathlib.Algebra.Order.Field.Rat
import Mathlib.Algebra.Order.Field.Power
import Mathlib.Data.Rat.Floor
import Mathlib.Data.List.FinRange
import Mathlib.Tactic.Linarith
import Mathlib.Tactic.Ring
import Mathlib.Tactic.FieldSimp
import Mathlib.Tactic.Positivity

/-!
# Model of `double`

The arithmetic of the C++ code is that of IEEE 754 `double`: each operation gives the exact result rounded to a number with 53 significant bits, to the nearest and to even in case of a tie.  `FNum p` are the numbers with `p` significant
bits.

Simplifications: the exponent is not bounded, so there is no overflow, no underflow, no infinity and no NaN (see `Model/NotANumber.lean` for NaN); every operation is rounded by itself (no fused multiply-add, no extended precision).
-/

namespace Optima

namespace Fl

/-- `⌊log₂ |x|⌋` for `x ≠ 0`. -/
def expo (x : ℚ) : ℤ :=
  let k : ℤ := (Nat.log2 x.num.natAbs : ℤ) - (Nat.log2 x.den : ℤ)
  if (2 : ℚ) ^ k ≤ |x| then k else k - 1

/-- The nearest integer, the even one in case of a tie. -/
def roundEven (q : ℚ) : ℤ :=
  let n := ⌊q⌋
  if q - n < 1 / 2 then n
  else if 1 / 2 < q - n then n + 1
  else if n % 2 = 0 then n else n + 1

/-- The spacing of the numbers with `p` significant bits that are as large as `x`. -/
def ulp (p : ℕ) (x : ℚ) : ℚ := (2 : ℚ) ^ (expo x - p + 1)

/-- Rounding to `p` significant bits, to nearest, ties to even. -/
def rnd (p : ℕ) (x : ℚ) : ℚ := if x = 0 then 0 else roundEven (x / ulp p x) * ulp p x

/-- A number with at most `p` significant bits. -/
def Repr (p : ℕ) (x : ℚ) : Prop := ∃ m k : ℤ, |m| ≤ 2 ^ p ∧ x = m * (2 : ℚ) ^ k

example : rnd 53 (1 / 3) = 6004799503160661 / 2 ^ 54 := by decide +kernel
example : rnd 53 (1 / 10) = 3602879701896397 / 2 ^ 55 := by decide +kernel
example : rnd 53 (2 ^ 53 + 1) = 2 ^ 53 ∧ rnd 53 (2 ^ 53 + 3) = 2 ^ 53 + 4 := by decide +kernel
example : rnd 53 (-10 / 3) = -7505999378950827 / 2 ^ 51 := by decide +kernel

end Fl

/-- The numbers with `p` significant bits; `FNum 53` is `double`. -/
structure FNum (p : ℕ) where
  val : ℚ
  isRnd : ∃ y, Fl.rnd p y = val

namespace FNum

variable {p : ℕ}

/-- The number nearest to `x`. -/
def fl (x : ℚ) : FNum p := ⟨Fl.rnd p x, x, rfl⟩

theorem val_injective : Function.Injective (FNum.val (p := p)) := fun a b h => by
  cases a; cases b; cases h; rfl

instance : Zero (FNum p) := ⟨fl 0⟩
instance : One (FNum p) := ⟨fl 1⟩
instance : Neg (FNum p) := ⟨fun a => fl (-a.val)⟩
instance : Add (FNum p) := ⟨fun a b => fl (a.val + b.val)⟩
instance : Sub (FNum p) := ⟨fun a b => fl (a.val - b.val)⟩
instance : Mul (FNum p) := ⟨fun a b => fl (a.val * b.val)⟩
/-- `a/0`, which is infinite or NaN in C++, is `0`. -/
instance : Div (FNum p) := ⟨fun a b => fl (a.val / b.val)⟩
instance : LinearOrder (FNum p) := LinearOrder.lift' FNum.val val_injective

/-- `std::abs` -/
def abs (a : FNum p) : FNum p := if a.val < 0 then 0 - a else a

/-- A sum of products, in the order of the entries and starting with zero: the order of the column-major matrix-vector kernel of Eigen 3.4. -/
def dot {n : ℕ} (a b : Fin n → FNum p) : FNum p := (List.finRange n).foldl (fun s j => s + a j * b j) 0

/-- `std::numeric_limits<double>::epsilon()` for `p = 53`. -/
def epsilon : FNum p := fl (2 / 2 ^ p)

/-- `multiplyMatrixVectorWithoutResidualRoundOffError(A, x)`, Utils.cpp:561-579, in rounded arithmetic. -/
def multiplyClean {n : ℕ} {ι : Type*} (A : ι → Fin n → FNum p) (x : Fin n → FNum p) : ι → FNum p := fun i =>
  let b := dot (A i) x
  let ref := dot (fun j => (A i j).abs) (fun j => (x j).abs)
  if b.abs < ref * epsilon then 0 else b

end FNum

/-- `double` -/
abbrev Double := FNum 53

end Optima
