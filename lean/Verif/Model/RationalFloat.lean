import Verif.Model.Rational
import Verif.Model.BrentFloat

/-!
# Model of `farey`, `rational` and `rationalize` for any numbers

The code of `Model/Rational.lean` (`Optima/Utils.cpp:481-532`) for a type of numbers with any division and any conversion from the integers.  For ordered fields it is the program of `Model/Rational.lean`: `ratio_field` in
`Props/RationalFloat.lean`.

Simplifications: those of `Model/Float.lean` for `double`; unbounded integers for `long` (numerators and denominators never exceed `2n < 2³³`).
-/

namespace Optima.Rational.Num

open Optima.Brent.Num (fabs)

variable {K : Type*} [Zero K] [One K] [Neg K] [Div K] [LinearOrder K]

/-- The `while` loop of `farey`, Utils.cpp:489-507, with a fuel argument; `cast` is the conversion of a `long` to a `double`, explicit for `double(a+c)` and implicit for `b+d`. -/
def fareyLoop (cast : ℤ → K) (x : K) (n : ℕ) : ℕ → ℕ → ℕ → ℕ → ℕ → Option (ℕ × ℕ)
  | 0, _, _, _, _ => none
  | fuel + 1, a, b, c, d =>
    if b ≤ n ∧ d ≤ n then
      if x = cast (a + c : ℕ) / cast (b + d : ℕ) then
        if b + d ≤ n then some (a + c, b + d)
        else if b < d then some (c, d)
        else some (a, b)
      else if cast (a + c : ℕ) / cast (b + d : ℕ) < x then fareyLoop cast x n fuel (a + c) (b + d) c d
      else fareyLoop cast x n fuel a b (a + c) (b + d)
    else if n < b then some (c, d) else some (a, b)

/-- `farey(x, n)`, Utils.cpp:485-508. -/
def farey (cast : ℤ → K) (x : K) (n : ℕ) : Option (ℕ × ℕ) := fareyLoop cast x n (2 * n + 2) 0 1 1 1

/-- `rational(x, n)`, Utils.cpp:510-521. -/
def rational (cast : ℤ → K) (x : K) (n : ℕ) : Option (ℤ × ℤ) :=
  let sign : ℤ := if 0 ≤ x then 1 else -1
  if 1 < fabs x then
    (farey cast (1 / fabs x) n).map fun ab => (sign * (ab.2 : ℤ), (ab.1 : ℤ))
  else
    (farey cast (fabs x) n).map fun ab => (sign * (ab.1 : ℤ), (ab.2 : ℤ))

/-- The lambda `ratio` in `rationalize`, Utils.cpp:525-529; `none` is the non-finite outcome (inf or NaN) of a division by a zero denominator. -/
def ratio (cast : ℤ → K) (x : K) (n : ℕ) : Option K :=
  match rational cast x n with
  | none => none
  | some (p, q) => if q = 0 then none else some (cast p / cast q)

/-- `rationalize(data, size, maxden)`, Utils.cpp:523-532. -/
def rationalize (cast : ℤ → K) (data : List K) (maxden : ℕ) : List (Option K) := data.map fun v => ratio cast v maxden

/-- The conversion of a `long` to a `double`: rounded. -/
def toDouble (z : ℤ) : Double := .fl z

end Optima.Rational.Num
