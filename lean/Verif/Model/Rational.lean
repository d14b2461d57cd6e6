import Mathlib.Algebra.Order.Field.Basic
import Mathlib.Data.Rat.Cast.Order

/-!
# Model of `farey`, `rational` and `rationalize` (`Optima/Utils.cpp:481-532`)

Simplifications: exact arithmetic in an ordered field for `double` (in particular the mediant is computed exactly),
unbounded naturals for the non-negative `long` numerators/denominators (they never exceed `2n`).
-/

namespace Optima.Rational

variable {K : Type*} [Field K] [LinearOrder K]

/-- The `while` loop of `farey`, Utils.cpp:489-507, with a fuel argument; `none` = out of fuel (i.e. the loop has not ended
    after that many iterations).  Theorem `farey_terminates` shows that the fuel given in `farey` always suffices. -/
def fareyLoop (x : K) (n : ℕ) : ℕ → ℕ → ℕ → ℕ → ℕ → Option (ℕ × ℕ)
  | 0, _, _, _, _ => none
  | fuel + 1, a, b, c, d =>
    if b ≤ n ∧ d ≤ n then
      let mediant : K := ((a + c : ℕ) : K) / ((b + d : ℕ) : K)
      if x = mediant then
        if b + d ≤ n then some (a + c, b + d)
        else if b < d then some (c, d)
        else some (a, b)
      else if mediant < x then fareyLoop x n fuel (a + c) (b + d) c d
      else fareyLoop x n fuel a b (a + c) (b + d)
    else if n < b then some (c, d) else some (a, b)

/-- `farey(x, n)`, Utils.cpp:485-508, started with `a/b = 0/1` and `c/d = 1/1`. -/
def farey (x : K) (n : ℕ) : Option (ℕ × ℕ) := fareyLoop x n (2 * n + 2) 0 1 1 1

/-- `rational(x, n)`, Utils.cpp:510-521. -/
def rational (x : K) (n : ℕ) : Option (ℤ × ℤ) :=
  let sign : ℤ := if 0 ≤ x then 1 else -1
  if 1 < |x| then
    (farey (1 / |x|) n).map fun ab => (sign * (ab.2 : ℤ), (ab.1 : ℤ))
  else
    (farey |x| n).map fun ab => (sign * (ab.1 : ℤ), (ab.2 : ℤ))

/-- The lambda `ratio` in `rationalize`, Utils.cpp:525-529: the quotient numerator/denominator as a double.  `none` stands for the
    non-finite outcome (inf or NaN) of a division by a zero denominator. -/
def ratio (x : K) (n : ℕ) : Option K :=
  match rational x n with
  | none => none
  | some (p, q) => if q = 0 then none else some ((p : K) / (q : K))

/-- `rationalize(data, size, maxden)`, Utils.cpp:523-532. -/
def rationalize (data : List K) (maxden : ℕ) : List (Option K) := data.map fun v => ratio v maxden

end Optima.Rational
