import Mathlib.Algebra.Order.Field.Basic
import Mathlib.Tactic.NormNum

/-!
# Model of `minimizeGoldenSectionSearch` (`Optima/Utils.cpp:296-350`)

Exact arithmetic in an ordered field; the truncated golden ratio `0.61803398875` is kept as the literal of the code.
The `while` loop has a fuel argument (`none` = not finished within that many iterations).
-/

namespace Optima.Golden

variable {K : Type*} [Field K] [LinearOrder K]

/-- `const double phi = 0.61803398875`, Utils.cpp:303. -/
def phi : K := 61803398875 / 100000000000

/-- Local variables (Utils.cpp:305-315) plus the log of evaluated points. -/
structure St (K : Type*) where
  a : K
  b : K
  c : K
  d : K
  fc : K
  fd : K
  log : List K

/-- Loop body, Utils.cpp:319-334. -/
def step (f : K → K) (s : St K) : St K :=
  if s.fc < s.fd then
    let b := s.d
    let d := s.c
    let c := b - phi * (b - s.a)
    { s with b := b, d := d, c := c, fd := s.fc, fc := f c, log := c :: s.log }
  else
    let a := s.c
    let c := s.d
    let d := a + phi * (s.b - a)
    { s with a := a, c := c, d := d, fc := s.fd, fd := f d, log := d :: s.log }

/-- `while(std::abs(c - d) > tol)`, Utils.cpp:317-335. -/
def loop (f : K → K) (tol : K) : ℕ → St K → Option (St K)
  | 0, s => if tol < |s.c - s.d| then none else some s
  | fuel + 1, s => if tol < |s.c - s.d| then loop f tol fuel (step f s) else some s

/-- State on entry of the loop, Utils.cpp:305-315. -/
def init (f : K → K) : St K :=
  { a := 0, b := 1, c := 1 - phi, d := phi, fc := f (1 - phi), fd := f phi, log := [phi, 1 - phi] }

/-- `minimizeGoldenSectionSearch(f, tol)` on `[0,1]`, Utils.cpp:296-338: the result and the points evaluated. -/
def goldenUnit (f : K → K) (tol : K) (fuel : ℕ) : Option (K × List K) :=
  if |(1 - phi) - (phi : K)| < tol then some ((1 + 0) / 2, [])
  else (loop f tol fuel (init f)).map fun s => ((s.b + s.a) / 2, s.log)

/-- `minimizeGoldenSectionSearch(f, a, b, tol)`, Utils.cpp:341-350: result and points at which the *user's* function was evaluated. -/
def minimizeGoldenSectionSearch (f : K → K) (a b tol : K) (fuel : ℕ) : Option (K × List K) :=
  (goldenUnit (fun x => f (a + x * (b - a))) tol fuel).map fun r =>
    (a + r.1 * (b - a), r.2.map fun x => a + x * (b - a))

end Optima.Golden
