import Verif.Model.Golden
import Verif.Model.BrentFloat

/-!
# Model of `minimizeGoldenSectionSearch` for any numbers and any function

The code of `Model/Golden.lean` (`Optima/Utils.cpp:296-350`) for a type of numbers with any arithmetic operations, and for a function with state that may throw.  For ordered fields and pure functions it is the program of
`Model/Golden.lean`: `minimizeM_exact` in `Props/GoldenFloat.lean`.

Simplifications: those of `Model/Float.lean` for `double`; the literal `2.0` is the sum `1 + 1`; the `while` loop has a fuel argument.
-/

namespace Optima.Golden.Num

open Optima.Brent.Num (fabs two)

variable {K : Type*} [Zero K] [One K] [Neg K] [Add K] [Sub K] [Mul K] [Div K] [LinearOrder K] {σ : Type*}

/-- How a search ends: `more` is a loop not finished with the fuel given, `threw` an exception of the function; `log` are the points at which the function was called, the last one first. -/
inductive Res (σ K V : Type*)
  | more
  | threw (log : List K)
  | ret (s : σ) (v : V) (log : List K)

/-- The point at which the function is called next, Utils.cpp:323, 331. -/
def next (phi : K) (g : St K) : K := if g.fc < g.fd then g.d - phi * (g.d - g.a) else g.c + phi * (g.b - g.c)

/-- Loop body with the value `y` of the function at the new point, Utils.cpp:319-334. -/
def absorb (phi : K) (g : St K) (y : K) : St K :=
  if g.fc < g.fd then { a := g.a, b := g.d, c := next phi g, d := g.c, fc := y, fd := g.fc, log := next phi g :: g.log }
  else { a := g.c, b := g.b, c := g.d, d := next phi g, fc := g.fd, fd := y, log := next phi g :: g.log }

/-- `while(std::abs(c - d) > tol)`, Utils.cpp:317-335. -/
def loopM (f : σ → K → Option (σ × K)) (phi tol : K) : ℕ → σ → St K → Res σ K (St K)
  | 0, s, g => if tol < fabs (g.c - g.d) then .more else .ret s g g.log
  | fuel + 1, s, g => if tol < fabs (g.c - g.d) then
      match f s (next phi g) with
      | none => .threw (next phi g :: g.log)
      | some (s', y) => loopM f phi tol fuel s' (absorb phi g y)
    else .ret s g g.log

/-- `minimizeGoldenSectionSearch(f, tol)` on `[0,1]`, Utils.cpp:296-338. -/
def goldenUnitM (f : σ → K → Option (σ × K)) (phi tol : K) (fuel : ℕ) (s : σ) : Res σ K K :=
  if fabs ((1 - phi) - phi) < tol then .ret s ((1 + 0) / two) []
  else match f s (1 - phi) with
    | none => .threw [1 - phi]
    | some (s, fc) => match f s phi with
      | none => .threw [phi, 1 - phi]
      | some (s, fd) => match loopM f phi tol fuel s { a := 0, b := 1, c := 1 - phi, d := phi, fc := fc, fd := fd, log := [phi, 1 - phi] } with
        | .more => .more
        | .threw log => .threw log
        | .ret s g log => .ret s ((g.b + g.a) / two) log

/-- `minimizeGoldenSectionSearch(f, a, b, tol)`, Utils.cpp:341-350; the log has the points at which the *user's* function was called. -/
def minimizeM (f : σ → K → Option (σ × K)) (phi a b tol : K) (fuel : ℕ) (s : σ) : Res σ K K :=
  match goldenUnitM (fun s x => f s (a + x * (b - a))) phi tol fuel s with
  | .more => .more
  | .threw log => .threw (log.map fun x => a + x * (b - a))
  | .ret s x log => .ret s (a + x * (b - a)) (log.map fun x => a + x * (b - a))

/-- `const double phi = 0.61803398875`, Utils.cpp:303. -/
def phiD : Double := .fl (61803398875 / 100000000000)

end Optima.Golden.Num
