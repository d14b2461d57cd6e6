import Verif.Model.Brent
import Verif.Model.Float

/-!
# Model of `minimizeBrent` for any numbers

The code of `Model/Brent.lean` (`Optima/Utils.cpp:352-471`) for a type of numbers with any arithmetic operations, for example `double` (`FNum 53`) with an operation rounded at each place where the code has one.  For ordered fields it is the
program of `Model/Brent.lean`: `minimizeBrentM_exact` in `Props/BrentFloat.lean`.

Simplifications: those of `Model/Float.lean` for `double`; the literals `2` and `4` are the sums `1 + 1` and `2 + 2`.
-/

namespace Optima.Brent.Num

variable {K : Type*} [Zero K] [One K] [Neg K] [Add K] [Sub K] [Mul K] [Div K] [LinearOrder K]

/-- `fabs` -/
def fabs (a : K) : K := if a < 0 then -a else a

/-- The literal `2`. -/
def two : K := 1 + 1

/-- The literal `4`. -/
def four : K := two + two

/-- Initial assignments, Utils.cpp:370-372; `y` is the value `f(max)`. -/
def init (y min max : K) : St K :=
  { min := min, max := max, x := max, w := max, v := max, delta := 0, delta2 := 0, fx := y, fw := y, fv := y, log := [max] }

/-- Midpoint, Utils.cpp:379. -/
def mid (s : St K) : K := (s.min + s.max) / two

/-- `fract1`, Utils.cpp:382. -/
def fract1 (tol : K) (s : St K) : K := tol * fabs s.x + tol / four

/-- `fract2`, Utils.cpp:383. -/
def fract2 (tol : K) (s : St K) : K := two * fract1 tol s

/-- The exit test, Utils.cpp:385. -/
def done (tol : K) (s : St K) : Prop := fabs (s.x - mid s) ≤ fract2 tol s - (s.max - s.min) / two

instance (tol : K) (s : St K) : Decidable (done tol s) := by unfold done; infer_instance

/-- Golden section choice of `(delta2, delta)`, Utils.cpp:405-406 and 420-421. -/
def goldenStep (golden : K) (s : St K) : K × K :=
  let delta2 := if mid s ≤ s.x then s.min - s.x else s.max - s.x
  (delta2, golden * delta2)

/-- Numerator `p` and denominator `q` of the parabolic step, Utils.cpp:391-397. -/
def parabola (s : St K) : K × K :=
  let r := (s.x - s.w) * (s.fx - s.fv)
  let q := (s.x - s.v) * (s.fx - s.fw)
  let p := (s.x - s.v) * q - (s.x - s.w) * r
  let q := two * (q - r)
  let p := if 0 < q then -p else p
  (p, fabs q)

/-- The new values of `(delta2, delta)`, Utils.cpp:388-422. -/
def deltas (golden tol : K) (s : St K) : K × K :=
  if fract1 tol s < fabs s.delta2 then
    let p := (parabola s).1
    let q := (parabola s).2
    let td := s.delta2
    if fabs (q * td / two) ≤ fabs p ∨ p ≤ q * (s.min - s.x) ∨ q * (s.max - s.x) ≤ p then
      goldenStep golden s
    else
      let delta := p / q
      let u := s.x + delta
      (s.delta,
        if u - s.min < fract2 tol s ∨ s.max - u < fract2 tol s then
          (if mid s - s.x < 0 then -fabs (fract1 tol s) else fabs (fract1 tol s))
        else delta)
  else goldenStep golden s

/-- The next trial point `u`, Utils.cpp:424. -/
def trial (golden tol : K) (s : St K) : K :=
  let delta := (deltas golden tol s).2
  if fract1 tol s ≤ fabs delta then s.x + delta
  else if 0 < delta then s.x + fabs (fract1 tol s) else s.x - fabs (fract1 tol s)

/-- Update of brackets and control points with the value `fu` at the trial point, Utils.cpp:426-463. -/
def absorb (golden tol : K) (s : St K) (fu : K) : St K :=
  let d := deltas golden tol s
  let u := trial golden tol s
  let s := { s with delta2 := d.1, delta := d.2, log := u :: s.log }
  if fu ≤ s.fx then
    { s with
      min := if s.x ≤ u then s.x else s.min
      max := if s.x ≤ u then s.max else s.x
      v := s.w, w := s.x, x := u, fv := s.fw, fw := s.fx, fx := fu }
  else
    let s' := { s with
      min := if u < s.x then u else s.min
      max := if u < s.x then s.max else u }
    if fu ≤ s.fw ∨ s.w = s.x then { s' with v := s.w, w := u, fv := s.fw, fw := fu }
    else if fu ≤ s.fv ∨ s.v = s.x ∨ s.v = s.w then { s' with v := u, fv := fu }
    else s'

variable {σ : Type*}

/-- The `do ... while(--count)` loop, Utils.cpp:376-465, for a function with state: `f s x` is the new state and the value, `none` an exception. -/
def loopM (f : σ → K → Option (σ × K)) (golden tol : K) : ℕ → σ → St K → Option (σ × St K)
  | 0, s, b => some (s, b)
  | count + 1, s, b => if done tol b then some (s, b) else
    match f s (trial golden tol b) with
    | none => none
    | some (s', fu) => loopM f golden tol count s' (absorb golden tol b fu)

/-- `minimizeBrent`, Utils.cpp:352-471: the last state and the final variables (the result is `.x`). -/
def minimizeBrentM (f : σ → K → Option (σ × K)) (golden min max tol : K) (maxiters : ℕ) (s : σ) : Option (σ × St K) :=
  match f s max with
  | none => none
  | some (s', y) => loopM f golden tol (runs maxiters) s' (init y min max)

end Optima.Brent.Num
