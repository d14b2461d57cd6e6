import Mathlib.Algebra.Order.Field.Basic

/-!
# Model of `minimizeBrent` (`Optima/Utils.cpp:352-471`)

Exact arithmetic in an ordered field.  The literal `golden` (0.3819660) is a parameter.  The evaluation log is a ghost
field that records every point at which the user function has been called (latest first).
-/

namespace Optima.Brent

variable {K : Type*} [Field K] [LinearOrder K]

/-- The local variables of `minimizeBrent` (Utils.cpp:358-368) plus the log of evaluated points. -/
structure St (K : Type*) where
  min : K
  max : K
  x : K
  w : K
  v : K
  delta : K
  delta2 : K
  fx : K
  fw : K
  fv : K
  log : List K

/-- Initial assignments, Utils.cpp:370-372. -/
def init (f : K → K) (min max : K) : St K :=
  { min := min, max := max, x := max, w := max, v := max, delta := 0, delta2 := 0,
    fx := f max, fw := f max, fv := f max, log := [max] }

/-- Midpoint, Utils.cpp:379. -/
def St.mid (s : St K) : K := (s.min + s.max) / 2

/-- `fract1`, Utils.cpp:382. -/
def fract1 (tol : K) (s : St K) : K := tol * |s.x| + tol / 4

/-- `fract2`, Utils.cpp:383. -/
def fract2 (tol : K) (s : St K) : K := 2 * fract1 tol s

/-- The exit test, Utils.cpp:385. -/
def done (tol : K) (s : St K) : Prop := |s.x - s.mid| ≤ fract2 tol s - (s.max - s.min) / 2

instance (tol : K) (s : St K) : Decidable (done tol s) := by unfold done; infer_instance

/-- Golden section choice of `(delta2, delta)`, Utils.cpp:405-406, 420-421 and 420-421. -/
def goldenStep (golden : K) (s : St K) : K × K :=
  let delta2 := if s.mid ≤ s.x then s.min - s.x else s.max - s.x
  (delta2, golden * delta2)

/-- Numerator `p` and denominator `q` of the parabolic step, Utils.cpp:391-397. -/
def parabola (s : St K) : K × K :=
  let r := (s.x - s.w) * (s.fx - s.fv)
  let q := (s.x - s.v) * (s.fx - s.fw)
  let p := (s.x - s.v) * q - (s.x - s.w) * r
  let q := 2 * (q - r)
  let p := if 0 < q then -p else p
  (p, |q|)

/-- The new values of `(delta2, delta)`, Utils.cpp:388-422. -/
def deltas (golden tol : K) (s : St K) : K × K :=
  if fract1 tol s < |s.delta2| then
    let p := (parabola s).1
    let q := (parabola s).2
    let td := s.delta2
    if |q * td / 2| ≤ |p| ∨ p ≤ q * (s.min - s.x) ∨ q * (s.max - s.x) ≤ p then
      goldenStep golden s
    else
      let delta := p / q
      let u := s.x + delta
      (s.delta,
        if u - s.min < fract2 tol s ∨ s.max - u < fract2 tol s then
          (if s.mid - s.x < 0 then -|fract1 tol s| else |fract1 tol s|)
        else delta)
  else goldenStep golden s

/-- The next trial point `u`, Utils.cpp:424. -/
def trial (golden tol : K) (s : St K) : K :=
  let delta := (deltas golden tol s).2
  if fract1 tol s ≤ |delta| then s.x + delta
  else if 0 < delta then s.x + |fract1 tol s| else s.x - |fract1 tol s|

/-- Update of brackets and control points with the value `fu` at the trial point, Utils.cpp:426-463. -/
def absorb (golden tol : K) (s : St K) (fu : K) : St K :=
  let d := deltas golden tol s
  let u := trial golden tol s
  let s := { s with delta2 := d.1, delta := d.2, log := u :: s.log }
  if fu ≤ s.fx then
    { s with
      min := if s.x ≤ u then s.x else s.min
      max := if s.x ≤ u then s.max else s.x
      v := s.w, w := s.x, x := u, fv := s.fw, fw := s.fx, fx := fu }
  else
    let s' := { s with
      min := if u < s.x then u else s.min
      max := if u < s.x then s.max else u }
    if fu ≤ s.fw ∨ s.w = s.x then { s' with v := s.w, w := u, fv := s.fw, fw := fu }
    else if fu ≤ s.fv ∨ s.v = s.x ∨ s.v = s.w then { s' with v := u, fv := fu }
    else s'

/-- Evaluation at the trial point, Utils.cpp:424-463. -/
def update (f : K → K) (golden tol : K) (s : St K) : St K := absorb golden tol s (f (trial golden tol s))

/-- The `do ... while(--count)` loop, Utils.cpp:376-465, with `count` remaining bodies; the Boolean tells whether the loop was left through the
    tolerance test (`break`). -/
def loop (f : K → K) (golden tol : K) : ℕ → St K → St K × Bool
  | 0, s => (s, false)
  | count + 1, s => if done tol s then (s, true) else loop f golden tol count (update f golden tol s)

/-- Number of loop bodies executed at most: `maxiters`, except that `maxiters = 0` wraps around in `--count` (32-bit `unsigned`). -/
def runs (maxiters : ℕ) : ℕ := if maxiters = 0 then 2 ^ 32 else maxiters

/-- `minimizeBrent(f, min, max, tolerance, maxiters)`, Utils.cpp:352-471: final state (result is `.x`) and exit flag. -/
def minimizeBrent (f : K → K) (golden min max tol : K) (maxiters : ℕ) : St K × Bool :=
  loop f golden tol (runs maxiters) (init f min max)

/-! ## With a function that has a state and may throw -/

variable {σ : Type*}

/-- Initial assignments, Utils.cpp:370-372, for a function with state: `f s x` is the new state and the value, `none` an exception. -/
def initM (f : σ → K → Option (σ × K)) (s : σ) (min max : K) : Option (σ × St K) := (f s max).map fun r => (r.1, init (fun _ => r.2) min max)

/-- The loop, Utils.cpp:376-465, for a function with state. -/
def loopM (f : σ → K → Option (σ × K)) (golden tol : K) : ℕ → σ → St K → Option (σ × St K)
  | 0, s, b => some (s, b)
  | count + 1, s, b => if done tol b then some (s, b) else
    match f s (trial golden tol b) with
    | none => none
    | some (s', fu) => loopM f golden tol count s' (absorb golden tol b fu)

/-- `minimizeBrent`, Utils.cpp:352-471, for a function with state: the last state and the final variables (the result is `.x`). -/
def minimizeBrentM (f : σ → K → Option (σ × K)) (golden min max tol : K) (maxiters : ℕ) (s : σ) : Option (σ × St K) :=
  match initM f s min max with
  | none => none
  | some (s', b) => loopM f golden tol (runs maxiters) s' b

end Optima.Brent
