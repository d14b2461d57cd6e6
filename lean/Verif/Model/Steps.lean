import Mathlib.Algebra.Order.Field.Basic
import Mathlib.Data.List.FinRange
import Mathlib.Data.Fin.VecNotation

/-!
# Model of the step-length utilities of `Optima/Utils.cpp` (lines 26-247)

Simplifications: `double` is an element of a linearly ordered type with arbitrary operations for the functions up to `fractionToTheBoundary` (so rounded arithmetic is included, see C65), and of an arbitrary linearly
ordered field (exact arithmetic) for the others; no NaN.
A lower bound is an `Option K` with `none` = `-inf`; an upper bound is an `Option K` with `none` = `+inf`.
A `for` loop over the entries is a left fold over `List.finRange n`.
The `assert`s on equal sizes are enforced by the types; the `assert`s `plower <= p <= pupper` are the
explicit hypothesis `InBox` of the theorems.
-/

namespace Optima.Steps

section generic

variable {K : Type*} [Zero K] [One K] [Neg K] [Add K] [Sub K] [Mul K] [Div K] [LinearOrder K]

/-- A possibly infinite bound: `none` is the infinite bound (`isfinite(bound)` is `isSome`). -/
abbrev Bound (K : Type*) := Option K

/-- `std::max(x, lower)` for a possibly `-inf` lower bound (`p.cwiseMax(plower)`, Utils.cpp:139,157). -/
def maxLower (x : K) : Bound K → K
  | none => x
  | some l => max x l

/-- `std::min(x, upper)` for a possibly `+inf` upper bound (`p.cwiseMin(pupper)`, Utils.cpp:140,158). -/
def minUpper (x : K) : Bound K → K
  | none => x
  | some u => min x u

/-- `isfinite(plower[i]) && x < plower[i]` (Utils.cpp:45, 99). -/
def belowLower (x : K) : Bound K → Bool
  | none => false
  | some l => decide (x < l)

/-- `isfinite(pupper[i]) && x > pupper[i]` (Utils.cpp:51, 110). -/
def aboveUpper (x : K) : Bound K → Bool
  | none => false
  | some u => decide (u < x)

/-- The finite value of a bound, used only under `belowLower`/`aboveUpper` which imply it is finite. -/
def bval (b : Bound K) : K := b.getD 0

/-- `largestStep(p, dp)`, Utils.cpp:26-34.  `none` is `+inf`.
    For `dp[i] = 0` the C++ quotient is `±inf` or NaN and fails `res > 0 && res < alpha`; in Lean
    `x / 0 = 0` fails `0 < res`, so the same branch is taken. -/
def largestStep0 {n : ℕ} (p dp : Fin n → K) : Option K :=
  (List.finRange n).foldl (fun alpha i =>
    let res := -p i / dp i
    match alpha with
    | none => if 0 < res then some res else none
    | some a => if 0 < res ∧ res < a then some res else some a) none

/-- `min(alpha, alphai)` where `alpha` may be `+inf` (`none`). -/
def minInf (alpha : Option K) (a : K) : Option K :=
  match alpha with
  | none => some a
  | some b => some (min b a)

/-- Loop body of the bounded `largestStep`, Utils.cpp:41-57. -/
def largestStepBody {n : ℕ} (p dp : Fin n → K) (lo up : Fin n → Bound K)
    (alpha : Option K) (i : Fin n) : Option K :=
  if belowLower (p i + dp i) (lo i) then minInf alpha ((bval (lo i) - p i) / dp i)
  else if aboveUpper (p i + dp i) (up i) then minInf alpha ((bval (up i) - p i) / dp i)
  else alpha

/-- `largestStep(p, dp, plower, pupper)`, Utils.cpp:36-59.  `none` is `+inf`. -/
def largestStep {n : ℕ} (p dp : Fin n → K) (lo up : Fin n → Bound K) : Option K :=
  (List.finRange n).foldl (largestStepBody p dp lo up) none

/-- Local variables of the loop of `performConservativeStep`, Utils.cpp:72-82: `j` (`p.size()` is `none`),
    `alpha` and `lu`. -/
structure ConsState (n : ℕ) (K : Type*) where
  j : Option (Fin n)
  alpha : K
  lu : ℤ

/-- Loop body of `performConservativeStep`, Utils.cpp:85-121. -/
def consBody {n : ℕ} (p dp : Fin n → K) (lo up : Fin n → Bound K)
    (st : ConsState n K) (i : Fin n) : ConsState n K :=
  if lo i = some (p i) ∧ dp i < 0 then st
  else if up i = some (p i) ∧ 0 < dp i then st
  else if belowLower (p i + dp i) (lo i) then
    let alphai := (bval (lo i) - p i) / dp i
    if alphai < st.alpha then ⟨some i, min alphai 1, -1⟩ else st
  else if aboveUpper (p i + dp i) (up i) then
    let alphai := (bval (up i) - p i) / dp i
    if alphai < st.alpha then ⟨some i, min alphai 1, 1⟩ else st
  else st

/-- The whole loop of `performConservativeStep`. -/
def consLoop {n : ℕ} (p dp : Fin n → K) (lo up : Fin n → Bound K) : ConsState n K :=
  (List.finRange n).foldl (consBody p dp lo up) ⟨none, 1, 0⟩

/-- `performConservativeStep(p, dp, plower, pupper)`, Utils.cpp:61-143.
    Returns the new value of `p` and the returned factor `alpha`. -/
def performConservativeStep {n : ℕ} (p dp : Fin n → K) (lo up : Fin n → Bound K) : (Fin n → K) × K :=
  let st := consLoop p dp lo up
  let p1 : Fin n → K :=
    if st.lu ≠ 0 then
      fun i =>
        if st.j = some i then (if st.lu = -1 then bval (lo i) else bval (up i))
        else p i + st.alpha * dp i
    else fun i => p i + dp i
  let p2 := fun i => maxLower (p1 i) (lo i)
  let p3 := fun i => minUpper (p2 i) (up i)
  (p3, st.alpha)

/-- `performAggressiveStep(p, dp, plower, pupper)`, Utils.cpp:145-159. -/
def performAggressiveStep {n : ℕ} (p dp : Fin n → K) (lo up : Fin n → Bound K) : Fin n → K :=
  fun i => minUpper (maxLower (p i + dp i) (lo i)) (up i)

/-- Loop body of `stepUpToBounds`, Utils.cpp:167-187 (declared only in the .cpp file).
    The last statement `if(pi > pupper[i]) alpha = res[i]` is kept; with an infinite upper bound the
    comparison `pi > +inf` is false. -/
def stepUpToBoundsBody {n : ℕ} (p dp : Fin n → K) (lo up : Fin n → Bound K)
    (alpha : Option K) (i : Fin n) : Option K :=
  if belowLower (p i + dp i) (lo i) then minInf alpha ((bval (lo i) - p i) / dp i)
  else if aboveUpper (p i + dp i) (up i) then minInf alpha ((bval (up i) - p i) / dp i)
  else match up i with
    | none => alpha
    | some u => if u < p i + dp i then some (-p i / dp i) else alpha

/-- `stepUpToBounds`, Utils.cpp:161-189. -/
def stepUpToBounds {n : ℕ} (p dp : Fin n → K) (lo up : Fin n → Bound K) : Option K :=
  (List.finRange n).foldl (stepUpToBoundsBody p dp lo up) none

/-- Loop body of `fractionToTheBoundary(p, dp, tau, ilimiting)`, Utils.cpp:201-212.
    The state is `(alpha_max, ilimiting)`, with `ilimiting = p.size()` modelled by `none`. -/
def fracBody {n : ℕ} (p dp : Fin n → K) (tau : K) (st : K × Option (Fin n)) (i : Fin n) :
    K × Option (Fin n) :=
  if dp i < 0 then
    let t := -tau * p i / dp i
    if t < st.1 then (t, some i) else st
  else st

/-- `fractionToTheBoundary(p, dp, tau, ilimiting)`, Utils.cpp:197-215 (also 191-195, which drops the index). -/
def fractionToTheBoundary {n : ℕ} (p dp : Fin n → K) (tau : K) : K × Option (Fin n) :=
  (List.finRange n).foldl (fracBody p dp tau) (1, none)

end generic

variable {K : Type*} [Field K] [LinearOrder K]

/-- Loop body of `fractionToTheBoundary(p, dp, C, r, tau)`, Utils.cpp:227-236; `cp i = C.row(i).dot(p)`,
    `cdp i = C.row(i).dot(dp)`. -/
def fracCBody {m : ℕ} (cp cdp r : Fin m → K) (tau : K) (alpha : K) (i : Fin m) : K :=
  if cdp i < 0 then
    let t := -tau * (cp i - r i) / cdp i
    if t < alpha then t else alpha
  else alpha

/-- `fractionToTheBoundary(p, dp, C, r, tau)`, Utils.cpp:217-239 (for `m = 0` the fold is empty and returns 1, as the
    early return does). -/
def fractionToTheBoundaryC {m n : ℕ} (p dp : Fin n → K) (C : Fin m → Fin n → K) (r : Fin m → K) (tau : K) : K :=
  (List.finRange m).foldl
    (fracCBody (fun i => ((List.finRange n).map fun j => C i j * p j).sum)
               (fun i => ((List.finRange n).map fun j => C i j * dp j).sum) r tau) 1

/-- `fractionToTheLowerBoundary(p, dp, lower, tau)`, Utils.cpp:241-247. -/
def fractionToTheLowerBoundary {n : ℕ} (p dp lower : Fin n → K) (tau : K) : K :=
  (List.finRange n).foldl
    (fun alpha i => if dp i < 0 then min alpha (-tau * (p i - lower i) / dp i) else alpha) 1

/-- `lessThan(lhs, rhs, baseval)`, Utils.cpp:249-253; `eps` is the machine epsilon. -/
def lessThan (eps lhs rhs baseval : K) : Bool := decide (lhs < rhs + 10 * eps * |baseval|)

/-- `greaterThan(lhs, rhs, baseval)`, Utils.cpp:255-259. -/
def greaterThan (eps lhs rhs baseval : K) : Bool := decide (rhs - 10 * eps * |baseval| < lhs)

end Optima.Steps
