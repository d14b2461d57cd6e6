import Verif.Model.Brent
import Verif.Model.MasterSolver
import Mathlib.Algebra.BigOperators.Group.Finset.Basic

/-!
# Model of `LineSearch.cpp`

No other part of the library calls it: the call in ErrorControl.cpp is commented out.
-/

namespace Optima

variable {K : Type*} [Field K] [LinearOrder K] {nx np nw : ℕ}

/-- `MasterVectorBase::dot`, MasterVector.hpp:122-125. -/
def MVec.dot (a b : MVec K nx np nw) : K := (∑ i, a.x i * b.x i) + (∑ i, a.p i * b.p i) + ∑ i, a.w i * b.w i

/-- `u - uo`, LineSearch.cpp:62. -/
def MVec.minus (u uo : MVec K nx np nw) : MVec K nx np nw := { x := fun i => u.x i - uo.x i, p := fun i => u.p i - uo.p i, w := fun i => u.w i - uo.w i }

/-- `uo*(1 - alpha) + alpha*u`, LineSearch.cpp:77 and 89. -/
def MVec.mix (alpha : K) (uo u : MVec K nx np nw) : MVec K nx np nw :=
  { x := fun i => uo.x i * (1 - alpha) + alpha * u.x i, p := fun i => uo.p i * (1 - alpha) + alpha * u.p i, w := fun i => uo.w i * (1 - alpha) + alpha * u.w i }

/-- `isDescentDirection`, LineSearch.cpp:57-66. -/
def isDescentDirection (Jm : MasterMatrix K nx np nw) (Fm uo u : MVec K nx np nw) : Bool :=
  let du := u.minus uo
  let Jdu := Jm.mul du
  let slope := Fm.dot Jdu
  decide (slope < 0)

/-- The assertions of LineSearch.cpp:72-73. -/
def insideX (B : Bounds K nx np) (u : MVec K nx np nw) : Bool :=
  (List.finRange nx).all (fun i => !above (u.x i) (B.xupper i)) && (List.finRange nx).all (fun i => !below (u.x i) (B.xlower i))

/-- `execute`, LineSearch.cpp:68-98, without the warning of line 70; `none` is an assertion failure.  `error u` is the error after `F.update(u); E.update(u, F)`.  Simplification: it depends on the point only
    (in the code the errors may also depend on the echelon form left by the previous evaluations); `lineSearchM` below is without this simplification. -/
def lineSearch (debug : Bool) (golden tol : K) (maxiters : ℕ) (B : Bounds K nx np) (error : MVec K nx np nw → K) (uo u : MVec K nx np nw) : Option (MVec K nx np nw) :=
  if debug && !insideX B u then none
  else
    let phi := fun alpha => error (MVec.mix alpha uo u)
    let alphamin := (Brent.minimizeBrent phi golden 0 1 tol maxiters).1.x
    some (MVec.mix alphamin uo u)

/-- `execute`, LineSearch.cpp:68-98, with the state `s` of `F`, `E` and user code: `none` is an assertion failure or an exception. The warning of line 70 only prints. -/
def lineSearchM {σ : Type*} (M : Machine σ K nx np nw) (debug : Bool) (golden tol : K) (maxiters : ℕ) (B : Bounds K nx np) (s : σ) (uo u : MVec K nx np nw) : Option (σ × MVec K nx np nw) :=
  if debug && !insideX B u then none
  else
    match Brent.minimizeBrentM (fun s alpha => (M.eval s (MVec.mix alpha uo u)).map fun t => (t, M.error t)) golden 0 1 tol maxiters s with
    | none => none
    | some (s', b) => (M.eval s' (MVec.mix b.x uo u)).map fun t => (t, MVec.mix b.x uo u)

end Optima
