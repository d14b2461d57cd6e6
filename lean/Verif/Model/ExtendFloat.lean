import Verif.Model.EchelonExt
import Verif.Model.EchelonFloat
import Verif.Model.FloatEchelon

/-!
# `EchelonizerExtended` in rounded arithmetic

`updateWithPriorityWeights` of EchelonizerExtended.cpp with every operation rounded, after the updates of `echelonizerA` and `echelonizerJ` (`Model/EchelonFloat.lean`); `Model/EchelonExt.lean` is the model in exact arithmetic, whose blocks are used here too.
-/

namespace Optima.FEch

open Ech FNull

variable {p n mA nbA nnA nlA mJ nbJ nnJ nlJ : ℕ}

/-- `c` is `Σ f k * g k` computed with rounded operations in any order: an entry of a product of matrices in Eigen. -/
def IsMul {ι : Type} (f g : ι → FNum p) (c : FNum p) : Prop := ∃ l : List ι, l.Nodup ∧ (∀ k, k ∈ l) ∧ Terms.Sums (l.map fun k => (f k, g k)) c

/-- `c` is `a + Σ f k * g k` computed with rounded operations in any order. -/
def IsAdd {ι : Type} (a : FNum p) (f g : ι → FNum p) (c : FNum p) : Prop := ∃ l : List ι, l.Nodup ∧ (∀ k, k ∈ l) ∧ Terms.Sums ((a, 1) :: l.map fun k => (f k, g k)) c

/-- `J2` after `J2 -= J1 * SA`, EchelonizerExtended.cpp:104-107. -/
def Reduced (eA : State (FNum p) mA n nbA nnA nlA) (J : Fin mJ → Fin n → FNum p) (J2 : Fin mJ → Fin nnA → FNum p) : Prop :=
  ∀ r k, IsSub (J r (eA.Q (.inr k))) (fun i => J r (eA.Q (.inl i))) (fun i => eA.S i k) (J2 r k)

/-- The number of pivots that `lu.rank()` of Eigen counts: those above the threshold times the largest pivot, which is the first one. -/
def countPivots (thr : FNum p) {k : ℕ} (d : Fin k → FNum p) (maxPivot : FNum p) : ℕ := (List.finRange k).countP fun i => maxPivot * thr < (d i).abs

/-- `numBasicVariables`, Echelonizer.cpp:95-108, for the pivots `d` of the factorisation.  The threshold of Eigen is `epsilon` times the number of pivots. -/
def numBasicVariables {k : ℕ} (d : Fin k → FNum p) (maxPivot : FNum p) : ℕ :=
  if maxPivot < .fl 10 * FNum.epsilon then countPivots 1 d maxPivot else countPivots (FNum.epsilon * .fl k) d maxPivot

/-- `R`, `S`, `Q` before they are sorted, EchelonizerExtended.cpp:122-160; `b` has their blocks, the other members are the products `SA1*RJt`, `SA1*RJt*J1`, `-RJt*J1` and `-RJb*J1`, which Eigen evaluates into temporaries from the left to the right. -/
structure Extended (eA : State (FNum p) mA n nbA nnA nlA) (J : Fin mJ → Fin n → FNum p) (eJ : State (FNum p) mJ nnA nbJ nnJ nlJ) where
  b : Blocks (FNum p) n mA nbA nlA mJ nbJ nnJ nlJ
  T1 : Fin nbA → Fin mJ → FNum p
  T2 : Fin nbA → Fin nbA → FNum p
  T3 : Fin nbJ → Fin nbA → FNum p
  T4 : Fin nlJ → Fin nbA → FNum p
  qb : b.qb = Sum.elim (fun i => eA.Q (.inl i)) fun j => eA.Q (.inr (eJ.Q (.inl j)))
  qn : b.qn = fun k => eA.Q (.inr (eJ.Q (.inr k)))
  /-- `SA2 -= SA1 * SJ` -/
  S_A : ∀ i k, IsSub (eA.S i (eJ.Q (.inr k))) (fun j => eA.S i (eJ.Q (.inl j))) (fun j => eJ.S j k) (b.S (.inl i) k)
  S_J : ∀ j k, b.S (.inr j) k = eJ.S j k
  T1_mul : ∀ i d, IsMul (fun j => eA.S i (eJ.Q (.inl j))) (fun j => eJ.R (.inl j) d) (T1 i d)
  T2_mul : ∀ i l, IsMul (fun d => T1 i d) (fun d => J d (eA.Q (.inl l))) (T2 i l)
  /-- `RAt + SA1*RJt*J1*RAt` -/
  R_AA : ∀ i c, IsAdd (eA.R (.inl i) c) (fun l => T2 i l) (fun l => eA.R (.inl l) c) (b.Rt (.inl i) (.inl c))
  /-- `-SA1*RJt` -/
  R_AJ : ∀ i d, IsMul (fun j => -eA.S i (eJ.Q (.inl j))) (fun j => eJ.R (.inl j) d) (b.Rt (.inl i) (.inr d))
  T3_mul : ∀ j l, IsMul (fun d => -eJ.R (.inl j) d) (fun d => J d (eA.Q (.inl l))) (T3 j l)
  /-- `-RJt*J1*RAt` -/
  R_JA : ∀ j c, IsMul (fun l => T3 j l) (fun l => eA.R (.inl l) c) (b.Rt (.inr j) (.inl c))
  R_JJ : ∀ j d, b.Rt (.inr j) (.inr d) = eJ.R (.inl j) d
  Rb_AA : ∀ l c, b.Rb (.inl l) (.inl c) = eA.R (.inr l) c
  Rb_AJ : ∀ l d, b.Rb (.inl l) (.inr d) = 0
  T4_mul : ∀ j l, IsMul (fun d => -eJ.R (.inr j) d) (fun d => J d (eA.Q (.inl l))) (T4 j l)
  /-- `-RJb*J1*RAt` -/
  Rb_JA : ∀ j c, IsMul (fun l => T4 j l) (fun l => eA.R (.inl l) c) (b.Rb (.inr j) (.inl c))
  Rb_JJ : ∀ j d, b.Rb (.inr j) (.inr d) = eJ.R (.inr j) d

/-- The members `R, S, Q` after `updateWithPriorityWeights(J, w)`, sorted by the weights, EchelonizerExtended.cpp:162-199. -/
def Extended.form {eA : State (FNum p) mA n nbA nnA nlA} {J : Fin mJ → Fin n → FNum p} {eJ : State (FNum p) mJ nnA nbJ nnJ nlJ} (E : Extended eA J eJ) (A : Fin mA → Fin n → FNum p) (sort : SortImpl (FNum p)) (w : Fin n → FNum p) : Form (stack A J) :=
  (E.b.flat A J).sortBy sort w

/-- The condition of the warning in EchelonizerExtended.cpp:118: `nbA + nbJ != min(m, n)`. -/
def warned (n mA nbA mJ nbJ : ℕ) : Bool := nbA + nbJ != min (mA + mJ) n

/-! ## One way of computing it -/

/-- `Σ f k * g k` in the order of the entries. -/
def mul {k : ℕ} (f g : Fin k → FNum p) : FNum p := value ((List.finRange k).map fun i => (f i, g i))

/-- The blocks, with the sums in the order of the entries. -/
def extended (eA : State (FNum p) mA n nbA nnA nlA) (J : Fin mJ → Fin n → FNum p) (eJ : State (FNum p) mJ nnA nbJ nnJ nlJ) : Blocks (FNum p) n mA nbA nlA mJ nbJ nnJ nlJ :=
  let J1 : Fin mJ → Fin nbA → FNum p := fun d l => J d (eA.Q (.inl l))
  let SA1 : Fin nbA → Fin nbJ → FNum p := fun i j => eA.S i (eJ.Q (.inl j))
  let T1 : Fin nbA → Fin mJ → FNum p := fun i d => mul (SA1 i) fun j => eJ.R (.inl j) d
  let T2 : Fin nbA → Fin nbA → FNum p := fun i l => mul (T1 i) fun d => J1 d l
  let T3 : Fin nbJ → Fin nbA → FNum p := fun j l => mul (fun d => -eJ.R (.inl j) d) fun d => J1 d l
  let T4 : Fin nlJ → Fin nbA → FNum p := fun j l => mul (fun d => -eJ.R (.inr j) d) fun d => J1 d l
  { Rt := fun r c => match r, c with
      | .inl i, .inl c => value ((eA.R (.inl i) c, 1) :: (List.finRange nbA).map fun l => (T2 i l, eA.R (.inl l) c))
      | .inl i, .inr d => mul (fun j => -SA1 i j) fun j => eJ.R (.inl j) d
      | .inr j, .inl c => mul (T3 j) fun l => eA.R (.inl l) c
      | .inr j, .inr d => eJ.R (.inl j) d
    Rb := fun r c => match r, c with
      | .inl l, .inl c => eA.R (.inr l) c
      | .inl _, .inr _ => 0
      | .inr j, .inl c => mul (T4 j) fun l => eA.R (.inl l) c
      | .inr j, .inr d => eJ.R (.inr j) d
    S := fun r k => match r with
      | .inl i => sub (List.finRange nbJ) (eA.S i (eJ.Q (.inr k))) (SA1 i) fun j => eJ.S j k
      | .inr j => eJ.S j k
    qb := Sum.elim (fun i => eA.Q (.inl i)) fun j => eA.Q (.inr (eJ.Q (.inl j)))
    qn := fun k => eA.Q (.inr (eJ.Q (.inr k))) }

/-! ## Two variables, a linear and a non-linear constraint -/

/-- The problem `min f(x)` subject to `a*x = b` and `h(x) = 0` with two variables without bounds, of which both are found basic; `g`, `d` are the functions for the gradient of `f` and its diagonal Hessian, `j` is the (constant) Jacobian matrix of `h`.
    Only problems whose pivots are not explicit, `|d| < 1`, Canonicalizer.cpp:149-157. -/
structure TwoProblem (p : ℕ) where
  a : Fin 2 → FNum p
  b : FNum p
  h : (Fin 2 → FNum p) → FNum p
  j : Fin 2 → FNum p
  g : (Fin 2 → FNum p) → Fin 2 → FNum p
  d : (Fin 2 → FNum p) → Fin 2 → FNum p
  implicit : ∀ x v, (d x v).abs < 1
  /-- `R` after the removal of round-off errors: the row of the basic variable, the column of the equation (the order of the rows depends on the sorting and has no influence) -/
  R : Fin 2 → Fin 2 → FNum p

/-- What an evaluation of `F` and `E` leaves for the Newton step and the loop. -/
structure TwoState (p : ℕ) where
  ax : Fin 2 → FNum p
  awbs : Fin 2 → FNum p
  d : Fin 2 → FNum p

namespace TwoProblem

variable (P : TwoProblem p)

/-- `F.update(u); E.update(u, F)`: ResidualVector.cpp:114 and 125-130, without parameters, bounds and non-basic variables. -/
def eval (u : MVec (FNum p) 2 0 2) : TwoState p :=
  { ax := fun v => -(P.g u.x v + P.a v * u.w 0 + P.j v * u.w 1)
    awbs := fun v => FNum.multiplyClean P.R ![P.b, FNum.dot P.j u.x - P.h u.x] v - u.x v
    d := P.d u.x }

/-- `E.error()`, ResidualErrors.cpp:83-108, without parameters and bounds. -/
def error (s : TwoState p) : FNum p := max (max (s.ax 0).abs (s.ax 1).abs) (max (s.awbs 0).abs (s.awbs 1).abs)

/-- `newtonstep.apply(F, uo, u)`, NewtonStep.cpp:54-65, with `LinearSolver::solve`, LinearSolver.cpp:96-128, and `LinearSolverNullspace::solve`, LinearSolverNullspace.cpp:207-240 (the default method), for pivots that are not explicit. -/
def newton (s : TwoState p) (uo : MVec (FNum p) 2 0 2) : MVec (FNum p) 2 0 2 :=
  let abi := fun v => s.ax v - s.d v * s.awbs v
  { x := fun v => uo.x v + s.awbs v, p := uo.p, w := fun c => uo.w c + FNum.dot (fun v => P.R v c) abi }

/-- The machine of the loop of `MasterSolver`, without transformation and user check. -/
def machine : Optima.Machine (TwoState p) (FNum p) 2 0 2 where
  eval := fun _ u => some (P.eval u)
  evalJac := fun s _ => some s
  newton := fun s uo => some (s, P.newton s uo)
  error := fun s => error s
  phi := none
  check := none
  phi_error := fun _ h => by cases h
  check_error := fun _ h => by cases h

/-- No bounds. -/
def bounds : Bounds (FNum p) 2 0 := { xlower := fun _ => none, xupper := fun _ => none, plower := fun _ => none, pupper := fun _ => none }

end TwoProblem

end Optima.FEch
