import Mathlib.Data.Matrix.Mul

/-!
# Model of `ObjectiveFunction.cpp`, `ConstraintFunction.cpp` and `ResourcesFunction.cpp`

User code is any function with a state `τ`; it receives the result object by reference, so its argument is what the object holds and its value is what it holds afterwards.  `none` is an exception.
-/

namespace Optima

open Matrix

variable {K : Type*} {τ : Type*} {nq nx np nc : ℕ}

/-- `ObjectiveResultBase`, ObjectiveFunction.hpp:31-93. -/
@[ext] structure ObjRes (K : Type*) (nx np nc : ℕ) where
  f : K
  fx : Fin nx → K
  fxx : Matrix (Fin nx) (Fin nx) K
  fxp : Matrix (Fin nx) (Fin np) K
  fxc : Matrix (Fin nx) (Fin nc) K
  diagfxx : Bool
  fxx4basicvars : Bool
  succeeded : Bool

/-- `ConstraintResultBase`, ConstraintFunction.hpp:31-86. -/
@[ext] structure ConRes (K : Type*) (nq nx np nc : ℕ) where
  val : Fin nq → K
  ddx : Matrix (Fin nq) (Fin nx) K
  ddp : Matrix (Fin nq) (Fin np) K
  ddc : Matrix (Fin nq) (Fin nc) K
  ddx4basicvars : Bool
  succeeded : Bool

/-- `ObjectiveOptions` and `ConstraintOptions`, ObjectiveFunction.hpp:103-118 and ConstraintFunction.hpp:95-110. -/
structure EvalOpts where
  ddx : Bool
  ddp : Bool
  ddc : Bool
  ibasicvars : List ℕ

/-- `ObjectiveFunction::Signature`, ObjectiveFunction.hpp:131. -/
abbrev ObjSig (τ K : Type*) (nx np nc : ℕ) := τ → ObjRes K nx np nc → (Fin nx → K) → (Fin np → K) → (Fin nc → K) → EvalOpts → Option (τ × ObjRes K nx np nc)

/-- `ConstraintFunction::Signature`, ConstraintFunction.hpp:122. -/
abbrev ConSig (τ K : Type*) (nq nx np nc : ℕ) := τ → ConRes K nq nx np nc → (Fin nx → K) → (Fin np → K) → (Fin nc → K) → EvalOpts → Option (τ × ConRes K nq nx np nc)

/-- `ResourcesFunction::Signature`, ResourcesFunction.hpp: the views of `x`, `p`, `c` may have any size. -/
abbrev ResSig (τ K : Type*) := τ → (n : ℕ) → (Fin n → K) → (m : ℕ) → (Fin m → K) → (k : ℕ) → (Fin k → K) → EvalOpts → Option τ

/-- `ObjectiveFunction`: the member `fn` is a `std::function`, `none` if empty. -/
structure ObjFn (τ K : Type*) (nx np nc : ℕ) where
  fn : Option (ObjSig τ K nx np nc)

/-- `ConstraintFunction`. -/
structure ConFn (τ K : Type*) (nq nx np nc : ℕ) where
  fn : Option (ConSig τ K nq nx np nc)

/-- `ResourcesFunction`. -/
structure ResFn (τ K : Type*) where
  fn : Option (ResSig τ K)

/-- `ObjectiveFunction::ObjectiveFunction()`, ObjectiveFunction.cpp:25-31. -/
def ObjFn.default : ObjFn τ K nx np nc := ⟨some fun t res _ _ _ _ => some (t, res)⟩
/-- `ObjectiveFunction(const Signature&)`, ObjectiveFunction.cpp:33-37 (`none`: exception); also the constructor for Python functions, lines 39-46. -/
def ObjFn.ofFunc (func : Option (ObjSig τ K nx np nc)) : Option (ObjFn τ K nx np nc) := if func.isNone then none else some ⟨func⟩
/-- `operator=(const Signature&)`, ObjectiveFunction.cpp:62-67. -/
def ObjFn.assign (_self : ObjFn τ K nx np nc) (func : Option (ObjSig τ K nx np nc)) : Option (ObjFn τ K nx np nc) := if func.isNone then none else some ⟨func⟩
/-- `initialized()`, ObjectiveFunction.cpp:69-72. -/
def ObjFn.initialized (self : ObjFn τ K nx np nc) : Bool := self.fn.isSome

/-- ConstraintFunction.cpp:25-31. -/
def ConFn.default : ConFn τ K nq nx np nc := ⟨some fun t res _ _ _ _ => some (t, res)⟩
/-- ConstraintFunction.cpp:33-37, 39-46. -/
def ConFn.ofFunc (func : Option (ConSig τ K nq nx np nc)) : Option (ConFn τ K nq nx np nc) := if func.isNone then none else some ⟨func⟩
/-- ConstraintFunction.cpp:60-65. -/
def ConFn.assign (_self : ConFn τ K nq nx np nc) (func : Option (ConSig τ K nq nx np nc)) : Option (ConFn τ K nq nx np nc) := if func.isNone then none else some ⟨func⟩
/-- ConstraintFunction.cpp:67-70. -/
def ConFn.initialized (self : ConFn τ K nq nx np nc) : Bool := self.fn.isSome

/-- ResourcesFunction.cpp:25-31. -/
def ResFn.default : ResFn τ K := ⟨some fun t _ _ _ _ _ _ _ => some t⟩

/-- The assignments of ObjectiveFunction.cpp:51-58. -/
def ObjRes.clear [Zero K] (res : ObjRes K nx np nc) : ObjRes K nx np nc :=
  let res := { res with f := 0 }
  let res := { res with fx := 0 }
  let res := { res with fxx := 0 }
  let res := { res with fxp := 0 }
  let res := { res with fxc := 0 }
  let res := { res with diagfxx := false }
  let res := { res with fxx4basicvars := false }
  { res with succeeded := true }

/-- The assignments of ConstraintFunction.cpp:51-56. -/
def ConRes.clear [Zero K] (res : ConRes K nq nx np nc) : ConRes K nq nx np nc :=
  let res := { res with val := 0 }
  let res := { res with ddx := 0 }
  let res := { res with ddp := 0 }
  let res := { res with ddc := 0 }
  let res := { res with ddx4basicvars := false }
  { res with succeeded := true }

/-- `ObjectiveFunction::operator()`, ObjectiveFunction.cpp:48-60; an empty `std::function` throws. -/
def ObjFn.call [Zero K] (self : ObjFn τ K nx np nc) (t : τ) (res : ObjRes K nx np nc) (x : Fin nx → K) (p : Fin np → K) (c : Fin nc → K) (opts : EvalOpts) : Option (τ × ObjRes K nx np nc) :=
  match self.fn with
  | none => none
  | some fn => fn t res.clear x p c opts

/-- `ConstraintFunction::operator()`, ConstraintFunction.cpp:48-58. -/
def ConFn.call [Zero K] (self : ConFn τ K nq nx np nc) (t : τ) (res : ConRes K nq nx np nc) (x : Fin nx → K) (p : Fin np → K) (c : Fin nc → K) (opts : EvalOpts) : Option (τ × ConRes K nq nx np nc) :=
  match self.fn with
  | none => none
  | some fn => fn t res.clear x p c opts

/-- `ResourcesFunction::operator()`, ResourcesFunction.cpp:39-42. -/
def ResFn.call (self : ResFn τ K) (t : τ) {n m k : ℕ} (x : Fin n → K) (p : Fin m → K) (c : Fin k → K) (opts : EvalOpts) : Option τ :=
  match self.fn with
  | none => none
  | some fn => fn t n x m p k c opts

end Optima
