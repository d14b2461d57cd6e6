import Mathlib.Data.List.Basic
import Mathlib.Logic.Function.Basic

/-!
# Model of `Solver` objects: construction, copies, assignment and what the lambdas of `updateMasterProblem` refer to

A `Solver` owns an `Impl` through a `unique_ptr`.  The functions `f`, `h`, `v` of the master problem are lambdas with the capture `[&]` (Solver.cpp:146, 165, 212): they hold the address of the `Impl` that
created them and a reference to the `Problem` given to that `solve`.  Only these references are modelled, not the numbers.  Addresses of freed objects may be used again; problems are named by their address.
User functions may call anything, so other operations can happen while a solve is running.
-/

namespace Optima.Obj

/-- What a lambda of `updateMasterProblem` holds: `this` and `&problem`. -/
structure Closure where
  impl : ℕ
  prob : ℕ
  deriving DecidableEq

/-- The members of `Solver::Impl` that hold such lambdas: `mproblem.f/h/v` (always set together) and the copies `f/h/v` of `ResidualFunction::Impl` in `msolver.F`.
    `none` is a default-constructed function. -/
structure Impl where
  mproblem : Option Closure
  F : Option Closure

/-- A running `Solver::solve(problem, …)`: the variable, its problem, and how far it is. -/
inductive Stage
  /-- in `updateMasterProblem`, before the lambdas are assigned (the checks of Solver.cpp:119-137) -/
  | checking
  /-- after the assignments and before `F.initialize` (Solver.cpp:238-295, `updateMasterOptions`, `updateMasterState`, MasterSolver.cpp:143-148) -/
  | preparing
  /-- after `F.initialize(problem)` (MasterSolver.cpp:149) until the end of the solve: the only stage in which `F` calls its functions -/
  | calling
  deriving DecidableEq

structure Frame where
  var : ℕ
  prob : ℕ
  stage : Stage

/-- Live `Impl` objects by address, the `Solver` variables with the address of their `Impl`, and the running solves (innermost first). -/
structure Heap where
  impls : ℕ → Option Impl
  vars : ℕ → Option ℕ
  running : List Frame

/-- The start of the program. -/
def Heap.start : Heap := ⟨fun _ => none, fun _ => none, []⟩

/-- The variable `v` has a running solve. -/
def Heap.busy (h : Heap) (v : ℕ) : Prop := ∃ fr ∈ h.running, fr.var = v

/-- A call of a function of `F`: the variable and problem of the solve that makes it and the lambda called. -/
structure Call where
  var : ℕ
  addr : ℕ
  prob : ℕ
  closure : Option Closure

/-- One operation; the last argument lists the calls of lambdas it makes.  `enter` tells whether a solve may be started on a solver whose solve is still running (from a user function). -/
inductive Step (enter : Bool) : Heap → Heap → List Call → Prop
  /-- `Solver()`, Solver.cpp:369-371: an address `a` not in use. -/
  | construct (h : Heap) (v a : ℕ) : h.vars v = none → h.impls a = none →
      Step enter h { h with impls := Function.update h.impls a (some ⟨none, none⟩), vars := Function.update h.vars v (some a) } []
  /-- `Solver(const Solver&)`, Solver.cpp:373-375: `Impl` is copied member by member, so the copy's lambdas still refer to the original. -/
  | copy (h : Heap) (v w a b : ℕ) (i : Impl) : h.vars v = none → h.vars w = some b → h.impls b = some i → h.impls a = none →
      Step enter h { h with impls := Function.update h.impls a (some i), vars := Function.update h.vars v (some a) } []
  /-- `v = w`, Solver.cpp:380-384: the argument is a copy of `w`; its `Impl` replaces that of `v`, which is deleted.  Not on a solver that is running. -/
  | assign (h : Heap) (v w a b c : ℕ) (i : Impl) : h.vars v = some c → ¬ h.busy v → h.vars w = some b → h.impls b = some i → h.impls a = none →
      Step enter h { h with impls := Function.update (Function.update h.impls a (some i)) c none, vars := Function.update h.vars v (some a) } []
  /-- `~Solver()`, Solver.cpp:377-378.  Not on a solver that is running. -/
  | destroy (h : Heap) (v c : ℕ) : h.vars v = some c → ¬ h.busy v →
      Step enter h { h with impls := Function.update h.impls c none, vars := Function.update h.vars v none } []
  /-- `v.solve(problem, …)` is called, Solver.cpp:346-349, 357-360. -/
  | solve (h : Heap) (v p c : ℕ) : h.vars v = some c → (enter = true ∨ ¬ h.busy v) →
      Step enter h { h with running := ⟨v, p, .checking⟩ :: h.running } []
  /-- The checks pass and the lambdas are assigned, Solver.cpp:146, 165, 212. -/
  | capture (h : Heap) (v p c : ℕ) (i : Impl) (rest : List Frame) : h.running = ⟨v, p, .checking⟩ :: rest → h.vars v = some c → h.impls c = some i →
      Step enter h { h with impls := Function.update h.impls c (some { i with mproblem := some ⟨c, p⟩ }), running := ⟨v, p, .preparing⟩ :: rest } []
  /-- `F.initialize(problem)`, MasterSolver.cpp:149 with ResidualFunction.cpp:104-106: `F` takes copies of the functions of `mproblem`. -/
  | prepare (h : Heap) (v p c : ℕ) (i : Impl) (rest : List Frame) : h.running = ⟨v, p, .preparing⟩ :: rest → h.vars v = some c → h.impls c = some i →
      Step enter h { h with impls := Function.update h.impls c (some { i with F := i.mproblem }), running := ⟨v, p, .calling⟩ :: rest } []
  /-- `F.update(u)` or `F.updateOnlyJacobian(u)` call `f`, `h` or `v`, ResidualFunction.cpp:156-158. -/
  | call (h : Heap) (v p c : ℕ) (i : Impl) (rest : List Frame) : h.running = ⟨v, p, .calling⟩ :: rest → h.vars v = some c → h.impls c = some i →
      Step enter h h [⟨v, c, p, i.F⟩]
  /-- The innermost solve returns or throws. -/
  | leave (h : Heap) (fr : Frame) (rest : List Frame) : h.running = fr :: rest → Step enter h { h with running := rest } []

/-- Histories from the start of the program with all calls made, latest first. -/
inductive Reach (enter : Bool) : Heap → List Call → Prop
  | start : Reach enter Heap.start []
  | step (h h' : Heap) (log new : List Call) : Reach enter h log → Step enter h h' new → Reach enter h' (new ++ log)

end Optima.Obj
