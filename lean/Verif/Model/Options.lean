import Verif.Model.Outputter
import Verif.Model.Status
import Verif.Model.Solver

/-!
# Model of the options: where they are stored, when they are passed on, and which of them a running solve reads

`Solver::setOptions` stores a copy; every `Solver::solve` passes it to the master solver, which hands its parts to the objects that use them.  A `Solver` owns all of these objects, so a solver variable is modelled by its
value (that variables do not share an `Impl` is `owned` of Props/Objects.lean).  The copy constructors and assignments of all objects concerned copy or exchange the whole `Impl` (BacktrackSearch.cpp:106-117, Convergence.cpp:74-85,
ErrorControl.cpp:68-79, ErrorStatus.cpp:101-112, LineSearch.cpp:105-116, LinearSolver.cpp:136-147, MasterSolver.cpp:219-230, NewtonStep.cpp:80-91, SensitivitySolver.cpp:102-113, Solver.cpp:373-384).
-/

namespace Optima.Opt

/-- `LineSearchOptions`, LineSearchOptions.hpp:22-35. -/
structure LineSearchOptions (K : Type*) where
  tolerance : K
  maxiterations : ℕ
  triggerInitial : K
  triggerPrevious : K

/-- `SteepestDescentOptions`, Options.hpp:65-72. -/
structure SteepestDescentOptions (K : Type*) where
  tolerance : K
  maxiters : K

/-- The options of `OutputterOptions` for the text of numbers and the name of the file, OutputterOptions.hpp:26-48. -/
structure TextOptions where
  fixed : Bool
  scientific : Bool
  precision : ℕ
  filename : Str

/-- `Options`, Options.hpp:75-101.  `C` are the functions for `convergence.check`.  (`errorstatus` is without its third factor, which only an assertion reads, ErrorStatus.cpp:90.) -/
structure Options (K C : Type*) where
  output : OutOptions
  text : TextOptions
  names : Names
  maxiters : ℕ
  errorstatus : ErrorStatusOptions K
  minmax : Bool
  linesearch : LineSearchOptions K
  steepestdescent : SteepestDescentOptions K
  method : Method
  tolerance : K
  check : Option C

/-- The default member initializers of the option classes: Options.hpp:68-82, OutputterOptions.hpp:26-48, ErrorStatusOptions.hpp:23-33, BacktrackSearchOptions.hpp, LineSearchOptions.hpp:22-35, LinearSolverOptions.hpp,
    ConvergenceOptions.hpp. -/
def Options.default (K C : Type*) [Field K] : Options K C where
  output := ⟨false, 15, "|".toList⟩
  text := ⟨false, false, 6, "optima.log.txt".toList⟩
  names := ⟨[], [], [], [], [], []⟩
  maxiters := 200
  errorstatus := ⟨2, 1 / 2⟩
  minmax := false
  linesearch := ⟨1 / 10 ^ 5, 20, 1, 2⟩
  steepestdescent := ⟨1 / 10 ^ 6, 10⟩
  method := .nullspace
  tolerance := 1 / 10 ^ 8
  check := none

/-- The options kept in the parts of `MasterSolver::Impl`, MasterSolver.cpp:40-53: its own copy, those of the linear solver of `newtonstep`, of `convergence`, of the three parts of `errorcontrol` (ErrorControl.cpp:30-32), of `outputter`
    and of the linear solver of `sensitivitysolver`. -/
structure MasterImpl (K C : Type*) where
  options : Options K C
  newtonstep : Method
  tolerance : K
  check : Option C
  errorstatus : ErrorStatusOptions K
  backtracksearch : Bool
  linesearch : LineSearchOptions K
  outputter : OutOptions
  text : TextOptions
  sensitivitysolver : Method

/-- `MasterSolver::Impl()`, MasterSolver.cpp:55-56: every part with its own default options; `SensitivitySolver::Impl()` sets its method, SensitivitySolver.cpp:34-39. -/
def MasterImpl.new (K C : Type*) [Field K] : MasterImpl K C where
  options := Options.default K C
  newtonstep := (Options.default K C).method
  tolerance := (Options.default K C).tolerance
  check := none
  errorstatus := (Options.default K C).errorstatus
  backtracksearch := (Options.default K C).minmax
  linesearch := (Options.default K C).linesearch
  outputter := (Options.default K C).output
  text := (Options.default K C).text
  sensitivitysolver := .nullspace

variable {K C : Type*}

/-- `ErrorControlOptions`, ErrorControl.hpp:34-44 (in this order). -/
structure ErrorControlOptions (K : Type*) where
  errorstatus : ErrorStatusOptions K
  backtracksearch : Bool
  linesearch : LineSearchOptions K

/-- `errorcontrol.setOptions(options)`, ErrorControl.cpp:37-42 with ErrorStatus.cpp:114-117, BacktrackSearch.cpp:119-122, LineSearch.cpp:42-45. -/
def MasterImpl.setErrorControl (m : MasterImpl K C) (o : ErrorControlOptions K) : MasterImpl K C :=
  { m with errorstatus := o.errorstatus, backtracksearch := o.backtracksearch, linesearch := o.linesearch }

/-- `MasterSolver::setOptions`, MasterSolver.cpp:132-139, with NewtonStep.cpp:39-42, LinearSolver.cpp:149-152, Convergence.cpp:87-90, Outputter.cpp:52-55. -/
def MasterImpl.setOptions (m : MasterImpl K C) (o : Options K C) : MasterImpl K C :=
  let m := { m with options := o }
  let m := { m with newtonstep := o.method }
  let m := { m with tolerance := o.tolerance, check := o.check }
  let m := m.setErrorControl ⟨o.errorstatus, o.minmax, o.linesearch⟩
  { m with outputter := o.output, text := o.text }

/-- `Solver::Impl`, Solver.cpp:37-38: `options` and (the options in) `msolver`. -/
structure Impl (K C : Type*) where
  options : Options K C
  msolver : MasterImpl K C

/-- `Solver::Impl()`, Solver.cpp:55-57. -/
def Impl.new (K C : Type*) [Field K] : Impl K C := ⟨Options.default K C, MasterImpl.new K C⟩

/-- `Solver::Impl::setOptions`, Solver.cpp:60-63. -/
def Impl.setOptions (i : Impl K C) (o : Options K C) : Impl K C := { i with options := o }

/-- `updateMasterOptions`, Solver.cpp:66-103, for a problem with these dimensions (`none`: the number of names is wrong). -/
def Impl.updateMasterOptions (i : Impl K C) (nx nbg nhg : ℕ) : Option (Impl K C) :=
  (masterNames i.options.output.active nx nbg nhg i.options.names).map fun N => { i with msolver := i.msolver.setOptions { i.options with names := N } }

/-- The options a running `MasterSolver::solve` reads: `options.maxiters` (MasterSolver.cpp:165, 186), `options.output` (MasterSolver.cpp:60-110) for the names, the options of the outputter (Outputter.cpp:93-144, Outputter.hpp:74-107),
    of the convergence test (Convergence.cpp:53-55), of the backtrack search (BacktrackSearch.cpp:66) and of the two linear solvers (LinearSolver.cpp:50, 60).  Those of `errorstatus` and `linesearch` are only read by functions that
    `MasterSolver` does not call (ErrorControl.cpp:56-60, ErrorStatus.cpp:68, 78, LineSearch.cpp:83-84), those of `steepestdescent` by no function. -/
structure InUse (K C : Type*) where
  maxiters : ℕ
  names : Names
  output : OutOptions
  text : TextOptions
  tolerance : K
  check : Option C
  minmax : Bool
  method : Method
  sensitivity : Method

/-- See `InUse`. -/
def MasterImpl.inUse (m : MasterImpl K C) : InUse K C :=
  ⟨m.options.maxiters, m.options.names, m.outputter, m.text, m.tolerance, m.check, m.backtracksearch, m.newtonstep, m.sensitivitysolver⟩

/-- What a program does with its solvers; other solvers may be used while a solve is running (from the user functions). -/
inductive Op (K C : Type*)
  /-- `Solver v` -/
  | construct (v : ℕ)
  /-- `Solver v(w)` -/
  | copy (v w : ℕ)
  /-- `v = w` -/
  | assign (v w : ℕ)
  /-- the end of `v` -/
  | destroy (v : ℕ)
  /-- `v.setOptions(o)` -/
  | setOptions (v : ℕ) (o : Options K C)
  /-- `v.solve(problem, …)` that throws in `updateMasterProblem` -/
  | rejected (v : ℕ)
  /-- `v.solve(problem, …)` with these numbers of variables and inequality constraints, up to `updateMasterOptions` -/
  | solve (v nx nbg nhg : ℕ)
  /-- the innermost running solve reads its options -/
  | read
  /-- the innermost running solve returns or throws -/
  | leave

/-- The solver variables and the running solves (innermost first). -/
structure Heap (K C : Type*) where
  vars : ℕ → Option (Impl K C)
  running : List ℕ

/-- The start of the program. -/
def Heap.start : Heap K C := ⟨fun _ => none, []⟩

/-- One operation, with what it reads; `none`: not possible.  `enter` tells whether a solve may be started on a solver whose solve is still running. -/
def step [Field K] (enter : Bool) (h : Heap K C) : Op K C → Option (Heap K C × List (InUse K C))
  | .construct v =>
    match h.vars v with
    | none => some ({ h with vars := Function.update h.vars v (some (Impl.new K C)) }, [])
    | some _ => none
  | .copy v w =>
    match h.vars v, h.vars w with
    | none, some i => some ({ h with vars := Function.update h.vars v (some i) }, [])
    | _, _ => none
  | .assign v w =>
    match h.vars v, h.vars w with
    | some _, some i => if v ∈ h.running then none else some ({ h with vars := Function.update h.vars v (some i) }, [])
    | _, _ => none
  | .destroy v =>
    match h.vars v with
    | some _ => if v ∈ h.running then none else some ({ h with vars := Function.update h.vars v none }, [])
    | none => none
  | .setOptions v o =>
    match h.vars v with
    | some i => some ({ h with vars := Function.update h.vars v (some (i.setOptions o)) }, [])
    | none => none
  | .rejected v =>
    match h.vars v with
    | some _ => some (h, [])
    | none => none
  | .solve v nx nbg nhg =>
    match h.vars v with
    | none => none
    | some i =>
      if enter = false ∧ v ∈ h.running then none
      else
        match i.updateMasterOptions nx nbg nhg with
        | none => some (h, [])
        | some i => some ({ vars := Function.update h.vars v (some i), running := v :: h.running }, [])
  | .read =>
    match h.running with
    | [] => none
    | v :: _ =>
      match h.vars v with
      | some i => some (h, [i.msolver.inUse])
      | none => none
  | .leave =>
    match h.running with
    | [] => none
    | _ :: rest => some ({ h with running := rest }, [])

/-- A program (the operations in order, latest first), with all that was read, latest first. -/
def run [Field K] (enter : Bool) : List (Op K C) → Option (Heap K C × List (InUse K C))
  | [] => some (Heap.start, [])
  | op :: ops =>
    match run enter ops with
    | none => none
    | some (h, log) =>
      match step enter h op with
      | none => none
      | some (h', new) => some (h', new ++ log)

end Optima.Opt
