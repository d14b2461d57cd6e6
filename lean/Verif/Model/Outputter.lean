import Verif.Model.MasterSolver

/-!
# Model of `Outputter.cpp`, of the output in `MasterSolver.cpp` and of `updateMasterOptions` in `Solver.cpp`

Strings are lists of characters (bytes).  The text of numbers (`addValue`, Outputter.hpp:101-110: `precision`, `fixed`, `scientific`) is a parameter: any function.
-/

namespace Optima

/-- `std::string`. -/
abbrev Str := List Char

/-- `OutputterOptions`, OutputterOptions.hpp:26-48, without those for the text of numbers and the name of the file. -/
structure OutOptions where
  active : Bool
  width : ℕ
  separator : Str

/-- `Outputter`, Outputter.hpp:88-92. -/
structure Outputter where
  entries : List Str
  values : List Str
  options : OutOptions

/-- `colwidth`, Outputter.cpp:30-33. -/
def colwidth (width : ℕ) (str : Str) : ℕ := if width > str.length + 4 then width else str.length + 4

/-- `barstr`, Outputter.cpp:36-39. -/
def barstr (width : ℕ) (str : Str) : Str := List.replicate (colwidth width str) '='

/-- `out << std::setw(w) << std::left << str`: padded on the right, never cut. -/
def setwLeft (w : ℕ) (str : Str) : Str := str ++ List.replicate (w - str.length) ' '

/-- `clear`, Outputter.cpp:46-50. -/
def Outputter.clear (o : Outputter) : Outputter := { o with values := [], entries := [] }

/-- `setOptions`, Outputter.cpp:52-55. -/
def Outputter.setOptions (o : Outputter) (options : OutOptions) : Outputter := { o with options := options }

/-- `addEntry`, Outputter.cpp:57-60. -/
def Outputter.addEntry (o : Outputter) (name : Str) : Outputter := { o with entries := o.entries ++ [name] }

/-- `prefix << "[" << name << "]"`. -/
def bracketed (pre name : Str) : Str := pre ++ '[' :: name ++ [']']

/-- The text of an index. -/
def natStr (i : ℕ) : Str := (toString i).toList

/-- `addEntries(prefix, size)`, Outputter.cpp:62-70. -/
def Outputter.addEntriesNum (o : Outputter) (pre : Str) (size : ℕ) : Outputter := (List.range size).foldl (fun o i => o.addEntry (bracketed pre (natStr i))) o

/-- `addEntries(prefix, size, names)`, Outputter.cpp:72-89 (`none`: error). -/
def Outputter.addEntries (o : Outputter) (pre : Str) (size : ℕ) (names : List Str) : Option Outputter :=
  if names.length ≠ 0 ∧ names.length ≠ size then none
  else if names = [] then some (o.addEntriesNum pre size)
  else some (names.foldl (fun o name => o.addEntry (bracketed pre name)) o)

/-- `addEntrySeparator`, `addValueSeparator`, Outputter.cpp:91-99. -/
def Outputter.addEntrySeparator (o : Outputter) : Outputter := { o with entries := o.entries ++ [o.options.separator] }
/-- See `addEntrySeparator`. -/
def Outputter.addValueSeparator (o : Outputter) : Outputter := { o with values := o.values ++ [o.options.separator] }

/-- `addValue`, Outputter.hpp:101-110, with the text of the value. -/
def Outputter.addValue (o : Outputter) (text : Str) : Outputter := { o with values := o.values ++ [text] }

/-- `addValues(vec)`, Outputter.hpp:119-124. -/
def Outputter.addValues (o : Outputter) {n : ℕ} (text : Fin n → Str) : Outputter := (List.finRange n).foldl (fun o i => o.addValue (text i)) o

/-- The first and third line of the header, Outputter.cpp:107-109 and 116-118. -/
def Outputter.barLine (o : Outputter) : Str := o.entries.flatMap fun e => if e = o.options.separator then o.options.separator else barstr o.options.width e

/-- The second line, Outputter.cpp:111-114. -/
def Outputter.nameLine (o : Outputter) : Str := o.entries.flatMap fun e => if e = o.options.separator then o.options.separator else setwLeft (colwidth o.options.width e) e

/-- `outputHeader`, Outputter.cpp:101-120: the lines written to the file. -/
def Outputter.outputHeader (o : Outputter) : List Str := if o.options.active then [o.barLine, o.nameLine, o.barLine] else []

/-- The loop of Outputter.cpp:130-133; `none` if the iterator `entry` is dereferenced at the end of the list (undefined behaviour). -/
def stateLine (options : OutOptions) : List Str → List Str → Option Str
  | [], _ => some []
  | val :: vals, entries =>
    if val = options.separator then (stateLine options vals entries).map (options.separator ++ ·)
    else
      match entries with
      | [] => none
      | e :: entries => (stateLine options vals entries).map (setwLeft (colwidth options.width e) val ++ ·)

/-- `outputState`, Outputter.cpp:122-138: the lines written and the new state (`none`: failed assertion, in debug builds, or undefined behaviour). -/
def Outputter.outputState (debug : Bool) (o : Outputter) : Option (List Str × Outputter) :=
  if o.options.active then
    if debug && decide (o.entries.length ≠ o.values.length) then none
    else (stateLine o.options o.values o.entries).map fun line => ([line], { o with values := [] })
  else some ([], o)

/-- The names in `OutputOptions`, Options.hpp:37-62. -/
structure Names where
  x : List Str
  xbg : List Str
  xhg : List Str
  p : List Str
  y : List Str
  z : List Str

/-- `updateMasterOptions`, Solver.cpp:66-103: the names passed to the master solver (`none`: error). -/
def masterNames (active : Bool) (nx nbg nhg : ℕ) (N : Names) : Option Names :=
  if active then
    if N.x ≠ [] ∧ N.x.length ≠ nx then none
    else if N.xbg ≠ [] ∧ N.xbg.length ≠ nbg then none
    else if N.xhg ≠ [] ∧ N.xhg.length ≠ nhg then none
    else
      let names := if N.x = [] then (List.range nx).foldl (fun l i => l ++ [natStr i]) [] else N.x
      let names := if N.xbg = [] then (List.range nbg).foldl (fun l i => l ++ ["bg:".toList ++ natStr i]) names else names ++ N.xbg
      let names := if N.xhg = [] then (List.range nhg).foldl (fun l i => l ++ ["hg:".toList ++ natStr i]) names else names ++ N.xhg
      some { N with x := names, xbg := [], xhg := [] }
  else some N

/-- `outputHeaderTop`, MasterSolver.cpp:58-79, after `outputter.clear()`, without the output itself (`none`: error). -/
def headerTop (o : Outputter) (nx np ny nz : ℕ) (N : Names) : Option Outputter :=
  if !o.options.active then some o
  else
    let o := o.addEntry "Iteration".toList
    let o := o.addEntry "f".toList
    let o := o.addEntry "Error".toList
    let o := o.addEntry "||ex||max".toList
    let o := o.addEntry "||ep||max".toList
    let o := o.addEntry "||ew||max".toList
    (o.addEntries "x".toList nx N.x).bind fun o =>
    (o.addEntries "p".toList np N.p).bind fun o =>
    (o.addEntries "y".toList ny N.y).bind fun o =>
    (o.addEntries "z".toList nz N.z).bind fun o =>
    (o.addEntries "s".toList nx N.x).bind fun o =>
    (o.addEntries "ex".toList nx N.x).bind fun o =>
    (o.addEntries "ep".toList np N.p).bind fun o =>
    (o.addEntries "ey".toList ny N.y).bind fun o =>
    (o.addEntries "ez".toList nz N.z).bind fun o =>
    some (o.addEntry "Basic Variables".toList)

/-- What `outputCurrentState` prints, MasterSolver.cpp:87-113: the numbers, as text. -/
structure StateText (nx np ny nz : ℕ) where
  iterations : Str
  f : Str
  error : Str
  errorx : Str
  errorp : Str
  errorw : Str
  x : Fin nx → Str
  p : Fin np → Str
  y : Fin ny → Str
  z : Fin nz → Str
  s : Fin nx → Str
  ex : Fin nx → Str
  ep : Fin np → Str
  ey : Fin ny → Str
  ez : Fin nz → Str
  jb : List (Fin nx)

/-- The text of the basic variables, MasterSolver.cpp:108-110 (`none`: access beyond the end of `xnames`). -/
def basicText {nx : ℕ} (xnames : List Str) (jb : List (Fin nx)) : Option Str :=
  jb.foldl (fun acc (i : Fin nx) => acc.bind fun s => (if xnames = [] then some (natStr i) else xnames[i.val]?).map fun name => s ++ name ++ [' ']) (some [])

/-- `outputCurrentState` up to `outputState()`, MasterSolver.cpp:87-112. -/
def addState {nx np ny nz : ℕ} (o : Outputter) (xnames : List Str) (T : StateText nx np ny nz) : Option Outputter :=
  let o := o.addValue T.iterations
  let o := o.addValue T.f
  let o := o.addValue T.error
  let o := o.addValue T.errorx
  let o := o.addValue T.errorp
  let o := o.addValue T.errorw
  let o := o.addValues T.x
  let o := o.addValues T.p
  let o := o.addValues T.y
  let o := o.addValues T.z
  let o := o.addValues T.s
  let o := o.addValues T.ex
  let o := o.addValues T.ep
  let o := o.addValues T.ey
  let o := o.addValues T.ez
  (basicText xnames T.jb).map o.addValue

variable {K : Type*} [Field K] [LinearOrder K] {nx np nw : ℕ} {σ : Type*}

/-- The states at which `outputCurrentState` is called in `do step(u); while(stepping(u)); finalize(state)`, in this order, MasterSolver.cpp:119-120, 173-175, 186-188. -/
inductive Prints (m : Machine σ K nx np nw) (o : SolveOptions K) (B : Bounds K nx np) : SolveState σ K nx np nw → List (SolveState σ K nx np nw) → SolveState σ K nx np nw → Prop
  | stop (s s1 s2) : step m o B s = some s1 → stepping m o s1 = some (s2, false) → Prints m o B s [s, s2] s2
  | again (s s1 s2 l t) : step m o B s = some s1 → stepping m o s1 = some (s2, true) → Prints m o B s2 l t → Prints m o B s (s :: l) t

end Optima
