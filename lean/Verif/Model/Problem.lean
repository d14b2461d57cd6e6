import Verif.Model.Solver

/-!
# Model of `Problem.cpp`, `State.cpp`, `Sensitivity.cpp` and of the matrices with fixed dimensions they use

Here the sizes are values, as in C++: the members of an object may be of any size whatever `dims` says.
-/

set_option linter.unusedSectionVars false

namespace Optima

variable {K : Type*} {τ : Type*}

/-- A matrix or vector with its sizes at run time (`FixedMatrix`, `FixedVector`, and Eigen matrices assigned to them).  `val i j` is the entry `(i, j)`; values outside of the sizes are not part of the matrix. A vector has one column. -/
structure DMat (K : Type*) where
  rows : ℕ
  cols : ℕ
  val : ℕ → ℕ → K

/-- Equality of matrices: sizes and entries. -/
def DMat.Same (A B : DMat K) : Prop := A.rows = B.rows ∧ A.cols = B.cols ∧ ∀ i < A.rows, ∀ j < A.cols, A.val i j = B.val i j

/-- `size()`. -/
def DMat.size (A : DMat K) : ℕ := A.rows * A.cols

/-- `FixedMatrix::__assign`, deps/eigenx/Eigen/src/FixedMatrix.h:43: `Base::operator=`, which resizes; also the implicit copy assignment of `FixedMatrix`, which is chosen when the right-hand side is a `FixedMatrix` as well. -/
def DMat.assign (_A B : DMat K) : DMat K := { rows := B.rows, cols := B.cols, val := B.val }

/-- `FixedMatrix::operator=(const MatrixBase<OtherDerived>&)`, FixedMatrix.h:45-54, for any other kind of right-hand side (`none`: `std::runtime_error`). -/
def DMat.assignFixed (A B : DMat K) : Option (DMat K) :=
  if A.size = 0 ∧ B.size = 0 then some A
  else if A.rows ≠ B.rows ∨ A.cols ≠ B.cols then none
  else some (A.assign B)

/-- `zeros(m, n)`, `constants(n, val)`: Utils. -/
def DMat.const (m n : ℕ) (a : K) : DMat K := { rows := m, cols := n, val := fun _ _ => a }

/-- A default-constructed matrix (`0 × 0`). -/
def DMat.empty [Zero K] : DMat K := DMat.const 0 0 0
/-- A default-constructed vector (`0 × 1`). -/
def DMat.emptyVec (a : K) : DMat K := DMat.const 0 1 a

/-- `Dims`, Dims.hpp:25-50. -/
structure Dims where
  x : ℕ
  p : ℕ
  be : ℕ
  bg : ℕ
  he : ℕ
  hg : ℕ
  c : ℕ

/-- `Problem`, Problem.hpp:33-64.  The functions get views and matrix references of any size. Bounds: `none` is infinite. -/
structure DProblem (τ K : Type*) where
  dims : Dims
  r : ResFn τ K
  f : ∀ nx np nc, ObjFn τ K nx np nc
  he : ∀ nq nx np nc, ConFn τ K nq nx np nc
  hg : ∀ nq nx np nc, ConFn τ K nq nx np nc
  v : ∀ nq nx np nc, ConFn τ K nq nx np nc
  Aex : DMat K
  Aep : DMat K
  Agx : DMat K
  Agp : DMat K
  be : DMat K
  bg : DMat K
  xlower : DMat (Option K)
  xupper : DMat (Option K)
  plower : DMat (Option K)
  pupper : DMat (Option K)
  c : DMat K
  bec : DMat K
  bgc : DMat K

/-- `Problem::Problem()`, Problem.cpp:25-26. -/
def DProblem.default [Zero K] : DProblem τ K where
  dims := ⟨0, 0, 0, 0, 0, 0, 0⟩
  r := ResFn.default
  f := fun _ _ _ => ObjFn.default
  he := fun _ _ _ _ => ConFn.default
  hg := fun _ _ _ _ => ConFn.default
  v := fun _ _ _ _ => ConFn.default
  Aex := DMat.empty
  Aep := DMat.empty
  Agx := DMat.empty
  Agp := DMat.empty
  be := DMat.emptyVec 0
  bg := DMat.emptyVec 0
  xlower := DMat.emptyVec none
  xupper := DMat.emptyVec none
  plower := DMat.emptyVec none
  pupper := DMat.emptyVec none
  c := DMat.emptyVec 0
  bec := DMat.empty
  bgc := DMat.empty

/-- `Problem::Problem(const Dims&)`, Problem.cpp:28-43. -/
def DProblem.ofDims [Zero K] (d : Dims) : DProblem τ K where
  dims := d
  r := ResFn.default
  f := fun _ _ _ => ObjFn.default
  he := fun _ _ _ _ => ConFn.default
  hg := fun _ _ _ _ => ConFn.default
  v := fun _ _ _ _ => ConFn.default
  Aex := DMat.const d.be d.x 0
  Aep := DMat.const d.be d.p 0
  Agx := DMat.const d.bg d.x 0
  Agp := DMat.const d.bg d.p 0
  be := DMat.const d.be 1 0
  bg := DMat.const d.bg 1 0
  xlower := DMat.const d.x 1 none
  xupper := DMat.const d.x 1 none
  plower := DMat.const d.p 1 none
  pupper := DMat.const d.p 1 none
  c := DMat.const d.c 1 0
  bec := DMat.const d.be d.c 0
  bgc := DMat.const d.bg d.c 0

/-- `Problem::operator=`, Problem.cpp:45-62. -/
def DProblem.assign (self other : DProblem τ K) : DProblem τ K :=
  { self with
    dims := other.dims
    Aex := self.Aex.assign other.Aex
    Aep := self.Aep.assign other.Aep
    Agx := self.Agx.assign other.Agx
    Agp := self.Agp.assign other.Agp
    be := self.be.assign other.be
    bg := self.bg.assign other.bg
    xlower := self.xlower.assign other.xlower
    xupper := self.xupper.assign other.xupper
    plower := self.plower.assign other.plower
    pupper := self.pupper.assign other.pupper
    c := self.c.assign other.c
    bec := self.bec.assign other.bec
    bgc := self.bgc.assign other.bgc }

/-- The implicit copy constructor of `Problem` (declaring `operator=` does not remove it): member by member. -/
def DProblem.copy (other : DProblem τ K) : DProblem τ K :=
  { dims := other.dims, r := other.r, f := other.f, he := other.he, hg := other.hg, v := other.v, Aex := other.Aex, Aep := other.Aep, Agx := other.Agx, Agp := other.Agp, be := other.be, bg := other.bg,
    xlower := other.xlower, xupper := other.xupper, plower := other.plower, pupper := other.pupper, c := other.c, bec := other.bec, bgc := other.bgc }

/-- The problem that `Solver` sees when all members have the sizes that `dims` says. -/
def DProblem.user (D : DProblem τ K) : UProblem τ K D.dims.x D.dims.p D.dims.be D.dims.bg D.dims.he D.dims.hg D.dims.c where
  r := D.r
  f := D.f _ _ _
  he := D.he _ _ _ _
  hg := D.hg _ _ _ _
  v := D.v _ _ _ _
  Aex := fun i j => D.Aex.val i j
  Aep := fun i j => D.Aep.val i j
  Agx := fun i j => D.Agx.val i j
  Agp := fun i j => D.Agp.val i j
  be := fun i => D.be.val i 0
  bg := fun i => D.bg.val i 0
  xlower := fun i => D.xlower.val i 0
  xupper := fun i => D.xupper.val i 0
  plower := fun i => D.plower.val i 0
  pupper := fun i => D.pupper.val i 0
  c := fun i => D.c.val i 0
  bec := fun i j => D.bec.val i j
  bgc := fun i j => D.bgc.val i j

/-- `State`, State.hpp:28-46. -/
structure DState (K : Type*) where
  dims : Dims
  x : DMat K
  p : DMat K
  ye : DMat K
  yg : DMat K
  ze : DMat K
  zg : DMat K
  s : DMat K
  xbg : DMat K
  xhg : DMat K
  js : List ℕ
  ju : List ℕ
  jlu : List ℕ
  juu : List ℕ
  jb : List ℕ
  jn : List ℕ

/-- `State::State(const Dims&)`, State.cpp:25-36. -/
def DState.ofDims [Zero K] (d : Dims) : DState K where
  dims := d
  x := DMat.const d.x 1 0
  p := DMat.const d.p 1 0
  ye := DMat.const d.be 1 0
  yg := DMat.const d.bg 1 0
  ze := DMat.const d.he 1 0
  zg := DMat.const d.hg 1 0
  s := DMat.const d.x 1 0
  xbg := DMat.const d.bg 1 0
  xhg := DMat.const d.hg 1 0
  js := []
  ju := []
  jlu := []
  juu := []
  jb := []
  jn := []

/-- `State::operator=`, State.cpp:38-59. -/
def DState.assign (self other : DState K) : DState K :=
  { self with
    dims := other.dims
    x := self.x.assign other.x
    p := self.p.assign other.p
    ye := self.ye.assign other.ye
    yg := self.yg.assign other.yg
    ze := self.ze.assign other.ze
    zg := self.zg.assign other.zg
    s := self.s.assign other.s
    xbg := self.xbg.assign other.xbg
    xhg := self.xhg.assign other.xhg
    js := other.js
    ju := other.ju
    jlu := other.jlu
    juu := other.juu
    jb := other.jb
    jn := other.jn }

/-- `Sensitivity`, Sensitivity.hpp:28-40. -/
structure DSens (K : Type*) where
  dims : Dims
  xc : DMat K
  pc : DMat K
  yec : DMat K
  ygc : DMat K
  zec : DMat K
  zgc : DMat K
  sc : DMat K
  xbgc : DMat K
  xhgc : DMat K

/-- `Sensitivity::operator=`, Sensitivity.cpp:38-51. -/
def DSens.assign (self other : DSens K) : DSens K :=
  { self with
    dims := other.dims
    xc := self.xc.assign other.xc
    pc := self.pc.assign other.pc
    yec := self.yec.assign other.yec
    ygc := self.ygc.assign other.ygc
    zec := self.zec.assign other.zec
    zgc := self.zgc.assign other.zgc
    sc := self.sc.assign other.sc
    xbgc := self.xbgc.assign other.xbgc
    xhgc := self.xhgc.assign other.xhgc }

/-- `__resize(m, n)`, FixedMatrix.h:33: the entries are kept if the sizes stay, otherwise the model allows anything (`mem`; Eigen keeps the buffer if the number of entries stays). -/
def DMat.resize (A : DMat K) (mem : ℕ → ℕ → K) (m n : ℕ) : DMat K := { rows := m, cols := n, val := if A.rows = m ∧ A.cols = n then A.val else mem }

/-- `Sensitivity::resize`, Sensitivity.cpp:53-65. -/
def DSens.resize (S : DSens K) (mem : ℕ → ℕ → K) (d : Dims) : DSens K where
  dims := d
  xc := S.xc.resize mem d.x d.c
  pc := S.pc.resize mem d.p d.c
  yec := S.yec.resize mem d.be d.c
  ygc := S.ygc.resize mem d.bg d.c
  zec := S.zec.resize mem d.he d.c
  zgc := S.zgc.resize mem d.hg d.c
  sc := S.sc.resize mem d.x d.c
  xbgc := S.xbgc.resize mem d.bg d.c
  xhgc := S.xhgc.resize mem d.hg d.c

end Optima
