import Verif.Model.Master
import Verif.Model.LU

/-!
# Model of `LinearSolverFullspace.cpp`, `LinearSolverNullspace.cpp`, `LinearSolverRangespace.cpp` and `LinearSolver.cpp`

The inner solver (`LU`) is a parameter `inner`; `luInner` is the one of the code.  Blocks of matrices and vectors are selected by sum types.  Arithmetic is exact.
-/

namespace Optima

open Matrix

variable {K : Type*} {nx np nw : ℕ} {be bi ne ni u : Type}

/-- `CanonicalVector` without the part `xu`, CanonicalVector.hpp. -/
@[ext] structure CVec (K : Type*) (np : ℕ) (be bi ne ni : Type) where
  xs : (be ⊕ bi) ⊕ (ne ⊕ ni) → K
  p : Fin np → K
  wbs : be ⊕ bi → K

namespace Canon

section blocks
variable (C : Canon K nx np nw be bi ne ni u)

abbrev Hbsbs : Matrix (be ⊕ bi) (be ⊕ bi) K := C.Hss.toBlocks₁₁
abbrev Hbsns : Matrix (be ⊕ bi) (ne ⊕ ni) K := C.Hss.toBlocks₁₂
abbrev Hnsbs : Matrix (ne ⊕ ni) (be ⊕ bi) K := C.Hss.toBlocks₂₁
abbrev Hnsns : Matrix (ne ⊕ ni) (ne ⊕ ni) K := C.Hss.toBlocks₂₂
abbrev Hbsp : Matrix (be ⊕ bi) (Fin np) K := C.Hsp.submatrix Sum.inl id
abbrev Hnsp : Matrix (ne ⊕ ni) (Fin np) K := C.Hsp.submatrix Sum.inr id
abbrev Vpbs : Matrix (Fin np) (be ⊕ bi) K := C.Vps.submatrix id Sum.inl
abbrev Vpns : Matrix (Fin np) (ne ⊕ ni) K := C.Vps.submatrix id Sum.inr
abbrev Sbens : Matrix be (ne ⊕ ni) K := C.Sbsns.submatrix Sum.inl id
abbrev Sbins : Matrix bi (ne ⊕ ni) K := C.Sbsns.submatrix Sum.inr id
abbrev Sbep : Matrix be (Fin np) K := C.Sbsp.submatrix Sum.inl id
abbrev Sbip : Matrix bi (Fin np) K := C.Sbsp.submatrix Sum.inr id
abbrev Sbene : Matrix be ne K := C.Sbsns.toBlocks₁₁
abbrev Sbeni : Matrix be ni K := C.Sbsns.toBlocks₁₂
abbrev Sbine : Matrix bi ne K := C.Sbsns.toBlocks₂₁
abbrev Sbini : Matrix bi ni K := C.Sbsns.toBlocks₂₂
abbrev Sbsne : Matrix (be ⊕ bi) ne K := C.Sbsns.submatrix id Sum.inl
end blocks

end Canon

/-- An inner linear solver: `inner M r` is what `lu.decompose(M)` followed by `lu.solve(r)` leaves in `r`. -/
abbrev Inner (K : Type*) (T : Type) := Matrix T T K → (T → K) → (T → K)

/-! ## Fullspace -/

section fullspace
variable [Zero K] [One K]

/-- Unknowns of the full-space system: `(xbs, xns, p, wbs)`. -/
abbrev FullT (np : ℕ) (be bi ne ni : Type) := (be ⊕ bi) ⊕ (ne ⊕ ni) ⊕ Fin np ⊕ (be ⊕ bi)

/-- The matrix `M` assembled by `LinearSolverFullspace::decompose`, LinearSolverFullspace.cpp:40-87 (rows `M1`, `M2`, `M3`, `M4`). -/
def fullMatrix [DecidableEq be] [DecidableEq bi] (C : Canon K nx np nw be bi ne ni u) : Matrix (FullT np be bi ne ni) (FullT np be bi ne ni) K :=
  fun r c => match r, c with
    | .inl i, .inl j => C.Hbsbs i j
    | .inl i, .inr (.inl j) => C.Hbsns i j
    | .inl i, .inr (.inr (.inl q)) => C.Hbsp i q
    | .inl i, .inr (.inr (.inr j)) => (1 : Matrix (be ⊕ bi) (be ⊕ bi) K) i j
    | .inr (.inl i), .inl j => C.Hnsbs i j
    | .inr (.inl i), .inr (.inl j) => C.Hnsns i j
    | .inr (.inl i), .inr (.inr (.inl q)) => C.Hnsp i q
    | .inr (.inl i), .inr (.inr (.inr j)) => C.Sbsnsᵀ i j
    | .inr (.inr (.inl q)), .inl j => C.Vpbs q j
    | .inr (.inr (.inl q)), .inr (.inl j) => C.Vpns q j
    | .inr (.inr (.inl q)), .inr (.inr (.inl q')) => C.Vpp q q'
    | .inr (.inr (.inl _)), .inr (.inr (.inr _)) => 0
    | .inr (.inr (.inr i)), .inl j => (1 : Matrix (be ⊕ bi) (be ⊕ bi) K) i j
    | .inr (.inr (.inr i)), .inr (.inl j) => C.Sbsns i j
    | .inr (.inr (.inr i)), .inr (.inr (.inl q)) => C.Sbsp i q
    | .inr (.inr (.inr _)), .inr (.inr (.inr _)) => 0

/-- The right-hand side `r << axs, ap, awbs`, LinearSolverFullspace.cpp:110-114. -/
def fullRhs (a : CVec K np be bi ne ni) : FullT np be bi ne ni → K :=
  Sum.elim (fun i => a.xs (.inl i)) (Sum.elim (fun i => a.xs (.inr i)) (Sum.elim a.p a.wbs))

/-- `LinearSolverFullspace::decompose` and `solve`, LinearSolverFullspace.cpp:40-121. -/
def fullSolve [DecidableEq be] [DecidableEq bi] (inner : Inner K (FullT np be bi ne ni)) (C : Canon K nx np nw be bi ne ni u) (a : CVec K np be bi ne ni) : CVec K np be bi ne ni :=
  let r := inner (fullMatrix C) (fullRhs a)
  { xs := Sum.elim (fun i => r (.inl i)) (fun i => r (.inr (.inl i)))
    p := fun q => r (.inr (.inr (.inl q)))
    wbs := fun i => r (.inr (.inr (.inr i))) }
end fullspace

/-! ## Nullspace -/

/-- Unknowns of the reduced system of the null-space method: `(xbe, xns, p, wbe)`. -/
abbrev NullT (np : ℕ) (be ne ni : Type) := be ⊕ (ne ⊕ ni) ⊕ Fin np ⊕ be

/-- The blocks kept in the members `Hxx`, `Hxp`, `Vpx`, `Vpp` of `LinearSolverNullspace::Impl` after `decompose`. -/
structure NullBlocks (K : Type*) (np : ℕ) (be bi ne ni : Type) where
  Hbebe : Matrix be be K
  Hbebi : Matrix be bi K
  Hbibe : Matrix bi be K
  Hbibi : Matrix bi bi K
  Hbens : Matrix be (ne ⊕ ni) K
  Hbins : Matrix bi (ne ⊕ ni) K
  Hnsbe : Matrix (ne ⊕ ni) be K
  Hnsbi : Matrix (ne ⊕ ni) bi K
  Hnsns : Matrix (ne ⊕ ni) (ne ⊕ ni) K
  Hbep : Matrix be (Fin np) K
  Hbip : Matrix bi (Fin np) K
  Hnsp : Matrix (ne ⊕ ni) (Fin np) K
  Vpbe : Matrix (Fin np) be K
  Vpbi : Matrix (Fin np) bi K
  Vpns : Matrix (Fin np) (ne ⊕ ni) K
  Vpp : Matrix (Fin np) (Fin np) K

/-- The matrix `M` of `LinearSolverNullspace::decompose`, LinearSolverNullspace.cpp:141-144. -/
def nullMatrix [Zero K] [One K] [DecidableEq be] (C : Canon K nx np nw be bi ne ni u) (B : NullBlocks K np be bi ne ni) : Matrix (NullT np be ne ni) (NullT np be ne ni) K :=
  fun r c => match r, c with
    | .inl i, .inl j => B.Hbebe i j
    | .inl i, .inr (.inl j) => B.Hbens i j
    | .inl i, .inr (.inr (.inl q)) => B.Hbep i q
    | .inl i, .inr (.inr (.inr j)) => (1 : Matrix be be K) i j
    | .inr (.inl i), .inl j => B.Hnsbe i j
    | .inr (.inl i), .inr (.inl j) => B.Hnsns i j
    | .inr (.inl i), .inr (.inr (.inl q)) => B.Hnsp i q
    | .inr (.inl i), .inr (.inr (.inr j)) => C.Sbensᵀ i j
    | .inr (.inr (.inl q)), .inl j => B.Vpbe q j
    | .inr (.inr (.inl q)), .inr (.inl j) => B.Vpns q j
    | .inr (.inr (.inl q)), .inr (.inr (.inl q')) => B.Vpp q q'
    | .inr (.inr (.inl _)), .inr (.inr (.inr _)) => 0
    | .inr (.inr (.inr i)), .inl j => (1 : Matrix be be K) i j
    | .inr (.inr (.inr i)), .inr (.inl j) => C.Sbens i j
    | .inr (.inr (.inr i)), .inr (.inr (.inl q)) => C.Sbep i q
    | .inr (.inr (.inr _)), .inr (.inr (.inr _)) => 0

variable [Field K]

/-- `LinearSolverNullspace::decompose`, LinearSolverNullspace.cpp:47-147: the in-place updates, in the order of the code. -/
def nullDecompose [Fintype be] [Fintype bi] [Fintype ne] [Fintype ni] (C : Canon K nx np nw be bi ne ni u) : NullBlocks K np be bi ne ni :=
  let Hbebe := C.Hbsbs.toBlocks₁₁
  let Hbebi := C.Hbsbs.toBlocks₁₂
  let Hbibe := C.Hbsbs.toBlocks₂₁
  let Hbibi := C.Hbsbs.toBlocks₂₂
  let Hbens := C.Hbsns.submatrix Sum.inl id
  let Hbins := C.Hbsns.submatrix Sum.inr id
  let Hnsbe := C.Hnsbs.submatrix id Sum.inl
  let Hnsbi := C.Hnsbs.submatrix id Sum.inr
  let Hnsns := C.Hnsns
  let Hbep := C.Hbsp.submatrix Sum.inl id
  let Hbip := C.Hbsp.submatrix Sum.inr id
  let Hnsp := C.Hnsp
  let Vpbe := C.Vpbs.submatrix id Sum.inl
  let Vpbi := C.Vpbs.submatrix id Sum.inr
  let Vpns := C.Vpns
  let Vpp := C.Vpp
  let Hbins := Hbins - Hbibi * C.Sbins
  let Hbens := Hbens - Hbebi * C.Sbins
  let Hnsns := Hnsns - Hnsbi * C.Sbins
  let Vpns := Vpns - Vpbi * C.Sbins
  let Hbip := Hbip - Hbibi * C.Sbip
  let Hbep := Hbep - Hbebi * C.Sbip
  let Hnsp := Hnsp - Hnsbi * C.Sbip
  let Vpp := Vpp - Vpbi * C.Sbip
  let Hnsbe := Hnsbe - C.Sbinsᵀ * Hbibe
  let Hnsns := Hnsns - C.Sbinsᵀ * Hbins
  let Hnsp := Hnsp - C.Sbinsᵀ * Hbip
  ⟨Hbebe, Hbebi, Hbibe, Hbibi, Hbens, Hbins, Hnsbe, Hnsbi, Hnsns, Hbep, Hbip, Hnsp, Vpbe, Vpbi, Vpns, Vpp⟩

/-- The vectors `abi` and `r` before the inner solve, LinearSolverNullspace.cpp:207-228. -/
def nullRhs [Fintype bi] (C : Canon K nx np nw be bi ne ni u) (B : NullBlocks K np be bi ne ni) (a : CVec K np be bi ne ni) : (bi → K) × (NullT np be ne ni → K) :=
  let abe : be → K := fun i => a.xs (.inl (.inl i))
  let abi : bi → K := fun i => a.xs (.inl (.inr i))
  let ans : ne ⊕ ni → K := fun i => a.xs (.inr i)
  let awbe : be → K := fun i => a.wbs (.inl i)
  let awbi : bi → K := fun i => a.wbs (.inr i)
  let abi := abi - B.Hbibi *ᵥ awbi
  let abe := abe - B.Hbebi *ᵥ awbi
  let ans := ans - B.Hnsbi *ᵥ awbi
  let ap := a.p - B.Vpbi *ᵥ awbi
  let ans := ans - C.Sbinsᵀ *ᵥ abi
  (abi, Sum.elim abe (Sum.elim ans (Sum.elim ap awbe)))

/-- `LinearSolverNullspace::solve` after the inner solve, LinearSolverNullspace.cpp:232-240. -/
def nullRecover [Fintype be] [Fintype ne] [Fintype ni] (C : Canon K nx np nw be bi ne ni u) (B : NullBlocks K np be bi ne ni) (a : CVec K np be bi ne ni) (abi : bi → K)
    (r : NullT np be ne ni → K) : CVec K np be bi ne ni :=
  let dxbe : be → K := fun i => r (.inl i)
  let dxns : ne ⊕ ni → K := fun i => r (.inr (.inl i))
  let dp : Fin np → K := fun q => r (.inr (.inr (.inl q)))
  let dwbe : be → K := fun i => r (.inr (.inr (.inr i)))
  let awbi : bi → K := fun i => a.wbs (.inr i)
  let dxbi := awbi - C.Sbins *ᵥ dxns - C.Sbip *ᵥ dp
  let dwbi := abi - B.Hbibe *ᵥ dxbe - B.Hbins *ᵥ dxns - B.Hbip *ᵥ dp
  { xs := Sum.elim (Sum.elim dxbe dxbi) dxns, p := dp, wbs := Sum.elim dwbe dwbi }

/-- `LinearSolverNullspace::decompose` and `solve`, LinearSolverNullspace.cpp:47-241 (`if(t)` only skips the inner solve of an empty system). -/
def nullSolve [DecidableEq be] [Fintype be] [Fintype bi] [Fintype ne] [Fintype ni] (inner : Inner K (NullT np be ne ni)) (C : Canon K nx np nw be bi ne ni u) (a : CVec K np be bi ne ni) :
    CVec K np be bi ne ni :=
  let B := nullDecompose C
  let ar := nullRhs C B a
  nullRecover C B a ar.1 (inner (nullMatrix C B) ar.2)

/-! ## Rangespace -/

/-- Unknowns of the reduced system of the range-space method: `(p, xbi, wbe, xni)`. -/
abbrev RangeT (np : ℕ) (be bi ni : Type) := Fin np ⊕ bi ⊕ be ⊕ ni

section
variable (C : Canon K nx np nw be bi ne ni u)

/-- Diagonal entries of `Hss` (members `Hd`), LinearSolverRangespace.cpp:94-104. -/
abbrev Canon.hbe : be → K := fun i => C.Hss (.inl (.inl i)) (.inl (.inl i))
abbrev Canon.hbi : bi → K := fun i => C.Hss (.inl (.inr i)) (.inl (.inr i))
abbrev Canon.hne : ne → K := fun i => C.Hss (.inr (.inl i)) (.inr (.inl i))
abbrev Canon.hni : ni → K := fun i => C.Hss (.inr (.inr i)) (.inr (.inr i))
abbrev Canon.Hbep : Matrix be (Fin np) K := fun i q => C.Hsp (.inl (.inl i)) q
abbrev Canon.Hbip : Matrix bi (Fin np) K := fun i q => C.Hsp (.inl (.inr i)) q
abbrev Canon.Hnep : Matrix ne (Fin np) K := fun i q => C.Hsp (.inr (.inl i)) q
abbrev Canon.Hnip : Matrix ni (Fin np) K := fun i q => C.Hsp (.inr (.inr i)) q
abbrev Canon.Vpbe : Matrix (Fin np) be K := fun q i => C.Vps q (.inl (.inl i))
abbrev Canon.Vpbi : Matrix (Fin np) bi K := fun q i => C.Vps q (.inl (.inr i))
abbrev Canon.Vpne : Matrix (Fin np) ne K := fun q i => C.Vps q (.inr (.inl i))
abbrev Canon.Vpni : Matrix (Fin np) ni K := fun q i => C.Vps q (.inr (.inr i))
end

/-- Blocks kept by `LinearSolverRangespace::decompose`: `barVpne` and the blocks of `Tbsbs`. -/
structure RangeBlocks (K : Type*) (np : ℕ) (be bi ne : Type) where
  barVpne : Matrix (Fin np) ne K
  Tbibi : Matrix bi bi K
  Tbebi : Matrix be bi K

/-- `LinearSolverRangespace::decompose`, LinearSolverRangespace.cpp:49-198: the matrix `M` and the blocks kept for `solve`. -/
def rangeDecompose [DecidableEq be] [DecidableEq bi] [DecidableEq ne] [DecidableEq ni] [Fintype be] [Fintype bi] [Fintype ne] [Fintype ni] (C : Canon K nx np nw be bi ne ni u) :
    RangeBlocks K np be bi ne × Matrix (RangeT np be bi ni) (RangeT np be bi ni) K :=
  let invHbebe : Matrix be be K := diagonal fun i => (C.hbe i)⁻¹
  let invHnene : Matrix ne ne K := diagonal fun i => (C.hne i)⁻¹
  let barHbep := invHbebe * C.Hbep
  let barHnep := invHnene * C.Hnep
  let barVpbe := C.Vpbe * invHbebe
  let barVpne := C.Vpne * invHnene
  let barSbene := C.Sbene * invHnene
  let barSbine := C.Sbine * invHnene
  let barSbsne : Matrix (be ⊕ bi) ne K := fun i j => Sum.elim (fun i => barSbene i j) (fun i => barSbine i j) i
  let Tbsbs := C.Sbsne * barSbsneᵀ
  let Tbibi := Tbsbs.toBlocks₂₂
  let Tbibe := Tbsbs.toBlocks₂₁
  let Tbebi := Tbsbs.toBlocks₁₂
  let Tbebe := Tbsbs.toBlocks₁₁
  let M11 := C.Vpp - C.Vpbe * barHbep - C.Vpne * barHnep + barVpne * C.Sbineᵀ * C.Hbip
  let M12 := C.Vpbi + barVpne * C.Sbineᵀ * diagonal C.hbi
  let M13 := -barVpbe - barVpne * C.Sbeneᵀ
  let M14 := C.Vpni
  let M21 := C.Sbip - barSbine * C.Hnep + Tbibi * C.Hbip
  let M22 := 1 + Tbibi * diagonal C.hbi
  let M23 := -Tbibe
  let M24 := C.Sbini
  let M31 := C.Sbep - barHbep - barSbene * C.Hnep + Tbebi * C.Hbip
  let M32 := Tbebi * diagonal C.hbi
  let M33 := (diagonal fun i => (C.hbe i)⁻¹) + Tbebe
  let M34 := C.Sbeni
  let M41 := C.Hnip - C.Sbiniᵀ * C.Hbip
  let M42 := -C.Sbiniᵀ * diagonal C.hbi
  let M43 := C.Sbeniᵀ
  let M44 : Matrix ni ni K := diagonal C.hni
  (⟨barVpne, Tbibi, Tbebi⟩,
   fun r c => match r, c with
    | .inl i, .inl j => M11 i j
    | .inl i, .inr (.inl j) => M12 i j
    | .inl i, .inr (.inr (.inl j)) => M13 i j
    | .inl i, .inr (.inr (.inr j)) => M14 i j
    | .inr (.inl i), .inl j => M21 i j
    | .inr (.inl i), .inr (.inl j) => M22 i j
    | .inr (.inl i), .inr (.inr (.inl j)) => M23 i j
    | .inr (.inl i), .inr (.inr (.inr j)) => M24 i j
    | .inr (.inr (.inl i)), .inl j => M31 i j
    | .inr (.inr (.inl i)), .inr (.inl j) => M32 i j
    | .inr (.inr (.inl i)), .inr (.inr (.inl j)) => M33 i j
    | .inr (.inr (.inl i)), .inr (.inr (.inr j)) => M34 i j
    | .inr (.inr (.inr i)), .inl j => M41 i j
    | .inr (.inr (.inr i)), .inr (.inl j) => M42 i j
    | .inr (.inr (.inr i)), .inr (.inr (.inl j)) => M43 i j
    | .inr (.inr (.inr i)), .inr (.inr (.inr j)) => M44 i j)

/-- The right-hand side `r << ap, awbi, awbe, ani` of the reduced system, LinearSolverRangespace.cpp:273-298. -/
def rangeRhs [Fintype be] [Fintype bi] [Fintype ne] (C : Canon K nx np nw be bi ne ni u) (B : RangeBlocks K np be bi ne) (a : CVec K np be bi ne ni) : RangeT np be bi ni → K :=
  let abe : be → K := fun i => a.xs (.inl (.inl i))
  let abi : bi → K := fun i => a.xs (.inl (.inr i))
  let ane : ne → K := fun i => a.xs (.inr (.inl i))
  let ani : ni → K := fun i => a.xs (.inr (.inr i))
  let awbe : be → K := fun i => a.wbs (.inl i)
  let awbi : bi → K := fun i => a.wbs (.inr i)
  let abe : be → K := fun i => abe i / C.hbe i
  let ane : ne → K := fun i => ane i / C.hne i
  let ap := a.p - C.Vpbe *ᵥ abe - C.Vpne *ᵥ ane + (B.barVpne * C.Sbineᵀ) *ᵥ abi
  let awbi := awbi - C.Sbine *ᵥ ane + B.Tbibi *ᵥ abi
  let awbe := awbe - abe - C.Sbene *ᵥ ane + B.Tbebi *ᵥ abi
  let ani := ani - C.Sbiniᵀ *ᵥ abi
  Sum.elim ap (Sum.elim awbi (Sum.elim awbe ani))

/-- The end of `LinearSolverRangespace::solve`, after the inner solve left `r`, LinearSolverRangespace.cpp:302-312. -/
def rangeRecover [DecidableEq bi] [Fintype be] [Fintype bi] (C : Canon K nx np nw be bi ne ni u) (a : CVec K np be bi ne ni) (r : RangeT np be bi ni → K) : CVec K np be bi ne ni :=
  let abi : bi → K := fun i => a.xs (.inl (.inr i))
  let abe : be → K := fun i => a.xs (.inl (.inl i)) / C.hbe i
  let ane : ne → K := fun i => a.xs (.inr (.inl i)) / C.hne i
  let p : Fin np → K := fun q => r (.inl q)
  let xbi : bi → K := fun i => r (.inr (.inl i))
  let wbe : be → K := fun i => r (.inr (.inr (.inl i)))
  let xni : ni → K := fun i => r (.inr (.inr (.inr i)))
  let wbi := abi - C.Hbip *ᵥ p - diagonal C.hbi *ᵥ xbi
  let xbe : be → K := fun i => abe i - ((C.Hbep *ᵥ p) i + wbe i) / C.hbe i
  let xne : ne → K := fun i => ane i - ((C.Hnep *ᵥ p) i + (C.Sbeneᵀ *ᵥ wbe) i + (C.Sbineᵀ *ᵥ wbi) i) / C.hne i
  { xs := Sum.elim (Sum.elim xbe xbi) (Sum.elim xne xni), p := p, wbs := Sum.elim wbe wbi }

/-- `LinearSolverRangespace::decompose` and `solve`, LinearSolverRangespace.cpp:49-313. -/
def rangeSolve [DecidableEq be] [DecidableEq bi] [DecidableEq ne] [DecidableEq ni] [Fintype be] [Fintype bi] [Fintype ne] [Fintype ni] (inner : Inner K (RangeT np be bi ni))
    (C : Canon K nx np nw be bi ne ni u) (a : CVec K np be bi ne ni) : CVec K np be bi ne ni :=
  let D := rangeDecompose C
  rangeRecover C a (inner D.2 (rangeRhs C D.1 a))

end Optima
