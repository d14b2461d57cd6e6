import Verif.Model.LinearSolvers
import Verif.Model.LUFloat

/-!
# `LinearSolverNullspace` in rounded arithmetic

`nullDecompose`, `nullRhs` and `nullRecover` of `Model/LinearSolvers.lean` with every operation rounded and the additions in any order.
-/

namespace Optima.FNull

open Matrix

variable {p nx np nw N : ℕ} {be bi ne ni u : Type}

/-- `c` is `a - Σ f k * g k` computed with rounded operations in any order: what `a -= A*B` of Eigen does to an entry. -/
def IsSub {ι : Type} (a : FNum p) (f g : ι → FNum p) (c : FNum p) : Prop :=
  ∃ l : List ι, l.Nodup ∧ (∀ k, k ∈ l) ∧ Terms.Sums ((a, 1) :: Terms.neg (l.map fun k => (f k, g k))) c

/-- The blocks after `LinearSolverNullspace::decompose`, LinearSolverNullspace.cpp:47-147.  `Hnsns₁` and `Hnsp₁` are the values between the two updates of `Hnsns` and `Hnsp`. -/
structure Decomposed (C : Canon (FNum p) nx np nw be bi ne ni u) where
  B : NullBlocks (FNum p) np be bi ne ni
  Hnsns₁ : Matrix (ne ⊕ ni) (ne ⊕ ni) (FNum p)
  Hnsp₁ : Matrix (ne ⊕ ni) (Fin np) (FNum p)
  Hbebe : ∀ i j, B.Hbebe i j = C.Hss (.inl (.inl i)) (.inl (.inl j))
  Hbebi : ∀ i j, B.Hbebi i j = C.Hss (.inl (.inl i)) (.inl (.inr j))
  Hbibe : ∀ i j, B.Hbibe i j = C.Hss (.inl (.inr i)) (.inl (.inl j))
  Hbibi : ∀ i j, B.Hbibi i j = C.Hss (.inl (.inr i)) (.inl (.inr j))
  Hnsbi : ∀ i j, B.Hnsbi i j = C.Hss (.inr i) (.inl (.inr j))
  Vpbe : ∀ q j, B.Vpbe q j = C.Vps q (.inl (.inl j))
  Vpbi : ∀ q j, B.Vpbi q j = C.Vps q (.inl (.inr j))
  /-- `Hbins -= Hbibi*Sbins` -/
  Hbins : ∀ i j, IsSub (C.Hss (.inl (.inr i)) (.inr j)) (fun k => B.Hbibi i k) (fun k => C.Sbins k j) (B.Hbins i j)
  /-- `Hbens -= Hbebi*Sbins` -/
  Hbens : ∀ i j, IsSub (C.Hss (.inl (.inl i)) (.inr j)) (fun k => B.Hbebi i k) (fun k => C.Sbins k j) (B.Hbens i j)
  /-- `Hnsns -= Hnsbi*Sbins` -/
  Hnsns : ∀ i j, IsSub (C.Hss (.inr i) (.inr j)) (fun k => B.Hnsbi i k) (fun k => C.Sbins k j) (Hnsns₁ i j)
  /-- `Vpns -= Vpbi*Sbins` -/
  Vpns : ∀ q j, IsSub (C.Vps q (.inr j)) (fun k => B.Vpbi q k) (fun k => C.Sbins k j) (B.Vpns q j)
  /-- `Hbip -= Hbibi*Sbip` -/
  Hbip : ∀ i q, IsSub (C.Hsp (.inl (.inr i)) q) (fun k => B.Hbibi i k) (fun k => C.Sbip k q) (B.Hbip i q)
  /-- `Hbep -= Hbebi*Sbip` -/
  Hbep : ∀ i q, IsSub (C.Hsp (.inl (.inl i)) q) (fun k => B.Hbebi i k) (fun k => C.Sbip k q) (B.Hbep i q)
  /-- `Hnsp -= Hnsbi*Sbip` -/
  Hnsp : ∀ i q, IsSub (C.Hsp (.inr i) q) (fun k => B.Hnsbi i k) (fun k => C.Sbip k q) (Hnsp₁ i q)
  /-- `Vpp -= Vpbi*Sbip` -/
  Vpp : ∀ q q', IsSub (C.Vpp q q') (fun k => B.Vpbi q k) (fun k => C.Sbip k q') (B.Vpp q q')
  /-- `Hnsbe -= tr(Sbins)*Hbibe` -/
  Hnsbe : ∀ i j, IsSub (C.Hss (.inr i) (.inl (.inl j))) (fun k => C.Sbins k i) (fun k => B.Hbibe k j) (B.Hnsbe i j)
  /-- `Hnsns -= tr(Sbins)*Hbins` -/
  Hnsns₂ : ∀ i j, IsSub (Hnsns₁ i j) (fun k => C.Sbins k i) (fun k => B.Hbins k j) (B.Hnsns i j)
  /-- `Hnsp -= tr(Sbins)*Hbip` -/
  Hnsp₂ : ∀ i q, IsSub (Hnsp₁ i q) (fun k => C.Sbins k i) (fun k => B.Hbip k q) (B.Hnsp i q)

/-- The vectors of `LinearSolverNullspace::solve`, LinearSolverNullspace.cpp:149-241; `e` numbers the unknowns of the reduced system. -/
structure Solved [DecidableEq be] {C : Canon (FNum p) nx np nw be bi ne ni u} (D : Decomposed C) (a : CVec (FNum p) np be bi ne ni) (e : NullT np be ne ni ≃ Fin N) (rank0 : ℕ) where
  abi : bi → FNum p
  abe : be → FNum p
  ans₁ : ne ⊕ ni → FNum p
  ans : ne ⊕ ni → FNum p
  ap : Fin np → FNum p
  /-- `abi -= Hbibi*awbi`, LinearSolverNullspace.cpp:207 -/
  abi_sub : ∀ i, IsSub (a.xs (.inl (.inr i))) (fun k => D.B.Hbibi i k) (fun k => a.wbs (.inr k)) (abi i)
  /-- `abe -= Hbebi*awbi` -/
  abe_sub : ∀ i, IsSub (a.xs (.inl (.inl i))) (fun k => D.B.Hbebi i k) (fun k => a.wbs (.inr k)) (abe i)
  /-- `ans -= Hnsbi*awbi` -/
  ans_sub : ∀ i, IsSub (a.xs (.inr i)) (fun k => D.B.Hnsbi i k) (fun k => a.wbs (.inr k)) (ans₁ i)
  /-- `ap -= Vpbi*awbi` -/
  ap_sub : ∀ q, IsSub (a.p q) (fun k => D.B.Vpbi q k) (fun k => a.wbs (.inr k)) (ap q)
  /-- `ans -= tr(Sbins)*abi`, LinearSolverNullspace.cpp:212 -/
  ans_sub₂ : ∀ i, IsSub (ans₁ i) (fun k => C.Sbins k i) abi (ans i)
  /-- `lu.decompose(M)` -/
  F : FLU.Factors fun i j => nullMatrix C D.B (e.symm i) (e.symm j)
  /-- `lu.solve(r)` with `r << abe, ans, ap, awbe` -/
  S : FLU.Solves F rank0 fun i => Sum.elim abe (Sum.elim ans (Sum.elim ap fun k => a.wbs (.inl k))) (e.symm i)
  dxbi : bi → FNum p
  dwbi : bi → FNum p
  /-- `dxbi = awbi - Sbins*dxns - Sbip*dp`, LinearSolverNullspace.cpp:232-235 -/
  dxbi_sub : ∀ i, IsSub (a.wbs (.inr i)) (Sum.elim (fun j => C.Sbins i j) fun q => C.Sbip i q) (Sum.elim (fun j => S.x (e (.inr (.inl j)))) fun q => S.x (e (.inr (.inr (.inl q))))) (dxbi i)
  /-- `dwbi = abi - Hbibe*dxbe - Hbins*dxns - Hbip*dp`, LinearSolverNullspace.cpp:233-236 -/
  dwbi_sub : ∀ i, IsSub (abi i) (Sum.elim (fun j => D.B.Hbibe i j) (Sum.elim (fun j => D.B.Hbins i j) fun q => D.B.Hbip i q))
    (Sum.elim (fun j => S.x (e (.inl j))) (Sum.elim (fun j => S.x (e (.inr (.inl j)))) fun q => S.x (e (.inr (.inr (.inl q)))))) (dwbi i)

/-- The step: `u.xs << dxbe, dxbi, dxns; u.p = dp; u.wbs << dwbe, dwbi`, LinearSolverNullspace.cpp:238-240. -/
def Solved.step [DecidableEq be] {C : Canon (FNum p) nx np nw be bi ne ni u} {D : Decomposed C} {a : CVec (FNum p) np be bi ne ni} {e : NullT np be ne ni ≃ Fin N} {rank0 : ℕ} (s : Solved D a e rank0) : CVec (FNum p) np be bi ne ni where
  xs := Sum.elim (Sum.elim (fun k => s.S.x (e (.inl k))) s.dxbi) fun j => s.S.x (e (.inr (.inl j)))
  p := fun q => s.S.x (e (.inr (.inr (.inl q))))
  wbs := Sum.elim (fun k => s.S.x (e (.inr (.inr (.inr k))))) s.dwbi

/-! ## One way of computing it -/

/-- The terms added from the last to the first one. -/
def value : Terms p → FNum p
  | [] => 0
  | t :: l => t.1 * t.2 + value l

/-- `a - Σ f k * g k` with the terms in the order of the list. -/
def sub {ι : Type} (l : List ι) (a : FNum p) (f g : ι → FNum p) : FNum p := value ((a, 1) :: Terms.neg (l.map fun k => (f k, g k)))

/-- `LinearSolverNullspace::decompose`, LinearSolverNullspace.cpp:47-147. -/
def blocks (lb : List bi) (C : Canon (FNum p) nx np nw be bi ne ni u) : NullBlocks (FNum p) np be bi ne ni :=
  let Hbibi : Matrix bi bi (FNum p) := fun i j => C.Hss (.inl (.inr i)) (.inl (.inr j))
  let Hbebi : Matrix be bi (FNum p) := fun i j => C.Hss (.inl (.inl i)) (.inl (.inr j))
  let Hnsbi : Matrix (ne ⊕ ni) bi (FNum p) := fun i j => C.Hss (.inr i) (.inl (.inr j))
  let Vpbi : Matrix (Fin np) bi (FNum p) := fun q j => C.Vps q (.inl (.inr j))
  let Hbibe : Matrix bi be (FNum p) := fun i j => C.Hss (.inl (.inr i)) (.inl (.inl j))
  let Hbins : Matrix bi (ne ⊕ ni) (FNum p) := fun i j => sub lb (C.Hss (.inl (.inr i)) (.inr j)) (fun k => Hbibi i k) (fun k => C.Sbins k j)
  let Hbip : Matrix bi (Fin np) (FNum p) := fun i q => sub lb (C.Hsp (.inl (.inr i)) q) (fun k => Hbibi i k) (fun k => C.Sbip k q)
  { Hbebe := fun i j => C.Hss (.inl (.inl i)) (.inl (.inl j))
    Hbebi := Hbebi
    Hbibe := Hbibe
    Hbibi := Hbibi
    Hbens := fun i j => sub lb (C.Hss (.inl (.inl i)) (.inr j)) (fun k => Hbebi i k) (fun k => C.Sbins k j)
    Hbins := Hbins
    Hnsbe := fun i j => sub lb (C.Hss (.inr i) (.inl (.inl j))) (fun k => C.Sbins k i) (fun k => Hbibe k j)
    Hnsbi := Hnsbi
    Hnsns := fun i j => sub lb (sub lb (C.Hss (.inr i) (.inr j)) (fun k => Hnsbi i k) (fun k => C.Sbins k j)) (fun k => C.Sbins k i) (fun k => Hbins k j)
    Hbep := fun i q => sub lb (C.Hsp (.inl (.inl i)) q) (fun k => Hbebi i k) (fun k => C.Sbip k q)
    Hbip := Hbip
    Hnsp := fun i q => sub lb (sub lb (C.Hsp (.inr i) q) (fun k => Hnsbi i k) (fun k => C.Sbip k q)) (fun k => C.Sbins k i) (fun k => Hbip k q)
    Vpbe := fun q j => C.Vps q (.inl (.inl j))
    Vpbi := Vpbi
    Vpns := fun q j => sub lb (C.Vps q (.inr j)) (fun k => Vpbi q k) (fun k => C.Sbins k j)
    Vpp := fun q q' => sub lb (C.Vpp q q') (fun k => Vpbi q k) (fun k => C.Sbip k q') }

end Optima.FNull
