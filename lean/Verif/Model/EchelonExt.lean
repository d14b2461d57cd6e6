import Verif.Model.Echelon
import Mathlib.Data.Matrix.ColumnRowPartitioned
import Mathlib.Logic.Equiv.Fin.Basic

/-!
# Model of `Optima/EchelonizerExtended.cpp`

`Mat` packs a matrix with its dimensions, `EchFor M` is the state of an `Echelonizer` whose member `A` is `M`; the member `echelonizerJ` lives across calls and keeps the
matrix of the last non-empty `J`.  `Eigen::FullPivLU` is an arbitrary oracle with the contract of `FullPivLU`.  Not modelled: the printed warning.  The clean-up with `sigma` is modelled in exact arithmetic here and in rounded arithmetic in `Model/FloatEchelon.lean`.
-/

namespace Optima.Ech

open Matrix

variable {K : Type*} {n mA nbA nnA nlA mJ nbJ nnJ nlJ : ℕ}

/-- A matrix together with its dimensions. -/
abbrev Mat (K : Type*) := Σ m n : ℕ, Matrix (Fin m) (Fin n) K

/-- State of an `Echelonizer` for the matrix `M`. -/
structure EchFor (M : Mat K) where
  nb : ℕ
  nn : ℕ
  nl : ℕ
  e : State K M.1 M.2.1 nb nn nl

/-- Result of a rank-revealing factorisation. -/
structure LURes [Field K] (M : Mat K) where
  nb : ℕ
  nn : ℕ
  nl : ℕ
  lu : FullPivLU M.2.2 nb nn nl

/-- `Eigen::FullPivLU`: any function that returns factors meeting the contract. -/
abbrev LUOracle (K : Type*) [Field K] := ∀ M : Mat K, LURes M

/-- An `Echelonizer` object: default constructed (`none`) or computed. -/
abbrev Machine (K : Type*) := Option (Σ M : Mat K, EchFor M)

/-- `Echelonizer::compute(Anew)`, Echelonizer.cpp:111-173, with the early return for the identical matrix (112-113). -/
def Machine.compute [Field K] [DecidableEq K] (o : LUOracle K) (s : Machine K) (M : Mat K) : EchFor M :=
  match s with
  | none => ⟨_, _, _, Ech.compute (o M).lu⟩
  | some ⟨M', f⟩ => if h : M' = M then h ▸ f else ⟨_, _, _, Ech.compute (o M).lu⟩

/-- `J12.rightCols(nnA)` after `J2 -= J1 * SA`, EchelonizerExtended.cpp:104-107. -/
def reducedJ [Field K] (eA : State K mA n nbA nnA nlA) (J : Matrix (Fin mJ) (Fin n) K) : Matrix (Fin mJ) (Fin nnA) K :=
  let J12 : Matrix (Fin mJ) (Fin nbA ⊕ Fin nnA) K := J.submatrix id eA.Q
  let J1 : Matrix (Fin mJ) (Fin nbA) K := J12.submatrix id Sum.inl
  J12.submatrix id Sum.inr - J1 * eA.S

/-- Members `R, S, Q` of `EchelonizerExtended::Impl` in blocks, EchelonizerExtended.cpp:126-161. -/
structure Blocks (K : Type*) (n mA nbA nlA mJ nbJ nnJ nlJ : ℕ) where
  Rt : Matrix (Fin nbA ⊕ Fin nbJ) (Fin mA ⊕ Fin mJ) K
  Rb : Matrix (Fin nlA ⊕ Fin nlJ) (Fin mA ⊕ Fin mJ) K
  S : Matrix (Fin nbA ⊕ Fin nbJ) (Fin nnJ) K
  qb : Fin nbA ⊕ Fin nbJ → Fin n
  qn : Fin nnJ → Fin n

/-- EchelonizerExtended.cpp:126-161. -/
def extend [Field K] (eA : State K mA n nbA nnA nlA) (J : Matrix (Fin mJ) (Fin n) K) (eJ : State K mJ nnA nbJ nnJ nlJ) :
    Blocks K n mA nbA nlA mJ nbJ nnJ nlJ :=
  let J1 : Matrix (Fin mJ) (Fin nbA) K := J.submatrix id (eA.Q ∘ Sum.inl)
  let SA12 : Matrix (Fin nbA) (Fin nbJ ⊕ Fin nnJ) K := eA.S.submatrix id eJ.Q
  let SA1 : Matrix (Fin nbA) (Fin nbJ) K := SA12.submatrix id Sum.inl
  let SA2 : Matrix (Fin nbA) (Fin nnJ) K := SA12.submatrix id Sum.inr - SA1 * eJ.S
  let RAt : Matrix (Fin nbA) (Fin mA) K := eA.R.submatrix Sum.inl id
  let RAb : Matrix (Fin nlA) (Fin mA) K := eA.R.submatrix Sum.inr id
  let RJt : Matrix (Fin nbJ) (Fin mJ) K := eJ.R.submatrix Sum.inl id
  let RJb : Matrix (Fin nlJ) (Fin mJ) K := eJ.R.submatrix Sum.inr id
  { Rt := fromBlocks (RAt + SA1 * RJt * J1 * RAt) (-SA1 * RJt) (-RJt * J1 * RAt) RJt
    Rb := fromBlocks RAb 0 (-RJb * J1 * RAt) RJb
    S := fromRows SA2 eJ.S
    qb := Sum.elim (fun i => eA.Q (Sum.inl i)) (fun j => eA.Q (Sum.inr (eJ.Q (Sum.inl j))))
    qn := fun k => eA.Q (Sum.inr (eJ.Q (Sum.inr k))) }

/-- `R, S, Q` for a matrix `W`; the number of basic variables is `S.rows()`. -/
structure Form (W : Mat K) where
  nb : ℕ
  nn : ℕ
  nl : ℕ
  R : Matrix (Fin nb ⊕ Fin nl) (Fin W.1) K
  S : Matrix (Fin nb) (Fin nn) K
  Q : Fin nb ⊕ Fin nn → Fin W.2.1

/-- `[A; J]`. -/
abbrev stack (A : Matrix (Fin mA) (Fin n) K) (J : Matrix (Fin mJ) (Fin n) K) : Mat K :=
  ⟨mA + mJ, n, (fromRows A J).submatrix finSumFinEquiv.symm id⟩

/-- The blocks laid out contiguously, as in memory. -/
def Blocks.flat (b : Blocks K n mA nbA nlA mJ nbJ nnJ nlJ) (A : Matrix (Fin mA) (Fin n) K) (J : Matrix (Fin mJ) (Fin n) K) : Form (stack A J) where
  nb := nbA + nbJ
  nn := nnJ
  nl := nlA + nlJ
  R := (fromRows (b.Rt.submatrix finSumFinEquiv.symm finSumFinEquiv.symm) (b.Rb.submatrix finSumFinEquiv.symm finSumFinEquiv.symm))
  S := b.S.submatrix finSumFinEquiv.symm id
  Q := Sum.elim (b.qb ∘ finSumFinEquiv.symm) b.qn

/-- `updateOrdering(Kb, Kn)` and the reordering at the end of the update, EchelonizerExtended.cpp:186-199, 202-233:
    the same statements as in `Echelonizer` (`Ech.reorder`). -/
def Form.reorder {W : Mat K} (f : Form W) (Kb : Fin f.nb → Fin f.nb) (Kn : Fin f.nn → Fin f.nn) : Form W :=
  let e := Ech.reorder ⟨f.R, f.S, f.Q, id, id, f.R, f.S, f.Q⟩ Kb Kn
  ⟨f.nb, f.nn, f.nl, e.R, e.S, e.Q⟩

/-- Sorting by weights, EchelonizerExtended.cpp:167-199 (`Kb`, `Kn` start as identities). -/
def Form.sortBy [LinearOrder K] {W : Mat K} (sort : SortImpl K) (f : Form W) (w : Fin W.2.1 → K) : Form W :=
  f.reorder (sort.run (fun l => w (f.Q (Sum.inl l))) id) (sort.run (fun l => w (f.Q (Sum.inr l))) id)

/-- The canonical form held by an echelonizer. -/
def EchFor.form {M : Mat K} (f : EchFor M) : Form M := ⟨f.nb, f.nn, f.nl, f.e.R, f.e.S, f.e.Q⟩

/-- `updateWithPriorityWeights` on a packed echelonizer. -/
def EchFor.priority [Field K] [LinearOrder K] (sort : SortImpl K) (thr : K) {M : Mat K} (f : EchFor M) (w : Fin M.2.1 → K) : EchFor M :=
  ⟨f.nb, f.nn, f.nl, updateWithPriorityWeights sort thr f.e w⟩

/-- Members of `EchelonizerExtended::Impl`; `W` (the matrix that `R`, `S`, `Q` are meant for) is a ghost. -/
structure ExtState {K : Type*} {mA n : ℕ} (A : Matrix (Fin mA) (Fin n) K) where
  eA : EchFor (⟨mA, n, A⟩ : Mat K)
  eJ : Machine K
  W : Mat K
  form : Form W

/-- `EchelonizerExtended(A)`, EchelonizerExtended.cpp:64-75. -/
def extInit [Field K] [DecidableEq K] (o : LUOracle K) (A : Matrix (Fin mA) (Fin n) K) : ExtState A :=
  let f := Machine.compute o none ⟨mA, n, A⟩
  ⟨f, none, ⟨mA, n, A⟩, f.form⟩

/-- `updateWithPriorityWeights(J, weights)`, EchelonizerExtended.cpp:78-200. -/
def extUpdate [Field K] [LinearOrder K] (o : LUOracle K) (sort : SortImpl K) (thr : K) {A : Matrix (Fin mA) (Fin n) K} (s : ExtState A)
    (J : Matrix (Fin mJ) (Fin n) K) (w : Fin n → K) : ExtState A :=
  let eA := s.eA.priority sort thr w
  if mJ = 0 ∨ n = 0 then ⟨eA, s.eJ, ⟨mA, n, A⟩, eA.form⟩
  else
    let J2 : Mat K := ⟨mJ, eA.nn, reducedJ eA.e J⟩
    let fJ := (Machine.compute o s.eJ J2).priority sort thr (fun k => w (eA.e.Q (Sum.inr k)))
    ⟨eA, some ⟨J2, fJ⟩, stack A J, ((extend eA.e J fJ.e).flat A J).sortBy sort w⟩

/-- `numEquations()`, EchelonizerExtended.cpp:274-277 (a default-constructed `echelonizerJ` has an empty matrix). -/
def ExtState.numEquations {A : Matrix (Fin mA) (Fin n) K} (s : ExtState A) : ℕ :=
  mA + (match s.eJ with | none => 0 | some ⟨M, _⟩ => M.1)

/-- `numBasicVariables()`, EchelonizerExtended.cpp:279-282. -/
def ExtState.numBasicVariables {A : Matrix (Fin mA) (Fin n) K} (s : ExtState A) : ℕ := s.form.nb

/-- Calls on an `EchelonizerExtended`. -/
inductive ExtOp (K : Type*) (n : ℕ)
  | update (mJ : ℕ) (J : Matrix (Fin mJ) (Fin n) K) (w : Fin n → K)
  | ordering (Kb Kn : ℕ → ℕ)
  | clean (sigma : K)

/-- Restriction of a function on naturals to positions (`Kb`, `Kn` are index vectors); out-of-range entries fall back to the position itself, excluded by `ExtOp.ok`. -/
def restrict (k : ℕ) (f : ℕ → ℕ) (i : Fin k) : Fin k := if h : f i < k then ⟨f i, h⟩ else i

/-- One call. -/
def extStep [Field K] [LinearOrder K] (o : LUOracle K) (sort : SortImpl K) (thr : K) {A : Matrix (Fin mA) (Fin n) K} (s : ExtState A) :
    ExtOp K n → ExtState A
  | .update _ J w => extUpdate o sort thr s J w
  | .ordering Kb Kn => { s with form := s.form.reorder (restrict s.form.nb Kb) (restrict s.form.nn Kn) }
  | .clean sigma => { s with form := { s.form with S := fun i k => s.form.S i k + sigma - sigma, R := fun r c => s.form.R r c + sigma - sigma } }

/-- `updateOrdering` needs permutations. -/
def ExtOp.ok {A : Matrix (Fin mA) (Fin n) K} (s : ExtState A) : ExtOp K n → Prop
  | .ordering Kb Kn => Function.Bijective (restrict s.form.nb Kb) ∧ Function.Bijective (restrict s.form.nn Kn)
  | _ => True

/-- Reachable states. -/
inductive ExtReach [Field K] [LinearOrder K] (o : LUOracle K) (sort : SortImpl K) (thr : K) (A : Matrix (Fin mA) (Fin n) K) : ExtState A → Prop
  | init : ExtReach o sort thr A (extInit o A)
  | step (s : ExtState A) (op : ExtOp K n) : ExtReach o sort thr A s → op.ok s → ExtReach o sort thr A (extStep o sort thr s op)

end Optima.Ech
