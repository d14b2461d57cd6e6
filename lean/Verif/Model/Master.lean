import Verif.Model.EchelonW
import Verif.Model.IndexUtils

/-!
# Model of `MasterMatrix`, `MasterMatrixOps`, `CanonicalMatrix` and `Canonicalizer`

Index vectors are lists.  The blocks `(xbe, xbi)`, `(xne, xni)` and `xu` of the canonical form are indexed by sum types: `topRows`, `segment`, `tail`, … of the code select a summand.
-/

namespace Optima

open Matrix

variable {K : Type*} {nx np nw : ℕ}

/-- `MasterVectorBase`, MasterVector.hpp:33-39. -/
@[ext] structure MVec (K : Type*) (nx np nw : ℕ) where
  x : Fin nx → K
  p : Fin np → K
  w : Fin nw → K

/-- `MasterMatrix`, MasterMatrix.hpp:30-55 with the views of MatrixViewH.hpp, MatrixViewV.hpp and MatrixViewW.hpp (`W = [Wx Wp]`). -/
structure MasterMatrix (K : Type*) (nx np nw : ℕ) where
  Hxx : Matrix (Fin nx) (Fin nx) K
  Hxp : Matrix (Fin nx) (Fin np) K
  isHxxDiag : Bool
  Vpx : Matrix (Fin np) (Fin nx) K
  Vpp : Matrix (Fin np) (Fin np) K
  Wx : Matrix (Fin nw) (Fin nx) K
  Wp : Matrix (Fin nw) (Fin np) K
  RWQ : Ech.RWQ K nx np nw
  js : List (Fin nx)
  ju : List (Fin nx)

/-- Eigen's `v(idx) = b`: the entries are written in order. -/
def assignVec {n : ℕ} (v : Fin n → K) (idx : List (Fin n)) (b : Fin idx.length → K) : Fin n → K :=
  (List.finRange idx.length).foldl (fun v k => Function.update v (idx.get k) (b k)) v

/-- Eigen's `A(rows, cols) = B`: the entries are written column by column. -/
def assignMat {m n : ℕ} (A : Matrix (Fin m) (Fin n) K) (rows : List (Fin m)) (cols : List (Fin n)) (B : Matrix (Fin rows.length) (Fin cols.length) K) :
    Matrix (Fin m) (Fin n) K :=
  (List.finRange cols.length).foldl (fun A c => fun i j => if j = cols.get c then assignVec (fun i => A i j) rows (fun r => B r c) i else A i j) A

/-- `MasterMatrix::operator Matrix`, MasterMatrix.cpp:22-46.  The selection `all` of rows or columns is `List.finRange`. -/
def MasterMatrix.dense [Field K] (M : MasterMatrix K nx np nw) : Matrix (Fin nx ⊕ Fin np ⊕ Fin nw) (Fin nx ⊕ Fin np ⊕ Fin nw) K :=
  let Ws := M.Wx.submatrix id M.js.get
  let Hxx := assignMat 0 M.js M.js (M.Hxx.submatrix M.js.get M.js.get)
  let Hxx := assignMat Hxx M.ju M.ju 1
  let Hxp := fun i q => assignVec 0 M.js (fun k => M.Hxp (M.js.get k) q) i
  let WxT := fun i r => assignVec 0 M.js (fun k => Wsᵀ k r) i
  let Vpx := fun q i => assignVec 0 M.js (fun k => M.Vpx q (M.js.get k)) i
  let Wx := fun r i => assignVec 0 M.js (fun k => Ws r k) i
  fun r c => match r, c with
    | .inl i, .inl j => Hxx i j
    | .inl i, .inr (.inl q) => Hxp i q
    | .inl i, .inr (.inr l) => WxT i l
    | .inr (.inl q), .inl j => Vpx q j
    | .inr (.inl q), .inr (.inl q') => M.Vpp q q'
    | .inr (.inl _), .inr (.inr _) => 0
    | .inr (.inr l), .inl j => Wx l j
    | .inr (.inr l), .inr (.inl q) => M.Wp l q
    | .inr (.inr _), .inr (.inr _) => 0

/-- `operator*(MasterMatrix, MasterVectorView)`, MasterMatrixOps.cpp:23-47. -/
def MasterMatrix.mul [Field K] (M : MasterMatrix K nx np nw) (u : MVec K nx np nw) : MVec K nx np nw :=
  let us := u.x ∘ M.js.get
  let uu := u.x ∘ M.ju.get
  let Hss := M.Hxx.submatrix M.js.get M.js.get
  let Hsp := M.Hxp.submatrix M.js.get id
  let Vps := M.Vpx.submatrix id M.js.get
  let Ws := M.Wx.submatrix id M.js.get
  { x := assignVec (assignVec u.x M.js (Hss *ᵥ us + Hsp *ᵥ u.p + Wsᵀ *ᵥ u.w)) M.ju uu
    p := Vps *ᵥ us + M.Vpp *ᵥ u.p
    w := Ws *ᵥ us + M.Wp *ᵥ u.p }

/-- `operator*(MasterMatrixTrExpr, MasterVectorView)`, MasterMatrixOps.cpp:50-74. -/
def MasterMatrix.trMul [Field K] (M : MasterMatrix K nx np nw) (u : MVec K nx np nw) : MVec K nx np nw :=
  let us := u.x ∘ M.js.get
  let uu := u.x ∘ M.ju.get
  let Hss := M.Hxx.submatrix M.js.get M.js.get
  let Hsp := M.Hxp.submatrix M.js.get id
  let Vps := M.Vpx.submatrix id M.js.get
  let Ws := M.Wx.submatrix id M.js.get
  { x := assignVec (assignVec u.x M.js (Hssᵀ *ᵥ us + Vpsᵀ *ᵥ u.p + Wsᵀ *ᵥ u.w)) M.ju uu
    p := Hspᵀ *ᵥ us + M.Vppᵀ *ᵥ u.p + M.Wpᵀ *ᵥ u.w
    w := Ws *ᵥ us }

/-- `CanonicalMatrix`, CanonicalMatrix.hpp:31-45, with the dimensions of CanonicalDims as index types: `be`, `bi` (basic), `ne`, `ni` (non-basic), `u` (unstable). -/
structure Canon (K : Type*) (nx np nw : ℕ) (be bi ne ni u : Type) where
  Hss : Matrix ((be ⊕ bi) ⊕ (ne ⊕ ni)) ((be ⊕ bi) ⊕ (ne ⊕ ni)) K
  Hsp : Matrix ((be ⊕ bi) ⊕ (ne ⊕ ni)) (Fin np) K
  Vps : Matrix (Fin np) ((be ⊕ bi) ⊕ (ne ⊕ ni)) K
  Vpp : Matrix (Fin np) (Fin np) K
  Sbsns : Matrix (be ⊕ bi) (ne ⊕ ni) K
  Sbsp : Matrix (be ⊕ bi) (Fin np) K
  Rbs : Matrix (be ⊕ bi) (Fin nw) K
  jb : be ⊕ bi → Fin nx
  jn : (ne ⊕ ni) ⊕ u → Fin nx
  js : (be ⊕ bi) ⊕ (ne ⊕ ni) → Fin nx
  ju : u → Fin nx

/-- A canonical matrix together with its dimensions. -/
structure CanonPack (K : Type*) (nx np nw : ℕ) where
  nbe : ℕ
  nbi : ℕ
  nne : ℕ
  nni : ℕ
  nnu : ℕ
  mat : Canon K nx np nw (Fin nbe) (Fin nbi) (Fin nne) (Fin nni) (Fin nnu)

/-- Outcome of `Canonicalizer::update`: normal, the `error(...)` of line 142, or sizes of blocks that do not add up. -/
inductive COut (α : Type*)
  | ok (a : α)
  | error
  | sizeMismatch

/-- `norminf` (Eigen's `lpNorm<Infinity>`, zero for an empty vector), Utils.hpp. -/
def normInf [Field K] [LinearOrder K] {n : ℕ} (v : Fin n → K) : K := (List.finRange n).foldl (fun m i => max m |v i|) 0

variable [Field K] [LinearOrder K]

/-- `jbs_kth_is_explicit`, Canonicalizer.cpp:150-157. -/
def basicExplicit (M : MasterMatrix K nx np nw) (k : Fin M.RWQ.nb) : Bool :=
  let idx := M.RWQ.jb k
  decide (|M.Hxx idx idx| ≥ max 1 (normInf fun q => M.Vpx q idx))

/-- `jns_kth_is_explicit`, Canonicalizer.cpp:160-167. -/
def nonbasicExplicit (M : MasterMatrix K nx np nw) (k : Fin M.RWQ.nn) : Bool :=
  let idx := M.RWQ.jn k
  decide (|M.Hxx idx idx| ≥ max (normInf fun b => M.RWQ.Sbn b k) (normInf fun q => M.Vpx q idx))

/-- The canonical matrix for given orders `Kb = (Kbe, Kbi)`, `Kn = (Kne, Kni, Knu)` of the basic and non-basic variables, Canonicalizer.cpp:176-281.
    `Kb.transpose().applyThisOnTheLeft(S)` moves row `Kb[i]` to row `i`; `Kn.applyThisOnTheRight(S)` moves column `Kn[i]` to column `i`.
    The member `R` keeps all rows of `RWQ.R`; only its first `nbs` rows are ever read. `jsu = (jbs, jns, jnu)`. -/
def canonOf (M : MasterMatrix K nx np nw) (Kbe Kbi : List (Fin M.RWQ.nb)) (Kne Kni Knu : List (Fin M.RWQ.nn)) : CanonPack K nx np nw where
  nbe := Kbe.length
  nbi := Kbi.length
  nne := Kne.length
  nni := Kni.length
  nnu := Knu.length
  mat :=
    let kb := Sum.elim Kbe.get Kbi.get
    let kn := Sum.elim (Sum.elim Kne.get Kni.get) Knu.get
    let jb := M.RWQ.jb ∘ kb
    let jn := M.RWQ.jn ∘ kn
    let js := Sum.elim jb (jn ∘ Sum.inl)
    let ju := jn ∘ Sum.inr
    { Hss := M.Hxx.submatrix js js
      Hsp := M.Hxp.submatrix js id
      Vps := M.Vpx.submatrix id js
      Vpp := M.Vpp
      Sbsns := M.RWQ.Sbn.submatrix kb (kn ∘ Sum.inl)
      Sbsp := M.RWQ.Sbp.submatrix kb id
      Rbs := M.RWQ.Rb.submatrix kb id
      jb := jb
      jn := jn
      js := js
      ju := ju }

/-- `Canonicalizer::Impl::update` and `canonicalMatrix`, Canonicalizer.cpp:71-281, for any implementation of `std::partition`.
    The code sets `ns = nx - ju.size()` (line 87) and takes `js = jsu.head(ns)`; if that is not `nbs + nns` the blocks of `Hss` do not have the sizes the linear solvers assume
    (outcome `sizeMismatch`), and otherwise `js = (jbs, jns)` and `ju = jnu`. The matrices `Ws`, `Wu`, `Wp` (lines 253-260) are not part of the result. -/
def canonicalize (M : MasterMatrix K nx np nw) (Pb : Idx.PartitionImpl (Fin M.RWQ.nb)) (Pn : Idx.PartitionImpl (Fin M.RWQ.nn)) : COut (CanonPack K nx np nw) :=
  let stable : Fin nx → Bool := fun i => !M.ju.contains i
  let rb := Idx.moveLeftIf Pb (List.finRange M.RWQ.nb) (fun k => stable (M.RWQ.jb k))
  let rn := Idx.moveLeftIf Pn (List.finRange M.RWQ.nn) (fun k => stable (M.RWQ.jn k))
  let nbs := rb.2
  let nns := rn.2
  if M.RWQ.nb - nbs > 0 then .error
  else
    let rbs := Idx.moveLeftIf Pb (rb.1.take nbs) (basicExplicit M)
    let rns := Idx.moveLeftIf Pn (rn.1.take nns) (nonbasicExplicit M)
    if nx = nbs + nns + M.ju.length then
      .ok (canonOf M (rbs.1.take rbs.2) (rbs.1.drop rbs.2) (rns.1.take rns.2) (rns.1.drop rns.2) (rn.1.drop nns))
    else .sizeMismatch

end Optima
