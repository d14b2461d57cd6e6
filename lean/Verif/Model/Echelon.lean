import Verif.Model.Triangular
import Mathlib.Data.Matrix.Block
import Mathlib.Algebra.Order.Field.Basic
import Mathlib.Data.List.FinRange
import Mathlib.Logic.Equiv.Basic

/-!
# Model of `Optima/Echelonizer.cpp`

The state is typed by its dimensions: `m` equations, `n` variables, `nb` basic variables (the rank), `nn = n - nb` non-basic variables and
`nl = m - nb` remaining (linearly dependent) rows.  The rows of `R` are indexed by `Fin nb ⊕ Fin nl` (`R.topRows(nb)` are the rows `inl i`), the
entries of the index vector `Q` by `Fin nb ⊕ Fin nn` (`Q.head(nb)`, `Q.tail(nn)`).  That `Q` is a permutation is *not* part of the type, it is proved.
Arithmetic is exact.
-/

namespace Optima.Ech

open Matrix

variable {K : Type*} {m n nb nn nl : ℕ}

/-- Members `R, S, Q, Kb, Kn, R0, S0, Q0` of `Echelonizer::Impl`, Echelonizer.cpp:36-93.  (`P`, `Ptr` are constants of the LU factorisation; `Qaux`,
    `inv_ordering` are never read; `M` is a temporary.) -/
structure State (K : Type*) (m n nb nn nl : ℕ) where
  R : Matrix (Fin nb ⊕ Fin nl) (Fin m) K
  S : Matrix (Fin nb) (Fin nn) K
  Q : Fin nb ⊕ Fin nn → Fin n
  Kb : Fin nb → Fin nb
  Kn : Fin nn → Fin nn
  R0 : Matrix (Fin nb ⊕ Fin nl) (Fin m) K
  S0 : Matrix (Fin nb) (Fin nn) K
  Q0 : Fin nb ⊕ Fin nn → Fin n

/-- What the code uses of `Eigen::FullPivLU` (Echelonizer.cpp:126-144): permutations `p`, `q` and the blocks of `P*A*Q = L*U` where the rank found is `nb`:
    `L = [Lbb 0; Lnb L22]`, `U = [Ubb Ubn; 0 U22]`; `Z = L22*U22` is the block that the rank decision neglects (`Z = 0` if the decision is exact). -/
structure FullPivLU [Field K] (A : Matrix (Fin m) (Fin n) K) (nb nn nl : ℕ) where
  p : Fin nb ⊕ Fin nl → Fin m
  q : Fin nb ⊕ Fin nn → Fin n
  pbij : Function.Bijective p
  qbij : Function.Bijective q
  Lbb : Matrix (Fin nb) (Fin nb) K
  Lnb : Matrix (Fin nl) (Fin nb) K
  Ubb : Matrix (Fin nb) (Fin nb) K
  Ubn : Matrix (Fin nb) (Fin nn) K
  Z : Matrix (Fin nl) (Fin nn) K
  unit_diag : ∀ i, Lbb i i = 1
  lower : ∀ i j, i < j → Lbb i j = 0
  pivots : ∀ i, Ubb i i ≠ 0
  upper : ∀ i j, j < i → Ubb i j = 0
  factor : A.submatrix p q = fromBlocks (Lbb * Ubb) (Lbb * Ubn) (Lnb * Ubb) (Lnb * Ubn + Z)

/-- The permutation matrix whose row `r` is the unit vector `e_{p r}` (`P.asPermutation()`). -/
def permMat [Field K] {ι : Type*} (p : ι → Fin m) : Matrix ι (Fin m) K := fun r c => if p r = c then 1 else 0

/-- `Echelonizer::Impl::compute` for a matrix that is not the current one, Echelonizer.cpp:111-173.  The triangular solves are modelled by substitution. -/
def compute [Field K] {A : Matrix (Fin m) (Fin n) K} (lu : FullPivLU A nb nn nl) : State K m n nb nn nl :=
  -- R = P.asPermutation()
  let P : Matrix (Fin nb ⊕ Fin nl) (Fin m) K := permMat lu.p
  -- R.topRows(nb) = Lbb.solve(R.topRows(nb)); R.topRows(nb) = Ubb.solve(R.topRows(nb))
  let Rt : Matrix (Fin nb) (Fin m) K := Tri.solveCols (Tri.upperSolve lu.Ubb) (Tri.solveCols (Tri.lowerSolve lu.Lbb) (P.submatrix Sum.inl id))
  let R : Matrix (Fin nb ⊕ Fin nl) (Fin m) K := fun r c => match r with
    | Sum.inl i => Rt i c
    | Sum.inr l => P (Sum.inr l) c
  let S := Tri.solveCols (Tri.upperSolve lu.Ubb) lu.Ubn
  { R := R, S := S, Q := lu.q, Kb := id, Kn := id, R0 := R, S0 := S, Q0 := lu.q }

/-- The assertion of `updateWithSwapBasicVariable` on the pivot, Echelonizer.cpp:193. -/
def swapAllowed [Field K] [LinearOrder K] (thr : K) (e : State K m n nb nn nl) (ib : Fin nb) (jn : Fin nn) : Bool := decide (|e.S ib jn| > thr)

/-- `updateWithSwapBasicVariable(ib, in)`, Echelonizer.cpp:176-218, when the assertions hold (`S(ib,in)` is not zero). The row loops write one row per pass
    and read only that row and row `ib`. -/
def swap [Field K] (e : State K m n nb nn nl) (ib : Fin nb) (jn : Fin nn) : State K m n nb nn nl :=
  let M : Fin nb → K := fun i => e.S i jn
  let aux := 1 / e.S ib jn
  let R : Matrix (Fin nb ⊕ Fin nl) (Fin m) K := fun r c => match r with
    | Sum.inl i => if i = ib then e.R (Sum.inl ib) c * aux else e.R (Sum.inl i) c - e.S i jn * (e.R (Sum.inl ib) c * aux)
    | Sum.inr l => e.R (Sum.inr l) c
  let S1 : Matrix (Fin nb) (Fin nn) K := fun i k => if i = ib then e.S ib k * aux else e.S i k - e.S i jn * (e.S ib k * aux)
  let S2 : Matrix (Fin nb) (Fin nn) K := fun i k => if k = jn then -M i * aux else S1 i k
  let S3 : Matrix (Fin nb) (Fin nn) K := fun i k => if i = ib ∧ k = jn then aux else S2 i k
  { e with R := R, S := S3, Q := e.Q ∘ Equiv.swap (Sum.inl ib) (Sum.inr jn) }

/-- Reordering of basic and non-basic variables, Echelonizer.cpp:265-286 and 298-328: `S(Kb,Kn)`, `R.topRows(Kb)`, `ibasic(Kb)`, `inonbasic(Kn)`. -/
def reorder (e : State K m n nb nn nl) (Kb : Fin nb → Fin nb) (Kn : Fin nn → Fin nn) : State K m n nb nn nl :=
  { e with
    S := fun i k => e.S (Kb i) (Kn k)
    R := fun r c => match r with
      | Sum.inl i => e.R (Sum.inl (Kb i)) c
      | Sum.inr l => e.R (Sum.inr l) c
    Q := fun v => match v with
      | Sum.inl i => e.Q (Sum.inl (Kb i))
      | Sum.inr k => e.Q (Sum.inr (Kn k)) }

/-- `std::sort` of an index array with comparator `key[l] > key[r]`: any implementation that permutes the array into descending order of the keys. -/
structure SortImpl (K : Type*) [LinearOrder K] where
  run : ∀ {k : ℕ}, (Fin k → K) → (Fin k → Fin k) → (Fin k → Fin k)
  perm : ∀ {k : ℕ} (key : Fin k → K) (a : Fin k → Fin k), ∃ π : Equiv.Perm (Fin k), run key a = a ∘ π
  sorted : ∀ {k : ℕ} (key : Fin k → K) (a : Fin k → Fin k) (i j : Fin k), i ≤ j → key (run key a j) ≤ key (run key a i)

/-- `find_nonbasic_candidate`, Echelonizer.cpp:239-252: `none` is the maximum `-inf` of an empty set of candidates (then `j` is the unused initial 0). -/
def findCandidate [Field K] [LinearOrder K] (thr : K) (e : State K m n nb nn nl) (w : Fin n → K) (i : Fin nb) : Option (K × Fin nn) :=
  (List.finRange nn).foldl (fun acc k =>
    if |e.S i k| ≤ thr then acc
    else
      let tmp := w (e.Q (Sum.inr k))
      match acc with
      | none => some (tmp, k)
      | some (mx, j) => if tmp > mx then some (tmp, k) else some (mx, j)) none

/-- One pass of the loop over the basic variables, Echelonizer.cpp:255-263. -/
def priorityStep [Field K] [LinearOrder K] (thr : K) (w : Fin n → K) (e : State K m n nb nn nl) (i : Fin nb) : State K m n nb nn nl :=
  match findCandidate thr e w i with
  | none => e
  | some (wj, j) => if w (e.Q (Sum.inl i)) < wj then swap e i j else e

/-- `updateWithPriorityWeights(w)`, Echelonizer.cpp:221-287.  `Kb`, `Kn` keep their contents between calls.  (The guard `nn > 0` is implied: with `nn = 0` there
    are no candidates.) -/
def updateWithPriorityWeights [Field K] [LinearOrder K] (sort : SortImpl K) (thr : K) (e : State K m n nb nn nl) (w : Fin n → K) :
    State K m n nb nn nl :=
  let e1 := (List.finRange nb).foldl (priorityStep thr w) e
  let Kb := sort.run (fun l => w (e1.Q (Sum.inl l))) e1.Kb
  let Kn := sort.run (fun l => w (e1.Q (Sum.inr l))) e1.Kn
  reorder { e1 with Kb := Kb, Kn := Kn } Kb Kn

/-- `reset`, Echelonizer.cpp:290-295. -/
def reset (e : State K m n nb nn nl) : State K m n nb nn nl := { e with R := e.R0, S := e.S0, Q := e.Q0 }

/-- `cleanResidualRoundoffErrors`, Echelonizer.cpp:331-338: `+= sigma; -= sigma` on all entries (exact arithmetic). -/
def clean [Field K] (sigma : K) (e : State K m n nb nn nl) : State K m n nb nn nl :=
  { e with S := fun i k => e.S i k + sigma - sigma, R := fun r c => e.R r c + sigma - sigma }

/-- `C()`, Echelonizer.cpp:399-407: `[I S; 0 0]`. -/
def canonicalC [Field K] (e : State K m n nb nn nl) : Matrix (Fin nb ⊕ Fin nl) (Fin nb ⊕ Fin nn) K := fromBlocks 1 e.S 0 0

/-- The operations of an `Echelonizer` on a given matrix, as called by a user.  `reorder` needs permutations (the code does not check). -/
inductive Op (K : Type*) (n nb nn : ℕ)
  | swap (ib : Fin nb) (jn : Fin nn)
  | priority (w : Fin n → K)
  | ordering (Kb : Fin nb → Fin nb) (Kn : Fin nn → Fin nn)
  | reset
  | clean (sigma : K)
  /-- `compute` with the same matrix returns at once, Echelonizer.cpp:113-115. -/
  | recompute

/-- Preconditions the code relies on: pivot above the threshold (asserted), permutations. -/
def Op.ok [Field K] [LinearOrder K] (thr : K) (e : State K m n nb nn nl) : Op K n nb nn → Prop
  | .swap ib jn => swapAllowed thr e ib jn = true
  | .ordering Kb Kn => Function.Bijective Kb ∧ Function.Bijective Kn
  | _ => True

def step [Field K] [LinearOrder K] (sort : SortImpl K) (thr : K) (e : State K m n nb nn nl) : Op K n nb nn → State K m n nb nn nl
  | .swap ib jn => swap e ib jn
  | .priority w => updateWithPriorityWeights sort thr e w
  | .ordering Kb Kn => reorder e Kb Kn
  | .reset => reset e
  | .clean sigma => clean sigma e
  | .recompute => e

/-- States reachable from a computed state by operations whose preconditions hold. -/
inductive Reach [Field K] [LinearOrder K] (sort : SortImpl K) (thr : K) {A : Matrix (Fin m) (Fin n) K} (lu : FullPivLU A nb nn nl) :
    State K m n nb nn nl → Prop
  | compute : Reach sort thr lu (compute lu)
  | step (e : State K m n nb nn nl) (o : Op K n nb nn) : Reach sort thr lu e → o.ok thr e → Reach sort thr lu (Ech.step sort thr e o)

end Optima.Ech
