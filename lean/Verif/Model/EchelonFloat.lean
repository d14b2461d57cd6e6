import Verif.Model.Echelon
import Verif.Model.NullFloat

/-!
# `Echelonizer` in rounded arithmetic

`compute`, `updateWithSwapBasicVariable` and `updateWithPriorityWeights` of Echelonizer.cpp with every operation rounded; `Model/Echelon.lean` is the model in exact arithmetic, whose states are used here too.
The cleaning of `R` and `S` is in `Model/FloatEchelon.lean`.
-/

namespace Optima.FEch

open Ech FNull

variable {p m n nb nn nl : ℕ}

/-- What `compute` leaves for a matrix of floating-point numbers, Echelonizer.cpp:126-160: the permutations, both factors of the block of the pivots (`F.M` is `lu.matrixLU().topLeftCorner(nb, nb)`; the permutations of `FullPivLU` are in `pr`
    and `q`, those of `F` are the identity), `Ubn` and the solutions of the triangular systems, computed by divisions and sums in any order (see `FLU.Factors`).  The pivots are those that the rank decision keeps, so they are not zero. -/
structure Computed (A : Fin m → Fin n → FNum p) (nb nn nl : ℕ) where
  pr : Fin nb ⊕ Fin nl → Fin m
  q : Fin nb ⊕ Fin nn → Fin n
  prbij : Function.Bijective pr
  qbij : Function.Bijective q
  F : FLU.Factors fun i j => A (pr (.inl i)) (q (.inl j))
  rowPerm : F.rowPerm = 1
  colPerm : F.colPerm = 1
  pivots : ∀ i, (F.M i i).val ≠ 0
  /-- `lu.matrixLU().topRightCorner(nb, nn)` -/
  Ubn : Fin nb → Fin nn → FNum p
  Ubn_sums : ∀ i k, Terms.Sums (FLU.minus (A (pr (.inl i)) (q (.inr k))) (· < i) (F.M i) (fun l => Ubn l k)) (Ubn i k)
  /-- by complete pivoting -/
  Ubn_dominant : ∀ i k, (Ubn i k).abs ≤ (F.M i i).abs
  /-- `R.topRows(nb)` after `Lbb.solve`, where `R = P.asPermutation()` before -/
  Y : Fin nb → Fin m → FNum p
  Y_sums : ∀ i c, Terms.Sums (FLU.minus (if pr (.inl i) = c then 1 else 0) (· < i) (F.M i) (fun l => Y l c)) (Y i c)
  /-- `R.topRows(nb)` after `Ubb.solve` -/
  Rt : Fin nb → Fin m → FNum p
  Rt_sums : ∀ i c, ∃ s, Terms.Sums (FLU.minus (Y i c) (i < ·) (F.M i) (fun l => Rt l c)) s ∧ Rt i c = s / F.M i i
  /-- `S = Ubb.solve(Ubn)` -/
  S : Fin nb → Fin nn → FNum p
  S_sums : ∀ i k, ∃ s, Terms.Sums (FLU.minus (Ubn i k) (i < ·) (F.M i) (fun l => S l k)) s ∧ S i k = s / F.M i i

/-- The state after `compute`, Echelonizer.cpp:138-172. -/
def Computed.state {A : Fin m → Fin n → FNum p} (C : Computed A nb nn nl) : State (FNum p) m n nb nn nl :=
  let R : Matrix (Fin nb ⊕ Fin nl) (Fin m) (FNum p) := fun r c => match r with
    | .inl i => C.Rt i c
    | .inr l => if C.pr (.inr l) = c then 1 else 0
  { R := R, S := C.S, Q := C.q, Kb := id, Kn := id, R0 := R, S0 := C.S, Q0 := C.q }

/-- `updateWithSwapBasicVariable(ib, in)`, Echelonizer.cpp:176-218, from the state `e` to the state `e'`: the products are rounded, the subtractions are or use a fused multiply-add (`IsSub` with one product). -/
structure Swapped (e e' : State (FNum p) m n nb nn nl) (ib : Fin nb) (jn : Fin nn) : Prop where
  Rib : ∀ c, e'.R (.inl ib) c = e.R (.inl ib) c * (1 / e.S ib jn)
  R : ∀ i, i ≠ ib → ∀ c, IsSub (e.R (.inl i) c) (fun _ : Unit => e.S i jn) (fun _ => e'.R (.inl ib) c) (e'.R (.inl i) c)
  Rl : ∀ l c, e'.R (.inr l) c = e.R (.inr l) c
  Sib : ∀ k, k ≠ jn → e'.S ib k = e.S ib k * (1 / e.S ib jn)
  S : ∀ i, i ≠ ib → ∀ k, k ≠ jn → IsSub (e.S i k) (fun _ : Unit => e.S i jn) (fun _ => e'.S ib k) (e'.S i k)
  Sjn : ∀ i, i ≠ ib → e'.S i jn = -(e.S i jn) * (1 / e.S ib jn)
  pivot : e'.S ib jn = 1 / e.S ib jn
  Q : e'.Q = e.Q ∘ Equiv.swap (.inl ib) (.inr jn)

/-- `updateWithSwapBasicVariable(ib, in)` without fused multiply-adds. -/
def swap (e : State (FNum p) m n nb nn nl) (ib : Fin nb) (jn : Fin nn) : State (FNum p) m n nb nn nl :=
  let M : Fin nb → FNum p := fun i => e.S i jn
  let aux := 1 / e.S ib jn
  let R : Matrix (Fin nb ⊕ Fin nl) (Fin m) (FNum p) := fun r c => match r with
    | .inl i => if i = ib then e.R (.inl ib) c * aux else e.R (.inl i) c - e.S i jn * (e.R (.inl ib) c * aux)
    | .inr l => e.R (.inr l) c
  let S1 : Matrix (Fin nb) (Fin nn) (FNum p) := fun i k => if i = ib then e.S ib k * aux else e.S i k - e.S i jn * (e.S ib k * aux)
  let S2 : Matrix (Fin nb) (Fin nn) (FNum p) := fun i k => if k = jn then -M i * aux else S1 i k
  let S3 : Matrix (Fin nb) (Fin nn) (FNum p) := fun i k => if i = ib ∧ k = jn then aux else S2 i k
  { e with R := R, S := S3, Q := e.Q ∘ Equiv.swap (.inl ib) (.inr jn) }

/-- `threshold`, Echelonizer.cpp:84. -/
def threshold : FNum p := .fl (1 / 10 ^ 8)

/-- `find_nonbasic_candidate`, Echelonizer.cpp:239-252; see `Ech.findCandidate`. -/
def findCandidate (e : State (FNum p) m n nb nn nl) (w : Fin n → FNum p) (i : Fin nb) : Option (FNum p × Fin nn) :=
  (List.finRange nn).foldl (fun acc k =>
    if (e.S i k).abs ≤ threshold then acc
    else
      let tmp := w (e.Q (.inr k))
      match acc with
      | none => some (tmp, k)
      | some (mx, j) => if tmp > mx then some (tmp, k) else some (mx, j)) none

/-- One pass of the loop over the basic variables, Echelonizer.cpp:255-263, from `e` to `e'`. -/
def Step (w : Fin n → FNum p) (e e' : State (FNum p) m n nb nn nl) (i : Fin nb) : Prop :=
  match findCandidate e w i with
  | none => e' = e
  | some (wj, j) => if w (e.Q (.inl i)) < wj then Swapped e e' i j ∧ e'.Kb = e.Kb ∧ e'.Kn = e.Kn ∧ e'.R0 = e.R0 ∧ e'.S0 = e.S0 ∧ e'.Q0 = e.Q0 else e' = e

/-- The loop over the basic variables in the list; the states in the second list are those after the passes. -/
inductive Steps (w : Fin n → FNum p) : List (Fin nb) → State (FNum p) m n nb nn nl → List (State (FNum p) m n nb nn nl) → State (FNum p) m n nb nn nl → Prop
  | nil (e) : Steps w [] e [] e
  | cons {i l e e' e'' tr} : Step w e e' i → Steps w l e' tr e'' → Steps w (i :: l) e (e' :: tr) e''

/-- `updateWithPriorityWeights(w)`, Echelonizer.cpp:221-287, from `e` to `e'`, with the states after the passes of the loop. -/
def Update (sort : SortImpl (FNum p)) (w : Fin n → FNum p) (e : State (FNum p) m n nb nn nl) (tr : List (State (FNum p) m n nb nn nl)) (e' : State (FNum p) m n nb nn nl) : Prop :=
  ∃ e1, Steps w (List.finRange nb) e tr e1 ∧
    let Kb := sort.run (fun l => w (e1.Q (.inl l))) e1.Kb
    let Kn := sort.run (fun l => w (e1.Q (.inr l))) e1.Kn
    e' = reorder { e1 with Kb := Kb, Kn := Kn } Kb Kn

/-- `updateWithPriorityWeights(w)` several times, one vector of weights after the other. -/
inductive Updates (sort : SortImpl (FNum p)) : List (Fin n → FNum p) → State (FNum p) m n nb nn nl → List (State (FNum p) m n nb nn nl) → State (FNum p) m n nb nn nl → Prop
  | nil (e) : Updates sort [] e [] e
  | cons {w l e e' e'' tr tr'} : Update sort w e tr e' → Updates sort l e' tr' e'' → Updates sort (w :: l) e (tr ++ tr') e''

/-- The loop over the basic variables without fused multiply-adds. -/
def stepFn (w : Fin n → FNum p) (e : State (FNum p) m n nb nn nl) (i : Fin nb) : State (FNum p) m n nb nn nl :=
  match findCandidate e w i with
  | none => e
  | some (wj, j) => if w (e.Q (.inl i)) < wj then swap e i j else e

end Optima.FEch
