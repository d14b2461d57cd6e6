import Mathlib.Data.List.Perm.Basic
import Mathlib.Data.List.FinRange
import Mathlib.Data.Matrix.Mul
import Mathlib.Algebra.Order.Field.Basic

/-!
# Model of `Optima/IndexUtils.hpp`, `Optima/StablePartition.cpp` and `Optima/Stability.cpp`

Index vectors are lists (polymorphic in the type of the indices).  `std::partition` is any function that meets the contract of
the C++ standard: it permutes the range and returns the position of the partition point.
-/

namespace Optima.Idx

variable {α : Type*}

/-- `std::partition` (any implementation allowed by the C++ standard). -/
structure PartitionImpl (α : Type*) where
  run : (α → Bool) → List α → List α × ℕ
  perm : ∀ p l, (run p l).1.Perm l
  le : ∀ p l, (run p l).2 ≤ l.length
  left : ∀ p l, ∀ i ∈ (run p l).1.take (run p l).2, p i = true
  right : ∀ p l, ∀ i ∈ (run p l).1.drop (run p l).2, p i = false

/-- `std::stable_partition`. -/
def stablePartition (p : α → Bool) (l : List α) : List α × ℕ :=
  (l.filter p ++ l.filter (fun i => !p i), (l.filter p).length)

variable [DecidableEq α] (P : PartitionImpl α)

/-- `contains`, IndexUtils.hpp:36-42. -/
def contains (i : α) (l : List α) : Bool := l.contains i

/-- `moveLeftIf`, IndexUtils.hpp:49-52. Returns the new base and the size of group 1. -/
def moveLeftIf (base : List α) (pred : α → Bool) : List α × ℕ := P.run pred base
/-- `stableMoveLeftIf`, IndexUtils.hpp:59-62. -/
def stableMoveLeftIf (base : List α) (pred : α → Bool) : List α × ℕ := stablePartition pred base
/-- `moveIntersectionLeft`, IndexUtils.hpp:69-74. -/
def moveIntersectionLeft (base p : List α) : List α × ℕ :=
  if p.length = 0 then (base, base.length) else moveLeftIf P base fun i => contains i p
/-- `moveRightIf`, IndexUtils.hpp:81-84. -/
def moveRightIf (base : List α) (pred : α → Bool) : List α × ℕ := P.run (fun i => !pred i) base
/-- `stableMoveRightIf`, IndexUtils.hpp:91-94. -/
def stableMoveRightIf (base : List α) (pred : α → Bool) : List α × ℕ := stablePartition (fun i => !pred i) base
/-- `moveIntersectionRight`, IndexUtils.hpp:101-106. -/
def moveIntersectionRight (base p : List α) : List α × ℕ :=
  if p.length = 0 then (base, base.length) else moveRightIf P base fun i => contains i p
/-- `moveIntersectionLeftStable`, IndexUtils.hpp:113-124. -/
def moveIntersectionLeftStable (base p : List α) : List α × ℕ :=
  if p.length = 0 then (base, base.length) else stablePartition (fun i => contains i p) base
/-- `moveIntersectionRightStable`, IndexUtils.hpp:131-142. -/
def moveIntersectionRightStable (base p : List α) : List α × ℕ :=
  if p.length = 0 then (base, base.length) else stablePartition (fun i => !contains i p) base
/-- `difference`, IndexUtils.hpp:145-150. -/
def difference (indices1 indices2 : List α) : List α :=
  let r := moveIntersectionRight P indices1 indices2
  r.1.take r.2
/-- `intersect`, IndexUtils.hpp:153-158: `tail(size - idx)`. -/
def intersect (indices1 indices2 : List α) : List α :=
  let r := moveIntersectionRight P indices1 indices2
  r.1.drop (r.1.length - (r.1.length - r.2))
/-- `isIntersectionEmpty`, IndexUtils.hpp:161-167 (the loop returns at the first common index). -/
def isIntersectionEmpty : List α → List α → Bool
  | [], _ => true
  | i :: l, indices2 => if contains i indices2 then false else isIntersectionEmpty l indices2

end Optima.Idx

/-! ## `StablePartition` -/
namespace Optima.StablePart
open Idx

/-- `StablePartition::Impl`, StablePartition.cpp:26-37. -/
structure St where
  jsu : List ℕ
  ns : ℕ

/-- Constructor, StablePartition.cpp:35-37. -/
def init (nx : ℕ) : St := { jsu := List.range nx, ns := nx }

inductive Op
  | setStable (js : List ℕ)
  | setUnstable (ju : List ℕ)

/-- `setStable`/`setUnstable`, StablePartition.cpp:39-49.  The `Bool` is the value of the assertion (checked in debug builds only). -/
def step (P : PartitionImpl ℕ) (s : St) : Op → St × Bool
  | .setStable js =>
    let r := moveIntersectionLeft P s.jsu js
    ({ jsu := r.1, ns := r.2 }, r.2 == js.length)
  | .setUnstable ju =>
    let r := moveIntersectionRight P s.jsu ju
    ({ jsu := r.1, ns := r.2 }, r.2 + ju.length == s.jsu.length)

/-- `stable()`, StablePartition.cpp:51-54. -/
def St.stable (s : St) : List ℕ := s.jsu.take s.ns
/-- `unstable()`, StablePartition.cpp:56-60: `jsu.tail(jsu.size() - ns)`. -/
def St.unstable (s : St) : List ℕ := s.jsu.drop (s.jsu.length - (s.jsu.length - s.ns))

/-- State after a history of calls. -/
def run (P : PartitionImpl ℕ) (nx : ℕ) (ops : List Op) : St := ops.foldl (fun s o => (step P s o).1) (init nx)

end Optima.StablePart

/-! ## `Stability` -/
namespace Optima.Stab
open Idx

variable {K : Type*} [Field K] [LinearOrder K] {n m : ℕ}

/-- Apply an in-place operation to the first `k` entries (`jsu.head(k)` is a reference in the code). -/
def onHead {α β : Type*} (k : ℕ) (l : List α) (f : List α → List α × β) : List α × β :=
  let r := f (l.take k)
  (r.1 ++ l.drop k, r.2)
/-- Apply an in-place operation to the entries from position `k` on (`jsu.tail(size-k)`). -/
def onTail {α β : Type*} (k : ℕ) (l : List α) (f : List α → List α × β) : List α × β :=
  let r := f (l.drop k)
  (l.take k ++ r.1, r.2)

/-- Data members of `Stability`, Stability.hpp. -/
structure St (K : Type*) (n : ℕ) where
  jsu : List (Fin n)
  ns : ℕ
  nbs : ℕ
  nlu : ℕ
  nuu : ℕ
  nms : ℕ
  s : Fin n → K

/-- Arguments of `update`.  Infinite bounds are `none`. -/
structure Args (K : Type*) (n m : ℕ) where
  Wx : Matrix (Fin m) (Fin n) K
  g : Fin n → K
  x : Fin n → K
  w : Fin m → K
  xlower : Fin n → Option K
  xupper : Fin n → Option K
  jb : List (Fin n)

/-- `is_lower_unstable`, Stability.cpp:47. -/
def isLowerUnstable (a : Args K n m) (s : Fin n → K) (i : Fin n) : Bool := (some (a.x i) == a.xlower i) && decide (s i > 0)
/-- `is_upper_unstable`, Stability.cpp:48. -/
def isUpperUnstable (a : Args K n m) (s : Fin n → K) (i : Fin n) : Bool := (some (a.x i) == a.xupper i) && decide (s i < 0)
/-- `is_meta_stable`, Stability.cpp:49. -/
def isMetaStable (a : Args K n m) (s : Fin n → K) (i : Fin n) : Bool := isLowerUnstable a s i || isUpperUnstable a s i

/-- `Stability::update`, Stability.cpp:35-108.  Second component: value of `assert(nbs == jb.size())` (line 76). -/
def update (P : PartitionImpl (Fin n)) (a : Args K n m) : St K n × Bool :=
  let s : Fin n → K := a.g + Matrix.mulVec a.Wx.transpose a.w
  let jsu0 := List.finRange n
  let r1 := moveIntersectionLeft P jsu0 a.jb
  let nbs := r1.2
  let r2 := onHead nbs r1.1 fun jbs => moveRightIf P jbs (isMetaStable a s)
  let nss := r2.2
  let nn := n - nbs
  let r3 := onTail nbs r2.1 fun jnsu => moveRightIf P jnsu (isUpperUnstable a s)
  let pos1 := r3.2
  let r4 := onTail nbs r3.1 fun jnsu => onHead pos1 jnsu fun h => moveRightIf P h (isLowerUnstable a s)
  let pos2 := r4.2
  ({ jsu := r4.1, ns := nbs + pos2, nbs := nbs, nlu := pos1 - pos2, nuu := nn - pos1, nms := nbs - nss, s := s },
    nbs == a.jb.length)

/-- `l.tail(k)`: the last `k` entries. -/
def tailN {α : Type*} (k : ℕ) (l : List α) : List α := l.drop (l.length - k)

/-- `StabilityStatus`, Stability.hpp. -/
structure Status (K : Type*) (n : ℕ) where
  js : List (Fin n)
  ju : List (Fin n)
  jlu : List (Fin n)
  juu : List (Fin n)
  jms : List (Fin n)
  s : Fin n → K

/-- `Stability::status`, Stability.cpp:110-119. -/
def status (t : St K n) : Status K n :=
  let js := t.jsu.take t.ns
  let jbs := js.take t.nbs
  let jms := tailN t.nms jbs
  let ju := tailN (t.nlu + t.nuu) t.jsu
  let jlu := ju.take t.nlu
  let juu := tailN t.nuu ju
  { js := js, ju := ju, jlu := jlu, juu := juu, jms := jms, s := t.s }

end Optima.Stab
