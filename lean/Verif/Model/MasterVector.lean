import Verif.Model.Float
import Mathlib.Data.Real.Sqrt

/-!
# Model of `MasterVector.hpp` and of the vectors of `CanonicalVector.hpp`

The sizes of the blocks are values, as in C++.  `none` is a failed assertion of Eigen (sizes that do not match, blocks outside of a vector).  Numbers are of any type with the operations, so that the definitions can be used with exact and
with rounded numbers.  The expression objects that the free operators return (`l.x + r.x`, …) are identified with the vectors they stand for.
-/

namespace Optima.MV

variable {K : Type*}

/-- `MasterVectorBase<Vec>`, MasterVector.hpp:35-39. -/
@[ext] structure MasterVec (K : Type*) where
  x : List K
  p : List K
  w : List K
deriving DecidableEq

/-- Eigen's `data.head(n)`. -/
def head (data : List K) (n : ℕ) : Option (List K) := if n ≤ data.length then some (data.take n) else none

/-- Eigen's `data.segment(start, n)`. -/
def segment (data : List K) (start n : ℕ) : Option (List K) := if start + n ≤ data.length then some ((data.drop start).take n) else none

/-- Eigen's `data.tail(n)`. -/
def tail (data : List K) (n : ℕ) : Option (List K) := if n ≤ data.length then some (data.drop (data.length - n)) else none

/-- `MasterVectorBase(Data&& data, Index nx, Index np, Index nw)`, MasterVector.hpp:54-56. -/
def ofData (data : List K) (nx np nw : ℕ) : Option (MasterVec K) := do
  let x ← head data nx
  let p ← segment data nx np
  let w ← tail data nw
  pure ⟨x, p, w⟩

/-- `MasterVectorBase(nx, np, nw)`, MasterVector.hpp:46-51 (also with `MasterDims`). -/
def zeros [Zero K] (nx np nw : ℕ) : Option (MasterVec K) := ofData (List.replicate (nx + np + nw) 0) nx np nw

/-- A binary operation of Eigen on two vectors, entry by entry. -/
def zip (op : K → K → K) (a b : List K) : Option (List K) := if a.length = b.length then some (List.zipWith op a b) else none

/-- A binary operation on the three blocks, in the order of the code. -/
def lift (op : K → K → K) (l r : MasterVec K) : Option (MasterVec K) := do
  let x ← zip op l.x r.x
  let p ← zip op l.p r.p
  let w ← zip op l.w r.w
  pure ⟨x, p, w⟩

/-- `operator+(l, r)`, MasterVector.hpp:146-150. -/
def add [Add K] (l r : MasterVec K) : Option (MasterVec K) := lift (fun a b => a + b) l r

/-- `operator-(l, r)`, MasterVector.hpp:152-156. -/
def sub [Sub K] (l r : MasterVec K) : Option (MasterVec K) := lift (fun a b => a - b) l r

/-- `operator*(double l, r)`, MasterVector.hpp:158-162. -/
def smul [Mul K] (l : K) (r : MasterVec K) : MasterVec K := ⟨r.x.map fun a => l * a, r.p.map fun a => l * a, r.w.map fun a => l * a⟩

/-- `operator*(l, double r)`, MasterVector.hpp:164-168. -/
def muls [Mul K] (l : MasterVec K) (r : K) : MasterVec K := smul r l

/-- `operator/(l, double r)`, MasterVector.hpp:170-174. -/
def divs [Mul K] [Div K] [One K] (l : MasterVec K) (r : K) : MasterVec K := smul (1 / r) l

/-- `u += v`, MasterVector.hpp:87-91. -/
def addAssign [Add K] (u v : MasterVec K) : Option (MasterVec K) := lift (fun a b => a + b) u v

/-- `u -= v`, MasterVector.hpp:94-98. -/
def subAssign [Sub K] (u v : MasterVec K) : Option (MasterVec K) := lift (fun a b => a - b) u v

/-- `u *= s`, MasterVector.hpp:101-104. -/
def mulAssign [Mul K] (u : MasterVec K) (s : K) : MasterVec K := ⟨u.x.map fun a => a * s, u.p.map fun a => a * s, u.w.map fun a => a * s⟩

/-- `u /= s`, MasterVector.hpp:107-110. -/
def divAssign [Div K] (u : MasterVec K) (s : K) : MasterVec K := ⟨u.x.map fun a => a / s, u.p.map fun a => a / s, u.w.map fun a => a / s⟩

/-- `u.resize(dims)`, MasterVector.hpp:113-118. -/
def resize [Zero K] (_u : MasterVec K) (nx np nw : ℕ) : MasterVec K := ⟨List.replicate nx 0, List.replicate np 0, List.replicate nw 0⟩

/-- Eigen's `a.dot(b)`; the order of the sum is not that of the vectorised code, which matters for rounded numbers only. -/
def dotVec [Zero K] [Add K] [Mul K] (a b : List K) : Option K := if a.length = b.length then some ((List.zipWith (fun s t => s * t) a b).foldl (fun s t => s + t) 0) else none

/-- `u.dot(v)`, MasterVector.hpp:121-125. -/
def dot [Zero K] [Add K] [Mul K] (u v : MasterVec K) : Option K := do
  let a ← dotVec u.x v.x
  let b ← dotVec u.p v.p
  let c ← dotVec u.w v.w
  pure (a + b + c)

/-- Eigen's `a.squaredNorm()`. -/
def sqVec [Zero K] [Add K] [Mul K] (a : List K) : K := (a.map fun t => t * t).foldl (fun s t => s + t) 0

/-- `u.squaredNorm()`, MasterVector.hpp:134-137. -/
def squaredNorm [Zero K] [Add K] [Mul K] (u : MasterVec K) : K := sqVec u.x + sqVec u.p + sqVec u.w

/-- `u.norm()`, MasterVector.hpp:128-131, for real numbers. -/
noncomputable def norm (u : MasterVec ℝ) : ℝ := Real.sqrt (squaredNorm u)

/-- `u.size()`, MasterVector.hpp:140. -/
def size (u : MasterVec K) : ℕ := u.x.length + u.p.length + u.w.length

/-- `operator Vector()`, MasterVector.hpp:143: the comma initialiser fills a vector of `size()` entries. -/
def toVector (u : MasterVec K) : List K := u.x ++ u.p ++ u.w

/-! ### Assignments through references into shared memory -/

/-- A contiguous block of memory (`VectorRef`, `VectorView`). -/
structure Block where
  start : ℕ
  len : ℕ

/-- The values of a block. -/
def Block.read (b : Block) (m : ℕ → K) : List K := (List.range b.len).map fun i => m (b.start + i)

/-- Eigen's `dst.noalias() = src` for references: entry by entry, in increasing order (the vectorised copy moves a few entries at a time).  A reference cannot be resized. -/
def copyBlock (dst src : Block) (m : ℕ → K) : Option (ℕ → K) :=
  if dst.len = src.len then some ((List.range dst.len).foldl (fun m i => Function.update m (dst.start + i) (m (src.start + i))) m) else none

/-- `MasterVectorRef`, MasterVector.hpp:30. -/
structure Ref where
  x : Block
  p : Block
  w : Block

/-- The values shown by a reference. -/
def Ref.read (r : Ref) (m : ℕ → K) : MasterVec K := ⟨r.x.read m, r.p.read m, r.w.read m⟩

/-- `u = other` for references, MasterVector.hpp:77-84. -/
def assignRef (dst src : Ref) (m : ℕ → K) : Option (ℕ → K) := do
  let m ← copyBlock dst.x src.x m
  let m ← copyBlock dst.p src.p m
  copyBlock dst.w src.w m

/-! ### `CanonicalVectorBase` -/

/-- `CanonicalVectorBase<Vec>`, CanonicalVector.hpp:28-33. -/
@[ext] structure CanonicalVec (K : Type*) where
  xs : List K
  xu : List K
  p : List K
  wbs : List K

/-- `CanonicalVectorBase(Data&& data, ns, nu, np, nbs)`, CanonicalVector.hpp:40-42. -/
def CanonicalVec.ofData (data : List K) (ns nu np nbs : ℕ) : Option (CanonicalVec K) := do
  let xs ← head data ns
  let xu ← segment data ns nu
  let p ← segment data (ns + nu) np
  let wbs ← tail data nbs
  pure ⟨xs, xu, p, wbs⟩

/-- `size()`, CanonicalVector.hpp:63. -/
def CanonicalVec.size (u : CanonicalVec K) : ℕ := u.xs.length + u.xu.length + u.p.length + u.wbs.length

/-- `operator Vector()`, CanonicalVector.hpp:66. -/
def CanonicalVec.toVector (u : CanonicalVec K) : List K := u.xs ++ u.xu ++ u.p ++ u.wbs

end Optima.MV
