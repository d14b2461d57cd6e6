import Verif.Model.NewtonStep

/-!
# Numbers that may be NaN

The other models compute with numbers; here the results of `h` and `v` may be NaN.  What the code does with them until the end of the evaluation (`ResidualVector`, `ResidualErrors`, `Convergence`) is modelled with the comparisons of IEEE 754;
the Newton step from such a point is not.
-/

namespace Optima

/-- A `double` that is a number or NaN.  Numbers are exact, infinities are left out (so `a/0`, which is infinite in C++ unless `a = 0`, is NaN). -/
inductive Dbl (K : Type*)
  | num (x : K)
  | nan
  deriving DecidableEq

namespace Dbl

variable {K : Type*} [Field K] [LinearOrder K]

/-- An operation is NaN if one of its operands is. -/
def op (f : K → K → K) : Dbl K → Dbl K → Dbl K
  | num a, num b => num (f a b)
  | _, _ => nan

instance : Zero (Dbl K) := ⟨num 0⟩
instance : One (Dbl K) := ⟨num 1⟩
instance : Add (Dbl K) := ⟨op (· + ·)⟩
instance : Sub (Dbl K) := ⟨op (· - ·)⟩
instance : Mul (Dbl K) := ⟨op (· * ·)⟩
instance : Div (Dbl K) := ⟨fun a b => if b = num 0 then nan else op (· / ·) a b⟩

/-- IEEE comparison: false if an operand is NaN. -/
def cmp (r : K → K → Prop) : Dbl K → Dbl K → Prop
  | num a, num b => r a b
  | _, _ => False

instance (r : K → K → Prop) [DecidableRel r] (a b : Dbl K) : Decidable (cmp r a b) := by
  cases a <;> cases b <;> unfold cmp <;> infer_instance

instance : LT (Dbl K) := ⟨cmp (· < ·)⟩
instance : LE (Dbl K) := ⟨cmp (· ≤ ·)⟩
instance : DecidableLT (Dbl K) := fun a b => inferInstanceAs (Decidable (cmp (· < ·) a b))
instance : DecidableLE (Dbl K) := fun a b => inferInstanceAs (Decidable (cmp (· ≤ ·) a b))

/-- `std::max(a, b)` and `std::min(a, b)`, as used by Eigen for `cwiseMax` and `cwiseMin`. -/
instance : Max (Dbl K) := ⟨fun a b => if a < b then b else a⟩
instance : Min (Dbl K) := ⟨fun a b => if b < a then b else a⟩

/-- `std::abs` -/
def abs : Dbl K → Dbl K
  | num a => num |a|
  | nan => nan

/-- A sum of products, in the order of the entries (for exact numbers and NaN the order has no influence). -/
def dot {n : ℕ} (a b : Fin n → Dbl K) : Dbl K := (List.finRange n).foldl (fun s j => s + a j * b j) 0

/-- `std::max({a, b, ...})`: `std::max_element` with `<`. -/
def stdMax (a : Dbl K) (l : List (Dbl K)) : Dbl K := l.foldl (fun largest b => if largest < b then b else largest) a

/-- `multiplyMatrixVectorWithoutResidualRoundOffError(A, x)`, Utils.cpp:561-579, for a vector that may contain NaN. -/
def multiplyClean {n : ℕ} {ι : Type*} (eps : K) (A : ι → Fin n → K) (x : Fin n → Dbl K) : ι → Dbl K := fun i =>
  let b := dot (fun j => num (A i j)) x
  let ref := dot (fun j => num |A i j|) (fun j => (x j).abs)
  if b.abs < ref * num eps then 0 else b

end Dbl

/-- Eigen's `lpNorm<Infinity>()`: on numbers it is the maximum norm, of NaN only it is NaN; the result for vectors with both is not specified by Eigen ("implementation defined" for `maxCoeff`). -/
structure NormImpl (K : Type*) [Field K] [LinearOrder K] where
  norm : ∀ {n : ℕ}, (Fin n → Dbl K) → Dbl K
  norm_num : ∀ {n : ℕ} (v : Fin n → K), norm (fun i => .num (v i)) = .num (normInf v)
  norm_nan : ∀ {n : ℕ} (v : Fin n → Dbl K), 0 < n → (∀ i, v i = .nan) → norm v = .nan

variable {K : Type*} [Field K] [LinearOrder K] {nx np ny nz : ℕ} {τ : Type*}

open Matrix

/-- `Fc.wbs` of `ResidualVector::Impl::update`, ResidualVector.cpp:125-130, for `h` that may contain NaN. -/
def residualWbs (eps : K) {nbe nbi nne nni nnu : ℕ} (C : Canon K nx np (ny + nz) (Fin nbe) (Fin nbi) (Fin nne) (Fin nni) (Fin nnu)) (a : ResidualArgs K nx np ny nz) (h : Fin nz → Dbl K) :
    Fin nbe ⊕ Fin nbi → Dbl K :=
  let Ax := a.Wx.submatrix (Fin.castAdd nz) id
  let Jx := a.Wx.submatrix (Fin.natAdd ny) id
  let Jp := a.Wp.submatrix (Fin.natAdd ny) id
  let Au := Ax.submatrix id C.ju
  let Js := Jx.submatrix id C.js
  let xs := a.x ∘ C.js
  let xu := a.x ∘ C.ju
  let awstar : Fin (ny + nz) → Dbl K := Fin.addCases (fun l => .num ((a.b - Au *ᵥ xu) l)) (fun l => .num ((Js *ᵥ xs + Jp *ᵥ a.p) l) - h l)
  fun k => Dbl.multiplyClean eps C.Rbs awstar k - .num ((xs ∘ Sum.inl + C.Sbsns *ᵥ (xs ∘ Sum.inr) + C.Sbsp *ᵥ a.p) k)

/-- `errorx`, `errorp`, `errorw` and `error`. -/
structure NanErrors (K : Type*) where
  errorx : Dbl K
  errorp : Dbl K
  errorw : Dbl K
  error : Dbl K

/-- The last lines of `ResidualErrors::Impl::update`, ResidualErrors.cpp:83-108: `ex` is the vector of optimality errors after line 103, `v` the value of the function `v` (`Fm.p` is `-v`), `wbs` is `Fc.wbs`; `ewbar0` is what `ewbar` held before. -/
def nanErrors (N : NormImpl K) {nw nbe nbi : ℕ} (ex : Fin nx → Dbl K) (v : Fin np → Dbl K) (wbs : Fin nbe ⊕ Fin nbi → Dbl K) (ewbar0 : Fin nw → K) : NanErrors K :=
  let nbs := nbe + nbi
  let nbl := nw - nbs
  let ep : Fin np → Dbl K := fun i => (0 - v i).abs
  let ewbar : Fin nw → Dbl K := fun i => if h : i < nbs then (wbs (finSumFinEquiv.symm ⟨i, h⟩)).abs else .num (ewbar0 i)
  let ewbar : Fin nw → Dbl K := fun i => if nw - nbl ≤ i then 0 else ewbar i
  let errorx := N.norm ex
  let errorp := N.norm ep
  let errorw := N.norm ewbar
  { errorx := errorx, errorp := errorp, errorw := errorw, error := Dbl.stdMax errorx [errorp, errorw] }

/-- What a solve is given, with the entries of `h` and `v` that are NaN at a point (there the numbers returned by `user` have no meaning). -/
structure NanConfig (K : Type*) [Field K] [LinearOrder K] (nx np ny nz : ℕ) (τ : Type*) extends Config K nx np ny nz τ where
  N : NormImpl K
  nanh : (Fin nx → K) → (Fin np → K) → Fin nz → Bool
  nanv : (Fin nx → K) → (Fin np → K) → Fin np → Bool

/-- `h` at a point, of which `user` returned `h`. -/
def NanConfig.h (cfg : NanConfig K nx np ny nz τ) (u : MVec K nx np (ny + nz)) (h : Fin nz → K) : Fin nz → Dbl K := fun l => if cfg.nanh u.x u.p l then .nan else .num (h l)
/-- `v` at a point, of which `user` returned `v`. -/
def NanConfig.v (cfg : NanConfig K nx np ny nz τ) (u : MVec K nx np (ny + nz)) (v : Fin np → K) : Fin np → Dbl K := fun l => if cfg.nanv u.x u.p l then .nan else .num (v l)

/-- Some entry of `h` or `v` is NaN. -/
def NanConfig.hasNaN (cfg : NanConfig K nx np ny nz τ) (u : MVec K nx np (ny + nz)) : Bool := (List.finRange nz).any (cfg.nanh u.x u.p) || (List.finRange np).any (cfg.nanv u.x u.p)

/-- `E.update(u, F)`, ResidualErrors.cpp:60-109.  The optimality errors `ex` do not depend on `h` and `v` (ResidualVector.cpp:114). -/
def NanConfig.errors (cfg : NanConfig K nx np ny nz τ) (rf : RFState K nx np ny nz cfg.pb.Ax) (u : MVec K nx np (ny + nz)) (E : ErrorsOut K nx np (ny + nz)) (ewbar0 : Fin (ny + nz) → K) : NanErrors K :=
  nanErrors cfg.N (fun i => .num (E.ex i)) (cfg.v u rf.evals.v)
    (residualWbs cfg.env.eps rf.C.mat
      { Wx := rf.M.Wx, Wp := rf.M.Wp, x := u.x, p := u.p, y := fun i => u.w (Fin.castAdd nz i), z := fun j => u.w (Fin.natAdd ny j), g := rf.evals.fx, v := rf.evals.v, b := cfg.pb.b, h := rf.evals.h }
      (cfg.h u rf.evals.h)) ewbar0

/-- The machine of the code (`Config.machine`), for user functions that may return NaN.  The second part of the state says whether the last evaluation contained NaN.  The Newton step from such an evaluation is not modelled (`none`).
    `E.error()` is never NaN here (`errors_num`). -/
def NanConfig.machine (cfg : NanConfig K nx np ny nz τ) : Machine (Parts K nx np ny nz τ cfg.pb.Ax × Bool) K nx np (ny + nz) where
  eval s u := (cfg.updateF cfg.user s.1 u).map fun t =>
    let ewbar0 := t.errors.ewbar
    let t := cfg.updateE t u
    match t.rf with
    | none => (t, cfg.hasNaN u)
    | some rf => ({ t with errors := { t.errors with error := match (cfg.errors rf u t.errors ewbar0).error with | .num e => e | .nan => t.errors.error } }, cfg.hasNaN u)
  evalJac s u := (cfg.updateF cfg.userJac s.1 u).map fun t => (t, cfg.hasNaN u)
  newton s uo := if s.2 then none else (cfg.newton s.1 uo).map fun r => ((r.1, false), r.2)
  error s := s.1.errors.error
  phi := none
  check := none
  phi_error := by intro f hf; cases hf
  check_error := by intro f hf; cases hf

end Optima
