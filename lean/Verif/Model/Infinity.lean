import Verif.Model.NewtonStep

/-!
# Numbers that may be infinite or NaN

What the code does with infinite values of the user functions until the end of the evaluation (`ResidualVector`, `ResidualErrors`, `Convergence`), and with infinite steps (`BacktrackSearch`), with the operations and comparisons of
IEEE 754.

Simplifications: finite numbers are exact, so they do not overflow; there is one zero (`a/0` is that for `+0`).
-/

namespace Optima

/-- A `double`: a number, an infinity or NaN. -/
inductive Ext (K : Type*)
  | num (x : K)
  | pinf
  | ninf
  | nan
  deriving DecidableEq

namespace Ext

variable {K : Type*} [Field K] [LinearOrder K]

def neg : Ext K → Ext K
  | num a => num (-a)
  | pinf => ninf
  | ninf => pinf
  | nan => nan

def add : Ext K → Ext K → Ext K
  | num a, num b => num (a + b)
  | nan, _ | _, nan => nan
  | pinf, ninf | ninf, pinf => nan
  | pinf, _ | _, pinf => pinf
  | ninf, _ | _, ninf => ninf

/-- The sign: 1, 0 or -1 (0 for NaN). -/
def sign : Ext K → ℤ
  | num a => if 0 < a then 1 else if a < 0 then -1 else 0
  | pinf => 1
  | ninf => -1
  | nan => 0

/-- The infinity of a sign, NaN for 0. -/
def ofSign (s : ℤ) : Ext K := if 0 < s then pinf else if s < 0 then ninf else nan

def mul : Ext K → Ext K → Ext K
  | num a, num b => num (a * b)
  | a, b => ofSign (sign a * sign b)

def div : Ext K → Ext K → Ext K
  | num a, num b => if b = 0 then ofSign (sign (num a)) else num (a / b)
  | num _, pinf | num _, ninf => num 0
  | pinf, num b => if b < 0 then ninf else pinf
  | ninf, num b => if b < 0 then pinf else ninf
  | _, _ => nan

instance : Zero (Ext K) := ⟨num 0⟩
instance : One (Ext K) := ⟨num 1⟩
instance : Neg (Ext K) := ⟨neg⟩
instance : Add (Ext K) := ⟨add⟩
instance : Sub (Ext K) := ⟨fun a b => a + -b⟩
instance : Mul (Ext K) := ⟨mul⟩
instance : Div (Ext K) := ⟨div⟩

/-- `a < b`: false if an operand is NaN. -/
def lt : Ext K → Ext K → Prop
  | num a, num b => a < b
  | num _, pinf | ninf, num _ | ninf, pinf => True
  | _, _ => False

/-- `a <= b`: false if an operand is NaN. -/
def le : Ext K → Ext K → Prop
  | num a, num b => a ≤ b
  | num _, pinf | ninf, num _ | ninf, pinf | ninf, ninf | pinf, pinf => True
  | _, _ => False

instance : LT (Ext K) := ⟨lt⟩
instance : LE (Ext K) := ⟨le⟩
instance : DecidableLT (Ext K) := fun a b => by
  change Decidable (lt a b)
  cases a <;> cases b <;> unfold lt <;> infer_instance
instance : DecidableLE (Ext K) := fun a b => by
  change Decidable (le a b)
  cases a <;> cases b <;> unfold le <;> infer_instance

/-- `std::max(a, b)` and `std::min(a, b)`, as used by Eigen for `cwiseMax` and `cwiseMin`. -/
instance : Max (Ext K) := ⟨fun a b => if a < b then b else a⟩
instance : Min (Ext K) := ⟨fun a b => if b < a then b else a⟩

/-- `std::abs` -/
def abs : Ext K → Ext K
  | num a => num |a|
  | pinf | ninf => pinf
  | nan => nan

/-- A sum of products, in the order of the entries (with exact numbers the order has no influence: `add_assoc`, `add_comm`). -/
def dot {n : ℕ} (a b : Fin n → Ext K) : Ext K := (List.finRange n).foldl (fun s j => s + a j * b j) 0

/-- `std::max({a, b, ...})`: `std::max_element` with `<`. -/
def stdMax (a : Ext K) (l : List (Ext K)) : Ext K := l.foldl (fun largest b => if largest < b then b else largest) a

/-- `multiplyMatrixVectorWithoutResidualRoundOffError(A, x)`, Utils.cpp:561-579, for a vector that may contain infinities and NaN. -/
def multiplyClean {n : ℕ} {ι : Type*} (eps : K) (A : ι → Fin n → K) (x : Fin n → Ext K) : ι → Ext K := fun i =>
  let b := dot (fun j => num (A i j)) x
  let ref := dot (fun j => num |A i j|) (fun j => (x j).abs)
  if b.abs < ref * num eps then 0 else b

/-- `std::isinf` -/
def IsInf (a : Ext K) : Prop := a = pinf ∨ a = ninf

end Ext

/-- Eigen's `lpNorm<Infinity>()`: without NaN it is the largest absolute value, of NaN only it is NaN; the result for vectors with both is not specified by Eigen ("implementation defined" for `maxCoeff`). -/
structure ExtNorm (K : Type*) [Field K] [LinearOrder K] where
  norm : ∀ {n : ℕ}, (Fin n → Ext K) → Ext K
  norm_num : ∀ {n : ℕ} (v : Fin n → K), norm (fun i => .num (v i)) = .num (normInf v)
  norm_inf : ∀ {n : ℕ} (v : Fin n → Ext K), (∀ i, v i ≠ .nan) → (∃ i, (v i).IsInf) → norm v = .pinf
  norm_nan : ∀ {n : ℕ} (v : Fin n → Ext K), 0 < n → (∀ i, v i = .nan) → norm v = .nan

variable {K : Type*} [Field K] [LinearOrder K] {nx np ny nz : ℕ} {τ : Type*}

open Matrix

/-- `Fc.wbs` of `ResidualVector::Impl::update`, ResidualVector.cpp:125-130, for `h` that may contain infinities and NaN. -/
def extWbs (eps : K) {nbe nbi nne nni nnu : ℕ} (C : Canon K nx np (ny + nz) (Fin nbe) (Fin nbi) (Fin nne) (Fin nni) (Fin nnu)) (a : ResidualArgs K nx np ny nz) (h : Fin nz → Ext K) :
    Fin nbe ⊕ Fin nbi → Ext K :=
  let Ax := a.Wx.submatrix (Fin.castAdd nz) id
  let Jx := a.Wx.submatrix (Fin.natAdd ny) id
  let Jp := a.Wp.submatrix (Fin.natAdd ny) id
  let Au := Ax.submatrix id C.ju
  let Js := Jx.submatrix id C.js
  let xs := a.x ∘ C.js
  let xu := a.x ∘ C.ju
  let awstar : Fin (ny + nz) → Ext K := Fin.addCases (fun l => .num ((a.b - Au *ᵥ xu) l)) (fun l => .num ((Js *ᵥ xs + Jp *ᵥ a.p) l) - h l)
  fun k => Ext.multiplyClean eps C.Rbs awstar k - .num ((xs ∘ Sum.inl + C.Sbsns *ᵥ (xs ∘ Sum.inr) + C.Sbsp *ᵥ a.p) k)

/-- `Fm.x` of `ResidualVector::Impl::update`, ResidualVector.cpp:113-115, for a gradient `g` that may contain infinities and NaN; `ax0` is what `ax` held before. -/
def extX {nbe nbi nne nni nnu : ℕ} (C : Canon K nx np (ny + nz) (Fin nbe) (Fin nbi) (Fin nne) (Fin nni) (Fin nnu)) (ax0 : Fin nx → Ext K) (a : ResidualArgs K nx np ny nz) (g : Fin nx → Ext K) : Fin nx → Ext K :=
  let As := (a.Wx.submatrix (Fin.castAdd nz) id).submatrix id C.js
  let Js := (a.Wx.submatrix (Fin.natAdd ny) id).submatrix id C.js
  let ax := assignJs ax0 C.js (fun s => -(g (C.js s) + .num ((Asᵀ *ᵥ a.y) s) + .num ((Jsᵀ *ᵥ a.z) s)))
  assignFn ax C.ju 0

/-- `ex` after line 103 of `ResidualErrors::Impl::update`, ResidualErrors.cpp:83, 93-103. -/
def extEx {nbe nbi nne nni nnu nw : ℕ} (C : Canon K nx np nw (Fin nbe) (Fin nbi) (Fin nne) (Fin nni) (Fin nnu)) (xlower xupper : Fin nx → Option K) (x : Fin nx → K) (mx : Fin nx → Ext K) : Fin nx → Ext K :=
  let nbs := nbe + nbi
  let jbs : Fin nbs → Fin nx := fun k => C.js (.inl (finSumFinEquiv.symm k))
  let ex : Fin nx → Ext K := fun i => (mx i).abs
  let ex := assignFn ex C.ju 0
  let ex := assignFn ex jbs (fun k => if some (x (jbs k)) = xlower (jbs k) then 0 else ex (jbs k))
  assignFn ex jbs (fun k => if some (x (jbs k)) = xupper (jbs k) then 0 else ex (jbs k))

/-- `errorx`, `errorp`, `errorw` and `error`. -/
structure ExtErrors (K : Type*) where
  errorx : Ext K
  errorp : Ext K
  errorw : Ext K
  error : Ext K

/-- The last lines of `ResidualErrors::Impl::update`, ResidualErrors.cpp:83-108: `ex` is the vector of optimality errors after line 103, `v` the value of the function `v` (`Fm.p` is `-v`), `wbs` is `Fc.wbs`; `ewbar0` is what `ewbar` held before. -/
def extErrors (N : ExtNorm K) {nw nbe nbi : ℕ} (ex : Fin nx → Ext K) (v : Fin np → Ext K) (wbs : Fin nbe ⊕ Fin nbi → Ext K) (ewbar0 : Fin nw → K) : ExtErrors K :=
  let nbs := nbe + nbi
  let nbl := nw - nbs
  let ep : Fin np → Ext K := fun i => (-v i).abs
  let ewbar : Fin nw → Ext K := fun i => if h : i < nbs then (wbs (finSumFinEquiv.symm ⟨i, h⟩)).abs else .num (ewbar0 i)
  let ewbar : Fin nw → Ext K := fun i => if nw - nbl ≤ i then 0 else ewbar i
  let errorx := N.norm ex
  let errorp := N.norm ep
  let errorw := N.norm ewbar
  { errorx := errorx, errorp := errorp, errorw := errorw, error := Ext.stdMax errorx [errorp, errorw] }

/-- What a solve is given, with the values of `h` and `v` that are infinite or NaN at a point: `none` is the number returned by `user`. -/
structure InfConfig (K : Type*) [Field K] [LinearOrder K] (nx np ny nz : ℕ) (τ : Type*) extends Config K nx np ny nz τ where
  N : ExtNorm K
  infh : (Fin nx → K) → (Fin np → K) → Fin nz → Option (Ext K)
  infv : (Fin nx → K) → (Fin np → K) → Fin np → Option (Ext K)

/-- `h` at a point, of which `user` returned `h`. -/
def InfConfig.h (cfg : InfConfig K nx np ny nz τ) (u : MVec K nx np (ny + nz)) (h : Fin nz → K) : Fin nz → Ext K := fun l => (cfg.infh u.x u.p l).getD (.num (h l))
/-- `v` at a point, of which `user` returned `v`. -/
def InfConfig.v (cfg : InfConfig K nx np ny nz τ) (u : MVec K nx np (ny + nz)) (v : Fin np → K) : Fin np → Ext K := fun l => (cfg.infv u.x u.p l).getD (.num (v l))

/-- All values at a point are numbers. -/
def InfConfig.finite (cfg : InfConfig K nx np ny nz τ) (u : MVec K nx np (ny + nz)) : Bool := (List.finRange nz).all (fun l => (cfg.infh u.x u.p l).isNone) && (List.finRange np).all (fun l => (cfg.infv u.x u.p l).isNone)

/-- `E.update(u, F)`, ResidualErrors.cpp:60-109.  The optimality errors `ex` do not depend on `h` and `v` (ResidualVector.cpp:114). -/
def InfConfig.errors (cfg : InfConfig K nx np ny nz τ) (rf : RFState K nx np ny nz cfg.pb.Ax) (u : MVec K nx np (ny + nz)) (E : ErrorsOut K nx np (ny + nz)) (ewbar0 : Fin (ny + nz) → K) : ExtErrors K :=
  extErrors cfg.N (fun i => .num (E.ex i)) (cfg.v u rf.evals.v)
    (extWbs cfg.env.eps rf.C.mat
      { Wx := rf.M.Wx, Wp := rf.M.Wp, x := u.x, p := u.p, y := fun i => u.w (Fin.castAdd nz i), z := fun j => u.w (Fin.natAdd ny j), g := rf.evals.fx, v := rf.evals.v, b := cfg.pb.b, h := rf.evals.h }
      (cfg.h u rf.evals.h)) ewbar0

/-- The machine of the code (`Config.machine`), for user functions that may return infinities and NaN.  The second part of the state says whether the last evaluation was one of numbers only.  Evaluations whose error is infinite and Newton
    steps from points where a value is not a number are not modelled (`none`). -/
def InfConfig.machine (cfg : InfConfig K nx np ny nz τ) : Machine (Parts K nx np ny nz τ cfg.pb.Ax × Bool) K nx np (ny + nz) where
  eval s u := (cfg.updateF cfg.user s.1 u).bind fun t =>
    let ewbar0 := t.errors.ewbar
    let t := cfg.updateE t u
    match t.rf with
    | none => none
    | some rf => match (cfg.errors rf u t.errors ewbar0).error with
      | .num e => some ({ t with errors := { t.errors with error := e } }, cfg.finite u)
      | _ => none
  evalJac s u := (cfg.updateF cfg.userJac s.1 u).map fun t => (t, cfg.finite u)
  newton s uo := if s.2 then (cfg.newton s.1 uo).map fun r => ((r.1, true), r.2) else none
  error s := s.1.errors.error
  phi := none
  check := none
  phi_error := by intro f hf; cases hf
  check_error := by intro f hf; cases hf

end Optima
