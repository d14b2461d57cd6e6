import Verif.Model.MasterVector
import Verif.Lemmas.Float
import Mathlib.Algebra.Order.Ring.Basic
import Mathlib.Algebra.BigOperators.Group.List.Basic
import Mathlib.Algebra.BigOperators.Group.List.Lemmas
import Mathlib.Algebra.Order.BigOperators.Group.List
import Mathlib.Data.List.Zip

/-!
# C67: master vectors behave like the vector `(x, p, w)`
-/

set_option linter.unusedSectionVars false

namespace Optima.MV

variable {K : Type*}

/-- The blocks have the same sizes. -/
def SameDims (u v : MasterVec K) : Prop := u.x.length = v.x.length ∧ u.p.length = v.p.length ∧ u.w.length = v.w.length

instance (u v : MasterVec K) : Decidable (SameDims u v) := by unfold SameDims; infer_instance

/-! ### Sums, differences, multiples -/

theorem lift_isSome (op : K → K → K) (u v : MasterVec K) : (lift op u v).isSome ↔ SameDims u v := by
  unfold lift zip SameDims
  by_cases h1 : u.x.length = v.x.length <;> by_cases h2 : u.p.length = v.p.length <;> by_cases h3 : u.w.length = v.w.length <;> simp [h1, h2, h3]

theorem lift_spec (op : K → K → K) {u v t : MasterVec K} (h : lift op u v = some t) : toVector t = List.zipWith op (toVector u) (toVector v) ∧ SameDims t u ∧ SameDims t v := by
  have hs : SameDims u v := (lift_isSome op u v).1 (by rw [h]; rfl)
  obtain ⟨h1, h2, h3⟩ := hs
  simp only [lift, zip, h1, h2, h3, if_true, Option.bind_eq_bind, Option.bind_some, Option.pure_def, Option.some.injEq] at h
  subst h
  refine ⟨?_, ⟨?_, ?_, ?_⟩, ⟨?_, ?_, ?_⟩⟩
  · simp only [toVector]
    rw [List.zipWith_append (by simp [h1, h2]), List.zipWith_append h1]
  all_goals simp [h1, h2, h3]

/-- `u + v` and `u - v` are defined exactly if the blocks have the same sizes. Then they are the sum and the difference of the vectors `(x, p, w)`, split into blocks of these sizes.  This holds for numbers of any type. -/
theorem add_sub_spec [Add K] [Sub K] (u v : MasterVec K) :
    ((add u v).isSome ↔ SameDims u v) ∧ ((sub u v).isSome ↔ SameDims u v) ∧
    (∀ t, add u v = some t → toVector t = List.zipWith (· + ·) (toVector u) (toVector v) ∧ SameDims t u) ∧
    (∀ t, sub u v = some t → toVector t = List.zipWith (· - ·) (toVector u) (toVector v) ∧ SameDims t u) :=
  ⟨lift_isSome _ u v, lift_isSome _ u v, fun _ h => ⟨(lift_spec _ h).1, (lift_spec _ h).2.1⟩, fun _ h => ⟨(lift_spec _ h).1, (lift_spec _ h).2.1⟩⟩

/-- `s * u`, `u * s`, `u *= s` and `u /= s` act on every entry of the vector `(x, p, w)` and keep the sizes of the blocks.  `u += v` and `u -= v` give what `u + v` and `u - v` give. -/
theorem scale_spec [Add K] [Sub K] [Mul K] [Div K] (u v : MasterVec K) (s : K) :
    (toVector (smul s u) = (toVector u).map (s * ·) ∧ SameDims (smul s u) u) ∧
    (toVector (muls u s) = (toVector u).map (s * ·) ∧ SameDims (muls u s) u) ∧
    (toVector (mulAssign u s) = (toVector u).map (· * s) ∧ SameDims (mulAssign u s) u) ∧
    (toVector (divAssign u s) = (toVector u).map (· / s) ∧ SameDims (divAssign u s) u) ∧
    addAssign u v = add u v ∧ subAssign u v = sub u v := by
  refine ⟨⟨?_, ?_, ?_, ?_⟩, ⟨?_, ?_, ?_, ?_⟩, ⟨?_, ?_, ?_, ?_⟩, ⟨?_, ?_, ?_, ?_⟩, rfl, rfl⟩ <;> simp [toVector, smul, muls, mulAssign, divAssign]

example : add (⟨[1, 2], [3], [4]⟩ : MasterVec ℚ) ⟨[10, 20], [30], [40]⟩ = some ⟨[11, 22], [33], [44]⟩ := by decide +kernel
example : add (⟨[1, 2], [3], [4]⟩ : MasterVec ℚ) ⟨[10], [20, 30], [40]⟩ = none := by decide +kernel
example : sub (⟨[1, 2], [], [4]⟩ : MasterVec ℚ) ⟨[10, 20], [], [40]⟩ = some ⟨[-9, -18], [], [-36]⟩ := by decide +kernel

/-- In exact arithmetic, `u * s` is `u *= s` and `u / s` is `u /= s`. -/
theorem divs_eq_partial [Field K] (u : MasterVec K) (s : K) : muls u s = mulAssign u s ∧ divs u s = divAssign u s := by
  have h1 : (fun a : K => s * a) = fun a => a * s := funext fun a => mul_comm s a
  have h2 : (fun a : K => 1 / s * a) = fun a => a / s := funext fun a => by rw [one_div, div_eq_mul_inv, mul_comm]
  constructor
  · simp only [muls, smul, mulAssign, h1]
  · simp only [divs, smul, divAssign, h2]

example : divs (⟨[1, 2], [3], [4]⟩ : MasterVec ℚ) 3 = ⟨[1 / 3, 2 / 3], [1], [4 / 3]⟩ := by decide +kernel

/-- In `double` arithmetic `u / s` and `u /= s` differ: `49/49` is `1`, and `(1/49)*49` is not. -/
theorem divs_ne_witness : ∃ (u : MasterVec Double) (s : Double), ((divAssign u s).x.map FNum.val = [1]) ∧ ((divs u s).x.map FNum.val = [1 - 1 / 2 ^ 53]) :=
  ⟨⟨[FNum.fl 49], [], []⟩, FNum.fl 49, by decide +kernel, by decide +kernel⟩

open FNum in
/-- With `p` significant bits, the entries of `u / s` and `u /= s` differ by at most `(3·2⁻ᵖ + 4⁻ᵖ)` times the size of the exact quotient. -/
theorem divs_close {p : ℕ} (hp : 0 < p) (a s : FNum p) :
    |((1 / s) * a).val - (a / s).val| ≤ (3 / 2 ^ p + 1 / 4 ^ p) * |a.val / s.val| := by
  rw [val_mul, val_div, val_div, val_one hp]
  have h1 := Fl.rnd_error p (1 / s.val)
  have h2 := Fl.rnd_error p (Fl.rnd p (1 / s.val) * a.val)
  have h3 := Fl.rnd_error p (a.val / s.val)
  have hpow : (4 : ℚ) ^ p = 2 ^ p * 2 ^ p := by rw [← mul_pow]; norm_num
  set e : ℚ := 1 / 2 ^ p with he
  have he0 : 0 ≤ e := by positivity
  have e3 : (3 : ℚ) / 2 ^ p + 1 / 4 ^ p = 3 * e + e * e := by rw [hpow, he]; field_simp
  have hq : |1 / s.val * a.val| = |a.val / s.val| := by congr 1; rw [one_div, div_eq_mul_inv, mul_comm]
  have d1 : |Fl.rnd p (1 / s.val) * a.val - 1 / s.val * a.val| ≤ e * |a.val / s.val| := by
    rw [← sub_mul, abs_mul, ← hq, abs_mul, ← mul_assoc]
    refine mul_le_mul_of_nonneg_right ?_ (abs_nonneg _)
    rw [he, one_div_mul_eq_div]
    exact h1
  have d2 : |Fl.rnd p (1 / s.val) * a.val| ≤ (1 + e) * |a.val / s.val| := by
    have := abs_sub_abs_le_abs_sub (Fl.rnd p (1 / s.val) * a.val) (1 / s.val * a.val)
    rw [hq] at this
    linarith
  have d3 : |Fl.rnd p (Fl.rnd p (1 / s.val) * a.val) - Fl.rnd p (1 / s.val) * a.val| ≤ e * ((1 + e) * |a.val / s.val|) := by
    refine h2.trans ?_
    rw [he, one_div_mul_eq_div]
    exact div_le_div_of_nonneg_right d2 (by positivity)
  have d4 : |Fl.rnd p (a.val / s.val) - a.val / s.val| ≤ e * |a.val / s.val| := by
    rw [he, one_div_mul_eq_div]; exact h3
  have hq' : 1 / s.val * a.val = a.val / s.val := by rw [one_div, div_eq_mul_inv, mul_comm]
  rw [hq'] at d1
  rw [e3]
  rw [abs_le] at *
  constructor <;> linarith [d1.1, d1.2, d3.1, d3.2, d4.1, d4.2]

/-! ### Products and norms -/

theorem foldl_add_eq [AddCommMonoid K] (l : List K) (a : K) : l.foldl (fun s t => s + t) a = a + l.sum := by
  induction l generalizing a with
  | nil => simp
  | cons b l ih => rw [List.foldl_cons, ih, List.sum_cons, add_assoc]

theorem dotVec_eq [Semiring K] {a b : List K} (h : a.length = b.length) : dotVec a b = some (List.zipWith (· * ·) a b).sum := by
  unfold dotVec; rw [if_pos h, foldl_add_eq, zero_add]

/-- `u.dot(v)` is defined exactly if the blocks have the same sizes. It is then the sum of the products of the entries of the vectors `(x, p, w)`. -/
theorem dot_spec [Semiring K] (u v : MasterVec K) : ((dot u v).isSome ↔ SameDims u v) ∧ (SameDims u v → dot u v = some (List.zipWith (· * ·) (toVector u) (toVector v)).sum) := by
  have key : SameDims u v → dot u v = some (List.zipWith (· * ·) (toVector u) (toVector v)).sum := by
    rintro ⟨h1, h2, h3⟩
    unfold dot toVector
    rw [dotVec_eq h1, dotVec_eq h2, dotVec_eq h3, List.zipWith_append (by simp [h1, h2]), List.zipWith_append h1, List.sum_append, List.sum_append]
    rfl
  refine ⟨⟨fun h => ?_, fun h => by rw [key h]; rfl⟩, key⟩
  by_contra hc
  unfold SameDims at hc
  unfold dot dotVec at h
  by_cases h1 : u.x.length = v.x.length <;> by_cases h2 : u.p.length = v.p.length <;> by_cases h3 : u.w.length = v.w.length <;> simp_all

theorem sqVec_eq [Semiring K] (a : List K) : sqVec a = (a.map fun t => t * t).sum := by
  unfold sqVec; rw [foldl_add_eq, zero_add]

theorem squaredNorm_eq [Semiring K] (u : MasterVec K) : squaredNorm u = ((toVector u).map fun t => t * t).sum := by
  unfold squaredNorm toVector
  simp only [sqVec_eq, List.map_append, List.sum_append]

/-- `u.squaredNorm()` is `u.dot(u)`. -/
theorem squaredNorm_eq_dot [Semiring K] (u : MasterVec K) : dot u u = some (squaredNorm u) := by
  rw [(dot_spec u u).2 ⟨rfl, rfl, rfl⟩, squaredNorm_eq, List.zipWith_self]

theorem sum_sq_eq_zero [Field K] [LinearOrder K] [IsStrictOrderedRing K] (l : List K) : 0 ≤ (l.map fun t => t * t).sum ∧ ((l.map fun t => t * t).sum = 0 ↔ ∀ a ∈ l, a = 0) := by
  induction l with
  | nil => simp
  | cons b l ih =>
    rw [List.map_cons, List.sum_cons]
    have hb := mul_self_nonneg b
    refine ⟨add_nonneg hb ih.1, ?_⟩
    rw [add_eq_zero_iff_of_nonneg hb ih.1, mul_self_eq_zero, ih.2]
    simp

/-- The squared norm is not negative; it vanishes exactly for the zero vector. -/
theorem squaredNorm_zero [Field K] [LinearOrder K] [IsStrictOrderedRing K] (u : MasterVec K) : 0 ≤ squaredNorm u ∧ (squaredNorm u = 0 ↔ ∀ a ∈ toVector u, a = 0) := by
  rw [squaredNorm_eq]; exact sum_sq_eq_zero _

theorem cauchy_list [Field K] [LinearOrder K] [IsStrictOrderedRing K] : ∀ (a b : List K),
    (List.zipWith (· * ·) a b).sum ^ 2 ≤ (a.map fun t => t * t).sum * (b.map fun t => t * t).sum := by
  intro a
  induction a with
  | nil => intro b; simp
  | cons x a ih =>
    intro b
    cases b with
    | nil => simp
    | cons y b =>
      simp only [List.zipWith_cons_cons, List.sum_cons, List.map_cons]
      have h := ih b
      have hA := (sum_sq_eq_zero a).1
      have hB := (sum_sq_eq_zero b).1
      set A := (a.map fun t => t * t).sum
      set B := (b.map fun t => t * t).sum
      set D := (List.zipWith (· * ·) a b).sum
      -- 2 x y D ≤ x² B + y² A
      have h2 : 2 * (x * y * D) ≤ x * x * B + y * y * A := by
        have hsq : (2 * (x * y * D)) ^ 2 ≤ (x * x * B + y * y * A) ^ 2 := by
          have h4 : (x * x * B + y * y * A) ^ 2 ≥ 4 * (x * x * B * (y * y * A)) := by nlinarith [sq_nonneg (x * x * B - y * y * A)]
          have h5 : (x * y) ^ 2 * D ^ 2 ≤ (x * y) ^ 2 * (A * B) := mul_le_mul_of_nonneg_left h (sq_nonneg _)
          nlinarith
        exact le_of_sq_le_sq hsq (add_nonneg (mul_nonneg (mul_self_nonneg x) hB) (mul_nonneg (mul_self_nonneg y) hA))
      nlinarith

/-- `|u.dot(v)|² ≤ u.squaredNorm() * v.squaredNorm()`. -/
theorem dot_cauchy [Field K] [LinearOrder K] [IsStrictOrderedRing K] {u v : MasterVec K} {d : K} (h : dot u v = some d) : d ^ 2 ≤ squaredNorm u * squaredNorm v := by
  have hs : SameDims u v := (dot_spec u v).1.1 (by rw [h]; rfl)
  rw [(dot_spec u v).2 hs, Option.some.injEq] at h
  rw [← h, squaredNorm_eq, squaredNorm_eq]
  exact cauchy_list _ _

/-- `u.norm()` is the Euclidean norm of the vector `(x, p, w)`; it is scaled by `|s|` when `u` is multiplied by `s`. -/
theorem norm_spec (u : MasterVec ℝ) (s : ℝ) : 0 ≤ norm u ∧ norm u ^ 2 = ((toVector u).map fun t => t * t).sum ∧ norm (smul s u) = |s| * norm u := by
  have h0 : 0 ≤ squaredNorm u := (squaredNorm_zero u).1
  refine ⟨Real.sqrt_nonneg _, ?_, ?_⟩
  · unfold norm; rw [Real.sq_sqrt h0, squaredNorm_eq]
  · have e : squaredNorm (smul s u) = s ^ 2 * squaredNorm u := by
      rw [squaredNorm_eq, squaredNorm_eq, (scale_spec u u s).1.1, List.map_map]
      generalize toVector u = l
      induction l with
      | nil => simp
      | cons b l ih => simp only [List.map_cons, List.sum_cons, ih, Function.comp]; ring
    unfold norm
    rw [e, Real.sqrt_mul (sq_nonneg s), Real.sqrt_sq_eq_abs]

example : dot (⟨[1, 2], [3], [4]⟩ : MasterVec ℚ) ⟨[5, 6], [7], [8]⟩ = some 70 := by decide +kernel
example : squaredNorm (⟨[1, 2], [3], [4]⟩ : MasterVec ℚ) = 30 := by decide +kernel

/-! ### Construction from and conversion to one vector -/

theorem ofData_isSome (data : List K) (nx np nw : ℕ) : (ofData data nx np nw).isSome ↔ nx + np ≤ data.length ∧ nw ≤ data.length := by
  unfold ofData head segment tail
  by_cases h1 : nx ≤ data.length <;> by_cases h2 : nx + np ≤ data.length <;> by_cases h3 : nw ≤ data.length <;> simp [h1, h2, h3] <;> omega

theorem ofData_eq {data : List K} {nx np nw : ℕ} {u : MasterVec K} (h : ofData data nx np nw = some u) :
    u = ⟨data.take nx, (data.drop nx).take np, data.drop (data.length - nw)⟩ := by
  have hs := (ofData_isSome data nx np nw).1 (by rw [h]; rfl)
  have h1 : nx ≤ data.length := by omega
  simp only [ofData, head, segment, tail, h1, hs.1, hs.2, if_true, Option.bind_eq_bind, Option.bind_some, Option.pure_def, Option.some.injEq] at h
  exact h.symm

/-- The conversion to one vector undoes the construction from one vector of the right length, and the reverse; the blocks have the sizes asked for, and `size()` is the length of the vector. -/
theorem data_roundtrip (data : List K) (nx np nw : ℕ) (h : data.length = nx + np + nw) (u : MasterVec K) :
    (∃ v, ofData data nx np nw = some v ∧ toVector v = data ∧ v.x.length = nx ∧ v.p.length = np ∧ v.w.length = nw) ∧
    ofData (toVector u) u.x.length u.p.length u.w.length = some u ∧ size u = (toVector u).length := by
  refine ⟨?_, ?_, ?_⟩
  · have hs := (ofData_isSome data nx np nw).2 ⟨by omega, by omega⟩
    obtain ⟨v, hv⟩ := Option.isSome_iff_exists.1 hs
    refine ⟨v, hv, ?_⟩
    rw [ofData_eq hv]
    refine ⟨?_, by simp; omega, by simp; omega, by simp; omega⟩
    simp only [toVector]
    rw [h, show nx + np + nw - nw = nx + np by omega, ← List.take_add, List.take_append_drop]
  · have hs := (ofData_isSome (toVector u) u.x.length u.p.length u.w.length).2 (by simp [toVector]; omega)
    obtain ⟨v, hv⟩ := Option.isSome_iff_exists.1 hs
    rw [hv, ofData_eq hv]
    congr 1
    ext1
    · simp [toVector]
    · simp [toVector]
    · simp only [toVector, List.length_append, Nat.add_sub_cancel]
      rw [List.drop_append_of_le_length (by simp)]
      simp
  · simp [size, toVector]; omega

example : ofData [(1 : ℚ), 2, 3, 4] 2 1 1 = some ⟨[1, 2], [3], [4]⟩ := by decide +kernel

/-- A vector of another length is not detected: the entries between `p` and `w` of a longer one are dropped, and those of a shorter one are used twice. -/
theorem data_length_witness :
    ofData [(1 : ℚ), 2, 3, 4, 5] 2 1 1 = some ⟨[1, 2], [3], [5]⟩ ∧ ofData [(1 : ℚ), 2, 3] 2 1 1 = some ⟨[1, 2], [3], [3]⟩ := by decide +kernel

/-- A new master vector and a resized one are zero and of the sizes asked for. -/
theorem zeros_resize_spec [Zero K] (u : MasterVec K) (nx np nw : ℕ) : zeros nx np nw = some (resize u nx np nw) ∧
    (resize u nx np nw).x.length = nx ∧ (resize u nx np nw).p.length = np ∧ (resize u nx np nw).w.length = nw ∧ ∀ a ∈ toVector (resize u nx np nw), a = 0 := by
  refine ⟨?_, by simp [resize], by simp [resize], by simp [resize], fun a ha => ?_⟩
  · have hs := (ofData_isSome (List.replicate (nx + np + nw) (0 : K)) nx np nw).2 (by simp)
    obtain ⟨v, hv⟩ := Option.isSome_iff_exists.1 hs
    unfold zeros
    rw [hv, ofData_eq hv]
    simp only [resize, List.take_replicate, List.drop_replicate, List.length_replicate, Option.some.injEq, MasterVec.mk.injEq]
    refine ⟨?_, ?_, ?_⟩ <;> congr 1 <;> omega
  · simp only [toVector, resize, List.mem_append, List.mem_replicate] at ha
    rcases ha with (⟨-, h⟩ | ⟨-, h⟩) | ⟨-, h⟩ <;> exact h

/-- The same for `CanonicalVector`. -/
theorem canonical_roundtrip (data : List K) (ns nu np nbs : ℕ) (h : data.length = ns + nu + np + nbs) (u : CanonicalVec K) :
    (∃ v, CanonicalVec.ofData data ns nu np nbs = some v ∧ v.toVector = data ∧ v.xs.length = ns ∧ v.xu.length = nu ∧ v.p.length = np ∧ v.wbs.length = nbs) ∧
    CanonicalVec.ofData u.toVector u.xs.length u.xu.length u.p.length u.wbs.length = some u ∧ u.size = u.toVector.length := by
  have key : ∀ (data : List K) (ns nu np nbs : ℕ), data.length = ns + nu + np + nbs → CanonicalVec.ofData data ns nu np nbs =
      some ⟨data.take ns, (data.drop ns).take nu, (data.drop (ns + nu)).take np, data.drop (ns + nu + np)⟩ := by
    intro data ns nu np nbs h
    have h1 : ns ≤ data.length := by omega
    have h2 : ns + nu ≤ data.length := by omega
    have h3 : ns + nu + np ≤ data.length := by omega
    have h4 : nbs ≤ data.length := by omega
    have h5 : data.length - nbs = ns + nu + np := by omega
    simp [CanonicalVec.ofData, head, segment, tail, h1, h2, h3, h4, h5]
  refine ⟨⟨_, key data ns nu np nbs h, ?_, by simp; omega, by simp; omega, by simp; omega, by simp; omega⟩, ?_, ?_⟩
  · simp only [CanonicalVec.toVector]
    rw [← List.take_add, ← List.take_add, List.take_append_drop]
  · rw [key _ _ _ _ _ (by simp [CanonicalVec.toVector]; omega)]
    congr 1
    ext1
    · simp [CanonicalVec.toVector]
    · simp [CanonicalVec.toVector]
    · simp only [CanonicalVec.toVector]
      rw [List.append_assoc (u.xs ++ u.xu), ← List.length_append, List.drop_left, List.take_left]
    · simp only [CanonicalVec.toVector]
      rw [← List.length_append, ← List.length_append, List.drop_left]
  · simp [CanonicalVec.size, CanonicalVec.toVector]; omega

/-! ### Assignments through references -/

/-- An address of a reference. -/
def Block.has (b : Block) (a : ℕ) : Prop := b.start ≤ a ∧ a < b.start + b.len
def Ref.has (r : Ref) (a : ℕ) : Prop := r.x.has a ∨ r.p.has a ∨ r.w.has a

/-- The blocks of a reference do not overlap. -/
def Ref.Proper (r : Ref) : Prop := (∀ a, r.x.has a → ¬ r.p.has a) ∧ (∀ a, r.x.has a → ¬ r.w.has a) ∧ (∀ a, r.p.has a → ¬ r.w.has a)

theorem copyLoop (d s : ℕ) (m : ℕ → K) (n : ℕ) (h : ∀ i < n, ∀ j < n, d + i ≠ s + j) (a : ℕ) :
    (List.range n).foldl (fun m i => Function.update m (d + i) (m (s + i))) m a = if d ≤ a ∧ a < d + n then m (s + (a - d)) else m a := by
  induction n generalizing a with
  | zero => simp
  | succ n ih =>
    have h' : ∀ i < n, ∀ j < n, d + i ≠ s + j := fun i hi j hj => h i (by omega) j (by omega)
    rw [List.range_succ, List.foldl_append, List.foldl_cons, List.foldl_nil]
    by_cases ha : a = d + n
    · subst ha
      rw [Function.update_self, ih h']
      rw [if_neg, if_pos ⟨by omega, by omega⟩]
      · congr 1; omega
      · rintro ⟨h1, h2⟩
        exact h (s + n - d) (by omega) n (by omega) (by omega)
    · rw [Function.update_of_ne ha, ih h']
      by_cases hc : d ≤ a ∧ a < d + n
      · rw [if_pos hc, if_pos ⟨hc.1, by omega⟩]
      · rw [if_neg hc, if_neg]; intro hc'; exact hc ⟨hc'.1, by omega⟩

/-- Copying a block onto itself changes nothing. -/
theorem copyLoop_self (d : ℕ) (m : ℕ → K) (n : ℕ) : (List.range n).foldl (fun m i => Function.update m (d + i) (m (d + i))) m = m := by
  induction n with
  | zero => rfl
  | succ n ih => rw [List.range_succ, List.foldl_append, ih]; simp

theorem copyBlock_spec {dst src : Block} {m : ℕ → K} (hl : dst.len = src.len) (h : ∀ a, dst.has a → ¬ src.has a) :
    ∃ m', copyBlock dst src m = some m' ∧ dst.read m' = src.read m ∧ ∀ a, ¬ dst.has a → m' a = m a := by
  have hne : ∀ i < dst.len, ∀ j < dst.len, dst.start + i ≠ src.start + j := by
    intro i hi j hj e
    exact h (dst.start + i) ⟨by omega, by omega⟩ ⟨by omega, by omega⟩
  refine ⟨_, by unfold copyBlock; rw [if_pos hl], ?_, ?_⟩
  · unfold Block.read
    rw [← hl]
    refine List.map_congr_left fun i hi => ?_
    rw [List.mem_range] at hi
    rw [copyLoop _ _ _ _ hne, if_pos ⟨by omega, by omega⟩]
    congr 1; omega
  · intro a ha
    rw [copyLoop _ _ _ _ hne]
    exact if_neg ha

theorem Block.read_congr {b : Block} {m m' : ℕ → K} (h : ∀ a, b.has a → m a = m' a) : b.read m = b.read m' := by
  unfold Block.read
  refine List.map_congr_left fun i hi => ?_
  rw [List.mem_range] at hi
  exact h _ ⟨by omega, by omega⟩

/-- Assignment through references that share no memory: the destination then shows the values that the source had, the source is unchanged, and so is all other memory. -/
theorem assignRef_spec_partial {dst src : Ref} {m : ℕ → K} (hp : dst.Proper) (hd : ∀ a, dst.has a → ¬ src.has a)
    (hl : SameDims (dst.read m) (src.read m)) : ∃ m', assignRef dst src m = some m' ∧ dst.read m' = src.read m ∧ ∀ a, ¬ dst.has a → m' a = m a := by
  have hlx : dst.x.len = src.x.len := by simpa [Ref.read, Block.read] using hl.1
  have hlp : dst.p.len = src.p.len := by simpa [Ref.read, Block.read] using hl.2.1
  have hlw : dst.w.len = src.w.len := by simpa [Ref.read, Block.read] using hl.2.2
  obtain ⟨m1, e1, r1, o1⟩ := copyBlock_spec (m := m) hlx fun a h h' => hd a (Or.inl h) (Or.inl h')
  obtain ⟨m2, e2, r2, o2⟩ := copyBlock_spec (m := m1) hlp fun a h h' => hd a (Or.inr (Or.inl h)) (Or.inr (Or.inl h'))
  obtain ⟨m3, e3, r3, o3⟩ := copyBlock_spec (m := m2) hlw fun a h h' => hd a (Or.inr (Or.inr h)) (Or.inr (Or.inr h'))
  refine ⟨m3, ?_, ?_, ?_⟩
  · unfold assignRef
    simp only [e1, e2, e3, Option.bind_eq_bind, Option.bind_some]
  · unfold Ref.read
    ext1
    · dsimp only
      rw [← r1]
      refine Block.read_congr fun a ha => ?_
      rw [o3 a (hp.2.1 a ha), o2 a (hp.1 a ha)]
    · dsimp only
      rw [Block.read_congr (b := dst.p) (m := m3) (m' := m2) fun a ha => o3 a (hp.2.2 a ha), r2]
      refine Block.read_congr fun a ha => o1 a fun h' => hd a (Or.inl h') (Or.inr (Or.inl ha))
    · dsimp only
      rw [r3]
      refine Block.read_congr fun a ha => ?_
      rw [o2 a fun h' => hd a (Or.inr (Or.inl h')) (Or.inr (Or.inr ha)), o1 a fun h' => hd a (Or.inl h') (Or.inr (Or.inr ha))]
  · intro a ha
    rw [o3 a fun h => ha (Or.inr (Or.inr h)), o2 a fun h => ha (Or.inr (Or.inl h)), o1 a fun h => ha (Or.inl h)]

/-- Assignment of a reference to itself changes nothing. -/
theorem assignRef_self (r : Ref) (m : ℕ → K) : assignRef r r m = some m := by
  unfold assignRef copyBlock
  simp [copyLoop_self]

/-- Assignment through references fails exactly if the sizes differ: a reference cannot be resized. -/
theorem assignRef_isSome (dst src : Ref) (m : ℕ → K) : (assignRef dst src m).isSome ↔ dst.x.len = src.x.len ∧ dst.p.len = src.p.len ∧ dst.w.len = src.w.len := by
  unfold assignRef copyBlock
  by_cases h1 : dst.x.len = src.x.len <;> by_cases h2 : dst.p.len = src.p.len <;> by_cases h3 : dst.w.len = src.w.len <;> simp [h1, h2, h3]

/-- Two references into one vector that overlap: `x` of the destination is the source's shifted by one place. The destination does not show the values that the source had. -/
theorem assignRef_overlap_witness : ∃ (dst src : Ref) (m m' : ℕ → ℚ), dst.Proper ∧ src.Proper ∧ assignRef dst src m = some m' ∧
    (src.read m).x = [1, 2, 3] ∧ (dst.read m').x = [1, 1, 1] := by
  refine ⟨⟨⟨1, 3⟩, ⟨4, 0⟩, ⟨4, 0⟩⟩, ⟨⟨0, 3⟩, ⟨4, 0⟩, ⟨4, 0⟩⟩, fun i => i + 1, _, ?_, ?_, rfl, by decide +kernel, by decide +kernel⟩ <;>
  · refine ⟨fun a _ h => ?_, fun a _ h => ?_, fun a _ h => ?_⟩ <;> simp only [Block.has] at h <;> omega

example : ∃ m', assignRef ⟨⟨0, 2⟩, ⟨2, 1⟩, ⟨3, 1⟩⟩ ⟨⟨4, 2⟩, ⟨6, 1⟩, ⟨7, 1⟩⟩ (fun i => (i : ℚ)) = some m' ∧ (Ref.read ⟨⟨0, 2⟩, ⟨2, 1⟩, ⟨3, 1⟩⟩ m') = ⟨[4, 5], [6], [7]⟩ :=
  ⟨_, rfl, by decide +kernel⟩

end Optima.MV
