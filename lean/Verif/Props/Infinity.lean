import Verif.Model.Infinity
import Verif.Props.NotANumber

/-!
# C80: infinite values
-/

set_option linter.unusedSectionVars false

namespace Optima

open Matrix

variable {K : Type*} [Field K] [LinearOrder K] [IsStrictOrderedRing K] {nx np ny nz : ℕ} {τ : Type*}

namespace Ext

theorem num_add (a b : K) : num a + num b = num (a + b) := rfl
theorem num_mul (a b : K) : num a * num b = num (a * b) := rfl
theorem num_neg (a : K) : -num a = num (-a) := rfl
theorem num_sub (a b : K) : num a - num b = num (a - b) := by rw [sub_eq_add_neg]; rfl
theorem zero_eq : (0 : Ext K) = num 0 := rfl
theorem one_eq : (1 : Ext K) = num 1 := rfl
theorem nan_add (a : Ext K) : nan + a = nan := by cases a <;> rfl
theorem add_nan (a : Ext K) : a + nan = nan := by cases a <;> rfl
theorem num_lt (a b : K) : num a < num b ↔ a < b := Iff.rfl
theorem not_nan_lt (a : Ext K) : ¬ nan < a := by cases a <;> exact id
theorem not_lt_nan (a : Ext K) : ¬ a < nan := by cases a <;> exact id
theorem not_pinf_lt (a : Ext K) : ¬ pinf < a := by cases a <;> exact id
theorem sub_def (a b : Ext K) : a - b = a + -b := rfl

theorem add_comm' (a b : Ext K) : a + b = b + a := by
  cases a <;> cases b <;> first | rfl | exact congrArg num (add_comm _ _)

theorem add_assoc' (a b c : Ext K) : a + b + c = a + (b + c) := by
  cases a <;> cases b <;> cases c <;> first | rfl | exact congrArg num (add_assoc _ _ _)

theorem zero_add' (a : Ext K) : 0 + a = a := by
  cases a <;> first | rfl | exact congrArg num (zero_add _)

/-- With exact numbers the order of a sum has no influence. -/
instance : AddCommMonoid (Ext K) where
  add_assoc := add_assoc'
  zero_add := zero_add'
  add_zero a := by rw [add_comm', zero_add']
  add_comm := add_comm'
  nsmul := nsmulRec

theorem dot_eq {n : ℕ} (a b : Fin n → Ext K) : dot a b = ∑ j, a j * b j := by
  unfold dot
  rw [Fin.sum_univ_def, List.sum_eq_foldl, List.foldl_map]

theorem sum_num {n : ℕ} (f : Fin n → K) : ∑ j, num (f j) = num (∑ j, f j) := by
  induction n with
  | zero => simp; rfl
  | succ n ih => rw [Fin.sum_univ_succ, Fin.sum_univ_succ, ih, num_add]

theorem sum_nan {n : ℕ} (f : Fin n → Ext K) (h : ∃ j, f j = nan) : ∑ j, f j = nan := by
  obtain ⟨j, hj⟩ := h
  rw [← Finset.add_sum_erase _ _ (Finset.mem_univ j), hj, nan_add]

theorem sum_pinf {n : ℕ} (f : Fin n → Ext K) (h : ∀ j, f j ≠ nan ∧ f j ≠ ninf) (hp : ∃ j, f j = pinf) : ∑ j, f j = pinf := by
  obtain ⟨j, hj⟩ := hp
  rw [← Finset.add_sum_erase _ _ (Finset.mem_univ j), hj]
  have : ∀ s : Finset (Fin n), (∑ i ∈ s, f i) ≠ nan ∧ (∑ i ∈ s, f i) ≠ ninf := fun s => by
    refine Finset.sum_induction f (fun a => a ≠ nan ∧ a ≠ ninf) ?_ (by rw [zero_eq]; simp) fun i _ => h i
    rintro (a | _ | _ | _) (b | _ | _ | _) ⟨ha, ha'⟩ ⟨hb, hb'⟩ <;> first | exact absurd rfl ha | exact absurd rfl ha' | exact absurd rfl hb | exact absurd rfl hb' | exact ⟨by rintro ⟨⟩, by rintro ⟨⟩⟩
  obtain ⟨h1, h2⟩ := this (Finset.univ.erase j)
  revert h1 h2
  generalize ∑ i ∈ Finset.univ.erase j, f i = r
  intro h1 h2
  cases r <;> first | rfl | simp_all

theorem sum_ninf {n : ℕ} (f : Fin n → Ext K) (h : ∀ j, f j ≠ nan ∧ f j ≠ pinf) (hp : ∃ j, f j = ninf) : ∑ j, f j = ninf := by
  obtain ⟨j, hj⟩ := hp
  rw [← Finset.add_sum_erase _ _ (Finset.mem_univ j), hj]
  have : ∀ s : Finset (Fin n), (∑ i ∈ s, f i) ≠ nan ∧ (∑ i ∈ s, f i) ≠ pinf := fun s => by
    refine Finset.sum_induction f (fun a => a ≠ nan ∧ a ≠ pinf) ?_ (by rw [zero_eq]; simp) fun i _ => h i
    rintro (a | _ | _ | _) (b | _ | _ | _) ⟨ha, ha'⟩ ⟨hb, hb'⟩ <;> first | exact absurd rfl ha | exact absurd rfl ha' | exact absurd rfl hb | exact absurd rfl hb' | exact ⟨by rintro ⟨⟩, by rintro ⟨⟩⟩
  obtain ⟨h1, h2⟩ := this (Finset.univ.erase j)
  revert h1 h2
  generalize ∑ i ∈ Finset.univ.erase j, f i = r
  intro h1 h2
  cases r <;> first | rfl | simp_all

theorem sum_opposite {n : ℕ} (f : Fin n → Ext K) (h1 : ∃ j, f j = pinf) (h2 : ∃ j, f j = ninf) : ∑ j, f j = nan := by
  obtain ⟨i, hi⟩ := h1
  obtain ⟨j, hj⟩ := h2
  have hne : j ≠ i := by rintro rfl; rw [hi] at hj; cases hj
  rw [← Finset.add_sum_erase _ _ (Finset.mem_univ i), ← Finset.add_sum_erase _ _ (Finset.mem_erase.2 ⟨hne, Finset.mem_univ j⟩), hi, hj, ← add_assoc]
  exact nan_add _

theorem sign_num (a : K) : (sign (num a) = 0 ↔ a = 0) ∧ (sign (num a) = 1 ↔ 0 < a) ∧ (sign (num a) = -1 ↔ a < 0) := by
  unfold sign
  rcases lt_trichotomy a 0 with h | h | h
  · simp [h, h.ne, not_lt.2 h.le]
  · simp [h]
  · simp [h, h.ne', not_lt.2 h.le]

theorem mul_inf (a : K) {b : Ext K} (hb : b.IsInf) : num a * b = ofSign (sign (num a) * sign b) := by
  rcases hb with rfl | rfl <;> rfl

theorem add_inf (a : K) {b : Ext K} (hb : b.IsInf) : num a - b = -b := by
  rcases hb with rfl | rfl <;> rfl

theorem sign_neg (b : Ext K) : sign (-b) = -sign b := by
  cases b with
  | num a =>
    change sign (num (-a)) = -sign (num a)
    unfold sign
    rcases lt_trichotomy a 0 with h | h | h
    · simp [h, not_lt.2 h.le]
    · simp [h]
    · simp [h, not_lt.2 h.le]
  | _ => rfl

theorem isInf_neg {b : Ext K} (h : b.IsInf) : (-b).IsInf := by
  rcases h with rfl | rfl
  · exact Or.inr rfl
  · exact Or.inl rfl

/-- A product with a matrix: finite if the vector is. -/
theorem multiplyClean_num {n : ℕ} {ι : Type*} (eps : K) (A : ι → Fin n → K) (x : Fin n → K) (i : ι) : multiplyClean eps A (fun j => num (x j)) i = num (Utils.multiplyClean eps A x i) := by
  have e1 : dot (fun j => num (A i j)) (fun j => num (x j)) = num (∑ j, A i j * x j) := by
    rw [dot_eq, ← sum_num]; rfl
  have e2 : dot (fun j => num |A i j|) (fun j => (num (x j)).abs) = num (∑ j, |A i j| * |x j|) := by
    rw [dot_eq, ← sum_num]; rfl
  unfold multiplyClean Utils.multiplyClean
  dsimp only
  rw [e1, e2, num_mul]
  simp only [abs, num_lt]
  split_ifs <;> rfl

/-- A sum that is not finite is not changed. -/
theorem multiplyClean_of_dot {n : ℕ} {ι : Type*} (eps : K) (A : ι → Fin n → K) (x : Fin n → Ext K) (i : ι) (h : dot (fun j => num (A i j)) x = nan ∨ (dot (fun j => num (A i j)) x).IsInf) :
    multiplyClean eps A x i = dot (fun j => num (A i j)) x := by
  unfold multiplyClean
  dsimp only
  rcases h with h | h | h <;> rw [h, if_neg]
  · exact not_nan_lt _
  · exact not_pinf_lt _
  · exact not_pinf_lt _

/-- The terms of the sum: numbers, the infinity of the product of signs, or NaN. -/
theorem dot_inf {n : ℕ} (a : Fin n → K) (x : Fin n → Ext K) (hx : ∀ j, x j ≠ nan) (hi : ∃ j, (x j).IsInf) :
    ((∃ j, (x j).IsInf ∧ a j = 0) ∨ (∃ i j, (x i).IsInf ∧ (x j).IsInf ∧ sign (num (a i)) * sign (x i) = 1 ∧ sign (num (a j)) * sign (x j) = -1) → dot (fun j => num (a j)) x = nan) ∧
    (¬ ((∃ j, (x j).IsInf ∧ a j = 0) ∨ (∃ i j, (x i).IsInf ∧ (x j).IsInf ∧ sign (num (a i)) * sign (x i) = 1 ∧ sign (num (a j)) * sign (x j) = -1)) → (dot (fun j => num (a j)) x).IsInf) := by
  rw [dot_eq]
  have hsx : ∀ {j}, (x j).IsInf → sign (x j) = 1 ∨ sign (x j) = -1 := fun {j} h => by rcases h with h | h <;> rw [h] <;> simp [sign]
  have hsa : ∀ {j}, a j ≠ 0 → sign (num (a j)) = 1 ∨ sign (num (a j)) = -1 := fun {j} h => by
    rcases lt_or_gt_of_ne h with h | h
    · exact Or.inr ((sign_num _).2.2.2 h)
    · exact Or.inl ((sign_num _).2.1.2 h)
  constructor
  · rintro (⟨j, h1, h2⟩ | ⟨i, j, h1, h2, h3, h4⟩)
    · refine sum_nan _ ⟨j, ?_⟩
      rw [mul_inf _ h1, h2]
      simp [sign, ofSign]
    · exact sum_opposite _ ⟨i, by rw [mul_inf _ h1, h3]; rfl⟩ ⟨j, by rw [mul_inf _ h2, h4]; rfl⟩
  · intro h
    push Not at h
    obtain ⟨h0, hs⟩ := h
    have hterm : ∀ j, (x j).IsInf ∧ (num (a j) * x j = pinf ∧ sign (num (a j)) * sign (x j) = 1 ∨ num (a j) * x j = ninf ∧ sign (num (a j)) * sign (x j) = -1) ∨ ∃ r, num (a j) * x j = num r := by
      intro j
      by_cases hj : (x j).IsInf
      · left
        refine ⟨hj, ?_⟩
        rw [mul_inf _ hj]
        rcases hsa (h0 j hj) with e | e <;> rcases hsx hj with e' | e' <;> rw [e, e'] <;> simp [ofSign]
      · right
        have := hx j
        revert this hj
        generalize x j = y
        intro hy hn
        cases y with
        | num r => exact ⟨_, rfl⟩
        | pinf => exact absurd (Or.inl rfl) hy
        | ninf => exact absurd (Or.inr rfl) hy
        | nan => exact absurd rfl hn
    obtain ⟨i, hi⟩ := hi
    rcases hterm i with ⟨-, ⟨e, es⟩ | ⟨e, es⟩⟩ | ⟨r, e⟩
    · left
      refine sum_pinf _ (fun j => ?_) ⟨i, e⟩
      rcases hterm j with ⟨hj, ⟨e', -⟩ | ⟨e', es'⟩⟩ | ⟨r, e'⟩
      · rw [e']; simp
      · exact absurd es' (hs i j hi hj es)
      · rw [e']; simp
    · right
      refine sum_ninf _ (fun j => ?_) ⟨i, e⟩
      rcases hterm j with ⟨hj, ⟨e', es'⟩ | ⟨e', -⟩⟩ | ⟨r, e'⟩
      · exact absurd es (hs j i hj hi es')
      · rw [e']; simp
      · rw [e']; simp
    · exfalso
      rw [mul_inf _ hi] at e
      unfold ofSign at e
      split_ifs at e

theorem lt_tol_cases (a : Ext K) (tol : K) : (∃ r, a = num r ∧ r < tol) ∨ a = ninf ↔ a < num tol := by
  constructor
  · rintro (⟨r, rfl, h⟩ | rfl)
    · exact h
    · exact trivial
  · intro h
    cases a with
    | num r => exact Or.inl ⟨r, rfl, h⟩
    | pinf => exact absurd h (not_pinf_lt _)
    | ninf => exact Or.inr rfl
    | nan => exact absurd h (not_nan_lt _)

/-- The larger of two numbers, neither of which is NaN. -/
theorem max_lt_iff {a b : Ext K} (ha : a ≠ nan) (hb : b ≠ nan) (tol : K) : (if a < b then b else a) < num tol ↔ a < num tol ∧ b < num tol := by
  have tr : ∀ {x y z : Ext K}, x < y → y < z → x < z := by
    intro x y z
    rcases x with x | _ | _ | _ <;> rcases y with y | _ | _ | _ <;> rcases z with z | _ | _ | _ <;> intro h1 h2 <;> first | exact h1.elim | exact h2.elim | trivial | exact lt_trans (α := K) h1 h2
  have tot : ∀ {x y : Ext K}, x ≠ nan → y ≠ nan → ¬ x < y → y < num tol ∨ ¬ x < num tol := by
    intro x y
    rcases x with x | _ | _ | _ <;> rcases y with y | _ | _ | _ <;> intro h1 h2 h3 <;> first | exact absurd rfl h1 | exact absurd rfl h2 | exact Or.inr id | exact absurd trivial h3 | exact Or.inl trivial | skip
    rcases lt_or_ge y tol with h | h
    · exact Or.inl h
    · exact Or.inr fun h4 => h3 (lt_of_lt_of_le (show x < tol from h4) h)
  split_ifs with h
  · exact ⟨fun h2 => ⟨tr h h2, h2⟩, fun h2 => h2.2⟩
  · exact ⟨fun h2 => ⟨h2, (tot ha hb h).resolve_right (fun h3 => h3 h2)⟩, fun h2 => h2.1⟩

/-- `std::max({a, b, c}) < tol`: NaN in the first place makes the test fail, NaN in another place has no influence. -/
theorem stdMax_lt_iff (a b c : Ext K) (tol : K) : stdMax a [b, c] < num tol ↔ a < num tol ∧ (b < num tol ∨ b = nan) ∧ (c < num tol ∨ c = nan) := by
  simp only [stdMax, List.foldl_cons, List.foldl_nil]
  by_cases ha : a = nan
  · subst ha
    rw [if_neg (not_nan_lt _), if_neg (not_nan_lt _)]
    exact ⟨fun h => absurd h (not_nan_lt _), fun h => absurd h.1 (not_nan_lt _)⟩
  by_cases hb : b = nan
  · subst hb
    rw [if_neg (not_lt_nan _)]
    by_cases hc : c = nan
    · subst hc
      rw [if_neg (not_lt_nan _)]
      simp
    · rw [max_lt_iff ha hc]
      simp [hc]
  · have hab : (if a < b then b else a) ≠ nan := by split_ifs <;> assumption
    by_cases hc : c = nan
    · subst hc
      rw [if_neg (not_lt_nan _), max_lt_iff ha hb]
      simp [hb]
    · rw [max_lt_iff hab hc, max_lt_iff ha hb]
      simp [hb, hc, and_assoc]

/-- On numbers it is the maximum. -/
theorem stdMax_nums (a b c : K) : stdMax (num a) [num b, num c] = num (max (max a b) c) := by
  simp only [stdMax, List.foldl_cons, List.foldl_nil, num_lt]
  split_ifs with h1 h2 h2 <;> simp only [num_lt] at h2 <;> congr 1
  · rw [max_eq_right h1.le, max_eq_right h2.le]
  · rw [max_eq_right h1.le, max_eq_left (not_lt.1 h2)]
  · rw [max_eq_left (not_lt.1 h1), max_eq_right h2.le]
  · rw [max_eq_left (not_lt.1 h1), max_eq_left (not_lt.1 h2)]

end Ext

/-! ## One evaluation -/

theorem assignFn_mem {K : Type*} {m n : ℕ} (v : Fin m → K) (idx : Fin n → Fin m) (b : Fin n → K) (i : Fin m) (h : ∃ k, idx k = i) : ∃ k, idx k = i ∧ assignFn v idx b i = b k := by
  unfold assignFn
  have : ∀ (l : List (Fin n)) (w : Fin m → K), ((∃ k, idx k = i ∧ w i = b k) ∨ ∃ k ∈ l, idx k = i) → ∃ k, idx k = i ∧ (l.foldl (fun w k => Function.update w (idx k) (b k)) w) i = b k := by
    intro l
    induction l with
    | nil => rintro w (h | ⟨k, hk, -⟩)
             · exact h
             · cases hk
    | cons a l ih =>
      intro w h
      refine ih _ ?_
      by_cases e : idx a = i
      · exact Or.inl ⟨a, e, by subst e; simp⟩
      · rcases h with ⟨k, e1, e2⟩ | ⟨k, hk, e1⟩
        · exact Or.inl ⟨k, e1, by dsimp only; rw [Function.update_of_ne (Ne.symm e)]; exact e2⟩
        · rcases List.mem_cons.1 hk with rfl | hk
          · exact absurd e1 e
          · exact Or.inr ⟨k, hk, e1⟩
  obtain ⟨k, hk⟩ := h
  exact this _ _ (Or.inr ⟨k, List.mem_finRange k, hk⟩)

theorem assignFn_ne {K : Type*} {m n : ℕ} (v : Fin m → K) (idx : Fin n → Fin m) (b : Fin n → K) (i : Fin m) (h : ∀ k, idx k ≠ i) : assignFn v idx b i = v i := by
  rcases assignFn_cases v idx b i with e | ⟨k, e, -⟩
  · exact e
  · exact absurd e (h k)

theorem assignFn_map {K L : Type*} (f : K → L) {m n : ℕ} (v : Fin m → K) (idx : Fin n → Fin m) (b : Fin n → K) : assignFn (fun i => f (v i)) idx (fun k => f (b k)) = fun i => f (assignFn v idx b i) := by
  unfold assignFn
  generalize List.finRange n = l
  induction l generalizing v with
  | nil => rfl
  | cons a l ih =>
    rw [List.foldl_cons, List.foldl_cons, ← ih]
    congr 1
    funext i
    by_cases e : i = idx a
    · subst e; simp
    · rw [Function.update_of_ne e, Function.update_of_ne e]

section
variable {nbe nbi nne nni nnu : ℕ}

theorem assignJs_mem {K : Type*} {nx : ℕ} (v : Fin nx → K) (js : (Fin nbe ⊕ Fin nbi) ⊕ (Fin nne ⊕ Fin nni) → Fin nx) (b : (Fin nbe ⊕ Fin nbi) ⊕ (Fin nne ⊕ Fin nni) → K) (i : Fin nx) (h : ∃ s, js s = i) :
    ∃ s, js s = i ∧ assignJs v js b i = b s := by
  unfold assignJs
  by_cases h4 : ∃ k, js (.inr (.inr k)) = i
  · obtain ⟨k, e1, e2⟩ := assignFn_mem (assignFn (assignFn (assignFn v (fun k => js (.inl (.inl k))) (fun k => b (.inl (.inl k)))) (fun k => js (.inl (.inr k))) (fun k => b (.inl (.inr k)))) (fun k => js (.inr (.inl k))) (fun k => b (.inr (.inl k))))
      (fun k => js (.inr (.inr k))) (fun k => b (.inr (.inr k))) i h4
    exact ⟨_, e1, e2⟩
  rw [assignFn_ne _ _ _ _ (fun k e => h4 ⟨k, e⟩)]
  by_cases h3 : ∃ k, js (.inr (.inl k)) = i
  · obtain ⟨k, e1, e2⟩ := assignFn_mem (assignFn (assignFn v (fun k => js (.inl (.inl k))) (fun k => b (.inl (.inl k)))) (fun k => js (.inl (.inr k))) (fun k => b (.inl (.inr k)))) (fun k => js (.inr (.inl k))) (fun k => b (.inr (.inl k))) i h3
    exact ⟨_, e1, e2⟩
  rw [assignFn_ne _ _ _ _ (fun k e => h3 ⟨k, e⟩)]
  by_cases h2 : ∃ k, js (.inl (.inr k)) = i
  · obtain ⟨k, e1, e2⟩ := assignFn_mem (assignFn v (fun k => js (.inl (.inl k))) (fun k => b (.inl (.inl k)))) (fun k => js (.inl (.inr k))) (fun k => b (.inl (.inr k))) i h2
    exact ⟨_, e1, e2⟩
  rw [assignFn_ne _ _ _ _ (fun k e => h2 ⟨k, e⟩)]
  obtain ⟨k, e1, e2⟩ := assignFn_mem v (fun k => js (.inl (.inl k))) (fun k => b (.inl (.inl k))) i (by
    obtain ⟨(s | s) | (s | s), e⟩ := h
    · exact ⟨s, e⟩
    · exact absurd ⟨s, e⟩ h2
    · exact absurd ⟨s, e⟩ h3
    · exact absurd ⟨s, e⟩ h4)
  exact ⟨_, e1, e2⟩

/-- On numbers, `wbs` is that of the model with numbers. -/
theorem extWbs_num (eps : K) (C : Canon K nx np (ny + nz) (Fin nbe) (Fin nbi) (Fin nne) (Fin nni) (Fin nnu)) (a : ResidualArgs K nx np ny nz) (ax0) (k) :
    extWbs eps C a (fun l => .num (a.h l)) k = .num ((residualUpdate eps C ax0 a).canonical.wbs k) := by
  have key : ∀ (x : Ext K) (y z : K), x = .num y → x - .num z = .num (y - z) := fun x y z e => by rw [e, Ext.num_sub]
  refine key _ _ _ ((congrFun (congrArg (Ext.multiplyClean eps C.Rbs) (funext fun j => ?_)) k).trans (Ext.multiplyClean_num eps C.Rbs _ k))
  refine Fin.addCases (fun l => ?_) (fun l => ?_) j
  · rw [Fin.addCases_left, Fin.addCases_left]
  · rw [Fin.addCases_right, Fin.addCases_right, Ext.num_sub]; rfl

/-- On numbers, the optimality errors are those of the model with numbers. -/
theorem extEx_num (C : Canon K nx np (ny + nz) (Fin nbe) (Fin nbi) (Fin nne) (Fin nni) (Fin nnu)) (xlower xupper : Fin nx → Option K) (eps : K) (ax0 : Fin nx → K) (a : ResidualArgs K nx np ny nz) (ewbar0) :
    extEx C xlower xupper a.x (extX C (fun i => .num (ax0 i)) a (fun i => .num (a.g i))) = fun i => .num ((residualErrors C xlower xupper a.x (residualUpdate eps C ax0 a) ewbar0).ex i) := by
  have hX : extX C (fun i => .num (ax0 i)) a (fun i => .num (a.g i)) = fun i => .num ((residualUpdate eps C ax0 a).master.x i) := by
    unfold extX residualUpdate
    dsimp only
    unfold assignJs
    dsimp only
    rw [← assignFn_map, ← assignFn_map, ← assignFn_map, ← assignFn_map, ← assignFn_map]
    rfl
  rw [hX]
  have h0 : assignFn (fun i => Ext.abs (.num ((residualUpdate eps C ax0 a).master.x i))) C.ju 0 = fun i => .num (assignFn (fun i => |(residualUpdate eps C ax0 a).master.x i|) C.ju 0 i) := by
    rw [← assignFn_map Ext.num]; rfl
  have h1 : ∀ (w : Fin nx → K) (J : Fin (nbe + nbi) → Fin nx) (B : Fin nx → Option K), assignFn (fun i => Ext.num (w i)) J (fun k => if some (a.x (J k)) = B (J k) then 0 else .num (w (J k))) =
      fun i => .num (assignFn w J (fun k => if some (a.x (J k)) = B (J k) then 0 else w (J k)) i) := by
    intro w J B
    rw [← assignFn_map Ext.num]
    congr 1
    funext k
    split_ifs <;> rfl
  unfold extEx residualErrors
  dsimp only
  rw [h0, h1, h1]

variable (N : ExtNorm K) {nw : ℕ} (ex : Fin nx → Ext K) (v : Fin np → Ext K) (wbs : Fin nbe ⊕ Fin nbi → Ext K) (ewbar0 : Fin nw → K)

/-- On numbers the errors are those of the model with numbers. -/
theorem extErrors_num (C : Canon K nx np nw (Fin nbe) (Fin nbi) (Fin nne) (Fin nni) (Fin nnu)) (xlower xupper : Fin nx → Option K) (x : Fin nx → K) (r : ResidualOut K nx np nw nbe nbi nne nni) :
    (extErrors N (fun i => .num ((residualErrors C xlower xupper x r ewbar0).ex i)) (fun q => .num (-r.master.p q)) (fun k => .num (r.canonical.wbs k)) ewbar0).error =
      .num (residualErrors C xlower xupper x r ewbar0).error := by
  unfold extErrors residualErrors
  simp only
  rw [N.norm_num, show (fun i => (-Ext.num (-r.master.p i)).abs) = fun i => Ext.num |r.master.p i| from funext fun i => by rw [Ext.num_neg]; simp [Ext.abs], N.norm_num,
    show (fun i : Fin nw => if nw - (nw - (nbe + nbi)) ≤ i then (0 : Ext K) else if h : i < nbe + nbi then (Ext.num (r.canonical.wbs (finSumFinEquiv.symm ⟨i, h⟩))).abs else .num (ewbar0 i)) =
      fun i => .num (if nw - (nw - (nbe + nbi)) ≤ i then 0 else if h : i < nbe + nbi then |r.canonical.wbs (finSumFinEquiv.symm ⟨i, h⟩)| else ewbar0 i) from funext fun i => by split_ifs <;> rfl, N.norm_num,
    Ext.stdMax_nums]

theorem extErrors_error : (extErrors N ex v wbs ewbar0).error = Ext.stdMax (N.norm ex) [N.norm fun q => (-v q).abs, (extErrors N ex v wbs ewbar0).errorw] := rfl

/-- **C80 (the test for convergence)**: an evaluation passes the test of `Convergence` exactly if the optimality error is below the tolerance, and each of the two other errors is below the tolerance or NaN. -/
theorem inf_converged_iff (tol : K) :
    let E := extErrors N ex v wbs ewbar0
    E.error < .num tol ↔ E.errorx < .num tol ∧ (E.errorp < .num tol ∨ E.errorp = .nan) ∧ (E.errorw < .num tol ∨ E.errorw = .nan) :=
  Ext.stdMax_lt_iff _ _ _ _

/-- The optimality error of a stable variable with infinite gradient is infinite, unless the variable is basic and on a bound. -/
theorem extEx_inf {M : MasterMatrix K nx np (ny + nz)} {c : CanonPack K nx np (ny + nz)} (hc : CanonSpec M c) (ax0 : Fin nx → Ext K) (a : ResidualArgs K nx np ny nz) (g : Fin nx → Ext K) (xlower xupper : Fin nx → Option K) (i : Fin nx)
    (hi : i ∉ M.ju) (hg : (g i).IsInf) (hb : (∃ k, M.RWQ.jb k = i) → some (a.x i) ≠ xlower i ∧ some (a.x i) ≠ xupper i) : extEx c.mat xlower xupper a.x (extX c.mat ax0 a g) i = .pinf := by
  have hju : ∀ k, c.mat.ju k ≠ i := fun k e => hi ((hc.unstable i).1 ⟨k, e⟩)
  have hjs : ∃ s, c.mat.js s = i := by
    obtain ⟨s | k, e⟩ := hc.split.2 i
    · exact ⟨s, e⟩
    · exact absurd e (hju k)
  have hX : (extX c.mat ax0 a g i).abs = .pinf := by
    unfold extX
    rw [assignFn_ne _ _ _ _ hju]
    obtain ⟨s, e1, e2⟩ := assignJs_mem ax0 c.mat.js (fun s => -(g (c.mat.js s) + .num (((((a.Wx.submatrix (Fin.castAdd nz) id).submatrix id c.mat.js)ᵀ) *ᵥ a.y) s) + .num (((((a.Wx.submatrix (Fin.natAdd ny) id).submatrix id c.mat.js)ᵀ) *ᵥ a.z) s))) i hjs
    rw [e2, e1]
    rcases hg with e | e <;> rw [e] <;> rfl
  have h0 : ∀ B : Fin nx → Option K, ((∃ k, M.RWQ.jb k = i) → some (a.x i) ≠ B i) → ∀ w : Fin nx → Ext K, w i = .pinf → ∀ J : Fin (c.nbe + c.nbi) → Fin nx, (∀ k, J k = c.mat.jb (finSumFinEquiv.symm k)) →
      assignFn w J (fun k => if some (a.x (J k)) = B (J k) then 0 else w (J k)) i = .pinf := by
    intro B hB w hw J hJ
    rcases assignFn_cases w J (fun k => if some (a.x (J k)) = B (J k) then 0 else w (J k)) i with e | ⟨k, e1, e⟩
    · rw [e, hw]
    · rw [e]
      rw [e1, if_neg (hB ((hc.basic i).1 ⟨_, (hJ k).symm.trans e1⟩)), hw]
  unfold extEx
  dsimp only
  exact h0 xupper (fun h => (hb h).2) _ (h0 xlower (fun h => (hb h).1) _ (by rw [assignFn_ne _ _ _ _ hju]; exact hX) _ fun k => (hc.jb_eq _).symm) _ fun k => (hc.jb_eq _).symm

/-- If no entry of the gradient is NaN, no optimality error is. -/
theorem extEx_ne_nan {M : MasterMatrix K nx np (ny + nz)} {c : CanonPack K nx np (ny + nz)} (hc : CanonSpec M c) (ax0 : Fin nx → Ext K) (a : ResidualArgs K nx np ny nz) (g : Fin nx → Ext K) (xlower xupper : Fin nx → Option K)
    (hg : ∀ i, i ∉ M.ju → g i ≠ .nan) (i : Fin nx) : extEx c.mat xlower xupper a.x (extX c.mat ax0 a g) i ≠ .nan := by
  have z : (0 : Ext K) ≠ .nan := by rw [Ext.zero_eq]; simp
  have hX : ∀ i, (extX c.mat ax0 a g i).abs ≠ .nan := by
    intro i
    unfold extX
    by_cases hju : ∃ k, c.mat.ju k = i
    · obtain ⟨k, -, e⟩ := assignFn_mem (assignJs ax0 c.mat.js (fun s => -(g (c.mat.js s) + .num (((((a.Wx.submatrix (Fin.castAdd nz) id).submatrix id c.mat.js)ᵀ) *ᵥ a.y) s) + .num (((((a.Wx.submatrix (Fin.natAdd ny) id).submatrix id c.mat.js)ᵀ) *ᵥ a.z) s))))
        c.mat.ju 0 i hju
      rw [e]
      exact fun h => by cases h
    · have hjs : ∃ s, c.mat.js s = i := by
        obtain ⟨s | k, e⟩ := hc.split.2 i
        · exact ⟨s, e⟩
        · exact absurd ⟨k, e⟩ hju
      rw [assignFn_ne _ _ _ _ (fun k e => hju ⟨k, e⟩)]
      obtain ⟨s, e1, e2⟩ := assignJs_mem ax0 c.mat.js (fun s => -(g (c.mat.js s) + .num (((((a.Wx.submatrix (Fin.castAdd nz) id).submatrix id c.mat.js)ᵀ) *ᵥ a.y) s) + .num (((((a.Wx.submatrix (Fin.natAdd ny) id).submatrix id c.mat.js)ᵀ) *ᵥ a.z) s))) i hjs
      rw [e2, e1]
      have := hg i (fun h => hju ((hc.unstable i).2 h))
      revert this
      generalize g i = y
      intro h
      cases y with
      | nan => exact absurd rfl h
      | _ => exact fun h => by cases h
  have h0 : ∀ (c : Fin nx → Prop) [DecidablePred c] {m : ℕ} (w : Fin nx → Ext K), (∀ i, w i ≠ .nan) → ∀ J : Fin m → Fin nx, ∀ i, assignFn w J (fun k => if c (J k) then 0 else w (J k)) i ≠ .nan := by
    intro c _ m w hw J i
    rcases assignFn_cases w J (fun k => if c (J k) then 0 else w (J k)) i with e | ⟨k, -, e⟩
    · rw [e]; exact hw i
    · rw [e]
      split_ifs
      · exact z
      · exact hw _
  unfold extEx
  dsimp only
  refine h0 (fun i => some (a.x i) = xupper i) _ (h0 (fun i => some (a.x i) = xlower i) _ (fun i => ?_) _) _ i
  rcases assignFn_cases (fun i => (extX c.mat ax0 a g i).abs) c.mat.ju 0 i with e | ⟨k, -, e⟩
  · rw [e]; exact hX i
  · rw [e]; exact z

/-- **C80 (gradient)**: where no entry of the gradient is NaN and one is infinite, the test fails, whatever `h` and `v`, unless all variables with infinite gradient are unstable, or basic and on a bound. -/
theorem inf_gradient_rejected {M : MasterMatrix K nx np (ny + nz)} {c : CanonPack K nx np (ny + nz)} (hc : CanonSpec M c) (ax0 : Fin nx → Ext K) (a : ResidualArgs K nx np ny nz) (g : Fin nx → Ext K) (xlower xupper : Fin nx → Option K)
    (hg : ∀ i, g i ≠ .nan) (i : Fin nx) (hi : i ∉ M.ju) (hgi : (g i).IsInf) (hb : (∃ k, M.RWQ.jb k = i) → some (a.x i) ≠ xlower i ∧ some (a.x i) ≠ xupper i) (tol : K) :
    ¬ (extErrors N (extEx c.mat xlower xupper a.x (extX c.mat ax0 a g)) v wbs ewbar0).error < .num tol := by
  intro h
  have h1 := ((inf_converged_iff N _ v wbs ewbar0 tol).1 h).1
  have h2 : (extErrors N (extEx c.mat xlower xupper a.x (extX c.mat ax0 a g)) v wbs ewbar0).errorx = .pinf :=
    N.norm_inf _ (extEx_ne_nan hc ax0 a g xlower xupper fun i _ => hg i) ⟨i, Or.inl (extEx_inf hc ax0 a g xlower xupper i hi hgi hb)⟩
  rw [h2] at h1
  exact Ext.not_pinf_lt _ h1

/-- **C80, negation**: the gradient of unstable variables and of basic variables on a bound is not tested, even if it is infinite or NaN. -/
theorem inf_gradient_ignored {M : MasterMatrix K nx np (ny + nz)} {c : CanonPack K nx np (ny + nz)} (hc : CanonSpec M c) (ax0 : Fin nx → Ext K) (a : ResidualArgs K nx np ny nz) (g : Fin nx → Ext K) (xlower xupper : Fin nx → Option K) (i : Fin nx)
    (h : i ∈ M.ju ∨ (∃ k, M.RWQ.jb k = i) ∧ (some (a.x i) = xlower i ∨ some (a.x i) = xupper i)) : extEx c.mat xlower xupper a.x (extX c.mat ax0 a g) i = 0 := by
  have keep : ∀ (c : Fin nx → Prop) [DecidablePred c] {m : ℕ} (w : Fin nx → Ext K), w i = 0 → ∀ J : Fin m → Fin nx, assignFn w J (fun k => if c (J k) then 0 else w (J k)) i = 0 := by
    intro c _ m w hw J
    rcases assignFn_cases w J (fun k => if c (J k) then 0 else w (J k)) i with e | ⟨k, e1, e⟩
    · rw [e, hw]
    · rw [e]
      rw [e1]
      split_ifs
      · rfl
      · exact hw
  have set : ∀ (c : Fin nx → Prop) [DecidablePred c] {m : ℕ} (w : Fin nx → Ext K), c i → ∀ J : Fin m → Fin nx, (∃ k, J k = i) → assignFn w J (fun k => if c (J k) then 0 else w (J k)) i = 0 := by
    intro c _ m w hw J hJ
    obtain ⟨k, e1, e⟩ := assignFn_mem w J (fun k => if c (J k) then 0 else w (J k)) i hJ
    rw [e]
    rw [e1, if_pos hw]
  unfold extEx
  dsimp only
  rcases h with h | ⟨h, hl⟩
  · obtain ⟨k, -, e⟩ := assignFn_mem (fun i => (extX c.mat ax0 a g i).abs) c.mat.ju 0 i ((hc.unstable i).2 h)
    exact keep (fun i => some (a.x i) = xupper i) _ (keep (fun i => some (a.x i) = xlower i) _ e _) _
  · obtain ⟨k, hk⟩ := (hc.basic i).2 h
    have hJ : ∃ k, c.mat.js (.inl (finSumFinEquiv.symm k)) = i := ⟨finSumFinEquiv k, by rw [Equiv.symm_apply_apply, ← hc.jb_eq, hk]⟩
    rcases hl with hl | hl
    · exact keep (fun i => some (a.x i) = xupper i) _ (set (fun i => some (a.x i) = xlower i) _ hl _ hJ) _
    · exact set (fun i => some (a.x i) = xupper i) _ hl _ hJ

/-- **C80 (`v`)**: where no entry of `v` is NaN and one is infinite, the test fails, whatever the gradient and `h`. -/
theorem inf_v_rejected (hv : ∀ q, v q ≠ .nan) (hi : ∃ q, (v q).IsInf) (tol : K) : ¬ (extErrors N ex v wbs ewbar0).error < .num tol := by
  intro h
  have h1 := ((inf_converged_iff N ex v wbs ewbar0 tol).1 h).2.1
  have h2 : (extErrors N ex v wbs ewbar0).errorp = .pinf := by
    refine N.norm_inf _ (fun q => ?_) ?_
    · have := hv q
      revert this
      generalize v q = y
      intro h
      cases y with
      | nan => exact absurd rfl h
      | _ => exact fun h => by cases h
    · obtain ⟨q, hq⟩ := hi
      exact ⟨q, by rcases hq with e | e <;> rw [e] <;> exact Or.inl rfl⟩
  rw [h2] at h1
  rcases h1 with h1 | h1
  · exact Ext.not_pinf_lt _ h1
  · cases h1

/-- **C80 (`wbs`)**: where no entry of `h` is NaN and one is infinite, every entry `k` of `wbs` is NaN or infinite: NaN exactly if row `k` of `Rbs` has a zero in the column of an infinite entry of `h`, or combines infinities of opposite signs. -/
theorem inf_wbs (eps : K) (C : Canon K nx np (ny + nz) (Fin nbe) (Fin nbi) (Fin nne) (Fin nni) (Fin nnu)) (a : ResidualArgs K nx np ny nz) (h : Fin nz → Ext K) (hn : ∀ l, h l ≠ .nan) (hi : ∃ l, (h l).IsInf) (k) :
    let P := (∃ l, (h l).IsInf ∧ C.Rbs k (Fin.natAdd ny l) = 0) ∨
      ∃ l l', (h l).IsInf ∧ (h l').IsInf ∧ (Ext.num (C.Rbs k (Fin.natAdd ny l))).sign * (h l).sign = 1 ∧ (Ext.num (C.Rbs k (Fin.natAdd ny l'))).sign * (h l').sign = -1
    (P → extWbs eps C a h k = .nan) ∧ (¬ P → (extWbs eps C a h k).IsInf) := by
  intro P
  let star : Fin (ny + nz) → Ext K := Fin.addCases (fun l => .num ((a.b - (a.Wx.submatrix (Fin.castAdd nz) id).submatrix id C.ju *ᵥ (a.x ∘ C.ju)) l))
    (fun l => .num ((((a.Wx.submatrix (Fin.natAdd ny) id).submatrix id C.js) *ᵥ (a.x ∘ C.js) + (a.Wp.submatrix (Fin.natAdd ny) id) *ᵥ a.p) l) - h l)
  have hstar : ∀ l, (h l).IsInf → star (Fin.natAdd ny l) = -h l := fun l hl => by
    change Fin.addCases (motive := fun _ => Ext K) _ _ (Fin.natAdd ny l) = _
    rw [Fin.addCases_right, Ext.add_inf _ hl]
  have hfin : ∀ j, (star j).IsInf → ∃ l, j = Fin.natAdd ny l ∧ (h l).IsInf := by
    intro j
    refine Fin.addCases (fun l => ?_) (fun l => ?_) j
    · change (Fin.addCases (motive := fun _ => Ext K) _ _ (Fin.castAdd nz l)).IsInf → _
      rw [Fin.addCases_left]
      rintro (e | e) <;> cases e
    · intro hj
      refine ⟨l, rfl, ?_⟩
      by_contra hl
      have hne := hn l
      change (Fin.addCases (motive := fun _ => Ext K) _ _ (Fin.natAdd ny l)).IsInf at hj
      rw [Fin.addCases_right] at hj
      revert hl hne hj
      generalize h l = y
      intro hl hne hj
      cases y with
      | num r => rcases hj with e | e <;> cases e
      | pinf => exact hl (Or.inl rfl)
      | ninf => exact hl (Or.inr rfl)
      | nan => exact hne rfl
  have hnn : ∀ j, star j ≠ .nan := by
    intro j
    refine Fin.addCases (fun l => ?_) (fun l => ?_) j
    · change Fin.addCases (motive := fun _ => Ext K) _ _ (Fin.castAdd nz l) ≠ _
      rw [Fin.addCases_left]
      simp
    · change Fin.addCases (motive := fun _ => Ext K) _ _ (Fin.natAdd ny l) ≠ _
      rw [Fin.addCases_right]
      have := hn l
      revert this
      generalize h l = y
      intro h
      cases y with
      | nan => exact absurd rfl h
      | _ => exact fun h => by cases h
  obtain ⟨d1, d2⟩ := Ext.dot_inf (C.Rbs k) star hnn (by obtain ⟨l, hl⟩ := hi; exact ⟨_, by rw [hstar l hl]; exact Ext.isInf_neg hl⟩)
  have hP : ((∃ j, (star j).IsInf ∧ C.Rbs k j = 0) ∨ ∃ i j, (star i).IsInf ∧ (star j).IsInf ∧ (Ext.num (C.Rbs k i)).sign * (star i).sign = 1 ∧ (Ext.num (C.Rbs k j)).sign * (star j).sign = -1) ↔ P := by
    constructor
    · rintro (⟨j, h1, h2⟩ | ⟨i, j, h1, h2, h3, h4⟩)
      · obtain ⟨l, rfl, hl⟩ := hfin j h1
        exact Or.inl ⟨l, hl, h2⟩
      · obtain ⟨l, rfl, hl⟩ := hfin i h1
        obtain ⟨l', rfl, hl'⟩ := hfin j h2
        rw [hstar l hl, Ext.sign_neg] at h3
        rw [hstar l' hl', Ext.sign_neg] at h4
        exact Or.inr ⟨l', l, hl', hl, by linarith, by linarith⟩
    · rintro (⟨l, h1, h2⟩ | ⟨l, l', h1, h2, h3, h4⟩)
      · exact Or.inl ⟨_, by rw [hstar l h1]; exact Ext.isInf_neg h1, h2⟩
      · refine Or.inr ⟨_, _, by rw [hstar l' h2]; exact Ext.isInf_neg h2, by rw [hstar l h1]; exact Ext.isInf_neg h1, ?_, ?_⟩
        · rw [hstar l' h2, Ext.sign_neg]; linarith
        · rw [hstar l h1, Ext.sign_neg]; linarith
  have hw : extWbs eps C a h k = Ext.multiplyClean eps C.Rbs star k - .num (((a.x ∘ C.js) ∘ Sum.inl + C.Sbsns *ᵥ ((a.x ∘ C.js) ∘ Sum.inr) + C.Sbsp *ᵥ a.p) k) := rfl
  rw [hw]
  refine ⟨fun hp => ?_, fun hp => ?_⟩
  · have e := d1 (hP.2 hp)
    rw [Ext.multiplyClean_of_dot eps C.Rbs star k (Or.inl e), e]
    rfl
  · have e := d2 (fun h => hp (hP.1 h))
    rw [Ext.multiplyClean_of_dot eps C.Rbs star k (Or.inr e)]
    rcases e with e | e <;> rw [e]
    · exact Or.inl rfl
    · exact Or.inr rfl

/-- **C80, part (constraints)**: where no entry of `h` is NaN and one is infinite, the test fails if there is a basic variable and no row of `Rbs` has a zero in the column of an infinite entry or combines infinities of opposite signs: for instance if one
    entry of `h` is infinite and its column in `Rbs` has no zero. -/
theorem inf_constraint_rejected_partial (eps : K) (C : Canon K nx np (ny + nz) (Fin nbe) (Fin nbi) (Fin nne) (Fin nni) (Fin nnu)) (a : ResidualArgs K nx np ny nz) (h : Fin nz → Ext K) (hn : ∀ l, h l ≠ .nan) (hi : ∃ l, (h l).IsInf)
    (hb : 0 < nbe + nbi) (hle : nbe + nbi ≤ ny + nz) (hz : ∀ k l, (h l).IsInf → C.Rbs k (Fin.natAdd ny l) ≠ 0)
    (ho : ∀ k l l', (h l).IsInf → (h l').IsInf → (Ext.num (C.Rbs k (Fin.natAdd ny l))).sign * (h l).sign = (Ext.num (C.Rbs k (Fin.natAdd ny l'))).sign * (h l').sign) (ewbar0 : Fin (ny + nz) → K) (tol : K) :
    ¬ (extErrors N ex v (extWbs eps C a h) ewbar0).error < .num tol := by
  intro hE
  have h1 := ((inf_converged_iff N ex v _ ewbar0 tol).1 hE).2.2
  have hw : ∀ k, (extWbs eps C a h k).IsInf := fun k => by
    refine (inf_wbs eps C a h hn hi k).2 ?_
    rintro (⟨l, h1, h2⟩ | ⟨l, l', h1, h2, h3, h4⟩)
    · exact hz k l h1 h2
    · rw [ho k l l' h1 h2] at h3
      omega
  have ha : ∀ k, (extWbs eps C a h k).abs = .pinf := fun k => by rcases hw k with e | e <;> rw [e] <;> rfl
  have h2 : (extErrors N ex v (extWbs eps C a h) ewbar0).errorw = .pinf := by
    refine N.norm_inf _ (fun i => ?_) ⟨⟨0, by omega⟩, Or.inl ?_⟩
    · dsimp only
      split_ifs
      · rw [Ext.zero_eq]; simp
      · rw [ha]; simp
      · simp
    · dsimp only
      rw [if_neg (by omega), dif_pos hb, ha]
  rw [h2] at h1
  rcases h1 with h1 | h1
  · exact Ext.not_pinf_lt _ h1
  · cases h1

/-- **C80, negation**: if there are as many basic variables as constraints (at least one) and each row of `Rbs` has a zero in the column of an infinite entry of `h`, the constraints are not tested: the evaluation passes if the optimality errors and those of
    `v` do. -/
theorem inf_constraint_ignored (eps : K) (C : Canon K nx np (ny + nz) (Fin nbe) (Fin nbi) (Fin nne) (Fin nni) (Fin nnu)) (a : ResidualArgs K nx np ny nz) (h : Fin nz → Ext K) (hn : ∀ l, h l ≠ .nan) (hi : ∃ l, (h l).IsInf)
    (hz : ∀ k, ∃ l, (h l).IsInf ∧ C.Rbs k (Fin.natAdd ny l) = 0) (hfull : nbe + nbi = ny + nz) (ewbar0 : Fin (ny + nz) → K) (tol : K) :
    let E := extErrors N ex v (extWbs eps C a h) ewbar0
    E.errorw = .nan ∧ (E.error < .num tol ↔ E.errorx < .num tol ∧ (E.errorp < .num tol ∨ E.errorp = .nan)) := by
  intro E
  have hw : E.errorw = .nan := by
    refine N.norm_nan _ (by obtain ⟨l, -⟩ := hi; have := l.2; omega) fun i => ?_
    have hi' := i.2
    rw [if_neg (by omega)]
    dsimp only
    rw [dif_pos (by omega), (inf_wbs eps C a h hn hi _).1 (Or.inl (hz _))]
    rfl
  refine ⟨hw, ?_⟩
  refine (inf_converged_iff N ex v _ ewbar0 tol).trans ?_
  change _ ∧ _ ∧ (E.errorw < _ ∨ E.errorw = _) ↔ _
  simp [hw, E]

end

/-- Two variables, two constraints with `Rbs = [1 1/2; r 1]`, the second variable on its bound. -/
def exInfCanon (r : ℚ) : Canon ℚ 2 0 (0 + 2) (Fin 0) (Fin 2) (Fin 0) (Fin 0) (Fin 0) :=
  { Hss := 0, Hsp := 0, Vps := 0, Vpp := 0, Sbsns := 0, Sbsp := 0, Rbs := fun k l => match k with | .inl k => k.elim0 | .inr k => if k = l then 1 else if k = 0 then 1 / 2 else r,
    jb := fun k => match k with | .inl k => k.elim0 | .inr k => k, jn := fun k => match k with | .inl (.inl k) => k.elim0 | .inl (.inr k) => k.elim0 | .inr k => k.elim0,
    js := fun k => match k with | .inl (.inl k) => k.elim0 | .inl (.inr k) => k | .inr (.inl k) => k.elim0 | .inr (.inr k) => k.elim0, ju := fun k => k.elim0 }

def exInfArgs : ResidualArgs ℚ 2 0 0 2 :=
  { Wx := fun l j => if l = j then 1 else 0, Wp := 0, x := fun i => if i = 0 then 3 else 4, p := 0, y := 0, z := fun _ => 1, g := 0, v := 0, b := 0, h := 0 }

/-- One infinite constraint: every entry of `wbs` is infinite, or one is NaN if `R` has a zero; two infinite constraints with opposite signs; the gradient of the second variable, which is basic and on its bound, is ignored. -/
example : (extWbs 0 (exInfCanon 5) exInfArgs (fun l => if l = 0 then .pinf else .num 7) (.inr 0) = .ninf) ∧ (extWbs 0 (exInfCanon 5) exInfArgs (fun l => if l = 0 then .pinf else .num 7) (.inr 1) = .ninf) ∧
    (extWbs 0 (exInfCanon 0) exInfArgs (fun l => if l = 0 then .pinf else .num 7) (.inr 0) = .ninf) ∧ (extWbs 0 (exInfCanon 0) exInfArgs (fun l => if l = 0 then .pinf else .num 7) (.inr 1) = .nan) ∧
    (extWbs 0 (exInfCanon 5) exInfArgs (fun l => if l = 0 then .pinf else .ninf) (.inr 0) = .nan) ∧ (extWbs 0 (exInfCanon (-5)) exInfArgs (fun l => if l = 0 then .pinf else .ninf) (.inr 1) = .pinf) ∧
    (extEx (exInfCanon 5) (fun _ => some 4) (fun _ => none) exInfArgs.x (extX (exInfCanon 5) 0 exInfArgs (fun _ => .ninf)) 0 = .pinf) ∧ (extEx (exInfCanon 5) (fun _ => some 4) (fun _ => none) exInfArgs.x (extX (exInfCanon 5) 0 exInfArgs (fun _ => .ninf)) 1 = 0) := by
  decide +kernel

/-- The hypotheses of `inf_constraint_rejected_partial`: one infinite constraint, whose column in `Rbs` is `(1, 5)`. -/
example (N : ExtNorm ℚ) (ex : Fin 2 → Ext ℚ) (v : Fin 0 → Ext ℚ) (ewbar0 : Fin (0 + 2) → ℚ) (tol : ℚ) : ¬ (extErrors N ex v (extWbs 0 (exInfCanon 5) exInfArgs (fun l => if l = 0 then .pinf else .num 7)) ewbar0).error < .num tol := by
  have hl : ∀ l : Fin 2, (if l = 0 then Ext.pinf else Ext.num (7 : ℚ)).IsInf → l = 0 := by
    intro l h
    by_contra e
    rw [if_neg e] at h
    rcases h with h | h <;> cases h
  refine inf_constraint_rejected_partial N ex v 0 _ _ _ (fun l => by split_ifs <;> simp) ⟨0, Or.inl rfl⟩ (by norm_num) (by norm_num) (fun k l h => ?_) (fun k l l' h h' => ?_) ewbar0 tol
  · rw [hl l h]
    revert k
    decide +kernel
  · rw [hl l h, hl l' h']

/-! ## Infinite steps -/

section
variable {nw : ℕ} {σ : Type*}

/-- Bounds that are numbers or absent. -/
def NumBound (b : Option (Ext K)) : Prop := ∀ a, b = some a → ∃ r, a = .num r

theorem Ext.clamp_inside {lower upper : Option (Ext K)} {x : Ext K} (hl : geLower x lower = true) (hu : leUpper x upper = true) : clamp lower upper x = x := by
  have nlt : ∀ {a b : Ext K}, a ≤ b → ¬ b < a := by
    intro a b h1 h2
    rcases a with a | _ | _ | _ <;> rcases b with b | _ | _ | _ <;> first | exact h1.elim | exact h2.elim | exact absurd (show b < a from h2) (not_lt.2 h1)
  unfold clamp
  have h1 : ∀ l, lower = some l → max x l = x := fun l e => by
    subst e
    simp only [geLower, decide_eq_true_eq] at hl
    exact if_neg (nlt hl)
  have h2 : ∀ l, upper = some l → min x l = x := fun l e => by
    subst e
    simp only [leUpper, decide_eq_true_eq] at hu
    exact if_neg (nlt hu)
  cases lower <;> cases upper <;> simp_all

/-- A factor of the step is a number, at least zero. -/
theorem Ext.betaStep_nonneg {lower upper : Option (Ext K)} (hl : NumBound lower) (hu : NumBound upper) (xo : K) (x : Ext K) {b : K} (hb : 0 ≤ b) : ∃ b', betaStep lower upper (.num xo) x (.num b) = .num b' ∧ 0 ≤ b' ∧ b' ≤ b := by
  have hmin : ∀ t : K, 0 ≤ t → ∃ b', min (Ext.num b) (Ext.num t) = .num b' ∧ 0 ≤ b' ∧ b' ≤ b := by
    intro t ht
    by_cases h : t < b
    · exact ⟨t, if_pos h, ht, h.le⟩
    · exact ⟨b, if_neg h, hb, le_rfl⟩
  have hself : ∃ b', Ext.num b = .num b' ∧ 0 ≤ b' ∧ b' ≤ b := ⟨b, rfl, hb, le_rfl⟩
  unfold betaStep
  split_ifs with h1 h2 h3
  · exact hself
  · cases upper with
    | none => simp [above] at h2
    | some a =>
      obtain ⟨ub, rfl⟩ := hu a rfl
      simp only [above, ltUpper, Bool.and_eq_true, decide_eq_true_eq] at h2
      obtain ⟨h4, h5⟩ := h2
      have h5 : xo < ub := h5
      cases x with
      | num r =>
        have h4 : ub < r := h4
        have e : betaTo (some (Ext.num ub)) (.num xo) (.num r) = .num ((ub - xo) / (r - xo)) := by
          change (Ext.num ub - .num xo) / (Ext.num r - .num xo) = _
          rw [Ext.num_sub, Ext.num_sub]
          exact if_neg (by linarith)
        rw [e]
        exact hmin _ (div_nonneg (by linarith) (by linarith))
      | pinf => exact hmin 0 le_rfl
      | ninf => exact h4.elim
      | nan => exact h4.elim
  · cases lower with
    | none => simp [below] at h3
    | some a =>
      obtain ⟨lb, rfl⟩ := hl a rfl
      simp only [below, gtLower, Bool.and_eq_true, decide_eq_true_eq] at h3
      obtain ⟨h4, h5⟩ := h3
      have h5 : lb < xo := h5
      cases x with
      | num r =>
        have h4 : r < lb := h4
        have e : betaTo (some (Ext.num lb)) (.num xo) (.num r) = .num ((lb - xo) / (r - xo)) := by
          change (Ext.num lb - .num xo) / (Ext.num r - .num xo) = _
          rw [Ext.num_sub, Ext.num_sub]
          exact if_neg (by linarith)
        rw [e]
        exact hmin _ (div_nonneg_of_nonpos (by linarith) (by linarith))
      | ninf => exact hmin 0 le_rfl
      | pinf => exact h4.elim
      | nan => exact h4.elim
  · exact hself

/-- An infinite step towards a bound that is a number makes it zero. -/
theorem Ext.betaStep_inf {lower upper : Option (Ext K)} (xo : K) {x : Ext K} (h : (x = .pinf ∧ ∃ ub, upper = some (.num ub) ∧ xo < ub) ∨ (x = .ninf ∧ ∃ lb, lower = some (.num lb) ∧ lb < xo)) {b : K} (hb : 0 ≤ b) :
    betaStep lower upper (.num xo) x (.num b) = .num 0 := by
  have hmin : min (Ext.num b) (Ext.num 0) = .num 0 := by
    rcases hb.eq_or_lt with rfl | h
    · exact if_neg (lt_irrefl (0 : K))
    · exact if_pos h
  unfold betaStep
  rcases h with ⟨rfl, ub, rfl, h⟩ | ⟨rfl, lb, rfl, h⟩
  · rw [if_neg (by simp), if_pos]
    · exact hmin
    · simp only [above, ltUpper, Bool.and_eq_true, decide_eq_true_eq]
      exact ⟨trivial, h⟩
  · rw [if_neg (by simp), if_neg, if_pos]
    · exact hmin
    · simp only [below, gtLower, Bool.and_eq_true, decide_eq_true_eq]
      exact ⟨trivial, h⟩
    · simp only [Bool.and_eq_true, not_and]
      intro h1
      cases upper with
      | none => simp [above] at h1
      | some a =>
        simp only [above, decide_eq_true_eq] at h1
        cases a <;> exact h1.elim

/-- The step `x` of a variable at `xo` is infinite, towards a bound that is a number and not reached. -/
def InfToBound (lower upper : Option (Ext K)) (xo : K) (x : Ext K) : Prop := (x = .pinf ∧ ∃ ub, upper = some (.num ub) ∧ xo < ub) ∨ (x = .ninf ∧ ∃ lb, lower = some (.num lb) ∧ lb < xo)

/-- **C80, negation (infinite steps, default mode)**: let the last iterate be numbers within the bounds and one variable of the Newton step infinite, towards a bound not yet reached.  Then every variable whose step is infinite is NaN in the new iterate, whatever the
    bounds, and the others do not move. -/
theorem inf_step_nan (debug : Bool) (B : Bounds (Ext K) nx np) (hB : ∀ i, NumBound (B.xlower i) ∧ NumBound (B.xupper i)) (hBp : ∀ i, NumBound (B.plower i) ∧ NumBound (B.pupper i)) (uo u : MVec (Ext K) nx np nw) (xo : Fin nx → K) (po : Fin np → K)
    (hx : ∀ i, uo.x i = .num (xo i)) (hp : ∀ i, uo.p i = .num (po i)) (hin : insideB B uo = true) (i : Fin nx) (hi : InfToBound (B.xlower i) (B.xupper i) (xo i) (u.x i)) :
    ∃ v, backtrack debug false B uo u = some v ∧ (∀ j, (u.x j).IsInf → v.x j = .nan) ∧ ∀ j r, u.x j = .num r → v.x j = uo.x j := by
  have hbeta : betaMin B uo u = .num 0 := by
    have h1 : ∀ (l : List (Fin nx)) (b : K), 0 ≤ b → (i ∉ l → b = 0) → l.foldl (fun beta i => betaStep (B.xlower i) (B.xupper i) (uo.x i) (u.x i) beta) (.num b) = .num 0 := by
      intro l
      induction l with
      | nil => intro b _ h; rw [h (by simp)]; rfl
      | cons a l ih =>
        intro b hb h
        rw [List.foldl_cons]
        by_cases e : a = i
        · subst e
          rw [hx, Ext.betaStep_inf _ hi hb]
          exact ih 0 le_rfl fun _ => rfl
        · obtain ⟨b', e1, e2, e3⟩ := Ext.betaStep_nonneg (hB a).1 (hB a).2 (xo a) (u.x a) hb
          rw [hx, e1]
          refine ih b' e2 fun hl => ?_
          rw [h (by simp [hl, Ne.symm e])] at e3
          exact le_antisymm e3 e2
    have h2 : ∀ (l : List (Fin np)), l.foldl (fun beta i => betaStep (B.plower i) (B.pupper i) (uo.p i) (u.p i) beta) (.num 0) = .num (0 : K) := by
      intro l
      induction l with
      | nil => rfl
      | cons a l ih =>
        rw [List.foldl_cons]
        obtain ⟨b', e1, e2, e3⟩ := Ext.betaStep_nonneg (hBp a).1 (hBp a).2 (po a) (u.p a) (le_refl (0 : K))
        rw [hp, e1, le_antisymm e3 e2]
        exact ih
    unfold betaMin
    dsimp only
    rw [show (1 : Ext K) = .num 1 from rfl, h1 _ 1 zero_le_one (fun h => absurd (List.mem_finRange i) h)]
    exact h2 _
  unfold backtrack
  rw [hin, hbeta]
  simp only [Bool.not_true, Bool.and_false, Bool.false_eq_true, if_false]
  refine ⟨_, rfl, fun j hj => ?_, fun j r hj => ?_⟩
  · change clamp _ _ (_ + Ext.num 0 * u.x j) = _
    have e : Ext.num 0 * u.x j = .nan := by rw [Ext.mul_inf _ hj]; simp [Ext.sign, Ext.ofSign]
    rw [e, Ext.add_nan]
    unfold clamp
    have m1 : ∀ a : Ext K, max .nan a = .nan := fun a => if_neg (Ext.not_nan_lt _)
    have m2 : ∀ a : Ext K, min .nan a = .nan := fun a => if_neg (Ext.not_lt_nan _)
    cases B.xlower j <;> cases B.xupper j <;> simp [m1, m2]
  · change clamp _ _ (uo.x j * (1 - .num 0) + Ext.num 0 * u.x j) = _
    have e : uo.x j * (1 - .num 0) + Ext.num 0 * u.x j = uo.x j := by
      rw [hj, hx, Ext.one_eq, Ext.num_sub, Ext.num_mul, Ext.num_mul, Ext.num_add]
      congr 1
      ring
    rw [e]
    simp only [insideB, Bool.and_eq_true, List.all_eq_true, List.mem_finRange, forall_true_left] at hin
    exact Ext.clamp_inside (hin.1.1.2 j) (hin.1.1.1 j)

/-- **C80 (infinite steps, min-max mode)**: an infinite step ends at the bound, if the bounds are numbers. -/
theorem inf_step_clamped (debug : Bool) (B : Bounds (Ext K) nx np) (uo u v : MVec (Ext K) nx np nw) (h : backtrack debug true B uo u = some v) (i : Fin nx) (lb ub : K) (hl : B.xlower i = some (.num lb)) (hu : B.xupper i = some (.num ub)) (hlu : lb ≤ ub) :
    (u.x i = .pinf → v.x i = .num ub) ∧ (u.x i = .ninf → v.x i = .num lb) := by
  unfold backtrack at h
  rw [if_pos rfl] at h
  split_ifs at h
  cases h
  refine ⟨fun e => ?_, fun e => ?_⟩
  · change clamp _ _ (u.x i) = _
    rw [hl, hu, e]
    rfl
  · change clamp _ _ (u.x i) = _
    rw [hl, hu, e]
    exact if_neg (not_lt.2 hlu : ¬ ub < lb)

end

/-- A machine whose Newton step is infinite: one variable in `[0, 5]`, error `5 - x`. -/
def exInfMachine : Machine (Ext ℚ) (Ext ℚ) 1 0 0 where
  eval _ u := some (.num 5 - u.x 0).abs
  evalJac s _ := some s
  newton s uo := some (s, { uo with x := fun _ => .pinf })
  error s := s
  phi := none
  check := none
  phi_error := by intro f hf; cases hf
  check_error := by intro f hf; cases hf

/-- Its solve from 1: with the default step mode it evaluates at 1 and at NaN (three times), and fails; with the min-max mode it succeeds at 5. -/
example : let B : Bounds (Ext ℚ) 1 0 := { xlower := fun _ => some (.num 0), xupper := fun _ => some (.num 5), plower := fun _ => none, pupper := fun _ => none }
    let o : SolveOptions (Ext ℚ) := { maxiters := 2, tolerance := .num 1, minmax := false, debug := false }
    let u : MVec (Ext ℚ) 1 0 0 := { x := fun _ => .num 1, p := fun i => i.elim0, w := fun i => i.elim0 }
    ((runSolve exInfMachine o B .nan [] u 9).map fun t => ((solveResult o t).iterations, (solveResult o t).succeeded, t.trace.map fun v => v.x 0)) = some (3, false, [.nan, .nan, .nan, .num 1]) ∧
    ((runSolve exInfMachine { o with minmax := true } B .nan [] u 9).map fun t => ((solveResult o t).iterations, (solveResult o t).succeeded, t.trace.map fun v => v.x 0)) = some (1, true, [.num 5, .num 1]) := by
  decide +kernel

/-! ## A solve that ends at infinite constraints with success -/

/-- At a point where the values are numbers, the error is that of the model with numbers. -/
theorem InfConfig.errors_finite (cfg : InfConfig K nx np ny nz τ) {ev : Evals K nx np nz} {u : MVec K nx np (ny + nz)} {rf : RFState K nx np ny nz cfg.pb.Ax} (hs : RFSpec cfg.env cfg.pb ev u rf) (hev : rf.evals = ev)
    (hn : cfg.finite u = true) (ew0 : Fin (ny + nz) → K) :
    (∀ l, cfg.infh u.x u.p l = none) ∧ (∀ q, cfg.infv u.x u.p q = none) ∧
    (cfg.errors rf u (residualErrors rf.C.mat cfg.pb.xlower cfg.pb.xupper u.x rf.res ew0) ew0).error = .num (residualErrors rf.C.mat cfg.pb.xlower cfg.pb.xupper u.x rf.res ew0).error := by
  simp only [InfConfig.finite, Bool.and_eq_true, List.all_eq_true, List.mem_finRange, forall_true_left, Option.isNone_iff_eq_none] at hn
  obtain ⟨h1, h2⟩ := hn
  refine ⟨h1, h2, ?_⟩
  obtain ⟨ax0, hr⟩ := hs.res
  have hv : cfg.v u rf.evals.v = fun q => .num (-rf.res.master.p q) := by
    funext q
    unfold InfConfig.v
    rw [h2 q, hr, hev]
    simp [residualUpdate, rfArgs]
  have hh : cfg.h u rf.evals.h = fun l => .num (rf.evals.h l) := by
    funext l
    unfold InfConfig.h
    rw [h1 l]
    simp
  refine Eq.trans ?_ (extErrors_num cfg.N ew0 rf.C.mat cfg.pb.xlower cfg.pb.xupper u.x rf.res)
  unfold InfConfig.errors
  rw [hv, hh]
  congr 2
  funext k
  rw [hr, ← extWbs_num cfg.env.eps rf.C.mat (rfArgs cfg.pb rf.M ev u) ax0 k]
  subst hev
  rfl

/-- An evaluation of the machine, in release builds. -/
theorem infEval_ok {cfg : InfConfig K nx np ny nz τ} (hthr : 0 ≤ cfg.env.thr) (heps : 0 ≤ cfg.env.eps) (hd : cfg.env.debug = false) (hnx : 0 < nx) {s : Parts K nx np ny nz τ cfg.pb.Ax × Bool} (hq : Reach cfg.toConfig s.1)
    (u : MVec K nx np (ny + nz)) {t ev} (hu : cfg.user s.1.user u.x u.p s.1.ech.rwq = some (t, ev)) :
    ∃ rf, rf.evals = ev ∧ RFSpec cfg.env cfg.pb ev u rf ∧ ∀ e, (cfg.errors rf u (residualErrors rf.C.mat cfg.pb.xlower cfg.pb.xupper u.x rf.res s.1.errors.ewbar) s.1.errors.ewbar).error = .num e →
      ∃ s', cfg.machine.eval s u = some s' ∧ s'.1.rf = some rf ∧ Reach cfg.toConfig s'.1 ∧ s'.2 = cfg.finite u ∧ s'.1.errors.error = e := by
  rcases rfUpdate_spec hthr heps cfg.pb hq hnx s.1.ax ev u with ⟨rf, hrf, hspec⟩ | ⟨hf, h⟩
  · refine ⟨rf, rfUpdate_evals hrf, hspec, fun e he =>
      ⟨({ s.1 with user := t, ech := rf.ech, rf := some rf, ax := rf.res.master.x, errors := { residualErrors rf.C.mat cfg.pb.xlower cfg.pb.xupper u.x rf.res s.1.errors.ewbar with error := e } }, cfg.finite u), ?_, rfl, hspec.reach, rfl, rfl⟩⟩
    unfold InfConfig.machine Config.updateF
    dsimp only
    rw [hu]
    dsimp only
    rw [hrf]
    dsimp only [Option.map_some, Option.bind_some, Config.updateE]
    rw [he]
  · rw [hd] at h; cases h

/-- `min 0` subject to `log x₁ + 2 = 0` and `log x₂ + 2 = 0`, where the user function returns infinity for the value of a constraint outside of its domain; the derivative `1/x` is a number. -/
structure IsBarrier (cfg : InfConfig ℝ 2 0 0 2 τ) : Prop where
  xlower : ∀ i, cfg.pb.xlower i = none
  xupper : ∀ i, cfg.pb.xupper i = none
  user : ∀ t x p q, ∃ t' ev, cfg.user t x p q = some (t', ev) ∧ ev.fx = 0 ∧ ev.fxx = 0 ∧ (∀ l j, ev.hx l j = if l = j then 1 / x l else 0) ∧ ((∀ l, 0 < x l) → ∀ l, ev.h l = Real.log (x l) + 2)
  infh : ∀ x p l, (x l < 0 → cfg.infh x p l = some .pinf) ∧ (0 < x l → cfg.infh x p l = none)

section
variable {cfg : InfConfig ℝ 2 0 0 2 τ} {ev : Evals ℝ 2 0 2} {u : MVec ℝ 2 0 (0 + 2)} {rf : RFState ℝ 2 0 0 2 cfg.pb.Ax}

theorem IsBarrier.Wx (hs : RFSpec cfg.env cfg.pb ev u rf) (hx : ∀ l j, ev.hx l j = if l = j then 1 / u.x l else 0) (l : Fin 2) (j) : rf.M.Wx (Fin.natAdd 0 l) j = if l = j then 1 / u.x l else 0 := by
  rw [hs.Wx]
  simp only [stack, Fin.addCases_right, hx]

theorem IsBarrier.nb (ho : ∀ M, (cfg.env.o M).lu.Z = 0) (hs : RFSpec cfg.env cfg.pb ev u rf) (hx : ∀ l j, ev.hx l j = if l = j then 1 / u.x l else 0) (h0 : ∀ l, u.x l ≠ 0) : rf.M.RWQ.nb = 0 + 2 := by
  refine rf_full_rank ho hs fun y hy => ?_
  funext l
  refine Fin.addCases (fun l => l.elim0) (fun l => ?_) l
  have := hy l
  rw [Fin.sum_univ_add] at this
  simp only [Finset.univ_eq_empty, Finset.sum_empty, zero_add, IsBarrier.Wx hs hx, ite_mul, zero_mul, Finset.sum_ite_eq', Finset.mem_univ, if_true] at this
  exact (mul_eq_zero.1 this).resolve_left (one_div_ne_zero (h0 l))

theorem IsBarrier.full (ho : ∀ M, (cfg.env.o M).lu.Z = 0) (hs : RFSpec cfg.env cfg.pb ev u rf) (hx : ∀ l j, ev.hx l j = if l = j then 1 / u.x l else 0) (h0 : ∀ l, u.x l ≠ 0) : rf.C.nbe + rf.C.nbi = 0 + 2 := by
  obtain ⟨σ, τ, hσ, -⟩ := hs.canon.ech
  have e := Fintype.card_of_bijective hσ
  simp only [Fintype.card_sum, Fintype.card_fin] at e
  rw [e, IsBarrier.nb ho hs hx h0]

/-- Each row of `Rbs` has a zero. -/
theorem IsBarrier.zero (ho : ∀ M, (cfg.env.o M).lu.Z = 0) (hs : RFSpec cfg.env cfg.pb ev u rf) (hx : ∀ l j, ev.hx l j = if l = j then 1 / u.x l else 0) (h0 : ∀ l, u.x l ≠ 0) (k) : ∃ l : Fin 2, rf.C.mat.Rbs k (Fin.natAdd 0 l) = 0 := by
  obtain ⟨σ, τ, hσ, -, -, -, -, -, hR⟩ := hs.canon.ech
  have hnb := IsBarrier.nb ho hs hx h0
  obtain ⟨b, hb⟩ : ∃ b, b ≠ σ k := by
    have : Nontrivial (Fin rf.M.RWQ.nb) := by rw [hnb]; infer_instance
    exact exists_ne _
  refine ⟨rf.M.RWQ.jb b, ?_⟩
  rw [hR]
  have e := congrFun (congrFun hs.b (σ k)) b
  rw [Matrix.mul_apply, Fin.sum_univ_add, Matrix.one_apply_ne hb.symm] at e
  simp only [Finset.univ_eq_empty, Finset.sum_empty, zero_add, Matrix.submatrix_apply, id, IsBarrier.Wx hs hx, mul_ite, mul_zero, Finset.sum_ite_eq', Finset.mem_univ, if_true] at e
  exact (mul_eq_zero.1 e).resolve_right (one_div_ne_zero (h0 _))

/-- The Newton step from `(1, 1)` leads to `(-1, -1)`. -/
theorem IsBarrier.newton (h : IsBarrier cfg) (heps : cfg.env.eps = 0) (ho : ∀ M, (cfg.env.o M).lu.Z = 0) (hlu : LUInners cfg.toConfig) (hm : cfg.method ≠ .rangespace) {s : Parts ℝ 2 0 0 2 τ cfg.pb.Ax}
    (hrf : s.rf = some rf) (hs : RFSpec cfg.env cfg.pb ev u rf) (hx : ∀ l, u.x l = 1) (hw : u.w = 0) (hfx : ev.fx = 0) (hfxx : ev.fxx = 0) (hhx : ∀ l j, ev.hx l j = if l = j then 1 / u.x l else 0) (hh : ∀ l, ev.h l = Real.log (u.x l) + 2) :
    ∃ s' un, cfg.toConfig.newton s u = some (s', un) ∧ s'.ech = s.ech ∧ (∀ l, un.x l = -1) ∧ un.w = 0 := by
  have hW := IsBarrier.Wx hs hhx
  have hnot : ∀ i, i ∉ rf.M.ju := by
    intro i hi
    rcases (hs.unstable i hi).2 with ⟨h1, -⟩ | ⟨h1, -⟩
    · rw [h.xlower] at h1; cases h1
    · rw [h.xupper] at h1; cases h1
  have hR : RowsSpanned rf.M := rf_rowsSpanned ho hs fun q => q.elim0
  have hE := rf_echelon heps hs
  have hM : ∀ d, SolvesMaster rf.M ⟨0, 0, 0⟩ d → d.x = 0 ∧ d.p = 0 := by
    intro d hd
    refine ⟨funext fun i => ?_, funext fun i => i.elim0⟩
    have e2 := hd.constr (Fin.natAdd 0 i)
    simp only [hnot, if_false, hW, hx, div_one, ite_mul, one_mul, zero_mul, Finset.sum_ite_eq, Finset.mem_univ, if_true, Finset.univ_eq_empty, Finset.sum_empty, add_zero] at e2
    exact e2
  obtain ⟨ax0, hres⟩ := hs.res
  obtain ⟨m1, m2, m3, m4, m5, m6⟩ := residual_master cfg.env.eps hs.canon ax0 (rfArgs cfg.pb rf.M ev u)
  rw [← hres] at m1 m4
  have hf : ∀ l : Fin 2, feasRes (rfArgs cfg.pb rf.M ev u) (Fin.natAdd 0 l) = -2 := by
    intro l
    unfold feasRes
    rw [Fin.addCases_right]
    change -ev.h l = -2
    rw [hh, hx]
    simp
  obtain ⟨s', un, hn⟩ : ∃ s' un, cfg.toConfig.newton s u = some (s', un) := by
    unfold Config.newton
    rw [hrf]
    exact ⟨_, _, rfl⟩
  obtain ⟨du, hdu, d1, -, d3⟩ := newton_solves heps hrf hs hR
    ⟨fun _ => -2, 0, fun l => by
      refine Fin.addCases (fun l => l.elim0) (fun l => ?_) l
      rw [m4, hf]
      simp only [hW, hx, div_one, ite_mul, one_mul, zero_mul, Finset.sum_ite_eq, Finset.mem_univ, if_true, Finset.univ_eq_empty, Finset.sum_empty, add_zero]⟩ (luInners_ok_dep hlu hm hs.canon hE hR hM _) (fun e => absurd e hm) hn
  have g : ∀ i, lagGrad (rfArgs cfg.pb rf.M ev u) i = 0 := fun i => by simp [lagGrad, rfArgs, hw, hfx]
  refine ⟨s', un, hn, ?_, fun l => ?_, ?_⟩
  · unfold Config.newton at hn
    rw [hrf] at hn
    cases hn
    rfl
  · have e2 := hdu.constr (Fin.natAdd 0 l)
    rw [m4, hf] at e2
    simp only [hnot, if_false, hW, hx, div_one, ite_mul, one_mul, zero_mul, Finset.sum_ite_eq, Finset.mem_univ, if_true, Finset.univ_eq_empty, Finset.sum_empty, add_zero] at e2
    rw [d1, hx, e2]; norm_num
  · funext l
    refine Fin.addCases (fun l => l.elim0) (fun l => ?_) l
    have e0 := hdu.stable l (hnot l)
    rw [m1 l (hnot l), g] at e0
    rw [Fin.sum_univ_add] at e0
    simp only [hs.Hxx, hfxx, Matrix.zero_apply, ite_self, Finset.sum_const_zero, hW, hx, div_one, ite_mul, one_mul, zero_mul, Finset.sum_ite_eq', Finset.mem_univ, if_true, Finset.univ_eq_empty, Finset.sum_empty, add_zero, zero_add, neg_zero] at e0
    rw [d3, hw, e0]
    simp

/-- At `(-1, -1)` with zero multipliers the error is zero. -/
theorem IsBarrier.error (h : IsBarrier cfg) (ho : ∀ M, (cfg.env.o M).lu.Z = 0) (hs : RFSpec cfg.env cfg.pb ev u rf) (hx : ∀ l, u.x l = -1) (hw : u.w = 0) (hfx : ev.fx = 0)
    (hhx : ∀ l j, ev.hx l j = if l = j then 1 / u.x l else 0) (ew0 : Fin (0 + 2) → ℝ) :
    (cfg.errors rf u (residualErrors rf.C.mat cfg.pb.xlower cfg.pb.xupper u.x rf.res ew0) ew0).error = .num 0 := by
  have h0 : ∀ l, u.x l ≠ 0 := fun l => by rw [hx]; norm_num
  have hinf : ∀ l, cfg.h u rf.evals.h l = .pinf := fun l => by
    unfold InfConfig.h
    rw [(h.infh u.x u.p l).1 (by rw [hx]; norm_num)]
    rfl
  have hnot : ∀ i, i ∉ rf.M.ju := fun i hi => by
    rcases (hs.unstable i hi).2 with ⟨e, -⟩ | ⟨e, -⟩
    · rw [h.xlower] at e; cases e
    · rw [h.xupper] at e; cases e
  have g : ∀ i, lagGrad (rfArgs cfg.pb rf.M ev u) i = 0 := fun i => by simp [lagGrad, rfArgs, hw, hfx]
  obtain ⟨ax0, hres⟩ := hs.res
  obtain ⟨m1, -⟩ := residual_master cfg.env.eps hs.canon ax0 (rfArgs cfg.pb rf.M ev u)
  rw [← hres] at m1
  have hex : (residualErrors rf.C.mat cfg.pb.xlower cfg.pb.xupper u.x rf.res ew0).ex = fun _ => 0 :=
    funext fun i => residualErrors_ex_zero _ _ _ _ _ _ (funext fun i => by rw [m1 i (hnot i), g]; simp) i
  have hz : ∀ {n : ℕ}, normInf (fun _ : Fin n => (0 : ℝ)) = 0 := fun {n} => le_antisymm ((normInf_le_iff _ le_rfl).2 fun i => by simp) (normInf_nonneg _)
  have key := (inf_constraint_ignored cfg.N (fun i => .num ((residualErrors rf.C.mat cfg.pb.xlower cfg.pb.xupper u.x rf.res ew0).ex i)) (cfg.v u rf.evals.v) cfg.env.eps rf.C.mat
    { Wx := rf.M.Wx, Wp := rf.M.Wp, x := u.x, p := u.p, y := fun i => u.w (Fin.castAdd 2 i), z := fun j => u.w (Fin.natAdd 0 j), g := rf.evals.fx, v := rf.evals.v, b := cfg.pb.b, h := rf.evals.h }
    (cfg.h u rf.evals.h) (fun l => by rw [hinf]; simp) ⟨0, by rw [hinf]; exact Or.inl rfl⟩
    (fun k => by obtain ⟨l, hl⟩ := IsBarrier.zero ho hs hhx h0 k; exact ⟨l, by rw [hinf]; exact Or.inl rfl, hl⟩) (IsBarrier.full ho hs hhx h0) ew0 0).1
  unfold InfConfig.errors
  rw [extErrors_error, key, hex, cfg.N.norm_num, hz, show (fun i : Fin 0 => (-cfg.v u rf.evals.v i).abs) = fun i : Fin 0 => Ext.num (0 : ℝ) from funext fun i => i.elim0, cfg.N.norm_num, hz]
  simp only [Ext.stdMax, List.foldl_cons, List.foldl_nil]
  rw [if_neg (Ext.not_lt_nan _)]
  split_ifs <;> rfl

/-- The hypotheses of `inf_gradient_rejected`: for this problem with an infinite gradient. -/
example (h : IsBarrier cfg) (hs : RFSpec cfg.env cfg.pb ev u rf) (N : ExtNorm ℝ) (v : Fin 0 → Ext ℝ) (wbs : Fin rf.C.nbe ⊕ Fin rf.C.nbi → Ext ℝ) (ewbar0 : Fin (0 + 2) → ℝ) (ax0 : Fin 2 → Ext ℝ) (tol : ℝ) :
    ¬ (extErrors N (extEx rf.C.mat cfg.pb.xlower cfg.pb.xupper (rfArgs cfg.pb rf.M ev u).x (extX rf.C.mat ax0 (rfArgs cfg.pb rf.M ev u) (fun i => if i = 0 then .ninf else .num 1))) v wbs ewbar0).error < .num tol := by
  refine inf_gradient_rejected N v wbs ewbar0 hs.canon ax0 _ _ _ _ (fun i => by split_ifs <;> simp) 0 (fun hi => ?_) (Or.inr rfl) (fun _ => ?_) tol
  · rcases (hs.unstable 0 hi).2 with ⟨e, -⟩ | ⟨e, -⟩
    · rw [h.xlower] at e; cases e
    · rw [h.xupper] at e; cases e
  · rw [h.xlower, h.xupper]
    simp

/-- **C80 is false**: the solve of `log x₁ + 2 = 0`, `log x₂ + 2 = 0` from `(1, 1)` reports success after one iteration at `(-1, -1)`, where both constraints are infinite: in exact arithmetic, for every tolerance, history of the solver object, memory content,
    both step modes and all linear solvers but the range-space one. -/
theorem IsBarrier.solve (h : IsBarrier cfg) (hthr : 0 ≤ cfg.env.thr) (heps : cfg.env.eps = 0) (hd : cfg.env.debug = false) (ho : ∀ M, (cfg.env.o M).lu.Z = 0) (hlu : LUInners cfg.toConfig) (hm : cfg.method ≠ .rangespace) (o : SolveOptions ℝ)
    (hmax : 1 ≤ o.maxiters) (htol : 0 < o.tolerance) (user : τ) (mem errors ax du) (history : History ℝ) (u : MVec ℝ 2 0 (0 + 2)) (hx : ∀ l, u.x l = 1) (hw : u.w = 0) (b : Bool) :
    ∃ t, (∀ r, Solve cfg.machine o cfg.pb.bounds (cfg.toConfig.start user mem errors ax du, b) history u r ↔ r = some t) ∧
      (solveResult o t).succeeded = true ∧ (solveResult o t).iterations = 1 ∧ (∀ l, t.u.x l = -1) ∧ ∀ l, cfg.infh t.u.x t.u.p l = some .pinf := by
  have hl : ∀ i, cfg.pb.bounds.xlower i = none := h.xlower
  have hu : ∀ i, cfg.pb.bounds.xupper i = none := h.xupper
  have hin : ∀ u : MVec ℝ 2 0 (0 + 2), InBounds cfg.pb.bounds u := fun u => ⟨fun i => ⟨fun l e => (by rw [hl] at e; cases e), fun l e => (by rw [hu] at e; cases e)⟩, fun i => i.elim0⟩
  have hcl : clampVec cfg.pb.bounds u = u := clampVec_of_inBounds (hin u)
  have hfin : cfg.finite u = true := by
    simp only [InfConfig.finite, Bool.and_eq_true, List.all_eq_true, List.mem_finRange, forall_true_left, Option.isNone_iff_eq_none]
    exact ⟨fun l => (h.infh _ _ l).2 (by rw [hx]; norm_num), fun q => q.elim0⟩
  -- the first evaluation
  obtain ⟨t1, ev1, hu1, a1, a2, a3, a4⟩ := h.user (cfg.toConfig.start user mem errors ax du).user u.x u.p (cfg.toConfig.start user mem errors ax du).ech.rwq
  obtain ⟨rf1, hev1, hs1, hE1⟩ := infEval_ok hthr heps.ge hd (by norm_num) (s := (cfg.toConfig.start user mem errors ax du, b)) (start_reach cfg.toConfig user mem errors ax du) u hu1
  obtain ⟨s1, e1, hrf1, hq1, hn1, -⟩ := hE1 _ (InfConfig.errors_finite cfg hs1 hev1 hfin _).2.2
  have hinit : solveInit cfg.machine cfg.pb.bounds (cfg.toConfig.start user mem errors ax du, b) history u = some { mach := s1, u := u, uo := u, iterations := 0, history := history, trace := [u] } := by
    unfold solveInit evalAt
    dsimp only
    rw [hcl, e1]
    rfl
  rw [hfin] at hn1
  -- the step
  obtain ⟨s2, un, hn, hech, n1, n2⟩ := h.newton heps ho hlu hm hrf1 hs1 hx hw a1 a2 a3 (a4 fun l => by rw [hx]; norm_num)
  have hv := backtrack_accepts o.debug o.minmax (hin u) (hin un)
  obtain ⟨t3, ev3, hu3, c1, c2, c3, c4⟩ := h.user s2.user un.x un.p s2.ech.rwq
  obtain ⟨rf3, hev3, hs3, hE3⟩ := infEval_ok hthr heps.ge hd (by norm_num) (s := (s2, true)) (by unfold Reach; rw [hech]; exact hq1) un hu3
  obtain ⟨s3, e3, hrf3, hq3, hn3, herr⟩ := hE3 _ (h.error ho hs3 n1 n2 c1 c3 s2.errors.ewbar)
  have hlt : s3.1.errors.error < o.tolerance := by rw [herr]; exact htol
  have hstep : step cfg.machine o cfg.pb.bounds { mach := s1, u := u, uo := u, iterations := 0, history := history, trace := [u] } = some { mach := s3, u := un, uo := u, iterations := 1, history := history, trace := [un, u] } := by
    unfold step
    dsimp only
    have : cfg.machine.newton s1 u = some ((s2, true), un) := by
      change (if s1.2 = true then _ else none) = _
      rw [hn1, if_pos rfl, hn]
      rfl
    rw [this]
    dsimp only
    have ht : ∀ s, transform cfg.machine cfg.pb.bounds s = some (s, false) := fun s => rfl
    rw [ht]
    dsimp only
    unfold errorControl
    dsimp only
    rw [hv]
    dsimp only
    unfold evalAt
    dsimp only
    rw [e3]
  have hstop : stepping cfg.machine o { mach := s3, u := un, uo := u, iterations := 1, history := history, trace := [un, u] } =
      some ({ mach := s3, u := un, uo := un, iterations := 1, history := history ++ [s3.1.errors.error], trace := [un, u] }, false) := by
    have hc : (history.update (cfg.machine.error s3)).converged o.tolerance = some true := by
      change (history ++ [s3.1.errors.error] : History ℝ).converged o.tolerance = _
      simp [History.converged, hlt]
    unfold stepping
    dsimp only
    rw [if_neg (by omega), hc]
    rfl
  have hsolve : Solve cfg.machine o cfg.pb.bounds (cfg.toConfig.start user mem errors ax du, b) history u (some { mach := s3, u := un, uo := un, iterations := 1, history := history ++ [s3.1.errors.error], trace := [un, u] }) :=
    .run _ _ hinit (.stop _ _ _ hstep hstop)
  refine ⟨_, fun r => ⟨fun hr => ?_, fun e => e ▸ hsolve⟩, ?_, rfl, n1, fun l => (h.infh _ _ _).1 (by change un.x l < 0; rw [n1]; norm_num)⟩
  · obtain ⟨⟨r0, -, h1⟩, -⟩ := solve_budget cfg.machine o cfg.pb.bounds (cfg.toConfig.start user mem errors ax du, b) history u
    rw [h1 r hr, h1 _ hsolve]
  · simpa [solveResult] using hmax

end

open Classical in
/-- The largest absolute value: NaN if all entries are, otherwise that of the entries that are not NaN. -/
noncomputable def exExtNorm : ExtNorm ℝ where
  norm := fun {n} v => if 0 < n ∧ ∀ i, v i = .nan then .nan else if ∃ i, (v i).IsInf then .pinf else .num (normInf fun i => match v i with | .num a => a | _ => 0)
  norm_num := fun {n} v => by
    rw [if_neg (by rintro ⟨h, e⟩; cases e ⟨0, h⟩), if_neg (by rintro ⟨i, e | e⟩ <;> cases e)]
  norm_inf := fun {n} v h1 h2 => by
    rw [if_neg (by rintro ⟨h, e⟩; exact h1 _ (e ⟨0, h⟩)), if_pos h2]
  norm_nan := fun {n} v h e => if_pos ⟨h, e⟩

open Classical in
/-- `log x₁ + 2 = 0`, `log x₂ + 2 = 0`. -/
noncomputable def exBarrier : InfConfig ℝ 2 0 0 2 Unit :=
  { env := exactEnv
    pb := { Ax := 0, Ap := 0, b := 0, xlower := fun _ => none, xupper := fun _ => none, plower := fun _ => none, pupper := fun _ => none }
    method := .nullspace
    inners := exactInners
    user := fun _ x _ _ => some ((), { f := 0, fx := 0, fxx := 0, fxp := 0, diagfxx := false, h := fun l => Real.log (x l) + 2, hx := fun l j => if l = j then 1 / x l else 0, hp := 0, v := 0, vx := 0, vp := 0, succeeded := true })
    userJac := fun _ _ _ _ => none
    phi := none
    N := exExtNorm
    infh := fun x _ l => if x l < 0 then some .pinf else none
    infv := fun _ _ _ => none }

/-- There is such a problem. -/
example : IsBarrier exBarrier ∧ LUInners exBarrier.toConfig :=
  ⟨⟨fun _ => rfl, fun _ => rfl, fun _ _ _ _ => ⟨_, _, rfl, rfl, rfl, fun _ _ => rfl, fun _ _ => rfl⟩, fun _ _ _ => ⟨fun h => if_pos h, fun h => if_neg (not_lt.2 h.le)⟩⟩, fun c => exactInners_lu c⟩

end Optima
