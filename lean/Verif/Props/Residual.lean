import Verif.Model.Residual
import Verif.Props.LinearSolver
import Verif.Props.EchelonW
import Verif.Props.IndexUtils
import Mathlib.LinearAlgebra.Matrix.Rank
import Mathlib.Algebra.Order.BigOperators.Ring.Finset

/-!
# C27 and C28: residual vectors, residual errors; the residual function update
-/

set_option linter.unusedSectionVars false

namespace Optima

open Matrix

variable {K : Type*} [Field K] {nx np ny nz : ℕ}

theorem assignJs_spec {nbe nbi nne nni nnu : ℕ} (v : Fin nx → K) (js : (Fin nbe ⊕ Fin nbi) ⊕ (Fin nne ⊕ Fin nni) → Fin nx) (b : (Fin nbe ⊕ Fin nbi) ⊕ (Fin nne ⊕ Fin nni) → K)
    (hinj : Function.Injective js) : (∀ s, assignJs v js b (js s) = b s) ∧ ∀ i, (∀ s, js s ≠ i) → assignJs v js b i = v i := by
  unfold assignJs
  refine ⟨fun s => ?_, fun i hi => ?_⟩
  · rcases s with (s | s) | (s | s)
    · rw [assignFn_of_ne _ _ _ _ (fun k e => by cases hinj e), assignFn_of_ne _ _ _ _ (fun k e => by cases hinj e), assignFn_of_ne _ _ _ _ (fun k e => by cases hinj e)]
      exact assignFn_get v (fun k => js (.inl (.inl k))) (fun r s e => by simpa using hinj e) _ s
    · rw [assignFn_of_ne _ _ _ _ (fun k e => by cases hinj e), assignFn_of_ne _ _ _ _ (fun k e => by cases hinj e)]
      exact assignFn_get _ (fun k => js (.inl (.inr k))) (fun r s e => by simpa using hinj e) _ s
    · rw [assignFn_of_ne _ _ _ _ (fun k e => by cases hinj e)]
      exact assignFn_get _ (fun k => js (.inr (.inl k))) (fun r s e => by simpa using hinj e) _ s
    · exact assignFn_get _ (fun k => js (.inr (.inr k))) (fun r s e => by simpa using hinj e) _ s
  · rw [assignFn_of_ne _ _ _ _ (fun k => hi _), assignFn_of_ne _ _ _ _ (fun k => hi _), assignFn_of_ne _ _ _ _ (fun k => hi _), assignFn_of_ne _ _ _ _ (fun k => hi _)]

/-- The gradient of the Lagrangian, `g + Wxᵀ(y, z)`. -/
def lagGrad (a : ResidualArgs K nx np ny nz) (i : Fin nx) : K := a.g i + ∑ l, a.Wx (Fin.castAdd nz l) i * a.y l + ∑ l, a.Wx (Fin.natAdd ny l) i * a.z l

/-- The constraint residual `(b - Ax*x - Ap*p, -h)`. -/
def feasRes (a : ResidualArgs K nx np ny nz) : Fin (ny + nz) → K :=
  Fin.addCases (fun l => a.b l - ∑ j, a.Wx (Fin.castAdd nz l) j * a.x j - ∑ q, a.Wp (Fin.castAdd nz l) q * a.p q) (fun l => - a.h l)

/-- The vector multiplied with `Rbs` by the code, whose size determines the round-off threshold: `(b - Au*xu, Js*xs + Jp*p - h)`. -/
def starRes (ju : List (Fin nx)) (a : ResidualArgs K nx np ny nz) : Fin (ny + nz) → K :=
  Fin.addCases (fun l => a.b l - ∑ j, if j ∈ ju then a.Wx (Fin.castAdd nz l) j * a.x j else 0)
    (fun l => (∑ j, if j ∈ ju then 0 else a.Wx (Fin.natAdd ny l) j * a.x j) + ∑ q, a.Wp (Fin.natAdd ny l) q * a.p q - a.h l)

section
variable [LinearOrder K] [IsStrictOrderedRing K]

theorem stable_iff {nw : ℕ} {M : MasterMatrix K nx np nw} {c : CanonPack K nx np nw} (h : CanonSpec M c) (i : Fin nx) : i ∉ M.ju ↔ ∃ s, c.mat.js s = i := by
  rw [← h.unstable]
  constructor
  · intro hi
    obtain ⟨r, hr⟩ := h.split.2 i
    rcases r with s | k
    · exact ⟨s, hr⟩
    · exact absurd ⟨k, hr⟩ hi
  · rintro ⟨s, rfl⟩ ⟨k, e⟩
    have := h.split.1 (a₁ := .inr k) (a₂ := .inl s) (by simpa using e)
    cases this

theorem js_inj {nw : ℕ} {M : MasterMatrix K nx np nw} {c : CanonPack K nx np nw} (h : CanonSpec M c) : Function.Injective c.mat.js :=
  fun r s e => Sum.inl_injective (h.split.1 (by simpa using e))

theorem ju_inj {nw : ℕ} {M : MasterMatrix K nx np nw} {c : CanonPack K nx np nw} (h : CanonSpec M c) : Function.Injective c.mat.ju :=
  fun r s e => Sum.inr_injective (h.split.1 (by simpa using e))

/-- **C27 (master vector)**: `-(g + Wxᵀw)` at the stable variables, zero at the unstable ones, `-v`, and `(b - Ax*x - Ap*p, -h)`, whatever `ax` held before; and the canonical vector holds the
    same values for the stable variables (in the order `js`) and for `p`. -/
theorem residual_master (eps : K) {M : MasterMatrix K nx np (ny + nz)} {c : CanonPack K nx np (ny + nz)} (h : CanonSpec M c) (ax0 : Fin nx → K) (a : ResidualArgs K nx np ny nz) :
    (∀ i, i ∉ M.ju → (residualUpdate eps c.mat ax0 a).master.x i = - lagGrad a i) ∧
    (∀ i, i ∈ M.ju → (residualUpdate eps c.mat ax0 a).master.x i = 0) ∧
    (∀ q, (residualUpdate eps c.mat ax0 a).master.p q = - a.v q) ∧
    (∀ l, (residualUpdate eps c.mat ax0 a).master.w l = feasRes a l) ∧
    (∀ s, (residualUpdate eps c.mat ax0 a).canonical.xs s = - lagGrad a (c.mat.js s)) ∧
    (∀ q, (residualUpdate eps c.mat ax0 a).canonical.p q = - a.v q) := by
  have hx : ∀ s, (residualUpdate eps c.mat ax0 a).master.x (c.mat.js s) = - lagGrad a (c.mat.js s) := by
    intro s
    unfold residualUpdate
    dsimp only
    rw [assignFn_of_ne _ _ _ _ (fun k e => (stable_iff h _).2 ⟨s, rfl⟩ ((h.unstable _).1 ⟨k, e⟩)), (assignJs_spec (nnu := c.nnu) _ _ _ (js_inj h)).1]
    simp [lagGrad, mulVec, dotProduct]
  refine ⟨?_, ?_, fun q => rfl, ?_, hx, fun q => rfl⟩
  · intro i hi
    obtain ⟨s, rfl⟩ := (stable_iff h i).1 hi
    exact hx s
  · intro i hi
    obtain ⟨k, rfl⟩ := (h.unstable i).2 hi
    unfold residualUpdate
    dsimp only
    rw [assignFn_get _ _ (ju_inj h)]
    rfl
  · intro l
    unfold residualUpdate feasRes
    dsimp only
    refine Fin.addCases (fun l => ?_) (fun l => ?_) l
    · simp only [Fin.addCases_left, Pi.neg_apply, Pi.sub_apply, Pi.add_apply, mulVec, dotProduct, submatrix_apply, id]
      ring
    · simp only [Fin.addCases_right, Pi.neg_apply]

theorem canonical_echelon_bn {nw : ℕ} {M : MasterMatrix K nx np nw} {c : CanonPack K nx np nw} (h : CanonSpec M c) (h1 : M.RWQ.Rb * M.Wx.submatrix id M.RWQ.jb = 1)
    (h2 : M.RWQ.Rb * M.Wx.submatrix id M.RWQ.jn = M.RWQ.Sbn) :
    (∀ b b', ∑ l, c.mat.Rbs b l * M.Wx l (c.mat.js (.inl b')) = if b = b' then 1 else 0) ∧ ∀ b k, ∑ l, c.mat.Rbs b l * M.Wx l (c.mat.js (.inr k)) = c.mat.Sbsns b k := by
  obtain ⟨σ, τ, hσ, hτ, jb, jn, S, Sp, R⟩ := h.ech
  constructor
  · intro b b'
    have := congrFun (congrFun h1 (σ b)) (σ b')
    simp only [mul_apply, submatrix_apply, id, Matrix.one_apply, hσ.1.eq_iff] at this
    simp only [← h.jb_eq, jb, R]
    exact this
  · intro b k
    have := congrFun (congrFun h2 (σ b)) (τ (.inl k))
    simp only [mul_apply, submatrix_apply, id] at this
    simp only [← h.jn_eq, jn, R, S]
    exact this

/-- The canonical constraint residual with its two errors. -/
theorem residual_canonical_split (eps : K) {M : MasterMatrix K nx np (ny + nz)} {c : CanonPack K nx np (ny + nz)} (h : CanonSpec M c)
    (h1 : M.RWQ.Rb * M.Wx.submatrix id M.RWQ.jb = 1) (h2 : M.RWQ.Rb * M.Wx.submatrix id M.RWQ.jn = M.RWQ.Sbn) (ax0 : Fin nx → K) (a : ResidualArgs K nx np ny nz)
    (hWx : a.Wx = M.Wx) (hWp : a.Wp = M.Wp) (b : Fin c.nbe ⊕ Fin c.nbi) :
    (residualUpdate eps c.mat ax0 a).canonical.wbs b - ∑ l, c.mat.Rbs b l * feasRes a l =
      (Utils.multiplyClean eps c.mat.Rbs (starRes M.ju a) b - (c.mat.Rbs *ᵥ starRes M.ju a) b) - ∑ q, (c.mat.Sbsp b q - ∑ l, c.mat.Rbs b l * M.Wp l q) * a.p q := by
  obtain ⟨hb, hn⟩ := canonical_echelon_bn h h1 h2
  -- the code's vector
  have hstar : (Fin.addCases (a.b - (((a.Wx.submatrix (Fin.castAdd nz) id).submatrix id c.mat.ju) *ᵥ (a.x ∘ c.mat.ju)))
      ((((a.Wx.submatrix (Fin.natAdd ny) id).submatrix id c.mat.js) *ᵥ (a.x ∘ c.mat.js)) + (a.Wp.submatrix (Fin.natAdd ny) id) *ᵥ a.p - a.h) : Fin (ny + nz) → K) = starRes M.ju a := by
    funext l
    unfold starRes
    refine Fin.addCases (fun l => ?_) (fun l => ?_) l
    · simp only [Fin.addCases_left, Pi.sub_apply, mulVec, dotProduct, submatrix_apply, id, Function.comp_apply]
      congr 1
      rw [← (Equiv.ofBijective _ h.split).sum_comp, Fintype.sum_sum_type]
      have hu : ∀ k, c.mat.ju k ∈ M.ju := fun k => (h.unstable _).1 ⟨k, rfl⟩
      have hs : ∀ s, c.mat.js s ∉ M.ju := fun s => (stable_iff h _).2 ⟨s, rfl⟩
      simp [Equiv.ofBijective_apply, hu, hs]
    · simp only [Fin.addCases_right, Pi.sub_apply, Pi.add_apply, mulVec, dotProduct, submatrix_apply, id, Function.comp_apply]
      congr 2
      exact sum_stable h (fun j => a.Wx (Fin.natAdd ny l) j * a.x j)
  have hwbs : (residualUpdate eps c.mat ax0 a).canonical.wbs b = Utils.multiplyClean eps c.mat.Rbs (starRes M.ju a) b -
      (a.x (c.mat.js (.inl b)) + ∑ k, c.mat.Sbsns b k * a.x (c.mat.js (.inr k)) + ∑ q, c.mat.Sbsp b q * a.p q) := by
    rw [← hstar]
    rfl
  -- Rbs * Ws * xs
  have hWs : ∑ l, c.mat.Rbs b l * ∑ s, M.Wx l (c.mat.js s) * a.x (c.mat.js s) = a.x (c.mat.js (.inl b)) + ∑ k, c.mat.Sbsns b k * a.x (c.mat.js (.inr k)) := by
    simp only [Finset.mul_sum]
    rw [Finset.sum_comm, Fintype.sum_sum_type]
    congr 1
    · calc ∑ b', ∑ l, c.mat.Rbs b l * (M.Wx l (c.mat.js (.inl b')) * a.x (c.mat.js (.inl b'))) = ∑ b', (if b = b' then 1 else 0) * a.x (c.mat.js (.inl b')) := by
            refine Finset.sum_congr rfl fun b' _ => ?_
            rw [← hb b b', Finset.sum_mul]
            exact Finset.sum_congr rfl fun l _ => by ring
        _ = _ := by simp
    · refine Finset.sum_congr rfl fun k _ => ?_
      rw [← hn b k, Finset.sum_mul]
      exact Finset.sum_congr rfl fun l _ => by ring
  have hdiff : ∀ l, starRes M.ju a l - feasRes a l = ∑ s, M.Wx l (c.mat.js s) * a.x (c.mat.js s) + ∑ q, M.Wp l q * a.p q := by
    intro l
    rw [sum_stable h (fun j => M.Wx l j * a.x j), ← hWx, ← hWp]
    unfold starRes feasRes
    refine Fin.addCases (fun l => ?_) (fun l => ?_) l
    · simp only [Fin.addCases_left]
      have : ∑ j, a.Wx (Fin.castAdd nz l) j * a.x j = (∑ j, if j ∈ M.ju then a.Wx (Fin.castAdd nz l) j * a.x j else 0) + ∑ j, if j ∈ M.ju then 0 else a.Wx (Fin.castAdd nz l) j * a.x j := by
        rw [← Finset.sum_add_distrib]
        exact Finset.sum_congr rfl fun j _ => by split_ifs <;> simp
      rw [this]; ring
    · simp only [Fin.addCases_right]; ring
  have key : (c.mat.Rbs *ᵥ starRes M.ju a) b - ∑ l, c.mat.Rbs b l * feasRes a l =
      a.x (c.mat.js (.inl b)) + ∑ k, c.mat.Sbsns b k * a.x (c.mat.js (.inr k)) + ∑ q, (∑ l, c.mat.Rbs b l * M.Wp l q) * a.p q := by
    rw [← hWs]
    simp only [mulVec, dotProduct]
    rw [← Finset.sum_sub_distrib]
    simp only [← mul_sub, hdiff, mul_add, Finset.sum_add_distrib]
    congr 1
    simp only [Finset.mul_sum]
    rw [Finset.sum_comm]
    refine Finset.sum_congr rfl fun q _ => ?_
    rw [Finset.sum_mul]
    exact Finset.sum_congr rfl fun l _ => by ring
  rw [hwbs]
  have : ∑ q, (c.mat.Sbsp b q - ∑ l, c.mat.Rbs b l * M.Wp l q) * a.p q = ∑ q, c.mat.Sbsp b q * a.p q - ∑ q, (∑ l, c.mat.Rbs b l * M.Wp l q) * a.p q := by
    rw [← Finset.sum_sub_distrib]
    exact Finset.sum_congr rfl fun q _ => by ring
  rw [this]
  linear_combination key

/-- **C27 (canonical constraint residual)**: the entries are those of `Rbs*(b - Ax*x - Ap*p, -h)` up to the round-off threshold of the filtered product and the error of the filtered
    block `Sbsp`. -/
theorem residual_canonical (eps : K) (heps : 0 ≤ eps) {M : MasterMatrix K nx np (ny + nz)} {c : CanonPack K nx np (ny + nz)} (h : CanonSpec M c)
    (h1 : M.RWQ.Rb * M.Wx.submatrix id M.RWQ.jb = 1) (h2 : M.RWQ.Rb * M.Wx.submatrix id M.RWQ.jn = M.RWQ.Sbn) (ax0 : Fin nx → K) (a : ResidualArgs K nx np ny nz)
    (hWx : a.Wx = M.Wx) (hWp : a.Wp = M.Wp) (b : Fin c.nbe ⊕ Fin c.nbi) :
    |(residualUpdate eps c.mat ax0 a).canonical.wbs b - ∑ l, c.mat.Rbs b l * feasRes a l| ≤
      (∑ l, |c.mat.Rbs b l| * |starRes M.ju a l|) * eps + ∑ q, |c.mat.Sbsp b q - ∑ l, c.mat.Rbs b l * M.Wp l q| * |a.p q| := by
  have hmc := (Utils.multiplyClean_spec eps heps c.mat.Rbs (starRes M.ju a) b).2.2
  rw [residual_canonical_split eps h h1 h2 ax0 a hWx hWp b]
  refine (abs_sub _ _).trans (add_le_add hmc ((Finset.abs_sum_le_sum_abs _ _).trans (le_of_eq ?_)))
  exact Finset.sum_congr rfl fun q _ => abs_mul _ _

/-- **C27 (exact)**: in exact arithmetic the canonical constraint residual is `Rbs*(b - Ax*x - Ap*p, -h)`. -/
theorem residual_canonical_exact {M : MasterMatrix K nx np (ny + nz)} {c : CanonPack K nx np (ny + nz)} (h : CanonSpec M c) (hE : EchelonOK M) (ax0 : Fin nx → K)
    (a : ResidualArgs K nx np ny nz) (hWx : a.Wx = M.Wx) (hWp : a.Wp = M.Wp) (b : Fin c.nbe ⊕ Fin c.nbi) :
    (residualUpdate 0 c.mat ax0 a).canonical.wbs b = ∑ l, c.mat.Rbs b l * feasRes a l := by
  have := residual_canonical 0 le_rfl h hE.b hE.n ax0 a hWx hWp b
  have hp : ∀ q, ∑ l, c.mat.Rbs b l * M.Wp l q = c.mat.Sbsp b q := fun q => by
    have := congrFun (congrFun (canonical_echelon h hE.b hE.n hE.p).2.2 b) q
    simpa [mul_apply] using this
  simp only [hp, sub_self, abs_zero, zero_mul, Finset.sum_const_zero, mul_zero, add_zero] at this
  exact sub_eq_zero.1 (abs_nonpos_iff.1 this)

/-! ## C28 -/

theorem basics_le_rows {nw : ℕ} {M : MasterMatrix K nx np nw} {c : CanonPack K nx np nw} (h : CanonSpec M c) (h1 : M.RWQ.Rb * M.Wx.submatrix id M.RWQ.jb = 1) : c.nbe + c.nbi ≤ nw := by
  obtain ⟨σ, τ, hσ, -⟩ := h.ech
  have e := Fintype.card_of_bijective hσ
  simp only [Fintype.card_sum, Fintype.card_fin] at e
  rw [e]
  have := Matrix.rank_mul_le_left M.RWQ.Rb (M.Wx.submatrix id M.RWQ.jb)
  rw [h1, Matrix.rank_one, Fintype.card_fin] at this
  exact this.trans (Matrix.rank_le_width _)

/-- A variable attached to one of its bounds. -/
def OnBound (lower upper : Fin nx → Option K) (x : Fin nx → K) (i : Fin nx) : Prop := lower i = some (x i) ∨ upper i = some (x i)

theorem normInf_nonneg {n : ℕ} (v : Fin n → K) : 0 ≤ normInf v := by
  unfold normInf
  refine foldl_finRange_inv (n := n) (P := fun _ (m : K) => 0 ≤ m) le_rfl ?_
  intro l m a ih
  exact ih.trans (le_max_left _ _)

open Classical in
theorem errors_ex {nw : ℕ} {M : MasterMatrix K nx np nw} {c : CanonPack K nx np nw} (h : CanonSpec M c) (lower upper : Fin nx → Option K) (x : Fin nx → K)
    (r : ResidualOut K nx np nw c.nbe c.nbi c.nne c.nni) (ew0 : Fin nw → K) (i : Fin nx) :
    (residualErrors c.mat lower upper x r ew0).ex i = if i ∈ M.ju ∨ ((∃ b, M.RWQ.jb b = i) ∧ OnBound lower upper x i) then 0 else |r.master.x i| := by
  have hinj : Function.Injective fun k : Fin (c.nbe + c.nbi) => c.mat.js (.inl (finSumFinEquiv.symm k)) := fun k l e => by
    have := js_inj h e
    simpa using this
  have hbas : ∀ i, (∃ b, M.RWQ.jb b = i) ↔ ∃ k : Fin (c.nbe + c.nbi), c.mat.js (.inl (finSumFinEquiv.symm k)) = i := by
    intro i
    rw [← h.basic]
    constructor
    · rintro ⟨b, rfl⟩
      exact ⟨finSumFinEquiv b, by simp [h.jb_eq]⟩
    · rintro ⟨k, rfl⟩
      exact ⟨finSumFinEquiv.symm k, h.jb_eq _⟩
  unfold residualErrors OnBound
  dsimp only
  by_cases hi : i ∈ M.ju
  · obtain ⟨k, rfl⟩ := (h.unstable i).2 hi
    have hne : ∀ l : Fin (c.nbe + c.nbi), c.mat.js (.inl (finSumFinEquiv.symm l)) ≠ c.mat.ju k := fun l e => (stable_iff h _).2 ⟨_, e⟩ hi
    rw [assignFn_of_ne _ _ _ _ hne, assignFn_of_ne _ _ _ _ hne, assignFn_get _ _ (ju_inj h), if_pos (Or.inl hi)]
    rfl
  · have hju : ∀ k, c.mat.ju k ≠ i := fun k e => hi ((h.unstable i).1 ⟨k, e⟩)
    by_cases hb : ∃ b, M.RWQ.jb b = i
    · obtain ⟨k, rfl⟩ := (hbas i).1 hb
      rw [assignFn_get _ _ hinj, assignFn_get _ _ hinj, assignFn_of_ne _ _ _ _ hju]
      simp only [hi, hb, true_and, false_or]
      by_cases h1 : lower (c.mat.js (.inl (finSumFinEquiv.symm k))) = some (x (c.mat.js (.inl (finSumFinEquiv.symm k))))
      · simp [h1]
      · by_cases h2 : upper (c.mat.js (.inl (finSumFinEquiv.symm k))) = some (x (c.mat.js (.inl (finSumFinEquiv.symm k))))
        · simp [h2]
        · have h1' := Ne.symm h1
          have h2' := Ne.symm h2
          simp [h1, h2, h1', h2']
    · have hne : ∀ l : Fin (c.nbe + c.nbi), c.mat.js (.inl (finSumFinEquiv.symm l)) ≠ i := fun l e => hb ((hbas i).2 ⟨l, e⟩)
      rw [assignFn_of_ne _ _ _ _ hne, assignFn_of_ne _ _ _ _ hne, assignFn_of_ne _ _ _ _ hju, if_neg]
      simp [hi, hb]

theorem errors_ewbar {nw : ℕ} {c : CanonPack K nx np nw} (lower upper : Fin nx → Option K) (x : Fin nx → K) (r : ResidualOut K nx np nw c.nbe c.nbi c.nne c.nni) (ew0 : Fin nw → K) (i : Fin nw) :
    (residualErrors c.mat lower upper x r ew0).ewbar i = if hlt : (i : ℕ) < c.nbe + c.nbi then |r.canonical.wbs (finSumFinEquiv.symm ⟨i, hlt⟩)| else 0 := by
  unfold residualErrors
  dsimp only
  by_cases hlt : (i : ℕ) < c.nbe + c.nbi
  · rw [if_neg (by omega), dif_pos hlt, dif_pos hlt]
  · rw [if_pos (by omega), dif_neg hlt]

/-- **C28**: `error()` is the largest of the absolute values of: the entries `Fm.x` of the stable variables that are not basic variables attached to a bound; the entries `Fm.p`; the canonical
    constraint residuals.  (Stated through its upper bounds, which determine it.)  The previous contents of `ewbar` play no role. -/
theorem error_le_iff {nw : ℕ} {M : MasterMatrix K nx np nw} {c : CanonPack K nx np nw} (h : CanonSpec M c) (hn : c.nbe + c.nbi ≤ nw) (lower upper : Fin nx → Option K) (x : Fin nx → K)
    (r : ResidualOut K nx np nw c.nbe c.nbi c.nne c.nni) (ew0 : Fin nw → K) (t : K) (ht : 0 ≤ t) :
    (residualErrors c.mat lower upper x r ew0).error ≤ t ↔
      (∀ i, i ∉ M.ju → ¬ ((∃ b, M.RWQ.jb b = i) ∧ OnBound lower upper x i) → |r.master.x i| ≤ t) ∧ (∀ q, |r.master.p q| ≤ t) ∧ ∀ b, |r.canonical.wbs b| ≤ t := by
  classical
  have hex := errors_ex h lower upper x r ew0
  have hew := errors_ewbar lower upper x r ew0
  have herr : (residualErrors c.mat lower upper x r ew0).error = max (max (normInf (residualErrors c.mat lower upper x r ew0).ex) (normInf fun q => |r.master.p q|))
      (normInf (residualErrors c.mat lower upper x r ew0).ewbar) := rfl
  rw [herr, max_le_iff, max_le_iff, normInf_le_iff _ ht, normInf_le_iff _ ht, normInf_le_iff _ ht, and_assoc]
  refine and_congr ?_ (and_congr ?_ ?_)
  · refine forall_congr' fun i => ?_
    rw [hex]
    by_cases hi : i ∈ M.ju
    · simp only [hi, true_or, if_true, abs_zero, ht, not_true_eq_false, false_imp_iff]
    · by_cases hb : (∃ b, M.RWQ.jb b = i) ∧ OnBound lower upper x i
      · rw [if_pos (Or.inr hb)]; exact ⟨fun _ _ hn' => absurd hb hn', fun _ => by rw [abs_zero]; exact ht⟩
      · rw [if_neg (by simp only [hi, hb, or_self, not_false_iff]), abs_abs]; simp only [hi, hb, not_false_iff, forall_const]
  · simp only [abs_abs]
  · constructor
    · intro H b
      have := H ⟨finSumFinEquiv b, lt_of_lt_of_le (finSumFinEquiv b).2 hn⟩
      rw [hew, dif_pos (finSumFinEquiv b).2] at this
      simpa using this
    · intro H i
      rw [hew]
      split_ifs
      · rw [abs_abs]; exact H _
      · simpa using ht

open Classical in
/-- **C28 (the errors reported)**: the entries of `ex`, `ep` and `ew` are the absolute values of the gradient of the Lagrangian (zero for unstable variables and for basic variables attached to a bound), of `v`, and of the constraints
    `Ax*x + Ap*p - b` and `h`; the three partial errors are the largest entries of `ex`, of `ep` and of the canonical residuals (stated through their upper bounds). -/
theorem errors_reported {M : MasterMatrix K nx np (ny + nz)} {c : CanonPack K nx np (ny + nz)} (h : CanonSpec M c) (hn : c.nbe + c.nbi ≤ ny + nz) (eps : K) (lower upper : Fin nx → Option K) (ax0 : Fin nx → K)
    (ew0 : Fin (ny + nz) → K) (a : ResidualArgs K nx np ny nz) (e : ErrorsOut K nx np (ny + nz)) (he : e = residualErrors c.mat lower upper a.x (residualUpdate eps c.mat ax0 a) ew0) :
    (∀ i, e.ex i = if i ∈ M.ju ∨ ((∃ b, M.RWQ.jb b = i) ∧ OnBound lower upper a.x i) then 0 else |lagGrad a i|) ∧ (∀ q, e.ep q = |a.v q|) ∧ (∀ l, e.ew l = |feasRes a l|) ∧
      ∀ t, 0 ≤ t → ((e.errorx ≤ t ↔ ∀ i, e.ex i ≤ t) ∧ (e.errorp ≤ t ↔ ∀ q, e.ep q ≤ t) ∧ (e.errorw ≤ t ↔ ∀ b, |(residualUpdate eps c.mat ax0 a).canonical.wbs b| ≤ t)) := by
  subst he
  obtain ⟨m1, m2, m3, m4, m5, m6⟩ := residual_master eps h ax0 a
  have hex := errors_ex h lower upper a.x (residualUpdate eps c.mat ax0 a) ew0
  have hew := errors_ewbar lower upper a.x (residualUpdate eps c.mat ax0 a) ew0
  refine ⟨fun i => ?_, fun q => ?_, fun l => ?_, fun t ht => ⟨?_, ?_, ?_⟩⟩
  · rw [hex]
    split_ifs with hi
    · rfl
    · rw [m1 i fun hm => hi (Or.inl hm), abs_neg]
  · change |(residualUpdate eps c.mat ax0 a).master.p q| = _
    rw [m3, abs_neg]
  · change |(residualUpdate eps c.mat ax0 a).master.w l| = _
    rw [m4]
  · change normInf (residualErrors c.mat lower upper a.x (residualUpdate eps c.mat ax0 a) ew0).ex ≤ t ↔ _
    rw [normInf_le_iff _ ht]
    refine forall_congr' fun i => ?_
    rw [hex]
    split_ifs <;> simp
  · change (normInf fun q => |(residualUpdate eps c.mat ax0 a).master.p q|) ≤ t ↔ ∀ q, |(residualUpdate eps c.mat ax0 a).master.p q| ≤ t
    rw [normInf_le_iff _ ht]
    simp only [abs_abs]
  · change normInf (residualErrors c.mat lower upper a.x (residualUpdate eps c.mat ax0 a) ew0).ewbar ≤ t ↔ _
    rw [normInf_le_iff _ ht]
    constructor
    · intro H b
      have := H ⟨finSumFinEquiv b, lt_of_lt_of_le (finSumFinEquiv b).2 hn⟩
      rw [hew, dif_pos (finSumFinEquiv b).2] at this
      simpa using this
    · intro H i
      rw [hew]
      split_ifs
      · rw [abs_abs]; exact H _
      · simpa using ht

/-- **C28 (what a small error guarantees)**: if the error computed from the residual vectors is at most `t`, the gradient of the Lagrangian is at most `t` at every stable variable that is not a basic
    variable attached to a bound, and every `v` is at most `t`. -/
theorem small_error {M : MasterMatrix K nx np (ny + nz)} {c : CanonPack K nx np (ny + nz)} (h : CanonSpec M c) (h1 : M.RWQ.Rb * M.Wx.submatrix id M.RWQ.jb = 1) (eps : K)
    (lower upper : Fin nx → Option K) (ax0 : Fin nx → K) (ew0 : Fin (ny + nz) → K) (a : ResidualArgs K nx np ny nz) (t : K)
    (he : (residualErrors c.mat lower upper a.x (residualUpdate eps c.mat ax0 a) ew0).error ≤ t) :
    (∀ i, i ∉ M.ju → ¬ ((∃ b, M.RWQ.jb b = i) ∧ OnBound lower upper a.x i) → |lagGrad a i| ≤ t) ∧ (∀ q, |a.v q| ≤ t) ∧
      ∀ b, |(residualUpdate eps c.mat ax0 a).canonical.wbs b| ≤ t := by
  have ht : 0 ≤ t := le_trans (le_trans (normInf_nonneg _) (le_max_right _ _)) he
  obtain ⟨e1, e2, e3⟩ := (error_le_iff h (basics_le_rows h h1) lower upper a.x _ ew0 t ht).1 he
  obtain ⟨m1, m2, m3, m4, m5, m6⟩ := residual_master eps h ax0 a
  refine ⟨fun i hi hb => ?_, fun q => ?_, e3⟩
  · have := e1 i hi hb
    rwa [m1 i hi, abs_neg] at this
  · have := e2 q
    rwa [m3, abs_neg] at this

/-- **C28 (feasibility)**: with as many basic variables as constraints (full row rank), an error of at most `t` bounds every constraint residual by `‖Wx(jb)‖∞ (t + δ)`, where `δ` bounds the round-off
    of the canonical residual (`residual_canonical`; zero in exact arithmetic) and `Wx(jb) = R⁻¹`. -/
theorem small_error_feasible {M : MasterMatrix K nx np (ny + nz)} {c : CanonPack K nx np (ny + nz)} (h : CanonSpec M c) (h1 : M.RWQ.Rb * M.Wx.submatrix id M.RWQ.jb = 1) (hfull : M.RWQ.nb = ny + nz)
    (eps : K) (lower upper : Fin nx → Option K) (ax0 : Fin nx → K) (ew0 : Fin (ny + nz) → K) (a : ResidualArgs K nx np ny nz) (t δ : K)
    (hδ : ∀ b, |(residualUpdate eps c.mat ax0 a).canonical.wbs b - ∑ l, c.mat.Rbs b l * feasRes a l| ≤ δ)
    (he : (residualErrors c.mat lower upper a.x (residualUpdate eps c.mat ax0 a) ew0).error ≤ t) (l : Fin (ny + nz)) :
    |feasRes a l| ≤ (∑ b, |M.Wx l (M.RWQ.jb b)|) * (t + δ) := by
  have h3 := (small_error h h1 eps lower upper ax0 ew0 a t he).2.2
  obtain ⟨σ, τ, hσ, hτ, jb, jn, S, Sp, R⟩ := h.ech
  have hb : ∀ b, |∑ r, M.RWQ.Rb b r * feasRes a r| ≤ t + δ := by
    intro b
    obtain ⟨b, rfl⟩ := hσ.2 b
    have e1 := abs_le.1 (h3 b)
    have e2 := abs_le.1 (hδ b)
    simp only [R] at e2
    rw [abs_le]
    constructor <;> linarith [e1.1, e1.2, e2.1, e2.2]
  have hinv : M.Wx.submatrix id M.RWQ.jb * M.RWQ.Rb = 1 := (Matrix.mul_eq_one_comm_of_equiv (finCongr hfull)).1 h1
  have hl : feasRes a l = ∑ b, M.Wx l (M.RWQ.jb b) * ∑ r, M.RWQ.Rb b r * feasRes a r := by
    have e : (M.Wx.submatrix id M.RWQ.jb * M.RWQ.Rb) *ᵥ feasRes a = feasRes a := by rw [hinv, one_mulVec]
    rw [← mulVec_mulVec] at e
    have := congrFun e l
    simpa [mulVec, dotProduct] using this.symm
  rw [hl, Finset.sum_mul]
  refine (Finset.abs_sum_le_sum_abs _ _).trans (Finset.sum_le_sum fun b _ => ?_)
  rw [abs_mul]
  exact mul_le_mul_of_nonneg_left (hb b) (abs_nonneg _)

/-- **C28, limit**: without full row rank the error says nothing about the dependent rows.  For every canonical form with fewer basic variables than linear constraints and every point there is a
    right-hand side `b` for which the canonical constraint residual vanishes although a constraint is violated. -/
theorem error_ignores_dependent_rows {M : MasterMatrix K nx np (ny + 0)} {c : CanonPack K nx np (ny + 0)} (h : CanonSpec M c) (hE : EchelonOK M) (hlt : M.RWQ.nb < ny)
    (ax0 : Fin nx → K) (a : ResidualArgs K nx np ny 0) (hWx : a.Wx = M.Wx) (hWp : a.Wp = M.Wp) :
    ∃ b' : Fin ny → K, (∀ b, (residualUpdate 0 c.mat ax0 { a with b := b' }).canonical.wbs b = 0) ∧ ∃ l, feasRes { a with b := b' } l ≠ 0 := by
  -- a vector in the kernel of Rb
  obtain ⟨r, hr0, hr⟩ : ∃ r : Fin (ny + 0) → K, r ≠ 0 ∧ M.RWQ.Rb *ᵥ r = 0 := by
    have hker : LinearMap.ker (Matrix.mulVecLin M.RWQ.Rb) ≠ ⊥ := LinearMap.ker_ne_bot_of_finrank_lt (by simpa using hlt)
    obtain ⟨r, hr, hne⟩ := Submodule.exists_mem_ne_zero_of_ne_bot hker
    exact ⟨r, hne, by simpa using hr⟩
  obtain ⟨σ, τ, hσ, hτ, jb, jn, S, Sp, R⟩ := h.ech
  have hf : ∀ l, feasRes (nz := 0) { a with b := fun l => r (Fin.castAdd 0 l) + ∑ j, a.Wx (Fin.castAdd 0 l) j * a.x j + ∑ q, a.Wp (Fin.castAdd 0 l) q * a.p q } l = r l := by
    intro l
    refine Fin.addCases (fun l => ?_) (fun l => l.elim0) l
    unfold feasRes
    simp only [Fin.addCases_left]
    ring
  refine ⟨fun l => r (Fin.castAdd 0 l) + ∑ j, a.Wx (Fin.castAdd 0 l) j * a.x j + ∑ q, a.Wp (Fin.castAdd 0 l) q * a.p q, fun b => ?_, ?_⟩
  · refine (residual_canonical_exact h hE ax0 _ (by exact hWx) (by exact hWp) b).trans ?_
    simp only [hf, R]
    exact congrFun hr (σ b)
  · by_contra hcon
    push Not at hcon
    exact hr0 (funext fun l => by rw [← hf l]; exact hcon l)

/-- `minimise (x0² + x1²)/2 - x0` subject to `x0 - x1 = 0`, `x ≥ 0`, at the point `(0, 0)` with zero multiplier: the linearised problem with `x0` basic. -/
def exBound : MasterMatrix ℚ 2 0 (1 + 0) where
  Hxx := 1
  Hxp := 0
  isHxxDiag := true
  Vpx := 0
  Vpp := 0
  Wx := fun _ j => ![1, -1] j
  Wp := 0
  RWQ := { nb := 1, nn := 1, Rb := fun _ _ => 1, Sbn := fun _ _ => -1, Sbp := 0, jb := fun _ => 0, jn := fun _ => 1 }
  js := [0, 1]
  ju := []

def exBoundArgs : ResidualArgs ℚ 2 0 1 0 where
  Wx := exBound.Wx
  Wp := exBound.Wp
  x := 0
  p := 0
  y := 0
  z := 0
  g := ![-1, 0]
  v := 0
  b := 0
  h := 0

theorem exBound_ok : EchelonOK exBound := by
  constructor
  · funext i j; change Fin 1 at i j; change ∑ l : Fin (1 + 0), (1 : ℚ) * ![1, -1] (0 : Fin 2) = (1 : Matrix (Fin 1) (Fin 1) ℚ) i j; rw [Subsingleton.elim i j, Matrix.one_apply_eq]; decide +kernel
  · funext i j; change Fin 1 at i j; change ∑ l : Fin (1 + 0), (1 : ℚ) * ![1, -1] (1 : Fin 2) = -1; decide +kernel
  · funext i j; exact j.elim0

/-- **C28, limit**: a zero error does not mean that the point is stationary: the basic variable `x0` sits on its lower bound, the gradient of the Lagrangian is `-1` there and moving along the feasible
    direction `(1, 1)` decreases the objective, but the reported error is zero. -/
theorem error_ignores_basic_on_bound (Pb : Idx.PartitionImpl (Fin exBound.RWQ.nb)) (Pn : Idx.PartitionImpl (Fin exBound.RWQ.nn)) : ∃ c, canonicalize exBound Pb Pn = .ok c ∧ CanonSpec exBound c ∧
    ∀ ax0 ew0, (residualErrors c.mat (fun _ => some 0) (fun _ => none) exBoundArgs.x (residualUpdate 0 c.mat ax0 exBoundArgs) ew0).error = 0 ∧
      lagGrad exBoundArgs 0 = -1 ∧ (∑ i, exBoundArgs.g i * 1 < 0) ∧ ∀ l, ∑ j, exBoundArgs.Wx l j * 1 = 0 := by
  obtain ⟨c, hc, h⟩ := canonicalize_spec exBound Pb Pn ⟨by unfold Function.Injective; decide, by unfold Function.Surjective; decide⟩ (by decide) (by decide)
  refine ⟨c, hc, h, fun ax0 ew0 => ⟨le_antisymm ?_ ?_, by decide +kernel, by decide +kernel, by decide +kernel⟩⟩
  · rw [error_le_iff h (basics_le_rows h exBound_ok.b) _ _ _ _ _ _ le_rfl]
    obtain ⟨m1, m2, m3, m4, m5, m6⟩ := residual_master 0 h ax0 exBoundArgs
    refine ⟨fun i hi hb => ?_, fun q => q.elim0, fun b => ?_⟩
    · rw [m1 i hi]
      fin_cases i
      · exact absurd ⟨⟨(0 : Fin 1), rfl⟩, Or.inl rfl⟩ hb
      · decide +kernel
    · rw [residual_canonical_exact h exBound_ok ax0 exBoundArgs rfl rfl]
      have : ∀ l, feasRes exBoundArgs l = 0 := by decide +kernel
      simp [this]
  · exact le_trans (normInf_nonneg _) (le_max_right _ _)

/-- The hypotheses of the theorems above are met, here with full row rank. -/
example (Pb : Idx.PartitionImpl (Fin exBound.RWQ.nb)) (Pn : Idx.PartitionImpl (Fin exBound.RWQ.nn)) : ∃ c, CanonSpec exBound c ∧ EchelonOK exBound ∧ exBound.RWQ.nb = 1 + 0 := by
  obtain ⟨c, -, h, -⟩ := error_ignores_basic_on_bound Pb Pn
  exact ⟨c, h, exBound_ok, rfl⟩

/-- `x0 = b0`, `x0 = b1`: one basic variable and two constraints (for `error_ignores_dependent_rows`). -/
def exDependent : MasterMatrix ℚ 1 0 (2 + 0) where
  Hxx := 1
  Hxp := 0
  isHxxDiag := true
  Vpx := 0
  Vpp := 0
  Wx := fun _ _ => 1
  Wp := 0
  RWQ := { nb := 1, nn := 0, Rb := fun _ l => if l = 0 then 1 else 0, Sbn := 0, Sbp := 0, jb := fun _ => 0, jn := Fin.elim0 }
  js := [0]
  ju := []

example (Pb : Idx.PartitionImpl (Fin exDependent.RWQ.nb)) (Pn : Idx.PartitionImpl (Fin exDependent.RWQ.nn)) : ∃ c, CanonSpec exDependent c ∧ EchelonOK exDependent ∧ exDependent.RWQ.nb < 2 := by
  obtain ⟨c, hc, h⟩ := canonicalize_spec exDependent Pb Pn ⟨by unfold Function.Injective; decide, by unfold Function.Surjective; decide⟩ (by decide) (by decide)
  refine ⟨c, h, ⟨?_, ?_, ?_⟩, by decide⟩
  · funext i j; change Fin 1 at i j; change ∑ l : Fin (2 + 0), (if l = 0 then (1 : ℚ) else 0) * 1 = (1 : Matrix (Fin 1) (Fin 1) ℚ) i j; rw [Subsingleton.elim i j, Matrix.one_apply_eq]; decide +kernel
  · funext i j; exact Fin.elim0 j
  · funext i j; exact j.elim0

/-! ## The update of the residual function -/

/-- `[A; J]` -/
def stack {n : ℕ} (A : Matrix (Fin ny) (Fin n) K) (J : Matrix (Fin nz) (Fin n) K) : Matrix (Fin (ny + nz)) (Fin n) K := fun l i => Fin.addCases (fun l => A l i) (fun l => J l i) l

/-- The arguments `ResidualFunction` passes to `ResidualVector` at the point `u`. -/
def rfArgs (pb : MProblem K nx np ny nz) (M : MasterMatrix K nx np (ny + nz)) (ev : Evals K nx np nz) (u : MVec K nx np (ny + nz)) : ResidualArgs K nx np ny nz :=
  { Wx := M.Wx, Wp := M.Wp, x := u.x, p := u.p, y := fun i => u.w (Fin.castAdd nz i), z := fun j => u.w (Fin.natAdd ny j), g := ev.fx, v := ev.v, b := pb.b, h := ev.h }

/-- What an update of the residual function establishes at the point `u` with evaluations `ev`. -/
structure RFSpec (env : Env K) (pb : MProblem K nx np ny nz) (ev : Evals K nx np nz) (u : MVec K nx np (ny + nz)) (s : RFState K nx np ny nz pb.Ax) : Prop where
  reach : Ech.WReach env.debug env.o env.sort env.thr env.eps pb.Ax pb.Ap s.ech
  /-- the master matrix holds the derivatives -/
  Hxx : s.M.Hxx = ev.fxx
  Hxp : s.M.Hxp = ev.fxp
  Vpx : s.M.Vpx = ev.vx
  Vpp : s.M.Vpp = ev.vp
  /-- `W = [Ax Ap; hx hp]` -/
  Wx : s.M.Wx = stack pb.Ax ev.hx
  Wp : s.M.Wp = stack pb.Ap ev.hp
  /-- the echelon form kept for the next update, whose basic variables are given to the user functions -/
  rwq : s.ech.rwq = some s.M.RWQ
  /-- echelon form of `W` -/
  perm : Function.Bijective (Sum.elim s.M.RWQ.jb s.M.RWQ.jn)
  b : s.M.RWQ.Rb * s.M.Wx.submatrix id s.M.RWQ.jb = 1
  n : s.M.RWQ.Rb * s.M.Wx.submatrix id s.M.RWQ.jn = s.M.RWQ.Sbn
  p : ∀ m : K, (∀ i q, |(s.M.RWQ.Rb * s.M.Wp) i q| ≤ m) → ∀ i q, |s.M.RWQ.Sbp i q - (s.M.RWQ.Rb * s.M.Wp) i q| ≤ env.eps * m * (max s.M.RWQ.nb np : ℕ)
  /-- with an exact rank decision the basic columns span `Wx` -/
  spans : (∀ M, (env.o M).lu.Z = 0) → ∀ l k, s.M.Wx l (s.M.RWQ.jn k) = ∑ b, s.M.Wx l (s.M.RWQ.jb b) * s.M.RWQ.Sbn b k
  /-- with threshold zero a non-basic variable with a non-zero entry in the row of a basic variable weighs at most as much as it -/
  opt : env.thr = 0 → ∀ b k, s.M.RWQ.Sbn b k ≠ 0 → weights pb u.x (s.M.RWQ.jn k) ≤ weights pb u.x (s.M.RWQ.jb b)
  /-- the split of the variables: unstable variables are non-basic variables on a bound held there by their multiplier, and all such if there is a basic variable -/
  split : ValidSplit s.M.js s.M.ju
  mult : s.status.s = fun i => ev.fx i + ∑ l, s.M.Wx l i * u.w l
  unstable : ∀ i, i ∈ s.M.ju → (∀ b, s.M.RWQ.jb b ≠ i) ∧ ((pb.xlower i = some (u.x i) ∧ 0 < s.status.s i) ∨ (pb.xupper i = some (u.x i) ∧ s.status.s i < 0))
  unstable_all : 0 < s.M.RWQ.nb → ∀ i, (∀ b, s.M.RWQ.jb b ≠ i) → ((pb.xlower i = some (u.x i) ∧ 0 < s.status.s i) ∨ (pb.xupper i = some (u.x i) ∧ s.status.s i < 0)) → i ∈ s.M.ju
  /-- and none if there is no basic variable -/
  unstable_none : s.M.RWQ.nb = 0 → s.M.ju = []
  /-- the reported split: as used for the master matrix; unstable variables at the lower and at the upper bound; basic variables that are not held by their constraints -/
  js_eq : s.status.js = s.M.js
  ju_eq : s.status.ju = s.M.ju
  ju_parts : s.status.ju = s.status.jlu ++ s.status.juu
  jlu : ∀ i, i ∈ s.status.jlu → pb.xlower i = some (u.x i) ∧ 0 < s.status.s i
  juu : ∀ i, i ∈ s.status.juu → pb.xupper i = some (u.x i) ∧ s.status.s i < 0
  jms : ∀ i, i ∈ s.status.jms ↔ (0 < s.M.RWQ.nb → ∃ b, s.M.RWQ.jb b = i) ∧ ((pb.xlower i = some (u.x i) ∧ 0 < s.status.s i) ∨ (pb.xupper i = some (u.x i) ∧ s.status.s i < 0))
  /-- canonical form and residuals -/
  canon : CanonSpec s.M s.C
  res : ∃ ax0, s.res = residualUpdate env.eps s.C.mat ax0
    (rfArgs pb s.M ev u)

/-- The update of the residual function (C19-C21, C14 and C27 together): from every reachable state, for every evaluation of the user functions and every point, an update that returns normally
    establishes `RFSpec`; it never runs into the "basic variables are unstable" error of the canonicalizer or a size mismatch; only `assert` can stop it, and only in debug builds. -/
theorem rfUpdate_spec {env : Env K} (hthr : 0 ≤ env.thr) (heps : 0 ≤ env.eps) (pb : MProblem K nx np ny nz) {e : Ech.WState K nx np ny nz pb.Ax}
    (hr : Ech.WReach env.debug env.o env.sort env.thr env.eps pb.Ax pb.Ap e) (hnx : 0 < nx) (ax0 : Fin nx → K) (ev : Evals K nx np nz) (u : MVec K nx np (ny + nz)) :
    (∃ s, rfUpdate env pb e ax0 ev u = .ok s ∧ RFSpec env pb ev u s) ∨ (rfUpdate env pb e ax0 ev u = .assertFail ∧ env.debug = true) := by
  unfold rfUpdate
  rcases hw : Ech.wUpdate env.debug env.o env.sort env.thr env.eps e ev.hx ev.hp (weights pb u.x) with e' | _ | _
  · dsimp only
    obtain ⟨⟨w1, w2, w3, w4⟩, q, hq, hbij, hb, hn, hp⟩ := Ech.echelonW_spec hthr heps hr ev.hx ev.hp _ hw
    rw [hq]
    dsimp only
    split_ifs with hdbg
    · right; exact ⟨rfl, by simp only [Bool.and_eq_true] at hdbg; exact hdbg.1⟩
    · left
      have hnd : (List.ofFn q.jb).Nodup := List.nodup_ofFn.2 fun i j hij => Sum.inl_injective (hbij.1 (by simpa using hij))
      have hmem : ∀ i, i ∈ List.ofFn q.jb ↔ ∃ b, q.jb b = i := fun i => by simp [List.mem_ofFn]
      generalize hst : Stab.update (env.P nx) { Wx := e'.W.submatrix id Sum.inl, g := ev.fx, x := u.x, w := u.w, xlower := pb.xlower, xupper := pb.xupper, jb := List.ofFn q.jb } = t
      have hnone : q.nb = 0 → (Stab.status t.1).ju = [] := by
        intro hnb
        have hnil : List.ofFn q.jb = [] := by rw [← List.length_eq_zero_iff, List.length_ofFn]; exact hnb
        have e1 := Stab.update_no_basics (env.P nx) { Wx := e'.W.submatrix id Sum.inl, g := ev.fx, x := u.x, w := u.w, xlower := pb.xlower, xupper := pb.xupper, jb := List.ofFn q.jb } hnil
        have e2 := Stab.update_split (env.P nx) { Wx := e'.W.submatrix id Sum.inl, g := ev.fx, x := u.x, w := u.w, xlower := pb.xlower, xupper := pb.xupper, jb := List.ofFn q.jb }
        rw [hst] at e1 e2
        rw [e2.2.2, e1.1, e1.2.1]
        rfl
      have hst1 : (Stab.status t.1).s = (fun i => ev.fx i + ∑ l, e'.W l (Sum.inl i) * u.w l) ∧ ValidSplit (Stab.status t.1).js (Stab.status t.1).ju ∧
          (∀ i, i ∈ (Stab.status t.1).ju → (∀ b, q.jb b ≠ i) ∧
            ((pb.xlower i = some (u.x i) ∧ 0 < (Stab.status t.1).s i) ∨ (pb.xupper i = some (u.x i) ∧ (Stab.status t.1).s i < 0))) ∧
          (0 < q.nb → ∀ i, (∀ b, q.jb b ≠ i) → ((pb.xlower i = some (u.x i) ∧ 0 < (Stab.status t.1).s i) ∨ (pb.xupper i = some (u.x i) ∧ (Stab.status t.1).s i < 0)) →
            i ∈ (Stab.status t.1).ju) ∧ (Stab.status t.1).ju = (Stab.status t.1).jlu ++ (Stab.status t.1).juu ∧
          (∀ i, i ∈ (Stab.status t.1).jlu → pb.xlower i = some (u.x i) ∧ 0 < (Stab.status t.1).s i) ∧ (∀ i, i ∈ (Stab.status t.1).juu → pb.xupper i = some (u.x i) ∧ (Stab.status t.1).s i < 0) ∧
          (∀ i, i ∈ (Stab.status t.1).jms ↔ (0 < q.nb → ∃ b, q.jb b = i) ∧ ((pb.xlower i = some (u.x i) ∧ 0 < (Stab.status t.1).s i) ∨ (pb.xupper i = some (u.x i) ∧ (Stab.status t.1).s i < 0))) := by
        have hs : (Stab.status t.1).s = t.1.s := rfl
        by_cases hnb : q.nb = 0
        · have hnil : List.ofFn q.jb = [] := by rw [← List.length_eq_zero_iff, List.length_ofFn]; exact hnb
          have e1 := Stab.update_no_basics (env.P nx) { Wx := e'.W.submatrix id Sum.inl, g := ev.fx, x := u.x, w := u.w, xlower := pb.xlower, xupper := pb.xupper, jb := List.ofFn q.jb } hnil
          have e2 := Stab.update_split (env.P nx) { Wx := e'.W.submatrix id Sum.inl, g := ev.fx, x := u.x, w := u.w, xlower := pb.xlower, xupper := pb.xupper, jb := List.ofFn q.jb }
          rw [hst] at e1 e2
          obtain ⟨e1, e3, -, e7⟩ := e1
          obtain ⟨e4, e5, e6⟩ := e2
          have hju : (Stab.status t.1).ju = [] := by rw [e6, e1, e3]; rfl
          refine ⟨?_, e5, ?_, fun h0 => absurd hnb h0.ne', e6, ?_, ?_, ?_⟩
          · rw [e4]; funext i; simp [mulVec, dotProduct]
          · intro i hi; rw [hju] at hi; cases hi
          · intro i hi; rw [e1] at hi; cases hi
          · intro i hi; rw [e3] at hi; cases hi
          · intro i; rw [e7 i]; simp [hnb]
        · have hne : List.ofFn q.jb ≠ [] := by rw [Ne, ← List.length_eq_zero_iff, List.length_ofFn]; exact hnb
          have e1 := Stab.update_exact_partial (env.P nx) { Wx := e'.W.submatrix id Sum.inl, g := ev.fx, x := u.x, w := u.w, xlower := pb.xlower, xupper := pb.xupper, jb := List.ofFn q.jb } hne
          rw [hst] at e1
          obtain ⟨e1, e2, e3, e4, e5, e6, e7⟩ := e1
          refine ⟨?_, ?_, ?_, ?_, e3, fun i hi => ((e4 i).1 hi).2, fun i hi => ((e5 i).1 hi).2, fun i => ?_⟩
          · rw [e1]; funext i; simp [mulVec, dotProduct]
          · unfold ValidSplit; rw [e3, ← List.append_assoc]; exact e2
          · intro i hi
            rw [e3, List.mem_append, e4, e5] at hi
            simp only [hmem, not_exists] at hi
            rcases hi with hi | hi
            · exact ⟨hi.1, Or.inl hi.2⟩
            · exact ⟨hi.1, Or.inr hi.2⟩
          · intro _ i hi hd
            rw [e3, List.mem_append, e4, e5]
            simp only [hmem, not_exists]
            rcases hd with hd | hd
            · exact Or.inl ⟨hi, hd⟩
            · exact Or.inr ⟨hi, hd⟩
          · rw [e6 i, hmem]; simp [Nat.pos_of_ne_zero hnb]
      obtain ⟨s1, s2, s3, s4, s5, s6, s7, s8⟩ := hst1
      obtain ⟨C, hC, hspec⟩ := canonicalize_spec (masterForm ev e'.W q (Stab.status t.1)) (env.P (masterForm ev e'.W q (Stab.status t.1)).RWQ.nb) (env.P (masterForm ev e'.W q (Stab.status t.1)).RWQ.nn)
        hbij s2.nodup.2.1 (fun k hk => (s3 _ hk).1 k rfl)
      rw [hC]
      refine ⟨_, rfl, ?_⟩
      exact { reach := Ech.WReach.update e e' _ _ _ hr hw, Hxx := rfl, Hxp := rfl, Vpx := rfl, Vpp := rfl,
              Wx := by
                funext l i
                refine Fin.addCases (fun l => ?_) (fun l => ?_) l
                · simp only [stack, Fin.addCases_left]; exact w1 l i
                · simp only [stack, Fin.addCases_right]; exact w3 l i
              Wp := by
                funext l i
                refine Fin.addCases (fun l => ?_) (fun l => ?_) l
                · simp only [stack, Fin.addCases_left]; exact w2 l i
                · simp only [stack, Fin.addCases_right]; exact w4 l i
              rwq := hq, perm := hbij, b := hb, n := hn, p := hp, spans := fun ho => Ech.echelonW_spans ho hthr hr ev.hx ev.hp _ hw q hq,
              opt := fun h0 => Ech.echelonW_localOpt ev.hx ev.hp _ (by rw [h0] at hw; exact hw) q hq, split := s2, mult := s1, unstable := s3, unstable_all := s4, unstable_none := hnone, js_eq := rfl, ju_eq := rfl, ju_parts := s5, jlu := s6, juu := s7, jms := s8, canon := hspec, res := ⟨ax0, rfl⟩ }
  · right
    refine ⟨rfl, ?_⟩
    unfold Ech.wUpdate at hw
    split_ifs at hw with hdbg
    · simp only [Bool.and_eq_true] at hdbg; exact hdbg.1
    · dsimp only at hw
      split at hw <;> cases hw
  · exact absurd hw (Ech.wUpdate_no_mismatch hr ev.hx ev.hp _ (Or.inl hnx))

/-- In release builds an update always returns normally. -/
theorem rfUpdate_release {env : Env K} (hthr : 0 ≤ env.thr) (heps : 0 ≤ env.eps) (hd : env.debug = false) (pb : MProblem K nx np ny nz) {e : Ech.WState K nx np ny nz pb.Ax}
    (hr : Ech.WReach env.debug env.o env.sort env.thr env.eps pb.Ax pb.Ap e) (hnx : 0 < nx) (ax0 : Fin nx → K) (ev : Evals K nx np nz) (u : MVec K nx np (ny + nz)) :
    ∃ s, rfUpdate env pb e ax0 ev u = .ok s ∧ RFSpec env pb ev u s := by
  rcases rfUpdate_spec hthr heps pb hr hnx ax0 ev u with h | ⟨-, h⟩
  · exact h
  · rw [hd] at h; cases h

/-- The error reported after an update of the residual function (C27 and C28 end to end): if it is at most `t`, then every stable variable that is not a basic variable on a bound has a gradient
    of the Lagrangian of at most `t`, every `v` is at most `t`. -/
theorem rfUpdate_small_error {env : Env K} {pb : MProblem K nx np ny nz} {ev : Evals K nx np nz} {u : MVec K nx np (ny + nz)} {s : RFState K nx np ny nz pb.Ax} (hs : RFSpec env pb ev u s)
    (ew0 : Fin (ny + nz) → K) (t : K) (he : (residualErrors s.C.mat pb.xlower pb.xupper u.x s.res ew0).error ≤ t) :
    (∀ i, i ∉ s.M.ju → ¬ ((∃ b, s.M.RWQ.jb b = i) ∧ OnBound pb.xlower pb.xupper u.x i) →
      |ev.fx i + ∑ l, pb.Ax l i * u.w (Fin.castAdd nz l) + ∑ l, ev.hx l i * u.w (Fin.natAdd ny l)| ≤ t) ∧ ∀ q, |ev.v q| ≤ t := by
  obtain ⟨ax0, hres⟩ := hs.res
  rw [hres] at he
  obtain ⟨h1, h2, -⟩ := small_error hs.canon hs.b env.eps pb.xlower pb.xupper ax0 ew0 _ t he
  refine ⟨fun i hi hb => ?_, h2⟩
  have := h1 i hi hb
  unfold lagGrad rfArgs at this
  simpa only [hs.Wx, stack, Fin.addCases_left, Fin.addCases_right] using this

/-- C28 end to end, feasibility: with full row rank an error of at most `t` bounds the violation of every linear and non-linear equality constraint; the round-off terms vanish for `eps = 0`.  `m` bounds
    the entries of `Rb*Wp`, `m'` the sums `Σ_l |Rb b l|*|r l|` for the vector `r` the code multiplies with `Rb`. -/
theorem rfUpdate_small_error_feasible {env : Env K} (heps : 0 ≤ env.eps) {pb : MProblem K nx np ny nz} {ev : Evals K nx np nz} {u : MVec K nx np (ny + nz)} {s : RFState K nx np ny nz pb.Ax}
    (hs : RFSpec env pb ev u s) (hfull : s.M.RWQ.nb = ny + nz) (ew0 : Fin (ny + nz) → K) (t m m' : K) (hm : ∀ i q, |(s.M.RWQ.Rb * s.M.Wp) i q| ≤ m)
    (hm' : ∀ b, ∑ l, |s.M.RWQ.Rb b l| * |starRes s.M.ju (rfArgs pb s.M ev u) l| ≤ m') (he : (residualErrors s.C.mat pb.xlower pb.xupper u.x s.res ew0).error ≤ t) :
    (∀ l, |pb.b l - ∑ j, pb.Ax l j * u.x j - ∑ q, pb.Ap l q * u.p q| ≤
      (∑ b, |pb.Ax l (s.M.RWQ.jb b)|) * (t + (m' * env.eps + env.eps * m * (max s.M.RWQ.nb np : ℕ) * ∑ q, |u.p q|))) ∧
    ∀ l, |ev.h l| ≤ (∑ b, |ev.hx l (s.M.RWQ.jb b)|) * (t + (m' * env.eps + env.eps * m * (max s.M.RWQ.nb np : ℕ) * ∑ q, |u.p q|)) := by
  obtain ⟨ax0, hres⟩ := hs.res
  rw [hres] at he
  obtain ⟨σ, τ, hσ, hτ, jb, jn, S, Sp, R⟩ := hs.canon.ech
  have hδ := fun b => (residual_canonical env.eps heps hs.canon hs.b hs.n ax0 (rfArgs pb s.M ev u) rfl rfl b).trans (add_le_add (mul_le_mul_of_nonneg_right (by simp only [R]; exact hm' (σ b)) heps)
      (show _ ≤ env.eps * m * (max s.M.RWQ.nb np : ℕ) * ∑ q, |u.p q| by
        rw [Finset.mul_sum]
        refine Finset.sum_le_sum fun q _ => mul_le_mul_of_nonneg_right ?_ (abs_nonneg _)
        simp only [R, Sp]
        exact hs.p m hm (σ b) q))
  have key := small_error_feasible hs.canon hs.b hfull env.eps pb.xlower pb.xupper ax0 ew0 _ t _ hδ he
  constructor
  · intro l
    have := key (Fin.castAdd nz l)
    simpa only [feasRes, rfArgs, hs.Wx, hs.Wp, stack, Fin.addCases_left] using this
  · intro l
    have := key (Fin.natAdd ny l)
    simpa only [feasRes, rfArgs, hs.Wx, hs.Wp, stack, Fin.addCases_right, abs_neg] using this

/-- With no basic variables (no constraints, or constraint matrices of rank zero), every update fails an assertion in debug builds. -/
theorem rfUpdate_assert_no_basics {env : Env K} (hd : env.debug = true) (pb : MProblem K nx np ny nz) {e e' : Ech.WState K nx np ny nz pb.Ax} (hnx : 0 < nx) (ax0 : Fin nx → K) (ev : Evals K nx np nz)
    (u : MVec K nx np (ny + nz)) (hw : Ech.wUpdate env.debug env.o env.sort env.thr env.eps e ev.hx ev.hp (weights pb u.x) = .ok e') {q} (hq : e'.rwq = some q) (h0 : q.nb = 0) :
    rfUpdate env pb e ax0 ev u = .assertFail := by
  unfold rfUpdate
  rw [hw]
  dsimp only
  rw [hq]
  dsimp only
  rw [if_pos]
  have hnil : List.ofFn q.jb = [] := by rw [← List.length_eq_zero_iff, List.length_ofFn]; exact h0
  rw [hd, hnil]
  simp only [Bool.true_and, Bool.not_eq_true']
  simp [Stab.update, Idx.moveIntersectionLeft, hnx.ne']

/-- Non-vacuity of the theorems about the update: every problem (here of rank two at most), evaluation and point in the state after `initialize`. -/
example (pb : MProblem ℚ 3 1 2 1) (ev : Evals ℚ 3 1 1) (u : MVec ℚ 3 1 (2 + 1)) : ∃ (env : Env ℚ) (e : Ech.WState ℚ 3 1 2 1 pb.Ax) (s : RFState ℚ 3 1 2 1 pb.Ax),
    Ech.WReach env.debug env.o env.sort env.thr env.eps pb.Ax pb.Ap e ∧ rfUpdate env pb e 0 ev u = .ok s ∧ RFSpec env pb ev u s := by
  obtain ⟨o, _⟩ := Ech.exists_exact_oracle (K := ℚ)
  let env : Env ℚ := { o := o, sort := Ech.sortImpl, P := fun _ => Idx.stableImpl, thr := 0, eps := 1/1000, debug := false }
  have hr : Ech.WReach env.debug env.o env.sort env.thr env.eps pb.Ax pb.Ap (Ech.wInit o 0 pb.Ax pb.Ap : Ech.WState ℚ 3 1 2 1 pb.Ax) := Ech.WReach.init 0
  obtain ⟨s, hs, hspec⟩ := rfUpdate_release le_rfl (by norm_num [env]) rfl pb hr (by norm_num) 0 ev u
  exact ⟨env, _, s, hr, hs, hspec⟩

end

end Optima
