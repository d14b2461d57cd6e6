import Verif.Model.EchelonW
import Verif.Props.EchelonExt
import Verif.Props.Utils

/-!
# C19: `EchelonizerW`
-/

set_option linter.unusedSectionVars false

namespace Optima.Ech

open Matrix

variable {K : Type*} [Field K] [LinearOrder K] [IsStrictOrderedRing K] {nx np ny nz : ℕ}

theorem wReach_ext {debug : Bool} {o : LUOracle K} {sort : SortImpl K} {thr eps : K} {Ax : Matrix (Fin ny) (Fin nx) K} {Ap : Matrix (Fin ny) (Fin np) K}
    {s : WState K nx np ny nz Ax} (h : WReach debug o sort thr eps Ax Ap s) :
    ExtReach o sort thr Ax s.ext ∧ (∀ i c, s.W (Fin.castAdd nz i) c = Sum.elim (Ax i) (Ap i) c) := by
  induction h with
  | init mem => exact ⟨ExtReach.init, fun i c => by simp [wInit]⟩
  | update s s' Jx Jp w hs hu ih =>
    unfold wUpdate at hu
    split_ifs at hu
    dsimp only at hu
    split at hu
    · cases hu
      exact ⟨ExtReach.step _ (.update nz Jx w) ih.1 trivial, fun i c => by simpa [setJ] using ih.2 i c⟩
    · cases hu

theorem cleanMat_close (eps : K) (heps : 0 ≤ eps) {m n : ℕ} (A : Matrix (Fin m) (Fin n) K) (M : K) (hM : ∀ i j, |A i j| ≤ M) (i : Fin m) (j : Fin n) :
    |Utils.cleanMat eps A i j - A i j| ≤ eps * M * (max m n : ℕ) := by
  classical
  obtain ⟨⟨i0, j0⟩, _, hmax⟩ := Finset.exists_max_image (Finset.univ : Finset (Fin m × Fin n)) (fun p => |A p.1 p.2|) ⟨(i, j), Finset.mem_univ _⟩
  have h := (Utils.cleanMat_spec eps A (|A i0 j0|) (fun i j => hmax (i, j) (Finset.mem_univ _)) ⟨i0, j0, rfl⟩).2.2.1 heps i j
  refine h.trans ?_
  have := hM i0 j0
  gcongr

theorem matrix_of_update {M : Mat K} {Ax : Matrix (Fin ny) (Fin nx) K} {Jx : Matrix (Fin nz) (Fin nx) K} {Ap : Matrix (Fin ny) (Fin np) K} {Jp : Matrix (Fin nz) (Fin np) K}
    {Wm : Matrix (Fin (ny + nz)) (Fin nx ⊕ Fin np) K} (h0 : (nz = 0 ∨ nx = 0) → M = ⟨ny, nx, Ax⟩)
    (h1 : ¬ (nz = 0 ∨ nx = 0) → ∃ W : Matrix (Fin (ny + nz)) (Fin nx) K, M = ⟨ny + nz, nx, W⟩ ∧ (∀ r c, W (Fin.castAdd nz r) c = Ax r c) ∧ (∀ r c, W (Fin.natAdd ny r) c = Jx r c))
    (hW : ∀ i c, Wm (Fin.castAdd nz i) c = Sum.elim (Ax i) (Ap i) c) (hJ : ∀ j c, Wm (Fin.natAdd ny j) c = Sum.elim (Jx j) (Jp j) c)
    (hn : M.2.1 = nx) (hr : M.1 = ny + nz) (r : Fin M.1) (c : Fin M.2.1) : M.2.2 r c = Wm (Fin.cast hr r) (Sum.inl (Fin.cast hn c)) := by
  by_cases hz : nz = 0 ∨ nx = 0
  · have e := h0 hz
    subst e
    have hz : Fin.cast hr r = Fin.castAdd nz r := by ext; simp
    rw [hz, hW]; rfl
  · obtain ⟨W, e, a, b⟩ := h1 hz
    subst e
    refine Fin.addCases (fun i => ?_) (fun j => ?_) r
    · exact (a i c).trans (hW i (Sum.inl c)).symm
    · exact (b j c).trans (hJ j (Sum.inl c)).symm

theorem assemble_spec {eps : K} (heps : 0 ≤ eps) {M : Mat K} (form : Form M) (hgood : Core M.2.2 form.R form.S form.Q) (hn : M.2.1 = nx)
    (Wm : Matrix (Fin (ny + nz)) (Fin nx ⊕ Fin np) K) (hmat : ∀ (hr : M.1 = ny + nz) r c, M.2.2 r c = Wm (Fin.cast hr r) (Sum.inl (Fin.cast hn c)))
    (q : RWQ K nx np (ny + nz)) (hq : assembleRWQ eps form hn (Wm.submatrix id Sum.inr) = some q) :
    Function.Bijective (Sum.elim q.jb q.jn) ∧
      q.Rb * (Wm.submatrix id Sum.inl).submatrix id q.jb = 1 ∧
      q.Rb * (Wm.submatrix id Sum.inl).submatrix id q.jn = q.Sbn ∧
      ∀ M : K, (∀ i p, |(q.Rb * Wm.submatrix id Sum.inr) i p| ≤ M) →
        ∀ i p, |q.Sbp i p - (q.Rb * Wm.submatrix id Sum.inr) i p| ≤ eps * M * (max q.nb np : ℕ) := by
  unfold assembleRWQ at hq
  split_ifs at hq with hrows
  cases hq
  obtain ⟨mM, nM, M⟩ := M
  dsimp only at hn hrows hmat hgood form ⊢
  subst hn
  subst hrows
  have hmat' : Wm.submatrix id Sum.inl = M := by
    ext r c; exact (hmat rfl r c).symm
  rw [hmat']
  refine ⟨?_, ?_, ?_, ?_⟩
  · have := hgood.qbij
    have e : Sum.elim (fun i => form.Q (Sum.inl i)) (fun k => form.Q (Sum.inr k)) = form.Q := Sum.elim_comp_inl_inr form.Q
    rw [← e] at this
    exact this
  · ext i j
    have := hgood.topB i j
    simpa [mul_apply, one_apply] using this
  · ext i k
    have := hgood.topN i k
    simpa [mul_apply] using this
  · intro B hB i p
    exact cleanMat_close eps heps _ B hB i p

/-- **C19**: for every `Ax`, `Ap`, any rank, any contents of the uninitialised memory and every sequence of Jacobians and weights, after an update with `Jx`, `Jp`:
    `W() = [Ax Ap; Jx Jp]`; `(jb, jn)` is a permutation of the variables; `Rb*W = [I Sbn Rb*Wp]`, and `Sbp` is `Rb*Wp` up to the round-off filter
    (entries at most `eps*max(nb,np)` times the largest one are set to zero; the others are exact). -/
theorem echelonW_spec {debug : Bool} {o : LUOracle K} {sort : SortImpl K} {thr eps : K} (hthr : 0 ≤ thr) (heps : 0 ≤ eps)
    {Ax : Matrix (Fin ny) (Fin nx) K} {Ap : Matrix (Fin ny) (Fin np) K}
    {s s' : WState K nx np ny nz Ax} (h : WReach debug o sort thr eps Ax Ap s) (Jx : Matrix (Fin nz) (Fin nx) K) (Jp : Matrix (Fin nz) (Fin np) K) (w : Fin nx → K)
    (hu : wUpdate debug o sort thr eps s Jx Jp w = .ok s') :
    ((∀ i c, s'.W (Fin.castAdd nz i) (Sum.inl c) = Ax i c) ∧ (∀ i c, s'.W (Fin.castAdd nz i) (Sum.inr c) = Ap i c) ∧
     (∀ j c, s'.W (Fin.natAdd ny j) (Sum.inl c) = Jx j c) ∧ (∀ j c, s'.W (Fin.natAdd ny j) (Sum.inr c) = Jp j c)) ∧
    ∃ q, s'.rwq = some q ∧ Function.Bijective (Sum.elim q.jb q.jn) ∧
      q.Rb * (s'.W.submatrix id Sum.inl).submatrix id q.jb = 1 ∧
      q.Rb * (s'.W.submatrix id Sum.inl).submatrix id q.jn = q.Sbn ∧
      ∀ M : K, (∀ i p, |(q.Rb * s'.W.submatrix id Sum.inr) i p| ≤ M) →
        ∀ i p, |q.Sbp i p - (q.Rb * s'.W.submatrix id Sum.inr) i p| ≤ eps * M * (max q.nb np : ℕ) := by
  obtain ⟨hext, hW⟩ := wReach_ext h
  have hW' : ∀ i c, (setJ s.W Jx Jp) (Fin.castAdd nz i) c = Sum.elim (Ax i) (Ap i) c := fun i c => by simpa [setJ] using hW i c
  have hJ' : ∀ j c, (setJ s.W Jx Jp) (Fin.natAdd ny j) c = Sum.elim (Jx j) (Jp j) c := fun j c => by simp [setJ]
  have hgood : Core _ _ _ _ := (extUpdate_inv o sort hthr (extReach_inv hthr hext) Jx w).w
  unfold wUpdate at hu
  split_ifs at hu with hdbg
  dsimp only at hu
  split at hu
  swap
  · cases hu
  rename_i q hq
  cases hu
  dsimp only
  refine ⟨⟨fun i c => hW' i _, fun i c => hW' i _, fun j c => hJ' j _, fun j c => hJ' j _⟩, q, rfl, ?_⟩
  refine assemble_spec heps _ hgood _ _ ?_ _ hq
  intro hrows r c
  have hm := extended_matrix o sort thr s.ext Jx w
  exact matrix_of_update (fun hJ => hm.1 hJ) (fun hJ => hm.2 hJ) hW' hJ' _ hrows r c

/-- **C19**, same solutions: with an exact rank decision the non-basic columns of `Wx` are the combinations of the basic columns given by `Sbn` (dependent rows included). -/
theorem echelonW_spans {debug : Bool} {o : LUOracle K} (ho : ∀ M, (o M).lu.Z = 0) {sort : SortImpl K} {thr eps : K} (hthr : 0 ≤ thr)
    {Ax : Matrix (Fin ny) (Fin nx) K} {Ap : Matrix (Fin ny) (Fin np) K}
    {s s' : WState K nx np ny nz Ax} (h : WReach debug o sort thr eps Ax Ap s) (Jx : Matrix (Fin nz) (Fin nx) K) (Jp : Matrix (Fin nz) (Fin np) K) (w : Fin nx → K)
    (hu : wUpdate debug o sort thr eps s Jx Jp w = .ok s') (q) (hq : s'.rwq = some q) (l k) :
    s'.W l (Sum.inl (q.jn k)) = ∑ b, s'.W l (Sum.inl (q.jb b)) * q.Sbn b k := by
  obtain ⟨hext, hW⟩ := wReach_ext h
  have hW' : ∀ i c, (setJ s.W Jx Jp) (Fin.castAdd nz i) c = Sum.elim (Ax i) (Ap i) c := fun i c => by simpa [setJ] using hW i c
  have hJ' : ∀ j c, (setJ s.W Jx Jp) (Fin.natAdd ny j) c = Sum.elim (Jx j) (Jp j) c := fun j c => by simp [setJ]
  have hspan := extended_same_kernel ho hthr (ExtReach.step _ (.update nz Jx w) hext trivial)
  change ∀ (k : Fin (extUpdate o sort thr s.ext Jx w).form.nn) (r : Fin (extUpdate o sort thr s.ext Jx w).W.1), _ at hspan
  have hm := extended_matrix o sort thr s.ext Jx w
  unfold wUpdate at hu
  split_ifs at hu
  dsimp only at hu
  split at hu
  swap
  · cases hu
  rename_i q' hq'
  cases hu
  cases hq
  dsimp only
  have hmat : ∀ (hrows : (extUpdate o sort thr s.ext Jx w).W.1 = ny + nz) r c, (extUpdate o sort thr s.ext Jx w).W.2.2 r c =
      (setJ s.W Jx Jp) (Fin.cast hrows r) (Sum.inl (Fin.cast (extStep_cols o sort thr s.ext Jx w) c)) := fun hrows r c =>
    matrix_of_update (Jx := Jx) (fun hJ => hm.1 hJ) (fun hJ => hm.2 hJ) hW' hJ' (extStep_cols o sort thr s.ext Jx w) hrows r c
  unfold assembleRWQ at hq'
  split_ifs at hq' with hrows
  cases hq'
  have e := hspan k (Fin.cast hrows.symm l)
  change (extUpdate o sort thr s.ext Jx w).W.2.2 _ _ = ∑ i, (extUpdate o sort thr s.ext Jx w).W.2.2 _ _ * _ at e
  exact (hmat hrows _ _).symm.trans (e.trans (Finset.sum_congr rfl fun i _ => congrArg (· * _) (hmat hrows _ _)))

/-- **C19**, weights: with threshold zero a non-basic variable with a non-zero entry in the row of a basic variable weighs at most as much as it. -/
theorem echelonW_localOpt {debug : Bool} {o : LUOracle K} {sort : SortImpl K} {eps : K} {Ax : Matrix (Fin ny) (Fin nx) K} {s s' : WState K nx np ny nz Ax} (Jx : Matrix (Fin nz) (Fin nx) K) (Jp : Matrix (Fin nz) (Fin np) K)
    (w : Fin nx → K) (hu : wUpdate debug o sort 0 eps s Jx Jp w = .ok s') (q) (hq : s'.rwq = some q) (b k) (h : q.Sbn b k ≠ 0) : w (q.jn k) ≤ w (q.jb b) := by
  unfold wUpdate at hu
  split_ifs at hu
  dsimp only at hu
  split at hu
  swap
  · cases hu
  rename_i q' hq'
  cases hu
  cases hq
  unfold assembleRWQ at hq'
  split_ifs at hq' with hrows
  cases hq'
  exact extUpdate_localOpt o sort s.ext Jx w (extStep_cols o sort 0 s.ext Jx w) b k h

/-- **C19**: an update of a reachable state returns normally if there is at least one primal variable, or no non-linear constraint and a linear one, and either `assert` is disabled or there is at least one
    linear constraint. -/
theorem echelonW_ok {debug : Bool} {o : LUOracle K} {sort : SortImpl K} {thr eps : K}
    {Ax : Matrix (Fin ny) (Fin nx) K} {Ap : Matrix (Fin ny) (Fin np) K}
    {s : WState K nx np ny nz Ax} (h : WReach debug o sort thr eps Ax Ap s) (Jx : Matrix (Fin nz) (Fin nx) K) (Jp : Matrix (Fin nz) (Fin np) K) (w : Fin nx → K)
    (hx : 0 < nx ∨ nz = 0 ∧ 0 < ny) (hy : debug = false ∨ 0 < ny) : ∃ s', wUpdate debug o sort thr eps s Jx Jp w = .ok s' := by
  have hrows : (extUpdate o sort thr s.ext Jx w).W.1 = ny + nz := by
    have hm := extended_matrix o sort thr s.ext Jx w
    by_cases hJ : nz = 0 ∨ nx = 0
    · rw [hm.1 hJ]
      show ny = ny + nz
      omega
    · obtain ⟨W, e, _⟩ := hm.2 hJ
      rw [e]
  have hpos : debug = false ∨ s.ext.W.1 ≠ 0 := by
    rcases hy with hd | hy
    · exact Or.inl hd
    · right
      have : ∀ {t : WState K nx np ny nz Ax}, WReach debug o sort thr eps Ax Ap t → ny ≤ t.ext.W.1 := by
        intro t ht
        induction ht with
        | init => exact le_refl ny
        | update a b Jx Jp w ha hu ih =>
          unfold wUpdate at hu
          split_ifs at hu
          dsimp only at hu
          split at hu
          · cases hu
            have hm := extended_matrix o sort thr a.ext Jx w
            by_cases hJ : nz = 0 ∨ nx = 0
            · show ny ≤ (extUpdate o sort thr a.ext Jx w).W.1
              rw [hm.1 hJ]
            · obtain ⟨W, e, _⟩ := hm.2 hJ
              show ny ≤ (extUpdate o sort thr a.ext Jx w).W.1
              rw [e]; exact Nat.le_add_right ny nz
          · cases hu
      have := this h
      omega
  have hc : (debug && s.ext.W.1 == 0) = false := by
    rcases hpos with hd | hp
    · simp [hd]
    · simp [hp]
  unfold wUpdate
  rw [hc, if_neg (show ¬ (nx = 0 ∧ ny = 0) by omega)]
  simp only [Bool.false_eq_true, if_false, assembleRWQ, hrows, dif_pos]
  exact ⟨_, rfl⟩

/-- An update of a reachable state never mixes up sizes. -/
theorem wUpdate_no_mismatch {debug : Bool} {o : LUOracle K} {sort : SortImpl K} {thr eps : K}
    {Ax : Matrix (Fin ny) (Fin nx) K} {Ap : Matrix (Fin ny) (Fin np) K}
    {s : WState K nx np ny nz Ax} (_h : WReach debug o sort thr eps Ax Ap s) (Jx : Matrix (Fin nz) (Fin nx) K) (Jp : Matrix (Fin nz) (Fin np) K) (w : Fin nx → K)
    (hx : 0 < nx ∨ nz = 0 ∧ 0 < ny) : wUpdate debug o sort thr eps s Jx Jp w ≠ .sizeMismatch := by
  have hrows : (extUpdate o sort thr s.ext Jx w).W.1 = ny + nz := by
    have hm := extended_matrix o sort thr s.ext Jx w
    by_cases hJ : nz = 0 ∨ nx = 0
    · rw [hm.1 hJ]
      show ny = ny + nz
      omega
    · obtain ⟨W, e, _⟩ := hm.2 hJ
      rw [e]
  unfold wUpdate
  split_ifs with h1 h2
  · simp
  · omega
  · simp only [assembleRWQ, hrows, dif_pos]
    simp

/-- **C19, negation** of "any dimensions" in debug builds: without linear constraints (`ny = 0`) the first update fails an assertion although there are non-linear constraints to echelonise. -/
theorem echelonW_assert_without_linear_constraints (o : LUOracle K) (sort : SortImpl K) (thr eps : K) (Ax : Matrix (Fin 0) (Fin nx) K) (Ap : Matrix (Fin 0) (Fin np) K)
    (mem : Matrix (Fin (0 + nz)) (Fin nx ⊕ Fin np) K) (Jx : Matrix (Fin nz) (Fin nx) K) (Jp : Matrix (Fin nz) (Fin np) K) (w : Fin nx → K) :
    wUpdate true o sort thr eps (wInit o mem Ax Ap) Jx Jp w = .assertFail := by
  simp [wUpdate, wInit, extInit]

/-- Non-vacuity: a reachable state, an update with non-zero Jacobians, and its successful result. -/
example (Ax : Matrix (Fin 2) (Fin 3) ℚ) (Ap : Matrix (Fin 2) (Fin 1) ℚ) (Jx : Matrix (Fin 1) (Fin 3) ℚ) (Jp : Matrix (Fin 1) (Fin 1) ℚ) (w : Fin 3 → ℚ) :
    ∃ (o : LUOracle ℚ) (s s' : WState ℚ 3 1 2 1 Ax), WReach true o sortImpl 0 (1/1000) Ax Ap s ∧ wUpdate true o sortImpl 0 (1/1000) s Jx Jp w = .ok s' := by
  obtain ⟨o, _⟩ := exists_exact_oracle (K := ℚ)
  have hr : WReach true o sortImpl 0 (1/1000) Ax Ap (wInit o 0 Ax Ap : WState ℚ 3 1 2 1 Ax) := WReach.init 0
  obtain ⟨s', hs'⟩ := echelonW_ok hr Jx Jp w (Or.inl (by norm_num)) (Or.inr (by norm_num))
  exact ⟨o, _, s', hr, hs'⟩

end Optima.Ech
