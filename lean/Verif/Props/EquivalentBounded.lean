import Verif.Props.Equivalent

/-!
# C71 with bounds, where the basic variables are determined

With bounds the basic variables decide which variables are held on their bounds and how the violation of the constraints is measured. Where the weights of the variables determine the basic variables, and the initial multipliers have the same effect, equivalent
formulations give the same iterates.
-/

set_option linter.unusedSectionVars false

namespace Optima

open Matrix

variable {K : Type*} [Field K] [LinearOrder K] [IsStrictOrderedRing K] {nx nx' np ny nz ny' nz' : ℕ} {τ τ' : Type*}

/-- `B` is a basis of the columns of `W` in which no variable can be replaced by one with a larger weight. -/
structure Preferred {m n : ℕ} (W : Matrix (Fin m) (Fin n) K) (wt : Fin n → K) (B : Fin n → Prop) : Prop where
  indep : ∀ c : Fin n → K, (∀ j, ¬ B j → c j = 0) → (∀ l, ∑ j, W l j * c j = 0) → c = 0
  exch : ∀ j, ¬ B j → ∃ c : Fin n → K, (∀ i, ¬ B i → c i = 0) ∧ (∀ l, W l j = ∑ i, W l i * c i) ∧ ∀ i, c i ≠ 0 → wt j ≤ wt i

/-- The weights at `x` leave only one choice of basic variables. -/
def Smooth.OneBasis (F : Smooth K nx np nz) (pb : MProblem K nx np ny nz) (x : Fin nx → K) : Prop :=
  ∀ B B' : Fin nx → Prop, Preferred (stack pb.Ax F.hx) (weights pb x) B → Preferred (stack pb.Ax F.hx) (weights pb x) B' → ∀ i, B i ↔ B' i

/-- The gradient of the Lagrangian. -/
def Smooth.lag (F : Smooth K nx np nz) (pb : MProblem K nx np ny nz) (u : MVec K nx np (ny + nz)) (i : Fin nx) : K := F.g u.x u.p i + ∑ l, stack pb.Ax F.hx l i * u.w l

/-- The variables held on their bounds when `B` are the basic variables. -/
def Smooth.Held (F : Smooth K nx np nz) (pb : MProblem K nx np ny nz) (B : Fin nx → Prop) (u : MVec K nx np (ny + nz)) (i : Fin nx) : Prop :=
  (∃ j, B j) ∧ ¬ B i ∧ ((pb.xlower i = some (u.x i) ∧ 0 < F.lag pb u i) ∨ (pb.xupper i = some (u.x i) ∧ F.lag pb u i < 0))

/-- The linearised conditions determine `x` and `p` when the variables in `U` are held. -/
def Smooth.NonsingularOn (F : Smooth K nx np nz) (pb : MProblem K nx np ny nz) (U : Fin nx → Prop) (x : Fin nx → K) (p : Fin np → K) : Prop :=
  ∀ (dx : Fin nx → K) (dp : Fin np → K) (w : Fin (ny + nz) → K), (∀ i, U i → dx i = 0) → (∀ i, ¬ U i → ∑ j, F.H x p i j * dx j + ∑ q, F.Hp x p i q * dp q + ∑ l, stack pb.Ax F.hx l i * w l = 0) →
    (∀ r, ∑ j, F.vx x p r j * dx j + ∑ q, F.vp x p r q * dp q = 0) → (∀ l, ∑ j, stack pb.Ax F.hx l j * dx j + ∑ q, stack pb.Ap F.hp l q * dp q = 0) → dx = 0 ∧ dp = 0

/-- Newton's equations with the variables in `U` held. -/
structure Smooth.NewtonOn (F : Smooth K nx np nz) (pb : MProblem K nx np ny nz) (U : Fin nx → Prop) (x : Fin nx → K) (p : Fin np → K) (x1 : Fin nx → K) (p1 : Fin np → K) (w1 : Fin (ny + nz) → K) : Prop where
  held : ∀ i, U i → x1 i = x i
  grad : ∀ i, ¬ U i → ∑ j, F.H x p i j * (x1 j - x j) + ∑ q, F.Hp x p i q * (p1 q - p q) + F.g x p i + ∑ l, stack pb.Ax F.hx l i * w1 l = 0
  par : ∀ r, ∑ j, F.vx x p r j * (x1 j - x j) + ∑ q, F.vp x p r q * (p1 q - p q) + F.v x p r = 0
  con : ∀ l, ∑ j, stack pb.Ax F.hx l j * x1 j + ∑ q, stack pb.Ap F.hp l q * p1 q = F.rhs pb l

/-- The violation of the constraints. -/
def Smooth.defect (F : Smooth K nx np nz) (pb : MProblem K nx np ny nz) (u : MVec K nx np (ny + nz)) (l : Fin (ny + nz)) : K :=
  F.rhs pb l - (∑ j, stack pb.Ax F.hx l j * u.x j + ∑ q, stack pb.Ap F.hp l q * u.p q)

/-- What is assumed of each of the two solves: exact arithmetic, release build, the functions `F`, independent constraints. -/
structure BoundedSolve (F : Smooth K nx np nz) (cfg : Config K nx np ny nz τ) : Prop where
  bounds : ConsistentBounds cfg.pb.bounds
  thr : cfg.env.thr = 0
  eps : cfg.env.eps = 0
  debug : cfg.env.debug = false
  oracle : ∀ M, (cfg.env.o M).lu.Z = 0
  nx_pos : 0 < nx
  phi : cfg.phi = none
  lu : LUInners cfg
  method : cfg.method ≠ .rangespace
  user : ∀ t x p q, ∃ t' ev, cfg.user t x p q = some (t', ev) ∧ F.Returns x p ev
  rows : ∀ y : Fin (ny + nz) → K, (∀ i, ∑ l, stack cfg.pb.Ax F.hx l i * y l = 0) → y = 0

/-- The bounds of the two problems are the same. -/
structure SameBounds (pb : MProblem K nx np ny nz) (pb' : MProblem K nx' np ny' nz') (e : Fin nx ≃ Fin nx') : Prop where
  xlower : ∀ i, pb'.xlower (e i) = pb.xlower i
  xupper : ∀ i, pb'.xupper (e i) = pb.xupper i
  plower : pb'.plower = pb.plower
  pupper : pb'.pupper = pb.pupper

/-! ### One solve -/

section one
variable {F : Smooth K nx np nz} {cfg : Config K nx np ny nz τ}

/-- What an evaluation at `u` determines, with `B` the basic variables. -/
structure PointSpec (F : Smooth K nx np nz) (cfg : Config K nx np ny nz τ) (s : Parts K nx np ny nz τ cfg.pb.Ax) (u : MVec K nx np (ny + nz)) (B : Fin nx → Prop) : Prop where
  basis : Preferred (stack cfg.pb.Ax F.hx) (weights cfg.pb u.x) B
  error : ∀ t, 0 ≤ t → (s.errors.error ≤ t ↔ (∀ i, ¬ F.Held cfg.pb B u i → ¬ (B i ∧ OnBound cfg.pb.xlower cfg.pb.xupper u.x i) → |F.lag cfg.pb u i| ≤ t) ∧ (∀ q, |F.v u.x u.p q| ≤ t) ∧
    ∃ ρ : Fin nx → K, (∀ j, ¬ B j → ρ j = 0) ∧ (∀ l, ∑ j, stack cfg.pb.Ax F.hx l j * ρ j = F.defect cfg.pb u l) ∧ ∀ j, |ρ j| ≤ t)
  newton : F.NonsingularOn cfg.pb (F.Held cfg.pb B u) u.x u.p → ∀ sm un, cfg.newton s u = some (sm, un) → F.NewtonOn cfg.pb (F.Held cfg.pb B u) u.x u.p un.x un.p un.w

theorem BoundedSolve.specAt (X : BoundedSolve F cfg) {s u} (hs : EvaluatedAt cfg s u) : ∃ rf, s.rf = some rf ∧ PointSpec F cfg s u (fun i => ∃ b, rf.M.RWQ.jb b = i) := by
  obtain ⟨ev, rf, ew0, hrf, h, herr, t0, t1, q0, hu⟩ := hs
  have hev : F.Returns u.x u.p ev := by
    obtain ⟨t', ev', e, hr⟩ := X.user t0 u.x u.p q0
    rw [hu] at e; cases e; exact hr
  have hWx : rf.M.Wx = stack cfg.pb.Ax F.hx := by rw [h.Wx, hev.hx]
  have hWp : rf.M.Wp = stack cfg.pb.Ap F.hp := by rw [h.Wp, hev.hp]
  have hE := rf_echelon X.eps h
  have hnb : rf.M.RWQ.nb = ny + nz := rf_full_rank X.oracle h (by rw [hWx]; exact X.rows)
  obtain ⟨hR, hC⟩ := full_row_rank hE hnb
  have hone : rf.M.Wx.submatrix id rf.M.RWQ.jb * rf.M.RWQ.Rb = 1 := (Matrix.mul_eq_one_comm_of_equiv (finCongr hnb)).1 hE.b
  have hinj : Function.Injective rf.M.RWQ.jb := fun a b hab => by
    have := h.perm.1 (a₁ := .inl a) (a₂ := .inl b) hab
    simpa using this
  have hlag : ∀ i, lagGrad (rfArgs cfg.pb rf.M ev u) i = F.lag cfg.pb u i := by
    intro i
    unfold lagGrad Smooth.lag
    rw [Fin.sum_univ_add, ← add_assoc]
    simp only [rfArgs, hWx, hev.fx]
  have hdef : ∀ l, feasRes (rfArgs cfg.pb rf.M ev u) l = F.defect cfg.pb u l := by
    intro l
    unfold feasRes Smooth.defect
    refine Fin.addCases (fun l => ?_) (fun l => ?_) l
    · simp only [rfArgs, hWx, hWp, Smooth.rhs, Fin.addCases_left]
      ring
    · simp only [rfArgs, Smooth.rhs, Fin.addCases_right, stack, hev.h, Pi.add_apply, mulVec, dotProduct]
      ring
  have hju : ∀ i, i ∈ rf.M.ju ↔ F.Held cfg.pb (fun i => ∃ b, rf.M.RWQ.jb b = i) u i := by
    have hm : ∀ i, rf.status.s i = F.lag cfg.pb u i := by
      intro i
      rw [h.mult, hWx, hev.fx]
      rfl
    intro i
    unfold Smooth.Held
    rw [← hm]
    constructor
    · intro hi
      have hpos : 0 < rf.M.RWQ.nb := by
        rcases Nat.eq_zero_or_pos rf.M.RWQ.nb with e | e
        · rw [h.unstable_none e] at hi; cases hi
        · exact e
      obtain ⟨h1, h2⟩ := h.unstable i hi
      exact ⟨⟨_, ⟨0, hpos⟩, rfl⟩, fun ⟨b, hb⟩ => h1 b hb, h2⟩
    · rintro ⟨⟨_, b, -⟩, h1, h2⟩
      exact h.unstable_all b.pos i (fun b hb => h1 ⟨b, hb⟩) h2
  -- a vector on the basic variables
  have hsum : ∀ (f : Fin nx → K) (c : Fin nx → K), (∀ j, (¬ ∃ b, rf.M.RWQ.jb b = j) → c j = 0) → ∑ j, f j * c j = ∑ b, f (rf.M.RWQ.jb b) * c (rf.M.RWQ.jb b) := by
    intro f c hc
    rw [← (Equiv.ofBijective _ h.perm).sum_comp, Fintype.sum_sum_type]
    have hz : ∑ k, f (rf.M.RWQ.jn k) * c (rf.M.RWQ.jn k) = 0 := Finset.sum_eq_zero fun k _ => by
      have hk : ¬ ∃ b, rf.M.RWQ.jb b = rf.M.RWQ.jn k := by
        rintro ⟨b, hb⟩
        exact absurd (h.perm.1 (a₁ := .inl b) (a₂ := .inr k) hb) (by simp)
      rw [hc _ hk, mul_zero]
    simp only [Equiv.ofBijective_apply, Sum.elim_inl, Sum.elim_inr]
    rw [hz, add_zero]
  have hRb : ∀ b b', ∑ l, rf.M.RWQ.Rb b l * rf.M.Wx l (rf.M.RWQ.jb b') = if b = b' then 1 else 0 := by
    intro b b'
    have := congrFun (congrFun h.b b) b'
    simpa [mul_apply, one_apply] using this
  have hRρ : ∀ (c : Fin nx → K) (r : Fin (ny + nz) → K), (∀ j, (¬ ∃ b, rf.M.RWQ.jb b = j) → c j = 0) → (∀ l, ∑ j, rf.M.Wx l j * c j = r l) → ∀ b, ∑ l, rf.M.RWQ.Rb b l * r l = c (rf.M.RWQ.jb b) := by
    intro c r hc hr b
    have : ∀ l, r l = ∑ b', rf.M.Wx l (rf.M.RWQ.jb b') * c (rf.M.RWQ.jb b') := fun l => by rw [← hr l, hsum _ _ hc]
    simp only [this, Finset.mul_sum, ← mul_assoc]
    rw [Finset.sum_comm]
    simp only [← Finset.sum_mul, hRb]
    simp
  obtain ⟨ax0, hres⟩ := h.res
  obtain ⟨m1, m2, m3, m4, m5, m6⟩ := residual_master cfg.env.eps h.canon ax0 (rfArgs cfg.pb rf.M ev u)
  rw [← hres] at m1 m2 m3 m4
  refine ⟨rf, hrf, ⟨fun c hc hr => ?_, fun j hj => ?_⟩, fun t ht => ?_, fun hns sm un hn => ?_⟩
  · funext j
    by_cases hj : ∃ b, rf.M.RWQ.jb b = j
    · obtain ⟨b, rfl⟩ := hj
      rw [← hRρ c 0 hc (by rw [hWx]; exact hr) b]
      simp
    · exact hc j hj
  · obtain ⟨k, hk⟩ := h.perm.2 j
    rcases k with b | k
    · exact absurd ⟨b, hk⟩ hj
    have hk : rf.M.RWQ.jn k = j := hk
    classical
    let c : Fin nx → K := fun i => if hi : ∃ b, rf.M.RWQ.jb b = i then rf.M.RWQ.Sbn hi.choose k else 0
    have hcb : ∀ b, c (rf.M.RWQ.jb b) = rf.M.RWQ.Sbn b k := by
      intro b
      have hi : ∃ b', rf.M.RWQ.jb b' = rf.M.RWQ.jb b := ⟨b, rfl⟩
      change (if hi : ∃ b', rf.M.RWQ.jb b' = rf.M.RWQ.jb b then rf.M.RWQ.Sbn hi.choose k else 0) = _
      rw [dif_pos hi, hinj hi.choose_spec]
    have hc0 : ∀ i, (¬ ∃ b, rf.M.RWQ.jb b = i) → c i = 0 := fun i hi => dif_neg hi
    refine ⟨c, hc0, fun l => ?_, fun i hi => ?_⟩
    · rw [hsum _ _ hc0, ← hk]
      have := h.spans X.oracle l k
      rw [hWx] at this
      rw [this]
      exact Finset.sum_congr rfl fun b _ => by rw [hcb]
    · by_cases hb : ∃ b, rf.M.RWQ.jb b = i
      · obtain ⟨b, rfl⟩ := hb
        rw [hcb] at hi
        rw [← hk]
        exact h.opt X.thr b k hi
      · exact absurd (hc0 i hb) hi
  · rw [herr, error_le_iff h.canon (basics_le_rows h.canon h.b) _ _ _ _ _ _ ht]
    obtain ⟨σ, τ1, hσ, -, hjb, -, -, -, hRbs⟩ := h.canon.ech
    have hw : ∀ b, rf.res.canonical.wbs b = ∑ l, rf.M.RWQ.Rb (σ b) l * F.defect cfg.pb u l := by
      intro b
      rw [hres, X.eps, residual_canonical_exact h.canon hE ax0 (rfArgs cfg.pb rf.M ev u) rfl rfl b]
      exact Finset.sum_congr rfl fun l _ => by rw [hRbs, hdef]
    refine and_congr ?_ (and_congr ?_ ?_)
    · refine forall_congr' fun i => ?_
      rw [hju]
      refine imp_congr_right fun hi => imp_congr_right fun _ => ?_
      rw [m1 i (by rw [hju]; exact hi), abs_neg, hlag]
    · refine forall_congr' fun q => ?_
      rw [m3, abs_neg]
      change |ev.v q| ≤ t ↔ _
      rw [hev.v]
    · constructor
      · intro hb
        classical
        let ρ : Fin nx → K := fun i => if hi : ∃ b, rf.M.RWQ.jb b = i then ∑ l, rf.M.RWQ.Rb hi.choose l * F.defect cfg.pb u l else 0
        have hρb : ∀ b, ρ (rf.M.RWQ.jb b) = ∑ l, rf.M.RWQ.Rb b l * F.defect cfg.pb u l := by
          intro b
          have hi : ∃ b', rf.M.RWQ.jb b' = rf.M.RWQ.jb b := ⟨b, rfl⟩
          change (if hi : ∃ b', rf.M.RWQ.jb b' = rf.M.RWQ.jb b then ∑ l, rf.M.RWQ.Rb hi.choose l * F.defect cfg.pb u l else 0) = _
          rw [dif_pos hi, hinj hi.choose_spec]
        have hρ0 : ∀ i, (¬ ∃ b, rf.M.RWQ.jb b = i) → ρ i = 0 := fun i hi => dif_neg hi
        refine ⟨ρ, hρ0, fun l => ?_, fun j => ?_⟩
        · rw [hsum _ _ hρ0]
          have := congrFun (congrArg (fun A => A *ᵥ F.defect cfg.pb u) hone) l
          simp only [one_mulVec, ← mulVec_mulVec] at this
          rw [← this]
          simp only [mulVec, dotProduct, submatrix_apply, id, hρb, hWx]
        · by_cases hj : ∃ b, rf.M.RWQ.jb b = j
          · obtain ⟨b, rfl⟩ := hj
            obtain ⟨b', rfl⟩ := hσ.2 b
            rw [hρb, ← hw]
            exact hb b'
          · rw [hρ0 j hj, abs_zero]; exact ht
      · rintro ⟨ρ, hρ0, hρ, hb⟩ b
        rw [hw, hRρ ρ _ hρ0 (by rw [hWx]; exact hρ)]
        exact hb _
  · have hsM : ∀ (a d : MVec K nx np (ny + nz)), (∀ i, i ∈ rf.M.ju → a.x i = 0) → SolvesMaster rf.M a d → (∀ i, F.Held cfg.pb (fun i => ∃ b, rf.M.RWQ.jb b = i) u i → d.x i = 0) ∧
        (∀ i, ¬ F.Held cfg.pb (fun i => ∃ b, rf.M.RWQ.jb b = i) u i → ∑ j, F.H u.x u.p i j * d.x j + ∑ q, F.Hp u.x u.p i q * d.p q + ∑ l, stack cfg.pb.Ax F.hx l i * d.w l = a.x i) ∧
        (∀ r, ∑ j, F.vx u.x u.p r j * d.x j + ∑ q, F.vp u.x u.p r q * d.p q = a.p r) ∧ ∀ l, ∑ j, stack cfg.pb.Ax F.hx l j * d.x j + ∑ q, stack cfg.pb.Ap F.hp l q * d.p q = a.w l := by
      intro a d ha hd
      have h0 : ∀ i, i ∈ rf.M.ju → d.x i = 0 := fun i hi => by rw [hd.unstable i hi, ha i hi]
      have hs : ∀ f : Fin nx → K, ∑ j, (if j ∈ rf.M.ju then 0 else f j * d.x j) = ∑ j, f j * d.x j := by
        intro f
        refine Finset.sum_congr rfl fun j _ => ?_
        split_ifs with hj
        · rw [h0 j hj, mul_zero]
        · rfl
      refine ⟨fun i hi => h0 i ((hju i).2 hi), fun i hi => ?_, fun r => ?_, fun l => ?_⟩
      · have := hd.stable i fun hm => hi ((hju i).1 hm)
        rw [hs, h.Hxx, h.Hxp, hWx, hev.fxx, hev.fxp] at this
        exact this
      · have := hd.par r
        rw [hs, h.Vpx, h.Vpp, hev.vx, hev.vp] at this
        exact this
      · have := hd.constr l
        rw [hs, hWx, hWp] at this
        exact this
    have hM : ∀ d, SolvesMaster rf.M ⟨0, 0, 0⟩ d → d.x = 0 ∧ d.p = 0 := by
      intro d hd
      obtain ⟨a1, a2, a3, a4⟩ := hsM _ d (fun _ _ => rfl) hd
      exact hns d.x d.p d.w a1 a2 a3 a4
    obtain ⟨du, hdu, d1, d2, d3⟩ := newton_solves X.eps hrf h hR (hC _) (luInners_ok_dep X.lu X.method h.canon hE hR hM _) (fun e => absurd e X.method) hn
    obtain ⟨a1, a2, a3, a4⟩ := hsM _ du m2 hdu
    have ex : ∀ j, du.x j = un.x j - u.x j := fun j => by rw [d1]; ring
    have ep : ∀ q, du.p q = un.p q - u.p q := fun q => by rw [d2]; ring
    have ew : ∀ l, un.w l = u.w l + du.w l := d3
    refine ⟨fun i hi => by rw [d1, a1 i hi, add_zero], fun i hi => ?_, fun r => ?_, fun l => ?_⟩
    · have := a2 i hi
      rw [m1 i fun hm => hi ((hju i).1 hm), hlag] at this
      unfold Smooth.lag at this
      simp only [ex, ep] at this
      simp only [ew, mul_add, Finset.sum_add_distrib]
      linear_combination this
    · have := a3 r
      rw [m3] at this
      simp only [ex, ep] at this
      have hv : (rfArgs cfg.pb rf.M ev u).v r = F.v u.x u.p r := by change ev.v r = _; rw [hev.v]
      rw [hv] at this
      linear_combination this
    · have := a4 l
      rw [m4, hdef] at this
      unfold Smooth.defect at this
      simp only [d1, d2, mul_add, Finset.sum_add_distrib]
      linear_combination this

theorem BoundedSolve.spec (X : BoundedSolve F cfg) {s u} (hs : EvaluatedAt cfg s u) : ∃ B, PointSpec F cfg s u B := by
  obtain ⟨rf, -, h⟩ := X.specAt hs
  exact ⟨_, h⟩

theorem BoundedSolve.eval (X : BoundedSolve F cfg) {t : Parts K nx np ny nz τ cfg.pb.Ax} (ht : Reach cfg t) (v) : ∃ t', (cfg.machine none).eval t v = some t' := by
  obtain ⟨t', ev, hu, -⟩ := X.user t.user v.x v.p t.ech.rwq
  obtain ⟨rf, hrf, -⟩ := rfUpdate_release X.thr.ge X.eps.ge X.debug cfg.pb ht X.nx_pos t.ax ev v
  obtain ⟨t1, h⟩ : ∃ t1, cfg.updateF cfg.user t v = some t1 := by
    unfold Config.updateF
    rw [hu]
    dsimp only
    rw [hrf]
    exact ⟨_, rfl⟩
  exact ⟨cfg.updateE t1 v, by change Option.map _ (cfg.updateF cfg.user t v) = _; rw [h]; rfl⟩

/-- One iteration. -/
theorem BoundedSolve.step (X : BoundedSolve F cfg) (o : SolveOptions K) {s} (h1 : Reach cfg s.mach) (h2 : EvaluatedAt cfg s.mach s.u) (h3 : s.uo = s.u) (hb : InBounds cfg.pb.bounds s.u) :
    ∃ s1, Optima.step (cfg.machine none) o cfg.pb.bounds s = some s1 ∧ Reach cfg s1.mach ∧ EvaluatedAt cfg s1.mach s1.u ∧ InBounds cfg.pb.bounds s1.u ∧ s1.iterations = s.iterations + 1 ∧ s1.trace = s1.u :: s.trace ∧
      ∃ sm un, cfg.newton s.mach s.u = some (sm, un) ∧ backtrack o.debug o.minmax cfg.pb.bounds s.u un = some s1.u := by
  have hinv := machine_inv X.thr.ge X.eps.ge X.nx_pos (cfg := cfg) none
  obtain ⟨ev, rf, ew0, hrf, hrest⟩ := id h2
  have hn : ∃ tm un, cfg.newton s.mach s.uo = some (tm, un) := by
    unfold Config.newton
    rw [hrf]
    exact ⟨_, _, rfl⟩
  obtain ⟨tm, un, hn⟩ := hn
  have hr : Reach cfg tm := hinv.newton _ _ _ _ h1 hn
  obtain ⟨v, hv, hvb⟩ : ∃ v, backtrack o.debug o.minmax cfg.pb.bounds s.uo un = some v ∧ InBounds cfg.pb.bounds v := by
    rw [h3]
    cases o.minmax with
    | true =>
      obtain ⟨v, e1, e2, -⟩ := backtrack_minmax o.debug hb un
      exact ⟨v, e1, e2⟩
    | false =>
      obtain ⟨v, β, e1, -, e2, -⟩ := backtrack_spec o.debug hb un
      exact ⟨v, e1, e2⟩
  obtain ⟨t', ht'⟩ := X.eval hr v
  have hstep : Optima.step (cfg.machine none) o cfg.pb.bounds s = some { s with mach := t', u := v, iterations := s.iterations + 1, trace := v :: s.trace } := by
    unfold Optima.step
    dsimp only
    rw [show (cfg.machine none).newton s.mach s.uo = some (tm, un) from hn]
    dsimp only
    rw [transform_no_phi (by change Option.map _ cfg.phi = none; rw [X.phi]; rfl)]
    dsimp only
    unfold errorControl
    dsimp only
    rw [hv]
    dsimp only
    unfold evalAt
    dsimp only
    rw [ht']
  refine ⟨_, hstep, ?_⟩
  obtain ⟨f1, f2⟩ := hinv.eval _ _ _ hr ht'
  rw [h3] at hn hv
  exact ⟨f1, f2, hvb, rfl, rfl, tm, un, hn, hv⟩

theorem BoundedSolve.trace (X : BoundedSolve F cfg) {o : SolveOptions K} {s r} (hl : Loop (cfg.machine none) o cfg.pb.bounds s r) : ∀ t, r = some t → Reach cfg s.mach → EvaluatedAt cfg s.mach s.u → s.uo = s.u → InBounds cfg.pb.bounds s.u →
    (∀ s1, Optima.step (cfg.machine none) o cfg.pb.bounds s = some s1 → s1.trace <:+ t.trace) := by
  induction hl with
  | stepFails s h => intro t e; cases e
  | checkFails s s1 h h' => intro t e; cases e
  | stop s s1 s2 h h' =>
    rintro t ⟨⟩ h1 h2 h3 hb s1' hs1
    cases h.symm.trans hs1
    rw [(stepping_spec h').2.2.2.2.1]
  | again s s1 s2 r h h' _ ih =>
    intro t e h1 h2 h3 hb s1' hs1
    cases h.symm.trans hs1
    obtain ⟨s0, a0, a1, a2, a3, a4, a5, -⟩ := X.step o h1 h2 h3 hb
    cases h.symm.trans a0
    obtain ⟨b1, b2, -, b4, b5, b6, b7⟩ := stepping_spec h'
    have hle := continue_le h'
    have c1 : Reach cfg s2.mach := by rw [machine_stepping h']; exact a1
    have c2 : EvaluatedAt cfg s2.mach s2.u := by rw [machine_stepping h', b1]; exact a2
    have c3 : s2.uo = s2.u := (b7 hle).1.trans b1.symm
    have c4 : InBounds cfg.pb.bounds s2.u := by rw [b1]; exact a3
    obtain ⟨s3, d0, d1, d2, d3, d4, d5, -⟩ := X.step o c1 c2 c3 c4
    have := ih t e c1 c2 c3 c4 s3 d0
    rw [d5, b5] at this
    exact (List.suffix_cons _ _).trans this

end one

/-! ### Two solves -/

section algebra
variable {m m' n n' : ℕ} {W : Matrix (Fin m) (Fin n) K} {W' : Matrix (Fin m') (Fin n') K} {e : Fin n ≃ Fin n'}

theorem comb_rel {C : Matrix (Fin m') (Fin m) K} (hC : ∀ l j, W' l (e j) = ∑ k, C l k * W k j) {c : Fin n' → K} {r : Fin m → K} (h : ∀ l, ∑ j, W l j * c (e j) = r l) (l) : ∑ j, W' l j * c j = ∑ k, C l k * r k := by
  rw [← e.sum_comp]
  simp only [hC, ← h, Finset.sum_mul, Finset.mul_sum]
  rw [Finset.sum_comm]
  exact Finset.sum_congr rfl fun k _ => Finset.sum_congr rfl fun j _ => by ring

theorem Preferred.transfer {C : Matrix (Fin m') (Fin m) K} (hC : ∀ l j, W' l (e j) = ∑ k, C l k * W k j) {D : Matrix (Fin m) (Fin m') K} (hD : ∀ l j, W l (e.symm j) = ∑ k, D l k * W' k j) {wt' : Fin n' → K} {B'} (h : Preferred W' wt' B') :
    Preferred W (wt' ∘ e) (B' ∘ e) := by
  refine ⟨fun c hc hr => ?_, fun j hj => ?_⟩
  · have := h.indep (c ∘ e.symm) (fun j hj => hc _ (by simpa using hj)) fun l => by
      rw [comb_rel hC (c := c ∘ e.symm) (r := 0) (fun l => by simpa using hr l)]
      simp
    funext j
    have := congrFun this (e j)
    simpa using this
  · obtain ⟨c, h1, h2, h3⟩ := h.exch (e j) hj
    refine ⟨c ∘ e, fun i hi => h1 _ hi, fun l => ?_, fun i hi => h3 _ hi⟩
    have := comb_rel (e := e.symm) hD (c := fun i => (if i = j then 1 else 0) - c (e i)) (r := 0) (fun l => by
      simp [mul_sub, Equiv.symm_apply_eq, h2]) l
    simp [mul_sub] at this
    exact sub_eq_zero.1 this

end algebra

section two
variable {F : Smooth K nx np nz} {cfg : Config K nx np ny nz τ} {F' : Smooth K nx' np nz'} {cfg' : Config K nx' np ny' nz' τ'} {e : Fin nx ≃ Fin nx'} {u : MVec K nx np (ny + nz)} {u' : MVec K nx' np (ny' + nz')} {B : Fin nx → Prop} {B' : Fin nx' → Prop}
  {pb : MProblem K nx np ny nz} {pb' : MProblem K nx' np ny' nz'}

theorem SamePoint.symm (h : SamePoint F pb F' pb' e u u') : SamePoint F' pb' F pb e.symm u' u :=
  ⟨by rw [h.x]; funext i; simp, h.p.symm, fun i => by have := h.mult (e.symm i); rw [this]; simp⟩

theorem SameBounds.symm (h : SameBounds pb pb' e) : SameBounds pb' pb e.symm :=
  ⟨fun i => by rw [← h.xlower]; simp, fun i => by rw [← h.xupper]; simp, h.plower.symm, h.pupper.symm⟩

theorem SamePoint.lag (hf : F.SameFunctions F' e) (h : SamePoint F pb F' pb' e u u') (i) : F.lag pb u i = F'.lag pb' u' (e i) := by
  unfold Smooth.lag
  rw [h.mult, h.x, h.p, hf.g]

theorem SamePoint.held (hf : F.SameFunctions F' e) (hb : SameBounds pb pb' e) (h : SamePoint F pb F' pb' e u u') (hB : ∀ i, B i ↔ B' (e i)) (i) : F.Held pb B u i ↔ F'.Held pb' B' u' (e i) := by
  unfold Smooth.Held
  rw [h.lag hf, hB, hb.xlower, hb.xupper, h.x]
  refine and_congr ⟨fun ⟨j, hj⟩ => ⟨e j, (hB j).1 hj⟩, fun ⟨j, hj⟩ => ⟨e.symm j, (hB _).2 (by simpa using hj)⟩⟩ Iff.rfl

theorem SamePoint.weights (hb : SameBounds pb pb' e) (h : SamePoint F pb F' pb' e u u') : weights pb u.x = weights pb' u'.x ∘ e := by
  funext i
  simp only [Optima.weights, Function.comp_apply, hb.xlower, hb.xupper, h.x]

/-- Where there is one basis only, the two solves have the same. -/
theorem SamePoint.basis (h1 : F.Rewrites pb F' pb' e) (h2 : F'.Rewrites pb' F pb e.symm) (hb : SameBounds pb pb' e) (h : SamePoint F pb F' pb' e u u') (ho : F.OneBasis pb u.x) (hB : Preferred (stack pb.Ax F.hx) (Optima.weights pb u.x) B)
    (hB' : Preferred (stack pb'.Ax F'.hx) (Optima.weights pb' u'.x) B') (i) : B i ↔ B' (e i) := by
  obtain ⟨C, hC, -⟩ := h1
  obtain ⟨D, hD, -⟩ := h2
  refine ho B (B' ∘ e) hB ?_ i
  rw [h.weights hb]
  exact hB'.transfer hC hD

theorem SamePoint.defect (h1 : F.Rewrites pb F' pb' e) (h : SamePoint F pb F' pb' e u u') : ∃ C : Matrix (Fin (ny' + nz')) (Fin (ny + nz)) K, (∀ l j, stack pb'.Ax F'.hx l (e j) = ∑ k, C l k * stack pb.Ax F.hx k j) ∧
    ∀ l, F'.defect pb' u' l = ∑ k, C l k * F.defect pb u k := by
  obtain ⟨C, hC, hCp, hr⟩ := h1
  refine ⟨C, hC, fun l => ?_⟩
  unfold Smooth.defect
  rw [comb_rel hC (c := u'.x) (r := fun k => ∑ j, stack pb.Ax F.hx k j * u.x j) (fun k => by rw [h.x]; rfl), hr]
  have : ∑ q, stack pb'.Ap F'.hp l q * u'.p q = ∑ k, C l k * ∑ q, stack pb.Ap F.hp k q * u.p q := by
    simp only [hCp, ← h.p, Finset.sum_mul, Finset.mul_sum]
    rw [Finset.sum_comm]
    exact Finset.sum_congr rfl fun k _ => Finset.sum_congr rfl fun j _ => by ring
  rw [this, ← Finset.sum_add_distrib, ← Finset.sum_sub_distrib]
  exact Finset.sum_congr rfl fun k _ => by ring

theorem PointSpec.error_le {s s'} (hf : F.SameFunctions F' e) (h1 : F.Rewrites cfg.pb F' cfg'.pb e) (hb : SameBounds cfg.pb cfg'.pb e) (h : SamePoint F cfg.pb F' cfg'.pb e u u') (hB : ∀ i, B i ↔ B' (e i)) (P : PointSpec F cfg s u B) (P' : PointSpec F' cfg' s' u' B')
    (h0 : 0 ≤ s.errors.error) : s'.errors.error ≤ s.errors.error := by
  obtain ⟨a1, a2, ρ, r1, r2, r3⟩ := (P.error _ h0).1 le_rfl
  obtain ⟨C, hC, hd⟩ := h.defect h1
  refine (P'.error _ h0).2 ⟨fun i hi hn => ?_, fun q => ?_, ρ ∘ e.symm, fun j hj => r1 _ (by rw [hB]; simpa using hj), fun l => ?_, fun j => r3 _⟩
  · obtain ⟨i, rfl⟩ := e.surjective i
    rw [← h.lag hf]
    refine a1 i (by rw [h.held hf hb hB]; exact hi) fun hc => hn ⟨(hB i).1 hc.1, ?_⟩
    have := hc.2
    unfold OnBound at this ⊢
    rw [hb.xlower, hb.xupper]
    rwa [h.x] at this
  · have := a2 q
    rwa [h.x, h.p, ← hf.v] at this
  · rw [hd, comb_rel hC (r := F.defect cfg.pb u) (fun k => by rw [← r2 k]; simp)]

theorem Smooth.NonsingularOn.transfer (hf : F.SameFunctions F' e) (h : F.Rewrites pb F' pb' e) (h' : F'.Rewrites pb' F pb e.symm) {U : Fin nx → Prop} {U' : Fin nx' → Prop} (hU : ∀ i, U i ↔ U' (e i)) {x' : Fin nx' → K} {p}
    (hn : F.NonsingularOn pb U (x' ∘ e) p) : F'.NonsingularOn pb' U' x' p := by
  intro dx dp w h0 h1 h2 h3
  obtain ⟨w0, hw⟩ := h.mult w
  refine (hn (dx ∘ e) dp w0 (fun i hi => h0 _ ((hU i).1 hi)) (fun i hi => ?_) (fun r => ?_) fun l => ?_).elim fun e1 e2 => ?_
  · have := h1 (e i) fun hc => hi ((hU i).2 hc)
    rw [sum_reindex e, hw i] at this
    simp only [hf.H, hf.Hp] at this
    exact this
  · have := h2 r
    rw [sum_reindex e] at this
    simp only [hf.vx, hf.vp] at this
    exact this
  · have := h'.con 0 (x' := dx ∘ e) (p := dp) (fun l => by
      have := h3 l
      rw [zero_mul]
      simpa using this) l
    rwa [zero_mul] at this
  · refine ⟨funext fun i => ?_, e2⟩
    have := congrFun e1 (e.symm i)
    simpa using this

/-- The trial points agree. -/
theorem Smooth.NewtonOn.agree (hf : F.SameFunctions F' e) (h : F.Rewrites pb F' pb' e) (h' : F'.Rewrites pb' F pb e.symm) {U : Fin nx → Prop} {U' : Fin nx' → Prop} (hU : ∀ i, U i ↔ U' (e i)) {wt} (hB : Preferred (stack pb.Ax F.hx) wt B) (hBU : ∀ i, U i → ¬ B i)
    {x' : Fin nx' → K} {p} (hn : F.NonsingularOn pb U (x' ∘ e) p) {x1 p1 w1 x1' p1' w1'} (a : F.NewtonOn pb U (x' ∘ e) p x1 p1 w1) (b : F'.NewtonOn pb' U' x' p x1' p1' w1') :
    x1 = x1' ∘ e ∧ p1 = p1' ∧ ∀ i, ∑ l, stack pb.Ax F.hx l i * w1 l = ∑ l, stack pb'.Ax F'.hx l (e i) * w1' l := by
  obtain ⟨w0, hw⟩ := h.mult w1'
  have b1 : ∀ i, ¬ U i → ∑ j, F.H (x' ∘ e) p i j * (x1' (e j) - x' (e j)) + ∑ q, F.Hp (x' ∘ e) p i q * (p1' q - p q) + F.g (x' ∘ e) p i + ∑ l, stack pb'.Ax F'.hx l (e i) * w1' l = 0 := by
    intro i hi
    have := b.grad (e i) fun hc => hi ((hU i).2 hc)
    rw [sum_reindex e] at this
    simpa only [hf.H, hf.Hp, hf.g] using this
  have b2 : ∀ r, ∑ j, F.vx (x' ∘ e) p r j * (x1' (e j) - x' (e j)) + ∑ q, F.vp (x' ∘ e) p r q * (p1' q - p q) + F.v (x' ∘ e) p r = 0 := by
    intro r
    have := b.par r
    rw [sum_reindex e] at this
    simpa only [hf.vx, hf.vp, hf.v] using this
  have b3 : ∀ l, ∑ j, stack pb.Ax F.hx l j * x1' (e j) + ∑ q, stack pb.Ap F.hp l q * p1' q = F.rhs pb l := by
    intro l
    have := h'.con 1 (x' := x1' ∘ e) (p := p1') (fun l => by
      have := b.con l
      rw [one_mul]
      simpa using this) l
    rwa [one_mul] at this
  refine (hn (fun j => x1 j - x1' (e j)) (fun q => p1 q - p1' q) (fun l => w1 l - w0 l) (fun i hi => ?_) (fun i hi => ?_) (fun r => ?_) fun l => ?_).elim fun e1 e2 => ?_
  · rw [a.held i hi, b.held _ ((hU i).1 hi)]
    exact sub_self _
  · have ha := a.grad i hi
    have hb := b1 i hi
    rw [hw] at hb
    simp only [Function.comp_apply, mul_sub, Finset.sum_sub_distrib] at ha hb ⊢
    linear_combination ha - hb
  · have ha := a.par r
    have hb := b2 r
    simp only [Function.comp_apply, mul_sub, Finset.sum_sub_distrib] at ha hb ⊢
    linear_combination ha - hb
  · have ha := a.con l
    have hb := b3 l
    simp only [mul_sub, Finset.sum_sub_distrib] at ha hb ⊢
    linear_combination ha - hb
  · have ex : x1 = x1' ∘ e := funext fun j => sub_eq_zero.1 (congrFun e1 j)
    have ep : p1 = p1' := funext fun j => sub_eq_zero.1 (congrFun e2 j)
    have hst : ∀ i, ¬ U i → ∑ l, stack pb.Ax F.hx l i * w1 l = ∑ l, stack pb.Ax F.hx l i * w0 l := by
      intro i hi
      have := a.grad i hi
      rw [ex, ep] at this
      have hb := b1 i hi
      rw [hw] at hb
      simp only [Function.comp_apply] at this
      linear_combination this - hb
    refine ⟨ex, ep, fun i => ?_⟩
    rw [hw]
    by_cases hi : U i
    · obtain ⟨c, c1, c2, -⟩ := hB.exch i (hBU i hi)
      have key : ∀ w : Fin (ny + nz) → K, ∑ l, stack pb.Ax F.hx l i * w l = ∑ j, c j * ∑ l, stack pb.Ax F.hx l j * w l := by
        intro w
        simp only [c2, Finset.sum_mul, Finset.mul_sum]
        rw [Finset.sum_comm]
        exact Finset.sum_congr rfl fun k _ => Finset.sum_congr rfl fun j _ => by ring
      rw [key, key]
      refine Finset.sum_congr rfl fun j _ => ?_
      by_cases hj : B j
      · rw [hst j fun hc => hBU j hc hj]
      · rw [c1 j hj, zero_mul, zero_mul]
    · exact hst i hi

theorem IsFactor.unique {nw : ℕ} {B : Bounds K nx np} {uo u : MVec K nx np nw} {β β' : K} (h : IsFactor B uo u β) (h' : IsFactor B uo u β') : β = β' := by
  have one : ∀ {β β' : K}, IsFactor B uo u β → IsFactor B uo u β' → ¬ β < β' := by
    intro β β' h h' hlt
    have mono : ∀ a b : K, a < b → blend β a b < blend β' a b := by
      intro a b hab
      unfold blend
      nlinarith
    have anti : ∀ a b : K, b < a → blend β' a b < blend β a b := by
      intro a b hab
      unfold blend
      nlinarith
    have up : ∀ a b c : K, c < b → blend β a b = c → a < c := by
      intro a b c hb hc
      by_contra hn
      push Not at hn
      have := h.pos
      unfold blend at hc
      nlinarith [h.le_one, mul_pos this (sub_pos.2 hb), mul_nonneg (sub_nonneg.2 h.le_one) (sub_nonneg.2 hn)]
    have dn : ∀ a b c : K, b < c → blend β a b = c → c < a := by
      intro a b c hb hc
      by_contra hn
      push Not at hn
      have := h.pos
      unfold blend at hc
      nlinarith [h.le_one, mul_pos this (sub_pos.2 hb), mul_nonneg (sub_nonneg.2 h.le_one) (sub_nonneg.2 hn)]
    rcases h.tight with ht | ⟨i, c, hc, h1, h2⟩ | ⟨i, c, hc, h1, h2⟩ | ⟨i, c, hc, h1, h2⟩ | ⟨i, c, hc, h1, h2⟩
    · have := h'.le_one; linarith
    · have a := up _ _ _ h1 h2
      have := h'.x_upper i c hc (Or.inl a)
      have := mono _ _ (a.trans h1)
      linarith
    · have a := dn _ _ _ h1 h2
      have := h'.x_lower i c hc (Or.inl a)
      have := anti _ _ (h1.trans a)
      linarith
    · have a := up _ _ _ h1 h2
      have := h'.p_upper i c hc (Or.inl a)
      have := mono _ _ (a.trans h1)
      linarith
    · have a := dn _ _ _ h1 h2
      have := h'.p_lower i c hc (Or.inl a)
      have := anti _ _ (h1.trans a)
      linarith
  exact le_antisymm (not_lt.1 (one h' h)) (not_lt.1 (one h h'))

theorem IsFactor.transfer (hb : SameBounds pb pb' e) {nw nw' : ℕ} {uo u : MVec K nx np nw} {uo' u' : MVec K nx' np nw'} (ho : SameXP e uo uo') (hu : SameXP e u u') {β : K} (h : IsFactor pb.bounds uo u β) : IsFactor pb'.bounds uo' u' β := by
  obtain ⟨o1, o2⟩ := ho
  obtain ⟨u1, u2⟩ := hu
  have xo : ∀ i, uo'.x (e i) = uo.x i := fun i => by rw [o1]; rfl
  have xu : ∀ i, u'.x (e i) = u.x i := fun i => by rw [u1]; rfl
  have xl : ∀ i, pb'.bounds.xlower (e i) = pb.bounds.xlower i := hb.xlower
  have xh : ∀ i, pb'.bounds.xupper (e i) = pb.bounds.xupper i := hb.xupper
  have pl : pb'.bounds.plower = pb.bounds.plower := hb.plower
  have ph : pb'.bounds.pupper = pb.bounds.pupper := hb.pupper
  refine ⟨h.pos, h.le_one, fun i c => ?_, fun i c => ?_, ?_, ?_, ?_⟩
  · obtain ⟨i, rfl⟩ := e.surjective i
    rw [xh, xo, xu]
    exact h.x_upper i c
  · obtain ⟨i, rfl⟩ := e.surjective i
    rw [xl, xo, xu]
    exact h.x_lower i c
  · rw [ph, ← o2, ← u2]; exact h.p_upper
  · rw [pl, ← o2, ← u2]; exact h.p_lower
  · rw [ph, pl, ← o2, ← u2]
    rcases h.tight with ht | ⟨i, c, h0, h1, h2⟩ | ⟨i, c, h0, h1, h2⟩ | ht | ht
    · exact .inl ht
    · exact .inr (.inl ⟨e i, c, by rw [xh]; exact h0, by rw [xu]; exact h1, by rw [xo, xu]; exact h2⟩)
    · exact .inr (.inr (.inl ⟨e i, c, by rw [xl]; exact h0, by rw [xu]; exact h1, by rw [xo, xu]; exact h2⟩))
    · exact .inr (.inr (.inr (.inl ht)))
    · exact .inr (.inr (.inr (.inr ht)))

/-- The step control treats them alike. -/
theorem backtrack_same (hb : SameBounds pb pb' e) {debug minmax : Bool} {uo un v : MVec K nx np (ny + nz)} {uo' un' v' : MVec K nx' np (ny' + nz')} (hi : InBounds pb.bounds uo) (hi' : InBounds pb'.bounds uo') (ho : SamePoint F pb F' pb' e uo uo')
    (hn : SamePoint F pb F' pb' e un un') (hv : backtrack debug minmax pb.bounds uo un = some v) (hv' : backtrack debug minmax pb'.bounds uo' un' = some v') : SamePoint F pb F' pb' e v v' := by
  have xo : ∀ i, uo.x i = uo'.x (e i) := fun i => by rw [ho.x]; rfl
  have xu : ∀ i, un.x i = un'.x (e i) := fun i => by rw [hn.x]; rfl
  have xl : ∀ i, pb'.bounds.xlower (e i) = pb.bounds.xlower i := hb.xlower
  have xh : ∀ i, pb'.bounds.xupper (e i) = pb.bounds.xupper i := hb.xupper
  have pl : pb'.bounds.plower = pb.bounds.plower := hb.plower
  have ph : pb'.bounds.pupper = pb.bounds.pupper := hb.pupper
  cases minmax with
  | true =>
    obtain ⟨a, a1, -, a2, a3, a4⟩ := backtrack_minmax debug hi un
    obtain ⟨b, b1, -, b2, b3, b4⟩ := backtrack_minmax debug hi' un'
    cases hv.symm.trans a1
    cases hv'.symm.trans b1
    refine ⟨funext fun i => ?_, funext fun q => ?_, fun i => ?_⟩
    · rw [a3, Function.comp_apply, b3, xl, xh, xu]
    · rw [a4, b4, pl, ph, hn.p]
    · rw [a2, b2]; exact hn.mult i
  | false =>
    obtain ⟨a, β, a1, af, -, a2, a3, a4, -⟩ := backtrack_spec debug hi un
    obtain ⟨b, β', b1, bf, -, b2, b3, b4, -⟩ := backtrack_spec debug hi' un'
    cases hv.symm.trans a1
    cases hv'.symm.trans b1
    cases (af.transfer hb ⟨ho.x, ho.p⟩ ⟨hn.x, hn.p⟩).unique bf
    refine ⟨funext fun i => ?_, funext fun q => ?_, fun i => ?_⟩
    · rw [a3, Function.comp_apply, b3, xl, xh, xu, xo]
    · rw [a4, b4, pl, ph, hn.p, ho.p]
    · have h1 := hn.mult i
      have h2 := ho.mult i
      simp only [a2, b2, blend, mul_add, Finset.sum_add_distrib]
      have k : ∀ {m : ℕ} (f g : Fin m → K) (c : K), ∑ l, f l * (g l * c) = (∑ l, f l * g l) * c := fun f g c => by rw [Finset.sum_mul]; exact Finset.sum_congr rfl fun l _ => by ring
      have k' : ∀ {m : ℕ} (f g : Fin m → K) (c : K), ∑ l, f l * (c * g l) = (∑ l, f l * g l) * c := fun f g c => by rw [Finset.sum_mul]; exact Finset.sum_congr rfl fun l _ => by ring
      rw [k, k, k', k', h1, h2]

/-- What is assumed at a point: the basic variables are determined, and with the variables held the linearised conditions determine the step. -/
def Smooth.RegularAt (F : Smooth K nx np nz) (pb : MProblem K nx np ny nz) (u : MVec K nx np (ny + nz)) : Prop :=
  F.OneBasis pb u.x ∧ ∀ B, Preferred (stack pb.Ax F.hx) (weights pb u.x) B → F.NonsingularOn pb (F.Held pb B u) u.x u.p

theorem evaluated_same (X : BoundedSolve F cfg) (X' : BoundedSolve F' cfg') (hf : F.SameFunctions F' e) (h : F.Rewrites cfg.pb F' cfg'.pb e) (h' : F'.Rewrites cfg'.pb F cfg.pb e.symm) (hb : SameBounds cfg.pb cfg'.pb e) {s s'} (hs : EvaluatedAt cfg s u)
    (hs' : EvaluatedAt cfg' s' u') (hu : SamePoint F cfg.pb F' cfg'.pb e u u') (ho : F.OneBasis cfg.pb u.x) : ∃ B B', (∀ i, B i ↔ B' (e i)) ∧ PointSpec F cfg s u B ∧ PointSpec F' cfg' s' u' B' ∧ s.errors.error = s'.errors.error := by
  obtain ⟨B, P⟩ := X.spec hs
  obtain ⟨B', P'⟩ := X'.spec hs'
  have hB := hu.basis h h' hb ho P.basis P'.basis
  refine ⟨B, B', hB, P, P', le_antisymm ?_ (P.error_le hf h hb hu hB P' (FreeSolve.error_nonneg hs))⟩
  exact P'.error_le hf.symm h' hb.symm hu.symm (fun i => by rw [hB]; simp) P (FreeSolve.error_nonneg hs')

theorem step_same_bounds (X : BoundedSolve F cfg) (X' : BoundedSolve F' cfg') (hf : F.SameFunctions F' e) (h : F.Rewrites cfg.pb F' cfg'.pb e) (h' : F'.Rewrites cfg'.pb F cfg.pb e.symm) (hb : SameBounds cfg.pb cfg'.pb e) {o : SolveOptions K} {s s1 s'}
    (h1 : Reach cfg s.mach) (h2 : EvaluatedAt cfg s.mach s.u) (h3 : s.uo = s.u) (h4 : InBounds cfg.pb.bounds s.u) (h1' : Reach cfg' s'.mach) (h2' : EvaluatedAt cfg' s'.mach s'.u) (h3' : s'.uo = s'.u) (h4' : InBounds cfg'.pb.bounds s'.u)
    (hx : SamePoint F cfg.pb F' cfg'.pb e s.u s'.u) (hi : s.iterations = s'.iterations) (ht : List.Forall₂ (SameXP e) s.trace s'.trace) (hr : F.RegularAt cfg.pb s.u) (hst : step (cfg.machine none) o cfg.pb.bounds s = some s1) (hr1 : F.RegularAt cfg.pb s1.u) :
    ∃ s1', step (cfg'.machine none) o cfg'.pb.bounds s' = some s1' ∧ Reach cfg s1.mach ∧ EvaluatedAt cfg s1.mach s1.u ∧ InBounds cfg.pb.bounds s1.u ∧ Reach cfg' s1'.mach ∧ EvaluatedAt cfg' s1'.mach s1'.u ∧ InBounds cfg'.pb.bounds s1'.u ∧
      SameOutcome F cfg F' cfg' e s1 s1' := by
  obtain ⟨s0, a0, a1, a2, a3, a4, a5, sm, un, a6, a7⟩ := X.step o h1 h2 h3 h4
  cases hst.symm.trans a0
  obtain ⟨s1', b0, b1, b2, b3, b4, b5, sm', un', b6, b7⟩ := X'.step o h1' h2' h3' h4'
  obtain ⟨B, B', hB, P, P', -⟩ := evaluated_same X X' hf h h' hb h2 h2' hx hr.1
  have hns := hr.2 B P.basis
  have n1 := P.newton hns _ _ a6
  have hU := hx.held hf hb hB
  rw [hx.x, hx.p] at hns n1
  have n2 := P'.newton (hns.transfer hf h h' hU) _ _ b6
  obtain ⟨c1, c2, c3⟩ := n1.agree hf h h' hU P.basis (fun i hi => hi.2.1) hns n2
  have hp := backtrack_same hb h4 h4' hx ⟨c1, c2, c3⟩ a7 b7
  obtain ⟨-, -, -, -, -, he⟩ := evaluated_same X X' hf h h' hb a2 b2 hp hr1.1
  exact ⟨s1', b0, a1, a2, a3, b1, b2, b3, hp, by rw [a4, b4, hi], he, by rw [a5, b5]; exact .cons ⟨hp.x, hp.p⟩ ht⟩

theorem stepping_same {o : SolveOptions K} {s1 s2 s1'} {b : Bool} (hs : stepping (cfg.machine none) o s1 = some (s2, b)) (ho : SameOutcome F cfg F' cfg' e s1 s1') :
    ∃ s2', stepping (cfg'.machine none) o s1' = some (s2', b) ∧ SameOutcome F cfg F' cfg' e s2 s2' := by
  have hq : ∃ s2' b', stepping (cfg'.machine none) o s1' = some (s2', b') := by
    unfold stepping
    dsimp only
    split_ifs
    · exact ⟨_, _, rfl⟩
    split
    · exact ⟨_, _, rfl⟩
    · rw [show (cfg'.machine none).check = none from rfl]
      exact ⟨_, _, rfl⟩
  obtain ⟨s2', b', hs'⟩ := hq
  obtain ⟨b1, b2, -, b4, b5, b6, b7⟩ := stepping_spec hs
  obtain ⟨d1, d2, -, d4, d5, d6, d7⟩ := stepping_spec hs'
  have hb : b = b' := by
    have key : b = false ↔ b' = false := by
      by_cases hi : s1.iterations ≤ o.maxiters
      · rw [(b7 hi).2, (d7 (by rw [← ho.iterations]; exact hi)).2]
        have e1 : (cfg.machine none).error s1.mach = (cfg'.machine none).error s1'.mach := ho.error
        rw [e1]
        refine or_congr Iff.rfl (and_congr Iff.rfl ⟨?_, ?_⟩)
        · rintro ⟨f, t, hc, -⟩; cases hc
        · rintro ⟨f, t, hc, -⟩; cases hc
      · exact ⟨fun _ => (d6 (by rw [← ho.iterations]; omega)).1, fun _ => (b6 (by omega)).1⟩
    cases b <;> cases b' <;> simp_all
  subst hb
  refine ⟨s2', hs', ?_⟩
  have p := ho.point
  rw [← b1, ← d1] at p
  exact ⟨p, by rw [b2, d2, ho.iterations], by rw [machine_stepping hs, machine_stepping hs', ho.error], by rw [b5, d5]; exact ho.trace⟩

theorem loop_same_bounds (X : BoundedSolve F cfg) (X' : BoundedSolve F' cfg') (hf : F.SameFunctions F' e) (h : F.Rewrites cfg.pb F' cfg'.pb e) (h' : F'.Rewrites cfg'.pb F cfg.pb e.symm) (hb : SameBounds cfg.pb cfg'.pb e) {o : SolveOptions K} {s r}
    (hl : Loop (cfg.machine none) o cfg.pb.bounds s r) : ∀ t, r = some t → (∀ v ∈ t.trace, F.RegularAt cfg.pb v) → ∀ s', Reach cfg s.mach → EvaluatedAt cfg s.mach s.u → s.uo = s.u → InBounds cfg.pb.bounds s.u → Reach cfg' s'.mach → EvaluatedAt cfg' s'.mach s'.u →
      s'.uo = s'.u → InBounds cfg'.pb.bounds s'.u → SamePoint F cfg.pb F' cfg'.pb e s.u s'.u → s.iterations = s'.iterations → s.u ∈ s.trace → List.Forall₂ (SameXP e) s.trace s'.trace → ∃ t', Loop (cfg'.machine none) o cfg'.pb.bounds s' (some t') ∧ SameOutcome F cfg F' cfg' e t t' := by
  induction hl with
  | stepFails s h => intro t e; cases e
  | checkFails s s1 h h' => intro t e; cases e
  | stop s s1 s2 hs hs' =>
    rintro t ⟨⟩ hns s' h1 h2 h3 h4 h1' h2' h3' h4' hx hi hm ht
    have htr := X.trace (.stop s s1 s2 hs hs') _ rfl h1 h2 h3 h4 s1 hs
    obtain ⟨s0, q0, -, -, -, -, q4, -⟩ := X.step o h1 h2 h3 h4
    cases hs.symm.trans q0
    rw [q4] at htr
    obtain ⟨s1', c0, c1, c2, c3, c4, c5, c6, c7⟩ := step_same_bounds X X' hf h h' hb h1 h2 h3 h4 h1' h2' h3' h4' hx hi ht (hns _ (htr.subset (List.mem_cons_of_mem _ hm))) hs (hns _ (htr.subset List.mem_cons_self))
    obtain ⟨s2', d1, d2⟩ := stepping_same hs' c7
    exact ⟨s2', .stop _ _ _ c0 d1, d2⟩
  | again s s1 s2 r hs hs' hl ih =>
    intro t et hns s' h1 h2 h3 h4 h1' h2' h3' h4' hx hi hm ht
    have htr := X.trace (.again s s1 s2 r hs hs' hl) _ et h1 h2 h3 h4 s1 hs
    obtain ⟨s0, q0, -, -, -, -, q4, -⟩ := X.step o h1 h2 h3 h4
    cases hs.symm.trans q0
    have htr' := htr
    rw [q4] at htr'
    obtain ⟨s1', c0, c1, c2, c3, c4, c5, c6, c7⟩ := step_same_bounds X X' hf h h' hb h1 h2 h3 h4 h1' h2' h3' h4' hx hi ht (hns _ (htr'.subset (List.mem_cons_of_mem _ hm))) hs (hns _ (htr'.subset List.mem_cons_self))
    obtain ⟨s2', d1, d2⟩ := stepping_same hs' c7
    obtain ⟨a1, a2, -, -, a5, a6, a7⟩ := stepping_spec hs'
    obtain ⟨b1, b2, -, -, b5, b6, b7⟩ := stepping_spec d1
    have hle := continue_le hs'
    obtain ⟨t', l1, l2⟩ := ih t et hns s2' (by rw [machine_stepping hs']; exact c1) (by rw [machine_stepping hs', a1]; exact c2) ((a7 hle).1.trans a1.symm) (by rw [a1]; exact c3) (by rw [machine_stepping d1]; exact c4)
      (by rw [machine_stepping d1, b1]; exact c5) ((b7 (by rw [← c7.iterations]; exact hle)).1.trans b1.symm) (by rw [b1]; exact c6) d2.point d2.iterations (by rw [a1, a5, q4]; exact List.mem_cons_self) d2.trace
    exact ⟨t', .again _ _ _ _ c0 d1 l1, l2⟩

/-- **C71 (bounds, independent constraints, exact arithmetic)**: two solves of the same problem written down in two ways, started at the same point with multipliers of the same effect. If at the points visited the weights determine the basic variables and the linearised conditions
with the held variables are regular, both visit the same points, report the same errors, numbers of iterations and success, and return the same point, with multipliers of the same effect. -/
theorem equivalent_with_bounds_partial (X : BoundedSolve F cfg) (X' : BoundedSolve F' cfg') (hf : F.SameFunctions F' e) (h : F.Rewrites cfg.pb F' cfg'.pb e) (h' : F'.Rewrites cfg'.pb F cfg.pb e.symm) (hb : SameBounds cfg.pb cfg'.pb e) (o : SolveOptions K)
    (user mem errors ax du) (history : History K) (u : MVec K nx np (ny + nz)) (user' mem' errors' ax' du') (history' : History K) (u' : MVec K nx' np (ny' + nz')) (hu : SamePoint F cfg.pb F' cfg'.pb e u u') {t}
    (ht : Solve (cfg.machine none) o cfg.pb.bounds (cfg.start user mem errors ax du) history u (some t)) (hns : ∀ v ∈ t.trace, F.RegularAt cfg.pb v) :
    ∃ t', (∀ r, Solve (cfg'.machine none) o cfg'.pb.bounds (cfg'.start user' mem' errors' ax' du') history' u' r ↔ r = some t') ∧ SameOutcome F cfg F' cfg' e t t' ∧
      (solveResult o t).succeeded = (solveResult o t').succeeded ∧ (solveResult o t).iterations = (solveResult o t').iterations := by
  obtain ⟨t', ht'⟩ := solve_returns X'.thr.ge X'.eps.ge X'.debug X'.nx_pos none (noPhi X'.phi) (fun t x p q => by obtain ⟨a, b, c, -⟩ := X'.user t x p q; exact ⟨_, c⟩) (fun f hf => by cases hf) o X'.bounds
    user' mem' errors' ax' du' history' u'
  have huq : ∀ r, Solve (cfg'.machine none) o cfg'.pb.bounds (cfg'.start user' mem' errors' ax' du') history' u' r ↔ r = some t' := by
    intro r
    obtain ⟨⟨r0, h0, h1⟩, -⟩ := solve_budget (cfg'.machine none) o cfg'.pb.bounds (cfg'.start user' mem' errors' ax' du') history' u'
    constructor
    · intro hr; rw [h1 r hr, h1 _ ht']
    · rintro rfl; exact ht'
  have hinv := machine_inv X.thr.ge X.eps.ge X.nx_pos (cfg := cfg) none
  have hinv' := machine_inv X'.thr.ge X'.eps.ge X'.nx_pos (cfg := cfg') none
  have hc : SamePoint F cfg.pb F' cfg'.pb e (clampVec cfg.pb.bounds u) (clampVec cfg'.pb.bounds u') := by
    refine ⟨funext fun i => ?_, funext fun q => ?_, hu.mult⟩
    · change clamp (cfg.pb.xlower i) (cfg.pb.xupper i) (u.x i) = clamp (cfg'.pb.xlower (e i)) (cfg'.pb.xupper (e i)) (u'.x (e i))
      rw [hb.xlower, hb.xupper, hu.x]
      rfl
    · change clamp (cfg.pb.plower q) (cfg.pb.pupper q) (u.p q) = clamp (cfg'.pb.plower q) (cfg'.pb.pupper q) (u'.p q)
      rw [hb.plower, hb.pupper, hu.p]
  have key : SameOutcome F cfg F' cfg' e t t' := by
    cases ht with
    | run s r es hl =>
      cases ht' with
      | run s' r' es' hl' =>
        obtain ⟨su, suo, sit, -, str⟩ := solveInit_spec es
        obtain ⟨q0, p0⟩ := evalAt_inv hinv (s := { mach := cfg.start user mem errors ax du, u := clampVec cfg.pb.bounds u, uo := clampVec cfg.pb.bounds u, iterations := 0, history := history.init, trace := [] })
          (start_reach cfg user mem errors ax du) es
        obtain ⟨su', suo', sit', -, str'⟩ := solveInit_spec es'
        obtain ⟨q0', p0'⟩ := evalAt_inv hinv' (s := { mach := cfg'.start user' mem' errors' ax' du', u := clampVec cfg'.pb.bounds u', uo := clampVec cfg'.pb.bounds u', iterations := 0, history := history'.init, trace := [] })
          (start_reach cfg' user' mem' errors' ax' du') es'
        obtain ⟨t2, l1, l2⟩ := loop_same_bounds X X' hf h h' hb hl t rfl hns s' q0 p0 (suo.trans su.symm) (by rw [su]; exact clampVec_inBounds X.bounds _) q0' p0' (suo'.trans su'.symm) (by rw [su']; exact clampVec_inBounds X'.bounds _)
          (by rw [su, su']; exact hc) (by rw [sit, sit']) (by rw [su, str]; simp) (by rw [str, str']; exact .cons ⟨hc.x, hc.p⟩ .nil)
        obtain ⟨r0, -, h1⟩ := loop_terminates (cfg'.machine none) o cfg'.pb.bounds s'
        have := (h1 _ l1).trans (h1 _ hl').symm
        cases this
        exact l2
  refine ⟨t', huq, key, ?_, key.iterations⟩
  change decide (t.iterations ≤ o.maxiters) = decide (t'.iterations ≤ o.maxiters)
  rw [key.iterations]

end two

/-! ### Non-vacuity

Minimise `x0²/2 + x1 + x1²/2 - cos(x1)/4` subject to `x0 = 1` and `x1 ≥ 0`, written down again with the variables in the other order and the constraint as `h(x) = 3 x1 - 3`. In the solution `x1` is held on its bound. -/

/-- The functions of the first problem. -/
noncomputable def slope : Smooth ℝ 2 0 0 where
  g := fun x _ => ![x 0, 1 + x 1 + Real.sin (x 1) / 4]
  H := fun x _ => !![1, 0; 0, 1 + Real.cos (x 1) / 4]
  Hp := 0
  hx := 0
  hp := 0
  h0 := 0
  v := 0
  vx := 0
  vp := 0

/-- The functions of the second problem. -/
noncomputable def slope' : Smooth ℝ 2 0 1 where
  g := fun x _ => ![1 + x 0 + Real.sin (x 0) / 4, x 1]
  H := fun x _ => !![1 + Real.cos (x 0) / 4, 0; 0, 1]
  Hp := 0
  hx := fun _ => ![0, 3]
  hp := fun _ q => q.elim0
  h0 := fun _ => -3
  v := 0
  vx := 0
  vp := 0

/-- The constraint and the bound of the first problem. -/
def edge : MProblem ℝ 2 0 1 0 where
  Ax := fun _ => ![1, 0]
  Ap := fun _ q => q.elim0
  b := fun _ => 1
  xlower := ![none, some 0]
  xupper := fun _ => none
  plower := fun _ => none
  pupper := fun _ => none

/-- The bound of the second problem. -/
def edge' : MProblem ℝ 2 0 0 1 where
  Ax := fun i => i.elim0
  Ap := fun i => i.elim0
  b := fun i => i.elim0
  xlower := ![some 0, none]
  xupper := fun _ => none
  plower := fun _ => none
  pupper := fun _ => none

theorem slope_same : slope.SameFunctions slope' (Equiv.swap 0 1) := by
  refine ⟨fun x p => ?_, fun x p => ?_, fun x p i q => q.elim0, fun x p => funext fun q => q.elim0, fun x p r => r.elim0, fun x p => funext fun q => q.elim0⟩
  · rw [Fin.forall_fin_two]; simp [slope, slope']
  · simp only [Fin.forall_fin_two]; simp [slope, slope']

theorem slope_stack : (∀ l, stack edge.Ax slope.hx l = ![1, 0]) ∧ (∀ l, stack edge'.Ax slope'.hx l = ![0, 3]) ∧ (∀ l, slope.rhs edge l = 1) ∧ ∀ l, slope'.rhs edge' l = 3 := by
  refine ⟨fun l => ?_, fun l => ?_, fun l => ?_, fun l => ?_⟩
  · obtain rfl : l = Fin.castAdd 0 (0 : Fin 1) := Fin.ext (by omega); funext j; simp only [stack, Fin.addCases_left, edge]
  · obtain rfl : l = Fin.natAdd 0 (0 : Fin 1) := Fin.ext (by omega); funext j; simp only [stack, Fin.addCases_right, slope']
  · obtain rfl : l = Fin.castAdd 0 (0 : Fin 1) := Fin.ext (by omega); simp only [Smooth.rhs, Fin.addCases_left, edge]
  · obtain rfl : l = Fin.natAdd 0 (0 : Fin 1) := Fin.ext (by omega); simp only [Smooth.rhs, Fin.addCases_right, slope']; norm_num

theorem slope_rewrites : slope.Rewrites edge slope' edge' (Equiv.swap 0 1) ∧ slope'.Rewrites edge' slope edge (Equiv.swap 0 1 : Fin 2 ≃ Fin 2).symm := by
  obtain ⟨h1, h2, h3, h4⟩ := slope_stack
  refine ⟨⟨fun _ _ => 3, fun l j => ?_, fun l q => q.elim0, fun l => ?_⟩, ⟨fun _ _ => 1 / 3, fun l j => ?_, fun l q => q.elim0, fun l => ?_⟩⟩
  · rw [h2]; simp only [h1]; revert j; rw [Fin.forall_fin_two]; simp
  · rw [h4]; simp [h3]
  · rw [h1]; simp only [h2]; revert j; rw [Fin.forall_fin_two]; simp
  · rw [h3]; simp [h4]

/-- Only `x0` can be basic. -/
theorem slope_regular (u : MVec ℝ 2 0 (1 + 0)) : slope.RegularAt edge u := by
  have hone : ∀ B, Preferred (stack edge.Ax slope.hx) (weights edge u.x) B → B 0 ∧ ¬ B 1 := by
    intro B hB
    constructor
    · by_contra h0
      by_cases h1 : B 1
      · have := congrFun (hB.indep ![0, 1] (fun j hj => by revert hj; revert j; rw [Fin.forall_fin_two]; exact ⟨fun _ => rfl, fun h => absurd h1 h⟩) fun l => by simp [slope_stack.1, Fin.sum_univ_two]) 1
        simp at this
      · obtain ⟨c, c1, c2, -⟩ := hB.exch 0 h0
        have := c2 0
        rw [Fin.sum_univ_two, c1 0 h0, c1 1 h1, slope_stack.1] at this
        simp at this
    · intro h1
      have := congrFun (hB.indep ![0, 1] (fun j hj => by revert hj; revert j; rw [Fin.forall_fin_two]; exact ⟨fun _ => rfl, fun h => absurd h1 h⟩) fun l => by simp [slope_stack.1, Fin.sum_univ_two]) 1
      simp at this
  refine ⟨fun B B' hB hB' => ?_, fun B hB dx dp w h0 h1 h2 h3 => ⟨?_, funext fun q => q.elim0⟩⟩
  · obtain ⟨a1, a2⟩ := hone B hB
    obtain ⟨b1, b2⟩ := hone B' hB'
    rw [Fin.forall_fin_two]
    exact ⟨⟨fun _ => b1, fun _ => a1⟩, ⟨fun h => absurd h a2, fun h => absurd h b2⟩⟩
  · have a2 := h3 0
    simp only [slope_stack.1] at a2
    simp [Fin.sum_univ_two] at a2
    have z1 : dx 1 = 0 := by
      by_cases hU : slope.Held edge B u 1
      · exact h0 1 hU
      · have := h1 1 hU
        simp only [slope_stack.1] at this
        simp [slope, Fin.sum_univ_two] at this
        have hc := Real.neg_one_le_cos (u.x 1)
        exact this.resolve_left (by intro h; linarith)
    funext i
    revert i
    rw [Fin.forall_fin_two]
    exact ⟨a2, z1⟩

/-- From `(x0, x1) = (5, 3)`, whatever the options, the two solves visit the same points. -/
example : ∃ (cfg : Config ℝ 2 0 1 0 Unit) (cfg' : Config ℝ 2 0 0 1 Unit), cfg.pb = edge ∧ cfg'.pb = edge' ∧ ∀ o : SolveOptions ℝ, ∃ t t',
    Solve (cfg.machine none) o cfg.pb.bounds (cfg.start () 0 ⟨0, 0, 0, 0, 0, 0, 0, 0⟩ 0 ⟨0, 0, 0⟩) (History.init default) ⟨![5, 3], 0, fun _ => 6⟩ (some t) ∧
    Solve (cfg'.machine none) o cfg'.pb.bounds (cfg'.start () 0 ⟨0, 0, 0, 0, 0, 0, 0, 0⟩ 0 ⟨0, 0, 0⟩) (History.init default) ⟨![3, 5], 0, fun _ => 2⟩ (some t') ∧
    t.iterations = t'.iterations ∧ t.u.x 0 = t'.u.x 1 ∧ t.u.x 1 = t'.u.x 0 ∧ t.u.w 0 = 3 * t'.u.w 0 := by
  let f : (Fin 2 → ℝ) → Evals ℝ 2 0 0 := fun x =>
    { f := x 0 ^ 2 / 2 + x 1 + x 1 ^ 2 / 2 - Real.cos (x 1) / 4, fx := ![x 0, 1 + x 1 + Real.sin (x 1) / 4], fxx := !![1, 0; 0, 1 + Real.cos (x 1) / 4], fxp := 0, diagfxx := true, h := 0, hx := 0, hp := 0, v := 0, vx := 0, vp := 0, succeeded := true }
  let f' : (Fin 2 → ℝ) → Evals ℝ 2 0 1 := fun x =>
    { f := x 1 ^ 2 / 2 + x 0 + x 0 ^ 2 / 2 - Real.cos (x 0) / 4, fx := ![1 + x 0 + Real.sin (x 0) / 4, x 1], fxx := !![1 + Real.cos (x 0) / 4, 0; 0, 1], fxp := 0, diagfxx := true, h := fun _ => 3 * x 1 - 3, hx := fun _ => ![0, 3], hp := 0, v := 0, vx := 0,
      vp := 0, succeeded := true }
  let cfg : Config ℝ 2 0 1 0 Unit := { env := exactEnv, pb := edge, method := .nullspace, inners := exactInners, user := fun t x _ _ => some (t, f x), userJac := fun t x _ _ => some (t, f x), phi := none }
  let cfg' : Config ℝ 2 0 0 1 Unit := { env := exactEnv, pb := edge', method := .fullspace, inners := exactInners, user := fun t x _ _ => some (t, f' x), userJac := fun t x _ _ => some (t, f' x), phi := none }
  have hb : ConsistentBounds edge.bounds := inBounds_consistent (u := ⟨![0, 0], 0, (0 : Fin 0 → ℝ)⟩) ⟨by rw [Fin.forall_fin_two]; simp [edge, MProblem.bounds, Between], fun q => q.elim0⟩
  have hb' : ConsistentBounds edge'.bounds := inBounds_consistent (u := ⟨![0, 0], 0, (0 : Fin 0 → ℝ)⟩) ⟨by rw [Fin.forall_fin_two]; simp [edge', MProblem.bounds, Between], fun q => q.elim0⟩
  have X : BoundedSolve slope cfg := ⟨hb, rfl, rfl, rfl, exactEnv_oracle, by norm_num, rfl, fun c => exactInners_lu c, (by intro h; cases h),
    fun t x p q => ⟨t, f x, rfl, ⟨rfl, rfl, rfl, funext fun l => l.elim0, rfl, rfl, rfl, rfl, rfl⟩⟩, by
      intro y hy
      have := hy 0
      simp only [cfg, slope_stack.1] at this
      funext l
      obtain rfl : l = 0 := Fin.ext (by omega)
      simpa using this⟩
  have X' : BoundedSolve slope' cfg' := ⟨hb', rfl, rfl, rfl, exactEnv_oracle, by norm_num, rfl, fun c => exactInners_lu c, (by intro h; cases h),
    fun t x p q => ⟨t, f' x, rfl, ⟨rfl, rfl, rfl, by funext l; simp [f', slope', mulVec, dotProduct, Fin.sum_univ_two]; ring, rfl, funext fun l => funext fun q => q.elim0, rfl, rfl, rfl⟩⟩, by
      intro y hy
      have := hy 1
      simp only [cfg', slope_stack.2.1] at this
      funext l
      obtain rfl : l = 0 := Fin.ext (by omega)
      simpa using this⟩
  refine ⟨cfg, cfg', rfl, rfl, fun o => ?_⟩
  obtain ⟨t, ht⟩ := solve_returns X.thr.ge X.eps.ge X.debug X.nx_pos none (noPhi X.phi) (fun t x p q => ⟨_, rfl⟩) (fun f hf => by cases hf) o X.bounds () 0 ⟨0, 0, 0, 0, 0, 0, 0, 0⟩ 0 ⟨0, 0, 0⟩ (History.init default) ⟨![5, 3], 0, fun _ => 6⟩
  obtain ⟨t', a1, a2, -⟩ := equivalent_with_bounds_partial X X' slope_same slope_rewrites.1 slope_rewrites.2 ⟨by rw [Fin.forall_fin_two]; exact ⟨rfl, rfl⟩, fun _ => rfl, rfl, rfl⟩ o () 0 ⟨0, 0, 0, 0, 0, 0, 0, 0⟩ 0 ⟨0, 0, 0⟩ (History.init default)
    ⟨![5, 3], 0, fun _ => 6⟩ () 0 ⟨0, 0, 0, 0, 0, 0, 0, 0⟩ 0 ⟨0, 0, 0⟩ (History.init default) ⟨![3, 5], 0, fun _ => 2⟩
    ⟨by funext i; revert i; rw [Fin.forall_fin_two]; simp, rfl, by simp only [cfg, cfg', slope_stack.1, slope_stack.2.1]; rw [Fin.forall_fin_two]; simp; norm_num⟩ ht (fun v _ => slope_regular v)
  refine ⟨t, t', ht, (a1 _).2 rfl, a2.iterations, ?_, ?_, ?_⟩
  · have := congrFun a2.point.x 0; simpa using this
  · have := congrFun a2.point.x 1; simpa using this
  · have := a2.point.mult 0
    simp only [cfg, cfg', slope_stack.1, slope_stack.2.1] at this
    simpa using this

end Optima
