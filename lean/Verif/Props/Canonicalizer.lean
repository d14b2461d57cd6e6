import Verif.Props.MasterMatrix
import Verif.Props.IndexUtils

/-!
# C20: `Canonicalizer`
-/

set_option linter.unusedSectionVars false

namespace Optima

open Matrix

variable {K : Type*} [Field K] [LinearOrder K] [IsStrictOrderedRing K] {nx np nw : ℕ}

theorem normInf_le_iff {n : ℕ} (v : Fin n → K) {a : K} (ha : 0 ≤ a) : normInf v ≤ a ↔ ∀ i, |v i| ≤ a := by
  unfold normInf
  have key := foldl_finRange_inv (n := n) (f := fun (m : K) i => max m |v i|) (b := 0) (P := fun l m => m ≤ a ↔ ∀ i ∈ l, |v i| ≤ a) (by simp [ha]) ?_
  · rw [key]; simp
  · intro l m i ih
    rw [max_le_iff, ih]
    simp [or_imp, forall_and]

/-- What `Canonicalizer::update` promises for the master matrix `M`. -/
structure CanonSpec (M : MasterMatrix K nx np nw) (c : CanonPack K nx np nw) : Prop where
  /-- `(js, ju)` is a permutation of the variables -/
  split : Function.Bijective (Sum.elim c.mat.js c.mat.ju)
  /-- `ju` holds the unstable variables -/
  unstable : ∀ i, (∃ k, c.mat.ju k = i) ↔ i ∈ M.ju
  /-- the first part of `js` holds the basic variables -/
  jb_eq : ∀ k, c.mat.jb k = c.mat.js (.inl k)
  jn_eq : ∀ k, c.mat.jn (.inl k) = c.mat.js (.inr k)
  ju_eq : ∀ k, c.mat.jn (.inr k) = c.mat.ju k
  basic : ∀ i, (∃ k, c.mat.jb k = i) ↔ ∃ k, M.RWQ.jb k = i
  /-- explicit basic variables are those with a dominant diagonal entry of `Hxx` -/
  be : ∀ k, 1 ≤ |M.Hxx (c.mat.jb (.inl k)) (c.mat.jb (.inl k))| ∧ ∀ q, |M.Vpx q (c.mat.jb (.inl k))| ≤ |M.Hxx (c.mat.jb (.inl k)) (c.mat.jb (.inl k))|
  bi : ∀ k, ¬ (1 ≤ |M.Hxx (c.mat.jb (.inr k)) (c.mat.jb (.inr k))| ∧ ∀ q, |M.Vpx q (c.mat.jb (.inr k))| ≤ |M.Hxx (c.mat.jb (.inr k)) (c.mat.jb (.inr k))|)
  /-- explicit stable non-basic variables are those with a dominant diagonal entry of `Hxx` -/
  ne : ∀ k, (∀ b, |c.mat.Sbsns b (.inl k)| ≤ |c.mat.Hss (.inr (.inl k)) (.inr (.inl k))|) ∧ ∀ q, |c.mat.Vps q (.inr (.inl k))| ≤ |c.mat.Hss (.inr (.inl k)) (.inr (.inl k))|
  ni : ∀ k, ¬ ((∀ b, |c.mat.Sbsns b (.inr k)| ≤ |c.mat.Hss (.inr (.inr k)) (.inr (.inr k))|) ∧ ∀ q, |c.mat.Vps q (.inr (.inr k))| ≤ |c.mat.Hss (.inr (.inr k)) (.inr (.inr k))|)
  /-- the blocks are those of the master matrix -/
  Hss : ∀ r s, c.mat.Hss r s = M.Hxx (c.mat.js r) (c.mat.js s)
  Hsp : ∀ r q, c.mat.Hsp r q = M.Hxp (c.mat.js r) q
  Vps : ∀ q s, c.mat.Vps q s = M.Vpx q (c.mat.js s)
  Vpp : c.mat.Vpp = M.Vpp
  /-- the echelon form is permuted in the same way as the variables -/
  ech : ∃ (σ : Fin c.nbe ⊕ Fin c.nbi → Fin M.RWQ.nb) (τ : (Fin c.nne ⊕ Fin c.nni) ⊕ Fin c.nnu → Fin M.RWQ.nn), Function.Bijective σ ∧ Function.Bijective τ ∧
    (∀ k, c.mat.jb k = M.RWQ.jb (σ k)) ∧ (∀ k, c.mat.jn k = M.RWQ.jn (τ k)) ∧ (∀ b k, c.mat.Sbsns b k = M.RWQ.Sbn (σ b) (τ (.inl k))) ∧
    (∀ b q, c.mat.Sbsp b q = M.RWQ.Sbp (σ b) q) ∧ (∀ b l, c.mat.Rbs b l = M.RWQ.Rb (σ b) l)

theorem bijective_of_perm {n : ℕ} (l1 l2 : List (Fin n)) (h : (l1 ++ l2).Perm (List.finRange n)) : Function.Bijective (Sum.elim l1.get l2.get) := by
  have hn : (l1 ++ l2).Nodup := h.nodup_iff.2 (List.nodup_finRange n)
  rw [List.nodup_append] at hn
  obtain ⟨h1, h2, h3⟩ := hn
  constructor
  · refine Function.Injective.sumElim (List.nodup_iff_injective_get.1 h1) (List.nodup_iff_injective_get.1 h2) ?_
    intro a b e
    exact h3 _ (List.get_mem _ _) _ (List.get_mem _ _) e
  · intro i
    have : i ∈ l1 ++ l2 := h.mem_iff.2 (List.mem_finRange i)
    rw [List.mem_append] at this
    rcases this with hi | hi
    · obtain ⟨k, rfl⟩ := List.mem_iff_get.1 hi; exact ⟨.inl k, rfl⟩
    · obtain ⟨k, rfl⟩ := List.mem_iff_get.1 hi; exact ⟨.inr k, rfl⟩

theorem bijective_of_perm3 {n : ℕ} (l1 l2 l3 : List (Fin n)) (h : (l1 ++ l2 ++ l3).Perm (List.finRange n)) : Function.Bijective (Sum.elim (Sum.elim l1.get l2.get) l3.get) := by
  have hn : (l1 ++ l2 ++ l3).Nodup := h.nodup_iff.2 (List.nodup_finRange n)
  rw [List.nodup_append, List.nodup_append] at hn
  obtain ⟨⟨h1, h2, h3⟩, h4, h5⟩ := hn
  constructor
  · refine Function.Injective.sumElim (Function.Injective.sumElim (List.nodup_iff_injective_get.1 h1) (List.nodup_iff_injective_get.1 h2) ?_) (List.nodup_iff_injective_get.1 h4) ?_
    · intro a b e
      exact h3 _ (List.get_mem _ _) _ (List.get_mem _ _) e
    · rintro (a | a) b e
      · exact h5 _ (List.mem_append_left _ (List.get_mem _ _)) _ (List.get_mem _ _) e
      · exact h5 _ (List.mem_append_right _ (List.get_mem _ _)) _ (List.get_mem _ _) e
  · intro i
    have : i ∈ l1 ++ l2 ++ l3 := h.mem_iff.2 (List.mem_finRange i)
    rw [List.mem_append, List.mem_append] at this
    rcases this with (hi | hi) | hi
    · obtain ⟨k, rfl⟩ := List.mem_iff_get.1 hi; exact ⟨.inl (.inl k), rfl⟩
    · obtain ⟨k, rfl⟩ := List.mem_iff_get.1 hi; exact ⟨.inl (.inr k), rfl⟩
    · obtain ⟨k, rfl⟩ := List.mem_iff_get.1 hi; exact ⟨.inr k, rfl⟩

theorem basicExplicit_iff (M : MasterMatrix K nx np nw) (k : Fin M.RWQ.nb) : basicExplicit M k = true ↔
    1 ≤ |M.Hxx (M.RWQ.jb k) (M.RWQ.jb k)| ∧ ∀ q, |M.Vpx q (M.RWQ.jb k)| ≤ |M.Hxx (M.RWQ.jb k) (M.RWQ.jb k)| := by
  simp only [basicExplicit, decide_eq_true_eq, ge_iff_le, max_le_iff]
  rw [normInf_le_iff _ (abs_nonneg _)]

theorem nonbasicExplicit_iff (M : MasterMatrix K nx np nw) (k : Fin M.RWQ.nn) : nonbasicExplicit M k = true ↔
    (∀ b, |M.RWQ.Sbn b k| ≤ |M.Hxx (M.RWQ.jn k) (M.RWQ.jn k)|) ∧ ∀ q, |M.Vpx q (M.RWQ.jn k)| ≤ |M.Hxx (M.RWQ.jn k) (M.RWQ.jn k)| := by
  simp only [nonbasicExplicit, decide_eq_true_eq, ge_iff_le, max_le_iff]
  rw [normInf_le_iff _ (abs_nonneg _), normInf_le_iff _ (abs_nonneg _)]

open Idx in
/-- The number of basic variables moved to the left is `nb` iff none is unstable. -/
theorem nbs_lt_iff (M : MasterMatrix K nx np nw) (Pb : PartitionImpl (Fin M.RWQ.nb)) :
    M.RWQ.nb - (moveLeftIf Pb (List.finRange M.RWQ.nb) (fun k => !M.ju.contains (M.RWQ.jb k))).2 > 0 ↔ ∃ k, M.RWQ.jb k ∈ M.ju := by
  have h := (moveLeftIf_splits Pb (List.finRange M.RWQ.nb) (fun k => !M.ju.contains (M.RWQ.jb k))).1
  generalize moveLeftIf Pb (List.finRange M.RWQ.nb) (fun k => !M.ju.contains (M.RWQ.jb k)) = r at h
  have hlen : r.1.length = M.RWQ.nb := by rw [h.perm.length_eq, List.length_finRange]
  constructor
  · intro hlt
    have hlt' : r.2 < r.1.length := by omega
    have hm : r.1[r.2] ∈ r.1.drop r.2 := by
      rw [List.mem_drop_iff_getElem]
      exact ⟨0, by omega, by simp⟩
    have := ((h.right _).1 hm).2
    exact ⟨r.1[r.2], by simpa using this⟩
  · rintro ⟨k, hk⟩
    have hm : k ∈ r.1.drop r.2 := (h.right k).2 ⟨List.mem_finRange k, by simpa using hk⟩
    have := List.length_pos_of_mem hm
    rw [List.length_drop] at this
    omega

/-- **C20** `update` raises its error exactly when a basic variable is marked unstable (for every master matrix, no other assumption). -/
theorem canonicalize_error_iff (M : MasterMatrix K nx np nw) (Pb : Idx.PartitionImpl (Fin M.RWQ.nb)) (Pn : Idx.PartitionImpl (Fin M.RWQ.nn)) :
    canonicalize M Pb Pn = .error ↔ ∃ k, M.RWQ.jb k ∈ M.ju := by
  rw [← nbs_lt_iff M Pb]
  unfold canonicalize
  dsimp only
  constructor
  · intro h
    by_contra hn
    rw [if_neg hn] at h
    split_ifs at h
  · intro h; rw [if_pos h]

open Idx in
/-- **C20** For every master matrix whose echelon form orders all variables and every set of unstable variables without a basic one, `update` succeeds and the canonical matrix is the
    master matrix reordered, with the variables split as documented. Any implementation of `std::partition` may be used. -/
theorem canonicalize_spec (M : MasterMatrix K nx np nw) (Pb : PartitionImpl (Fin M.RWQ.nb)) (Pn : PartitionImpl (Fin M.RWQ.nn))
    (hQ : Function.Bijective (Sum.elim M.RWQ.jb M.RWQ.jn)) (hju : M.ju.Nodup) (hb : ∀ k, M.RWQ.jb k ∉ M.ju) :
    ∃ c, canonicalize M Pb Pn = .ok c ∧ CanonSpec M c := by
  have hnb := (nbs_lt_iff M Pb).not.2 (by push Not; exact hb)
  unfold canonicalize
  dsimp only
  rw [if_neg hnb]
  have h := (moveLeftIf_splits Pb (List.finRange M.RWQ.nb) (fun k => !M.ju.contains (M.RWQ.jb k))).1
  have g := (moveLeftIf_splits Pn (List.finRange M.RWQ.nn) (fun k => !M.ju.contains (M.RWQ.jn k))).1
  generalize moveLeftIf Pb (List.finRange M.RWQ.nb) (fun k => !M.ju.contains (M.RWQ.jb k)) = rb at h hnb
  generalize moveLeftIf Pn (List.finRange M.RWQ.nn) (fun k => !M.ju.contains (M.RWQ.jn k)) = rn at g
  have h2 := (moveLeftIf_splits Pb (rb.1.take rb.2) (basicExplicit M)).1
  have g2 := (moveLeftIf_splits Pn (rn.1.take rn.2) (nonbasicExplicit M)).1
  generalize moveLeftIf Pb (rb.1.take rb.2) (basicExplicit M) = rbs at h2
  generalize moveLeftIf Pn (rn.1.take rn.2) (nonbasicExplicit M) = rns at g2
  have hlb : rb.1.length = M.RWQ.nb := by rw [h.perm.length_eq, List.length_finRange]
  have hln : rn.1.length = M.RWQ.nn := by rw [g.perm.length_eq, List.length_finRange]
  have hrb2 : rb.2 = M.RWQ.nb := by have := h.le; rw [List.length_finRange] at this; omega
  have hrn2 : rn.2 ≤ M.RWQ.nn := by have := g.le; rwa [List.length_finRange] at this
  have htake : rb.1.take rb.2 = rb.1 := List.take_of_length_le (by omega)
  rw [htake] at h2
  -- permutations
  have hpb : (rbs.1.take rbs.2 ++ rbs.1.drop rbs.2).Perm (List.finRange M.RWQ.nb) := by
    rw [List.take_append_drop]; exact h2.perm.trans h.perm
  have hpn : (rns.1.take rns.2 ++ rns.1.drop rns.2 ++ rn.1.drop rn.2).Perm (List.finRange M.RWQ.nn) := by
    rw [List.take_append_drop]
    refine (g2.perm.append_right _).trans ?_
    rw [List.take_append_drop]; exact g.perm
  have bb := bijective_of_perm _ _ hpb
  have bn := bijective_of_perm3 _ _ _ hpn
  -- sizes
  have hnx : M.RWQ.nb + M.RWQ.nn = nx := by
    have := Fintype.card_of_bijective hQ
    simpa using this
  have hmemU : ∀ i, (∃ k, M.RWQ.jn ((rn.1.drop rn.2).get k) = i) ↔ i ∈ M.ju := by
    intro i
    constructor
    · rintro ⟨k, rfl⟩
      have := ((g.right _).1 (List.get_mem (rn.1.drop rn.2) k)).2
      simpa using this
    · intro hi
      obtain ⟨r, hr⟩ := hQ.2 i
      rcases r with k | k
      · simp only [Sum.elim_inl] at hr; exact absurd (hr ▸ hi) (hb k)
      · simp only [Sum.elim_inr] at hr
        have : k ∈ rn.1.drop rn.2 := (g.right k).2 ⟨List.mem_finRange k, by simpa [hr] using hi⟩
        obtain ⟨l, rfl⟩ := List.mem_iff_get.1 this
        exact ⟨l, hr⟩
  have hinjn : Function.Injective M.RWQ.jn := fun a b e => Sum.inr_injective (hQ.1 (by simpa using e))
  have hjulen : (rn.1.drop rn.2).length = M.ju.length := by
    have hnd : (rn.1.drop rn.2).Nodup := (List.drop_sublist _ _).nodup (g.perm.nodup_iff.2 (List.nodup_finRange _))
    have hp : ((rn.1.drop rn.2).map M.RWQ.jn).Perm M.ju := by
      rw [List.perm_ext_iff_of_nodup (hnd.map hinjn) hju]
      intro i
      rw [← hmemU, List.mem_map]
      constructor
      · rintro ⟨a, ha, e⟩; obtain ⟨l, rfl⟩ := List.mem_iff_get.1 ha; exact ⟨l, e⟩
      · rintro ⟨l, e⟩; exact ⟨_, List.get_mem _ _, e⟩
    rw [← hp.length_eq, List.length_map]
  rw [if_pos (by rw [List.length_drop] at hjulen; omega)]
  refine ⟨_, rfl, ?_⟩
  have hbe : ∀ k : Fin (rbs.1.take rbs.2).length, basicExplicit M ((rbs.1.take rbs.2).get k) = true := fun k => ((h2.left _).1 (List.get_mem _ _)).2
  have hbi : ∀ k : Fin (rbs.1.drop rbs.2).length, ¬ basicExplicit M ((rbs.1.drop rbs.2).get k) = true := fun k => ((h2.right _).1 (List.get_mem _ _)).2
  have hne : ∀ k : Fin (rns.1.take rns.2).length, nonbasicExplicit M ((rns.1.take rns.2).get k) = true := fun k => ((g2.left _).1 (List.get_mem _ _)).2
  have hni : ∀ k : Fin (rns.1.drop rns.2).length, ¬ nonbasicExplicit M ((rns.1.drop rns.2).get k) = true := fun k => ((g2.right _).1 (List.get_mem _ _)).2
  constructor
  case split =>
    have e : Sum.elim (canonOf M (rbs.1.take rbs.2) (rbs.1.drop rbs.2) (rns.1.take rns.2) (rns.1.drop rns.2) (rn.1.drop rn.2)).mat.js
        (canonOf M (rbs.1.take rbs.2) (rbs.1.drop rbs.2) (rns.1.take rns.2) (rns.1.drop rns.2) (rn.1.drop rn.2)).mat.ju =
        Sum.elim M.RWQ.jb M.RWQ.jn ∘ Sum.map (Sum.elim (rbs.1.take rbs.2).get (rbs.1.drop rbs.2).get)
          (Sum.elim (Sum.elim (rns.1.take rns.2).get (rns.1.drop rns.2).get) (rn.1.drop rn.2).get) ∘ (Equiv.sumAssoc _ _ _) := by
      funext r
      rcases r with (r | r) | r <;> rfl
    rw [e]
    exact hQ.comp ((Sum.map_bijective.2 ⟨bb, bn⟩).comp (Equiv.bijective _))
  case unstable => exact hmemU
  case jb_eq => intro k; rfl
  case jn_eq => intro k; rfl
  case ju_eq => intro k; rfl
  case basic =>
    intro i
    constructor
    · rintro ⟨k, e⟩; exact ⟨_, e⟩
    · rintro ⟨k, e⟩
      obtain ⟨l, rfl⟩ := bb.2 k
      exact ⟨l, e⟩
  case be => intro k; exact (basicExplicit_iff M _).1 (hbe k)
  case bi => intro k; exact mt (basicExplicit_iff M _).2 (hbi k)
  case ne =>
    intro k
    have := (nonbasicExplicit_iff M _).1 (hne k)
    exact ⟨fun b => this.1 _, fun q => this.2 q⟩
  case ni =>
    intro k
    have := mt (nonbasicExplicit_iff M _).2 (hni k)
    rintro ⟨h1, h2⟩
    refine this ⟨fun b => ?_, h2⟩
    obtain ⟨l, rfl⟩ := bb.2 b
    exact h1 l
  case Hss => intro r s; rfl
  case Hsp => intro r s; rfl
  case Vps => intro r s; rfl
  case Vpp => rfl
  case ech =>
    exact ⟨_, _, bb, bn, fun _ => rfl, fun _ => rfl, fun _ _ => rfl, fun _ _ => rfl, fun _ _ => rfl⟩

/-- **C20** The echelon identities carry over: if `Rb*[Wx(jb) Wx(jn) Wp] = [I Sbn Sbp]`, then `Rbs*[Wx(jbs) Wx(jns) Wp] = [I Sbsns Sbsp]`. -/
theorem canonical_echelon {M : MasterMatrix K nx np nw} {c : CanonPack K nx np nw} (h : CanonSpec M c)
    (h1 : M.RWQ.Rb * M.Wx.submatrix id M.RWQ.jb = 1) (h2 : M.RWQ.Rb * M.Wx.submatrix id M.RWQ.jn = M.RWQ.Sbn) (h3 : M.RWQ.Rb * M.Wp = M.RWQ.Sbp) :
    c.mat.Rbs * M.Wx.submatrix id (c.mat.js ∘ Sum.inl) = 1 ∧ c.mat.Rbs * M.Wx.submatrix id (c.mat.js ∘ Sum.inr) = c.mat.Sbsns ∧ c.mat.Rbs * M.Wp = c.mat.Sbsp := by
  obtain ⟨σ, τ, hσ, hτ, jb, jn, S, Sp, R⟩ := h.ech
  refine ⟨?_, ?_, ?_⟩
  · ext b b'
    have := congrFun (congrFun h1 (σ b)) (σ b')
    simp only [mul_apply, submatrix_apply, id, Function.comp_apply, ← h.jb_eq, jb, R, Matrix.one_apply, hσ.1.eq_iff] at this ⊢
    exact this
  · ext b k
    have := congrFun (congrFun h2 (σ b)) (τ (.inl k))
    simp only [mul_apply, submatrix_apply, id, Function.comp_apply, ← h.jn_eq, jn, R, S] at this ⊢
    exact this
  · ext b q
    have := congrFun (congrFun h3 (σ b)) q
    simp only [mul_apply, R, Sp] at this ⊢
    exact this

open Idx in
/-- **C20** Marking the same variable unstable twice is not detected: `ns = nx - ju.size()` is then smaller than the number of stable variables and the blocks do not fit. -/
theorem canonicalize_duplicates (M : MasterMatrix K nx np nw) (Pb : PartitionImpl (Fin M.RWQ.nb)) (Pn : PartitionImpl (Fin M.RWQ.nn))
    (hQ : Function.Bijective (Sum.elim M.RWQ.jb M.RWQ.jn)) (hju : ¬ M.ju.Nodup) (hb : ∀ k, M.RWQ.jb k ∉ M.ju) : canonicalize M Pb Pn = .sizeMismatch := by
  have hnb := (nbs_lt_iff M Pb).not.2 (by push Not; exact hb)
  unfold canonicalize
  dsimp only
  rw [if_neg hnb, if_neg]
  have h := (moveLeftIf_splits Pb (List.finRange M.RWQ.nb) (fun k => !M.ju.contains (M.RWQ.jb k))).1
  have g := (moveLeftIf_splits Pn (List.finRange M.RWQ.nn) (fun k => !M.ju.contains (M.RWQ.jn k))).1
  generalize moveLeftIf Pb (List.finRange M.RWQ.nb) (fun k => !M.ju.contains (M.RWQ.jb k)) = rb at h hnb
  generalize moveLeftIf Pn (List.finRange M.RWQ.nn) (fun k => !M.ju.contains (M.RWQ.jn k)) = rn at g
  intro hx
  have hnx : M.RWQ.nb + M.RWQ.nn = nx := by simpa using Fintype.card_of_bijective hQ
  have hln : rn.1.length = M.RWQ.nn := by rw [g.perm.length_eq, List.length_finRange]
  have hrb2 : rb.2 = M.RWQ.nb := by have := h.le; rw [List.length_finRange] at this; omega
  have hlen : (rn.1.drop rn.2).length = M.ju.length := by rw [List.length_drop]; omega
  -- the deduplicated list is shorter
  have hinjn : Function.Injective M.RWQ.jn := fun a b e => Sum.inr_injective (hQ.1 (by simpa using e))
  have hnd : (rn.1.drop rn.2).Nodup := (List.drop_sublist _ _).nodup (g.perm.nodup_iff.2 (List.nodup_finRange _))
  have hp : ((rn.1.drop rn.2).map M.RWQ.jn).Perm M.ju.dedup := by
    rw [List.perm_ext_iff_of_nodup (hnd.map hinjn) (List.nodup_dedup _)]
    intro i
    rw [List.mem_dedup, List.mem_map]
    constructor
    · rintro ⟨a, ha, rfl⟩
      have := ((g.right a).1 ha).2
      simpa using this
    · intro hi
      obtain ⟨r, hr⟩ := hQ.2 i
      rcases r with k | k
      · simp only [Sum.elim_inl] at hr; exact absurd (hr ▸ hi) (hb k)
      · simp only [Sum.elim_inr] at hr
        exact ⟨k, (g.right k).2 ⟨List.mem_finRange k, by simpa [hr] using hi⟩, hr⟩
  have e := hp.length_eq
  rw [List.length_map, hlen] at e
  exact hju (List.dedup_eq_self.1 ((List.dedup_sublist M.ju).eq_of_length e.symm))

/-- A master matrix with three variables, one parameter and one constraint `x0 + 2 x1 + x2 + p = b`; `x2` is unstable. -/
def exMaster : MasterMatrix ℚ 3 1 1 where
  Hxx := fun i j => if i = j then ![3, 1, 5] i else 1
  Hxp := fun i _ => ![1, 2, 3] i
  isHxxDiag := false
  Vpx := fun _ i => ![1, 0, 2] i
  Vpp := fun _ _ => 1
  Wx := fun _ i => ![1, 2, 1] i
  Wp := fun _ _ => 1
  RWQ := { nb := 1, nn := 2, Rb := fun _ _ => 1, Sbn := fun _ k => ![2, 1] k, Sbp := fun _ _ => 1, jb := fun _ => 0, jn := ![1, 2] }
  js := [1, 0]
  ju := [2]

/-- The hypotheses of `canonicalize_spec`, `canonical_echelon` and of the product theorems are met by a non-trivial case. -/
example : Function.Bijective (Sum.elim exMaster.RWQ.jb exMaster.RWQ.jn) ∧ exMaster.ju.Nodup ∧ (∀ k, exMaster.RWQ.jb k ∉ exMaster.ju) ∧ ValidSplit exMaster.js exMaster.ju ∧
    (∀ i j : Fin 1, ∑ l, exMaster.RWQ.Rb i l * exMaster.Wx l (exMaster.RWQ.jb j) = if i = j then 1 else 0) := by
  refine ⟨⟨?_, ?_⟩, by decide, by decide, by unfold ValidSplit; decide, ?_⟩
  · unfold Function.Injective; decide
  · unfold Function.Surjective; decide
  · decide +kernel

end Optima
