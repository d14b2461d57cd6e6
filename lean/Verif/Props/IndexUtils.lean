import Verif.Model.IndexUtils
import Verif.Lemmas.Tactics
import Verif.Lemmas.Fold
import Mathlib.Data.List.Nodup
import Mathlib.Data.Fin.VecNotation
import Mathlib.LinearAlgebra.Matrix.Notation
import Mathlib.Data.Finset.Card

/-! # Properties C12 - C14: index moves, stable partition, stability classification -/

set_option linter.unusedSectionVars false

namespace Optima.Idx

variable {α : Type*} [DecidableEq α]

/-- Non-vacuity of the contract: stable partition is one implementation of `std::partition`. -/
def stableImpl : PartitionImpl α where
  run := stablePartition
  perm p l := by simpa [stablePartition] using List.filter_append_perm p l
  le p l := by simpa [stablePartition] using List.length_filter_le _ _
  left p l i hi := by
    simp only [stablePartition] at hi
    rw [List.take_left' rfl] at hi
    exact (List.mem_filter.1 hi).2
  right p l i hi := by
    simp only [stablePartition] at hi
    rw [List.drop_left' rfl] at hi
    simpa using (List.mem_filter.1 hi).2

/-- Specification of a move: `r.1` permutes the base, `r.2` is the size of group 1, group 1 consists of exactly the entries of the base that
    satisfy `good` and group 2 of exactly those that do not. -/
structure Splits (base : List α) (r : List α × ℕ) (good : α → Prop) : Prop where
  perm : r.1.Perm base
  le : r.2 ≤ base.length
  left : ∀ i, i ∈ r.1.take r.2 ↔ i ∈ base ∧ good i
  right : ∀ i, i ∈ r.1.drop r.2 ↔ i ∈ base ∧ ¬ good i

theorem run_splits (P : PartitionImpl α) (p : α → Bool) (base : List α) : Splits base (P.run p base) (fun i => p i = true) := by
  have hp := P.perm p base
  have hmem : ∀ i, i ∈ base ↔ i ∈ (P.run p base).1.take (P.run p base).2 ∨ i ∈ (P.run p base).1.drop (P.run p base).2 := by
    intro i
    rw [← List.mem_append, List.take_append_drop, hp.mem_iff]
  refine ⟨hp, P.le p base, ?_, ?_⟩
  · intro i
    constructor
    · intro h; exact ⟨(hmem i).2 (Or.inl h), P.left p base i h⟩
    · rintro ⟨h, hi⟩
      rcases (hmem i).1 h with h | h
      · exact h
      · have := P.right p base i h; simp_all
  · intro i
    constructor
    · intro h; exact ⟨(hmem i).2 (Or.inr h), by rw [P.right p base i h]; simp⟩
    · rintro ⟨h, hi⟩
      rcases (hmem i).1 h with h | h
      · exact absurd (P.left p base i h) hi
      · exact h

theorem Splits.congr {base : List α} {r : List α × ℕ} {g g' : α → Prop} (h : Splits base r g) (hg : ∀ i, g i ↔ g' i) :
    Splits base r g' := by
  have : g = g' := funext fun i => propext (hg i)
  exact this ▸ h

theorem contains_iff (i : α) (l : List α) : contains i l = true ↔ i ∈ l := by simp [contains]

/-- **C12** `moveLeftIf` and `stableMoveLeftIf` split on the predicate. -/
theorem moveLeftIf_splits (P : PartitionImpl α) (base : List α) (pred : α → Bool) :
    Splits base (moveLeftIf P base pred) (fun i => pred i = true) ∧
    Splits base (stableMoveLeftIf base pred) (fun i => pred i = true) :=
  ⟨run_splits P pred base, run_splits stableImpl pred base⟩

/-- **C12** `moveRightIf` and `stableMoveRightIf` put the entries that satisfy the predicate into group 2. -/
theorem moveRightIf_splits (P : PartitionImpl α) (base : List α) (pred : α → Bool) :
    Splits base (moveRightIf P base pred) (fun i => ¬ pred i = true) ∧
    Splits base (stableMoveRightIf base pred) (fun i => ¬ pred i = true) :=
  ⟨(run_splits P _ base).congr (by simp), (run_splits stableImpl _ base).congr (by simp)⟩

/-- **C12** `moveIntersectionRight` and its stable variant: group 2 is formed by the indices in `p`, for every `p` (also empty). -/
theorem moveIntersectionRight_splits (P : PartitionImpl α) (base p : List α) :
    Splits base (moveIntersectionRight P base p) (fun i => i ∉ p) ∧
    Splits base (moveIntersectionRightStable base p) (fun i => i ∉ p) := by
  unfold moveIntersectionRight moveIntersectionRightStable
  split_ifs with h
  · rw [List.length_eq_zero_iff] at h; subst h
    have : Splits base (base, base.length) (fun i => i ∉ ([] : List α)) := ⟨List.Perm.refl _, le_rfl, by simp, by simp⟩
    exact ⟨this, this⟩
  · exact ⟨(run_splits P _ base).congr (by simp [contains]), (run_splits stableImpl _ base).congr (by simp [contains])⟩

/-- **C12 (partial: nonempty selection)** `moveIntersectionLeft` and its stable variant: group 1 is formed by the indices in `p`.  The full claim, for every
    `p`, is false - see `moveIntersectionLeft_empty`. -/
theorem moveIntersectionLeft_splits_partial (P : PartitionImpl α) (base p : List α) (hp : p ≠ []) :
    Splits base (moveIntersectionLeft P base p) (fun i => i ∈ p) ∧
    Splits base (moveIntersectionLeftStable base p) (fun i => i ∈ p) := by
  unfold moveIntersectionLeft moveIntersectionLeftStable
  rw [if_neg (by simpa using hp), if_neg (by simpa using hp)]
  exact ⟨(run_splits P _ base).congr (by simp [contains]), (run_splits stableImpl _ base).congr (by simp [contains])⟩

/-- **C12, negation**: with an empty selection `moveIntersectionLeft` (and the stable variant) reports *every* index as selected. -/
theorem moveIntersectionLeft_empty (P : PartitionImpl α) (base : List α) :
    moveIntersectionLeft P base [] = (base, base.length) ∧ moveIntersectionLeftStable base [] = (base, base.length) ∧
    (base ≠ [] → ¬ Splits base (moveIntersectionLeft P base []) (fun i => i ∈ ([] : List α))) := by
  refine ⟨rfl, rfl, ?_⟩
  intro hb hs
  obtain ⟨a, ha⟩ := List.exists_mem_of_ne_nil base hb
  have := (hs.left a).1 (by simpa [moveIntersectionLeft] using ha)
  simp at this

example (P : PartitionImpl ℕ) : Splits [3, 1, 2] (moveIntersectionLeft P [3, 1, 2] [2, 3]) (fun i => i ∈ [2, 3]) :=
  (moveIntersectionLeft_splits_partial P _ _ (by simp)).1

/-- **C12** stable variants keep the relative order of the base within the groups. -/
theorem stable_keeps_order (base p : List α) :
    ((moveIntersectionRightStable base p).1.take (moveIntersectionRightStable base p).2).Sublist base ∧
    ((moveIntersectionRightStable base p).1.drop (moveIntersectionRightStable base p).2).Sublist base ∧
    ((moveIntersectionLeftStable base p).1.take (moveIntersectionLeftStable base p).2).Sublist base ∧
    ((moveIntersectionLeftStable base p).1.drop (moveIntersectionLeftStable base p).2).Sublist base := by
  unfold moveIntersectionRightStable moveIntersectionLeftStable
  split_ifs
  · simp
  · simp only [stablePartition, List.take_left', List.drop_left', List.filter_sublist, and_self]

/-- **C12, documentation**: the documented order ("indices in `p` and group 1 are the same and have the same order") is not what the stable variants
    deliver; group 1 keeps the order of `base`. -/
theorem stable_not_order_of_p : ∃ base p : List ℕ, p.Sublist base.reverse ∧ p.Nodup ∧
    (moveIntersectionLeftStable base p).1.take (moveIntersectionLeftStable base p).2 ≠ p :=
  ⟨[1, 2], [2, 1], by decide, by decide, by decide⟩

/-- **C12** `difference` and `intersect` agree with set difference and intersection and keep multiplicities. -/
theorem difference_spec (P : PartitionImpl α) (l1 l2 : List α) :
    (∀ i, i ∈ difference P l1 l2 ↔ i ∈ l1 ∧ i ∉ l2) ∧ (∀ i, i ∈ intersect P l1 l2 ↔ i ∈ l1 ∧ i ∈ l2) ∧
    (difference P l1 l2 ++ intersect P l1 l2).Perm l1 := by
  have h := (moveIntersectionRight_splits P l1 l2).1
  have hlen : (moveIntersectionRight P l1 l2).1.length = l1.length := h.perm.length_eq
  have hle := h.le
  unfold difference intersect
  dsimp only
  rw [show (moveIntersectionRight P l1 l2).1.length - ((moveIntersectionRight P l1 l2).1.length - (moveIntersectionRight P l1 l2).2)
      = (moveIntersectionRight P l1 l2).2 by omega]
  refine ⟨h.left, fun i => by rw [h.right]; simp, ?_⟩
  rw [List.take_append_drop]; exact h.perm

/-- **C12** `isIntersectionEmpty`. -/
theorem isIntersectionEmpty_spec (l1 l2 : List α) : isIntersectionEmpty l1 l2 = true ↔ ∀ i, i ∈ l1 → i ∉ l2 := by
  induction l1 with
  | nil => simp [isIntersectionEmpty]
  | cons a l ih =>
    unfold isIntersectionEmpty
    split_ifs with h
    · rw [contains_iff] at h
      simp [h]
    · rw [contains_iff] at h
      simp [ih, h]

end Optima.Idx

/-! ## C13 -/
namespace Optima.StablePart
open Idx

structure Inv (nx : ℕ) (s : St) : Prop where
  perm : s.jsu.Perm (List.range nx)
  le : s.ns ≤ nx

theorem step_inv (P : PartitionImpl ℕ) {nx : ℕ} {s : St} (h : Inv nx s) (o : Op) : Inv nx (step P s o).1 := by
  have hlen : s.jsu.length = nx := by rw [h.perm.length_eq, List.length_range]
  cases o with
  | setStable js =>
    by_cases hjs : js = []
    · subst hjs
      exact ⟨h.perm, by simp [step, moveIntersectionLeft, hlen]⟩
    · have := (moveIntersectionLeft_splits_partial P s.jsu js hjs).1
      exact ⟨this.perm.trans h.perm, hlen ▸ this.le⟩
  | setUnstable ju =>
    have := (moveIntersectionRight_splits P s.jsu ju).1
    exact ⟨this.perm.trans h.perm, hlen ▸ this.le⟩

theorem run_inv (P : PartitionImpl ℕ) (nx : ℕ) (ops : List Op) : Inv nx (run P nx ops) := by
  unfold run
  generalize hs : init nx = s
  have h : Inv nx s := hs ▸ ⟨List.Perm.refl _, le_rfl⟩
  clear hs
  induction ops generalizing s with
  | nil => exact h
  | cons o ops ih => exact ih _ (step_inv P h o)

/-- **C13** After any history the two lists are disjoint, without repetitions, and together list every variable exactly once. -/
theorem partition_always (P : PartitionImpl ℕ) (nx : ℕ) (ops : List Op) :
    let s := run P nx ops
    (s.stable ++ s.unstable).Perm (List.range nx) ∧ (s.stable ++ s.unstable).Nodup ∧
    (∀ i, i ∈ s.stable → i ∉ s.unstable) := by
  have h := run_inv P nx ops
  have hlen : (run P nx ops).jsu.length = nx := by rw [h.perm.length_eq, List.length_range]
  have hle := h.le
  dsimp only
  have hu : (run P nx ops).unstable = (run P nx ops).jsu.drop (run P nx ops).ns := by
    unfold St.unstable; congr 1; omega
  have e : (run P nx ops).stable ++ (run P nx ops).unstable = (run P nx ops).jsu := by
    rw [hu]; exact List.take_append_drop _ _
  have hnd : ((run P nx ops).stable ++ (run P nx ops).unstable).Nodup := by
    rw [e, h.perm.nodup_iff]; exact List.nodup_range
  refine ⟨by rw [e]; exact h.perm, hnd, ?_⟩
  intro i hi hi'
  exact (List.nodup_append.1 hnd).2.2 i hi i hi' rfl

/-- **C13 (partial for `setStable`: nonempty argument)** After any history ending in `setUnstable ju` the unstable variables are exactly the members of `ju` (within range);
    ending in `setStable js` with `js` nonempty the stable variables are exactly the members of `js`. -/
theorem last_call_wins_partial (P : PartitionImpl ℕ) (nx : ℕ) (ops : List Op) :
    (∀ ju, ∀ i, i ∈ (run P nx (ops ++ [.setUnstable ju])).unstable ↔ i < nx ∧ i ∈ ju) ∧
    (∀ js, js ≠ [] → ∀ i, i ∈ (run P nx (ops ++ [.setStable js])).stable ↔ i < nx ∧ i ∈ js) := by
  have h := run_inv P nx ops
  have hlen : (run P nx ops).jsu.length = nx := by rw [h.perm.length_eq, List.length_range]
  constructor
  · intro ju i
    have hs := (moveIntersectionRight_splits P (run P nx ops).jsu ju).1
    have e : run P nx (ops ++ [.setUnstable ju]) = (step P (run P nx ops) (.setUnstable ju)).1 := by simp [run, List.foldl_append]
    have hl : (moveIntersectionRight P (run P nx ops).jsu ju).1.length = nx := by rw [hs.perm.length_eq, hlen]
    have hle := hs.le
    have : (run P nx (ops ++ [.setUnstable ju])).unstable =
        (moveIntersectionRight P (run P nx ops).jsu ju).1.drop (moveIntersectionRight P (run P nx ops).jsu ju).2 := by
      rw [e]; unfold St.unstable step; dsimp only; congr 1; omega
    rw [this, hs.right, h.perm.mem_iff]; simp
  · intro js hjs i
    have hs := (moveIntersectionLeft_splits_partial P (run P nx ops).jsu js hjs).1
    have e : run P nx (ops ++ [.setStable js]) = (step P (run P nx ops) (.setStable js)).1 := by simp [run, List.foldl_append]
    rw [e]
    change i ∈ (moveIntersectionLeft P (run P nx ops).jsu js).1.take (moveIntersectionLeft P (run P nx ops).jsu js).2 ↔ _
    rw [hs.left, h.perm.mem_iff]; simp

example (P : PartitionImpl ℕ) : 1 ∈ (run P 3 ([.setUnstable [0]] ++ [.setStable [1]])).stable :=
  ((last_call_wins_partial P 3 _).2 [1] (by simp) 1).2 (by simp)

theorem length_eq_iff {nx : ℕ} {l js : List ℕ} (hl : l.Nodup) (h : ∀ i, i ∈ l ↔ i < nx ∧ i ∈ js) : l.length = js.length ↔ js.Nodup ∧ ∀ i ∈ js, i < nx := by
  have e : l.toFinset = js.toFinset.filter (· < nx) := by ext i; simp [h, and_comm]
  have c1 : l.length = (js.toFinset.filter (· < nx)).card := by rw [← e, List.toFinset_card_of_nodup hl]
  have c2 : (js.toFinset.filter (· < nx)).card ≤ js.toFinset.card := Finset.card_filter_le _ _
  have c3 : js.toFinset.card ≤ js.length := List.toFinset_card_le js
  constructor
  · intro hh
    refine ⟨?_, fun i hi => ?_⟩
    · have hd : js.dedup = js := (List.dedup_sublist js).eq_of_length (by rw [← List.card_toFinset]; omega)
      rw [← hd]; exact List.nodup_dedup js
    have : js.toFinset.filter (· < nx) = js.toFinset := Finset.eq_of_subset_of_card_le (Finset.filter_subset _ _) (by omega)
    have hi' : i ∈ js.toFinset.filter (· < nx) := by rw [this]; simpa using hi
    exact (Finset.mem_filter.1 hi').2
  · rintro ⟨h1, h2⟩
    rw [c1, Finset.filter_true_of_mem (by simpa using h2), List.toFinset_card_of_nodup h1]

/-- **C13**: the assertions of debug builds, after any history.  `setUnstable` accepts exactly the lists of variables without repetition. `setStable` accepts exactly those that are not empty (and the empty one if there is no variable, see below). -/
theorem partition_assert (P : PartitionImpl ℕ) (nx : ℕ) (ops : List Op) :
    (∀ ju, (step P (run P nx ops) (.setUnstable ju)).2 = true ↔ ju.Nodup ∧ ∀ i ∈ ju, i < nx) ∧
    (∀ js, js ≠ [] → ((step P (run P nx ops) (.setStable js)).2 = true ↔ js.Nodup ∧ ∀ i ∈ js, i < nx)) := by
  have h := run_inv P nx ops
  have hlen : (run P nx ops).jsu.length = nx := by rw [h.perm.length_eq, List.length_range]
  have hnd : (run P nx ops).jsu.Nodup := by rw [h.perm.nodup_iff]; exact List.nodup_range
  constructor
  · intro ju
    have hs := (moveIntersectionRight_splits P (run P nx ops).jsu ju).1
    have hl : (moveIntersectionRight P (run P nx ops).jsu ju).1.length = nx := by rw [hs.perm.length_eq, hlen]
    have hle := hs.le
    have hd : ((moveIntersectionRight P (run P nx ops).jsu ju).1.drop (moveIntersectionRight P (run P nx ops).jsu ju).2).Nodup := (hs.perm.nodup_iff.2 hnd).sublist (List.drop_sublist _ _)
    rw [← length_eq_iff hd fun i => by rw [hs.right, h.perm.mem_iff]; simp]
    simp only [step, beq_iff_eq, List.length_drop]
    omega
  · intro js hjs
    have hs := (moveIntersectionLeft_splits_partial P (run P nx ops).jsu js hjs).1
    have hl : (moveIntersectionLeft P (run P nx ops).jsu js).1.length = nx := by rw [hs.perm.length_eq, hlen]
    have hle := hs.le
    have hd : ((moveIntersectionLeft P (run P nx ops).jsu js).1.take (moveIntersectionLeft P (run P nx ops).jsu js).2).Nodup := (hs.perm.nodup_iff.2 hnd).sublist (List.take_sublist _ _)
    rw [← length_eq_iff hd fun i => by rw [hs.left, h.perm.mem_iff]; simp]
    simp only [step, beq_iff_eq, List.length_take]
    omega

example (P : PartitionImpl ℕ) : (step P (run P 3 [.setStable [1]]) (.setUnstable [0, 2])).2 = true ∧ (step P (run P 3 [.setStable [1]]) (.setUnstable [0, 0])).2 = false :=
  ⟨((partition_assert P 3 _).1 [0, 2]).2 (by decide), by rw [Bool.eq_false_iff]; exact fun h => absurd (((partition_assert P 3 _).1 [0, 0]).1 h).1 (by decide)⟩

/-- **C13, negation**: `setStable` with an empty list makes every variable stable (and trips the assertion of debug builds). -/
theorem setStable_empty (P : PartitionImpl ℕ) (nx : ℕ) (hnx : 0 < nx) (ops : List Op) :
    (∀ i, i ∈ (run P nx (ops ++ [.setStable []])).stable ↔ i < nx) ∧ (step P (run P nx ops) (.setStable [])).2 = false := by
  have h := run_inv P nx ops
  have hlen : (run P nx ops).jsu.length = nx := by rw [h.perm.length_eq, List.length_range]
  have e : run P nx (ops ++ [.setStable []]) = (step P (run P nx ops) (.setStable [])).1 := by simp [run, List.foldl_append]
  constructor
  · intro i
    rw [e]
    simp only [step, moveIntersectionLeft, St.stable, List.length_nil, if_true]
    rw [List.take_length, h.perm.mem_iff]; simp
  · simp [step, moveIntersectionLeft, hlen]; omega

end Optima.StablePart

/-! ## C14 -/
namespace Optima.Stab
open Idx

variable {K : Type*} [Field K] [LinearOrder K] {n m : ℕ}

theorem isLower_iff (a : Args K n m) (s : Fin n → K) (i : Fin n) : isLowerUnstable a s i = true ↔ a.xlower i = some (a.x i) ∧ 0 < s i := by
  simp only [isLowerUnstable, Bool.and_eq_true, beq_iff_eq, decide_eq_true_eq, gt_iff_lt]
  rw [eq_comm]
theorem isUpper_iff (a : Args K n m) (s : Fin n → K) (i : Fin n) : isUpperUnstable a s i = true ↔ a.xupper i = some (a.x i) ∧ s i < 0 := by
  simp only [isUpperUnstable, Bool.and_eq_true, beq_iff_eq, decide_eq_true_eq]
  rw [eq_comm]

theorem nodup_split {α : Type*} {l l1 l2 : List α} (h : (l1 ++ l2).Perm l) (hl : l.Nodup) (i : α) : i ∈ l1 → i ∉ l2 := by
  intro h1 h2
  exact (List.nodup_append.1 (h.nodup_iff.2 hl)).2.2 i h1 i h2 rfl

/-- Explicit description of the state computed by `update`, as four consecutive groups. -/
theorem update_groups (P : PartitionImpl (Fin n)) (a : Args K n m) (B : Fin n → Prop)
    (hB : Splits (List.finRange n) (moveIntersectionLeft P (List.finRange n) a.jb) B) :
    ∃ bs ms ns ls us : List (Fin n),
      (update P a).1.jsu = bs ++ ms ++ ns ++ ls ++ us ∧
      (update P a).1.jsu.Perm (List.finRange n) ∧
      (update P a).1.nbs = bs.length + ms.length ∧ (update P a).1.nms = ms.length ∧
      (update P a).1.ns = bs.length + ms.length + ns.length ∧
      (update P a).1.nlu = ls.length ∧ (update P a).1.nuu = us.length ∧
      (update P a).1.s = a.g + Matrix.mulVec a.Wx.transpose a.w ∧
      (∀ i, i ∈ bs ↔ B i ∧ ¬ isMetaStable a (update P a).1.s i = true) ∧
      (∀ i, i ∈ ms ↔ B i ∧ isMetaStable a (update P a).1.s i = true) ∧
      (∀ i, i ∈ ls ↔ ¬ B i ∧ isLowerUnstable a (update P a).1.s i = true ∧ ¬ isUpperUnstable a (update P a).1.s i = true) ∧
      (∀ i, i ∈ us ↔ ¬ B i ∧ isUpperUnstable a (update P a).1.s i = true) ∧
      (∀ i, i ∈ ns ↔ ¬ B i ∧ ¬ isLowerUnstable a (update P a).1.s i = true ∧ ¬ isUpperUnstable a (update P a).1.s i = true) := by
  set s : Fin n → K := a.g + Matrix.mulVec a.Wx.transpose a.w with hs
  set r1 := moveIntersectionLeft P (List.finRange n) a.jb with hr1
  -- the pieces
  set q2 := moveRightIf P (r1.1.take r1.2) (isMetaStable a s) with hq2
  set q3 := moveRightIf P (r1.1.drop r1.2) (isUpperUnstable a s) with hq3
  set q4 := moveRightIf P (q3.1.take q3.2) (isLowerUnstable a s) with hq4
  have s2 := (moveRightIf_splits P (r1.1.take r1.2) (isMetaStable a s)).1
  have s3 := (moveRightIf_splits P (r1.1.drop r1.2) (isUpperUnstable a s)).1
  have s4 := (moveRightIf_splits P (q3.1.take q3.2) (isLowerUnstable a s)).1
  rw [← hq2] at s2; rw [← hq3] at s3; rw [← hq4] at s4
  have l1 : r1.1.length = n := by rw [hB.perm.length_eq, List.length_finRange]
  have le1 : r1.2 ≤ n := by simpa using hB.le
  have lt : (r1.1.take r1.2).length = r1.2 := by rw [List.length_take]; omega
  have l2 : q2.1.length = r1.2 := by rw [s2.perm.length_eq, lt]
  have l3 : q3.1.length = n - r1.2 := by rw [s3.perm.length_eq, List.length_drop, l1]
  have le2 : q2.2 ≤ r1.2 := by have := s2.le; omega
  have le3 : q3.2 ≤ n - r1.2 := by have := s3.le; rw [List.length_drop] at this; omega
  have l4 : q4.1.length = q3.2 := by rw [s4.perm.length_eq, List.length_take]; omega
  have le4 : q4.2 ≤ q3.2 := by have := s4.le; rw [List.length_take] at this; omega
  -- evaluation of the model
  have htk : (q2.1 ++ r1.1.drop r1.2).take r1.2 = q2.1 := by rw [← l2]; exact List.take_left' rfl
  have hdr : (q2.1 ++ r1.1.drop r1.2).drop r1.2 = r1.1.drop r1.2 := by
    conv_lhs => rw [← l2]
    rw [List.drop_left' rfl, l2]
  have e2 : (onHead r1.2 r1.1 fun jbs => moveRightIf P jbs (isMetaStable a s)) = (q2.1 ++ r1.1.drop r1.2, q2.2) := rfl
  have e3 : (onTail r1.2 (q2.1 ++ r1.1.drop r1.2) fun jnsu => moveRightIf P jnsu (isUpperUnstable a s)) = (q2.1 ++ q3.1, q3.2) := by
    unfold onTail; dsimp only; rw [htk, hdr]
  have htk3 : (q2.1 ++ q3.1).take r1.2 = q2.1 := List.take_left' l2
  have hdr3 : (q2.1 ++ q3.1).drop r1.2 = q3.1 := List.drop_left' l2
  have e4 : (onTail r1.2 (q2.1 ++ q3.1) fun jnsu => onHead q3.2 jnsu fun h => moveRightIf P h (isLowerUnstable a s)) =
      (q2.1 ++ (q4.1 ++ q3.1.drop q3.2), q4.2) := by
    unfold onTail onHead; dsimp only; rw [htk3, hdr3]
  have hupd : (update P a).1 = St.mk (q2.1 ++ (q4.1 ++ q3.1.drop q3.2)) (r1.2 + q4.2) r1.2 (q3.2 - q4.2)
      (n - r1.2 - q3.2) (r1.2 - q2.2) s := by
    unfold update
    dsimp only
    rw [← hr1, ← hs, e2]
    dsimp only
    rw [e3]
    dsimp only
    rw [e4]
  rw [hupd]
  dsimp only
  refine ⟨q2.1.take q2.2, q2.1.drop q2.2, q4.1.take q4.2, q4.1.drop q4.2, q3.1.drop q3.2, ?_, ?_, ?_, ?_, ?_, ?_, ?_, rfl, ?_, ?_, ?_, ?_, ?_⟩
  · rw [List.take_append_drop, List.append_assoc, List.append_assoc, ← List.append_assoc (q4.1.take _), List.take_append_drop]
  · refine List.Perm.trans ?_ hB.perm
    rw [← List.take_append_drop r1.2 r1.1]
    refine List.Perm.append s2.perm ?_
    refine List.Perm.trans ?_ s3.perm
    conv_rhs => rw [← List.take_append_drop q3.2 q3.1]
    exact List.Perm.append s4.perm (List.Perm.refl _)
  · rw [List.length_take, List.length_drop]; omega
  · rw [List.length_drop]; omega
  · rw [List.length_take, List.length_drop, List.length_take]; omega
  · rw [List.length_drop]; omega
  · rw [List.length_drop]; omega
  · intro i; rw [s2.left, hB.left]; simp
  · intro i; rw [s2.right, hB.left]; simp
  · intro i; rw [s4.right, s3.left, hB.right]; simp; tauto
  · intro i; rw [s3.right, hB.right]; simp
  · intro i; rw [s4.left, s3.left, hB.right]; simp; tauto

/-- The reported lists are the groups. -/
theorem status_groups {t : St K n} {bs ms ns ls us : List (Fin n)} (hj : t.jsu = bs ++ ms ++ ns ++ ls ++ us)
    (h1 : t.nbs = bs.length + ms.length) (h2 : t.nms = ms.length) (h3 : t.ns = bs.length + ms.length + ns.length)
    (h4 : t.nlu = ls.length) (h5 : t.nuu = us.length) :
    (status t).js = bs ++ ms ++ ns ∧ (status t).ju = ls ++ us ∧ (status t).jlu = ls ∧ (status t).juu = us ∧ (status t).jms = ms ∧
    (status t).s = t.s := by
  have hjs : t.jsu.take t.ns = bs ++ ms ++ ns := by
    rw [hj, h3, List.append_assoc (bs ++ ms ++ ns)]
    exact List.take_left' (by simp; omega)
  have hju : tailN (t.nlu + t.nuu) t.jsu = ls ++ us := by
    unfold tailN
    rw [hj, h4, h5, List.append_assoc (bs ++ ms ++ ns)]
    exact List.drop_left' (by simp; omega)
  refine ⟨hjs, hju, ?_, ?_, ?_, rfl⟩
  · unfold status; dsimp only; rw [hju, h4]; exact List.take_left' rfl
  · unfold status; dsimp only; rw [hju]; unfold tailN; rw [h5]; exact List.drop_left' (by simp)
  · unfold status; dsimp only
    rw [hjs, h1, List.take_left' (by simp)]
    unfold tailN; rw [h2]; exact List.drop_left' (by simp)

/-- **C14 (partial: at least one basic variable)** For every implementation of `std::partition` and all arguments with a nonempty list `jb` of basic variables:
    `s = g + Wxᵀw`; the lists `js`, `jlu`, `juu` list every variable exactly once; a variable is lower (upper) unstable iff it is not basic, sits on its
    lower (upper) bound and `s > 0` (`s < 0`); it is meta-stable iff it is basic and satisfies one of these conditions; the basic variables come first in `js`. -/
theorem update_exact_partial (P : PartitionImpl (Fin n)) (a : Args K n m) (hjb : a.jb ≠ []) :
    let r := status (update P a).1
    r.s = a.g + Matrix.mulVec a.Wx.transpose a.w ∧
    (r.js ++ r.jlu ++ r.juu).Perm (List.finRange n) ∧ r.ju = r.jlu ++ r.juu ∧
    (∀ i, i ∈ r.jlu ↔ i ∉ a.jb ∧ a.xlower i = some (a.x i) ∧ 0 < r.s i) ∧
    (∀ i, i ∈ r.juu ↔ i ∉ a.jb ∧ a.xupper i = some (a.x i) ∧ r.s i < 0) ∧
    (∀ i, i ∈ r.jms ↔ i ∈ a.jb ∧ ((a.xlower i = some (a.x i) ∧ 0 < r.s i) ∨ (a.xupper i = some (a.x i) ∧ r.s i < 0))) ∧
    (∀ i, i ∈ r.js.take (update P a).1.nbs ↔ i ∈ a.jb) := by
  obtain ⟨bs, ms, ns, ls, us, hj, hp, h1, h2, h3, h4, h5, hs, m1, m2, m3, m4, m5⟩ :=
    update_groups P a (fun i => i ∈ a.jb) (moveIntersectionLeft_splits_partial P _ a.jb hjb).1
  obtain ⟨g1, g2, g3, g4, g5, g6⟩ := status_groups hj h1 h2 h3 h4 h5
  dsimp only
  rw [g1, g2, g3, g4, g5, g6, hs]
  rw [hs] at m1 m2 m3 m4 m5
  refine ⟨rfl, by rw [← hj]; exact hp, rfl, ?_, ?_, ?_, ?_⟩
  · intro i
    rw [m3, isLower_iff, isUpper_iff]
    constructor
    · rintro ⟨a, b, c⟩; exact ⟨a, b⟩
    · rintro ⟨h1, h2, h3⟩; exact ⟨h1, ⟨h2, h3⟩, fun h => lt_asymm h3 h.2⟩
  · intro i; rw [m4, isUpper_iff]
  · intro i; rw [m2]; simp only [isMetaStable, Bool.or_eq_true, isLower_iff, isUpper_iff]
  · intro i
    rw [h1, List.take_left' (by simp), List.mem_append, m1, m2]
    tauto

/-- The assertion of debug builds holds iff `jb` has no repeated indices. -/
theorem update_assert (P : PartitionImpl (Fin n)) (a : Args K n m) (hjb : a.jb ≠ []) : (update P a).2 = true ↔ a.jb.Nodup := by
  have hsp := (moveIntersectionLeft_splits_partial P (List.finRange n) a.jb hjb).1
  have e : (update P a).2 = ((moveIntersectionLeft P (List.finRange n) a.jb).2 == a.jb.length) := rfl
  rw [e, beq_iff_eq]
  generalize hr : moveIntersectionLeft P (List.finRange n) a.jb = r at *
  have hnd : (r.1.take r.2).Nodup := (hsp.perm.nodup_iff.2 (List.nodup_finRange n)).sublist (List.take_sublist _ _)
  have hlen : (r.1.take r.2).length = r.2 := by
    have := hsp.le; have := hsp.perm.length_eq
    rw [List.length_take]; simp at *; omega
  have hset : (r.1.take r.2).toFinset = a.jb.toFinset := by
    ext i; simp only [List.mem_toFinset]; rw [hsp.left]; simp
  constructor
  · intro h
    have h1 := List.toFinset_card_of_nodup hnd
    rw [hset, hlen, h] at h1
    exact Multiset.coe_nodup.1 (Multiset.toFinset_card_eq_card_iff_nodup.1 h1)
  · intro h
    have h1 := List.toFinset_card_of_nodup hnd
    rw [hset, hlen, List.toFinset_card_of_nodup h] at h1
    exact h1.symm

/-- **C14, negation**: with no basic variables nothing is ever reported unstable; every variable on a bound with the "wrong" multiplier sign is reported as stable (and
    meta-stable basic). -/
theorem update_no_basics (P : PartitionImpl (Fin n)) (a : Args K n m) (hjb : a.jb = []) :
    let r := status (update P a).1
    r.jlu = [] ∧ r.juu = [] ∧ (∀ i, i ∈ r.js) ∧
    (∀ i, i ∈ r.jms ↔ ((a.xlower i = some (a.x i) ∧ 0 < r.s i) ∨ (a.xupper i = some (a.x i) ∧ r.s i < 0))) := by
  have hsp : Splits (List.finRange n) (moveIntersectionLeft P (List.finRange n) a.jb) (fun _ => True) := by
    rw [hjb]
    refine ⟨List.Perm.refl _, le_rfl, fun i => ?_, fun i => ?_⟩
    · have : ((List.finRange n).take (List.finRange n).length) = List.finRange n := List.take_length
      simp only [moveIntersectionLeft, List.length_nil, if_true, this]; simp
    · have : ((List.finRange n).drop (List.finRange n).length) = [] := List.drop_length
      simp only [moveIntersectionLeft, List.length_nil, if_true, this]; simp
  obtain ⟨bs, ms, ns, ls, us, hj, hp, h1, h2, h3, h4, h5, hs, m1, m2, m3, m4, m5⟩ := update_groups P a (fun _ => True) hsp
  obtain ⟨g1, g2, g3, g4, g5, g6⟩ := status_groups hj h1 h2 h3 h4 h5
  dsimp only
  rw [g1, g3, g4, g5, g6]
  simp only [not_true_eq_false, false_and, iff_false, true_and] at m1 m2 m3 m4 m5
  refine ⟨List.eq_nil_iff_forall_not_mem.2 m3, List.eq_nil_iff_forall_not_mem.2 m4, ?_, ?_⟩
  · intro i
    rw [List.mem_append, List.mem_append, m1, m2]; left
    cases isMetaStable a (update P a).1.s i <;> simp
  · intro i; rw [m2]; simp only [isMetaStable, Bool.or_eq_true, isLower_iff, isUpper_iff]

/-- A concrete case: three variables, variable 0 basic, 1 lower unstable, 2 upper unstable. -/
def exArgs : Args ℚ 3 1 :=
  { Wx := fun _ _ => 1, g := ![0, 1, -3], x := ![1, 0, 5], w := ![1], xlower := ![some 0, some 0, none], xupper := ![none, none, some 5], jb := [0] }

/-- Whatever the basic variables are: `s = g + Wxᵀw` and `(js, ju)` is a permutation of the variables. -/
theorem update_split (P : PartitionImpl (Fin n)) (a : Args K n m) :
    let r := status (update P a).1
    r.s = a.g + Matrix.mulVec a.Wx.transpose a.w ∧ (r.js ++ r.ju).Perm (List.finRange n) ∧ r.ju = r.jlu ++ r.juu := by
  have hsp : ∃ B, Splits (List.finRange n) (moveIntersectionLeft P (List.finRange n) a.jb) B := by
    by_cases hjb : a.jb = []
    · refine ⟨fun _ => True, ?_⟩
      rw [hjb]
      refine ⟨List.Perm.refl _, le_rfl, fun i => ?_, fun i => ?_⟩
      · have : ((List.finRange n).take (List.finRange n).length) = List.finRange n := List.take_length
        simp only [moveIntersectionLeft, List.length_nil, if_true, this]; simp
      · have : ((List.finRange n).drop (List.finRange n).length) = [] := List.drop_length
        simp only [moveIntersectionLeft, List.length_nil, if_true, this]; simp
    · exact ⟨_, (moveIntersectionLeft_splits_partial P _ a.jb hjb).1⟩
  obtain ⟨B, hB⟩ := hsp
  obtain ⟨bs, ms, ns, ls, us, hj, hp, h1, h2, h3, h4, h5, hs, -⟩ := update_groups P a B hB
  obtain ⟨g1, g2, g3, g4, g5, g6⟩ := status_groups hj h1 h2 h3 h4 h5
  dsimp only
  rw [g1, g2, g3, g4, g6, hs]
  refine ⟨rfl, ?_, rfl⟩
  rw [← List.append_assoc, ← hj]
  exact hp


example : (status (update stableImpl exArgs).1).jlu = [1] ∧ (status (update stableImpl exArgs).1).juu = [2] := by decide +kernel

/-- **C14, negation witness**: a variable on its lower bound with positive multiplier, no basics: reported stable. -/
theorem update_no_basics_witness : ∃ a : Args ℚ 1 0, (∀ i, a.xlower i = some (a.x i) ∧ 0 < a.g i) ∧
    (status (update stableImpl a).1).js = [0] ∧ (status (update stableImpl a).1).jlu = [] :=
  ⟨{ Wx := fun i => i.elim0, g := ![1], x := ![0], w := fun i => i.elim0, xlower := ![some 0], xupper := ![none], jb := [] },
    by decide +kernel, by decide +kernel, by decide +kernel⟩

end Optima.Stab
