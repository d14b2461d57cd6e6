import Verif.Model.Outputter
import Verif.Props.MasterSolver

/-!
# C42, C56: the output of a solve
-/

set_option linter.unusedSectionVars false

namespace Optima

/-- A line of a table: one cell per column, of the given widths; each cell holds the text, followed by blanks. -/
def IsRow (widths : List ℕ) (texts : List Str) (line : Str) : Prop :=
  ∃ cells : List Str, line = cells.flatten ∧ cells.map List.length = widths ∧ List.Forall₂ (fun (text cell : Str) => ∃ k, cell = text ++ List.replicate k ' ') texts cells

theorem IsRow.nil : IsRow [] [] [] := ⟨[], rfl, rfl, .nil⟩

theorem IsRow.cons {w : ℕ} {ws : List ℕ} {t cell line : Str} {ts : List Str} (hw : cell.length = w) (hk : ∃ k, cell = t ++ List.replicate k ' ') (h : IsRow ws ts line) : IsRow (w :: ws) (t :: ts) (cell ++ line) := by
  obtain ⟨cells, rfl, rfl, h⟩ := h
  exact ⟨cell :: cells, rfl, by simp [hw], .cons hk h⟩

theorem IsRow.length {ws : List ℕ} {ts : List Str} {line : Str} (h : IsRow ws ts line) : line.length = ws.sum := by
  obtain ⟨cells, rfl, rfl, -⟩ := h
  exact List.length_flatten

theorem setwLeft_length (w : ℕ) (s : Str) : (setwLeft w s).length = max w s.length := by
  simp [setwLeft]; omega

theorem colwidth_ge (w : ℕ) (s : Str) : w ≤ colwidth w s ∧ s.length + 4 ≤ colwidth w s := by
  unfold colwidth; split_ifs <;> omega

/-- The header is a table row with the widths of the columns, under and over a bar of the same width. -/
theorem header_row (o : Outputter) (hsep : o.options.separator ∉ o.entries) :
    IsRow (o.entries.map (colwidth o.options.width)) o.entries o.nameLine ∧ o.barLine = List.replicate (o.entries.map (colwidth o.options.width)).sum '=' := by
  obtain ⟨entries, values, options⟩ := o
  dsimp only [Outputter.nameLine, Outputter.barLine] at *
  induction entries with
  | nil => exact ⟨IsRow.nil, rfl⟩
  | cons e es ih =>
    simp only [List.mem_cons, not_or] at hsep
    obtain ⟨h1, h2⟩ := ih hsep.2
    have he : e ≠ options.separator := fun h => hsep.1 h.symm
    refine ⟨?_, ?_⟩
    · rw [List.flatMap_cons, if_neg he]
      refine IsRow.cons ?_ ⟨_, rfl⟩ h1
      rw [setwLeft_length]
      have := (colwidth_ge options.width e).2
      omega
    · rw [List.flatMap_cons, if_neg he, h2]
      simp [barstr, List.replicate_append_replicate]

/-- The columns of a state line are as wide as the header or the text, whichever is wider. -/
theorem state_row (options : OutOptions) : ∀ (vals entries : List Str), vals.length = entries.length → options.separator ∉ vals →
    ∃ line, stateLine options vals entries = some line ∧ IsRow (List.zipWith (fun e v => max (colwidth options.width e) v.length) entries vals) vals line
  | [], [], _, _ => ⟨[], rfl, IsRow.nil⟩
  | [], _ :: _, h, _ => by cases h
  | _ :: _, [], h, _ => by cases h
  | v :: vals, e :: entries, h, hsep => by
    simp only [List.mem_cons, not_or] at hsep
    obtain ⟨line, h1, h2⟩ := state_row options vals entries (by simpa using h) hsep.2
    refine ⟨setwLeft (colwidth options.width e) v ++ line, ?_, ?_⟩
    · rw [stateLine, if_neg fun h => hsep.1 h.symm, h1]; rfl
    · exact IsRow.cons (setwLeft_length _ _) ⟨_, rfl⟩ h2

/-- Texts that fit do not widen the columns. -/
theorem fit_widths (w : ℕ) : ∀ (entries vals : List Str), List.Forall₂ (fun (e v : Str) => v.length ≤ colwidth w e) entries vals →
    List.zipWith (fun e v => max (colwidth w e) v.length) entries vals = entries.map (colwidth w)
  | _, _, .nil => rfl
  | _, _, .cons h t => by
    simp only [List.zipWith_cons_cons, List.map_cons, fit_widths w _ _ t, max_eq_left h]

/-- **C42 in part** (alignment): if there are as many values as entries, none of them is the separator, and no value is longer than its column (at least the width option, and four more than the name), then header and state line are rows of
    the same table: same columns, same widths. -/
theorem table_aligned_partial (debug : Bool) (o : Outputter) (hact : o.options.active = true) (hlen : o.values.length = o.entries.length) (hse : o.options.separator ∉ o.entries) (hsv : o.options.separator ∉ o.values)
    (hfit : List.Forall₂ (fun (e v : Str) => v.length ≤ max o.options.width (e.length + 4)) o.entries o.values) :
    ∃ (ws : List ℕ) (names line : Str), o.outputHeader = [List.replicate ws.sum '=', names, List.replicate ws.sum '='] ∧ o.outputState debug = some ([line], { o with values := [] }) ∧
      IsRow ws o.entries names ∧ IsRow ws o.values line := by
  obtain ⟨h1, h2⟩ := header_row o hse
  obtain ⟨line, h3, h4⟩ := state_row o.options o.values o.entries hlen hsv
  rw [fit_widths] at h4
  · refine ⟨_, o.nameLine, line, ?_, ?_, h1, h4⟩
    · rw [Outputter.outputHeader, if_pos hact, h2]
    · rw [Outputter.outputState, if_pos hact, if_neg (by simp [hlen]), h3]; rfl
  · refine hfit.imp fun e v h => h.trans ?_
    have := colwidth_ge o.options.width e
    omega

/-- **C42 in part**, when the last value (the list of basic variables) is too long: it only extends the line to the right. -/
theorem table_aligned_last_partial (debug : Bool) (o : Outputter) (hact : o.options.active = true) (es vs : List Str) (e v : Str) (he : o.entries = es ++ [e]) (hv : o.values = vs ++ [v])
    (hse : o.options.separator ∉ o.entries) (hsv : o.options.separator ∉ o.values) (hfit : List.Forall₂ (fun (e v : Str) => v.length ≤ max o.options.width (e.length + 4)) es vs) :
    ∃ (ws : List ℕ) (w : ℕ) (line : Str), IsRow (ws ++ [w]) o.entries o.nameLine ∧ o.outputState debug = some ([line], { o with values := [] }) ∧ IsRow (ws ++ [max w v.length]) o.values line := by
  have hl : vs.length = es.length := hfit.length_eq.symm
  obtain ⟨h1, -⟩ := header_row o hse
  obtain ⟨line, h3, h4⟩ := state_row o.options o.values o.entries (by rw [he, hv]; simp [hl]) hsv
  refine ⟨es.map (colwidth o.options.width), colwidth o.options.width e, line, ?_, ?_, ?_⟩
  · rw [he] at h1 ⊢; simpa using h1
  · rw [Outputter.outputState, if_pos hact, if_neg (by simp [he, hv, hl]), h3]; rfl
  · rw [he, hv, List.zipWith_append hl.symm, fit_widths] at h4
    · rw [hv]; exact h4
    · refine hfit.imp fun e v h => h.trans ?_
      have := colwidth_ge o.options.width e
      omega

/-- Negation of C42: a value longer than its column moves the rest of the line; here the default width 15 and a number with 16 digits after the point in scientific notation. -/
theorem long_value_misaligns : ∃ o : Outputter, o.options = { active := true, width := 15, separator := ['|'] } ∧ o.entries = ["f".toList, "Error".toList] ∧ o.values = ["-1.2345678901234567e-100".toList, "0".toList] ∧
    ∃ line o', o.outputState true = some ([line], o') ∧ line.length ≠ o.nameLine.length :=
  ⟨{ entries := ["f".toList, "Error".toList], values := ["-1.2345678901234567e-100".toList, "0".toList], options := { active := true, width := 15, separator := ['|'] } }, rfl, rfl, rfl, _, _, rfl, by decide⟩

/-- Negation of C42 with separators: after a separator the widths are those of other columns, as the entry of the separator is not skipped. -/
theorem separator_misaligns : ∃ (o : Outputter) (ws : List ℕ), o.options = { active := true, width := 15, separator := ['|'] } ∧ o.entries = ["x".toList, ['|'], "a name with many characters".toList] ∧
    o.values = ["1".toList, ['|'], "2".toList] ∧ IsRow ws o.entries o.nameLine ∧ ∃ line o', o.outputState true = some ([line], o') ∧ line.length ≠ o.nameLine.length := by
  refine ⟨{ entries := ["x".toList, ['|'], "a name with many characters".toList], values := ["1".toList, ['|'], "2".toList], options := { active := true, width := 15, separator := ['|'] } },
    [15, 1, 31], rfl, rfl, rfl, ?_, _, _, rfl, by decide⟩
  exact ⟨[setwLeft 15 "x".toList, ['|'], setwLeft 31 "a name with many characters".toList], by decide, by decide, .cons ⟨_, rfl⟩ (.cons ⟨0, rfl⟩ (.cons ⟨_, rfl⟩ .nil))⟩

/-! ## Names -/

theorem foldl_addEntry {α : Type*} (g : α → Str) : ∀ (l : List α) (o : Outputter), l.foldl (fun o a => o.addEntry (g a)) o = { o with entries := o.entries ++ l.map g }
  | [], o => by simp
  | a :: l, o => by
    rw [List.foldl_cons, foldl_addEntry g l]
    simp [Outputter.addEntry]

theorem foldl_addValue {n : ℕ} (g : Fin n → Str) : ∀ (l : List (Fin n)) (o : Outputter), l.foldl (fun o a => o.addValue (g a)) o = { o with values := o.values ++ l.map g }
  | [], o => by simp
  | a :: l, o => by
    rw [List.foldl_cons, foldl_addValue g l]
    simp [Outputter.addValue]

theorem foldl_snoc {α β : Type*} (g : α → β) : ∀ (l : List α) (r : List β), l.foldl (fun r a => r ++ [g a]) r = r ++ l.map g
  | [], r => by simp
  | a :: l, r => by rw [List.foldl_cons, foldl_snoc g l]; simp

/-- The names of the columns of a vector: `prefix[i]` with the given names, with numbers if none are given. -/
def columnNames (pre : String) (size : ℕ) (names : List Str) : List Str := if names = [] then (List.range size).map fun i => (pre ++ "[" ++ toString i ++ "]").toList else names.map fun n => pre.toList ++ ['['] ++ n ++ [']']

/-- The names fit the size: none or one for each. -/
def NamesFit (names : List Str) (size : ℕ) : Prop := names = [] ∨ names.length = size

theorem columnNames_length (pre : String) {size : ℕ} {names : List Str} (h : NamesFit names size) : (columnNames pre size names).length = size := by
  unfold columnNames
  split_ifs with h1
  · simp
  · rcases h with h | h
    · exact absurd h h1
    · simpa using h

/-- **C42** (names): adding the entries of a vector raises an error exactly if names are given and their number is wrong; otherwise one entry for each component is added. -/
theorem addEntries_spec (o : Outputter) (pre : String) (size : ℕ) (names : List Str) :
    (o.addEntries pre.toList size names = none ↔ ¬ NamesFit names size) ∧ (NamesFit names size → o.addEntries pre.toList size names = some { o with entries := o.entries ++ columnNames pre size names }) := by
  have key : NamesFit names size → o.addEntries pre.toList size names = some { o with entries := o.entries ++ columnNames pre size names } := by
    intro h
    unfold Outputter.addEntries columnNames
    rw [if_neg]
    · split_ifs with h1
      · unfold Outputter.addEntriesNum
        rw [foldl_addEntry]
        simp [bracketed, natStr]
      · rw [foldl_addEntry]
        simp [bracketed]
    · rintro ⟨h1, h2⟩
      rcases h with h | h
      · exact h1 (by simp [h])
      · exact h2 h
  refine ⟨⟨fun h hf => ?_, fun h => ?_⟩, key⟩
  · rw [key hf] at h; cases h
  · unfold NamesFit at h
    push Not at h
    unfold Outputter.addEntries
    rw [if_pos ⟨fun e => h.1 (List.length_eq_zero_iff.1 e), h.2⟩]

/-- The names that `MasterSolver` needs. -/
structure MasterFit (N : Names) (nx np ny nz : ℕ) : Prop where
  x : NamesFit N.x nx
  p : NamesFit N.p np
  y : NamesFit N.y ny
  z : NamesFit N.z nz

/-- The columns of the table. -/
def tableColumns (nx np ny nz : ℕ) (N : Names) : List Str :=
  ["Iteration", "f", "Error", "||ex||max", "||ep||max", "||ew||max"].map String.toList ++ columnNames "x" nx N.x ++ columnNames "p" np N.p ++ columnNames "y" ny N.y ++ columnNames "z" nz N.z ++ columnNames "s" nx N.x ++
    columnNames "ex" nx N.x ++ columnNames "ep" np N.p ++ columnNames "ey" ny N.y ++ columnNames "ez" nz N.z ++ ["Basic Variables".toList]

/-- **C42** (header of a solve): an error exactly if the number of names of some kind is wrong; otherwise the columns of the table. -/
theorem headerTop_spec (o : Outputter) (hact : o.options.active = true) (nx np ny nz : ℕ) (N : Names) :
    (headerTop o.clear nx np ny nz N = none ↔ ¬ MasterFit N nx np ny nz) ∧ (MasterFit N nx np ny nz → headerTop o.clear nx np ny nz N = some { options := o.options, entries := tableColumns nx np ny nz N, values := [] }) := by
  have hact : o.clear.options.active = true := hact
  have key : MasterFit N nx np ny nz → headerTop o.clear nx np ny nz N = some { options := o.options, entries := tableColumns nx np ny nz N, values := [] } := by
    intro h
    unfold headerTop
    rw [hact]
    simp only [Bool.not_true, Bool.false_eq_true, if_false, (addEntries_spec _ _ _ _).2 h.x, (addEntries_spec _ _ _ _).2 h.p, (addEntries_spec _ _ _ _).2 h.y, (addEntries_spec _ _ _ _).2 h.z, Option.bind_some]
    simp [Outputter.addEntry, tableColumns, Outputter.clear]
  refine ⟨⟨fun h hf => ?_, fun h => ?_⟩, key⟩
  · rw [key hf] at h; cases h
  · unfold headerTop
    rw [hact]
    simp only [Bool.not_true, Bool.false_eq_true, if_false]
    by_cases hx : NamesFit N.x nx
    · rw [(addEntries_spec _ _ _ _).2 hx, Option.bind_some]
      by_cases hp : NamesFit N.p np
      · rw [(addEntries_spec _ _ _ _).2 hp, Option.bind_some]
        by_cases hy : NamesFit N.y ny
        · rw [(addEntries_spec _ _ _ _).2 hy, Option.bind_some]
          by_cases hz : NamesFit N.z nz
          · exact absurd ⟨hx, hp, hy, hz⟩ h
          · rw [((addEntries_spec _ _ _ _).1).2 hz]; rfl
        · rw [((addEntries_spec _ _ _ _).1).2 hy]; rfl
      · rw [((addEntries_spec _ _ _ _).1).2 hp]; rfl
    · rw [((addEntries_spec _ _ _ _).1).2 hx]; rfl

/-- The text of the basic variables: their names or numbers, with a blank behind each. -/
theorem basicText_spec {nx : ℕ} {xnames : List Str} (h : NamesFit xnames nx) (jb : List (Fin nx)) :
    basicText xnames jb = some (jb.flatMap fun i => (if xnames = [] then natStr i else xnames.getD i []) ++ [' ']) := by
  have key : ∀ (l : List (Fin nx)) (s : Str), l.foldl (fun acc (i : Fin nx) => acc.bind fun s => (if xnames = [] then some (natStr i) else xnames[i.val]?).map fun name => s ++ name ++ [' ']) (some s) =
      some (s ++ l.flatMap fun i => (if xnames = [] then natStr i else xnames.getD i []) ++ [' ']) := by
    intro l
    induction l with
    | nil => intro s; simp
    | cons i l ih =>
      intro s
      rw [List.foldl_cons]
      have : (if xnames = [] then some (natStr i) else xnames[i.val]?) = some (if xnames = [] then natStr i else xnames.getD i []) := by
        split_ifs with h1
        · rfl
        · rcases h with h | h
          · exact absurd h h1
          · rw [List.getD_eq_getElem?_getD, List.getElem?_eq_getElem (by omega)]; rfl
      simp only [Option.bind_some, this, Option.map_some]
      rw [ih]
      simp
  simpa [basicText] using key jb []

/-- The values of a line, in the order of the columns. -/
def lineTexts {nx np ny nz : ℕ} (T : StateText nx np ny nz) : List Str :=
  [T.iterations, T.f, T.error, T.errorx, T.errorp, T.errorw] ++ List.ofFn T.x ++ List.ofFn T.p ++ List.ofFn T.y ++ List.ofFn T.z ++ List.ofFn T.s ++ List.ofFn T.ex ++ List.ofFn T.ep ++ List.ofFn T.ey ++ List.ofFn T.ez

/-- **C42** (lines of a solve): the values of a line are those of the columns of the header, one for each, in the same order, with the basic variables in the last column. -/
theorem addState_spec {nx np ny nz : ℕ} (o : Outputter) (hnew : o.values = []) {N : Names} (hN : MasterFit N nx np ny nz) (T : StateText nx np ny nz) :
    ∃ basic, basicText N.x T.jb = some basic ∧ addState o N.x T = some { o with values := lineTexts T ++ [basic] } ∧ (lineTexts T ++ [basic]).length = (tableColumns nx np ny nz N).length := by
  refine ⟨_, basicText_spec hN.x T.jb, ?_, ?_⟩
  · unfold addState
    rw [basicText_spec hN.x]
    simp only [Outputter.addValues, foldl_addValue]
    simp [Outputter.addValue, lineTexts, hnew, List.ofFn_eq_map]
  · simp [lineTexts, tableColumns, columnNames_length _ hN.x, columnNames_length _ hN.p, columnNames_length _ hN.y, columnNames_length _ hN.z]

/-- **C42** (names given to `Solver`): an error exactly if output is active and the number of names of `x` or of the slacks is wrong; otherwise the master solver gets one name for each of its variables `(x, xbg, xhg)`, those given or numbers. -/
theorem masterNames_spec (nx nbg nhg : ℕ) (N : Names) :
    (masterNames true nx nbg nhg N = none ↔ ¬(NamesFit N.x nx ∧ NamesFit N.xbg nbg ∧ NamesFit N.xhg nhg)) ∧ (∀ M, masterNames true nx nbg nhg N = some M → M.x.length = nx + nbg + nhg ∧ M.p = N.p ∧ M.y = N.y ∧ M.z = N.z ∧
      M.x = (if N.x = [] then (List.range nx).map (fun i => (toString i).toList) else N.x) ++ (if N.xbg = [] then (List.range nbg).map (fun i => ("bg:" ++ toString i).toList) else N.xbg) ++
        (if N.xhg = [] then (List.range nhg).map (fun i => ("hg:" ++ toString i).toList) else N.xhg)) ∧
    masterNames false nx nbg nhg N = some N := by
  have hf : ∀ (l : List Str) n, (l ≠ [] ∧ l.length ≠ n) ↔ ¬ NamesFit l n := by
    intro l n; unfold NamesFit; push Not; rfl
  refine ⟨?_, ?_, rfl⟩
  · unfold masterNames
    rw [if_pos rfl]
    split_ifs with h1 h2 h3 <;> simp only [hf] at * <;> simp <;> tauto
  · intro M h
    unfold masterNames at h
    rw [if_pos rfl] at h
    by_cases h1 : NamesFit N.x nx
    swap
    · rw [if_pos ((hf _ _).2 h1)] at h; cases h
    rw [if_neg (fun e => (hf _ _).1 e h1)] at h
    by_cases h2 : NamesFit N.xbg nbg
    swap
    · rw [if_pos ((hf _ _).2 h2)] at h; cases h
    rw [if_neg (fun e => (hf _ _).1 e h2)] at h
    by_cases h3 : NamesFit N.xhg nhg
    swap
    · rw [if_pos ((hf _ _).2 h3)] at h; cases h
    rw [if_neg (fun e => (hf _ _).1 e h3)] at h
    cases h
    have e : (if N.xhg = [] then (List.range nhg).foldl (fun l i => l ++ ["hg:".toList ++ natStr i]) (if N.xbg = [] then (List.range nbg).foldl (fun l i => l ++ ["bg:".toList ++ natStr i])
        (if N.x = [] then (List.range nx).foldl (fun l i => l ++ [natStr i]) [] else N.x) else (if N.x = [] then (List.range nx).foldl (fun l i => l ++ [natStr i]) [] else N.x) ++ N.xbg)
        else (if N.xbg = [] then (List.range nbg).foldl (fun l i => l ++ ["bg:".toList ++ natStr i])
        (if N.x = [] then (List.range nx).foldl (fun l i => l ++ [natStr i]) [] else N.x) else (if N.x = [] then (List.range nx).foldl (fun l i => l ++ [natStr i]) [] else N.x) ++ N.xbg) ++ N.xhg) =
        (if N.x = [] then (List.range nx).map (fun i => (toString i).toList) else N.x) ++ (if N.xbg = [] then (List.range nbg).map (fun i => ("bg:" ++ toString i).toList) else N.xbg) ++
        (if N.xhg = [] then (List.range nhg).map (fun i => ("hg:" ++ toString i).toList) else N.xhg) := by
      simp only [foldl_snoc]
      split_ifs <;> simp [natStr]
    refine ⟨?_, rfl, rfl, rfl, e⟩
    dsimp only
    rw [e]
    have hlen : ∀ (l : List Str) n (g : ℕ → Str), NamesFit l n → (if l = [] then (List.range n).map g else l).length = n := by
      intro l n g h
      split_ifs with h1
      · simp
      · rcases h with h | h
        · exact absurd h h1
        · exact h
    simp only [List.length_append, hlen _ _ _ h1, hlen _ _ _ h2, hlen _ _ _ h3]

/-- A solve with two variables, one linear inequality constraint and a name for each variable: header and a line. -/
example : ∃ M, masterNames true 2 1 0 { x := ["H2O".toList, "CO2".toList], xbg := [], xhg := [], p := [], y := [], z := [] } = some M ∧ M.x = ["H2O".toList, "CO2".toList, "bg:0".toList] ∧ MasterFit M 3 0 1 0 :=
  ⟨_, rfl, by decide, ⟨Or.inr (by decide), Or.inl rfl, Or.inl rfl, Or.inl rfl⟩⟩

/-- The hypotheses of `table_aligned_partial` can be met: two columns. -/
example : ∃ o : Outputter, o.options.active = true ∧ o.values.length = o.entries.length ∧ o.options.separator ∉ o.entries ∧ o.options.separator ∉ o.values ∧
    List.Forall₂ (fun (e v : Str) => v.length ≤ max o.options.width (e.length + 4)) o.entries o.values :=
  ⟨{ entries := ["f".toList, "a name with many characters".toList], values := ["-1.23457e-100".toList, "0".toList], options := { active := true, width := 15, separator := ['|'] } }, rfl, rfl, by decide, by decide, .cons (by decide) (.cons (by decide) .nil)⟩

/-! ## C56: what the lines of a solve show -/

section
variable {K : Type*} [Field K] [LinearOrder K] [IsStrictOrderedRing K] {nx np nw : ℕ} {σ : Type*}

/-- A state as it should be printed: `uo`, which is what is printed, is the current iterate, and the functions and errors printed with it are those at this point (the point of the last evaluation). -/
def Shown (s : SolveState σ K nx np nw) : Prop := s.uo = s.u ∧ s.trace.head? = some s.uo

theorem evalAt_shown {m : Machine σ K nx np nw} {s s' : SolveState σ K nx np nw} (h : evalAt m s = some s') : s'.trace.head? = some s'.u ∧ s'.iterations = s.iterations ∧ s'.uo = s.uo := by
  unfold evalAt at h
  split at h
  · cases h
  · cases h; exact ⟨rfl, rfl, rfl⟩

theorem transform_shown {m : Machine σ K nx np nw} {B : Bounds K nx np} {s s' : SolveState σ K nx np nw} {b : Bool} (h : transform m B s = some (s', b)) : s'.iterations = s.iterations ∧ s'.uo = s.uo := by
  unfold transform at h
  split at h
  · cases h; exact ⟨rfl, rfl⟩
  dsimp only at h
  split at h
  · cases h
  split_ifs at h
  · split at h
    · cases h
    · rename_i e; cases h; exact ⟨(evalAt_shown e).2.1, (evalAt_shown e).2.2⟩
  · split at h
    · cases h
    rename_i e
    split_ifs at h
    · split at h
      · cases h
      · rename_i e2; cases h
        exact ⟨(evalAt_shown e2).2.1.trans (evalAt_shown e).2.1, (evalAt_shown e2).2.2.trans (evalAt_shown e).2.2⟩
    · cases h; exact ⟨(evalAt_shown e).2.1, (evalAt_shown e).2.2⟩

theorem step_shown {m : Machine σ K nx np nw} {o : SolveOptions K} {B : Bounds K nx np} {s s' : SolveState σ K nx np nw} (h : step m o B s = some s') :
    s'.trace.head? = some s'.u ∧ s'.iterations = s.iterations + 1 ∧ s'.uo = s.uo := by
  unfold step at h
  dsimp only at h
  split at h
  · cases h
  split at h
  · cases h
  rename_i e
  split at h
  · cases h
  rename_i e2
  have h1 := transform_shown e
  obtain ⟨h2, h3, h4⟩ := evalAt_shown h
  unfold errorControl at e2
  split at e2
  · cases e2
  cases e2
  exact ⟨h2, h3.trans h1.1, h4.trans h1.2⟩

theorem stepping_shown {m : Machine σ K nx np nw} {o : SolveOptions K} {s s' : SolveState σ K nx np nw} {b : Bool} (h : stepping m o s = some (s', b)) :
    s'.trace = s.trace ∧ s'.iterations = s.iterations ∧ s'.u = s.u ∧ (s.iterations ≤ o.maxiters → s'.uo = s.u) ∧ (o.maxiters < s.iterations → b = false ∧ s'.uo = s.uo) := by
  unfold stepping at h
  dsimp only at h
  split_ifs at h with h1
  · cases h; exact ⟨rfl, rfl, rfl, fun h => absurd h (not_le.2 h1), fun _ => ⟨rfl, rfl⟩⟩
  · split at h
    · cases h; exact ⟨rfl, rfl, rfl, fun _ => rfl, fun h => absurd h h1⟩
    · split at h
      · cases h; exact ⟨rfl, rfl, rfl, fun _ => rfl, fun h => absurd h h1⟩
      · split at h
        · cases h
        · cases h; exact ⟨rfl, rfl, rfl, fun _ => rfl, fun h => absurd h h1⟩

/-- Every solve that returns prints, and what is printed is determined. -/
theorem loop_prints {m : Machine σ K nx np nw} {o : SolveOptions K} {B : Bounds K nx np} {s t : SolveState σ K nx np nw} (h : Loop m o B s (some t)) : ∃! l, Prints m o B s l t := by
  generalize hr : some t = r at h
  induction h with
  | stepFails => cases hr
  | checkFails => cases hr
  | stop s s1 s2 h1 h2 =>
    cases hr
    refine ⟨_, .stop _ _ _ h1 h2, fun l h => ?_⟩
    cases h with
    | stop _ _ _ => rfl
    | again _ s1' s2' l' _ h1' h2' _ =>
      rw [h1] at h1'; cases h1'; rw [h2] at h2'; cases h2'
  | again s s1 s2 r h1 h2 _ ih =>
    obtain ⟨l, hl, hu⟩ := ih hr
    refine ⟨s :: l, .again _ _ _ _ _ h1 h2 hl, fun l' h => ?_⟩
    cases h with
    | stop _ s1' _ h1' h2' => rw [h1] at h1'; cases h1'; rw [h2] at h2'; cases h2'
    | again _ s1' s2' l' _ h1' h2' h3' =>
      rw [h1] at h1'; cases h1'; rw [h2] at h2'; cases h2'
      rw [hu _ h3']

theorem prints_spec {m : Machine σ K nx np nw} {o : SolveOptions K} {B : Bounds K nx np} {s t : SolveState σ K nx np nw} {l : List (SolveState σ K nx np nw)} (h : Prints m o B s l t) (hs : Shown s) :
    (∀ i (hi : i < l.length), l[i].iterations = s.iterations + i) ∧ l.length = t.iterations - s.iterations + 1 ∧ s.iterations ≤ t.iterations ∧ (∃ l', l = l' ++ [t] ∧ ∀ x ∈ l', Shown x) ∧ (t.iterations ≤ o.maxiters → Shown t) := by
  induction h with
  | stop s s1 s2 h1 h2 =>
    obtain ⟨a1, a2, a3⟩ := step_shown h1
    obtain ⟨b1, b2, b3, b4, -⟩ := stepping_shown h2
    refine ⟨fun i hi => ?_, by simp; omega, by omega, ⟨[s], rfl, by simpa using hs⟩, fun h => ?_⟩
    · rcases i with _ | _ | i
      · rfl
      · simpa using b2.trans a2
      · simp at hi
    · have := b4 (by omega)
      exact ⟨this.trans b3.symm, by rw [b1, a1, this]⟩
  | again s s1 s2 l t h1 h2 _ ih =>
    obtain ⟨a1, a2, a3⟩ := step_shown h1
    obtain ⟨b1, b2, b3, b4, b5⟩ := stepping_shown h2
    have hmax : s1.iterations ≤ o.maxiters := by
      by_contra hc
      cases (b5 (by omega)).1
    have e := b4 hmax
    obtain ⟨c1, c2, c3, ⟨l', c4, c5⟩, c6⟩ := ih ⟨e.trans b3.symm, by rw [b1, a1, e]⟩
    refine ⟨fun i hi => ?_, ?_, by omega, ⟨s :: l', by simp [c4], ?_⟩, c6⟩
    · rcases i with _ | i
      · rfl
      · have := c1 i (by simpa using hi)
        simp only [List.getElem_cons_succ]
        omega
    · simp only [List.length_cons]; omega
    · intro x hx
      rcases List.mem_cons.1 hx with rfl | hx
      · exact hs
      · exact c5 x hx

/-- **C56**: a solve that returns after `n` iterations prints `n + 1` lines, numbered from `0` to `n`; every line but the last shows the current iterate together with the functions and errors evaluated at this very point; the last one does so as well
    (and shows the returned variables) if the solve succeeded. -/
theorem solve_prints_partial (m : Machine σ K nx np nw) (o : SolveOptions K) (B : Bounds K nx np) (mach : σ) (history : History K) (u : MVec K nx np nw) (s t : SolveState σ K nx np nw)
    (hi : solveInit m B mach history u = some s) (hl : Loop m o B s (some t)) :
    ∃ lines, Prints m o B s lines t ∧ lines.length = t.iterations + 1 ∧ (∀ i (hi : i < lines.length), lines[i].iterations = i) ∧ (∃ l', lines = l' ++ [t] ∧ ∀ x ∈ l', Shown x) ∧ ((solveResult o t).succeeded = true → Shown t) := by
  obtain ⟨lines, h, -⟩ := loop_prints hl
  have hs : Shown s ∧ s.iterations = 0 := by
    unfold solveInit at hi
    obtain ⟨h1, h2, h3⟩ := evalAt_shown hi
    have h4 := (evalAt_u hi).1
    refine ⟨⟨h3.trans h4.symm, by rw [h1, h4, h3]⟩, h2⟩
  obtain ⟨h1, h2, -, h4, h5⟩ := prints_spec h hs.1
  refine ⟨lines, h, by rw [h2, hs.2]; rfl, fun i hi => by rw [h1 i hi, hs.2, zero_add], h4, fun h => h5 ?_⟩
  simpa [solveResult] using h

/-- In a solve that fails, the last line shows the variables of the previous iterate. -/
theorem failed_solve_prints_old (m : Machine σ K nx np nw) (o : SolveOptions K) (B : Bounds K nx np) {s s1 s2 : SolveState σ K nx np nw} (h1 : step m o B s = some s1) (h2 : stepping m o s1 = some (s2, false))
    (hf : (solveResult o s2).succeeded = false) : s2.uo = s.uo ∧ s2.u = s1.u ∧ s2.trace.head? = some s2.u := by
  obtain ⟨a1, a2, a3⟩ := step_shown h1
  obtain ⟨b1, b2, b3, -, b5⟩ := stepping_shown h2
  have : o.maxiters < s1.iterations := by
    have : ¬ s2.iterations ≤ o.maxiters := by simpa [solveResult] using hf
    omega
  exact ⟨(b5 this).2.trans a3, b3, by rw [b1, a1, b3]⟩

end

/-- Negation of C56 for the last line of a failed solve: it shows `x = 3` although the solve returns `x = 5`, with the functions and errors at 5. -/
theorem last_line_shows_old : ∃ t, Solve (exMachine none none) (exOptions 1 1) exBounds 0 [] exStart (some t) ∧ t.u.x 0 = 5 ∧ t.uo.x 0 = 3 ∧ (t.trace.head?.map fun u => u.x 0) = some 5 := by
  have h : (runSolve (exMachine none none) (exOptions 1 1) exBounds 0 [] exStart 9).isSome ∧
      ((runSolve (exMachine none none) (exOptions 1 1) exBounds 0 [] exStart 9).map fun t => (t.u.x 0, t.uo.x 0, t.trace.head?.map fun u => u.x 0)) = some (5, 3, some 5) := by decide +kernel
  obtain ⟨t, ht⟩ := Option.isSome_iff_exists.1 h.1
  have h2 := h.2
  rw [ht] at h2
  simp only [Option.map_some, Option.some.injEq, Prod.mk.injEq] at h2
  exact ⟨t, runSolve_solve 9 ht, h2⟩

end Optima
