import Verif.Spec.Indent
import Verif.Props.Comments

/-!
# C92: indentation of lines
-/

namespace Xi

namespace Syntect

theorem levelOf_eq (cfg : IndentConfig) (l : List Char) : levelOf cfg l = columns cfg.tabSize l := by
  have key : ∀ (w : List Char), (∀ c ∈ w, space c = true) →
      (w.map (fun c => if c = ' ' then 1 else cfg.tabSize)).sum = w.countP (· = ' ') + cfg.tabSize * w.countP (· = '\t') := by
    intro w
    induction w with
    | nil => simp
    | cons c w ih =>
      intro h
      have hc := h c (by simp)
      rw [List.map_cons, List.sum_cons, ih (fun x hx => h x (by simp [hx])), List.countP_cons, List.countP_cons]
      simp only [space, List.contains_iff_mem, List.mem_cons, List.not_mem_nil, or_false] at hc
      rcases hc with rfl | rfl
      · simp; omega
      · simp [Nat.mul_add]; omega
  rw [levelOf, isBlank_eq]
  exact key _ (List.all_eq_true.1 List.all_takeWhile)

theorem asciiWhite_eq : asciiWhite = white := by
  funext c
  have h : c.toNat = 12 ↔ c = '\x0c' := by
    constructor
    · intro h
      have : c.toNat = '\x0c'.toNat := by rw [h]; rfl
      exact Char.toNat_inj.1 this
    · rintro rfl; rfl
  simp [asciiWhite, white, h, Bool.or_assoc]

theorem previousNonblank_spec {lines : List (List Char)} : ∀ {n : Nat}, n ≤ lines.length →
    ∃ o, previousNonblank lines n = some o ∧ (∀ i, o = some i → i < n) ∧ o.bind (fun i => lines[i]?) = lastNonblank lines n
  | 0, _ => ⟨none, rfl, by simp, by simp [lastNonblank]⟩
  | n + 1, h => by
    have hn : n < lines.length := by omega
    obtain ⟨o, h1, h2, h3⟩ := previousNonblank_spec (lines := lines) (n := n) (by omega)
    simp only [previousNonblank, asciiWhite_eq, List.getElem?_eq_getElem hn, Option.bind_eq_bind, Option.bind_some]
    unfold lastNonblank at h3 ⊢
    rw [List.take_succ_eq_append_getElem hn, List.filter_append]
    by_cases hb : lines[n].all white = true
    · refine ⟨o, by simp [hb, h1], fun i hi => by have := h2 i hi; omega, ?_⟩
      simp [hb, h3]
    · refine ⟨some n, by simp [hb], fun i hi => by simp at hi; omega, ?_⟩
      simp [hb, List.getElem?_eq_getElem hn]

theorem testIncrease_eq {rules : Rules} {data : List Char → Metadata} (hd : ∀ l, rules l = some (data l)) {lines : List (List Char)} {n : Nat} (h : n ≤ lines.length) :
    testIncrease rules lines n = some (opened data lines n) := by
  obtain ⟨o, h1, h2, h3⟩ := previousNonblank_spec h
  simp only [testIncrease, h1, Option.bind_eq_bind, Option.bind_some, opened, ← h3]
  cases o with
  | none => rfl
  | some i =>
    have hi : i < lines.length := by have := h2 i rfl; omega
    simp only [List.getElem?_eq_getElem hi, Option.bind_some, hd, Option.elim_some, opens]
    cases hc : (data lines[i]).lineComment with
    | none => simp
    | some comment =>
      simp only
      split
      · next hp => simp [hp]
      · next hp => simp [hp]

theorem testDecrease_eq {rules : Rules} {data : List Char → Metadata} (hd : ∀ l, rules l = some (data l)) {lines : List (List Char)} {n : Nat} {l : List Char}
    (hn : n ≠ 0) (hl : lines[n]? = some l) : testDecrease rules lines n = some (closes data l) := by
  simp [testDecrease, hn, hl, hd, closes]

theorem baseIndent_eq (cfg : IndentConfig) {lines : List (List Char)} {n : Nat} (h : n ≤ lines.length) :
    baseIndent cfg lines n = some (before cfg.tabSize lines n) := by
  obtain ⟨o, h1, h2, h3⟩ := previousNonblank_spec h
  simp only [baseIndent, h1, Option.bind_eq_bind, Option.bind_some, before, ← h3]
  cases o with
  | none => rfl
  | some i =>
    have hi : i < lines.length := by have := h2 i rfl; omega
    simp [List.getElem?_eq_getElem hi, indentLevel, levelOf_eq]

theorem nextLevel_eq {cfg : IndentConfig} {rules : Rules} {data : List Char → Metadata} (hd : ∀ l, rules l = some (data l)) {lines : List (List Char)}
    {base n level : Nat} (hn : n ≠ 0) (h : Follows cfg.tabSize data lines base n level) : nextLevel cfg rules lines base n = some level := by
  obtain ⟨l, hl, e⟩ := h
  have hlt : n < lines.length := by
    rcases Nat.lt_or_ge n lines.length with h | h
    · exact h
    · rw [List.getElem?_eq_none h] at hl; simp at hl
  simp only [nextLevel, testIncrease_eq hd (Nat.le_of_lt hlt), testDecrease_eq hd hn hl, Option.bind_eq_bind, Option.bind_some, finalLevel]
  rw [if_pos (by omega)]
  congr 1
  omega

/-- The edit of a line that is indented to `level`. -/
def indentEd (cfg : IndentConfig) (level : Nat) (l : List Char) : LineEdit :=
  if level ≠ columns cfg.tabSize l then some (0, (l.takeWhile space).length, (indentText cfg level).getD []) else none

theorem setIndent_run {cfg : IndentConfig} (ht : cfg.tabSize ≠ 0) {lines : List (List Char)} (b : EditBuilder) {n level : Nat} {l : List Char}
    (hl : lines[n]? = some l) (hn : level ≠ columns cfg.tabSize l) :
    setIndent cfg lines b n level = b.run (shifted (lines.take n).flatten.length (indentEd cfg level l)) := by
  have hlt : n < lines.length := by
    rcases Nat.lt_or_ge n lines.length with h | h
    · exact h
    · rw [List.getElem?_eq_none h] at hl; simp at hl
  have hx : ∃ x, indentText cfg level = some x := by
    unfold indentText
    split
    · exact ⟨_, rfl⟩
    · simp [ht]
  obtain ⟨x, hx⟩ := hx
  rw [indentEd, if_pos hn]
  simp only [setIndent, isBlank_eq, offsetOf_some hlt, hl, hx, Option.bind_eq_bind, Option.bind_some, shifted, crun_one, Option.getD_some, Nat.add_zero]

theorem indented_editLine {cfg : IndentConfig} (ht : cfg.tabSize ≠ 0) (level : Nat) (l : List Char) : Indented cfg level l (editLine (indentEd cfg level l) l) := by
  have hd : l.drop (l.takeWhile space).length = l.dropWhile space := by
    have e := List.takeWhile_append_dropWhile (p := space) (l := l)
    conv => lhs; arg 2; rw [← e]
    rw [List.drop_left]
  unfold Indented indentEd
  split
  · next h => rw [if_neg (by simp [h])]; rfl
  · next h =>
    rw [if_pos (fun e => h e.symm)]
    simp only [editLine, List.take_zero, List.nil_append, hd, indentText]
    split
    · rfl
    · simp [ht]

def levelEd (cfg : IndentConfig) (level : Nat → Nat) (ranges : List (Nat × Nat)) (n : Nat) (l : List Char) : LineEdit :=
  match rangeWith ranges n with
  | none => none
  | some _ => indentEd cfg (level n) l

theorem levelEd_ok {cfg : IndentConfig} {level : Nat → Nat} {rs : List (Nat × Nat)} {n : Nat} {l : List Char} : EditOk (levelEd cfg level rs n l) l := by
  unfold levelEd
  split
  · trivial
  · unfold indentEd
    split
    · exact ⟨Nat.zero_le _, (List.takeWhile_sublist _).length_le⟩
    · trivial

theorem bulk_run {cfg : IndentConfig} (ht : cfg.tabSize ≠ 0) {rules : Rules} {data : List Char → Metadata} (hd : ∀ l, rules l = some (data l))
    {lines : List (List Char)} {level : Nat → Nat} {rs : List (Nat × Nat)} : ∀ {k start base : Nat} (b : EditBuilder),
    Levels cfg.tabSize data lines level base start k → (∀ n, start ≤ n → n < start + k → n < lines.length ∧ ∃ r, rangeWith rs n = some r) →
    ((List.range' start k).foldlM (bulkStep cfg rules lines) (b, base)).map (·.1) = b.run ((List.range' start k).flatMap (lineEd lines (levelEd cfg level rs)))
  | 0, start, base, b, _, _ => rfl
  | k + 1, start, base, b, h, hr => by
    obtain ⟨h1, h2⟩ := h
    obtain ⟨hlt, r, hrr⟩ := hr start (Nat.le_refl _) (by omega)
    have hl := List.getElem?_eq_getElem hlt
    have hbase : bulkLevel cfg rules lines base start = some (level start) := by
      unfold bulkLevel
      by_cases h0 : start = 0
      · rw [if_neg (by omega)]
        rw [if_pos h0] at h1
        rw [h1]
      · rw [if_pos (by omega)]
        rw [if_neg h0] at h1
        exact nextLevel_eq hd h0 h1
    have hstep : bulkStep cfg rules lines (b, base) start = (b.run (lineEd lines (levelEd cfg level rs) start)).map (fun b => (b, level start)) := by
      simp only [bulkStep, hbase, Option.bind_eq_bind, Option.bind_some, lineEd, hl, levelEd, hrr, indentLevel, Option.getD_some, levelOf_eq]
      by_cases hc : level start = columns cfg.tabSize lines[start]
      · rw [if_neg (by simp [hc])]
        simp [indentEd, hc, shifted, DeltaBuilder.run]
      · rw [if_pos hc, setIndent_run ht b hl hc]
        cases b.run (shifted _ _) <;> rfl
    rw [List.range'_succ, List.foldlM_cons, List.flatMap_cons, crun_append, hstep]
    cases b.run (lineEd lines (levelEd cfg level rs) start) with
    | none => rfl
    | some b' =>
      simp only [Option.map_some, Option.bind_eq_bind, Option.bind_some]
      exact bulk_run ht hd b' h2 (fun n h3 h4 => hr n (by omega) (by omega))

theorem lines_lt {lines : List (List Char)} {n : Nat} {l : List Char} (hl : lines[n]? = some l) : n < lines.length := by
  rcases Nat.lt_or_ge n lines.length with h | h
  · exact h
  · rw [List.getElem?_eq_none h] at hl; simp at hl

theorem task_run {cfg : IndentConfig} (ht : cfg.tabSize ≠ 0) {rules : Rules} {data : List Char → Metadata} (hd : ∀ l, rules l = some (data l))
    {lines : List (List Char)} {level : Nat → Nat} {rs : List (Nat × Nat)} {lo : Nat} (hs : Separated lines.length lo rs) {task : IndentTask}
    (hm : taskRange task ∈ rs) (hn : ∀ n, task = .newline n → n ≠ 0) (hl : TaskLevels cfg.tabSize data lines level task) (b : EditBuilder) :
    indentTask cfg rules lines b task =
      b.run ((List.range' (taskRange task).1 ((taskRange task).2 - (taskRange task).1)).flatMap (lineEd lines (levelEd cfg level rs))) := by
  obtain ⟨_, g1, g2⟩ := separated_mem hs _ hm
  cases task with
  | newline n =>
    have h0 := hn n rfl
    simp only [taskRange] at g1 g2 hm ⊢
    have hr := rangeWith_of_mem hs _ hm n (Nat.le_refl _) (by simp only; omega)
    rw [show n + 1 - n = 1 by omega, List.range'_one, List.flatMap_singleton]
    simp only [TaskLevels] at hl
    have hnx := nextLevel_eq hd h0 hl
    obtain ⟨l, hll, _⟩ := hl
    simp only [indentTask, autoindentLine, h0, if_false, baseIndent_eq cfg (show n ≤ lines.length by omega), Option.bind_eq_bind, Option.bind_some, hnx,
      Option.pure_def, lineEd, hll, levelEd, hr, indentLevel, Option.getD_some, levelOf_eq]
    by_cases hc : level n = columns cfg.tabSize l
    · rw [if_neg (by simp [hc])]
      simp [indentEd, hc, shifted, DeltaBuilder.run]
    · rw [if_pos hc, setIndent_run ht b hll hc]
  | edit n =>
    simp only [taskRange] at g1 g2 hm ⊢
    have hr := rangeWith_of_mem hs _ hm n (Nat.le_refl _) (by simp only; omega)
    rw [show n + 1 - n = 1 by omega, List.range'_one, List.flatMap_singleton]
    obtain ⟨l, hll, e⟩ := hl
    have hrun : lineEd lines (levelEd cfg level rs) n = shifted (lines.take n).flatten.length (indentEd cfg (level n) l) := by
      simp only [lineEd, hll, levelEd, hr]
    rw [hrun]
    have same : level n = columns cfg.tabSize l → b.run (shifted (lines.take n).flatten.length (indentEd cfg (level n) l)) = some b := fun hc => by
      simp [indentEd, hc, shifted, DeltaBuilder.run]
    simp only [indentTask, checkActiveEdit, indentLevel, hll, Option.getD_some, levelOf_eq]
    by_cases h1 : n = 0 ∨ columns cfg.tabSize l = 0
    · rw [if_pos (by simpa using h1), same (by rw [e, if_pos (h1.elim Or.inl (fun h => Or.inr (Or.inl h)))])]
      rfl
    · rw [if_neg (by simpa using h1)]
      have h0 : n ≠ 0 := fun h => h1 (Or.inl h)
      simp only [testIncrease_eq hd (show n ≤ lines.length by omega), testDecrease_eq hd h0 hll, baseIndent_eq cfg (show n ≤ lines.length by omega),
        Option.bind_eq_bind, Option.bind_some]
      by_cases hc : closes data l = true
      · rw [if_pos hc]
        have hne : ¬ (n = 0 ∨ columns cfg.tabSize l = 0 ∨ closes data l = false) := by
          rintro (h | h | h)
          · exact h1 (Or.inl h)
          · exact h1 (Or.inr h)
          · rw [hc] at h; simp at h
        rw [if_neg hne] at e
        rw [← e]
        by_cases hq : level n = columns cfg.tabSize l
        · rw [if_neg (by simp [hq]), same hq]; rfl
        · rw [if_pos hq, setIndent_run ht b hll hq]
      · rw [if_neg hc, same (by rw [e, if_pos (Or.inr (Or.inr (by simpa using hc)))])]
        rfl
  | batch start stop =>
    simp only [taskRange] at g1 g2 hm ⊢
    simp only [TaskLevels] at hl
    have hb : bulkBase cfg lines start = some (before cfg.tabSize lines start) := by
      unfold bulkBase
      split
      · exact baseIndent_eq cfg (by omega)
      · next h =>
        have : start = 0 := by omega
        subst this
        simp [before, lastNonblank]
    have := bulk_run ht hd (rs := rs) b hl (fun n h3 h4 => ⟨by omega, _, rangeWith_of_mem hs _ hm n h3 (by simp only; omega)⟩)
    rw [← this]
    simp only [indentTask, bulkAutoindent, hb, Option.bind_eq_bind, Option.bind_some]
    cases (List.range' start (stop + 1 - start)).foldlM (bulkStep cfg rules lines) (b, before cfg.tabSize lines start) <;> rfl

theorem reindented_editLines {cfg : IndentConfig} (ht : cfg.tabSize ≠ 0) {level : Nat → Nat} {lines : List (List Char)} {rs : List (Nat × Nat)} {lo : Nat}
    (hs : Separated lines.length lo rs) : Reindented cfg level rs lines (editLines (levelEd cfg level rs) 0 lines) := by
  constructor
  · intro n hn
    rw [editLines_getElem?]
    cases lines[n]? <;> simp [levelEd, hn, editLine]
  · intro r hr n h1 h2 l hl
    refine ⟨_, by rw [editLines_getElem?, hl]; rfl, ?_⟩
    simp only [Nat.zero_add, levelEd, rangeWith_of_mem hs r hr n h1 h2]
    exact indented_editLine ht _ _

theorem tasks_run {cfg : IndentConfig} (ht : cfg.tabSize ≠ 0) {rules : Rules} {data : List Char → Metadata} (hd : ∀ l, rules l = some (data l))
    (text : List Char) {level : Nat → Nat} {tasks : List IndentTask} (hs : Separated (linesOf text).length 0 (tasks.map taskRange))
    (hn : .newline 0 ∉ tasks) (hl : ∀ task ∈ tasks, TaskLevels cfg.tabSize data (linesOf text) level task) :
    ∃ b, tasks.foldlM (indentTask cfg rules (linesOf text)) (DeltaBuilder.new text.length) = some b ∧
      b.build.apply text = some (editLines (levelEd cfg level (tasks.map taskRange)) 0 (linesOf text)).flatten ∧
      (b.isEmpty = true → (editLines (levelEd cfg level (tasks.map taskRange)) 0 (linesOf text)).flatten = text) := by
  obtain ⟨b, b1, b2, b3⟩ := edit_lines (d := linesOf text) (ed := levelEd cfg level (tasks.map taskRange)) (fun j l hl => levelEd_ok)
  rw [flatten_linesOf] at b1 b2 b3
  refine ⟨b, ?_, b2, b3⟩
  rw [cfold_scripts (scr := fun task => (List.range' (taskRange task).1 ((taskRange task).2 - (taskRange task).1)).flatMap
      (lineEd (linesOf text) (levelEd cfg level (tasks.map taskRange)))) _
    (fun task hm b => task_run ht hd hs (List.mem_map_of_mem hm) (fun n e h0 => hn (by rw [← h0, ← e]; exact hm)) (hl task hm) b)]
  have := flatMap_ranges (f := lineEd (linesOf text) (levelEd cfg level (tasks.map taskRange))) hs (fun m _ hm => ?_)
  · rw [List.flatMap_map] at this
    rw [← this]
    simpa using b1
  · have : rangeWith (tasks.map taskRange) m = none := by
      unfold rangeWith
      rw [List.find?_eq_none]
      intro r hr
      simpa using hm r hr
    simp only [lineEd, levelEd, this]
    split <;> rfl

/-! ## Columns -/

theorem takeWhile_blanks {w x : List Char} (hw : ∀ c ∈ w, space c = true) : (w ++ x.dropWhile space).takeWhile space = w := by
  rw [List.takeWhile_append_of_pos hw]
  cases h : x.dropWhile space with
  | nil => simp
  | cons c cs =>
    have := List.head_dropWhile_not (l := x) space (by rw [h]; simp)
    simp only [h, List.head_cons] at this
    simp [this]

theorem columns_indented {cfg : IndentConfig} (ht : cfg.tabSize ≠ 0) {level : Nat} (hf : Fits cfg level) {l l' : List Char} (h : Indented cfg level l l') :
    columns cfg.tabSize l' = level := by
  unfold Indented at h
  unfold Fits at hf
  split at h
  · next hc => rw [h, hc]
  · split at h
    · next hs =>
      rw [if_pos hs] at hf
      rw [h, Nat.min_eq_left hf, columns, takeWhile_blanks (fun c hc => by rw [List.eq_of_mem_replicate hc]; rfl)]
      simp [List.countP_replicate]
    · next hs =>
      rw [if_neg hs] at hf
      obtain ⟨⟨k, e⟩, hle⟩ := hf
      have hk : level / cfg.tabSize = k := by rw [e, Nat.mul_div_cancel_left _ (by omega)]
      have hk' : k ≤ 40 := by
        apply Nat.le_of_not_lt
        intro hlt
        have := Nat.mul_le_mul_left cfg.tabSize hlt
        have e2 : cfg.tabSize * (40 + 1) = 40 * cfg.tabSize + cfg.tabSize := by omega
        simp only [Nat.succ_eq_add_one] at this
        omega
      rw [h, hk, Nat.min_eq_left hk', columns, takeWhile_blanks (fun c hc => by rw [List.eq_of_mem_replicate hc]; rfl)]
      simp [List.countP_replicate, e]

/-! ## Once more -/

/-- Lines that differ in their blanks only. -/
def Alike (l l' : List Char) : Prop := ∃ w w' x, l = w ++ x ∧ l' = w' ++ x ∧ (∀ c ∈ w, space c = true) ∧ (∀ c ∈ w', space c = true)

theorem alike_refl (l : List Char) : Alike l l := ⟨[], [], l, rfl, rfl, by simp, by simp⟩

theorem indented_alike {cfg : IndentConfig} {level : Nat} {l l' : List Char} (h : Indented cfg level l l') : Alike l l' := by
  unfold Indented at h
  have hl : l = l.takeWhile space ++ l.dropWhile space := List.takeWhile_append_dropWhile.symm
  split at h
  · rw [h]; exact alike_refl l
  · split at h
    · exact ⟨_, _, _, hl, h, List.all_eq_true.1 List.all_takeWhile, fun c hc => by rw [List.eq_of_mem_replicate hc]; rfl⟩
    · exact ⟨_, _, _, hl, h, List.all_eq_true.1 List.all_takeWhile, fun c hc => by rw [List.eq_of_mem_replicate hc]; rfl⟩

theorem alike_blank {l l' : List Char} (h : Alike l l') : l.all white = l'.all white := by
  obtain ⟨w, w', x, rfl, rfl, hw, hw'⟩ := h
  have key : ∀ {w : List Char}, (∀ c ∈ w, space c = true) → w.all white = true := by
    intro w hw
    rw [List.all_eq_true]
    intro c hc
    have := hw c hc
    simp only [space, List.contains_iff_mem, List.mem_cons, List.not_mem_nil, or_false] at this
    rcases this with rfl | rfl <;> decide
  rw [List.all_append, List.all_append, key hw, key hw']

theorem blank_newline {w : List Char} (hw : ∀ c ∈ w, space c = true) : '\n' ∉ w := fun h => by
  have := hw _ h
  revert this
  decide

theorem alike_lines {l l' : List Char} (h : Alike l l') :
    (∀ b, l = b ++ ['\n'] → '\n' ∉ b → ∃ b', l' = b' ++ ['\n'] ∧ '\n' ∉ b') ∧ ('\n' ∉ l → '\n' ∉ l') := by
  obtain ⟨w, w', x, rfl, rfl, hw, hw'⟩ := h
  refine ⟨fun b e hb => ?_, fun hn => ?_⟩
  · have hx : x ≠ [] := by
      rintro rfl
      rw [List.append_nil] at e
      exact blank_newline hw (by rw [e]; simp)
    obtain ⟨y, c, rfl⟩ : ∃ y c, x = y ++ [c] := ⟨x.dropLast, x.getLast hx, (List.dropLast_concat_getLast hx).symm⟩
    rw [← List.append_assoc] at e
    obtain ⟨e1, e2⟩ := List.append_inj' e rfl
    simp only [List.cons.injEq, and_true] at e2
    subst e2
    refine ⟨w' ++ y, by simp, ?_⟩
    rw [← e1] at hb
    simp only [List.mem_append, not_or] at hb ⊢
    exact ⟨blank_newline hw', hb.2⟩
  · simp only [List.mem_append, not_or] at hn ⊢
    exact ⟨blank_newline hw', hn.2⟩

/-- Two lists of lines that are alike. -/
def AllAlike (lines lines' : List (List Char)) : Prop := lines'.length = lines.length ∧ ∀ (n : Nat) l l', lines[n]? = some l → lines'[n]? = some l' → Alike l l'

theorem lastNonblank_alike {lines lines' : List (List Char)} (h : AllAlike lines lines') : ∀ {n : Nat}, n ≤ lines.length →
    (lastNonblank lines n = none ∧ lastNonblank lines' n = none) ∨ ∃ l l', lastNonblank lines n = some l ∧ lastNonblank lines' n = some l' ∧ Alike l l'
  | 0, _ => Or.inl ⟨by simp [lastNonblank], by simp [lastNonblank]⟩
  | n + 1, hn => by
    have h1 : n < lines.length := by omega
    have h2 : n < lines'.length := by have := h.1; omega
    have ha := h.2 n _ _ (List.getElem?_eq_getElem h1) (List.getElem?_eq_getElem h2)
    have hb := alike_blank ha
    have ih := lastNonblank_alike h (n := n) (by omega)
    unfold lastNonblank at ih ⊢
    rw [List.take_succ_eq_append_getElem h1, List.take_succ_eq_append_getElem h2, List.filter_append, List.filter_append]
    by_cases hw : lines[n].all white = true
    · have hw' := hw
      rw [hb] at hw'
      simpa [hw, hw'] using ih
    · have hw' := hw
      rw [hb] at hw'
      right
      exact ⟨lines[n], lines'[n], by simp [hw], by simp [hw'], ha⟩

theorem alike_data {data : List Char → Metadata} (hu : Unindented data) {l l' : List Char} (h : Alike l l') :
    opens data l = opens data l' ∧ closes data l = closes data l' := by
  obtain ⟨w, w', x, rfl, rfl, hw, hw'⟩ := h
  exact hu w w' x hw hw'

theorem levels_alike {tab : Nat} {data : List Char → Metadata} (hu : Unindented data) {lines lines' : List (List Char)} (h : AllAlike lines lines')
    {level : Nat → Nat} : ∀ {k base start : Nat}, Levels tab data lines level base start k → Levels tab data lines' level base start k
  | 0, _, _, _ => trivial
  | k + 1, base, start, ⟨h1, h2⟩ => by
    refine ⟨?_, levels_alike hu h h2⟩
    split
    · next h0 => rwa [if_pos h0] at h1
    · next h0 =>
      rw [if_neg h0] at h1
      obtain ⟨l, hl, e⟩ := h1
      have hlt := lines_lt hl
      have hlt' : start < lines'.length := by have := h.1; omega
      have hl' := List.getElem?_eq_getElem hlt'
      have ha := h.2 start _ _ hl hl'
      refine ⟨_, hl', ?_⟩
      rw [← (alike_data hu ha).2]
      have ho : opened data lines' start = opened data lines start := by
        unfold opened
        rcases lastNonblank_alike h (Nat.le_of_lt hlt) with ⟨e1, e2⟩ | ⟨a, a', e1, e2, ha⟩
        · rw [e1, e2]
        · rw [e1, e2]
          exact (alike_data hu ha).1.symm
      rw [ho]
      exact e

theorem editLines_length (ed : Nat → List Char → LineEdit) : ∀ (ls : List (List Char)) (i : Nat), (editLines ed i ls).length = ls.length
  | [], _ => rfl
  | l :: ls, i => by simp [editLines, editLines_length ed ls]

/-- The tasks that `reindent` amounts to. -/
theorem reindent_eq {cfg : IndentConfig} {rules : Rules} {text : List Char} {ranges : List (Nat × Nat)} (h : ∀ r ∈ ranges, r.1 < r.2) :
    reindent cfg rules text ranges =
      ((ranges.map (fun r => IndentTask.batch r.1 (r.2 - 1))).foldlM (indentTask cfg rules (linesOf text)) (DeltaBuilder.new text.length)).map (·.build) := by
  have key : ∀ (rs : List (Nat × Nat)) (b : EditBuilder), (∀ r ∈ rs, r.1 < r.2) →
      rs.foldlM (fun builder (r : Nat × Nat) => if r.2 = 0 then none else bulkAutoindent cfg rules (linesOf text) builder r.1 (r.2 - 1)) b =
      (rs.map (fun r => IndentTask.batch r.1 (r.2 - 1))).foldlM (indentTask cfg rules (linesOf text)) b := by
    intro rs
    induction rs with
    | nil => intros; rfl
    | cons r rs ih =>
      intro b h
      have hr := h r (by simp)
      rw [List.foldlM_cons, List.map_cons, List.foldlM_cons, if_neg (by omega)]
      simp only [indentTask]
      cases bulkAutoindent cfg rules (linesOf text) b r.1 (r.2 - 1) with
      | none => rfl
      | some b' => exact ih b' (fun r hr => h r (by simp [hr]))
  unfold reindent
  rw [key ranges _ h]
  cases (ranges.map (fun r => IndentTask.batch r.1 (r.2 - 1))).foldlM (indentTask cfg rules (linesOf text)) (DeltaBuilder.new text.length) <;> rfl

theorem taskRanges {ranges : List (Nat × Nat)} (h : ∀ r ∈ ranges, r.1 < r.2) : (ranges.map (fun r => IndentTask.batch r.1 (r.2 - 1))).map taskRange = ranges := by
  rw [List.map_map]
  conv => rhs; rw [← List.map_id ranges]
  apply List.map_congr_left
  intro r hr
  have := h r hr
  simp only [Function.comp, taskRange, id]
  ext
  · rfl
  · simp only; omega

theorem reindent_run {cfg : IndentConfig} (ht : cfg.tabSize ≠ 0) {rules : Rules} {data : List Char → Metadata} (hd : ∀ l, rules l = some (data l))
    (text : List Char) {level : Nat → Nat} {ranges : List (Nat × Nat)} (hs : Separated (linesOf text).length 0 ranges)
    (hl : ∀ r ∈ ranges, Levels cfg.tabSize data (linesOf text) level (before cfg.tabSize (linesOf text) r.1) r.1 (r.2 - r.1)) :
    ∃ d, reindent cfg rules text ranges = some d ∧ d.apply text = some (editLines (levelEd cfg level ranges) 0 (linesOf text)).flatten := by
  have hlt : ∀ r ∈ ranges, r.1 < r.2 := fun r hr => (separated_mem hs r hr).2.1
  have e := taskRanges hlt
  obtain ⟨b, b1, b2, _⟩ := tasks_run ht hd text (level := level) (tasks := ranges.map (fun r => IndentTask.batch r.1 (r.2 - 1))) (by rw [e]; exact hs)
    (by simp) (fun task hm => by
      obtain ⟨r, hr, rfl⟩ := List.mem_map.1 hm
      have := hlt r hr
      simp only [TaskLevels]
      rw [show r.2 - 1 + 1 - r.1 = r.2 - r.1 by omega]
      exact hl r hr)
  rw [e] at b2
  exact ⟨b.build, by rw [reindent_eq hlt, b1]; rfl, b2⟩

end Syntect

open Syntect

/-- **C92.** Tasks for lines that come one after the other, none of which would have a negative indentation, indent their lines and change nothing else,
without a panic. -/
theorem C92_indent_partial {cfg : IndentConfig} (ht : cfg.tabSize ≠ 0) {rules : Rules} {data : List Char → Metadata} (hd : ∀ l, rules l = some (data l))
    (text : List Char) {level : Nat → Nat} {tasks : List IndentTask} (hs : Separated (linesOf text).length 0 (tasks.map taskRange))
    (hn : .newline 0 ∉ tasks) (hl : ∀ task ∈ tasks, TaskLevels cfg.tabSize data (linesOf text) level task) :
    ∃ d, ∃ lines' : List (List Char), indentLines cfg rules text tasks = some d ∧ afterEdit text d = some lines'.flatten ∧
      Reindented cfg level (tasks.map taskRange) (linesOf text) lines' := by
  obtain ⟨b, b1, b2, b3⟩ := tasks_run ht hd text hs hn hl
  have hr := reindented_editLines (cfg := cfg) (level := level) ht hs
  simp only [indentLines, b1, Option.bind_eq_bind, Option.bind_some]
  by_cases hb : b.isEmpty = true
  · exact ⟨none, _, by simp [hb], by simp [afterEdit, b3 hb], hr⟩
  · exact ⟨some b.build, _, by simp [hb], b2, hr⟩

/-- **C92.** The command to reindent ranges of lines, none of which would have a negative indentation, indents them and changes nothing else, without a
panic. -/
theorem C92_reindent_partial {cfg : IndentConfig} (ht : cfg.tabSize ≠ 0) {rules : Rules} {data : List Char → Metadata} (hd : ∀ l, rules l = some (data l))
    (text : List Char) {level : Nat → Nat} {ranges : List (Nat × Nat)} (hs : Separated (linesOf text).length 0 ranges)
    (hl : ∀ r ∈ ranges, Levels cfg.tabSize data (linesOf text) level (before cfg.tabSize (linesOf text) r.1) r.1 (r.2 - r.1)) :
    ∃ d, ∃ lines' : List (List Char), reindent cfg rules text ranges = some d ∧ d.apply text = some lines'.flatten ∧
      Reindented cfg level ranges (linesOf text) lines' := by
  obtain ⟨d, h1, h2⟩ := reindent_run ht hd text hs hl
  exact ⟨d, _, h1, h2, reindented_editLines ht hs⟩

/-- **C92.** A line that is indented has the columns it should have, if an indentation can have them. -/
theorem C92_columns_partial {cfg : IndentConfig} (ht : cfg.tabSize ≠ 0) {level : Nat} (hf : Fits cfg level) {l l' : List Char} (h : Indented cfg level l l') :
    columns cfg.tabSize l' = level := columns_indented ht hf h

/-- **C92.** Reindenting a range of lines a second time changes nothing. -/
theorem C92_again_partial {cfg : IndentConfig} (ht : cfg.tabSize ≠ 0) {rules : Rules} {data : List Char → Metadata} (hd : ∀ l, rules l = some (data l))
    (hu : Unindented data) (text : List Char) {level : Nat → Nat} {r : Nat × Nat} (hs : Separated (linesOf text).length 0 [r])
    (hl : Levels cfg.tabSize data (linesOf text) level (before cfg.tabSize (linesOf text) r.1) r.1 (r.2 - r.1)) (hf : ∀ n, r.1 ≤ n → n < r.2 → Fits cfg (level n)) :
    ∃ d text' d', reindent cfg rules text [r] = some d ∧ d.apply text = some text' ∧ reindent cfg rules text' [r] = some d' ∧ d'.apply text' = some text' := by
  obtain ⟨d, h1, h2⟩ := reindent_run ht hd text (level := level) hs (fun r' hr' => by rw [List.mem_singleton.1 hr']; exact hl)
  have hr := reindented_editLines (cfg := cfg) (level := level) ht hs
  obtain ⟨_, g1, g2⟩ := separated_mem hs r (by simp)
  generalize hL : editLines (levelEd cfg level [r]) 0 (linesOf text) = lines' at *
  have hlen : lines'.length = (linesOf text).length := by rw [← hL]; exact editLines_length _ _ _
  have hin : ∀ n, r.1 ≤ n → n < r.2 → rangeWith [r] n = some r := fun n h3 h4 => rangeWith_of_mem hs r (by simp) n h3 h4
  have hout : ∀ n, ¬ (r.1 ≤ n ∧ n < r.2) → rangeWith [r] n = none := fun n h => by
    unfold rangeWith
    rw [List.find?_eq_none]
    intro r' hr'
    rw [List.mem_singleton.1 hr']
    simpa using h
  have halike : AllAlike (linesOf text) lines' := by
    refine ⟨hlen, fun n l l' hl hl' => ?_⟩
    by_cases hn : r.1 ≤ n ∧ n < r.2
    · obtain ⟨l'', e1, e2⟩ := hr.inside r (by simp) n hn.1 hn.2 l hl
      rw [hl'] at e1
      simp only [Option.some.injEq] at e1
      rw [e1]
      exact indented_alike e2
    · have := hr.outside n (hout n hn)
      rw [hl, hl'] at this
      simp only [Option.some.injEq] at this
      rw [this]
      exact alike_refl l
  have hshape : IsLines lines' := by
    rw [← hL]
    refine isLines_editLines (isLines_linesOf text) (fun n l hl => ?_)
    rw [Nat.zero_add]
    have : (editLines (levelEd cfg level [r]) 0 (linesOf text))[n]? = some (editLine (levelEd cfg level [r] n l) l) := by
      rw [editLines_getElem?, hl]; simp
    rw [hL] at this
    exact alike_lines (halike.2 n l _ hl this)
  have hlines := linesOf_flatten hshape
  have hb : before cfg.tabSize lines' r.1 = before cfg.tabSize (linesOf text) r.1 := by
    have : lines'.take r.1 = (linesOf text).take r.1 := by
      apply List.ext_getElem?
      intro n
      rw [List.getElem?_take, List.getElem?_take]
      split
      · exact hr.outside n (hout n (by omega))
      · rfl
    unfold before lastNonblank
    rw [this]
  have hl2 : Levels cfg.tabSize data lines' level (before cfg.tabSize lines' r.1) r.1 (r.2 - r.1) := by
    rw [hb]; exact levels_alike hu halike hl
  have hs2 : Separated (linesOf lines'.flatten).length 0 [r] := by rw [hlines, hlen]; exact hs
  obtain ⟨d', h3, h4⟩ := reindent_run ht hd lines'.flatten (level := level) hs2 (fun r' hr' => by rw [List.mem_singleton.1 hr', hlines]; exact hl2)
  have hr2 := reindented_editLines (cfg := cfg) (level := level) ht hs2
  rw [hlines] at h4 hr2
  refine ⟨d, _, d', h1, h2, h3, ?_⟩
  rw [h4]
  congr 2
  apply List.ext_getElem?
  intro n
  by_cases hn : r.1 ≤ n ∧ n < r.2
  · have hlt : n < (linesOf text).length := by omega
    obtain ⟨l', e1, e2⟩ := hr.inside r (by simp) n hn.1 hn.2 _ (List.getElem?_eq_getElem hlt)
    obtain ⟨l'', e3, e4⟩ := hr2.inside r (by simp) n hn.1 hn.2 _ e1
    have hc := columns_indented ht (hf n hn.1 hn.2) e2
    unfold Indented at e4
    rw [if_pos hc] at e4
    rw [e3, e4, e1]
  · exact hr2.outside n (hout n hn)

/-- Metadata for the examples: braces. -/
def Syntect.braces (line : List Char) : Metadata :=
  ⟨some "//".toList, fun _ => (Lsp.trim line).getLast? = some '{', fun _ => (Lsp.trim line).head? = some '}'⟩

/-- What reindenting the lines from `start` to `stop` makes of a text. -/
def Syntect.reindented (cfg : IndentConfig) (text : String) (ranges : List (Nat × Nat)) : Option String :=
  ((reindent cfg (fun l => some (braces l)) text.toList ranges).bind (fun d => d.apply text.toList)).map String.ofList

/-- What the tasks make of a text. -/
def Syntect.indentedBy (cfg : IndentConfig) (text : String) (tasks : List IndentTask) : Option String :=
  ((indentLines cfg (fun l => some (braces l)) text.toList tasks).bind (fun d => afterEdit text.toList d)).map String.ofList

/-- **C92, refuted.** A line that closes what was never opened makes the plugin panic. -/
theorem C92_negative_refuted : reindented ⟨4, true⟩ "a\n}\n" [(1, 2)] = none := by decide +kernel

/-- **C92, refuted.** Blank lines after a line that opens each add a level. -/
theorem C92_blank_refuted : reindented ⟨4, true⟩ "{\n\nx\n" [(1, 3)] = some "{\n    \n        x\n" := by decide +kernel

/-- **C92, refuted.** Two characters typed into a line that closes, before there is time to indent it, make the plugin panic. -/
theorem C92_typing_refuted :
    considerRegion "{\n    a\n    }".toList .insert 12 1 ++ considerRegion "{\n    a\n    };".toList .insert 13 1 = [.edit 2, .edit 2] ∧
    indentedBy ⟨4, true⟩ "{\n    a\n    };" [.edit 2] = some "{\n    a\n};" ∧
    indentedBy ⟨4, true⟩ "{\n    a\n    };" [.edit 2, .edit 2] = none := by
  refine ⟨rfl, ?_, ?_⟩ <;> decide +kernel

/-- **C92, refuted.** With tabs, columns that are no multiple of the tab size are lost. -/
theorem C92_tabs_refuted : reindented ⟨4, false⟩ "  a\nb\n" [(1, 2)] = some "  a\nb\n" := by decide +kernel

/-- **C92, refuted.** A second range is indented after the old text of the first one, so that reindenting once more changes it again. -/
theorem C92_again_refuted :
    reindented ⟨4, true⟩ "  a\n\nc\n" [(0, 1), (2, 3)] = some "a\n\n  c\n" ∧
    reindented ⟨4, true⟩ "a\n\n  c\n" [(0, 1), (2, 3)] = some "a\n\nc\n" := by
  refine ⟨?_, ?_⟩ <;> decide +kernel

example : reindented ⟨4, true⟩ "if x {\na\n} else {\n  b\n}\n" [(0, 5)] = some "if x {\n    a\n} else {\n    b\n}\n" := by decide +kernel

example : indentedBy ⟨2, false⟩ "\tif x {\n" [.newline 1] = some "\tif x {\n\t\t" := by decide +kernel

theorem Syntect.length_linesOf : ∀ (t : List Char), (linesOf t).length = t.count '\n' + 1
  | [] => rfl
  | c :: cs => by
    have ih := length_linesOf cs
    simp only [linesOf]
    split
    · next h => subst h; simp [ih]
    · next h =>
      rw [List.count_cons_of_ne h]
      split
      · next e => exact absurd e (linesOf_ne cs)
      · next e => rw [e] at ih; simpa using ih

/-- **C92.** Typing blanks asks for nothing; every other insertion does. -/
theorem C92_tasks_which (before inserted after : List Char) (type : EditType) :
    considerRegion (before ++ inserted ++ after) type before.length inserted.length = [] ↔ type = .insert ∧ inserted.all white = true := by
  have e : ((before ++ inserted ++ after).drop before.length).take inserted.length = inserted := by
    rw [List.append_assoc, List.drop_left, List.take_left]
  cases type <;> simp [considerRegion, asciiWhite_eq, e]

/-- **C92.** The lines that an insertion asks to indent are lines of the text, and those the inserted characters are on or, after a newline, the next one. -/
theorem C92_tasks (before inserted after : List Char) (type : EditType) (hn : type = .newline → '\n' ∈ inserted) :
    ∀ task ∈ considerRegion (before ++ inserted ++ after) type before.length inserted.length,
      (taskRange task).1 < (taskRange task).2 ∧ (taskRange task).2 ≤ (linesOf (before ++ inserted ++ after)).length ∧ task ≠ .newline 0 ∧
      (taskRange task).1 = before.count '\n' + (if type = .newline then 1 else 0) ∧
      (type = .other → (taskRange task).2 = (before ++ inserted).count '\n' + 1) := by
  intro task hm
  have e1 : (before ++ inserted ++ after).take before.length = before := by rw [List.append_assoc, List.take_left]
  have e2 : (before ++ inserted ++ after).take (before.length + inserted.length) = before ++ inserted := by rw [← List.length_append, List.take_left]
  have e3 : (linesOf (before ++ inserted ++ after)).length = before.count '\n' + inserted.count '\n' + after.count '\n' + 1 := by
    rw [length_linesOf, List.count_append, List.count_append]
  simp only [considerRegion, e1, e2] at hm
  cases type with
  | newline =>
    have := List.count_pos_iff.2 (hn rfl)
    simp only [List.mem_singleton] at hm
    subst hm
    simp only [taskRange, e3]
    exact ⟨by omega, by omega, by simp, by simp, by simp⟩
  | insert =>
    simp only at hm
    split at hm
    · simp at hm
    · simp only [List.mem_singleton] at hm
      subst hm
      simp only [taskRange, e3]
      exact ⟨by omega, by omega, by simp, by simp, by simp⟩
  | other =>
    simp only [List.mem_singleton] at hm
    subst hm
    simp only [taskRange, e3, List.count_append]
    exact ⟨by omega, by omega, by simp, by simp, by simp⟩

theorem Syntect.trim_blanks {w l : List Char} (hw : ∀ c ∈ w, space c = true) : Lsp.trim (w ++ l) = Lsp.trim l := by
  unfold Lsp.trim
  rw [List.dropWhile_append_of_pos (fun c hc => blank_white (hw c hc))]

/-- The braces do not depend on the indentation. -/
example : Unindented braces := by
  intro w w' l hw hw'
  simp only [opens, closes, braces, trim_blanks hw, trim_blanks hw', and_self]

/-- The hypotheses of the theorems, for a text that is not indented. -/
example : Levels 4 braces (linesOf "if x {\na\n}\n".toList) (fun n => if n = 1 then 4 else 0) (before 4 (linesOf "if x {\na\n}\n".toList) 0) 0 3 := by
  refine ⟨?_, ?_, ?_, trivial⟩
  · rw [if_pos rfl]
    decide +kernel
  · rw [if_neg (by decide)]
    exact ⟨"a\n".toList, by decide +kernel, by decide +kernel⟩
  · rw [if_neg (by decide)]
    exact ⟨"}\n".toList, by decide +kernel, by decide +kernel⟩

example : Fits ⟨4, true⟩ 8 ∧ Fits ⟨4, false⟩ 8 := by
  refine ⟨?_, ?_⟩ <;> simp [Fits] <;> decide

end Xi
