import Verif.Core.Movement
import Verif.Core.LineOffsetLemmas
import Verif.Props.WordBoundaries
import Verif.Props.Selection
import Verif.Props.Wrap

/-!
# Movement of carets and selections (core-lib/src/movement.rs, line_offset.rs): C69
-/

namespace Xi

open Find

/-! ## What the movements should do -/

/-- The place that a vertical movement starts from. -/
def startingPoint (r : SelRegion) (up modify : Bool) : Nat :=
  if modify then r.stop else if up then min r.start r.stop else max r.start r.stop

/-- The column of a vertical movement: the remembered one, or that of the starting point. -/
def startingCol (r : SelRegion) (p s : Nat) : Nat := r.horiz.getD (p - s)

/-- Going down `delta` lines (up if negative) leads to `p`: the place of the column on the line, or
the start or the end of the text if there is no such line; the column is remembered. -/
def VerticalTo (g : Graphemes) (t : List UInt8) (starts : List Nat) (r : SelRegion) (modify : Bool) (delta : Int) (p : Nat) (h : Option Nat) : Prop :=
  ∃ n s, OnLine starts n s (startingPoint r (delta < 0) modify) ∧ h = some (startingCol r (startingPoint r (delta < 0) modify) s) ∧
    ((n : Int) + delta < 0 → p = 0) ∧ ((starts.length : Int) ≤ n + delta → p = t.length) ∧
    ∀ m : Nat, (m : Int) = n + delta → m < starts.length → PlaceAt g t starts m (startingCol r (startingPoint r (delta < 0) modify) s) p

/-- The number of bytes of a line, with the newline. -/
def lineLen (starts : List Nat) (len n : Nat) : Nat := (starts[n + 1]?).getD len - (starts[n]?).getD len

/-- The nearest line above or below that has more than `col` bytes; `n` itself if there is none. -/
def LongLine (starts : List Nat) (len : Nat) (up : Bool) (n col m : Nat) : Prop :=
  ∃ o, (if up then IsPrev (fun k => col < lineLen starts len k) n o else IsNext (fun k => col < lineLen starts len k) (starts.length - 1) n o) ∧
    m = o.getD n

/-- The movement to the nearest line that is long enough. -/
def ExactTo (g : Graphemes) (t : List UInt8) (starts : List Nat) (r : SelRegion) (modify up : Bool) (p : Nat) (h : Option Nat) : Prop :=
  ∃ n s col, OnLine starts n s (startingPoint r up modify) ∧ h = some col ∧
    if up = true ∧ n = 0 then col = startingCol r (startingPoint r up modify) s ∧ PlaceAt g t starts n col p
    else
      col = (if lineLen starts t.length n < startingCol r (startingPoint r up modify) s then lineLen starts t.length n - 1
        else startingCol r (startingPoint r up modify) s) ∧
      ∃ m, LongLine starts t.length up n col m ∧ PlaceAt g t starts m col p

/-- The movement leads to `p`, with the column `h` remembered. -/
def MovesTo (g : Graphemes) (t : List UInt8) (starts : List Nat) (height : Nat) (modify : Bool) (r : SelRegion) (p : Nat) (h : Option Nat) :
    Movement → Prop
  | .left =>
    if r.start = r.stop ∨ modify = true then
      r.stop = 0 ∧ p = 0 ∧ h = r.horiz ∨ IsPrev (fun k => g.boundary t k = true) r.stop (some p) ∧ h = none
    else p = min r.start r.stop ∧ h = none
  | .right =>
    if r.start = r.stop ∨ modify = true then
      r.stop = t.length ∧ p = r.stop ∧ h = r.horiz ∨ IsNext (fun k => g.boundary t k = true) t.length r.stop (some p) ∧ h = none
    else p = max r.start r.stop ∧ h = none
  | .leftWord => (r.stop = 0 ∧ p = 0 ∨ IsPrev (Word.From Word.Starts t) r.stop (some p)) ∧ h = none
  | .rightWord => (r.stop = t.length ∧ p = r.stop ∨ IsNext (Word.UpTo Word.Ends t) t.length r.stop (some p)) ∧ h = none
  | .leftOfLine => (∃ n, OnLine starts n p r.stop) ∧ h = none
  | .rightOfLine =>
    (∃ n s, OnLine starts n s r.stop ∧ (starts[n + 1]? = none → p = t.length) ∧
      ∀ e, starts[n + 1]? = some e → IsPrev (fun k => g.boundary t k = true) e (some p)) ∧ h = none
  | .up => VerticalTo g t starts r modify (-1) p h
  | .down => VerticalTo g t starts r modify 1 p h
  | .upPage => VerticalTo g t starts r modify (-(max ((height : Int) - 2) 1)) p h
  | .downPage => VerticalTo g t starts r modify (max ((height : Int) - 2) 1) p h
  | .upExactPosition => ExactTo g t starts r modify true p h
  | .downExactPosition => ExactTo g t starts r modify false p h
  | .startOfParagraph =>
    (IsPrev (LineBoundary t) r.stop (some p) ∨ IsPrev (LineBoundary t) r.stop none ∧ p = 0) ∧ h = none
  | .endOfParagraph =>
    ((∃ q, IsNext (LineBoundary t) t.length r.stop (some q) ∧ IsPrev (fun k => g.boundary t k = true) q (some p)) ∨
      IsNext (LineBoundary t) t.length r.stop none ∧ p = t.length) ∧ h = none
  | .endOfParagraphKill =>
    ((∃ q e, IsNext (LineBoundary t) t.length r.stop (some q) ∧ IsPrev (fun k => g.boundary t k = true) q (some e) ∧
      p = if e = r.stop then q else e) ∨ IsNext (LineBoundary t) t.length r.stop none ∧ p = r.stop) ∧ h = none
  | .startOfDocument => p = 0 ∧ h = none
  | .endOfDocument => p = t.length ∧ h = none

/-- The underflow of movement.rs:114 does not happen: if the starting point is on an empty last line, no
column other than 0 is remembered. -/
def ExactSafe (starts : List Nat) (len : Nat) (r : SelRegion) (modify up : Bool) : Prop :=
  ∀ n s, OnLine starts n s (startingPoint r up modify) → lineLen starts len n = 0 → (up = true ∧ n = 0) ∨ startingCol r (startingPoint r up modify) s = 0

/-- The movement can be done without a panic. -/
def Movement.Safe (m : Movement) (starts : List Nat) (len : Nat) (r : SelRegion) (modify : Bool) : Prop :=
  match m with
  | .upExactPosition => ExactSafe starts len r modify true
  | .downExactPosition => ExactSafe starts len r modify false
  | _ => True

/-! ## Lines and columns -/

section

variable {g : Graphemes} {r : Rope} {lo : LineOffset} {starts : List Nat}

/-- **C69.** The two kinds of lines: those that newlines end and those on the screen. -/
theorem C69_lines {b : Breaks} (hr : r.Balanced) (wraps : Bool) (ha : Agree r b) (hw : wraps = false → ∀ k, ¬ BreakAt b.text k) :
    IsLines r .logicalLines (logicalStarts r.text) ∧
    IsLines r (.visualLines wraps b) (visualStarts r.text b.text) ∧ Clamps r (.visualLines wraps b) (visualStarts r.text b.text) :=
  ⟨logical_isLines hr, visual_isLines wraps ha hw⟩

/-- **C69.** The line and the column of a place. -/
theorem C69_offset_to_line_col (hl : IsLines r lo starts) {o : Nat} (ho : CharBoundary r.text o) :
    ∃ n s, OnLine starts n s o ∧ lo.offsetToLineCol r o = some (n, o - s) := by
  obtain ⟨n, s, h⟩ := hl.onLine o
  exact ⟨n, s, h, hl.lineCol ho h⟩

/-- **C69.** `line_col_to_offset` finds the place of a column on a line. -/
theorem C69_line_col_to_offset (hr : r.Balanced) (hg : g.Ok) (hl : IsLines r lo starts) {n : Nat} (hn : n < starts.length) (col : Nat) :
    ∃ p, lo.lineColToOffset g r n col = some p ∧ PlaceAt g r.text starts n col p := hl.lineColTo hr hg hn col

/-- **C69.** Beyond the last line it gives the end of the text. -/
theorem C69_line_col_beyond (hr : r.Balanced) (hl : IsLines r lo starts) (hc : Clamps r lo starts) {n : Nat} (hn : starts.length ≤ n)
    (col : Nat) : lo.lineColToOffset g r n col = some r.text.length := by
  have hlen : r.len = r.text.length := Rope.len_eq hr
  simp only [LineOffset.lineColToOffset, hc n hn, Option.bind_eq_bind, Option.bind_some, hlen]
  rw [if_pos (by omega), hl.lastLine hr]
  simp only [Option.bind_some]
  rw [if_pos (by omega)]
  rfl

/-- **C69.** The place of a column is on the line, if the line starts between two grapheme clusters. -/
theorem C69_place_on_line {t : List UInt8} {n col p s : Nat} (hs : starts[n]? = some s) (hle : ∀ e, starts[n + 1]? = some e → s < e) (hb : g.boundary t s = true)
    (hst : s ≤ t.length) (h : PlaceAt g t starts n col p) : OnLine starts n s p ∧ p ≤ s + col := by
  obtain ⟨s', hs', h1, h2, h3⟩ := h
  rw [hs] at hs'
  injection hs' with hs'
  subst hs'
  have hsp : s ≤ p := by
    apply Classical.byContradiction
    intro hn
    refine h3 s (by omega) ?_ hb
    cases e : starts[n + 1]? with
    | none => simp only [lineLimit, e, Option.getD_none]; omega
    | some x => have := hle x e; simp only [lineLimit, e, Option.getD_some]; omega
  refine ⟨⟨hs, hsp, ?_⟩, by omega⟩
  intro e he
  simp only [lineLimit, he, Option.getD_some] at h1
  omega

/-- **C69.** From a place between two grapheme clusters to line and column and back. -/
theorem C69_line_col_roundtrip (hr : r.Balanced) (hg : g.Ok) (hl : IsLines r lo starts) {o : Nat} (ho : g.boundary r.text o = true) :
    (lo.offsetToLineCol r o).bind (fun lc => lo.lineColToOffset g r lc.1 lc.2) = some o := by
  have hch := hg.char _ _ (Rope.text_utf8 hr) ho
  have hol := boundary_le hch
  obtain ⟨n, s, h, e⟩ := C69_offset_to_line_col hl hch
  rw [e]
  simp only [Option.bind_some]
  obtain ⟨p, e1, s', hs', h2⟩ := hl.lineColTo hr hg (List.getElem?_eq_some_iff.1 h.start).1 (o - s)
  rw [h.start] at hs'
  injection hs' with hs'
  subst hs'
  rw [e1]
  congr 1
  have hle := h.le
  refine isPrev_unique h2 ⟨?_, ho, fun k k1 k2 => by omega⟩
  cases e : starts[n + 1]? with
  | none => simp only [lineLimit, e, Option.getD_none]; omega
  | some x => have := h.lt x e; simp only [lineLimit, e, Option.getD_some]; omega

/-! ## Vertical movement -/

theorem active_eq (r : SelRegion) (up modify : Bool) : Movement.active r up modify = startingPoint r up modify := rfl

theorem startingPoint_boundary {t : List UInt8} {q : SelRegion} (h1 : CharBoundary t q.start) (h2 : CharBoundary t q.stop) (up modify : Bool) :
    CharBoundary t (startingPoint q up modify) := by
  unfold startingPoint
  repeat' split
  all_goals first | exact h2 | skip
  · rcases Nat.le_total q.start q.stop with h | h
    · rw [Nat.min_eq_left h]; exact h1
    · rw [Nat.min_eq_right h]; exact h2
  · rcases Nat.le_total q.start q.stop with h | h
    · rw [Nat.max_eq_right h]; exact h2
    · rw [Nat.max_eq_left h]; exact h1

theorem selectionPosition_spec (hl : IsLines r lo starts) {q : SelRegion} (up modify : Bool) {n s : Nat}
    (hb : CharBoundary r.text (startingPoint q up modify)) (h : OnLine starts n s (startingPoint q up modify)) :
    Movement.selectionPosition q lo r up modify = some (startingCol q (startingPoint q up modify) s, n) := by
  simp only [Movement.selectionPosition, active_eq, hl.lineCol hb h, hl.lineOf hb h, startingCol]
  cases q.horiz <;> rfl

theorem place_boundary {t : List UInt8} (hu : Utf8 t) (hg : g.Ok) {n col p : Nat} (h : PlaceAt g t starts n col p) : CharBoundary t p := by
  obtain ⟨s, -, h1, h2, h3⟩ := h
  exact hg.char _ _ hu h2

theorem verticalMotion_spec (hr : r.Balanced) (hg : g.Ok) (hl : IsLines r lo starts) {q : SelRegion} (h1 : CharBoundary r.text q.start)
    (h2 : CharBoundary r.text q.stop) (delta : Int) (modify : Bool) :
    ∃ p h, Movement.verticalMotion g q lo r delta modify = some (p, h) ∧ VerticalTo g r.text starts q modify delta p h ∧ CharBoundary r.text p := by
  have hlen : r.len = r.text.length := Rope.len_eq hr
  have hb := startingPoint_boundary h1 h2 (delta < 0) modify
  obtain ⟨n, s, hon⟩ := hl.onLine (startingPoint q (delta < 0) modify)
  have hn : n < starts.length := (List.getElem?_eq_some_iff.1 hon.start).1
  simp only [Movement.verticalMotion, selectionPosition_spec hl (decide (delta < 0)) modify hb hon, hlen, hl.lastLine hr, Option.bind_eq_bind, Option.bind_some]
  by_cases c1 : delta < 0 ∧ (-delta).toNat > n
  · rw [if_pos c1]
    exact ⟨0, _, rfl, ⟨n, s, hon, rfl, fun _ => rfl, fun h => by omega, fun m h3 h4 => by omega⟩, rope_boundary_zero hr⟩
  · rw [if_neg c1]
    have hm : ∃ m : Nat, (m : Int) = n + delta ∧ (if delta < 0 then n - (-delta).toNat else n + delta.toNat) = m := by
      by_cases c2 : delta < 0
      · exact ⟨n - (-delta).toNat, by omega, by rw [if_pos c2]⟩
      · exact ⟨n + delta.toNat, by omega, by rw [if_neg c2]⟩
    obtain ⟨m, hm1, hm2⟩ := hm
    rw [hm2]
    by_cases c2 : m > starts.length - 1
    · rw [if_pos c2]
      exact ⟨_, _, rfl, ⟨n, s, hon, rfl, fun h => by omega, fun _ => rfl, fun m' h3 h4 => by omega⟩, rope_boundary_length hr⟩
    · rw [if_neg c2]
      obtain ⟨p, e1, e2⟩ := hl.lineColTo hr hg (n := m) (by omega) (startingCol q (startingPoint q (delta < 0) modify) s)
      simp only [e1, Option.bind_some]
      refine ⟨p, _, rfl, ⟨n, s, hon, rfl, fun h => by omega, fun h => by omega, ?_⟩, place_boundary (Rope.text_utf8 hr) hg e2⟩
      intro m' h3 h4
      rw [show m' = m by omega]
      exact e2

theorem lineLength_spec (hl : IsLines r lo starts) (hc : Clamps r lo starts) (n : Nat) :
    Movement.lineLength lo r n = some (lineLen starts r.text.length n) := by
  have key : ∀ m, lo.offsetOfLine r m = some ((starts[m]?).getD r.text.length) := by
    intro m
    cases e : starts[m]? with
    | some x => exact hl.offset _ _ e
    | none => exact hc m (List.getElem?_eq_none_iff.1 e)
  simp only [Movement.lineLength, key, Option.bind_eq_bind, Option.bind_some, lineLen]
  rw [if_pos]
  cases e : starts[n]? with
  | none =>
    have := List.getElem?_eq_none_iff.1 e
    rw [List.getElem?_eq_none (by omega)]
    simp
  | some x =>
    cases e' : starts[n + 1]? with
    | none => simpa using hl.start_le e
    | some y => have := get_lt hl.sorted (Nat.lt_succ_self n) e e'; simp; omega

theorem lineLen_beyond {n len : Nat} (h : starts.length ≤ n) : lineLen starts len n = 0 := by
  simp only [lineLen]
  rw [List.getElem?_eq_none (by omega), List.getElem?_eq_none (by omega)]
  simp

theorem exactLoop_down (hl : IsLines r lo starts) (hc : Clamps r lo starts) (col n : Nat) (hn : n < starts.length) : ∀ (fuel line : Nat),
    starts.length + 1 ≤ line + fuel → n < line → line ≤ starts.length → (∀ k, n < k → k < line → ¬ col < lineLen starts r.text.length k) →
    ∃ m, Movement.exactLoop lo r false col (starts.length - 1) n fuel line = some m ∧ LongLine starts r.text.length false n col m
  | 0, line, h, _, _, _ => by omega
  | fuel + 1, line, h, h1, h2, h3 => by
    simp only [Movement.exactLoop, lineLength_spec hl hc, Option.bind_eq_bind, Option.bind_some]
    by_cases c1 : lineLen starts r.text.length line > col
    · rw [if_pos c1]
      refine ⟨line, rfl, some line, ?_, rfl⟩
      simp only [Bool.false_eq_true, if_false]
      refine ⟨h1, ?_, c1, h3⟩
      apply Classical.byContradiction
      intro hh
      rw [lineLen_beyond (by omega)] at c1
      omega
    · rw [if_neg c1]
      by_cases c2 : line ≥ starts.length - 1
      · rw [if_pos (.inl c2)]
        refine ⟨n, rfl, none, ?_, rfl⟩
        simp only [Bool.false_eq_true, if_false]
        intro k k1 k2
        by_cases c3 : k = line
        · rw [c3]; exact c1
        · exact h3 k k1 (by omega)
      · rw [if_neg (by simp; omega)]
        simp only [Bool.false_eq_true, if_false]
        refine exactLoop_down hl hc col n hn fuel (line + 1) (by omega) (by omega) (by omega) ?_
        intro k k1 k2
        by_cases c3 : k = line
        · rw [c3]; exact c1
        · exact h3 k k1 (by omega)

theorem exactLoop_up (hl : IsLines r lo starts) (hc : Clamps r lo starts) (col n : Nat) (hn : n < starts.length) : ∀ (fuel line : Nat),
    line < fuel → line < n → (∀ k, line < k → k < n → ¬ col < lineLen starts r.text.length k) →
    ∃ m, Movement.exactLoop lo r true col (starts.length - 1) n fuel line = some m ∧ LongLine starts r.text.length true n col m
  | 0, line, h, _, _ => by omega
  | fuel + 1, line, h, h1, h3 => by
    simp only [Movement.exactLoop, lineLength_spec hl hc, Option.bind_eq_bind, Option.bind_some]
    by_cases c1 : lineLen starts r.text.length line > col
    · rw [if_pos c1]
      exact ⟨line, rfl, some line, by simpa using ⟨h1, c1, fun k k1 k2 => by have := h3 k k1 k2; omega⟩, rfl⟩
    · rw [if_neg c1]
      have h4 : ∀ k, line - 1 < k → k < n → ¬ col < lineLen starts r.text.length k := by
        intro k k1 k2
        by_cases c3 : k = line
        · rw [c3]; exact c1
        · exact h3 k (by omega) k2
      by_cases c2 : line = 0
      · rw [if_pos (.inr ⟨c2, trivial⟩)]
        refine ⟨n, rfl, none, ?_, rfl⟩
        simp only [if_true]
        intro k k1
        by_cases c3 : k = line
        · rw [c3]; exact c1
        · exact h3 k (by omega) k1
      · rw [if_neg (by simp; omega)]
        simp only [if_true]
        exact exactLoop_up hl hc col n hn fuel (line - 1) (by omega) (by omega) h4

theorem longLine_lt {len n col m : Nat} {up : Bool} (hn : n < starts.length) (h : LongLine starts len up n col m) : m < starts.length := by
  obtain ⟨o, h1, rfl⟩ := h
  cases o with
  | none => exact hn
  | some k =>
    cases up with
    | true => simp only [if_true] at h1; have := h1.1; simp; omega
    | false => simp only [Bool.false_eq_true, if_false] at h1; have := h1.2.1; simp; omega

theorem verticalMotionExactPos_spec (hr : r.Balanced) (hg : g.Ok) (hl : IsLines r lo starts) (hc : Clamps r lo starts) {q : SelRegion}
    (h1 : CharBoundary r.text q.start) (h2 : CharBoundary r.text q.stop) (up modify : Bool) (hs : ExactSafe starts r.text.length q modify up) :
    ∃ p h, Movement.verticalMotionExactPos g q lo r up modify = some (p, h) ∧ ExactTo g r.text starts q modify up p h ∧ CharBoundary r.text p := by
  have hlen : r.len = r.text.length := Rope.len_eq hr
  have hb := startingPoint_boundary h1 h2 up modify
  obtain ⟨n, s, hon⟩ := hl.onLine (startingPoint q up modify)
  have hn : n < starts.length := (List.getElem?_eq_some_iff.1 hon.start).1
  simp only [Movement.verticalMotionExactPos, selectionPosition_spec hl up modify hb hon, hlen, hl.lastLine hr, lineLength_spec hl hc, Option.bind_eq_bind, Option.bind_some]
  by_cases c : up = true ∧ n = 0
  · rw [if_pos c]
    obtain ⟨p, e1, e2⟩ := hl.lineColTo hr hg hn (startingCol q (startingPoint q up modify) s)
    simp only [e1, Option.bind_some]
    refine ⟨p, _, rfl, ⟨n, s, _, hon, rfl, ?_⟩, place_boundary (Rope.text_utf8 hr) hg e2⟩
    rw [if_pos c]
    exact ⟨rfl, e2⟩
  · rw [if_neg c]
    have hcol : Movement.exactCol (lineLen starts r.text.length n) (startingCol q (startingPoint q up modify) s) =
        some (if lineLen starts r.text.length n < startingCol q (startingPoint q up modify) s then lineLen starts r.text.length n - 1
          else startingCol q (startingPoint q up modify) s) := by
      unfold Movement.exactCol
      by_cases c1 : lineLen starts r.text.length n < startingCol q (startingPoint q up modify) s
      · rw [if_pos c1, if_pos c1, if_neg]
        intro h0
        rcases hs n s hon h0 with h | h
        · exact c h
        · omega
      · rw [if_neg c1, if_neg c1]
    rw [hcol]
    simp only [Option.bind_some]
    generalize hcdef : (if lineLen starts r.text.length n < startingCol q (startingPoint q up modify) s then lineLen starts r.text.length n - 1
          else startingCol q (startingPoint q up modify) s) = col
    have hloop : ∃ m, Movement.exactLoop lo r up col (starts.length - 1) n (starts.length - 1 + 3) (if up = true then n - 1 else n + 1) = some m ∧
        LongLine starts r.text.length up n col m := by
      cases up with
      | true =>
        have hn0 : n ≠ 0 := fun h => c ⟨rfl, h⟩
        simp only [if_true]
        exact exactLoop_up hl hc col n hn _ _ (by omega) (by omega) (fun k k1 k2 => by omega)
      | false =>
        simp only [Bool.false_eq_true, if_false]
        exact exactLoop_down hl hc col n hn _ _ (by omega) (by omega) (by omega) (fun k k1 k2 => by omega)
    obtain ⟨m, e1, e2⟩ := hloop
    rw [e1]
    simp only [Option.bind_some]
    obtain ⟨p, e3, e4⟩ := hl.lineColTo hr hg (longLine_lt hn e2) col
    rw [e3]
    refine ⟨p, some col, rfl, ⟨n, s, col, hon, rfl, ?_⟩, place_boundary (Rope.text_utf8 hr) hg e4⟩
    rw [if_neg c]
    exact ⟨hcdef.symm, m, e2, e4⟩

/-! ## All movements -/

theorem new_stands (hr : r.Balanced) {p : Nat} (hp : p ≤ r.text.length) :
    ∃ c, Cursor.new r p = some c ∧ Cursor.Stands r c (some p) := by
  obtain ⟨c, pre, l, post, h1, h2, h3, h4⟩ := Cursor.new_spec hr hp
  exact ⟨c, h1, h3, h4, pre, l, post, h2⟩

theorem endOfParagraph_spec (hr : r.Balanced) (hg : g.Ok) {p : Nat} (hp : CharBoundary r.text p) :
    ∃ o, Movement.endOfParagraphFrom g r p = some o ∧ CharBoundary r.text o ∧
      ((∃ q, IsNext (LineBoundary r.text) r.text.length p (some q) ∧ IsPrev (fun k => g.boundary r.text k = true) q (some o)) ∨
      IsNext (LineBoundary r.text) r.text.length p none ∧ o = r.text.length) := by
  have hlen : r.len = r.text.length := Rope.len_eq hr
  obtain ⟨c, pre, l, post, e1, e2, rfl, rfl⟩ := Cursor.new_spec hr (boundary_le hp)
  obtain ⟨c', o, e3, e4, e5⟩ := Cursor.next_spec finds_lines e2 (fun h => absurd h (by decide))
  simp only [Movement.endOfParagraphFrom, e1, e3, Option.bind_eq_bind, Option.bind_some]
  cases o with
  | none => exact ⟨_, by rw [hlen]; rfl, rope_boundary_length hr, .inr ⟨e4, rfl⟩⟩
  | some q =>
    obtain ⟨s1, s2, pre', l', post', s3⟩ := e5.stands rfl
    obtain ⟨c'', b, e6, e7, -⟩ := Cursor.isBoundary_spec finds_lines s3
    have hb : b = true := by rw [e7, s1, s2]; exact e4.2.2.1
    subst hb
    obtain ⟨o, e8, e9⟩ := Graphemes.prev_pos hg hr (o := q) e4.2.1 (by have := e4.1; omega)
    simp only [Movement.paragraphEnd, e6, e8, Option.bind_eq_bind, Option.bind_some, if_true]
    exact ⟨o, rfl, hg.char _ _ (Rope.text_utf8 hr) e9.2.1, .inl ⟨q, e4, e9⟩⟩

theorem endOfParagraphKill_spec (hr : r.Balanced) (hg : g.Ok) {p : Nat} (hp : CharBoundary r.text p) :
    ∃ o, Movement.endOfParagraphKillFrom g r p = some o ∧ CharBoundary r.text o ∧
      ((∃ q e, IsNext (LineBoundary r.text) r.text.length p (some q) ∧ IsPrev (fun k => g.boundary r.text k = true) q (some e) ∧
        o = if e = p then q else e) ∨ IsNext (LineBoundary r.text) r.text.length p none ∧ o = p) := by
  have hlen : r.len = r.text.length := Rope.len_eq hr
  obtain ⟨c, pre, l, post, e1, e2, rfl, rfl⟩ := Cursor.new_spec hr (boundary_le hp)
  obtain ⟨c', o, e3, e4, e5⟩ := Cursor.next_spec finds_lines e2 (fun h => absurd h (by decide))
  simp only [Movement.endOfParagraphKillFrom, e1, e3, Option.bind_eq_bind, Option.bind_some]
  cases o with
  | none => exact ⟨_, rfl, hp, .inr ⟨e4, rfl⟩⟩
  | some q =>
    obtain ⟨s1, s2, pre', l', post', s3⟩ := e5.stands rfl
    obtain ⟨c'', b, e6, e7, -⟩ := Cursor.isBoundary_spec finds_lines s3
    have hb : b = true := by rw [e7, s1, s2]; exact e4.2.2.1
    subst hb
    obtain ⟨o, e8, e9⟩ := Graphemes.prev_pos hg hr (o := q) e4.2.1 (by have := e4.1; omega)
    simp only [Movement.killEnd, e6, e8, Option.bind_eq_bind, Option.bind_some, if_true]
    refine ⟨if o = c.position then q else o, ?_, ?_, .inl ⟨q, o, e4, e9, rfl⟩⟩
    · by_cases h : o = c.position <;> simp [h]
    · split
      · exact line_boundary_char hr e4.2.2.1
      · exact hg.char _ _ (Rope.text_utf8 hr) e9.2.1

theorem rightOfLine_spec (hr : r.Balanced) (hg : g.Ok) (hl : IsLines r lo starts) {p : Nat} (hp : CharBoundary r.text p) :
    ∃ o, Movement.rightOfLineFrom g lo r p = some o ∧ CharBoundary r.text o ∧ ∃ n s, OnLine starts n s p ∧
      (starts[n + 1]? = none → o = r.text.length) ∧ ∀ e, starts[n + 1]? = some e → IsPrev (fun k => g.boundary r.text k = true) e (some o) := by
  have hlen : r.len = r.text.length := Rope.len_eq hr
  obtain ⟨n, s, hon⟩ := hl.onLine p
  have hn : n < starts.length := (List.getElem?_eq_some_iff.1 hon.start).1
  simp only [Movement.rightOfLineFrom, hl.lineOf hp hon, hl.nextStart hn, hlen, hl.lastLine hr, Option.bind_eq_bind, Option.bind_some]
  cases e : starts[n + 1]? with
  | none =>
    have := List.getElem?_eq_none_iff.1 e
    rw [if_neg (by omega)]
    exact ⟨_, rfl, rope_boundary_length hr, n, s, hon, fun _ => rfl, fun x h => by rw [e] at h; cases h⟩
  | some x =>
    have := (List.getElem?_eq_some_iff.1 e).1
    rw [if_pos (by omega)]
    have hx := get_lt hl.sorted (Nat.lt_succ_self n) hon.start e
    obtain ⟨o, e8, e9⟩ := Graphemes.prev_pos hg hr (o := x) (hl.start_le e) (by omega)
    simp only [Option.getD_some, e8, Option.bind_some]
    refine ⟨o, rfl, hg.char _ _ (Rope.text_utf8 hr) e9.2.1, n, s, hon, fun h => (by rw [e] at h; cases h), ?_⟩
    intro y hy
    rw [e] at hy
    injection hy with hy
    rw [← hy]; exact e9

/-- **C69.** Every movement of a region succeeds and leads where it should; the other end of the
region stays if it is to be extended, and moves along if not. The exact vertical movements are
restricted to the cases without the underflow. -/
theorem C69_region_partial (hr : r.Balanced) (hg : g.Ok) (hl : IsLines r lo starts) (hc : Clamps r lo starts) (m : Movement) {q : SelRegion}
    (h1 : CharBoundary r.text q.start) (h2 : CharBoundary r.text q.stop) (height : Nat) (modify : Bool)
    (hs : m.Safe starts r.text.length q modify) :
    ∃ p h, Movement.regionMovement g m q lo height r modify = some ⟨if modify then q.start else p, p, h, false⟩ ∧
      MovesTo g r.text starts height modify q p h m ∧ CharBoundary r.text p := by
  have hlen : r.len = r.text.length := Rope.len_eq hr
  have hu := Rope.text_utf8 hr
  suffices H : ∃ p h, Movement.target g m q lo height r modify = some (p, h) ∧
      MovesTo g r.text starts height modify q p h m ∧ CharBoundary r.text p by
    obtain ⟨p, h, e1, e2, e3⟩ := H
    exact ⟨p, h, by simp only [Movement.regionMovement, e1, Option.bind_eq_bind, Option.bind_some]; rfl, e2, e3⟩
  have hcaret : (q.isCaret || modify) = true ↔ q.start = q.stop ∨ modify = true := by simp [SelRegion.isCaret]
  have hle := boundary_le h2
  cases m with
  | left =>
    simp only [Movement.target, MovesTo]
    by_cases c : q.start = q.stop ∨ modify = true
    · rw [if_pos (hcaret.2 c)]
      simp only [if_pos c]
      by_cases c0 : q.stop = 0
      · rw [c0, Graphemes.prev_zero hr]
        exact ⟨0, _, rfl, .inl ⟨rfl, rfl, rfl⟩, rope_boundary_zero hr⟩
      · obtain ⟨o, e1, e2⟩ := Graphemes.prev_pos hg hr hle (by omega)
        rw [e1]
        exact ⟨o, _, rfl, .inr ⟨e2, rfl⟩, hg.char _ _ hu e2.2.1⟩
    · rw [if_neg (mt hcaret.1 c)]
      simp only [if_neg c]
      exact ⟨_, _, rfl, ⟨rfl, rfl⟩, startingPoint_boundary h1 h2 true false⟩
  | right =>
    simp only [Movement.target, MovesTo]
    by_cases c : q.start = q.stop ∨ modify = true
    · rw [if_pos (hcaret.2 c)]
      simp only [if_pos c]
      by_cases c0 : q.stop = r.text.length
      · have := Graphemes.next_end (g := g) hr
        rw [c0, this]
        exact ⟨_, _, rfl, .inl ⟨rfl, rfl, rfl⟩, rope_boundary_length hr⟩
      · obtain ⟨o, e1, e2⟩ := Graphemes.next_lt hg hr (o := q.stop) (by omega)
        rw [e1]
        exact ⟨o, _, rfl, .inr ⟨e2, rfl⟩, hg.char _ _ hu e2.2.2.1⟩
    · rw [if_neg (mt hcaret.1 c)]
      simp only [if_neg c]
      exact ⟨_, _, rfl, ⟨rfl, rfl⟩, startingPoint_boundary h1 h2 false false⟩
  | leftWord =>
    obtain ⟨c, e1, e2⟩ := new_stands hr hle
    simp only [Movement.target, MovesTo, e1, Option.bind_eq_bind, Option.bind_some]
    by_cases c0 : q.stop = 0
    · obtain ⟨c', e3, -⟩ := C45_prev_start (c := c) (r := r) (by rw [← c0]; exact e2)
      rw [e3]
      exact ⟨0, none, rfl, ⟨.inl ⟨c0, rfl⟩, rfl⟩, rope_boundary_zero hr⟩
    · obtain ⟨c', o, e3, -, e4, -, e5⟩ := C45_prev hr h2 (by omega) e2
      rw [e3]
      exact ⟨o, none, rfl, ⟨.inr e4, rfl⟩, e5⟩
  | rightWord =>
    obtain ⟨c, e1, e2⟩ := new_stands hr hle
    simp only [Movement.target, MovesTo, e1, Option.bind_eq_bind, Option.bind_some]
    by_cases c0 : q.stop = r.text.length
    · obtain ⟨c', e3, -⟩ := C45_next_end hr (c := c) (by rw [← c0]; exact e2)
      rw [e3, hlen]
      exact ⟨_, none, rfl, ⟨.inl ⟨c0, c0.symm⟩, rfl⟩, rope_boundary_length hr⟩
    · obtain ⟨c', o, e3, -, e4, -, e5⟩ := C45_next hr h2 (by omega) e2
      rw [e3]
      exact ⟨o, none, rfl, ⟨.inr e4, rfl⟩, e5⟩
  | leftOfLine =>
    obtain ⟨n, s, hon⟩ := hl.onLine q.stop
    simp only [Movement.target, MovesTo, hl.lineOf h2 hon, hl.offset n s hon.start, Option.bind_eq_bind, Option.bind_some]
    exact ⟨s, none, rfl, ⟨⟨n, hon⟩, rfl⟩, hl.chars s (List.mem_of_getElem? hon.start)⟩
  | rightOfLine =>
    obtain ⟨o, e1, e2, e3⟩ := rightOfLine_spec hr hg hl h2
    exact ⟨o, none, by simp [Movement.target, e1], ⟨e3, rfl⟩, e2⟩
  | up => exact verticalMotion_spec hr hg hl h1 h2 (-1) modify
  | down => exact verticalMotion_spec hr hg hl h1 h2 1 modify
  | upPage => exact verticalMotion_spec hr hg hl h1 h2 _ modify
  | downPage => exact verticalMotion_spec hr hg hl h1 h2 _ modify
  | upExactPosition => exact verticalMotionExactPos_spec hr hg hl hc h1 h2 true modify hs
  | downExactPosition => exact verticalMotionExactPos_spec hr hg hl hc h1 h2 false modify hs
  | startOfParagraph =>
    obtain ⟨c, pre, l, post, e1, e2, e3, e4⟩ := Cursor.new_spec hr hle
    obtain ⟨c', o, e5, e6, e7⟩ := Cursor.prev_spec finds_lines e2
    rw [e3, e4] at e6
    simp only [Movement.target, MovesTo, e1, e5, Option.bind_eq_bind, Option.bind_some]
    cases o with
    | none => exact ⟨0, none, rfl, ⟨.inr ⟨e6, rfl⟩, rfl⟩, rope_boundary_zero hr⟩
    | some o => exact ⟨o, none, rfl, ⟨.inl e6, rfl⟩, line_boundary_char hr e6.2.1⟩
  | endOfParagraph =>
    obtain ⟨o, e1, e2, e3⟩ := endOfParagraph_spec hr hg h2
    exact ⟨o, none, by simp [Movement.target, e1], ⟨e3, rfl⟩, e2⟩
  | endOfParagraphKill =>
    obtain ⟨o, e1, e2, e3⟩ := endOfParagraphKill_spec hr hg h2
    exact ⟨o, none, by simp [Movement.target, e1], ⟨e3, rfl⟩, e2⟩
  | startOfDocument => exact ⟨0, none, rfl, ⟨rfl, rfl⟩, rope_boundary_zero hr⟩
  | endOfDocument => exact ⟨_, none, by simp [Movement.target, hlen], ⟨rfl, rfl⟩, rope_boundary_length hr⟩

/-! ## There and back -/

/-- **C69.** One grapheme cluster to the right and one to the left leads back. -/
theorem C69_right_left (hr : r.Balanced) (hg : g.Ok) (height : Nat) {o : Nat} (ho : g.boundary r.text o = true) (hlt : o < r.text.length) :
    ∃ q, Movement.regionMovement g .right (.caret o) lo height r false = some (.caret q) ∧ o < q ∧
      Movement.regionMovement g .left (.caret q) lo height r false = some (.caret o) := by
  obtain ⟨q, e1, e2⟩ := Graphemes.next_lt hg hr hlt
  obtain ⟨p, e3, e4⟩ := Graphemes.prev_pos hg hr (o := q) e2.2.1 (by have := e2.1; omega)
  have : p = o := isPrev_unique e4 ⟨e2.1, ho, e2.2.2.2⟩
  subst this
  refine ⟨q, ?_, e2.1, ?_⟩
  · simp [Movement.regionMovement, Movement.target, SelRegion.caret, SelRegion.isCaret, SelRegion.new, e1]
  · simp [Movement.regionMovement, Movement.target, SelRegion.caret, SelRegion.isCaret, SelRegion.new, e3]

/-- **C69.** Down a line and up again leads back, however short the line below is: the column is
remembered. -/
theorem C69_down_up (hr : r.Balanced) (hg : g.Ok) (hl : IsLines r lo starts) (height : Nat) {o n s : Nat} (ho : g.boundary r.text o = true)
    (hon : OnLine starts n s o) (hn : n + 1 < starts.length) (hst : ∀ x ∈ starts, g.boundary r.text x = true) :
    ∃ q s', Movement.regionMovement g .down (.caret o) lo height r false = some ⟨q, q, some (o - s), false⟩ ∧ OnLine starts (n + 1) s' q ∧
      Movement.regionMovement g .up ⟨q, q, some (o - s), false⟩ lo height r false = some ⟨o, o, some (o - s), false⟩ := by
  have hu := Rope.text_utf8 hr
  have hch := hg.char _ _ hu ho
  obtain ⟨q, h, e1, ⟨n1, s1, f1, f2, f3, f4, f5⟩, e3⟩ := verticalMotion_spec hr hg hl (q := .caret o) hch hch 1 false
  have hsp : ∀ x h up, startingPoint ⟨x, x, h, false⟩ up false = x := by intro x h up; simp [startingPoint]
  have hsp1 : startingPoint (.caret o) (decide ((1 : Int) < 0)) false = o := hsp o none _
  rw [hsp1] at f1 f2 f5
  obtain ⟨rfl, rfl⟩ := onLine_unique hl.sorted f1 hon
  have hcol : startingCol (.caret o) o s1 = o - s1 := rfl
  rw [hcol] at f2 f5
  have hpl := f5 (n1 + 1) (by omega) hn
  obtain ⟨x, hx⟩ : ∃ x, starts[n1 + 1]? = some x := ⟨_, List.getElem?_eq_getElem hn⟩
  obtain ⟨g1, g2⟩ := C69_place_on_line hx (fun e he => get_lt hl.sorted (Nat.lt_succ_self _) hx he) (hst x (List.mem_of_getElem? hx)) (hl.start_le hx) hpl
  refine ⟨q, x, by simp [Movement.regionMovement, Movement.target, SelRegion.new, e1, f2], g1, ?_⟩
  obtain ⟨p, h', e4, ⟨n2, s2, k1, k2, k3, k4, k5⟩, e5⟩ := verticalMotion_spec hr hg hl (q := ⟨q, q, some (o - s1), false⟩) e3 e3 (-1) false
  rw [hsp] at k1 k2 k5
  obtain ⟨rfl, rfl⟩ := onLine_unique hl.sorted k1 g1
  have hcol2 : startingCol ⟨q, q, some (o - s1), false⟩ q s2 = o - s1 := rfl
  rw [hcol2] at k2 k5
  obtain ⟨s3, m1, m2⟩ := k5 n1 (by omega) (by omega)
  rw [hon.start] at m1
  injection m1 with m1
  subst m1
  have : p = o := by
    have hle := hon.le
    have hol := boundary_le hch
    refine isPrev_unique m2 ⟨?_, ho, fun k k1 k2 => by omega⟩
    cases e : starts[n1 + 1]? with
    | none => simp only [lineLimit, e, Option.getD_none]; omega
    | some x => have := hon.lt x e; simp only [lineLimit, e, Option.getD_some]; omega
  subst this
  simp [Movement.regionMovement, Movement.target, SelRegion.new, e4, k2]

/-! ## Selections -/

open Selection

theorem fold_add_opt {β : Type} {f : β → Option SelRegion} : ∀ {l : List β} {ys : List SelRegion} {s : Selection}, l.mapM f = some ys →
    l.foldlM (fun result x => do Selection.addRegion result (← f x)) s = ys.foldlM (fun result y => Selection.addRegion result y) s
  | [], ys, s, h => by simp at h; subst h; rfl
  | x :: l, ys, s, h => by
    rw [List.mapM_cons] at h
    cases e1 : f x with
    | none => simp [e1] at h
    | some y =>
      cases e2 : l.mapM f with
      | none => simp [e1, e2] at h
      | some ys' =>
        simp [e1, e2] at h
        subst h
        simp only [List.foldlM_cons, e1, Option.bind_eq_bind, Option.bind_some]
        cases e3 : Selection.addRegion s y with
        | none => rfl
        | some s' => simp only [Option.bind_some]; exact fold_add_opt e2

theorem lo_hi_ends {P : Nat → Prop} (q : SelRegion) : (P q.lo ∧ P q.hi) ↔ (P q.start ∧ P q.stop) := by
  simp only [SelRegion.lo, SelRegion.hi]
  rcases Nat.le_total q.start q.stop with h | h
  · rw [Nat.min_eq_left h, Nat.max_eq_right h]
  · rw [Nat.min_eq_right h, Nat.max_eq_left h]; exact And.comm

theorem fold_add_ends {P : Nat → Prop} : ∀ {ys : List SelRegion} {s s' : Selection}, Inv s → ys.foldlM (fun result y => Selection.addRegion result y) s = some s' →
    (∀ y ∈ ys, P y.start ∧ P y.stop) → (∀ y ∈ s, P y.start ∧ P y.stop) → ∀ y ∈ s', P y.start ∧ P y.stop
  | [], s, s', _, h, _, h2 => by simp at h; subst h; exact h2
  | y :: ys, s, s', hs, h, h1, h2 => by
    obtain ⟨pre, mid, post, R, e1, e2, e3, -, -, -, e7, e8, -⟩ := C32_add hs y
    simp only [List.foldlM_cons, e2, Option.bind_eq_bind, Option.bind_some] at h
    refine fold_add_ends e3 h (fun z hz => h1 z (by simp [hz])) ?_
    intro z hz
    simp only [List.mem_append, List.mem_cons] at hz
    rcases hz with hz | rfl | hz
    · exact h2 z (by rw [e1]; simp [hz])
    · rw [← lo_hi_ends]
      have hy := (lo_hi_ends y).2 (h1 y (by simp))
      have hm : ∀ m ∈ mid, P m.lo ∧ P m.hi := fun m hm => (lo_hi_ends m).2 (h2 m (by rw [e1]; simp [hm]))
      constructor
      · rcases e7 with e | e
        · rw [e]; exact hy.1
        · obtain ⟨m, hm1, hm2⟩ := List.mem_map.1 e
          rw [← hm2]; exact (hm m hm1).1
      · rcases e8 with e | e
        · rw [e]; exact hy.2
        · obtain ⟨m, hm1, hm2⟩ := List.mem_map.1 e
          rw [← hm2]; exact (hm m hm1).2
    · exact h2 z (by rw [e1]; simp [hz])

theorem mapM_exists {β γ : Type} {f : β → Option γ} : ∀ {l : List β}, (∀ x ∈ l, ∃ y, f x = some y) → ∃ ys, l.mapM f = some ys
  | [], _ => ⟨[], rfl⟩
  | x :: l, h => by
    obtain ⟨y, hy⟩ := h x (by simp)
    obtain ⟨ys, hys⟩ := mapM_exists (l := l) (fun z hz => h z (by simp [hz]))
    exact ⟨y :: ys, by rw [List.mapM_cons]; simp [hy, hys]⟩

theorem mem_mapM {β γ : Type} {f : β → Option γ} : ∀ {l : List β} {ys : List γ}, l.mapM f = some ys → ∀ y ∈ ys, ∃ x ∈ l, f x = some y
  | [], ys, h => by simp at h; subst h; simp
  | x :: l, ys, h => by
    rw [List.mapM_cons] at h
    cases e1 : f x with
    | none => simp [e1] at h
    | some y =>
      cases e2 : l.mapM f with
      | none => simp [e1, e2] at h
      | some ys' =>
        simp [e1, e2] at h
        subst h
        intro z hz
        rcases List.mem_cons.1 hz with rfl | hz
        · exact ⟨x, by simp, e1⟩
        · obtain ⟨w, hw, e⟩ := mem_mapM e2 z hz
          exact ⟨w, by simp [hw], e⟩

/-- **C69.** Moving a selection: every region is moved; the result is sorted and disjoint, selects exactly the bytes
of the moved regions, has every moved region in one of its regions, and begins and ends its regions
between characters. -/
theorem C69_selection_partial (hr : r.Balanced) (hg : g.Ok) (hl : IsLines r lo starts) (hc : Clamps r lo starts) (m : Movement) {s : Selection}
    (h1 : ∀ q ∈ s, CharBoundary r.text q.start ∧ CharBoundary r.text q.stop) (height : Nat) (modify : Bool)
    (hs : ∀ q ∈ s, m.Safe starts r.text.length q modify) :
    ∃ moved s', s.mapM (fun q => Movement.regionMovement g m q lo height r modify) = some moved ∧
      Movement.selectionMovement g m s lo height r modify = some s' ∧ Inv s' ∧
      (∀ k, Has s' k ↔ ∃ q ∈ moved, q.lo ≤ k ∧ k < q.hi) ∧ (∀ q ∈ moved, ∃ R ∈ s', Within q R) ∧
      ∀ q ∈ s', CharBoundary r.text q.start ∧ CharBoundary r.text q.stop := by
  have hmove : ∀ q ∈ s, ∃ y, Movement.regionMovement g m q lo height r modify = some y := by
    intro q hq
    obtain ⟨p, h, e, -⟩ := C69_region_partial hr hg hl hc m (h1 q hq).1 (h1 q hq).2 height modify (hs q hq)
    exact ⟨_, e⟩
  obtain ⟨moved, hm⟩ := mapM_exists hmove
  obtain ⟨s', e1, e2, e3, e4, e5⟩ := fold_add (fun y => y) moved (s := []) List.Pairwise.nil
  refine ⟨moved, s', hm, by rw [Movement.selectionMovement, fold_add_opt hm]; exact e1, e2, ?_, e5, ?_⟩
  · intro k
    rw [e3]
    simp [Has]
  · refine fold_add_ends List.Pairwise.nil e1 ?_ (by simp)
    intro y hy
    obtain ⟨q, hq, e⟩ := mem_mapM hm y hy
    obtain ⟨p, h, e', -, e6⟩ := C69_region_partial hr hg hl hc m (h1 q hq).1 (h1 q hq).2 height modify (hs q hq)
    rw [e] at e'
    injection e' with e'
    subst e'
    refine ⟨?_, e6⟩
    cases modify with
    | true => exact (h1 q hq).1
    | false => exact e6

end

/-! ## Defects and examples -/

/-- A choice of grapheme clusters that meets the assumptions: the characters, with `\r\n` together. -/
def plainGraphemes : Graphemes :=
  ⟨fun t k => isCharBoundary t k && !(decide (0 < k) && t[k]? == some newline && t[k - 1]? == some 13)⟩

theorem plainGraphemes_ok : plainGraphemes.Ok where
  first t _ := by simp [plainGraphemes, boundary_zero]
  last t hu := by 
    have : isCharBoundary t t.length = true := (boundary_iff_spec hu).2 (by obtain ⟨cs, rfl⟩ := hu; exact ⟨cs, [], by simp, rfl⟩)
    simp [plainGraphemes, this]
  char t k hu h := by
    simp only [plainGraphemes, Bool.and_eq_true] at h
    exact (boundary_iff_spec hu).1 h.1
  after t k hu h := by
    obtain ⟨h1, h2⟩ := h
    have := newline_boundary hu h2
    rw [show k - 1 + 1 = k by omega] at this
    simp [plainGraphemes, this, h2, newline]
  before t k hu h1 h2 := by
    have : isCharBoundary t k = true := by
      simp only [isCharBoundary, h1]
      simp [isCont, newline]
    rcases h2 with h2 | h2
    · subst h2; simp [plainGraphemes, this]
    · simp [plainGraphemes, this, h2]
  beforeCr t k hu h1 := by
    have : isCharBoundary t k = true := by
      simp only [isCharBoundary, h1]
      simp [isCont]
    simp [plainGraphemes, this, h1, newline]
  crlf t k hu h0 h1 h2 := by simp [plainGraphemes, h0, h1, h2]

/-- The lines of a view that does not wrap. -/
def unwrapped (r : Rope) : LineOffset := .visualLines false (Breaks.newNoBreak r.text.length)

theorem unwrapped_lines {r : Rope} (hr : r.Balanced) : IsLines r (unwrapped r) (logicalStarts r.text) ∧ Clamps r (unwrapped r) (logicalStarts r.text) := by
  have h := visual_isLines false (newNoBreak_agree hr) (fun _ k hk => by rw [newNoBreak_text] at hk; exact breakAt_blank _ _ hk)
  have e : visualStarts r.text (Breaks.newNoBreak r.text.length).text = logicalStarts r.text := by
    rw [logicalStarts_eq, visualStarts, visualStarts]
    congr 1
    funext k
    have h1 : ¬ BreakAt (Breaks.newNoBreak r.text.length).text k := by rw [newNoBreak_text]; exact breakAt_blank _ _
    have h2 := no_breaks k
    unfold BreakAt at h1 h2
    simp only [h1, h2]
  rw [e] at h
  exact h

/-- **C69** (defect). Moving down to a line that can preserve the column, from an empty last line and with a
column remembered, underflows. -/
theorem C69_exact_refuted : ∃ (r : Rope) (q : SelRegion), r.Balanced ∧ q.start = q.stop ∧ CharBoundary r.text q.stop ∧
    IsLines r (unwrapped r) (logicalStarts r.text) ∧ Clamps r (unwrapped r) (logicalStarts r.text) ∧
    Movement.regionMovement plainGraphemes .down ⟨3, 3, none, false⟩ (unwrapped r) 10 r false = some q ∧
    Movement.regionMovement plainGraphemes .downExactPosition q (unwrapped r) 10 r false = none := by
  have hb : (smallRope "abc\n").Balanced := small_balanced (by decide +kernel)
  exact ⟨smallRope "abc\n", ⟨4, 4, some 3, false⟩, hb, rfl, small_boundary (by decide +kernel), (unwrapped_lines hb).1, (unwrapped_lines hb).2,
    by decide +kernel, by decide +kernel⟩

/-- **C69** (defect). The last line has no newline: if it is just long enough to preserve the column,
"the next line that can preserve the cursor position" passes it over. -/
theorem C69_exact_last_refuted : ∃ r : Rope, r.Balanced ∧ IsLines r (unwrapped r) (logicalStarts r.text) ∧ OnLine (logicalStarts r.text) 0 0 2 ∧
    PlaceAt plainGraphemes r.text (logicalStarts r.text) 1 2 5 ∧ OnLine (logicalStarts r.text) 1 3 5 ∧
    Movement.regionMovement plainGraphemes .downExactPosition (.caret 2) (unwrapped r) 10 r false = some ⟨2, 2, some 2, false⟩ := by
  have hb : (smallRope "ab\nab").Balanced := small_balanced (by decide +kernel)
  have hs : logicalStarts (smallRope "ab\nab").text = [0, 3] := by decide +kernel
  have ht : (smallRope "ab\nab").text.length = 5 := by decide +kernel
  refine ⟨smallRope "ab\nab", hb, (unwrapped_lines hb).1, ?_, ?_, ?_, by decide +kernel⟩
  · rw [hs]; exact ⟨rfl, by omega, by simp⟩
  · rw [hs]
    refine ⟨3, rfl, ?_⟩
    simp only [lineLimit, ht]
    exact ⟨by simp, by decide +kernel, fun k k1 k2 => by simp at k2; omega⟩
  · rw [hs]; exact ⟨rfl, by omega, by simp⟩

/-- **C69** (defect). On a last line without newline, "the end of the text line" for killing is the caret itself: nothing is
killed. -/
theorem C69_kill_refuted : ∃ r : Rope, r.Balanced ∧ r.text.length = 2 ∧ IsNext (LineBoundary r.text) r.text.length 0 none ∧
    Movement.regionMovement plainGraphemes .endOfParagraphKill (.caret 0) (unwrapped r) 10 r true = some (.caret 0) ∧
    Movement.regionMovement plainGraphemes .endOfParagraph (.caret 0) (unwrapped r) 10 r true = some (.new 0 2) := by
  refine ⟨smallRope "ab", small_balanced (by decide +kernel), by decide +kernel, ?_, by decide +kernel, by decide +kernel⟩
  rw [small_text]
  intro k k1 k2 hk
  have h : k = 1 ∨ k = 2 := by
    have : ("ab".toList.flatMap String.utf8EncodeChar).length = 2 := by decide
    omega
  rcases h with rfl | rfl
  · exact absurd hk.2 (by decide +kernel)
  · exact absurd hk.2 (by decide +kernel)

/-- **C69** (defect). "Move to the start of the text line" from the start of a line goes to the line before. -/
theorem C69_start_of_paragraph_refuted : ∃ r : Rope, r.Balanced ∧ OnLine (logicalStarts r.text) 1 2 2 ∧
    Movement.regionMovement plainGraphemes .startOfParagraph (.caret 2) (unwrapped r) 10 r false = some (.caret 0) := by
  have hs : logicalStarts (smallRope "a\nb").text = [0, 2] := by decide +kernel
  exact ⟨smallRope "a\nb", small_balanced (by decide +kernel), by rw [hs]; exact ⟨rfl, by omega, by simp⟩, by decide +kernel⟩

/-- **C69.** From inside a line the start of the paragraph is the start of that line, and the end is
before its newline (and the carriage return before that). -/
theorem C69_paragraph_inside {g : Graphemes} {r : Rope} (hr : r.Balanced) (hg : g.Ok) {n s e o : Nat} (hon : OnLine (logicalStarts r.text) n s o)
    (ho : s < o) (he : (logicalStarts r.text)[n + 1]? = some e) (hch : CharBoundary r.text o) (lo : LineOffset) (height : Nat) :
    Movement.regionMovement g .startOfParagraph (.caret o) lo height r false = some (.caret s) ∧
    Movement.regionMovement g .endOfParagraph (.caret o) lo height r false =
      some (.caret (if 2 ≤ e ∧ r.text[e - 2]? = some 13 then e - 2 else e - 1)) := by
  have hl := logical_isLines hr
  have hu := Rope.text_utf8 hr
  have hlt := hon.lt e he
  have hmem : ∀ k, k ∈ logicalStarts r.text ↔ k ≤ r.text.length ∧ (k = 0 ∨ LineBoundary r.text k) := by
    intro k
    rw [logicalStarts_eq, mem_visualStarts]
    simp [Starts, no_breaks]
  have hse := get_lt hl.sorted (Nat.lt_succ_self n) hon.start he
  have hbetween : ∀ k, s < k → k < e → ¬ LineBoundary r.text k := by
    intro k k1 k2 hk
    have hkl : k ≤ r.text.length := by have := hl.start_le he; omega
    have h1 : OnLine (logicalStarts r.text) n s k := ⟨hon.start, by omega, fun x hx => by rw [he] at hx; injection hx with hx; omega⟩
    obtain ⟨j, hj⟩ := List.getElem?_of_mem ((hmem k).2 ⟨hkl, .inr hk⟩)
    have h2 := filter_le_get hl.sorted hj
    rw [filter_le_onLine hl.sorted h1] at h2
    have : j = n := by omega
    subst this
    rw [hon.start] at hj
    injection hj with hj
    omega
  have hsb := (hmem s).1 (List.mem_of_getElem? hon.start)
  have heb := (hmem e).1 (List.mem_of_getElem? he)
  have heb' : LineBoundary r.text e := heb.2.resolve_left (by omega)
  obtain ⟨p1, h1, e1, ⟨e2, rfl⟩, -⟩ := C69_region_partial hr hg (unwrapped_lines hr).1 (unwrapped_lines hr).2 .startOfParagraph (q := .caret o) hch hch height false trivial
  obtain ⟨p2, h2, f1, ⟨f2, rfl⟩, -⟩ := C69_region_partial hr hg (unwrapped_lines hr).1 (unwrapped_lines hr).2 .endOfParagraph (q := .caret o) hch hch height false trivial
  have hp1 : p1 = s := by
    rcases e2 with e2 | ⟨e2, rfl⟩
    · obtain ⟨a1, a2, a3⟩ := e2
      have a1 : p1 < o := a1
      rcases Nat.lt_trichotomy p1 s with c | c | c
      · rcases hsb.2 with h | h
        · omega
        · exact absurd h (a3 s c ho)
      · exact c
      · exact absurd a2 (hbetween p1 c (by omega))
    · rcases hsb.2 with h | h
      · exact h.symm
      · exact absurd h (e2 s ho)
  have hp2 : p2 = if 2 ≤ e ∧ r.text[e - 2]? = some 13 then e - 2 else e - 1 := by
    rcases f2 with ⟨q, f3, f4⟩ | ⟨f3, -⟩
    · have hq : q = e := isNext_unique f3 ⟨hlt, heb.1, heb', fun k k1 k2 => hbetween k (by have : o < k := k1; omega) k2⟩
      subst hq
      refine isPrev_unique f4 ?_
      by_cases c : 2 ≤ q ∧ r.text[q - 2]? = some 13
      · rw [if_pos c]
        have hc1 := hg.crlf r.text (q - 1) hu (by omega) heb'.2 (by rw [show q - 1 - 1 = q - 2 by omega]; exact c.2)
        refine ⟨by omega, ?_, ?_⟩
        · exact hg.beforeCr _ _ hu c.2
        · intro k k1 k2
          rw [show k = q - 1 by omega]
          show ¬ g.boundary r.text (q - 1) = true
          rw [hc1]
          simp
      · rw [if_neg c]
        refine ⟨by have := heb'.1; omega, ?_, fun k k1 k2 => by omega⟩
        refine hg.before _ _ hu heb'.2 ?_
        by_cases c1 : q = 1
        · exact .inl (by omega)
        · right
          intro h
          exact c ⟨by have := heb'.1; omega, by rw [show q - 2 = q - 1 - 1 by omega]; exact h⟩
    · exact absurd heb' (f3 e hlt heb.1)
  rw [hp1] at e1
  rw [hp2] at f1
  exact ⟨e1, f1⟩

/-- A text of three lines. -/
def moveText : Rope := smallRope "héllo\r\nab\nxyz"

theorem moveText_balanced : moveText.Balanced := small_balanced (by decide +kernel)

example : moveText.Balanced ∧ plainGraphemes.Ok ∧ IsLines moveText (unwrapped moveText) (logicalStarts moveText.text) ∧
    Clamps moveText (unwrapped moveText) (logicalStarts moveText.text) ∧ logicalStarts moveText.text = [0, 8, 11] ∧
    CharBoundary moveText.text 6 ∧ CharBoundary moveText.text 4 ∧
    Movement.Safe .downExactPosition (logicalStarts moveText.text) moveText.text.length ⟨4, 6, none, false⟩ true :=
  ⟨moveText_balanced, plainGraphemes_ok, (unwrapped_lines moveText_balanced).1, (unwrapped_lines moveText_balanced).2, by decide +kernel,
    small_boundary (by decide +kernel), small_boundary (by decide +kernel), by
      have hs : logicalStarts moveText.text = [0, 8, 11] := by decide +kernel
      intro n s hon h0
      have ht : moveText.text.length = 14 := by decide +kernel
      rw [hs] at hon h0
      rw [ht] at h0
      obtain ⟨h1, h2, h3⟩ := hon
      rcases n with _ | _ | _ | n <;> simp [lineLen] at h0 h1⟩

/-- Down, down again, and up twice, from before the `\r\n`: the column is kept over the short line. -/
example : (Movement.regionMovement plainGraphemes .down (.caret 6) (unwrapped moveText) 10 moveText false) = some ⟨10, 10, some 6, false⟩ ∧
    (Movement.regionMovement plainGraphemes .down ⟨10, 10, some 6, false⟩ (unwrapped moveText) 10 moveText false) = some ⟨14, 14, some 6, false⟩ ∧
    (Movement.regionMovement plainGraphemes .up ⟨10, 10, some 6, false⟩ (unwrapped moveText) 10 moveText false) = some ⟨6, 6, some 6, false⟩ ∧
    (Movement.regionMovement plainGraphemes .right (.caret 6) (unwrapped moveText) 10 moveText true) = some (.new 6 8) ∧
    (Movement.regionMovement plainGraphemes .endOfParagraph (.caret 3) (unwrapped moveText) 10 moveText false) = some (.caret 6) ∧
    (Movement.selectionMovement plainGraphemes .leftOfLine [.caret 3, .caret 5, .new 9 10] (unwrapped moveText) 10 moveText false) =
      some [.caret 0, .caret 8] := by decide +kernel

end Xi
