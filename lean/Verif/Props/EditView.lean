import Verif.View.AfterEdit
import Verif.Core.EditorSpans
import Verif.Props.Encode
import Verif.Props.EditSelection
import Verif.Props.Wrap
import Verif.Props.Highlights

/-!
# C80: after an edit, every line that changed is sent
-/

namespace Xi.Gesture

open Selection

/-! ## Specification -/

/-- What is to be seen on a line besides its text and the cursors: the occurrences of each query, what is selected, and the
style of each byte. -/
structure Look (U : Type) where
  highlights : List (List (Nat × Nat))
  selected : List (Nat × Nat)
  styles : List U
deriving DecidableEq

/-- What is to be seen from `s` to `e`, with the cursors before `limit`. -/
def lookOf {U : Type} (find : List Selection) (styles : List U) (t : List UInt8) (sel : Selection) (s e limit : Nat) : ScreenLine (List UInt8) (Look U) :=
  ⟨(t.take e).drop s, ⟨highlightsIn find s e, selectedIn sel s e, (styles.take e).drop s⟩, cursorsIn sel s limit⟩

/-- What is to be seen on each line. -/
def looks {U : Type} (find : List Selection) (styles : List U) (t : List UInt8) (b : List Bool) (sel : Selection) : List (ScreenLine (List UInt8) (Look U)) :=
  (visualStarts t b).mapIdx fun n s => lookOf find styles t sel s (((visualStarts t b)[n + 1]?).getD t.length) (lineLimit (visualStarts t b) t.length n)

/-- An encoded line that the front end shows as it should look. -/
def Decodes {U : Type} (styleId : U → Nat) (L : ScreenLine (List UInt8) (List Int)) (K : ScreenLine (List UInt8) (Look (Option U))) : Prop :=
  L.text = K.text ∧ L.cursor = K.cursor ∧ ∃ spans, SpansIn 0 K.text.length spans ∧ paint K.text.length spans = K.styles.styles ∧
    decodeStyles 0 L.styles = (K.styles.highlights.mapIdx (fun i hl => hl.map fun p => ((p.1 : Int), (p.2 : Int), (i : Int) + 1))).flatten ++
      K.styles.selected.map (fun p => ((p.1 : Int), (p.2 : Int), 0)) ++ spans.map (fun x => ((x.iv.start : Int), (x.iv.stop : Int), (styleId x.data : Int)))

/-! ## Places of lines -/

theorem lineAt_iff {t : List UInt8} {b : List Bool} (ha : ∀ k, LineBoundary t k → ¬ BreakAt b k) {n o : Nat} : (visualStarts t b)[n]? = some o ↔ LineAt t b n o := by
  refine ⟨visualStarts_get ha, fun h => ?_⟩
  have hmem : o ∈ visualStarts t b := by
    rw [mem_visualStarts]
    rcases h with ⟨-, rfl⟩ | ⟨h1, h2, -⟩
    · exact ⟨Nat.zero_le _, .inl rfl⟩
    · exact ⟨h2, .inr h1⟩
  obtain ⟨j, hj⟩ := List.mem_iff_getElem?.1 hmem
  have hne : ¬ Starts t b 0 := by
    rintro (h | h)
    · exact absurd h.1 (by omega)
    · exact absurd h.1 (by omega)
  have : j = n := by
    rcases h with ⟨h1, h2⟩ | ⟨h1, h2, h3⟩ <;> rcases visualStarts_get ha hj with ⟨k1, k2⟩ | ⟨k1, k2, k3⟩
    · omega
    · subst h2; exact absurd k1 hne
    · subst k2; exact absurd h1 hne
    · omega
  rw [← this]; exact hj

section

variable {U : Type} {find find' : List Selection} {styles styles' : List U} {t t' : List UInt8} {b b' : List Bool} {sel sel' : Selection}

theorem looks_get (n : Nat) : (looks find styles t b sel)[n]? = ((visualStarts t b)[n]?).map fun s =>
    lookOf find styles t sel s (((visualStarts t b)[n + 1]?).getD t.length) (lineLimit (visualStarts t b) t.length n) := by
  unfold looks
  rw [List.getElem?_mapIdx]

theorem looks_length : (looks find styles t b sel).length = (visualStarts t b).length := by
  unfold looks
  rw [List.length_mapIdx]

/-- If a report of changed lines is right, and things look the same outside, then the lines outside the report look the same. -/
theorem looks_report (ha : ∀ k, LineBoundary t k → ¬ BreakAt b k) (ha' : ∀ k, LineBoundary t' k → ¬ BreakAt b' k) {T S' P : Nat} {i : InvalLines}
    (h : ReportOk t t' b b' T S' i) (hP : (∃ p, p ≤ P ∧ LineAt t b i.startLine p) ∨ t'.length = t.length ∧ t.length < P) (hlen : t'.length = S' + (t.length - T)) (hT : T ≤ t.length)
    (hb : ∀ s e limit, e ≤ P → limit ≤ P → lookOf find' styles' t' sel' s e limit = lookOf find styles t sel s e limit)
    (hr : ∀ m x y, 0 < m → lookOf find' styles' t' sel' (S' + m) (S' + x) (S' + y) = lookOf find styles t sel (T + m) (T + x) (T + y)) :
    ∃ new, new.length = i.newCount ∧ looks find' styles' t' b' sel' =
      (looks find styles t b sel).take i.startLine ++ new ++ (looks find styles t b sel).drop (i.startLine + i.invalCount) ∧
      i.startLine + i.invalCount ≤ (looks find styles t b sel).length := by
  have hl := visualStarts_length ha
  have hl' := visualStarts_length ha'
  have hs := visualStarts_sorted t b
  have hbef : ∀ n, n ≤ i.startLine → (visualStarts t' b')[n]? = (visualStarts t b)[n]? := by
    intro n hn
    apply Option.ext
    intro o
    rw [lineAt_iff ha, lineAt_iff ha']
    exact (h.before n o hn).symm
  have haft : ∀ n, (visualStarts t' b')[i.startLine + i.newCount + n]? = ((visualStarts t b)[i.startLine + i.invalCount + n]?).map (fun o => S' + (o - T)) := by
    intro n
    apply Option.ext
    intro o
    rw [lineAt_iff ha', Option.map_eq_some_iff]
    constructor
    · intro ho
      have := h.new n o ho
      refine ⟨T + (o - S'), ?_, by omega⟩
      rw [lineAt_iff ha, h.after]
      rwa [show S' + (o - S') = o by omega]
    · rintro ⟨x, hx, rfl⟩
      rw [lineAt_iff ha] at hx
      have := h.old n x hx
      rw [← h.after]
      rwa [show T + (x - T) = x by omega]
  have h1 : (looks find' styles' t' b' sel').take i.startLine = (looks find styles t b sel).take i.startLine := by
    apply List.ext_getElem?
    intro n
    rw [List.getElem?_take, List.getElem?_take]
    split
    · rename_i hn
      rw [looks_get, looks_get, hbef n (by omega), hbef (n + 1) (by omega)]
      cases hx : (visualStarts t b)[n]? with
      | none => rfl
      | some s =>
        simp only [Option.map_some, Option.some.injEq]
        unfold lineLimit
        rw [hbef (n + 1) (by omega)]
        rcases hP with ⟨p, p1, p2⟩ | ⟨p1, p2⟩
        · rw [← lineAt_iff ha] at p2
          have hlt : n + 1 < (visualStarts t b).length := by
            have := (List.getElem?_eq_some_iff.1 p2).1
            omega
          have hle : (visualStarts t b)[n + 1] ≤ p := by
            by_cases hc : n + 1 = i.startLine
            · have := List.getElem?_eq_getElem hlt
              simp only [← hc] at p2
              rw [p2] at this
              have := Option.some.inj this
              omega
            · exact Nat.le_of_lt (get_lt hs (by omega : n + 1 < i.startLine) (List.getElem?_eq_getElem hlt) p2)
          rw [List.getElem?_eq_getElem hlt]
          simp only [Option.getD_some]
          exact hb _ _ _ (by omega) (by omega)
        · rw [p1]
          refine hb _ _ _ ?_ ?_
          · cases hy : (visualStarts t b)[n + 1]? with
            | none => simp; omega
            | some y =>
              have := (mem_visualStarts.1 (List.mem_of_getElem? hy)).1
              simp; omega
          · cases hy : (visualStarts t b)[n + 1]? with
            | none => simp; omega
            | some y =>
              have := (mem_visualStarts.1 (List.mem_of_getElem? hy)).1
              simp; omega
    · rfl
  have h2 : (looks find' styles' t' b' sel').drop (i.startLine + i.newCount) = (looks find styles t b sel).drop (i.startLine + i.invalCount) := by
    apply List.ext_getElem?
    intro n
    rw [List.getElem?_drop, List.getElem?_drop, looks_get, looks_get, haft n]
    cases hx : (visualStarts t b)[i.startLine + i.invalCount + n]? with
    | none => rfl
    | some s =>
      simp only [Option.map_some, Option.some.injEq]
      have hs1 := h.old n s ((lineAt_iff ha).1 hx)
      have hn1 := haft (n + 1)
      rw [show i.startLine + i.newCount + (n + 1) = i.startLine + i.newCount + n + 1 by omega,
        show i.startLine + i.invalCount + (n + 1) = i.startLine + i.invalCount + n + 1 by omega] at hn1
      unfold lineLimit
      rw [hn1, hlen]
      cases hy : (visualStarts t b)[i.startLine + i.invalCount + n + 1]? with
      | none =>
        simp only [Option.map_none, Option.getD_none]
        have := hr (s - T) (t.length - T) (t.length - T + 1) (by omega)
        rw [show T + (s - T) = s by omega, show T + (t.length - T) = t.length by omega, show T + (t.length - T + 1) = t.length + 1 by omega] at this
        rw [← this]
        rfl
      | some y =>
        simp only [Option.map_some, Option.getD_some]
        have hy1 := h.old (n + 1) y ((lineAt_iff ha).1 hy)
        have := hr (s - T) (y - T) (y - T) (by omega)
        rwa [show T + (s - T) = s by omega, show T + (y - T) = y by omega] at this
  refine ⟨((looks find' styles' t' b' sel').drop i.startLine).take i.newCount, ?_, ?_, ?_⟩
  · rw [List.length_take, List.length_drop, looks_length, hl']
    have := h.newLe
    omega
  · rw [← h1, ← h2, List.append_assoc, ← List.drop_drop, List.take_append_drop, List.take_append_drop]
  · rw [looks_length, hl]
    exact h.oldLe

/-- What is selected between two places, from the ends of a region. -/
def selectedEnds (s e : Nat) (p : Nat × Nat) : Option (Nat × Nat) :=
  if max (min p.1 p.2) s < min (max p.1 p.2) e then some (max (min p.1 p.2) s - s, min (max p.1 p.2) e - s) else none

/-- The cursor, from the ends of a region. -/
def cursorEnds (s limit : Nat) (p : Nat × Nat) : Option Nat := if s ≤ p.2 ∧ p.2 < limit then some (p.2 - s) else none

theorem selectedIn_ends (s e : Nat) : ∀ sel : Selection, selectedIn sel s e = (sel.map ends).filterMap (selectedEnds s e)
  | [] => rfl
  | q :: sel => by
    have ih := selectedIn_ends s e sel
    unfold selectedIn at ih ⊢
    by_cases hc : max q.lo s < min q.hi e
    · have : selectedEnds s e (ends q) = some (max q.lo s - s, min q.hi e - s) := if_pos hc
      rw [List.map_cons, List.filterMap_cons, this, List.filter_cons_of_pos (by simpa using hc), List.map_cons, ih]
    · have : selectedEnds s e (ends q) = none := if_neg hc
      rw [List.map_cons, List.filterMap_cons, this, List.filter_cons_of_neg (by simpa using hc), ih]

theorem cursorsIn_ends (s limit : Nat) : ∀ sel : Selection, cursorsIn sel s limit = (sel.map ends).filterMap (cursorEnds s limit)
  | [] => rfl
  | q :: sel => by
    have ih := cursorsIn_ends s limit sel
    unfold cursorsIn at ih ⊢
    by_cases hc : s ≤ q.stop ∧ q.stop < limit
    · have : cursorEnds s limit (ends q) = some (q.stop - s) := if_pos hc
      rw [List.map_cons, List.filterMap_cons, this, List.filter_cons_of_pos (by simpa using hc), List.map_cons, ih]
    · have : cursorEnds s limit (ends q) = none := if_neg hc
      rw [List.map_cons, List.filterMap_cons, this, List.filter_cons_of_neg (by simpa using hc), ih]

theorem filterMap_matters {β : Type} {s t : Nat} {g : Nat × Nat → Option β} (hg : ∀ p, Matters s t p = false → g p = none) : ∀ l : List (Nat × Nat),
    l.filterMap g = (l.filter (Matters s t)).filterMap g
  | [] => rfl
  | p :: l => by
    by_cases hc : Matters s t p = true
    · rw [List.filter_cons_of_pos hc, List.filterMap_cons, List.filterMap_cons, filterMap_matters hg l]
    · rw [List.filter_cons_of_neg hc, List.filterMap_cons, hg p (by simpa using hc), filterMap_matters hg l]

/-- Away from an edit nothing changes in what is selected, and the cursors stay. -/
theorem selection_kept {f : Nat → Nat} {S T S' len : Nat} (hm : Delta.Moves S T S' len f) (hST : S ≤ T) (hSS : S ≤ S') (hlen : ∀ q ∈ sel, q.hi ≤ len)
    (h : (sel'.map ends).filter (Matters S S') = (sel.map fun q => (f q.start, f q.stop)).filter (Matters S S')) :
    (∀ s e limit, e ≤ S → limit ≤ S → selectedIn sel' s e = selectedIn sel s e ∧ cursorsIn sel' s limit = cursorsIn sel s limit) ∧
    ∀ m x y, 0 < m → selectedIn sel' (S' + m) (S' + x) = selectedIn sel (T + m) (T + x) ∧ cursorsIn sel' (S' + m) (S' + y) = cursorsIn sel (T + m) (T + y) := by
  have fact : ∀ x, x ≤ len → x < S ∧ f x = x ∨ S ≤ x ∧ x ≤ T ∧ S ≤ f x ∧ f x ≤ S' ∨ T < x ∧ f x = x - T + S' := by
    intro x hx
    by_cases x1 : x < S
    · exact .inl ⟨x1, hm.before x x1⟩
    · by_cases x2 : x ≤ T
      · exact .inr (.inl ⟨by omega, x2, hm.inside x (by omega) x2⟩)
      · exact .inr (.inr ⟨by omega, hm.after x (by omega) hx⟩)
  have caret : ∀ {p : Nat × Nat}, Matters S S' p = false → p.1 = p.2 ∧ S ≤ p.1 ∧ p.1 ≤ S' := by
    intro p hp
    simp only [Matters, Bool.not_eq_false', Bool.and_eq_true, beq_iff_eq, decide_eq_true_eq] at hp
    exact ⟨hp.1.1, hp.1.2, hp.2⟩
  have step : ∀ {β : Type} (g g' : Nat × Nat → Option β), (∀ p, Matters S S' p = false → g' p = none) →
      (∀ x y, x ≤ len → y ≤ len → g' (f x, f y) = g (x, y)) → (sel'.map ends).filterMap g' = (sel.map ends).filterMap g := by
    intro β g g' h1 h2
    rw [filterMap_matters h1, h, ← filterMap_matters h1]
    rw [List.filterMap_map, List.filterMap_map]
    clear h
    induction sel with
    | nil => rfl
    | cons q sel ih =>
      have hq := hlen q (by simp)
      simp only [SelRegion.hi] at hq
      have := h2 q.start q.stop (by omega) (by omega)
      rw [List.filterMap_cons, List.filterMap_cons, ih (fun q hq => hlen q (by simp [hq]))]
      simp only [Function.comp, ends, this]
  constructor
  · intro s e limit he hl
    constructor
    · rw [selectedIn_ends, selectedIn_ends]
      apply step
      · intro p hp
        obtain ⟨p1, p2, p3⟩ := caret hp
        unfold selectedEnds
        rw [if_neg (by omega)]
      · intro x y hx hy
        have f1 := fact x hx
        have f2 := fact y hy
        unfold selectedEnds
        simp only
        generalize f x = fx at *
        generalize f y = fy at *
        split
        · rw [if_pos (by omega)]
          simp only [Option.some.injEq, Prod.mk.injEq]
          omega
        · rw [if_neg (by omega)]
    · rw [cursorsIn_ends, cursorsIn_ends]
      apply step
      · intro p hp
        obtain ⟨p1, p2, p3⟩ := caret hp
        unfold cursorEnds
        rw [if_neg (by omega)]
      · intro x y hx hy
        have f2 := fact y hy
        unfold cursorEnds
        simp only
        generalize f y = fy at *
        split
        · rw [if_pos (by omega)]
          simp only [Option.some.injEq]
          omega
        · rw [if_neg (by omega)]
  · intro m x0 y0 hm0
    constructor
    · rw [selectedIn_ends, selectedIn_ends]
      apply step
      · intro p hp
        obtain ⟨p1, p2, p3⟩ := caret hp
        unfold selectedEnds
        rw [if_neg (by omega)]
      · intro x y hx hy
        have f1 := fact x hx
        have f2 := fact y hy
        unfold selectedEnds
        simp only
        generalize f x = fx at *
        generalize f y = fy at *
        split
        · rw [if_pos (by omega)]
          simp only [Option.some.injEq, Prod.mk.injEq]
          omega
        · rw [if_neg (by omega)]
    · rw [cursorsIn_ends, cursorsIn_ends]
      apply step
      · intro p hp
        obtain ⟨p1, p2, p3⟩ := caret hp
        unfold cursorEnds
        rw [if_neg (by omega)]
      · intro x y hx hy
        have f2 := fact y hy
        unfold cursorEnds
        simp only
        generalize f y = fy at *
        split
        · rw [if_pos (by omega)]
          simp only [Option.some.injEq]
          omega
        · rw [if_neg (by omega)]

/-- The bytes (or the styles of bytes) outside an edit are the same. -/
structure Kept {α : Type} (old new : List α) (S T S' : Nat) : Prop where
  left : new.take S = old.take S
  right : new.drop S' = old.drop T

theorem Kept.slice_left {α : Type} {old new : List α} {S T S' : Nat} (h : Kept old new S T S') (s : Nat) {e : Nat} (he : e ≤ S) :
    (new.take e).drop s = (old.take e).drop s := by
  have := congrArg (List.take e) h.left
  rw [List.take_take, List.take_take, Nat.min_eq_left he] at this
  rw [this]

theorem Kept.slice_right {α : Type} {old new : List α} {S T S' : Nat} (h : Kept old new S T S') (m x : Nat) :
    (new.take (S' + x)).drop (S' + m) = (old.take (T + x)).drop (T + m) := by
  have := congrArg (List.drop m) h.right
  rw [List.drop_drop, List.drop_drop] at this
  rw [List.drop_take, List.drop_take, this, show S' + x - (S' + m) = T + x - (T + m) by omega]

/-- The occurrences of the queries that are highlighted are the same outside an edit. -/
structure FindKept (find find' : List Selection) (S T S' : Nat) : Prop where
  left : ∀ s e, e ≤ S → highlightsIn find' s e = highlightsIn find s e
  right : ∀ m x, 0 < m → highlightsIn find' (S' + m) (S' + x) = highlightsIn find (T + m) (T + x)

/-! ## One step -/

variable {rule : WrapRule} {r r' : Rope} {m : Missing} {v : ShownView} {client : List (Option (ScreenLine (List UInt8) (Look U)))} {d : Delta UInt8}

/-- The state of a view and of its front end (C57), with what is to be seen on the lines. -/
def stateOf (find : List Selection) (styles : List U) (r : Rope) (v : ShownView) (client : List (Option (ScreenLine (List UInt8) (Look U)))) :
    ViewState (List UInt8) (Look U) := ⟨v.shadow, looks find styles r.text v.lines.breaks.text v.selection, client⟩

theorem run_apart {L : LinesState} (h : WrapRun rule r L) (k : Nat) (hk : LineBoundary r.text k) : ¬ BreakAt L.breaks.text k := h.inv.agree.apart k hk

theorem looks_pos : 0 < (looks find styles t b sel).length := by
  rw [looks_length]
  exact (List.getElem?_eq_some_iff.1 (visualStarts_first t b)).1

theorem dirty_height {L : LinesState} (h : WrapRun rule r L) (v : ShownView) (hv : v.lines = L) :
    v.setDirty r = some { v with shadow := .allDirty (looks find styles r.text L.breaks.text sel).length } := by
  subst hv
  have hl := (visual_isLines v.lines.wraps h.inv.agree h.inv.plain).1
  have := hl.lastLine h.inv.agree.text
  unfold ShownView.setDirty ShownView.wrapping Wrapping.lines
  rw [Rope.len_eq h.inv.agree.text, looks_length]
  simp only [this, Option.bind_eq_bind, Option.bind_some]
  have hp := looks_pos (find := find) (styles := styles) (t := r.text) (b := v.lines.breaks.text) (sel := sel)
  rw [looks_length] at hp
  rw [show (visualStarts r.text v.lines.breaks.text).length - 1 + 1 = (visualStarts r.text v.lines.breaks.text).length by omega]
  rfl

/-- **C80.** After an edit the view does not crash, and its record of what the front end has is still right: the lines that look
different, and only these, are to be sent again. -/
theorem C80_edit_partial (h : WrapRun rule r v.lines) (hd : d.WF) (hl : r.text.length = d.baseLen) (hb : r'.Balanced) (ht : d.apply r.text = some r'.text)
    (c1 : CharBoundary r.text d.summary.1.1) (c2 : CharBoundary r.text d.summary.1.2) {vis vis' : Nat} (hv : vis ≤ vis') (hc : v.lines.isConverged = true)
    (hs : Selection.Inv v.selection) (hlen : ∀ q ∈ v.selection, q.hi ≤ r.text.length) (hn : NoTurn d.summary.1.1 d.summary.1.2 v.selection)
    (hst : Kept styles styles' d.summary.1.1 d.summary.1.2 (d.summary.1.1 + d.summary.2)) (hf : FindKept find find' d.summary.1.1 d.summary.1.2 (d.summary.1.1 + d.summary.2))
    (hr : ViewReachable m (stateOf find styles r v client)) :
    ∃ v', v.afterEdit rule r' r r'.text d vis vis' .default = some v' ∧ WrapRun rule r' v'.lines ∧ Selection.Inv v'.selection ∧
      (∀ q ∈ v'.selection, ∃ p ∈ v.selection, q.start = d.transformIx p.start true ∧ q.stop = d.transformIx p.stop true) ∧
      ViewReachable m (stateOf find' styles' r' v' client) := by
  obtain ⟨s1, s2, mid, s3, s4⟩ := d.summary_spec r.text hd hl
  have ht' : r'.text = r.text.take d.summary.1.1 ++ mid ++ r.text.drop d.summary.1.2 := by
    rw [d.apply_spec r.text hd hl, Option.some.injEq] at ht
    rw [← ht, s4]
  obtain ⟨sel', a1, a2, a3, a4⟩ := apply_ends hd hl hs (by rw [← hl]; exact hlen) hn
  have ho : v.lines.wraps = true → InOrder v.lines.work := by
    intro hw
    have hwork : v.lines.work = [] := by simpa [LinesState.isConverged, hw] using hc
    rw [hwork]
    simp [InOrder]
  obtain ⟨L', i, e1⟩ := C54_edit_safe_partial (iv := ⟨d.summary.1.1, d.summary.1.2⟩) h hb ht' s1 c1 c2 hv ho
  have hrun : WrapRun rule r' L' := .edit h hb ht' s1 c1 c2 hv ho e1
  have e1' := e1
  rw [s3] at e1
  unfold ShownView.afterEdit
  simp only [e1, Option.bind_eq_bind, Option.bind_some]
  cases i with
  | none =>
    rw [dirty_height (find := find') (styles := styles') (sel := sel') hrun _ rfl]
    simp only [Option.bind_some, a1]
    refine ⟨_, rfl, hrun, a2, a4, ?_⟩
    exact .step _ _ hr (.setDirty _ (looks find' styles' r'.text L'.breaks.text sel') looks_pos)
  | some i =>
    simp only [Option.bind_some, a1]
    refine ⟨_, rfl, hrun, a2, a4, ?_⟩
    obtain ⟨rep, p, p1, p2⟩ := C55_edit_partial (iv := ⟨d.summary.1.1, d.summary.1.2⟩) h hb ht' s1 c1 c2 hv hc e1'
    rw [s3] at rep
    have hm := d.moves hd r.text hl true
    obtain ⟨k1, k2⟩ := selection_kept (sel := v.selection) (sel' := sel') hm s1 (by omega) (by rw [← hl]; exact hlen) a3
    have hk : Kept r.text r'.text d.summary.1.1 d.summary.1.2 (d.summary.1.1 + d.summary.2) := by
      have he := Edited.mk' (old := r.text) (ins := mid) s1 s2
      rw [← ht', s3] at he
      exact ⟨he.left, he.right⟩
    have hlen' : r'.text.length = d.summary.1.1 + d.summary.2 + (r.text.length - d.summary.1.2) := by
      rw [ht']
      simp only [List.length_append, List.length_take, List.length_drop, s3]
      omega
    obtain ⟨new, n1, n2, n3⟩ := looks_report (find := find) (find' := find') (styles := styles) (styles' := styles') (sel := v.selection) (sel' := sel')
      (run_apart h) (run_apart hrun) (P := d.summary.1.1) rep (.inl ⟨p, p1, p2⟩) hlen' s2
      (fun s e limit he hl => by
        unfold lookOf
        rw [hk.slice_left s he, hst.slice_left s he, hf.left s e he, (k1 s e limit he hl).1, (k1 s e limit he hl).2])
      (fun m x y hm => by
        unfold lookOf
        rw [hk.slice_right, hst.slice_right, hf.right m x hm, (k2 m x y hm).1, (k2 m x y hm).2])
    have hpos := looks_pos (find := find') (styles := styles') (t := r'.text) (b := L'.breaks.text) (sel := sel')
    have step := ViewStep.edit (m := m) (stateOf find styles r v client) i.startLine (i.startLine + i.invalCount) new (by omega) n3 (by
      rw [n2] at hpos
      simp only [List.length_append, List.length_take, List.length_drop] at hpos
      show 0 < (looks find styles r.text v.lines.breaks.text v.selection).length + _ - _
      omega)
    rw [n1] at step
    have step := ViewReachable.step _ _ hr step
    unfold stateOf at step ⊢
    simp only at step ⊢
    rw [n2]
    exact step

/-- **C80.** Background wrapping does not crash either, and lines that change because of it are sent again. -/
theorem C80_rewrap (h : WrapRun rule r v.lines) {vis vis' : Nat} (hv : vis ≤ vis') (hr : ViewReachable m (stateOf find styles r v client)) :
    ∃ v', v.rewrap rule r r.text vis vis' = some v' ∧ WrapRun rule r v'.lines ∧ v'.selection = v.selection ∧ ViewReachable m (stateOf find styles r v' client) := by
  obtain ⟨L', i, e1⟩ := C54_chunk_safe_partial h hv
  have hrun : WrapRun rule r L' := .chunk h hv e1
  unfold ShownView.rewrap
  simp only [e1, Option.bind_eq_bind, Option.bind_some]
  cases i with
  | none =>
    refine ⟨_, rfl, hrun, rfl, ?_⟩
    have hsame : L' = v.lines := by
      rcases chunk_spec h.ok h.inv hv with ⟨-, h1⟩ | ⟨-, L'', s, a, e', h1, -, -⟩
      · rw [e1] at h1; cases h1; rfl
      · rw [e1] at h1; cases h1
    subst hsame
    exact hr
  | some i =>
    refine ⟨_, rfl, hrun, rfl, ?_⟩
    have rep := C55_chunk_partial h hv e1
    obtain ⟨new, n1, n2, n3⟩ := looks_report (find := find) (find' := find) (styles := styles) (styles' := styles) (sel := v.selection) (sel' := v.selection)
      (run_apart h) (run_apart hrun) (P := r.text.length + 1) rep (.inr ⟨rfl, by omega⟩) (by omega) (by omega)
      (fun s e limit _ _ => rfl) (fun m x y _ => rfl)
    have hpos := looks_pos (find := find) (styles := styles) (t := r.text) (b := L'.breaks.text) (sel := v.selection)
    have step := ViewStep.edit (m := m) (stateOf find styles r v client) i.startLine (i.startLine + i.invalCount) new (by omega) n3 (by
      rw [n2] at hpos
      simp only [List.length_append, List.length_take, List.length_drop] at hpos
      show 0 < (looks find styles r.text v.lines.breaks.text v.selection).length + _ - _
      omega)
    rw [n1] at step
    have step := ViewReachable.step _ _ hr step
    unfold stateOf at step ⊢
    simp only at step ⊢
    rw [n2]
    exact step

/-- **C80.** Setting the selection: the same. -/
theorem C80_selection {g : Graphemes} {w : View} (hg : g.Ok) (h : WrapRun rule r v.lines) (hw : w.selection = v.selection) (hv : Valid r v.selection) {sel : Selection}
    (hs : Valid r sel) (hr : ViewReachable m (stateOf find styles r v client)) : ∃ w' inv, w.setSelectionRaw v.wrapping r sel = some w' ∧ w'.selection = sel ∧
      w'.inval = w.inval ++ inv ∧ ViewReachable m (stateOf find styles r { v with selection := sel, shadow := invalidateAll inv v.shadow } client) := by
  have hf : Fits g v.wrapping r := ⟨h.inv.agree, h.inv.plain, hg⟩
  obtain ⟨n, k, n', k', h1, h2, h3⟩ := setRaw_eq (v := w) hf (by rw [hw]; exact hv) hs
  rw [hw] at h1 h3
  refine ⟨_, _, h3, rfl, rfl, ?_⟩
  have comp : ∀ {s : Selection} {n m : Nat}, Valid r s → SelLines v.wrapping r s n m → ∀ i : Nat,
      (i < n ∨ m + 1 ≤ i → (looks find styles r.text v.lines.breaks.text s)[i]? = (looks find styles r.text v.lines.breaks.text [])[i]?) ∧
      ∀ a b, (looks find styles r.text v.lines.breaks.text s)[i]? = some a → (looks find styles r.text v.lines.breaks.text [])[i]? = some b →
        ChangedIn (View.invalidity s) a b := by
    intro s n m hs hl i
    rw [looks_get, looks_get]
    cases hx : (visualStarts r.text v.lines.breaks.text)[i]? with
    | none => exact ⟨fun _ => rfl, fun a b ha => by cases ha⟩
    | some x =>
      obtain ⟨f1, f2⟩ := blank_facts hf hs hl (i := i) (s := x) (e := ((visualStarts r.text v.lines.breaks.text)[i + 1]?).getD r.text.length) ⟨hx, rfl⟩
      refine ⟨fun hi => ?_, fun a b ha hb => ?_⟩
      · obtain ⟨c1, c2⟩ := f1 hi
        simp only [Option.map_some, lookOf]
        rw [c1]
        have c2 : cursorsIn s x (lineLimit (visualStarts r.text v.lines.breaks.text) r.text.length i) = [] := c2
        rw [c2]
        rfl
      · obtain rfl := Option.some.inj ha
        obtain rfl := Option.some.inj hb
        unfold View.invalidity
        split
        · rename_i hall
          refine ⟨fun _ => rfl, fun _ => ?_, by simp⟩
          simp only [lookOf, f2 hall]
          rfl
        · exact ⟨fun _ => rfl, by simp, by simp⟩
  have r1 : ViewReachable m ⟨v.shadow.partialInvalidate n (k + 1) (View.invalidity v.selection), looks find styles r.text v.lines.breaks.text [], client⟩ :=
    .step _ _ hr (.invalidate (stateOf find styles r v client) n (k + 1) _ _ (lines_order hv h1) (by simp only [stateOf, looks_length])
      (fun i a b _ _ ha hb => (comp hv h1 i).2 a b ha hb) (fun i hi => ((comp hv h1 i).1 (by omega)).symm))
  exact .step _ _ r1 (.invalidate _ n' (k' + 1) _ _ (lines_order hs h2) (by simp only [looks_length])
      (fun i a b _ _ ha hb => by
        obtain ⟨x, y, z⟩ := (comp hs h2 i).2 b a hb ha
        exact ⟨fun h => (x h).symm, fun h => (y h).symm, fun h => (z h).symm⟩)
      (fun i hi => (comp hs h2 i).1 (by omega)))

/-- **C82.** New styles in a range of the text (see `C82_spans_partial`): the lines whose styles have changed are marked, and only their styles. -/
theorem C82_drawn (h : WrapRun rule r v.lines) {S T : Nat} (hst : S ≤ T) (hS : CharBoundary r.text S) (hT : CharBoundary r.text T) {styles' : List U}
    (hs : ∀ p : Nat, p < S ∨ T ≤ p → styles'[p]? = styles[p]?) (hr : ViewReachable m (stateOf find styles r v client)) :
    ∃ v', v.invalidateStyles r S T = some v' ∧ v'.lines = v.lines ∧ v'.selection = v.selection ∧ ViewReachable m (stateOf find styles' r v' client) := by
  have hl := (visual_isLines v.lines.wraps h.inv.agree h.inv.plain).1
  obtain ⟨n, s, h1⟩ := hl.onLine S
  obtain ⟨k, e, h2⟩ := hl.onLine T
  have next : ∀ i x, k < i → (visualStarts r.text v.lines.breaks.text)[i]? = some x → T < x := by
    intro i x hi hx
    have hlt : k + 1 < (visualStarts r.text v.lines.breaks.text).length := by
      have := (List.getElem?_eq_some_iff.1 hx).1
      omega
    have := h2.lt _ (List.getElem?_eq_getElem hlt)
    rcases Nat.lt_or_ge (k + 1) i with c | c
    · have := get_lt hl.sorted c (List.getElem?_eq_getElem hlt) hx
      omega
    · have : i = k + 1 := by omega
      subst this
      rw [List.getElem?_eq_getElem hlt] at hx
      obtain rfl := Option.some.inj hx
      omega
  have hnk : n ≤ k := by
    apply Classical.byContradiction
    intro hc
    have := next n s (by omega) h1.start
    have := h1.le
    omega
  refine ⟨{ v with shadow := v.shadow.partialInvalidate n (k + if T - e > 0 then 1 else 0) ⟨false, true, false⟩ }, ?_, rfl, rfl, ?_⟩
  · have e1 : v.wrapping.lines.lineOfOffset r S = some n := hl.lineOf hS h1
    have e2 : v.wrapping.lines.offsetToLineCol r T = some (k, T - e) := hl.lineCol hT h2
    simp [ShownView.invalidateStyles, e1, e2]
  · refine .step _ _ hr (.invalidate (stateOf find styles r v client) n _ _ _ (by omega) (by simp only [stateOf, looks_length]) ?_ ?_)
    · intro i a b _ _ ha hb
      simp only [stateOf, looks_get] at ha hb
      cases hx : (visualStarts r.text v.lines.breaks.text)[i]? with
      | none => rw [hx] at ha; cases ha
      | some x =>
        rw [hx] at ha hb
        obtain rfl := Option.some.inj ha
        obtain rfl := Option.some.inj hb
        exact ⟨fun _ => rfl, by simp, fun _ => rfl⟩
    · intro i hi
      simp only [stateOf, looks_get]
      cases hx : (visualStarts r.text v.lines.breaks.text)[i]? with
      | none => rfl
      | some x =>
        simp only [Option.map_some, lookOf]
        have : (styles'.take (((visualStarts r.text v.lines.breaks.text)[i + 1]?).getD r.text.length)).drop x =
            (styles.take (((visualStarts r.text v.lines.breaks.text)[i + 1]?).getD r.text.length)).drop x := by
          apply List.ext_getElem?
          intro p
          rw [List.getElem?_drop, List.getElem?_drop, List.getElem?_take, List.getElem?_take]
          split
          · rename_i hp
            apply hs
            rcases hi with hi | hi
            · left
              have hlt : i + 1 < (visualStarts r.text v.lines.breaks.text).length := by
                have := (List.getElem?_eq_some_iff.1 h1.start).1
                omega
              rw [List.getElem?_eq_getElem hlt] at hp
              have hle := h1.le
              have : (visualStarts r.text v.lines.breaks.text)[i + 1] ≤ s := by
                rcases Nat.lt_or_ge (i + 1) n with c | c
                · exact Nat.le_of_lt (get_lt hl.sorted c (List.getElem?_eq_getElem hlt) h1.start)
                · have : n = i + 1 := by omega
                  subst this
                  have := h1.start
                  rw [List.getElem?_eq_getElem hlt] at this
                  exact Nat.le_of_eq (Option.some.inj this)
              simp only [Option.getD_some] at hp
              omega
            · right
              have hle := h2.le
              by_cases hc : T - e > 0
              · rw [if_pos hc] at hi
                have := next i x (by omega) hx
                omega
              · rw [if_neg hc] at hi
                have : e ≤ x := by
                  rcases Nat.lt_or_ge k i with c | c
                  · exact Nat.le_of_lt (get_lt hl.sorted c h2.start hx)
                  · have : k = i := by omega
                    subst this
                    have := h2.start
                    rw [hx] at this
                    exact Nat.le_of_eq (Option.some.inj this).symm
                omega
          · rfl
        rw [this]

/-! ## Sessions -/

/-- A text with its styles and the occurrences of queries, a view of it, and the lines its front end has. -/
structure SeenState (U : Type) where
  text : Rope
  styles : List U
  find : List Selection
  view : ShownView
  client : List (Option (ScreenLine (List UInt8) (Look U)))

/-- The state of view and front end. -/
def SeenState.state (s : SeenState U) : ViewState (List UInt8) (Look U) := stateOf s.find s.styles s.text s.view s.client

/-- What may happen: edits when all lines are wrapped; background wrapping; events that change the selection; new styles in a
range of the text; updates that are sent to the front end. -/
inductive SeenStep (g : Graphemes) (rule : WrapRule) (m : Missing) : SeenState U → SeenState U → Prop
  | edit (s : SeenState U) (d : Delta UInt8) (r' : Rope) (styles' : List U) (find' : List Selection) (vis vis' : Nat) (v' : ShownView)
      (hd : d.WF) (hl : s.text.text.length = d.baseLen) (hb : r'.Balanced) (ht : d.apply s.text.text = some r'.text)
      (c1 : CharBoundary s.text.text d.summary.1.1) (c2 : CharBoundary s.text.text d.summary.1.2) (hv : vis ≤ vis') (hc : s.view.lines.isConverged = true)
      (hn : NoTurn d.summary.1.1 d.summary.1.2 s.view.selection)
      (hst : Kept s.styles styles' d.summary.1.1 d.summary.1.2 (d.summary.1.1 + d.summary.2))
      (hf : FindKept s.find find' d.summary.1.1 d.summary.1.2 (d.summary.1.1 + d.summary.2))
      (h : s.view.afterEdit rule r' s.text r'.text d vis vis' .default = some v') (hs : Valid r' v'.selection) :
      SeenStep g rule m s ⟨r', styles', find', v', s.client⟩
  | rewrap (s : SeenState U) (vis vis' : Nat) (v' : ShownView) (hv : vis ≤ vis') (h : s.view.rewrap rule s.text s.text.text vis vis' = some v') :
      SeenStep g rule m s { s with view := v' }
  | event (s : SeenState U) (w w' : View) (e : Event) (hw : w.selection = s.view.selection) (hi : w.inval = []) (hg : Good s.text w)
      (hs : e.Safe s.view.wrapping s.text w) (h : w.doEdit g s.view.wrapping s.text e = some w') :
      SeenStep g rule m s { s with view := { s.view with selection := w'.selection, shadow := invalidateAll w'.inval s.view.shadow } }
  | style (s : SeenState U) (styles' : List U) (start stop : Nat) (v' : ShownView) (hs : start ≤ stop) (c1 : CharBoundary s.text.text start)
      (c2 : CharBoundary s.text.text stop) (hst : ∀ p : Nat, p < start ∨ stop ≤ p → styles'[p]? = s.styles[p]?)
      (h : s.view.invalidateStyles s.text start stop = some v') : SeenStep g rule m s { s with styles := styles', view := v' }
  | render (s : SeenState U) (firstLine height : Nat) (shadow' : LineCacheShadow) (ops : List (UpdateOp (List UInt8) (Look U)))
      (client' : List (Option (ScreenLine (List UInt8) (Look U)))) (h : renderIfDirty s.state.cur s.view.shadow firstLine height = some (shadow', ops))
      (hc : applyUpdate m s.client ops 0 = some client') : SeenStep g rule m s { s with view := { s.view with shadow := shadow' }, client := client' }
  | request (s : SeenState U) (firstLine height a b : Nat) (hab : a < b) (shadow' : LineCacheShadow) (ops : List (UpdateOp (List UInt8) (Look U)))
      (client' : List (Option (ScreenLine (List UInt8) (Look U)))) (h : viewRequestLines s.state.cur s.view.shadow firstLine height a b = some (shadow', ops))
      (hc : applyUpdate m s.client ops 0 = some client') : SeenStep g rule m s { s with view := { s.view with shadow := shadow' }, client := client' }

/-- What can come about. -/
inductive SeenReachable (g : Graphemes) (rule : WrapRule) (m : Missing) : SeenState U → Prop
  | init (s : SeenState U) (h : WrapRun rule s.text s.view.lines) (hs : Valid s.text s.view.selection) (hd : s.view.shadow = .allDirty s.state.cur.length)
      (hc : s.client = []) : SeenReachable g rule m s
  | step (s s' : SeenState U) (h : SeenReachable g rule m s) (hs : SeenStep g rule m s s') : SeenReachable g rule m s'

theorem seen_ok {g : Graphemes} (hg : g.Ok) {s : SeenState U} (h : SeenReachable g rule m s) :
    WrapRun rule s.text s.view.lines ∧ Valid s.text s.view.selection ∧ ViewReachable m s.state := by
  induction h with
  | init s h hs hd hc =>
    refine ⟨h, hs, ?_⟩
    have := ViewReachable.init (m := m) s.state.cur (looks_pos (find := s.find) (styles := s.styles))
    rw [← hd] at this
    unfold SeenState.state stateOf at *
    rw [hc]
    exact this
  | step s s' _ hs ih =>
    obtain ⟨i1, i2, i3⟩ := ih
    cases hs with
    | edit d r' styles' find' vis vis' v' hd hl hb ht c1 c2 hv hc hn hst hf h hs =>
      obtain ⟨v'', k1, k2, k3, k4, k5⟩ := C80_edit_partial i1 hd hl hb ht c1 c2 hv hc i2.inv (fun q hq => boundary_le (i2.ok q hq).hi) hn hst hf i3
      rw [h] at k1
      obtain rfl := Option.some.inj k1
      exact ⟨k2, hs, k5⟩
    | rewrap vis vis' v' hv h =>
      obtain ⟨v'', k1, k2, k3, k4⟩ := C80_rewrap i1 hv i3
      rw [h] at k1
      obtain rfl := Option.some.inj k1
      exact ⟨k2, by show Valid s.text v'.selection; rw [k3]; exact i2, k4⟩
    | event w w' e hw hi hgd hsafe h =>
      have hf : Fits g s.view.wrapping s.text := ⟨i1.inv.agree, i1.inv.plain, hg⟩
      obtain ⟨w'', h1, h2⟩ := C78_keeps_partial hf hgd e hsafe
      rw [h] at h1
      obtain rfl := Option.some.inj h1
      refine ⟨i1, h2.selection, ?_⟩
      rcases told_event e h with ⟨k1, k2⟩ | ⟨x, x', k1, k2, k3, k4⟩
      · rw [hi] at k2
        unfold SeenState.state
        simp only [k1, k2, hw]
        exact i3
      · obtain ⟨y, inv, g1, g2, g3, g4⟩ := C80_selection (w := x) hg i1 (by rw [k1, hw]) i2 h2.selection i3
        rw [k3] at g1
        obtain rfl := Option.some.inj g1
        rw [k2, hi, List.nil_append] at g3
        unfold SeenState.state
        simp only [k4, g3]
        exact g4
    | style styles' start stop v' hs c1 c2 hst h =>
      obtain ⟨v'', k1, k2, k3, k4⟩ := C82_drawn i1 hs c1 c2 hst i3
      rw [h] at k1
      obtain rfl := Option.some.inj k1
      exact ⟨by show WrapRun rule s.text v'.lines; rw [k2]; exact i1, by show Valid s.text v'.selection; rw [k3]; exact i2, k4⟩
    | render firstLine height shadow' ops client' h hc => exact ⟨i1, i2, .step _ _ i3 (.render _ firstLine height shadow' ops client' h hc)⟩
    | request firstLine height a b hab shadow' ops client' h hc => exact ⟨i1, i2, .step _ _ i3 (.request _ firstLine height a b hab shadow' ops client' h hc)⟩

/-- **C80.** Whatever the user edits and selects: when the view is rendered, the front end shows the lines of the window as they should look, and no line
it may show has a wrong text or wrong styles (see C57). -/
theorem C80_session_partial {g : Graphemes} (hg : g.Ok) {s : SeenState U} (h : SeenReachable g rule m s) (firstLine height : Nat) :
    ∃ shadow' ops client', renderIfDirty s.state.cur s.view.shadow firstLine height = some (shadow', ops) ∧ applyUpdate m s.client ops 0 = some client' ∧
      Shown m (looks s.find s.styles s.text.text s.view.lines.breaks.text s.view.selection) client'
        (fun i => min firstLine s.state.cur.length ≤ i + 2 ∧ i < min firstLine s.state.cur.length + height + 2) := by
  obtain ⟨a, b, c, h1, h2, -, h3⟩ := C57_render_partial (seen_ok hg h).2.2 firstLine height
  exact ⟨a, b, c, h1, h2, h3⟩

end

/-- **C80.** What is sent of the lines is what they should look like: the encoded lines (C79) are decoded to this. -/
theorem C80_encoded_partial {g : Graphemes} {ls : Wrapping} {r : Rope} {U : Type} {find : List Selection} {styleId : U → Nat} {styles : SpansTree U}
    (hf : Fits g ls r) (hc : CanEncode find styles ls r) {sel : Selection} (hi : Selection.Inv sel) (hok : ∀ q ∈ sel, RegionOk r q) (he : EndOk r sel) :
    ∃ cur, screen find styleId styles ls r sel = some cur ∧ cur.length = (looks find styles.text r.text ls.breaks.text sel).length ∧
      ∀ (n : Nat) L, cur[n]? = some L → ∃ K, (looks find styles.text r.text ls.breaks.text sel)[n]? = some K ∧ Decodes styleId L K := by
  obtain ⟨cur, h1, h2, h3⟩ := C79_screen_partial (styleId := styleId) hf hc hi hok he
  refine ⟨cur, h1, by rw [looks_length]; exact h2, fun n L hL => ?_⟩
  obtain ⟨s, e, hl, k1, ⟨spans, k2, k3, k4⟩, k5⟩ := h3 n L hL
  obtain ⟨b1, b2, -⟩ := line_bounds hf hl
  obtain ⟨l1, l2⟩ := hl
  have l1 : (visualStarts r.text ls.breaks.text)[n]? = some s := l1
  have l2 : e = ((visualStarts r.text ls.breaks.text)[n + 1]?).getD r.text.length := l2
  refine ⟨_, by rw [looks_get, l1]; rfl, ?_⟩
  rw [← l2]
  have hlen : ((r.text.take e).drop s).length = e - s := by
    rw [List.length_drop, List.length_take]
    omega
  refine ⟨k1, k5, spans, ?_, ?_, k4⟩
  · simp only [lookOf, hlen]
    exact k2
  · simp only [lookOf, hlen]
    exact k3

/-! ## Examples and refutations -/

/-- A view without wrapping. -/
def plainView (r : Rope) (sel : Selection) (shadow : LineCacheShadow) : ShownView :=
  ⟨(⟨Breaks.newNoBreak 0, false, []⟩ : LinesState).setWrapWidth r false true, shadow, sel⟩

/-- A view that was rendered, then the text was edited, and it was rendered again: what should be seen then, and what the
front end has. -/
def afterChange (r r' : Rope) (d : Delta UInt8) (sel : Selection) (find find' : List Selection) :
    Option (List (ScreenLine (List UInt8) (Look Nat)) × List (Option (ScreenLine (List UInt8) (Look Nat)))) := do
  let cur := looks (U := Nat) find [] r.text (plainView r sel (.allDirty 0)).lines.breaks.text sel
  let (shadow, ops) ← renderIfDirty cur (.allDirty cur.length) 0 10
  let client ← applyUpdate .clear [] ops 0
  let v ← (plainView r sel shadow).afterEdit exampleRule r' r r'.text d 0 10 .default
  let cur' := looks (U := Nat) find' [] r'.text v.lines.breaks.text v.selection
  let (_, ops) ← renderIfDirty cur' v.shadow 0 10
  return (cur', ← applyUpdate .clear client ops 0)

/-- An edit of the second of three lines, with two carets that come together in it and a selection on the first line: the other lines are not sent
again, and the front end shows what it should. -/
example : (afterChange (smallRope "ab\ncd\nef") (smallRope "ab\nXY\nef") ⟨[.copy 0 3, .insert [88, 89], .copy 5 8], 8⟩ [.new 0 2, .caret 3, .caret 4, .caret 7]
    [] []).map (fun p => (p.1.map some == p.2, p.1.map fun L => (L.styles.selected, L.cursor))) =
      some (true, [([(0, 2)], [2]), ([], [2]), ([], [1])]) := by decide +kernel

/-- The hypotheses of the edit theorem are met there. -/
example : let d : Delta UInt8 := ⟨[.copy 0 3, .insert [88, 89], .copy 5 8], 8⟩
    d.WF ∧ d.apply (smallRope "ab\ncd\nef").text = some (smallRope "ab\nXY\nef").text ∧ d.summary = ((3, 5), 2) ∧
    Valid (smallRope "ab\ncd\nef") [.new 0 2, .caret 3, .caret 4, .caret 7] ∧ NoTurn 3 5 [.new 0 2, .caret 3, .caret 4, .caret 7] ∧
    FindKept [] [] 3 5 5 ∧ WrapRun exampleRule (smallRope "ab\ncd\nef") (plainView (smallRope "ab\ncd\nef") [] (.allDirty 3)).lines := by
  refine ⟨by decide, by decide +kernel, by decide, ⟨by simp, ?_, ?_⟩, ?_, ⟨fun _ _ _ => rfl, fun _ _ _ => rfl⟩, .start exampleRule_ok (small_balanced (by decide +kernel)) (by decide +kernel)⟩
  · simp [Selection.Inv, Before, SelRegion.new, SelRegion.caret, SelRegion.lo, SelRegion.hi]
  · intro q hq
    simp only [List.mem_cons, List.not_mem_nil, or_false] at hq
    rcases hq with rfl | rfl | rfl | rfl <;> exact small_region (by decide +kernel) (by decide +kernel)
  · intro q hq
    simp only [List.mem_cons, List.not_mem_nil, or_false] at hq
    rcases hq with rfl | rfl | rfl | rfl <;> simp [SelRegion.new, SelRegion.caret]

/-- C80 fails without `NoTurn`: when "ef" is deleted from "ab\ncdefg" (by a plugin, say), the second region, "ef", becomes a caret and is joined to the first one,
"ab\ncd", which was selected backwards; then the cursor is at the end of the whole (selection.rs:348-356).  The first line is not sent again, and so the
front end still shows a cursor there. -/
theorem C80_turn_refuted : ∃ (r r' : Rope) (d : Delta UInt8) (sel : Selection), r.Balanced ∧ r'.Balanced ∧ Valid r sel ∧ d.WF ∧ d.apply r.text = some r'.text ∧
    (afterChange r r' d sel [] []).map (fun p => (p.1.map (·.cursor), p.2.map (·.map (·.cursor)))) = some ([[], [2]], [some [0], some [2]]) := by
  refine ⟨smallRope "ab\ncdefg", smallRope "ab\ncdg", ⟨[.copy 0 5, .copy 7 8], 8⟩, [.new 5 0, .new 5 7], small_balanced (by decide +kernel), small_balanced (by decide +kernel),
    ⟨by simp, ?_, ?_⟩, by decide, by decide +kernel, by decide +kernel⟩
  · simp [Selection.Inv, Before, SelRegion.new, SelRegion.lo, SelRegion.hi]
  · intro q hq
    simp only [List.mem_cons, List.not_mem_nil, or_false] at hq
    rcases hq with rfl | rfl <;> exact small_region (by decide +kernel) (by decide +kernel)

/-- C80 fails without `FindKept`, which is not met by a query that has more than one line: when "x" is typed at the start of the second line of "a\nb",
"a\nb" is not found any more (find.rs:138-189), but "a" stays highlighted, since the first line is not sent again. -/
theorem C80_highlight_refuted : ∃ (r r' : Rope) (d : Delta UInt8) (sel : Selection) (find find' : FindState), r.Balanced ∧ r'.Balanced ∧ Valid r sel ∧ d.WF ∧
    d.apply r.text = some r'.text ∧ find.updateHighlights someLower false r' d = some find' ∧
    (afterChange r r' d sel [find.occurrences] [find'.occurrences]).map (fun p => (p.1.map (·.styles.highlights.flatten), p.2.map (·.map (·.styles.highlights.flatten)))) =
      some ([[], []], [some [(0, 2)], some []]) := by
  have h : ((query ['a', '\n', 'b'] false [.new 0 3]).updateHighlights someLower false (smallRope "a\nxb") ⟨[.copy 0 2, .insert [120], .copy 2 3], 3⟩).map
      FindState.occurrences = some [] := by decide +kernel
  obtain ⟨find', h1, h2⟩ := Option.map_eq_some_iff.1 h
  refine ⟨smallRope "a\nb", smallRope "a\nxb", _, [.caret 2], query ['a', '\n', 'b'] false [.new 0 3], find', small_balanced (by decide +kernel), small_balanced (by decide +kernel),
    Valid.single (small_region (by decide +kernel) (by decide +kernel)), by decide, by decide +kernel, h1, ?_⟩
  rw [h2]
  decide +kernel

end Xi.Gesture
