import Verif.View.Encode
import Verif.Props.Gesture
import Verif.Props.Spans
import Verif.Props.VisualLines
import Verif.Props.LineCache

/-!
# C79: what is shown of a selection, and what is sent when it changes
-/

namespace Xi.Gesture

open Selection

/-! ## Specification -/

/-- What a front end makes of encoded styles: each is given by its distance from the end of the one
before, its length and its number. -/
def decodeStyles : Int → List Int → List (Int × Int × Int)
  | ix, d :: n :: style :: rest => (ix + d, ix + d + n, style) :: decodeStyles (ix + d + n) rest
  | _, _ => []

/-- The regions whose cursors are on the line from `s` to before `limit`. -/
def cursorsIn (sel : Selection) (s limit : Nat) : List Nat := (sel.filter fun q => s ≤ q.stop ∧ q.stop < limit).map fun q => q.stop - s

/-- What is selected of the line from `s` to `e`, relative to its start. -/
def selectedIn (sel : Selection) (s e : Nat) : List (Nat × Nat) :=
  (sel.filter fun q => max q.lo s < min q.hi e).map fun q => (max q.lo s - s, min q.hi e - s)

/-- No cursor is at the end of a text that ends with a newline (or is empty but for it). -/
def EndOk (r : Rope) (sel : Selection) : Prop := LineBoundary r.text r.text.length → ∀ q ∈ sel, q.stop ≠ r.text.length

/-- Line `n` on the screen is from `s` to `e`. -/
def ScreenLineAt (ls : Wrapping) (r : Rope) (n s e : Nat) : Prop := (screenStarts ls r)[n]? = some s ∧ e = ((screenStarts ls r)[n + 1]?).getD r.text.length

/-! ## One line -/

theorem range_parts {sel : Selection} (hs : Selection.Inv sel) {s e : Nat} (hse : s ≤ e) : ∃ l, sel.regionsInRange s e = some l ∧
    l.filterMap (interior s e) = selectedIn sel s e ∧
    ∀ len, e ≤ len → (s < e ∨ e = len) → (∀ q ∈ sel, q.upstream = false ∧ q.hi ≤ len) →
      l.filter (showsCursor s e len) = sel.filter fun q => s ≤ q.stop ∧ (q.stop < e ∨ q.stop = len ∧ e = len) := by
  obtain ⟨A, l, B, h1, h2, h3, h4, h5⟩ := C32_range_partial hs hse
  refine ⟨l, h2, ?_, ?_⟩
  · have key : ∀ L : List SelRegion, L.filterMap (interior s e) = selectedIn L s e := by
      intro L
      induction L with
      | nil => rfl
      | cons q L ih =>
        have hle := lo_le q
        have hi : interior s e q = if max q.lo s < min q.hi e then some (max q.lo s - s, min q.hi e - s) else none := by
          unfold interior clamp
          repeat' split
          all_goals first | omega | rfl | skip
          all_goals simp only [Option.some.injEq, Prod.mk.injEq]; omega
        unfold selectedIn at ih ⊢
        rw [List.filterMap_cons, hi, List.filter_cons]
        by_cases hc : max q.lo s < min q.hi e
        · simp [hc, ih]
        · simp [hc, ih]
    rw [key]
    unfold selectedIn
    rw [h1, List.filter_append, List.filter_append, (List.filter_eq_nil_iff (l := A)).2, (List.filter_eq_nil_iff (l := B)).2]
    · simp
    · intro q hq
      have := (h5 q hq).1
      simp only [decide_eq_true_eq]
      omega
    · intro q hq
      have := h3 q hq
      simp only [decide_eq_true_eq]
      omega
  · intro len he hne hd
    rw [h1, List.filter_append, List.filter_append, (List.filter_eq_nil_iff (l := A)).2, (List.filter_eq_nil_iff (l := B)).2]
    · simp only [List.nil_append, List.append_nil]
      apply List.filter_congr
      intro q hq
      have hup := (hd q (by rw [h1]; simp [hq])).1
      rw [Bool.eq_iff_iff]
      simp only [showsCursor, hup, Bool.or_eq_true, Bool.and_eq_true, decide_eq_true_eq, beq_iff_eq, Bool.not_false, true_and, Bool.false_eq_true, false_and, or_false]
      omega
    · intro q hq
      obtain ⟨k1, k2⟩ := h5 q hq
      have hhi := (hd q (by rw [h1]; simp [hq])).2
      have hlo : q.lo ≤ q.stop := by simp only [SelRegion.lo]; omega
      have hst : q.stop ≤ q.hi := by simp only [SelRegion.hi]; omega
      simp only [decide_eq_true_eq]
      rintro ⟨k3, k4 | ⟨k4, k5⟩⟩
      · omega
      · have hlo' : q.lo = e := by omega
        obtain ⟨k6, -⟩ := k2 hlo'
        simp only [SelRegion.lo, SelRegion.hi] at *
        omega
    · intro q hq
      have := h3 q hq
      have hst : q.stop ≤ q.hi := by simp only [SelRegion.hi]; omega
      simp only [decide_eq_true_eq]
      omega

/-- **C79.** Encoded styles are decoded as what they were: highlights, selections and styles with their
places on the line. -/
theorem C79_decode : ∀ (l : List (Nat × Nat × Nat)) (ix : Int), decodeStyles ix (pushStyles ix l) = l.map fun p => ((p.1 : Int), (p.2.1 : Int), (p.2.2 : Int))
  | [], ix => by simp [pushStyles, decodeStyles]
  | (a, b, c) :: l, ix => by
    have h1 : ix + ((a : Int) - ix) = a := by omega
    have h2 : (a : Int) + ((b : Int) - a) = b := by omega
    simp only [pushStyles, decodeStyles, h1, h2, C79_decode l (b : Int), List.map_cons]

/-- **C79.** A place is clamped into the line, so that the subtractions at view.rs:644-645 and 657-658 do not underflow; nothing changes for a place
that is on the line. -/
theorem C79_clamp (x : Nat) {lo hi : Nat} (h : lo ≤ hi) : lo ≤ clamp x lo hi ∧ clamp x lo hi ≤ hi ∧ (lo ≤ x → x ≤ hi → clamp x lo hi = x) := by
  unfold clamp
  repeat' split
  all_goals omega

section

variable {g : Graphemes} {ls : Wrapping} {r : Rope} {v : View} {T : Type} {find : List Selection} {styleId : T → Nat} {styles : SpansTree T}

/-- What encoding needs. -/
structure CanEncode (find : List Selection) (styles : SpansTree T) (ls : Wrapping) (r : Rope) : Prop where
  find : ∀ f ∈ find, Selection.Inv f
  balanced : styles.Balanced
  len : styles.text.length = r.text.length
  noEnd : ¬ BreakAt ls.breaks.text r.text.length

/-- The highlights of a line. -/
def highlightsIn (find : List Selection) (s e : Nat) : List (List (Nat × Nat)) := find.map fun f => selectedIn f s e

theorem mapM_hls (hf : ∀ f ∈ find, Selection.Inv f) {s e : Nat} (hse : s ≤ e) :
    find.mapM (fun f => do return (← Selection.regionsInRange f s e).filterMap (interior s e)) = some (highlightsIn find s e) := by
  induction find with
  | nil => rfl
  | cons f find ih =>
    obtain ⟨l, h1, h2, -⟩ := range_parts (hf f (by simp)) hse
    have := ih (fun x hx => hf x (by simp [hx]))
    rw [List.mapM_cons, this, h1]
    simp [h2, highlightsIn]

theorem line_bounds (hf : Fits g ls r) {n s e : Nat} (h : ScreenLineAt ls r n s e) : s ≤ e ∧ e ≤ r.text.length ∧ CharBoundary r.text s ∧ CharBoundary r.text e ∧
    (s < e ∨ e = r.text.length) := by
  have hl := hf.lines.1
  obtain ⟨h1, h2⟩ := h
  have hs := hl.chars s (List.mem_of_getElem? h1)
  cases h3 : (screenStarts ls r)[n + 1]? with
  | none =>
    rw [h3] at h2
    simp only [Option.getD_none] at h2
    subst h2
    exact ⟨boundary_le hs, Nat.le_refl _, hs, rope_boundary_length hf.text, .inr rfl⟩
  | some x =>
    rw [h3] at h2
    simp only [Option.getD_some] at h2
    subst h2
    have hx := hl.chars _ (List.mem_of_getElem? h3)
    have := get_lt hl.sorted (Nat.lt_succ_self n) h1 h3
    exact ⟨by omega, boundary_le hx, hs, hx, .inl this⟩

/-- The encoding of a line, in terms of the parts above. -/
theorem encode_eq (hf : Fits g ls r) (hc : CanEncode find styles ls r) {n s e : Nat}
    (h : ScreenLineAt ls r n s e) (num : Option Nat) : ∃ spans, SpansIn 0 (e - s) spans ∧ paint (e - s) spans = (styles.text.take e).drop s ∧
      ∀ sel : Selection, Selection.Inv sel → (∀ q ∈ sel, RegionOk r q) → encodeLine find styleId styles r sel ⟨⟨s, e⟩, num⟩ =
        some ⟨(r.text.take e).drop s, pushStyles 0 (styleList styleId (selectedIn sel s e) (highlightsIn find s e) spans),
          (sel.filter fun q => s ≤ q.stop ∧ (q.stop < e ∨ q.stop = r.text.length ∧ e = r.text.length)).map fun q => q.stop - s⟩ := by
  obtain ⟨b1, b2, b3, b4, b5⟩ := line_bounds hf h
  have hr := hf.text
  have hlen := Rope.len_eq hr
  obtain ⟨m, e1, e2, e3⟩ := Node.subseq_spec (iv := ⟨s, e⟩) hc.balanced
    (fun _ => ⟨spans_cut (by rw [hc.len]; exact Nat.le_trans b1 b2), spans_cut (by rw [hc.len]; exact b2)⟩)
  obtain ⟨spans, i1, i2, i3⟩ := SpansTree.iter_spec e3
  have e2 : m.text = (styles.text.take e).drop s := e2
  have hml : m.text.length = e - s := by
    rw [e2]
    rw [List.length_drop, List.length_take, hc.len]
    omega
  rw [hml] at i2 i3
  refine ⟨spans, i2, by rw [i3, e2], fun sel hi hok => ?_⟩
  obtain ⟨l, f1, f2, f3⟩ := range_parts hi b1
  have f3 := f3 r.text.length b2 b5 (fun q hq => ⟨(hok q hq).down, boundary_le (hok q hq).hi⟩)
  have hiv : Interval.new s e = some ⟨s, e⟩ := by simp [Interval.new, b1]
  have hcow : r.sliceToCow (.range s e) = some ((r.text.take e).drop s) :=
    Rope.sliceToCow_spec hr (by simp [Bounds.intoInterval, Interval.new, b1]) b3 b4
  unfold encodeLine encodeStyles
  simp only [mapM_hls hc.find b1]
  simp only [f1, Option.bind_eq_bind, Option.bind_some, hcow, if_pos b1, hiv, e1, i1, f2]
  rw [hlen, f3]
  rfl

/-! ## All the lines -/

theorem next_start {t : List UInt8} {b : List Bool} {n o : Nat} (h : (visualStarts t b)[n]? = some o) :
    (∀ p, IsNext (Starts t b) t.length o (some p) → (visualStarts t b)[n + 1]? = some p) ∧
    (IsNext (Starts t b) t.length o none → (visualStarts t b)[n + 1]? = none) := by
  have hs := visualStarts_sorted t b
  have key : ∀ x, (visualStarts t b)[n + 1]? = some x → o < x ∧ x ≤ t.length ∧ Starts t b x := by
    intro x hx
    have h1 := get_lt hs (Nat.lt_succ_self n) h hx
    obtain ⟨h2, h3⟩ := mem_visualStarts.1 (List.mem_of_getElem? hx)
    rcases h3 with h3 | h3
    · omega
    · exact ⟨h1, h2, h3⟩
  constructor
  · rintro p ⟨h1, h2, h3, h4⟩
    obtain ⟨j, hj⟩ := List.mem_iff_getElem?.1 (mem_visualStarts.2 ⟨h2, .inr h3⟩ : p ∈ visualStarts t b)
    have hnj : n < j := by
      by_cases hc : n < j
      · exact hc
      · exfalso
        by_cases he : j = n
        · rw [he, h] at hj
          simp at hj
          omega
        · have := get_lt hs (by omega : j < n) hj h
          omega
    have hlt : n + 1 < (visualStarts t b).length := by
      have := (List.getElem?_eq_some_iff.1 hj).1
      omega
    obtain ⟨k1, k2, k3⟩ := key _ (List.getElem?_eq_getElem hlt)
    by_cases he : n + 1 = j
    · rw [he]; exact hj
    · have := get_lt hs (by omega : n + 1 < j) (List.getElem?_eq_getElem hlt) hj
      exact absurd k3 (h4 _ k1 this)
  · intro hn
    cases hx : (visualStarts t b)[n + 1]? with
    | none => rfl
    | some x =>
      obtain ⟨k1, k2, k3⟩ := key x hx
      exact absurd k3 (hn x k1 k2)

theorem lines_at {t : List UInt8} {b : List Bool} {o : Nat} {L : List VisualLine} (h : LinesFrom t b o L) : ∀ {n : Nat}, (visualStarts t b)[n]? = some o →
    n + L.length = (visualStarts t b).length ∧ ∀ i l, L[i]? = some l → (visualStarts t b)[n + i]? = some l.interval.start ∧
      l.interval.stop = ((visualStarts t b)[n + i + 1]?).getD t.length := by
  induction h with
  | last h =>
    intro n hn
    have := (next_start hn).2 h
    have h1 := (List.getElem?_eq_some_iff.1 hn).1
    have h2 := List.getElem?_eq_none_iff.1 this
    refine ⟨by simp; omega, ?_⟩
    intro i l hl
    match i, hl with
    | 0, hl =>
      simp at hl
      subst hl
      simp [hn, this]
  | more h _ ih =>
    intro n hn
    have := (next_start hn).1 _ h
    obtain ⟨h1, h2⟩ := ih this
    refine ⟨by simp; omega, ?_⟩
    intro i l hl
    match i, hl with
    | 0, hl =>
      simp at hl
      subst hl
      simp [hn, this]
    | i + 1, hl =>
      have := h2 i l (by simpa using hl)
      rw [show n + (i + 1) = n + 1 + i by omega]
      exact this

theorem mapM_some {α β : Type} {f : α → Option β} : ∀ (l : List α), (∀ a ∈ l, ∃ b, f a = some b) →
    ∃ l', l.mapM f = some l' ∧ l'.length = l.length ∧ ∀ (i : Nat) b, l'[i]? = some b → ∃ a, l[i]? = some a ∧ f a = some b
  | [], _ => ⟨[], rfl, rfl, by simp⟩
  | a :: l, h => by
    obtain ⟨b, hb⟩ := h a (by simp)
    obtain ⟨l', h1, h2, h3⟩ := mapM_some l (fun x hx => h x (by simp [hx]))
    refine ⟨b :: l', by rw [List.mapM_cons, hb, h1]; rfl, by simp [h2], ?_⟩
    intro i b' hb'
    match i, hb' with
    | 0, hb' =>
      simp at hb'
      subst hb'
      exact ⟨a, rfl, hb⟩
    | i + 1, hb' => exact h3 i b' (by simpa using hb')

/-- What the front end should see of line `n`: its text; highlights, selections and styles; cursors. -/
structure IsEncoded (find : List Selection) (styleId : T → Nat) (styles : SpansTree T) (r : Rope) (sel : Selection) (s e limit : Nat)
    (L : ScreenLine (List UInt8) (List Int)) : Prop where
  text : L.text = (r.text.take e).drop s
  styles : ∃ spans, SpansIn 0 (e - s) spans ∧ paint (e - s) spans = (styles.text.take e).drop s ∧
    decodeStyles 0 L.styles = ((highlightsIn find s e).mapIdx (fun i hl => hl.map fun p => ((p.1 : Int), (p.2 : Int), (i : Int) + 1))).flatten ++
      (selectedIn sel s e).map (fun p => ((p.1 : Int), (p.2 : Int), 0)) ++ spans.map (fun x => ((x.iv.start : Int), (x.iv.stop : Int), (styleId x.data : Int)))
  cursor : L.cursor = cursorsIn sel s limit

/-- The lines, whatever is selected. -/
theorem screen_lines (hf : Fits g ls r) (hc : CanEncode find styles ls r) : ∃ lines : List VisualLine,
    (∀ sel, screen find styleId styles ls r sel = lines.mapM (encodeLine find styleId styles r sel)) ∧ lines.length = (screenStarts ls r).length ∧
      ∀ (i : Nat) l, lines[i]? = some l → ScreenLineAt ls r i l.interval.start l.interval.stop := by
  obtain ⟨v, o, L, h1, h2, h3, h4⟩ := C53_iter_lines hf.agree hc.noEnd 0 (Nat.zero_le _)
  have ho : o = 0 := by
    rcases h2 with ⟨-, h⟩ | ⟨h, h', h''⟩
    · exact h
    · exfalso
      rcases h with ⟨k1, k2⟩ | ⟨k1, k2⟩
      · have : newline ∈ r.text.take o := List.mem_iff_getElem?.2 ⟨o - 1, by rw [List.getElem?_take, if_pos (by omega)]; exact k2⟩
        have := List.count_pos_iff.2 this
        unfold lineIndex at h''
        omega
      · have : true ∈ ls.breaks.text.take o := List.mem_iff_getElem?.2 ⟨o - 1, by rw [List.getElem?_take, if_pos (by omega)]; exact k2⟩
        have := List.count_pos_iff.2 this
        unfold lineIndex at h''
        omega
  subst ho
  obtain ⟨h5, h6⟩ := lines_at h4 (visualStarts_first _ _)
  refine ⟨L, fun sel => ?_, (Nat.zero_add _).symm.trans h5, fun i l hl => ?_⟩
  · unfold screen
    rw [Rope.len_eq hf.text]
    simp only [h1, h3, Option.bind_eq_bind, Option.bind_some]
  · have := h6 i l hl
    rw [Nat.zero_add] at this
    exact this

/-- The screen, and its lines. -/
theorem screen_eq (hf : Fits g ls r) (hc : CanEncode find styles ls r) : ∃ lines : List VisualLine, lines.length = (screenStarts ls r).length ∧
      (∀ (i : Nat) l, lines[i]? = some l → ScreenLineAt ls r i l.interval.start l.interval.stop) ∧
      ∀ sel, Selection.Inv sel → (∀ q ∈ sel, RegionOk r q) → ∃ cur, screen find styleId styles ls r sel = some cur ∧ cur.length = lines.length ∧
        ∀ (i : Nat) L, cur[i]? = some L → ∃ l, lines[i]? = some l ∧ encodeLine find styleId styles r sel l = some L := by
  obtain ⟨lines, h1, h2, h3⟩ := screen_lines (styleId := styleId) hf hc
  refine ⟨lines, h2, h3, fun sel hi hok => ?_⟩
  obtain ⟨cur, e1, e2, e3⟩ := mapM_some (f := encodeLine find styleId styles r sel) lines (by
    intro l hl
    obtain ⟨i, hl⟩ := List.mem_iff_getElem?.1 hl
    obtain ⟨spans, -, -, h⟩ := encode_eq (styleId := styleId) hf hc (h3 i l hl) l.lineNum
    exact ⟨_, h sel hi hok⟩)
  exact ⟨cur, by rw [h1, e1], e2, e3⟩

theorem mapIdx_flat (l : List (List (Nat × Nat))) : ∀ k : Nat,
    ((l.mapIdx fun i hl => hl.map fun p => (p.1, p.2, k + i + 1)).flatten).map (fun p : Nat × Nat × Nat => ((p.1 : Int), (p.2.1 : Int), (p.2.2 : Int))) =
      (l.mapIdx fun i hl => hl.map fun p => ((p.1 : Int), (p.2 : Int), (k : Int) + (i : Int) + 1)).flatten := by
  induction l with
  | nil => simp
  | cons x l ih =>
    intro k
    have := ih (k + 1)
    simp only [List.mapIdx_cons, List.flatten_cons, List.map_append]
    congr 1
    · simp
    · rw [show (fun (i : Nat) (hl : List (Nat × Nat)) => hl.map fun p => (p.1, p.2, k + (i + 1) + 1)) =
        (fun (i : Nat) (hl : List (Nat × Nat)) => hl.map fun p => (p.1, p.2, k + 1 + i + 1)) by
          funext i hl; rw [show k + (i + 1) + 1 = k + 1 + i + 1 by omega]]
      rw [this]
      congr 2
      funext i hl
      congr 1
      funext p
      simp
      omega

/-- The cursors of a line, if the text does not end with a newline and a cursor. -/
theorem shown_eq (hc : CanEncode find styles ls r) {sel : Selection} (hok : ∀ q ∈ sel, RegionOk r q) (he : EndOk r sel) {n s e : Nat}
    (h : ScreenLineAt ls r n s e) :
    (sel.filter fun q => s ≤ q.stop ∧ (q.stop < e ∨ q.stop = r.text.length ∧ e = r.text.length)).map (fun q => q.stop - s) =
      cursorsIn sel s (lineLimit (screenStarts ls r) r.text.length n) := by
  unfold cursorsIn
  congr 1
  apply List.filter_congr
  intro q hq
  have hle := boundary_le (hok q hq).stop
  obtain ⟨h1, h2⟩ := h
  rw [decide_eq_decide]
  unfold lineLimit
  cases hx : (screenStarts ls r)[n + 1]? with
  | none =>
    rw [hx] at h2
    simp only [Option.getD_none] at h2 ⊢
    omega
  | some x =>
    rw [hx] at h2
    simp only [Option.getD_some] at h2 ⊢
    subst h2
    by_cases hxl : e = r.text.length
    · have hpos := get_lt (visualStarts_sorted _ _) (Nat.lt_succ_self n) h1 hx
      have hb : LineBoundary r.text r.text.length := by
        rcases (mem_visualStarts.1 (List.mem_of_getElem? hx)).2 with k | k | k
        · omega
        · rw [← hxl]; exact k
        · exact absurd (hxl ▸ k) hc.noEnd
      have := he hb q hq
      omega
    · omega

/-- **C79.** What the core makes of the lines of a view does not crash, and there is a line for every
visual line; the text, the decoded styles and the cursors are what they should be.  This needs that there is no
cursor at the end of a text that ends with a newline. -/
theorem C79_screen_partial (hf : Fits g ls r) (hc : CanEncode find styles ls r) {sel : Selection} (hi : Selection.Inv sel) (hok : ∀ q ∈ sel, RegionOk r q)
    (he : EndOk r sel) : ∃ cur, screen find styleId styles ls r sel = some cur ∧ cur.length = (screenStarts ls r).length ∧
      ∀ n L, cur[n]? = some L → ∃ s e, ScreenLineAt ls r n s e ∧
        IsEncoded find styleId styles r sel s e (lineLimit (screenStarts ls r) r.text.length n) L := by
  obtain ⟨lines, h1, h2, h3⟩ := screen_eq (styleId := styleId) hf hc
  obtain ⟨cur, e1, e2, e3⟩ := h3 sel hi hok
  refine ⟨cur, e1, by omega, fun n L hL => ?_⟩
  obtain ⟨l, g1, g2⟩ := e3 n L hL
  have hl := h2 n l g1
  refine ⟨_, _, hl, ?_⟩
  obtain ⟨spans, f1, f2, f3⟩ := encode_eq (styleId := styleId) hf hc hl l.lineNum
  have f3 := f3 sel hi hok
  rw [g2] at f3
  obtain rfl := Option.some.inj f3
  refine ⟨rfl, ⟨spans, f1, f2, ?_⟩, shown_eq hc hok he hl⟩
  rw [C79_decode]
  unfold styleList
  have := mapIdx_flat (highlightsIn find l.interval.start l.interval.stop) 0
  simp only [Nat.zero_add, Int.natCast_zero, Int.zero_add] at this
  rw [List.map_append, List.map_append, this]
  simp [Function.comp_def]

/-- **C79.** What is shown as selected on a line is what is selected. -/
theorem C79_selected (sel : Selection) {s e k : Nat} (h1 : s ≤ k) (h2 : k < e) : (∃ p ∈ selectedIn sel s e, p.1 ≤ k - s ∧ k - s < p.2) ↔ Has sel k := by
  unfold selectedIn Has
  constructor
  · rintro ⟨p, hp, k1, k2⟩
    obtain ⟨q, hq, rfl⟩ := List.mem_map.1 hp
    obtain ⟨hq, hq'⟩ := List.mem_filter.1 hq
    simp only [decide_eq_true_eq] at hq'
    exact ⟨q, hq, by omega, by omega⟩
  · rintro ⟨q, hq, k1, k2⟩
    exact ⟨_, List.mem_map.2 ⟨q, List.mem_filter.2 ⟨hq, by simp only [decide_eq_true_eq]; omega⟩, rfl⟩, by show max q.lo s - s ≤ _; omega, by show _ < min q.hi e - s; omega⟩

theorem filter_two (s t : Nat) (hst : s ≤ t) : ∀ l : List Nat, l.Pairwise (· ≤ ·) →
    l.filter (fun x => s ≤ x ∧ x < t) ++ l.filter (fun x => t ≤ x) = l.filter (fun x => s ≤ x)
  | [], _ => rfl
  | x :: l, h => by
    have ih := filter_two s t hst l (List.pairwise_cons.1 h).2
    by_cases h1 : x < t
    · have h2 : ¬ t ≤ x := by omega
      by_cases h3 : s ≤ x
      · simp [h1, h2, h3, ← ih]
      · simp [h1, h2, h3, ← ih]
    · have h2 : t ≤ x := by omega
      have h3 : s ≤ x := by omega
      have : l.filter (fun x => s ≤ x ∧ x < t) = [] := by
        rw [List.filter_eq_nil_iff]
        intro y hy
        have := (List.pairwise_cons.1 h).1 y hy
        simp only [decide_eq_true_eq]
        omega
      rw [this, List.nil_append] at ih
      rw [List.filter_cons_of_neg (by simp; omega), this, List.nil_append, List.filter_cons_of_pos (by simpa using h2),
        List.filter_cons_of_pos (by simpa using h3), ih]

theorem all_between (len : Nat) : ∀ (starts : List Nat), starts.Pairwise (· < ·) → ∀ (s : Nat), starts.head? = some s → ∀ l : List Nat, l.Pairwise (· ≤ ·) →
    (∀ x ∈ l, x ≤ len) → (List.range starts.length).flatMap (fun n => l.filter (fun x => starts[n]?.getD 0 ≤ x ∧ x < lineLimit starts len n)) =
      l.filter (fun x => s ≤ x)
  | [], _, s, hs, _, _, _ => by cases hs
  | [a], _, s, hs, l, _, hl => by
    simp at hs
    subst hs
    simp only [List.length_singleton, List.range_one, List.flatMap_cons, List.flatMap_nil, List.append_nil]
    apply List.filter_congr
    intro x hx
    have := hl x hx
    simp [lineLimit]
    omega
  | a :: b :: rest, hp, s, hs, l, h, hl => by
    simp at hs
    subst hs
    have hab : a < b := (List.pairwise_cons.1 hp).1 b (by simp)
    have ih := all_between len (b :: rest) (List.pairwise_cons.1 hp).2 b rfl l h hl
    rw [show (a :: b :: rest).length = (b :: rest).length + 1 from rfl, List.range_succ_eq_map, List.flatMap_cons, List.flatMap_map]
    rw [← filter_two a b (by omega) l h, ← ih]
    rfl

/-- **C79.** Every cursor is shown once: the cursors of the lines, one line after the other, are those
of the regions. -/
theorem C79_cursors_partial (hf : Fits g ls r) (hc : CanEncode find styles ls r) {sel : Selection} (hi : Selection.Inv sel) (hok : ∀ q ∈ sel, RegionOk r q)
    (he : EndOk r sel) : ∃ cur, screen find styleId styles ls r sel = some cur ∧
      (List.zipWith (fun (s : Nat) (L : ScreenLine (List UInt8) (List Int)) => L.cursor.map (s + ·)) (screenStarts ls r) cur).flatten =
        sel.map SelRegion.stop := by
  obtain ⟨cur, h1, h2, h3⟩ := C79_screen_partial (styleId := styleId) hf hc hi hok he
  refine ⟨cur, h1, ?_⟩
  have hmono : (sel.map SelRegion.stop).Pairwise (· ≤ ·) := by
    rw [List.pairwise_map]
    refine hi.imp ?_
    intro a b hab
    have := hab.1
    simp only [SelRegion.lo, SelRegion.hi] at this
    omega
  have := all_between r.text.length (screenStarts ls r) (visualStarts_sorted _ _) 0 (by rw [List.head?_eq_getElem?]; exact visualStarts_first _ _)
    (sel.map SelRegion.stop) hmono (by
      intro x hx
      obtain ⟨q, hq, rfl⟩ := List.mem_map.1 hx
      exact boundary_le (hok q hq).stop)
  rw [List.filter_eq_self.2 (by simp)] at this
  rw [← this, List.flatMap_def]
  congr 1
  apply List.ext_getElem?
  intro n
  rw [List.getElem?_zipWith, List.getElem?_map]
  by_cases hn : n < (screenStarts ls r).length
  · rw [List.getElem?_range hn]
    obtain ⟨s, e, ⟨g1, -⟩, -, -, g3⟩ := h3 n _ (List.getElem?_eq_getElem (by omega : n < cur.length))
    rw [g1, List.getElem?_eq_getElem (by omega : n < cur.length)]
    simp only [Option.map_some, g3, cursorsIn, List.map_map, List.filter_map]
    rw [show (screenStarts ls r)[n]?.getD 0 = s by rw [g1]; rfl]
    congr 1
    apply List.map_congr_left
    intro q hq
    have := (List.mem_filter.1 hq).2
    simp only [decide_eq_true_eq] at this
    simp only [Function.comp]
    omega
  · rw [List.getElem?_eq_none (by omega : (screenStarts ls r).length ≤ n), List.getElem?_eq_none (by simp; omega : (List.range (screenStarts ls r).length).length ≤ n)]
    rfl

/-! ## Changing the selection -/

theorem first_le {sel : Selection} (hi : Selection.Inv sel) {q : SelRegion} (h : sel.head? = some q) : ∀ x ∈ sel, q.lo ≤ x.lo := by
  cases sel with
  | nil => cases h
  | cons y sel =>
    simp at h
    subst h
    intro x hx
    rcases List.mem_cons.1 hx with rfl | hx
    · exact Nat.le_refl _
    · have := ((List.pairwise_cons.1 hi).1 x hx).1
      have := lo_le y
      omega

theorem le_last {sel : Selection} (hi : Selection.Inv sel) {q : SelRegion} (h : sel.getLast? = some q) : ∀ x ∈ sel, x.hi ≤ q.hi := by
  obtain ⟨l, rfl⟩ := List.getLast?_eq_some_iff.1 h
  intro x hx
  rcases List.mem_append.1 hx with hx | hx
  · have := ((List.pairwise_append.1 hi).2.2 x hx q (by simp)).1
    have := lo_le q
    omega
  · simp at hx
    subst hx
    exact Nat.le_refl _

/-- A selection makes no difference on lines it is not on; carets are not shown as selected. -/
theorem blank_facts (hf : Fits g ls r) {sel : Selection} (hs : Valid r sel) {n m : Nat} (hl : SelLines ls r sel n m) {i s e : Nat} (h : ScreenLineAt ls r i s e) :
    (i < n ∨ m + 1 ≤ i → selectedIn sel s e = [] ∧ cursorsIn sel s (lineLimit (screenStarts ls r) r.text.length i) = []) ∧
      (sel.all SelRegion.isCaret = true → selectedIn sel s e = []) := by
  obtain ⟨⟨q, hq, s₁, o1⟩, q', hq', s₂, o2⟩ := hl
  have hfirst := first_le hs.inv hq
  have hlast := le_last hs.inv hq'
  have hsort := visualStarts_sorted r.text ls.breaks.text
  obtain ⟨b1, b2, b3, b4, b5⟩ := line_bounds hf h
  obtain ⟨g1, g2⟩ := h
  refine ⟨?_, ?_⟩
  · intro hi
    have hnone : ∀ x ∈ sel, x.hi < s ∨ e ≤ x.lo ∧ lineLimit (screenStarts ls r) r.text.length i ≤ x.lo := by
      intro x hx
      rcases hi with hi | hi
      · right
        have hn := (List.getElem?_eq_some_iff.1 o1.start).1
        have hx' : i + 1 < (screenStarts ls r).length := by omega
        have hle : (screenStarts ls r)[i + 1] ≤ s₁ := by
          by_cases hc : i + 1 = n
          · have := List.getElem?_eq_getElem hx'
            subst hc
            rw [o1.start] at this
            have := Option.some.inj this
            omega
          · exact Nat.le_of_lt (get_lt hsort (by omega : i + 1 < n) (List.getElem?_eq_getElem hx') o1.start)
        have hlo := hfirst x hx
        have := o1.le
        unfold lineLimit
        rw [List.getElem?_eq_getElem hx'] at g2 ⊢
        simp only [Option.getD_some] at g2 ⊢
        omega
      · left
        have hm : m + 1 < (screenStarts ls r).length := by
          have := (List.getElem?_eq_some_iff.1 g1).1
          omega
        have h1 := o2.lt _ (List.getElem?_eq_getElem hm)
        have hle : (screenStarts ls r)[m + 1] ≤ s := by
          by_cases hc : m + 1 = i
          · have := List.getElem?_eq_getElem hm
            subst hc
            rw [g1] at this
            have := Option.some.inj this
            omega
          · exact Nat.le_of_lt (get_lt hsort (by omega : m + 1 < i) (List.getElem?_eq_getElem hm) g1)
        have := hlast x hx
        omega
    have c1 : selectedIn sel s e = [] := by
      unfold selectedIn
      rw [List.filter_eq_nil_iff.2]
      · rfl
      · intro x hx
        have := hnone x hx
        simp only [decide_eq_true_eq]
        omega
    have c2 : cursorsIn sel s (lineLimit (screenStarts ls r) r.text.length i) = [] := by
      unfold cursorsIn
      rw [List.filter_eq_nil_iff.2]
      · rfl
      · intro x hx
        have := hnone x hx
        have hlo : x.lo ≤ x.stop := by simp only [SelRegion.lo]; omega
        have hst : x.stop ≤ x.hi := by simp only [SelRegion.hi]; omega
        simp only [decide_eq_true_eq]
        omega
    exact ⟨c1, c2⟩
  · intro hall
    have c1 : selectedIn sel s e = [] := by
      unfold selectedIn
      rw [List.filter_eq_nil_iff.2]
      · rfl
      · intro x hx
        have := List.all_eq_true.1 hall x hx
        simp only [SelRegion.isCaret, beq_iff_eq] at this
        simp only [SelRegion.lo, SelRegion.hi, this, Nat.min_self, Nat.max_self, decide_eq_true_eq]
        omega
    exact c1

/-- Showing a selection or none makes a difference only on its lines, and only in what it invalidates. -/
theorem blank_line (hf : Fits g ls r) (hc : CanEncode find styles ls r) {sel : Selection} (hs : Valid r sel) (he : EndOk r sel) {n m : Nat}
    (hl : SelLines ls r sel n m) {i s e : Nat} (h : ScreenLineAt ls r i s e) {num : Option Nat} {a b : ScreenLine (List UInt8) (List Int)}
    (ha : encodeLine find styleId styles r sel ⟨⟨s, e⟩, num⟩ = some a) (hb : encodeLine find styleId styles r [] ⟨⟨s, e⟩, num⟩ = some b) :
    (i < n ∨ m + 1 ≤ i → a = b) ∧ ChangedIn (View.invalidity sel) a b := by
  obtain ⟨spans, -, -, hk⟩ := encode_eq (styleId := styleId) hf hc h num
  have k1 := hk sel hs.inv hs.ok
  have k2 := hk [] List.Pairwise.nil (by simp)
  rw [ha] at k1
  rw [hb] at k2
  obtain rfl := Option.some.inj k1
  obtain rfl := Option.some.inj k2
  rw [shown_eq hc hs.ok he h]
  obtain ⟨f1, f2⟩ := blank_facts hf hs hl h
  refine ⟨?_, ?_⟩
  · intro hi
    obtain ⟨c1, c2⟩ := f1 hi
    rw [c1, c2]
    rfl
  · unfold View.invalidity
    split
    · rename_i hall
      refine ⟨fun _ => rfl, fun _ => ?_, by simp⟩
      rw [f2 hall]
      rfl
    · exact ⟨fun _ => rfl, by simp, by simp⟩

/-- The invalidations of a step. -/
def invalidateAll (l : List (Nat × Nat × Validity)) (shadow : LineCacheShadow) : LineCacheShadow :=
  l.foldl (fun s p => s.partialInvalidate p.1 p.2.1 p.2.2) shadow

theorem lines_order {s : Selection} {n m : Nat} (hs : Valid r s) (hl : SelLines ls r s n m) : n ≤ m + 1 := by
  obtain ⟨⟨q, hq, s₁, o1⟩, q', hq', s₂, o2⟩ := hl
  by_cases hc : n ≤ m + 1
  · exact hc
  · exfalso
    have hn := (List.getElem?_eq_some_iff.1 o1.start).1
    have hm : m + 1 < (screenStarts ls r).length := by omega
    have h1 := o2.lt _ (List.getElem?_eq_getElem hm)
    have := get_lt (visualStarts_sorted r.text ls.breaks.text) (by omega : m + 1 < n) (List.getElem?_eq_getElem hm) o1.start
    have := first_le hs.inv hq q' (mem_last hq')
    have := lo_le q'
    have := o1.le
    omega

/-- **C79.** Setting the selection invalidates everything that changes on the screen: with the
invalidations made, the shadow is as good as before (C57), with the new lines. -/
theorem C79_selection_step_partial (hf : Fits g ls r) (hc : CanEncode find styles ls r) {v : View} (hv : Valid r v.selection) {sel : Selection} (hs : Valid r sel)
    (he : EndOk r v.selection) (he' : EndOk r sel) {m : Missing} {st : ViewState (List UInt8) (List Int)} (hst : ViewReachable m st)
    (hcur : screen find styleId styles ls r v.selection = some st.cur) : ∃ v' inv cur', v.setSelectionRaw ls r sel = some v' ∧ v'.selection = sel ∧
      v'.inval = v.inval ++ inv ∧ screen find styleId styles ls r sel = some cur' ∧ ViewReachable m ⟨invalidateAll inv st.shadow, cur', st.client⟩ := by
  obtain ⟨n, k, n', k', h1, h2, h3⟩ := setRaw_eq hf hv hs
  obtain ⟨lines, l1, l2, l3⟩ := screen_eq (styleId := styleId) hf hc
  obtain ⟨cur, a1, a2, a3⟩ := l3 v.selection hv.inv hv.ok
  obtain ⟨cur0, b1, b2, b3⟩ := l3 [] List.Pairwise.nil (by simp)
  obtain ⟨cur', c1, c2, c3⟩ := l3 sel hs.inv hs.ok
  rw [a1] at hcur
  obtain rfl := Option.some.inj hcur
  have range : ∀ {s : Selection} {n m : Nat}, Valid r s → SelLines ls r s n m → n ≤ m + 1 := fun hs hl => lines_order hs hl
  have comp : ∀ {s : Selection} {n m : Nat} {x : List (ScreenLine (List UInt8) (List Int))}, Valid r s → EndOk r s → SelLines ls r s n m → x.length = lines.length →
      (∀ (i : Nat) L, x[i]? = some L → ∃ l, lines[i]? = some l ∧ encodeLine find styleId styles r s l = some L) → ∀ (i : Nat) a b, x[i]? = some a → cur0[i]? = some b →
      (i < n ∨ m + 1 ≤ i → a = b) ∧ ChangedIn (View.invalidity s) a b := by
    intro s n m x hs he hl hlen hx i a b ha hb
    obtain ⟨l, g1, g2⟩ := hx i a ha
    obtain ⟨l', g3, g4⟩ := b3 i b hb
    rw [g1] at g3
    obtain rfl := Option.some.inj g3
    exact blank_line hf hc hs he hl (l2 i l g1) g2 g4
  have same : ∀ {x y : List (ScreenLine (List UInt8) (List Int))} {i : Nat}, x.length = y.length → (∀ a b, x[i]? = some a → y[i]? = some b → a = b) → x[i]? = y[i]? := by
    intro x y i hl h
    by_cases hi : i < x.length
    · rw [List.getElem?_eq_getElem hi, List.getElem?_eq_getElem (hl ▸ hi)]
      rw [h _ _ (List.getElem?_eq_getElem hi) (List.getElem?_eq_getElem (hl ▸ hi))]
    · rw [List.getElem?_eq_none (by omega), List.getElem?_eq_none (by omega)]
  have r1 : ViewReachable m ⟨st.shadow.partialInvalidate n (k + 1) (View.invalidity v.selection), cur0, st.client⟩ :=
    .step st _ hst (.invalidate st n (k + 1) _ cur0 (range hv h1) (by omega)
      (fun i a b _ _ ha hb => (comp hv he h1 a2 a3 i a b ha hb).2)
      (fun i hi => (same (by omega) fun a b ha hb => (comp hv he h1 a2 a3 i a b ha hb).1 (by omega)).symm))
  have r2 : ViewReachable m ⟨(st.shadow.partialInvalidate n (k + 1) (View.invalidity v.selection)).partialInvalidate n' (k' + 1) (View.invalidity sel), cur', st.client⟩ :=
    .step _ _ r1 (.invalidate _ n' (k' + 1) _ cur' (range hs h2) (by show cur'.length = cur0.length; omega)
      (fun i a b _ _ ha hb => by
        obtain ⟨x, y, z⟩ := (comp hs he' h2 c2 c3 i b a hb ha).2
        exact ⟨fun h => (x h).symm, fun h => (y h).symm, fun h => (z h).symm⟩)
      (fun i hi => same (by show cur'.length = cur0.length; omega) fun a b ha hb => (comp hs he' h2 c2 c3 i a b ha hb).1 (by omega)))
  exact ⟨_, _, cur', h3, rfl, rfl, c1, r2⟩

/-- What an event leaves of a view: the selection is what it was, or it was set. -/
def Told (ls : Wrapping) (r : Rope) (v v' : View) : Prop :=
  v'.selection = v.selection ∧ v'.inval = v.inval ∨
    ∃ w w' : View, w.selection = v.selection ∧ w.inval = v.inval ∧ w.setSelectionRaw ls r v'.selection = some w' ∧ v'.inval = w'.inval

theorem scroll_keeps {v v' : View} (h : v.scrollToCursor ls r = some v') : v'.selection = v.selection ∧ v'.inval = v.inval := by
  simp only [View.scrollToCursor, Option.bind_eq_bind, Option.bind_eq_some_iff] at h
  obtain ⟨_, -, _, -, _, -, h⟩ := h
  obtain rfl := Option.some.inj h
  exact ⟨rfl, rfl⟩

theorem invalidate_keeps {v v' : View} (h : v.invalidateSelection ls r = some v') : v'.selection = v.selection := by
  simp only [View.invalidateSelection, Option.bind_eq_bind, Option.bind_eq_some_iff] at h
  obtain ⟨_, -, _, -, _, -, _, -, h⟩ := h
  obtain rfl := Option.some.inj h
  rfl

theorem told_raw {v w v' : View} (h1 : w.selection = v.selection) (h2 : w.inval = v.inval) {sel : Selection} (h : w.setSelectionRaw ls r sel = some v') :
    Told ls r v v' := by
  have hsel : v'.selection = sel := by
    simp only [View.setSelectionRaw, Option.bind_eq_bind, Option.bind_eq_some_iff] at h
    obtain ⟨_, -, h⟩ := h
    exact invalidate_keeps h
  exact .inr ⟨w, v', h1, h2, by rw [hsel]; exact h, rfl⟩

theorem told_set {v w v' : View} (h1 : w.selection = v.selection) (h2 : w.inval = v.inval) {sel : Selection} (h : w.setSelection ls r sel = some v') :
    Told ls r v v' := by
  simp only [View.setSelection, Option.bind_eq_bind, Option.bind_eq_some_iff] at h
  obtain ⟨w', g1, g2⟩ := h
  obtain ⟨g3, g4⟩ := scroll_keeps g2
  rcases told_raw h1 h2 g1 with ⟨k1, k2⟩ | ⟨x, x', k1, k2, k3, k4⟩
  · exact .inl ⟨g3.trans k1, g4.trans k2⟩
  · exact .inr ⟨x, x', k1, k2, by rw [g3]; exact k3, g4.trans k4⟩

theorem told_selectUnit {v v' : View} {o : Nat} {gr : Granularity} {multi : Bool} (h : v.selectUnit ls r o gr multi = some v') : Told ls r v v' := by
  simp only [View.selectUnit, Option.bind_eq_bind, Option.bind_eq_some_iff] at h
  obtain ⟨_, -, _, -, w, h1, h2⟩ := h
  obtain rfl := Option.some.inj h2
  exact (told_set (v := v) rfl rfl h1 : Told ls r v w)

theorem told_select {v v' : View} {o : Nat} {gr : Granularity} {multi : Bool} (h : v.select ls r o gr multi = some v') : Told ls r v v' := by
  unfold View.select at h
  by_cases hc : multi = true ∧ gr = .point
  · rw [if_pos hc] at h
    simp only [Option.bind_eq_bind, Option.bind_eq_some_iff] at h
    obtain ⟨⟨w, removed⟩, h1, h2⟩ := h
    simp only [View.deselectAtOffset, Option.bind_eq_bind, Option.bind_eq_some_iff] at h1
    obtain ⟨l, -, h1⟩ := h1
    by_cases c1 : l.isEmpty
    · rw [if_pos c1] at h1
      cases h1
      exact told_selectUnit h2
    · rw [if_neg c1] at h1
      simp only [Option.bind_eq_some_iff] at h1
      obtain ⟨sel, -, h1⟩ := h1
      by_cases c2 : sel.isEmpty
      · rw [if_pos c2] at h1
        cases h1
        exact told_selectUnit h2
      · rw [if_neg c2] at h1
        simp only [Option.bind_eq_some_iff] at h1
        obtain ⟨w', h3, h4⟩ := h1
        cases h4
        cases h2
        exact told_raw (w := { v with drag := none }) rfl rfl h3
  · rw [if_neg hc] at h
    exact told_selectUnit h

theorem told_gesture {v v' : View} {line col : Nat} {ty : GestureType} (h : v.doGesture g ls r line col ty = some v') : Told ls r v v' := by
  simp only [View.doGesture, Option.bind_eq_bind, Option.bind_eq_some_iff] at h
  obtain ⟨o, -, h⟩ := h
  cases ty with
  | select gr multi => exact told_select h
  | selectExtend gr =>
    have h : v.extendSelection ls r o gr = some v' := h
    unfold View.extendSelection at h
    cases hl : v.selection.getLast? with
    | none => rw [hl] at h; cases h; exact .inl ⟨rfl, rfl⟩
    | some last =>
      rw [hl] at h
      simp only [Option.bind_eq_bind, Option.bind_eq_some_iff] at h
      obtain ⟨_, -, _, -, _, -, h⟩ := h
      exact told_set (w := { v with drag := some _ }) rfl rfl h
  | drag =>
    have h : v.doDrag ls r o = some v' := h
    unfold View.doDrag at h
    cases hd : v.drag with
    | none => rw [hd] at h; cases h; exact .inl ⟨rfl, rfl⟩
    | some d =>
      rw [hd] at h
      simp only [Option.bind_eq_bind, Option.bind_eq_some_iff] at h
      obtain ⟨_, -, _, -, h⟩ := h
      exact told_set rfl rfl h
  | _ => cases h; exact .inl ⟨rfl, rfl⟩

/-- Every event sets the selection, if it does anything to it, in a way that tells the shadow. -/
theorem told_event {v v' : View} (e : Event) (h : v.doEdit g ls r e = some v') : Told ls r v v' := by
  have hmove : ∀ m b, v.doMove g ls r m b = some v' → Told ls r v v' := by
    intro m b h
    simp only [View.doMove, Option.bind_eq_bind, Option.bind_eq_some_iff] at h
    obtain ⟨_, -, h⟩ := h
    exact told_set (w := { v with drag := none }) rfl rfl h
  have hadd : ∀ m, v.addSelectionByMovement g ls r m = some v' → Told ls r v v' := by
    intro m h
    simp only [View.addSelectionByMovement, Option.bind_eq_bind, Option.bind_eq_some_iff] at h
    obtain ⟨_, -, h⟩ := h
    exact told_set rfl rfl h
  cases e with
  | move m => exact hmove m _ h
  | modifySelection m => exact hmove m _ h
  | selectAll => exact told_raw rfl rfl h
  | scroll first last =>
    simp only [View.doEdit, View.setScroll] at h
    split at h
    · cases h; exact .inl ⟨rfl, rfl⟩
    · cases h
  | addSelectionAbove => exact hadd _ h
  | addSelectionBelow => exact hadd _ h
  | gesture line col ty => exact told_gesture h
  | gotoLine line =>
    simp only [View.doEdit, View.gotoLine, Option.bind_eq_bind, Option.bind_eq_some_iff] at h
    obtain ⟨_, -, h⟩ := h
    exact told_set rfl rfl h
  | click line col flags count => exact told_gesture h
  | drag line col => exact told_gesture (g := g) (line := line) (col := col) (ty := .drag) h
  | collapseSelections =>
    simp only [View.doEdit, View.collapseSelections, Option.bind_eq_bind, Option.bind_eq_some_iff] at h
    obtain ⟨_, -, h⟩ := h
    exact told_set rfl rfl h
  | selectionIntoLines =>
    simp only [View.doEdit, View.splitIntoLines, Option.bind_eq_bind, Option.bind_eq_some_iff] at h
    obtain ⟨_, -, h⟩ := h
    exact told_raw rfl rfl h

/-- **C79.** The same for every event: what changes on the screen is invalidated. -/
theorem C79_event_partial (hf : Fits g ls r) (hc : CanEncode find styles ls r) {v : View} (hv : Good r v) (e : Event) (hsafe : e.Safe ls r v)
    {m : Missing} {st : ViewState (List UInt8) (List Int)} (hst : ViewReachable m st) (he : EndOk r v.selection)
    (hcur : screen find styleId styles ls r v.selection = some st.cur) : ∃ v' inv cur', v.doEdit g ls r e = some v' ∧ Good r v' ∧ v'.inval = v.inval ++ inv ∧
      screen find styleId styles ls r v'.selection = some cur' ∧ (EndOk r v'.selection → ViewReachable m ⟨invalidateAll inv st.shadow, cur', st.client⟩) := by
  obtain ⟨v', h1, h2⟩ := C78_keeps_partial hf hv e hsafe
  rcases told_event e h1 with ⟨k1, k2⟩ | ⟨w, w', k1, k2, k3, k4⟩
  · exact ⟨v', [], st.cur, h1, h2, by simp [k2], by rw [k1]; exact hcur, fun _ => hst⟩
  · by_cases he' : EndOk r v'.selection
    · obtain ⟨x, inv, cur', g1, g2, g3, g4, g5⟩ := C79_selection_step_partial (v := w) (by exact hf) hc (by rw [k1]; exact hv.selection) h2.selection
        (by rw [k1]; exact he) he' hst (by rw [k1]; exact hcur)
      rw [k3] at g1
      obtain rfl := Option.some.inj g1
      exact ⟨v', inv, cur', h1, h2, by rw [k4, g3, k2], g4, fun _ => g5⟩
    · obtain ⟨_, _, _, _, _, _, e3⟩ := setRaw_eq (v := w) hf (by rw [k1]; exact hv.selection) h2.selection
      rw [k3] at e3
      obtain rfl := Option.some.inj e3
      obtain ⟨lines, -, -, l3⟩ := screen_eq (styleId := styleId) hf hc
      obtain ⟨cur', c1, -⟩ := l3 v'.selection h2.selection.inv h2.selection.ok
      exact ⟨v', _, cur', h1, h2, by rw [k4, ← k2], c1, fun h => absurd h he'⟩

/-- **C79.** A whole session with a text that does not end with a newline: the view does not crash,
and when it is rendered afterwards, the front end shows what the new selection looks like in the window (see C57). -/
theorem C79_session_partial (hf : Fits g ls r) (hc : CanEncode find styles ls r) (hn : ¬ LineBoundary r.text r.text.length) {m : Missing} : ∀ (es : List Event) {v : View}
    {st : ViewState (List UInt8) (List Int)}, Good r v → ViewReachable m st → screen find styleId styles ls r v.selection = some st.cur →
    (∀ pre e post w, es = pre ++ e :: post → pre.foldlM (fun v e => View.doEdit g ls r v e) v = some w → e.Safe ls r w) →
    ∃ v' inv cur', es.foldlM (fun v e => View.doEdit g ls r v e) v = some v' ∧ v'.inval = v.inval ++ inv ∧
      screen find styleId styles ls r v'.selection = some cur' ∧ ViewReachable m ⟨invalidateAll inv st.shadow, cur', st.client⟩ ∧
      ∀ firstLine height, ∃ shadow' ops client', renderIfDirty cur' (invalidateAll inv st.shadow) firstLine height = some (shadow', ops) ∧
        applyUpdate m st.client ops 0 = some client' ∧
        Shown m cur' client' (fun i => min firstLine cur'.length ≤ i + 2 ∧ i < min firstLine cur'.length + height + 2)
  | [], v, st, hv, hst, hcur, _ => ⟨v, [], st.cur, rfl, by simp, hcur, hst, fun f h => by
      obtain ⟨a, b, c, h1, h2, -, h3⟩ := C57_render_partial hst f h
      exact ⟨a, b, c, h1, h2, h3⟩⟩
  | e :: es, v, st, hv, hst, hcur, hs => by
    obtain ⟨w, inv, cur, h1, h2, h3, h4, h5⟩ := C79_event_partial hf hc hv e (hs [] e es v rfl rfl) hst (fun h => absurd h hn) hcur
    obtain ⟨v', inv', cur', g1, g2, g3, g4, g5⟩ := C79_session_partial hf hc hn es h2 (h5 fun h => absurd h hn) h4
      fun pre e' post x he hx => hs (e :: pre) e' post x (by simp [he]) (by simp [h1, hx])
    have hall : invalidateAll inv' (invalidateAll inv st.shadow) = invalidateAll (inv ++ inv') st.shadow := by simp [invalidateAll]
    rw [hall] at g4 g5
    exact ⟨v', inv ++ inv', cur', by simp [h1, g1], by rw [g2, h3, List.append_assoc], g3, g4, g5⟩

end

/-! ## Examples and refutations -/

/-- Two styled words in the first eleven bytes. -/
def someStyles : SpansTree Nat := ((SpansExpr.build 15 [⟨⟨0, 3⟩, 5⟩, ⟨⟨4, 11⟩, 6⟩]).eval).get (by decide +kernel)

theorem someStyles_ok : CanEncode [[.new 4 7]] someStyles (noWrap gestureText) gestureText := by
  obtain ⟨n, spans, e1, e2, e3, -⟩ := C36_spans (.build 15 [⟨⟨0, 3⟩, (5 : Nat)⟩, ⟨⟨4, 11⟩, 6⟩]) _ ⟨by decide, rfl⟩
  have : n = someStyles := by
    unfold someStyles
    simp [e1]
  subst this
  refine ⟨by simp [Selection.Inv], e2, by decide +kernel, ?_⟩
  show ¬ BreakAt (Breaks.newNoBreak gestureText.text.length).text gestureText.text.length
  rw [newNoBreak_text]
  exact breakAt_blank _ _

/-- The hypotheses are met, and this is what is sent of "foo bar\nbaz\nqux" with a selection of
"r\nba" and a caret, the query "bar", and two styles. -/
example : CanEncode [[.new 4 7]] someStyles (noWrap gestureText) gestureText ∧ Valid gestureText [.new 6 10, .caret 14] ∧
    ¬ LineBoundary gestureText.text gestureText.text.length ∧
    (screen [[.new 4 7]] id someStyles (noWrap gestureText) gestureText [.new 6 10, .caret 14]).map (·.map fun L => (L.styles, L.cursor)) =
      some [([4, 3, 1, -1, 2, 0, -8, 3, 5, 1, 4, 6], []), ([0, 2, 0, -2, 3, 6], [2]), ([], [2])] :=
  ⟨someStyles_ok, ⟨by simp, by simp [Selection.Inv, Before, SelRegion.new, SelRegion.caret, SelRegion.lo, SelRegion.hi], by
    intro q hq
    simp only [List.mem_cons, List.not_mem_nil, or_false] at hq
    rcases hq with rfl | rfl
    · exact small_region (by decide +kernel) (by decide +kernel)
    · exact small_region (by decide +kernel) (by decide +kernel)⟩, by unfold LineBoundary; decide +kernel, by decide +kernel⟩

/-- No styles. -/
def plainStyles (n : Nat) : Option (SpansTree Nat) := (SpansExpr.build n []).eval

/-- The cursors of the lines of a text with a selection. -/
def cursorsOf (r : Rope) (sel : Selection) : Option (List (List Nat)) := do
  return (← screen [] id (← plainStyles r.len) (noWrap r) r sel).map (·.cursor)

/-- C79 fails at the end of a text that ends with a newline: the cursor is shown twice, on the last
line and at the end of the line before (view.rs:637). -/
theorem C79_twice_refuted : ∃ r : Rope, r.Balanced ∧ Valid r [.caret 4] ∧ screenStarts (noWrap r) r = [0, 4] ∧ cursorsOf r [.caret 4] = some [[4], [0]] :=
  ⟨smallRope "abc\n", small_balanced (by decide +kernel), Valid.single (small_region (by decide +kernel) (by decide +kernel)), by decide +kernel, by decide +kernel⟩

/-- A view that was rendered, then had its selection set to `sel'`, and was rendered again. -/
def afterSet (r : Rope) (sel sel' : Selection) : Option (List (ScreenLine (List UInt8) (List Int)) × List (Option (ScreenLine (List UInt8) (List Int)))) := do
  let styles ← plainStyles r.len
  let cur ← screen [] id styles (noWrap r) r sel
  let (shadow, ops) ← renderIfDirty cur (.allDirty cur.length) 0 10
  let client ← applyUpdate .clear [] ops 0
  let v ← (viewOf sel).setSelectionRaw (noWrap r) r sel'
  let cur' ← screen [] id styles (noWrap r) r sel'
  let (_, ops) ← renderIfDirty cur' (invalidateAll v.inval shadow) 0 10
  return (cur', ← applyUpdate .clear client ops 0)

/-- C79 fails likewise when the selection changes: a second cursor at the end of the text stays on
the screen when the cursor moves to its start, since the line it is on is not invalidated. -/
theorem C79_ghost_refuted : ∃ r : Rope, r.Balanced ∧ Valid r [.caret 4] ∧ Valid r [.caret 0] ∧
    (afterSet r [.caret 4] [.caret 0]).map (fun p => (p.1.map (·.cursor), p.2.map (·.map (·.cursor)))) =
      some ([[0], [], []], [some [0], some [2], some []]) :=
  ⟨smallRope "a\nb\n", small_balanced (by decide +kernel), Valid.single (small_region (by decide +kernel) (by decide +kernel)),
    Valid.single (small_region (by decide +kernel) (by decide +kernel)), by decide +kernel⟩

/-- With a text that does not end with a newline all is well, as it has to be. -/
example : (afterSet (smallRope "a\nb\nc") [.new 0 5] [.caret 0]).map (fun p => decide (p.1.map some = p.2)) = some true := by decide +kernel

end Xi.Gesture
