import Verif.Spec.Hover
import Verif.Props.Lsp

/-!
# Hovers (lsp-lib/src/conversion_utils.rs): C103
-/

namespace Xi

namespace Lsp

open Plugin Find

theorem rowsOf_ne (s : List Char) : rowsOf s ≠ [] := by
  cases s with
  | nil => simp [rowsOf]
  | cons c s =>
    rw [rowsOf]
    split
    · simp
    · split <;> simp

theorem rowsOf_append (a b : List Char) : rowsOf (a ++ '\n' :: b) = rowsOf a ++ rowsOf b := by
  induction a with
  | nil => simp [rowsOf]
  | cons c a ih =>
    rw [List.cons_append, rowsOf, rowsOf]
    split
    · rw [ih]; rfl
    · rw [ih]
      cases h : rowsOf a with
      | nil => exact absurd h (rowsOf_ne a)
      | cons row rows => rfl

theorem rowsOf_single {a : List Char} (h : '\n' ∉ a) : rowsOf a = [a] := by
  induction a with
  | nil => rfl
  | cons c a ih =>
    simp only [List.mem_cons, not_or] at h
    rw [rowsOf, if_neg (Ne.symm h.1), ih h.2]

theorem readRows_text {rows : List (List Char)} (h : ∀ row ∈ rows, ¬ Opens row) (rest : List (List Char)) :
    readRows none (rows ++ rest) = rows.map .text ++ readRows none rest := by
  induction rows with
  | nil => rfl
  | cons row rows ih =>
    rw [List.cons_append, readRows, if_neg (h row (by simp)), ih (fun r hr => h r (by simp [hr]))]
    rfl

theorem readRows_code {n : Nat} {language : List Char} {rows : List (List Char)} (h : ∀ row ∈ rows, ¬ Closes n row) {last : List Char} (hl : Closes n last)
    (rest : List (List Char)) : ∀ before, readRows (some (n, language, before)) (rows ++ last :: rest) = .code language (before ++ rows) :: readRows none rest := by
  induction rows with
  | nil => intro before; rw [List.nil_append, readRows, if_pos hl, List.append_nil]
  | cons row rows ih =>
    intro before
    rw [List.cons_append, readRows, if_neg (h row (by simp)), ih (fun r hr => h r (by simp [hr]))]
    simp

theorem ticks_fence {language : List Char} (h : '`' ∉ language) : ticks ('`' :: '`' :: '`' :: language) = 3 := by
  have : language.takeWhile (fun c => c == '`') = [] := by
    cases language with
    | nil => rfl
    | cons c l =>
      simp only [List.mem_cons, not_or] at h
      rw [List.takeWhile_cons_of_neg]
      simpa using Ne.symm h.1
  simp [ticks, this]

theorem read_marked {m : MarkedString} (h : Tame m) (rest : List (List Char)) : readRows none (rowsOf (markedToString m) ++ rest) = meant m ++ readRows none rest := by
  cases m with
  | string text => exact readRows_text h rest
  | code language value =>
    obtain ⟨h1, h2, h3⟩ := h
    have e : markedToString (.code language value) = ('`' :: '`' :: '`' :: language) ++ '\n' :: (value ++ '\n' :: ['`', '`', '`']) := by simp [markedToString]
    have e1 : rowsOf ('`' :: '`' :: '`' :: language) = ['`' :: '`' :: '`' :: language] := rowsOf_single (by simpa using h2)
    have e2 : rowsOf ['`', '`', '`'] = [['`', '`', '`']] := by decide
    have ho : Opens ('`' :: '`' :: '`' :: language) := by
      refine ⟨by rw [ticks_fence h1]; omega, ?_⟩
      rw [ticks_fence h1]
      exact h1
    rw [e, rowsOf_append, rowsOf_append, e1, e2]
    simp only [List.cons_append, List.nil_append, List.append_assoc]
    rw [readRows, if_pos ho, ticks_fence h1, readRows_code h3 (by decide) rest []]
    rfl

theorem join_rows : ∀ (l : List (List Char)), l ≠ [] → rowsOf (joinWith ['\n'] l) = l.flatMap rowsOf
  | [], h => absurd rfl h
  | [s], _ => by simp [joinWith]
  | s :: t :: l, _ => by
    rw [joinWith, List.append_assoc]
    · rw [show ['\n'] ++ joinWith ['\n'] (t :: l) = '\n' :: joinWith ['\n'] (t :: l) from rfl, rowsOf_append, join_rows (t :: l) (by simp)]
      rfl
    · simp

theorem read_all : ∀ {l : List MarkedString}, (∀ m ∈ l, Tame m) → readRows none (l.flatMap fun m => rowsOf (markedToString m)) = l.flatMap meant
  | [], _ => rfl
  | m :: l, h => by
    rw [List.flatMap_cons, read_marked (h m (by simp)), read_all (fun m hm => h m (by simp [hm]))]
    rfl

/-- The parts of an answer. -/
def partsOf : HoverContents → List MarkedString
  | .scalar content => [content]
  | .array content => content
  | .markup _ _ => []

/-- **C103.**  What the front end shows reads as the parts of the answer one after the other, code as code of its language and
text as text; if no part has a fence in it. -/
theorem C103_text_partial {contents : HoverContents} (hm : ∀ plain value, contents ≠ .markup plain value) (ht : ∀ m ∈ partsOf contents, Tame m) {text : List Char}
    (h : markdown contents = .ok text) : readMarkdown text = (partsOf contents).flatMap meant := by
  have hx : text = hoverText contents ∧ hoverText contents ≠ [] := by
    unfold markdown at h
    simp only at h
    split at h
    · cases h
    · rename_i hne
      cases h
      exact ⟨rfl, by simpa using hne⟩
  obtain ⟨rfl, hne⟩ := hx
  cases contents with
  | markup plain value => exact absurd rfl (hm plain value)
  | scalar m =>
    have := read_marked (ht m (by simp [partsOf])) []
    simpa [readMarkdown, hoverText, partsOf, readRows] using this
  | array l =>
    have hl : l.map markedToString ≠ [] := by
      intro h0
      simp only [hoverText, h0] at hne
      exact hne rfl
    rw [readMarkdown, hoverText, join_rows _ hl, List.flatMap_map]
    exact read_all ht

/-- **C103.**  Markup is shown as it is. -/
theorem C103_markup (plain : Bool) {value : List Char} (h : value ≠ []) : markdown (.markup plain value) = .ok value := by
  cases value with
  | nil => exact absurd rfl h
  | cons c v => rfl

/-- **C103.**  An answer counts as none if there is no text in it, and only then. -/
theorem C103_empty (contents : HoverContents) : markdown contents = .error .fallback ↔
    contents = .scalar (.string []) ∨ contents = .array [] ∨ contents = .array [.string []] ∨ ∃ plain, contents = .markup plain [] := by
  have key : markdown contents = .error .fallback ↔ hoverText contents = [] := by
    unfold markdown
    simp only
    split
    · rename_i h; simpa using h
    · rename_i h; simpa using h
  have hm : ∀ m, markedToString m = [] ↔ m = .string [] := by
    intro m
    cases m with
    | string t => simp [markedToString]
    | code l v => simp [markedToString]
  rw [key]
  cases contents with
  | scalar m => simp [hoverText, hm]
  | markup plain v => simp [hoverText]
  | array l =>
    match l with
    | [] => simp [hoverText, joinWith]
    | [m] => simp [hoverText, joinWith, hm]
    | m :: m' :: l => simp [hoverText, joinWith]

/-- **C103.**  Whatever the server answers, the front end is shown something only if the server has sent something: the text is not empty. -/
theorem C103_shown {source : Source} {size : Nat} {c c' : ChunkCache} {answer : Except Unit (Option Hover)} {res : Except HoverError CoreHover}
    (h : answerHover source size c answer = some (c', res)) {text : List Char} (hs : showHover res = some text) :
    text ≠ [] ∧ ∃ hover, answer = .ok (some hover) ∧ markdown hover.contents = .ok text := by
  cases answer with
  | error e => simp only [answerHover, Option.some.injEq, Prod.mk.injEq] at h; rw [← h.2] at hs; cases hs
  | ok o =>
    cases o with
    | none => simp only [answerHover, Option.some.injEq, Prod.mk.injEq] at h; rw [← h.2] at hs; cases hs
    | some hover =>
      have key : markdown hover.contents = .ok text := by
        simp only [answerHover, coreHover] at h
        repeat' split at h
        all_goals first
          | cases h; done
          | (simp only [Option.some.injEq, Prod.mk.injEq] at h
             rw [← h.2] at hs
             first
               | cases hs; done
               | (simp only [showHover, Option.some.injEq] at hs; subst hs; assumption))
      refine ⟨?_, hover, rfl, key⟩
      rintro rfl
      unfold markdown at key
      simp only at key
      split at key
      · cases key
      · rename_i hne
        cases e : hoverText hover.contents with
        | nil => rw [e] at hne; exact hne rfl
        | cons a b => rw [e] at key; cases key

/-! ## The range -/

/-- The shortest beginning of a line that has that many UTF-16 code units, or all of it. -/
def firstUnits : Nat → List Char → List Char
  | _, [] => []
  | 0, _ :: _ => []
  | n + 1, c :: cs => c :: firstUnits (n + 1 - utf16Len c) cs

theorem firstUnits_prefix : ∀ (n : Nat) (cs : List Char), firstUnits n cs <+: cs
  | _, [] => by simp [firstUnits]
  | 0, _ :: _ => by simp [firstUnits]
  | n + 1, c :: cs => by
    rw [firstUnits]
    exact (List.cons_prefix_cons).2 ⟨rfl, firstUnits_prefix _ cs⟩

theorem firstUnits_mono : ∀ {n m : Nat} (_ : n ≤ m) (cs : List Char), firstUnits n cs <+: firstUnits m cs
  | _, _, _, [] => by simp [firstUnits]
  | 0, _, _, _ :: _ => by simp [firstUnits]
  | n + 1, 0, h, _ :: _ => by omega
  | n + 1, m + 1, h, c :: cs => by
    rw [firstUnits, firstUnits]
    exact (List.cons_prefix_cons).2 ⟨rfl, firstUnits_mono (by omega) cs⟩

theorem lenUtf16_eq (b : Char) : lenUtf16 b = utf16Len b := by
  unfold lenUtf16 utf16Len
  repeat' split
  all_goals omega

theorem walk_eq : ∀ (cs : List Char) (n m l : Nat), walk n cs m l = l + (enc (firstUnits (n - m) cs)).length
  | [], n, m, l => by simp [walk, firstUnits, enc]
  | c :: cs, n, m, l => by
    rw [walk]
    split
    · rw [show n - m = 0 by omega]
      simp [firstUnits, enc]
    · obtain ⟨k, hk⟩ : ∃ k, n - m = k + 1 := ⟨n - m - 1, by omega⟩
      rw [walk_eq cs, hk, firstUnits, enc_cons, List.length_append, lenUtf16_eq, show n - (m + utf16Len c) = k + 1 - utf16Len c by omega]
      omega

section

variable {source : Source} {size : Nat} {r : Rope} {c : ChunkCache}

/-- A line of the document as characters. -/
theorem line_parts {t : List UInt8} (ht : Utf8 t) {n : Nat} : ∃ P L Y, t = enc (P ++ L ++ Y) ∧ lineBegin t n = (enc P).length ∧
    part t (lineBegin t n) (lineBegin t (n + 1)) = enc L ∧ lineBegin t (n + 1) = (enc (P ++ L)).length := by
  obtain ⟨P, D, h1, h2⟩ := boundary_lineBegin ht n
  obtain ⟨C, Y, h3, h4⟩ := boundary_lineBegin ht (n + 1)
  have hm := lineBegin_mono (t := t) (Nat.le_succ n)
  obtain ⟨L, e1, e2⟩ := cut_prefix (a := P) (b := D) (a' := C) (b' := Y) (h1.symm.trans h3) (by rw [h2, h4] at hm; exact hm)
  subst e1 e2
  refine ⟨P, L, Y, ?_, h2, ?_, h4⟩
  · exact h3.trans (enc_append (P ++ L) Y).symm
  · rw [part, h2, h4, h3]
    show ((enc (P ++ L) ++ enc Y).take (enc (P ++ L)).length).drop (enc P).length = _
    rw [List.take_left, enc_append, List.drop_left]

/-- The place of any position: there is none if there is no such line.  Otherwise it is on the line or at its end. -/
theorem place_any (h : Reading source size r c.rev) (hc : Coherent c r.text) (p : Position) :
    (r.text.count newline < p.line → ReadOk source size r c (offsetOfPosition source size c p) none) ∧
    (p.line ≤ r.text.count newline → ∃ P L Y, r.text = enc (P ++ L ++ Y) ∧ lineBegin r.text p.line = (enc P).length ∧
      part r.text (lineBegin r.text p.line) (lineBegin r.text (p.line + 1)) = enc L ∧
      lineBegin r.text (p.line + 1) = (enc (P ++ L)).length ∧ ReadOk source size r c (offsetOfPosition source size c p) (some (enc (P ++ firstUnits p.character L)).length)) := by
  obtain ⟨c1, x, e1, s1, hx⟩ := C42_offset_of_line h hc p.line
  have r1 : Reading source size r c1.rev := by rw [s1.rev]; exact h
  have l3 := C42_get_line r1 s1.coh p.line
  constructor
  · intro hl
    rw [if_neg (by omega)] at l3
    rw [offsetOfPosition, e1]
    show ReadOk source size r c (andThen (c1.getLine source size p.line) fun c line => some (c, x.map fun o => walk p.character (chars line) 0 0 + o)) _
    obtain ⟨c', y, e, s', hy⟩ := then_none (β := Nat) (f := fun c line => some (c, x.map fun o => walk p.character (chars line) 0 0 + o)) l3
    refine ⟨c', y, e, ⟨s'.coh, by rw [s'.rev, s1.rev]⟩, ?_⟩
    rcases hy with rfl | ⟨rfl, hn⟩
    · exact .inl rfl
    · exact .inl rfl
  · intro hl
    obtain ⟨P, L, Y, g1, g2, g3, g4⟩ := line_parts (Rope.text_utf8 h.bal) (n := p.line)
    refine ⟨P, L, Y, g1, g2, g3, g4, ?_⟩
    rw [if_pos hl, g3] at l3
    rw [if_pos (by omega), g2] at hx
    rw [offsetOfPosition, e1]
    show ReadOk source size r c (andThen (c1.getLine source size p.line) fun c line => some (c, x.map fun o => walk p.character (chars line) 0 0 + o)) _
    obtain ⟨c', y, e, s', hy⟩ := then_some (f := fun c line => some (c, x.map fun o => walk p.character (chars line) 0 0 + o))
        (v := x.map fun _ => (enc (P ++ firstUnits p.character L)).length) l3 fun c' s' => by
      refine ⟨c', _, rfl, ⟨s'.coh, rfl⟩, .inl ?_⟩
      cases x with
      | none => rfl
      | some o =>
        rcases hx with hx | ⟨hx, -⟩
        · cases hx
          rw [Option.map_some, Option.map_some, chars_enc, walk_eq, enc_append, List.length_append, Nat.sub_zero]
          congr 1
          omega
        · cases hx
    refine ⟨c', y, e, ⟨s'.coh, by rw [s'.rev, s1.rev]⟩, ?_⟩
    rcases hx with rfl | ⟨rfl, hn⟩
    · rcases hy with rfl | ⟨rfl, hn⟩
      · exact .inl rfl
      · exact .inr ⟨rfl, by rw [← s1.rev]; exact hn⟩
    · refine .inr ⟨?_, hn⟩
      rcases hy with rfl | ⟨rfl, -⟩ <;> rfl

/-- **C103.**  The range of a hover is where the server means it to be: from the place after `A` to the place after `A'`. -/
theorem C103_range (h : Reading source size r c.rev) (hc : Coherent c r.text) {A B A' B' : List Char} (h1 : r.text = enc (A ++ B)) (h2 : r.text = enc (A' ++ B')) :
    ReadOk source size r c (coreRange source size c (positionOf (A ++ B) A.length, positionOf (A' ++ B') A'.length)) (some ((enc A).length, (enc A').length)) :=
  then_some (C74_offset h hc h1) fun c1 s1 =>
    then_some (C74_offset (by rw [s1.rev]; exact h) s1.coh h2) fun c2 s2 => ⟨c2, _, rfl, ⟨s2.coh, rfl⟩, .inl rfl⟩

/-- The place of a position, if there is one, is in the text, between two characters and on the line or at its end. -/
def PlaceIn (t : List UInt8) (p : Position) (o : Nat) : Prop :=
  p.line ≤ t.count newline ∧ CharBoundary t o ∧ lineBegin t p.line ≤ o ∧ o ≤ lineBegin t (p.line + 1)

/-- The place of a position as it is computed. -/
def placeOf (t : List UInt8) (p : Position) : Nat :=
  lineBegin t p.line + (enc (firstUnits p.character (chars (part t (lineBegin t p.line) (lineBegin t (p.line + 1)))))).length

theorem place_some (h : Reading source size r c.rev) (hc : Coherent c r.text) (p : Position) :
    ReadOk source size r c (offsetOfPosition source size c p) (if p.line ≤ r.text.count newline then some (placeOf r.text p) else none) ∧
      (p.line ≤ r.text.count newline → PlaceIn r.text p (placeOf r.text p)) := by
  obtain ⟨h1, h2⟩ := place_any h hc p
  by_cases hl : p.line ≤ r.text.count newline
  · obtain ⟨P, L, Y, g1, g2, g3, g4, g5⟩ := h2 hl
    obtain ⟨Z, hz⟩ := firstUnits_prefix p.character L
    have hlen : (enc L).length = (enc (firstUnits p.character L)).length + (enc Z).length := by
      have := congrArg (fun l => (enc l).length) hz
      simp only [enc_append, List.length_append] at this
      exact this.symm
    have hp : placeOf r.text p = (enc (P ++ firstUnits p.character L)).length := by
      rw [placeOf, g3, chars_enc, g2, enc_append, List.length_append]
    rw [if_pos hl, hp]
    refine ⟨g5, fun _ => ⟨hl, ⟨P ++ firstUnits p.character L, Z ++ Y, ?_, rfl⟩, ?_, ?_⟩⟩
    · show r.text = enc _ ++ enc _
      rw [g1, ← enc_append]
      congr 1
      rw [List.append_assoc, List.append_assoc, ← List.append_assoc (firstUnits p.character L), hz]
    · rw [g2, enc_append, List.length_append]; omega
    · rw [g4, enc_append, enc_append, List.length_append, List.length_append]; omega
  · rw [if_neg hl]
    exact ⟨h1 (by omega), fun h => absurd h hl⟩

/-- **C103.**  Whatever range a server sends, nothing panics.  It is an error exactly if there is no such line.  Otherwise the places are in the
text and between characters, and in order if the positions are. -/
theorem C103_any_range (h : Reading source size r c.rev) (hc : Coherent c r.text) (p q : Position) :
    ∃ v, ReadOk source size r c (coreRange source size c (p, q)) v ∧ (v = none ↔ r.text.count newline < p.line ∨ r.text.count newline < q.line) ∧
      ∀ s e, v = some (s, e) → PlaceIn r.text p s ∧ PlaceIn r.text q e ∧ (p.Le q → s ≤ e) := by
  obtain ⟨a1, a2⟩ := place_some h hc p
  by_cases hp : p.line ≤ r.text.count newline
  · rw [if_pos hp] at a1
    by_cases hq : q.line ≤ r.text.count newline
    · refine ⟨some (placeOf r.text p, placeOf r.text q), ?_, by simp; omega, ?_⟩
      · refine then_some a1 fun c1 s1 => ?_
        have b1 := (place_some (c := c1) (by rw [s1.rev]; exact h) s1.coh q).1
        rw [if_pos hq] at b1
        exact then_some b1 fun c2 s2 => ⟨c2, _, rfl, ⟨s2.coh, rfl⟩, .inl rfl⟩
      · intro s e hv
        cases hv
        have k1 := a2 hp
        have k2 := (place_some h hc q).2 hq
        refine ⟨k1, k2, ?_⟩
        rintro (hlt | ⟨hle, hch⟩)
        · have := lineBegin_mono (t := r.text) (show p.line + 1 ≤ q.line by omega)
          have := k1.2.2.2
          have := k2.2.2.1
          omega
        · obtain ⟨Z, hz⟩ := firstUnits_mono hch (chars (part r.text (lineBegin r.text p.line) (lineBegin r.text (p.line + 1))))
          rw [placeOf, placeOf, ← hle, ← hz, enc_append, List.length_append]
          omega
    · refine ⟨none, ?_, by simp; omega, by simp⟩
      refine then_some a1 fun c1 s1 => ?_
      have b1 := (place_some (c := c1) (by rw [s1.rev]; exact h) s1.coh q).1
      rw [if_neg hq] at b1
      exact then_none b1
  · rw [if_neg hp] at a1
    exact ⟨none, then_none a1, by simp; omega, by simp⟩

end

/-- **C103.**  The core gets a range exactly if the server has sent one, and then the one of `C103_range`. -/
theorem C103_place {source : Source} {size : Nat} {c c' : ChunkCache} {hover : Hover} {res : CoreHover}
    (h : answerHover source size c (.ok (some hover)) = some (c', .ok res)) :
    (hover.range = none ∧ res.range = none ∧ c' = c) ∨
      ∃ range r, hover.range = some range ∧ res.range = some r ∧ coreRange source size c range = some (c', some r) := by
  simp only [answerHover, coreHover] at h
  split at h
  · cases h
  · split at h
    · cases h
      exact .inl ⟨‹_›, rfl, rfl⟩
    · split at h
      · cases h
      · cases h
      · cases h
        exact .inr ⟨_, _, ‹_›, rfl, ‹_›⟩

/-- A hover without a range, and one with a range. -/
example : (answerHover (faithful (smallRope "a\nb")) 16 (viewOf (smallRope "a\nb")) (.ok (some ⟨.scalar (.string "doc".toList), none⟩))).map (·.2)
      = some (.ok ⟨"doc".toList, none⟩) ∧
    (answerHover (faithful (smallRope "a\nb")) 16 (viewOf (smallRope "a\nb")) (.ok (some ⟨.scalar (.string "doc".toList), some (⟨1, 0⟩, ⟨1, 1⟩)⟩))).map (·.2)
      = some (.ok ⟨"doc".toList, some (2, 3)⟩) := ⟨rfl, rfl⟩

/-! ## Cases -/

/-- **C103, refuted.**  Code that has a fence in it ends there, and what follows is text. -/
theorem C103_fence_refuted : ∃ m text, markdown (.scalar m) = .ok text ∧ readMarkdown text ≠ meant m :=
  ⟨.code "md".toList "a\n```\nb".toList, _, rfl, by decide⟩

/-- **C103, refuted.**  Text that is said to be plain is taken for Markdown all the same (the kind of markup is not looked at). -/
theorem C103_plain_refuted : ∃ value, markdown (.markup true value) = .ok value ∧ Block.code [] [['x']] ∈ readMarkdown value :=
  ⟨"```\nx\n```".toList, rfl, by decide⟩

/-- **C103, refuted.**  An answer with nothing to read in it can be shown: two empty texts make a newline. -/
theorem C103_blank_refuted : markdown (.array [.string [], .string []]) = .ok ['\n'] := rfl

/-- **C103, refuted.**  If the range is on a line that is not there any more, the text of the hover is not shown either. -/
theorem C103_lost_refuted : ((answerHover (faithful (smallRope "a\nb")) 16 (viewOf (smallRope "a\nb")) (.ok (some ⟨.scalar (.string "doc".toList), some (⟨2, 0⟩, ⟨2, 1⟩)⟩))).map
    fun x => showHover x.2) = some none := by decide +kernel

/-- An answer that meets the hypotheses of `C103_text_partial`. -/
example : (∀ m ∈ partsOf (.array [.code "rust".toList "fn f()\n{}".toList, .string "Says `f`.".toList]), Tame m) ∧
    readMarkdown "```rust\nfn f()\n{}\n```\nSays `f`.".toList = [.code "rust".toList ["fn f()".toList, "{}".toList], .text "Says `f`.".toList] := by
  refine ⟨?_, by decide +kernel⟩
  intro m hm
  simp only [partsOf, List.mem_cons, List.not_mem_nil, or_false] at hm
  rcases hm with rfl | rfl
  · exact ⟨by decide, by decide, by decide +kernel⟩
  · show ∀ row ∈ rowsOf _, ¬ Opens row
    decide +kernel

/-- It is shown, with the range in bytes. -/
example : ((answerHover (faithful (smallRope "é\nfoo")) 16 (viewOf (smallRope "é\nfoo")) (.ok (some ⟨.scalar (.string "doc".toList), some (⟨0, 1⟩, ⟨1, 2⟩)⟩))).map
    fun x => x.2.toOption) = some (some ⟨"doc".toList, some (2, 5)⟩) := by decide +kernel

end Lsp

end Xi
