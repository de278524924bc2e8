import Verif.Spec.Lsp
import Verif.Props.ChunkCache
import Verif.Props.Find
import Verif.Core.FindUpdate

/-!
# C74: what a language server is told
-/

namespace Xi

namespace Lsp

open Plugin Find

theorem tailUnits_cons (c : Char) (l : List Char) : tailUnits (c :: l) = if '\n' ∈ l ∨ c = '\n' then tailUnits l else utf16Len c + tailUnits l := by
  unfold tailUnits
  rw [List.reverse_cons, List.takeWhile_append]
  by_cases hm : '\n' ∈ l
  · have : (l.reverse.takeWhile fun c => c != '\n').length ≠ l.reverse.length := by
      intro h
      have he := (List.takeWhile_prefix (l := l.reverse) (fun c => c != '\n')).eq_of_length h
      have h1 : '\n' ∈ l.reverse.takeWhile (fun c => c != '\n') := by rw [he]; simpa using hm
      have := List.all_eq_true.1 (List.all_takeWhile (p := fun c => c != '\n') (l := l.reverse)) _ h1
      simp at this
    rw [if_neg this, if_pos (.inl hm)]
  · have he : l.reverse.takeWhile (fun c => c != '\n') = l.reverse := by
      have := List.takeWhile_append_of_pos (p := fun c => c != '\n') (l₁ := l.reverse) (l₂ := []) ?_
      · simpa using this
      intro x hx
      simp only [List.mem_reverse] at hx
      simp only [bne_iff_ne, ne_eq]
      rintro rfl
      exact hm hx
    rw [he, if_pos rfl]
    by_cases hc : c = '\n'
    · rw [if_pos (.inr hc), hc]
      simp
    · rw [if_neg (by simp [hm, hc])]
      simp [hc, Nat.add_comm]

theorem tailUnits_no {l : List Char} (h : '\n' ∉ l) : tailUnits l = (l.map utf16Len).sum := by
  induction l with
  | nil => rfl
  | cons c l ih =>
    simp only [List.mem_cons, not_or] at h
    rw [tailUnits_cons, if_neg (by simp only [not_or]; exact ⟨h.2, fun e => h.1 e.symm⟩), ih h.2, List.map_cons, List.sum_cons]

theorem tailUnits_last {a b : List Char} (h : '\n' ∉ b) : tailUnits (a ++ '\n' :: b) = (b.map utf16Len).sum := by
  induction a with
  | nil => rw [List.nil_append, tailUnits_cons, if_pos (.inr rfl), tailUnits_no h]
  | cons c a ih => rw [List.cons_append, tailUnits_cons, if_pos (.inl (by simp)), ih]

theorem locate_line_pos {c : Char} {cs : List Char} (hc : c ≠ '\r') (line character : Nat) :
    locate (c :: cs) (line + 1) character = locate cs (if c = '\n' then line else line + 1) character + 1 := by
  rw [locate.eq_def]
  split
  · rename_i h; cases h
  · rename_i h; cases h
  · rename_i h h2
    cases h
    exact absurd rfl hc
  · rename_i h h2
    cases h
    cases h2
    simp [hc]

theorem locate_crlf (cs : List Char) (line character : Nat) : locate ('\r' :: '\n' :: cs) (line + 1) character = locate cs line character + 2 := by
  rw [locate]

theorem CrLf.tail {c : Char} {cs : List Char} (h : CrLf (c :: cs)) : CrLf cs := fun x y e => h (c :: x) y (by rw [e]; rfl)

/-- The server finds a place by its position. -/
theorem locate_position : ∀ {A : List Char} (B : List Char), CrLf A → locate (A ++ B) (A.count '\n') (tailUnits A) = A.length
  | [], B, _ => by
    cases B with
    | nil => rfl
    | cons b B => simp [locate, tailUnits]
  | c :: cs, B, hr => by
    by_cases hcr : c = '\r'
    · subst hcr
      obtain ⟨z, rfl⟩ := hr [] cs rfl
      rw [tailUnits_cons, if_pos (.inl (by simp)), tailUnits_cons, if_pos (.inr rfl), List.count_cons_of_ne (by decide), List.count_cons_self,
        List.cons_append, List.cons_append, locate_crlf, locate_position B hr.tail.tail]
      simp
    have ih := locate_position B hr.tail
    rw [tailUnits_cons, List.cons_append, List.length_cons]
    by_cases hn : c = '\n'
    · rw [if_pos (.inr hn), hn, List.count_cons_self, locate_line_pos (by decide), if_pos rfl, ih]
    · rw [List.count_cons_of_ne (by simpa using hn)]
      by_cases hm : '\n' ∈ cs
      · rw [if_pos (.inl hm)]
        obtain ⟨k, hk⟩ : ∃ k, cs.count '\n' = k + 1 := ⟨_, (Nat.succ_pred_eq_of_pos (List.count_pos_iff.2 hm)).symm⟩
        rw [hk] at ih ⊢
        rw [locate_line_pos hcr, if_neg hn, ih]
      · rw [if_neg (by simp [hm, hn]), List.count_eq_zero.2 hm]
        rw [List.count_eq_zero.2 hm] at ih
        have hu : 0 < utf16Len c := by unfold utf16Len; split <;> omega
        rw [locate, if_neg (by simp only [hn, hcr, false_or]; omega), Nat.add_sub_cancel_left, ih]

/-! ## Positions in the text of the view -/

theorem count_enc (cs : List Char) : (enc cs).count newline = cs.count '\n' := by
  induction cs with
  | nil => rfl
  | cons c cs ih =>
    rw [enc_cons, List.count_append, ih, List.count_cons]
    by_cases hc : c = '\n'
    · subst hc
      rw [show (String.utf8EncodeChar '\n') = [newline] by decide]
      simp [Nat.add_comm]
    · have : newline ∉ String.utf8EncodeChar c := by
        intro h
        have h' : newline ∈ enc [c] := by rw [enc_cons]; simp [h]
        have := newline_enc h'
        simp only [List.mem_singleton] at this
        exact hc this.symm
      rw [List.count_eq_zero.2 this]
      simp [hc]

theorem newline_mem_enc {cs : List Char} : newline ∈ enc cs ↔ '\n' ∈ cs := by
  rw [← List.count_pos_iff, count_enc, List.count_pos_iff]

theorem char_last_split : ∀ (s : List Char), '\n' ∉ s ∨ ∃ a b, s = a ++ '\n' :: b ∧ '\n' ∉ b
  | [] => .inl (by simp)
  | x :: s => by
    rcases char_last_split s with h | ⟨a, b, h1, h2⟩
    · by_cases hx : x = '\n'
      · exact .inr ⟨[], s, by simp [hx], h⟩
      · exact .inl (by simp [h, Ne.symm hx])
    · exact .inr ⟨x :: a, b, by simp [h1], h2⟩

/-- The line of a place: it starts after `P`, and has `Q` before the place and `X` after it. -/
theorem line_shape (A B : List Char) : ∃ P Q X Y, A = P ++ Q ∧ B = X ++ Y ∧ lineBegin (enc (A ++ B)) (A.count '\n') = (enc P).length ∧
    part (enc (A ++ B)) (lineBegin (enc (A ++ B)) (A.count '\n')) (lineBegin (enc (A ++ B)) (A.count '\n' + 1)) = enc (Q ++ X) ∧
    tailUnits A = (Q.map utf16Len).sum := by
  obtain ⟨P, Q, hA, hs, hu⟩ : ∃ P Q, A = P ++ Q ∧ sinceNewline (enc A) = (enc Q).length ∧ tailUnits A = (Q.map utf16Len).sum := by
    rcases char_last_split A with h | ⟨a, b, h1, h2⟩
    · refine ⟨[], A, rfl, ?_, tailUnits_no h⟩
      have := sinceNewline_none (a := []) (b := enc A) (by rw [newline_mem_enc]; exact h)
      simpa [sinceNewline] using this
    · refine ⟨a ++ ['\n'], b, by simp [h1], ?_, by rw [h1, tailUnits_last h2]⟩
      rw [h1, enc_append, enc_cons, show (String.utf8EncodeChar '\n') = [newline] by decide, List.singleton_append]
      exact sinceNewline_last (by rw [newline_mem_enc]; exact h2)
  have hb : lineBegin (enc (A ++ B)) (A.count '\n') = (enc P).length := by
    rw [enc_append, ← count_enc, lineBegin_tail, hs, hA, enc_append, List.length_append]
    omega
  have hr : (enc A).length ≤ lineBegin (enc (A ++ B)) (A.count '\n' + 1) := by
    rw [enc_append]
    exact lineBegin_right (by rw [count_enc]; omega)
  obtain ⟨C, D, h1, h2⟩ := boundary_lineBegin (t := enc (A ++ B)) ⟨A ++ B, rfl⟩ (A.count '\n' + 1)
  obtain ⟨X, h3, h4⟩ := cut_prefix (a := A) (b := B) (a' := C) (b' := D) (by rw [← enc_append]; exact h1) (by rw [h2] at hr; exact hr)
  refine ⟨P, Q, X, D, hA, h4, hb, ?_, hu⟩
  rw [hb, h2, part]
  have e1 : enc (A ++ B) = enc C ++ enc D := h1
  rw [e1, show (C.flatMap String.utf8EncodeChar) = enc C from rfl, List.take_left, h3, hA, List.append_assoc, enc_append P, List.drop_left]

section

variable {source : Source} {size : Nat} {r : Rope} {c : ChunkCache}

theorem then_some {α β : Type} {x : Option (ChunkCache × Option α)} {f : ChunkCache → α → Option (ChunkCache × Option β)} {a : α} {v : Option β}
    (h : ReadOk source size r c x (some a)) (hf : ∀ c', Same c c' r.text → ReadOk source size r c' (f c' a) v) : ReadOk source size r c (andThen x f) v := by
  obtain ⟨c', y, rfl, hs, rfl | ⟨rfl, hn⟩⟩ := h
  · obtain ⟨c'', z, hz, hs', hv⟩ := hf c' hs
    refine ⟨c'', z, hz, ⟨hs'.coh, by rw [hs'.rev, hs.rev]⟩, ?_⟩
    rw [hs.rev] at hv
    exact hv
  · exact ⟨c', none, rfl, hs, .inr ⟨rfl, hn⟩⟩

theorem then_none {α β : Type} {x : Option (ChunkCache × Option α)} {f : ChunkCache → α → Option (ChunkCache × Option β)}
    (h : ReadOk source size r c x none) : ReadOk source size r c (andThen x f) none := by
  obtain ⟨c', y, rfl, hs, rfl | ⟨rfl, hn⟩⟩ := h
  · exact ⟨c', none, rfl, hs, .inl rfl⟩
  · exact ⟨c', none, rfl, hs, .inl rfl⟩

theorem countUtf16_enc (cs : List Char) : countUtf16 (enc cs) = (cs.map utf16Len).sum := utf16_text cs

theorem utf8_boundary {A B : List Char} : isCharBoundary (enc (A ++ B)) (enc A).length = true := by
  rw [boundary_iff_spec ⟨A ++ B, rfl⟩]
  exact ⟨A, B, enc_append A B, rfl⟩

/-- **C74.** The position of a place in the text is the one of the protocol: the line, and the UTF-16
code units before it on the line. -/
theorem C74_position (h : Reading source size r c.rev) (hc : Coherent c r.text) {A B : List Char} (ht : r.text = enc (A ++ B)) :
    ReadOk source size r c (positionOfOffset source size c (enc A).length) (some (positionOf (A ++ B) A.length)) := by
  have hcnt : (r.text.take (enc A).length).count newline = A.count '\n' := by
    rw [ht, enc_append, List.take_left, count_enc]
  obtain ⟨P, Q, X, Y, hA, hB, h1, h2, h3⟩ := line_shape A B
  rw [← ht] at h1 h2
  have hle : A.count '\n' ≤ r.text.count newline := by
    rw [ht, count_enc, List.count_append]; omega
  have l1 := C42_line_of_offset h hc (enc A).length
  rw [if_pos (by rw [ht, enc_append, List.length_append]; omega), hcnt] at l1
  refine then_some l1 fun c1 s1 => ?_
  have r1 : Reading source size r c1.rev := by rw [s1.rev]; exact h
  have l2 := C42_offset_of_line r1 s1.coh (A.count '\n')
  rw [if_pos (by omega), h1] at l2
  refine then_some l2 fun c2 s2 => ?_
  have r2 : Reading source size r c2.rev := by rw [s2.rev]; exact r1
  have l3 := C42_get_line r2 s2.coh (A.count '\n')
  rw [if_pos hle, h2] at l3
  refine then_some l3 fun c3 s3 => ?_
  have e1 : checkedSub (enc A).length (enc P).length = some (enc Q).length := by
    rw [hA, enc_append, List.length_append, checkedSub, if_pos (by omega), Nat.add_sub_cancel_left]
  have e2 : strSlice (enc (Q ++ X)) 0 (enc Q).length = some (enc Q) := by
    rw [strSlice_spec (Nat.zero_le _) boundary_zero utf8_boundary, enc_append, List.take_left, List.drop_zero]
  refine ⟨c3, some ⟨A.count '\n', tailUnits A⟩, ?_, ⟨s3.coh, rfl⟩, .inl (by simp [positionOf])⟩
  rw [e1]
  show ((strSlice (enc (Q ++ X)) 0 (enc Q).length).bind fun s => some (c3, some (Position.mk (A.count '\n') (countUtf16 s)))) = _
  rw [e2, Option.bind_some, countUtf16_enc, h3]

/-- Beyond the end of the document there is no position. -/
theorem C74_position_beyond (hc : Coherent c r.text) {off : Nat} (ho : r.text.length < off) : positionOfOffset source size c off = some (c, none) := by
  rw [positionOfOffset, ChunkCache.lineOfOffset, if_pos (by rw [hc.bufSize]; omega)]
  rfl

theorem walk_spec {rest : List Char} : ∀ (B : List Char) (m l : Nat), walk (m + (B.map utf16Len).sum) (B ++ rest) m l = l + (enc B).length
  | [], m, l => by
    cases rest with
    | nil => simp [walk, enc]
    | cons u us => simp [walk, enc]
  | b :: B, m, l => by
    have hu : 0 < utf16Len b := by unfold utf16Len; split <;> omega
    have he : lenUtf16 b = utf16Len b := by unfold lenUtf16 utf16Len; repeat' split
                                            all_goals omega
    rw [List.cons_append, walk, List.map_cons, List.sum_cons, if_neg (by omega), he, ← Nat.add_assoc, walk_spec B, enc_cons, List.length_append, Nat.add_assoc]

/-- **C74.** The place of a position in the text is the one of the protocol. -/
theorem C74_offset (h : Reading source size r c.rev) (hc : Coherent c r.text) {A B : List Char} (ht : r.text = enc (A ++ B)) :
    ReadOk source size r c (offsetOfPosition source size c (positionOf (A ++ B) A.length)) (some (enc A).length) := by
  obtain ⟨P, Q, X, Y, hA, hB, h1, h2, h3⟩ := line_shape A B
  rw [← ht] at h1 h2
  have hp : positionOf (A ++ B) A.length = ⟨A.count '\n', tailUnits A⟩ := by simp [positionOf]
  have hle : A.count '\n' ≤ r.text.count newline := by
    rw [ht, count_enc, List.count_append]; omega
  have l2 := C42_offset_of_line h hc (A.count '\n')
  rw [if_pos (by omega), h1] at l2
  obtain ⟨c1, x, e1, s1, hx⟩ := l2
  have r1 : Reading source size r c1.rev := by rw [s1.rev]; exact h
  have l3 := C42_get_line r1 s1.coh (A.count '\n')
  rw [if_pos hle, h2] at l3
  have hw : walk (tailUnits A) (chars (enc (Q ++ X))) 0 0 = (enc Q).length := by
    have := walk_spec (rest := X) Q 0 0
    rw [chars_enc, h3]
    simpa using this
  rw [hp, offsetOfPosition, e1]
  show ReadOk source size r c (andThen (c1.getLine source size (A.count '\n')) fun c line => some (c, x.map fun o => walk (tailUnits A) (chars line) 0 0 + o)) _
  have := then_some (f := fun c line => some (c, x.map fun o => walk (tailUnits A) (chars line) 0 0 + o)) (v := x.map fun o => (enc A).length) l3 fun c' s' => by
    refine ⟨c', _, rfl, ⟨s'.coh, rfl⟩, .inl ?_⟩
    cases x with
    | none => rfl
    | some o =>
      rcases hx with hx | ⟨hx, -⟩
      · cases hx
        rw [Option.map_some, Option.map_some, hw, hA, enc_append, List.length_append, Nat.add_comm]
      · cases hx
  obtain ⟨c', y, e, s', hy⟩ := this
  refine ⟨c', y, e, ⟨s'.coh, by rw [s'.rev, s1.rev]⟩, ?_⟩
  rcases hx with rfl | ⟨rfl, hn⟩
  · rcases hy with rfl | ⟨rfl, hn⟩
    · exact .inl rfl
    · exact .inr ⟨rfl, by rw [← s1.rev]; exact hn⟩
  · refine .inr ⟨?_, hn⟩
    rcases hy with rfl | ⟨rfl, -⟩ <;> rfl

theorem positionOf_append (A B : List Char) : positionOf (A ++ B) A.length = ⟨A.count '\n', tailUnits A⟩ := by simp [positionOf]

/-- **C74.** The language server finds a place by its position, unless there is a carriage return without a newline before it. -/
theorem C74_locate_partial {A B : List Char} (hr : CrLf A) :
    locate (A ++ B) (positionOf (A ++ B) A.length).line (positionOf (A ++ B) A.length).character = A.length := by
  rw [positionOf_append]
  exact locate_position B hr

/-! ## Changes -/

theorem wholeDocument_spec (h : Reading source size r c.rev) (hc : Coherent c r.text) :
    ReadOk source size r c (wholeDocument source size c) (some [⟨none, none, r.text⟩]) :=
  then_some (C42_get_document h hc) fun c' s => ⟨c', _, rfl, ⟨s.coh, rfl⟩, .inl rfl⟩

theorem whole_sync (hr : r.Balanced) (old : List Char) : InSync old [⟨none, none, r.text⟩] r := by
  obtain ⟨cs, hcs⟩ := Rope.text_utf8 hr
  exact ⟨cs, hcs, .cons ⟨cs, hcs, rfl⟩ .nil⟩

theorem range_sync {A D B S : List Char} {s : List UInt8} {p q : Position} {n : Option Nat} (hs : s = enc S) (ht : r.text = enc (A ++ S ++ B))
    (hp : locate (A ++ D ++ B) p.line p.character = A.length) (hq : locate (A ++ D ++ B) q.line q.character = (A ++ D).length) :
    InSync (A ++ D ++ B) [⟨some (p, q), n, s⟩] r := by
  refine ⟨A ++ S ++ B, ht, .cons ⟨S, hs, ?_⟩ .nil⟩
  show A ++ S ++ B = _
  rw [hp, hq, List.drop_left, List.append_assoc A D B, List.take_left]

variable {old : List Char} {d : Delta UInt8}

/-- What an insertion at one place did. -/
theorem insert_parts (h : Edited old d r c) {s : List UInt8} (hs : d.asSimpleInsert = some s) :
    ∃ A B S, old = A ++ B ∧ s = enc S ∧ d.summary.1 = ((enc A).length, (enc A).length) ∧ r.text = enc (A ++ S ++ B) := by
  obtain ⟨els, n⟩ := d
  have hlen : (enc old).length = n := h.len
  subst hlen
  obtain ⟨i, g2, g3, g4⟩ := asSimpleInsert_shape h.wf hs
  simp only at g2 g4
  obtain ⟨A, B, e1, e2⟩ := boundary_pre (i := i) (t := enc old) ⟨old, rfl⟩ h.whole (fun el hel => by rw [g4]; simp [hel])
  obtain ⟨S, hS⟩ := h.whole (.insert s) (by rw [g4]; simp)
  have e1 : enc old = enc A ++ enc B := e1
  have e2 : i = (enc A).length := e2
  have hS : s = enc S := hS
  have ha := h.apply
  rw [Delta.apply_spec _ _ h.wf rfl] at ha
  have ha : elsText (enc old) els = r.text := Option.some.inj ha
  refine ⟨A, B, S, enc_inj (by rw [e1, enc_append]), hS, by rw [g3, e2], ?_⟩
  rw [← ha, g4, elsText_append, elsText_pre, elsText_append, elsText_post, e2, e1, List.take_left, List.drop_left, enc_append, enc_append, hS]
  simp [elsText]

/-- What a deletion at one place did. -/
theorem delete_parts (h : Edited old d r c) (hs : d.isSimpleDelete = true) :
    ∃ A D B, old = A ++ D ++ B ∧ D ≠ [] ∧ d.summary.1 = ((enc A).length, (enc (A ++ D)).length) ∧ r.text = enc (A ++ B) := by
  obtain ⟨els, n⟩ := d
  have hlen : (enc old).length = n := h.len
  subst hlen
  obtain ⟨i, e, g1, g2, g3, g4⟩ := isSimpleDelete_shape h.wf hs
  simp only at g2 g4
  obtain ⟨A, B, e1, e2⟩ := boundary_pre (i := i) (t := enc old) ⟨old, rfl⟩ h.whole (fun el hel => by rw [g4]; simp [hel])
  obtain ⟨C, F, e3, e4⟩ := boundary_post (e := e) (t := enc old) ⟨old, rfl⟩ h.whole (fun el hel => by rw [g4]; exact List.mem_append_right _ hel)
  have e1 : enc old = enc A ++ enc B := e1
  have e2 : i = (enc A).length := e2
  have e3 : enc old = enc C ++ enc F := e3
  have e4 : e = (enc C).length := e4
  obtain ⟨D, k1, k2⟩ := cut_prefix (a := A) (b := B) (a' := C) (b' := F) (by rw [← e1, e3]) (by omega)
  have ha := h.apply
  rw [Delta.apply_spec _ _ h.wf rfl] at ha
  have ha : elsText (enc old) els = r.text := Option.some.inj ha
  refine ⟨A, D, F, enc_inj (by rw [e3, enc_append, k1]), ?_, by rw [g3, e2, e4, k1], ?_⟩
  · rintro rfl
    rw [k1, List.append_nil] at e4
    omega
  · rw [← ha, g4, elsText_append, elsText_pre, elsText_post, e2, e4]
    conv => lhs; rw [e1]
    rw [List.take_left, ← e1, e3, List.drop_left, enc_append]

/-- **C74.** An insertion at one place is told so that the server's document stays the editor's, unless there is a carriage return without a
newline before the place. -/
theorem C74_insert_partial (h : Reading source size r c.rev) (he : Edited old d r c) {s : List UInt8} (hs : d.asSimpleInsert = some s)
    (hp : PlaceOk old d.summary.1.1) : ∃ l, ReadOk source size r c (contentChanges source size (some d) c) (some l) ∧ InSync old l r := by
  obtain ⟨A, B, S, e1, e2, e3, e4⟩ := insert_parts he hs
  have hcr : CrLf A := hp A B e1 (by rw [e3])
  have pos : ∀ c', Same c c' r.text → ReadOk source size r c' (positionOfOffset source size c' (enc A).length) (some (positionOf (A ++ B) A.length)) := by
    intro c' hs
    have := C74_position (A := A) (B := S ++ B) (c := c') (by rw [hs.rev]; exact h) hs.coh (by rw [e4, List.append_assoc])
    rwa [positionOf_append] at this ⊢
  refine ⟨[⟨some (positionOf (A ++ B) A.length, positionOf (A ++ B) A.length), some 0, s⟩], ?_, ?_⟩
  · have : contentChanges source size (some d) c = andThen (positionOfOffset source size c (enc A).length) fun c s' =>
        andThen (positionOfOffset source size c (enc A).length) fun c e =>
          some (c, some [⟨some (s', e), some 0, s⟩]) := by
      rw [contentChanges]
      simp only [hs]
      rw [show d.summary = (((enc A).length, (enc A).length), d.summary.2) by rw [← e3]]
      simp only [checkedSub, Nat.le_refl, if_true, Nat.sub_self]
      rfl
    rw [this]
    refine then_some (pos c ⟨he.coh, rfl⟩) fun c1 s1 => then_some (pos c1 s1) fun c2 s2 => ⟨c2, _, rfl, ⟨s2.coh, rfl⟩, .inl rfl⟩
  · have hl := C74_locate_partial (B := B) hcr
    have := range_sync (A := A) (D := []) (B := B) (S := S) (n := some 0) e2 e4 (by simpa using hl) (by simpa using hl)
    rw [e1]
    simpa using this

/-- **C74.** Any other edit, and one that was too large to be sent, is told as the whole document. -/
theorem C74_other (h : Reading source size r c.rev) (hc : Coherent c r.text) (delta : Option (Delta UInt8))
    (hd : ∀ d, delta = some d → d.asSimpleInsert = none ∧ d.isSimpleDelete = false) (old : List Char) :
    ∃ l, ReadOk source size r c (contentChanges source size delta c) (some l) ∧ InSync old l r := by
  refine ⟨_, ?_, whole_sync h.bal old⟩
  cases delta with
  | none => exact wholeDocument_spec h hc
  | some d =>
    obtain ⟨h1, h2⟩ := hd d rfl
    have : contentChanges source size (some d) c = wholeDocument source size c := by
      rw [contentChanges]
      simp only [h1, h2]
      rfl
    rw [this]
    exact wholeDocument_spec h hc

theorem delete_unfold {A D : List Char} (hs : d.isSimpleDelete = true) (hn : d.asSimpleInsert = none)
    (e : d.summary.1 = ((enc A).length, (enc (A ++ D)).length)) :
    contentChanges source size (some d) c = andThen (deletionEnd source size c (enc (A ++ D)).length) fun c e =>
      andThen (positionOfOffset source size c (enc A).length) fun c s => some (c, some [⟨some (s, e), some (enc D).length, []⟩]) := by
  rw [contentChanges]
  rw [show d.summary = (((enc A).length, (enc (A ++ D)).length), d.summary.2) by rw [← e]]
  simp only [hn, hs, if_true]
  have : checkedSub (enc (A ++ D)).length (enc A).length = some (enc D).length := by
    rw [checkedSub, enc_append, List.length_append, if_pos (by omega), Nat.add_sub_cancel_left]
  simp only [this]
  rfl

theorem insert_not_delete (hd : d.WF) (hs : d.isSimpleDelete = true) : d.asSimpleInsert = none := by
  cases hn : d.asSimpleInsert with
  | none => rfl
  | some s =>
    obtain ⟨i, -, -, g⟩ := asSimpleInsert_shape hd hn
    obtain ⟨els, n⟩ := d
    simp only at g
    subst g
    exact absurd hs (asSimpleInsert_of_shape i n).1

/-- A deletion longer than all the text after it: there is no position for its end, and the whole document is sent instead. -/
theorem C74_delete_beyond (he : Edited old d r c) (hs : d.isSimpleDelete = true) (hb : r.text.length < d.summary.1.2) :
    contentChanges source size (some d) c = some (c, none) := by
  obtain ⟨A, D, B, e1, e2, e3, e4⟩ := delete_parts he hs
  rw [e3] at hb
  rw [delete_unfold hs (insert_not_delete he.wf hs) e3, deletionEnd, C74_position_beyond he.coh hb]
  rfl

theorem tail_no {B : List Char} (U : List Char) (hU : '\n' ∉ U) : tailUnits (B ++ U) = tailUnits B + (U.map utf16Len).sum := by
  rcases char_last_split B with hB | ⟨a, b, hab, hb⟩
  · rw [tailUnits_no (by simp [hB, hU]), tailUnits_no hB, List.map_append, List.sum_append]
  · rw [hab, List.append_assoc, List.cons_append, tailUnits_last (by simp [hb, hU]), tailUnits_last hb, List.map_append, List.sum_append]

theorem deletionEnd_spec (h : Reading source size r c.rev) (hc : Coherent c r.text) {A X Y : List Char} (hX : X ≠ []) (ht : r.text = enc (A ++ X ++ Y))
    (hn : '\n' ∉ X.dropLast) :
    ReadOk source size r c (deletionEnd source size c (enc (A ++ X)).length) (some ⟨A.count '\n', tailUnits A + (X.map utf16Len).sum⟩) := by
  obtain ⟨W, x, rfl⟩ : ∃ W x, X = W ++ [x] := ⟨X.dropLast, X.getLast hX, (List.dropLast_concat_getLast hX).symm⟩
  simp only [List.dropLast_concat] at hn
  have hu : 0 < utf16Len x := by unfold utf16Len; split <;> omega
  rw [deletionEnd]
  have p1 := C74_position h hc ht
  rw [positionOf_append] at p1
  refine then_some p1 fun c1 s1 => ?_
  by_cases hx : x = '\n'
  · subst hx
    have e : tailUnits (A ++ (W ++ ['\n'])) = 0 := by
      rw [← List.append_assoc]
      have := tailUnits_last (a := A ++ W) (b := []) (by simp)
      simpa using this
    simp only [e, if_true]
    have hb : checkedSub (enc (A ++ (W ++ ['\n']))).length 1 = some (enc (A ++ W)).length := by
      rw [← List.append_assoc, enc_append (A ++ W), List.length_append, show (enc ['\n']).length = 1 by decide, checkedSub, if_pos (by omega), Nat.add_sub_cancel]
    rw [hb]
    have p2 := C74_position (c := c1) (A := A ++ W) (B := ['\n'] ++ Y) (by rw [s1.rev]; exact h) s1.coh (by rw [ht]; simp)
    rw [positionOf_append] at p2
    show ReadOk source size r c1 (andThen (positionOfOffset source size c1 (enc (A ++ W)).length) fun c ep => some (c, some { ep with character := ep.character + 1 })) _
    refine then_some p2 fun c2 s2 => ⟨c2, _, rfl, ⟨s2.coh, rfl⟩, .inl ?_⟩
    rw [tail_no W hn, List.count_append, List.count_eq_zero.2 hn, List.map_append, List.sum_append, show (List.map utf16Len ['\n']).sum = 1 by decide]
    rfl
  · have hnX : '\n' ∉ W ++ [x] := by simp [hn, Ne.symm hx]
    have e := tail_no (B := A) _ hnX
    have hne : tailUnits (A ++ (W ++ [x])) ≠ 0 := by
      rw [e, List.map_append, List.sum_append]
      simp only [List.map_cons, List.map_nil, List.sum_cons, List.sum_nil]
      omega
    simp only [hne, if_false]
    refine ⟨c1, _, rfl, ⟨s1.coh, rfl⟩, .inl ?_⟩
    rw [e, List.count_append, List.count_eq_zero.2 hnX, Nat.add_zero]

/-- **C74.** A deletion within a line is told so that the server's document stays the editor's, if the text that moved to its place has, in as many
bytes, as many UTF-16 code units, and no newline but possibly the last of these characters; and if there is no carriage return without a newline before. -/
theorem C74_delete_partial (h : Reading source size r c.rev) {A D X Y : List Char} (he : Edited (A ++ D ++ (X ++ Y)) d r c) (hd : d.isSimpleDelete = true)
    (hs : d.summary.1 = ((enc A).length, (enc (A ++ D)).length)) (hlen : (enc X).length = (enc D).length) (hunits : (X.map utf16Len).sum = (D.map utf16Len).sum)
    (hX : '\n' ∉ X.dropLast) (hD : '\n' ∉ D) (hcr : CrLf (A ++ D)) :
    ∃ l, ReadOk source size r c (contentChanges source size (some d) c) (some l) ∧ InSync (A ++ D ++ (X ++ Y)) l r := by
  obtain ⟨A', D', B', e1, e2, e3, e4⟩ := delete_parts he hd
  rw [hs] at e3
  obtain ⟨g1, g2⟩ := Prod.mk.inj e3
  obtain ⟨x, k1, k2⟩ := cut_prefix (a := A) (b := D ++ (X ++ Y)) (a' := A') (b' := D' ++ B') (by rw [← enc_append, ← enc_append, ← List.append_assoc, e1, List.append_assoc])
    (by omega)
  have hx : x = [] := by
    refine Decidable.byContradiction fun hne => ?_
    have := enc_pos hne
    rw [k1, enc_append, List.length_append] at g1
    omega
  subst hx
  rw [List.append_nil] at k1
  subst k1
  obtain ⟨x, k1, k3⟩ := cut_prefix (a := A' ++ D) (b := X ++ Y) (a' := A' ++ D') (b' := B') (by rw [← enc_append, ← enc_append, e1]) (by omega)
  have hx : x = [] := by
    refine Decidable.byContradiction fun hne => ?_
    have := enc_pos hne
    rw [k1, enc_append _ x, List.length_append] at g2
    omega
  subst hx
  rw [List.append_nil] at k1
  have hDD : D' = D := List.append_cancel_left k1
  subst hDD
  rw [List.nil_append] at k3
  subst k3
  have hX0 : X ≠ [] := by
    rintro rfl
    have := enc_pos e2
    rw [← hlen] at this
    simp [enc] at this
  have hstop : (enc (A' ++ D')).length = (enc (A' ++ X)).length := by
    rw [enc_append, enc_append, List.length_append, List.length_append, hlen]
  refine ⟨[⟨some (⟨A'.count '\n', tailUnits A'⟩, ⟨A'.count '\n', tailUnits A' + (X.map utf16Len).sum⟩), some (enc D').length, []⟩], ?_, ?_⟩
  · rw [delete_unfold hd (insert_not_delete he.wf hd) hs, hstop]
    refine then_some (deletionEnd_spec h he.coh hX0 (by rw [e4, List.append_assoc]) hX) fun c1 s1 => ?_
    have p := C74_position (c := c1) (A := A') (B := X ++ Y) (by rw [s1.rev]; exact h) s1.coh e4
    rw [positionOf_append] at p
    exact then_some p fun c2 s2 => ⟨c2, _, rfl, ⟨s2.coh, rfl⟩, .inl rfl⟩
  · have hcA : CrLf A' := by
      intro x y e
      obtain ⟨z, hz⟩ := hcr x (y ++ D') (by rw [e]; simp)
      cases y with
      | nil =>
        simp only [List.nil_append] at hz
        exact absurd (by rw [hz]; simp) hD
      | cons w y => exact ⟨y, by rw [List.cons_append] at hz; cases hz; rfl⟩
    have hpos : (⟨A'.count '\n', tailUnits A' + (X.map utf16Len).sum⟩ : Position) = ⟨(A' ++ D').count '\n', tailUnits (A' ++ D')⟩ := by
      congr 1
      · rw [List.count_append, List.count_eq_zero.2 hD, Nat.add_zero]
      · rw [hunits, tail_no _ hD]
    rw [hpos]
    refine range_sync (S := []) rfl (by simpa using e4) ?_ (locate_position _ hcr)
    rw [List.append_assoc]
    exact locate_position _ hcA

/-! ## Notifications -/

/-- **C74.** A server that wants whole documents gets the document, whatever the edit was. -/
theorem C74_full (h : Reading source size r c.rev) (ha : Answers source size c.rev r) (hc : Coherent c r.text) (delta : Option (Delta UInt8)) (old : List Char) :
    ∃ c' l, changeForSyncKind source size .full delta c = some (c', some l) ∧ Same c c' r.text ∧ InSync old l r := by
  obtain ⟨c', x, e, s, rfl | ⟨-, hn⟩⟩ := wholeDocument_spec h hc
  · exact ⟨c', _, by simp only [changeForSyncKind, e]; rfl, s, whole_sync h.bal old⟩
  · exact absurd ha hn

/-- **C74.** A server that wants no changes is told nothing. -/
theorem C74_none (delta : Option (Delta UInt8)) : changeForSyncKind source size .none delta c = some (c, none) := rfl

/-- **C74.** If the changes keep the server in sync, they are what it is sent. -/
theorem C74_incremental (ha : Answers source size c.rev r) {delta : Option (Delta UInt8)} {old : List Char} {l : List Change}
    (hl : ReadOk source size r c (contentChanges source size delta c) (some l)) (hs : InSync old l r) :
    ∃ c', changeForSyncKind source size .incremental delta c = some (c', some l) ∧ Same c c' r.text ∧ InSync old l r := by
  obtain ⟨c', x, e, s, rfl | ⟨-, hn⟩⟩ := hl
  · exact ⟨c', by simp only [changeForSyncKind, e]; rfl, s, hs⟩
  · exact absurd ha hn

/-- **C74.** If the changes cannot be computed the whole document is sent. -/
theorem C74_incremental_error (h : Reading source size r c.rev) (ha : Answers source size c.rev r) {c' : ChunkCache} (hc : Same c c' r.text)
    {delta : Option (Delta UInt8)} (old : List Char) (hl : contentChanges source size delta c = some (c', none)) :
    ∃ c' l, changeForSyncKind source size .incremental delta c = some (c', some l) ∧ Same c c' r.text ∧ InSync old l r := by
  obtain ⟨c'', l, e, s, i⟩ := C74_full (c := c') (by rw [hc.rev]; exact h) (by rw [hc.rev]; exact ha) hc.coh delta old
  refine ⟨c'', l, ?_, ⟨s.coh, by rw [s.rev, hc.rev]⟩, i⟩
  simp only [changeForSyncKind, hl]
  exact e

end

/-! ## Examples -/

theorem wholeChars_of_check {o : List Char} {d : Delta UInt8}
    (h : d.els.all (fun el => match el with
      | .copy b e => isCharBoundary (enc o) b && isCharBoundary (enc o) e
      | .insert s => enc (chars s) == s) = true) : WholeChars (enc o) d := by
  intro el hel
  have := List.all_eq_true.1 h el hel
  cases el with
  | copy b e =>
    simp only [Bool.and_eq_true] at this
    exact ⟨(boundary_iff_spec ⟨o, rfl⟩).1 this.1, (boundary_iff_spec ⟨o, rfl⟩).1 this.2⟩
  | insert s => exact ⟨chars s, (beq_iff_eq.1 this).symm⟩

/-- The view of a document before anything was read. -/
def viewOf (r : Rope) : ChunkCache := ChunkCache.new r.text.length 7 (r.text.count newline + 1)

theorem edited_example {o n : String} {d : Delta UInt8} (hn : (enc n.toList).length ≤ 1024) (h1 : d.WF) (h2 : (enc o.toList).length = d.baseLen)
    (h3 : d.els.all (fun el => match el with
      | .copy b e => isCharBoundary (enc o.toList) b && isCharBoundary (enc o.toList) e
      | .insert s => enc (chars s) == s) = true)
    (h4 : d.apply (enc o.toList) = some (enc n.toList)) : Edited o.toList d (smallRope n) (viewOf (smallRope n)) :=
  ⟨h1, h2, wholeChars_of_check h3, by rw [small_text]; exact h4, C42_new _ (Rope.text_utf8 (small_balanced hn)) 7⟩

theorem reading_example {n : String} (hn : (enc n.toList).length ≤ 1024) : Reading (faithful (smallRope n)) 16 (smallRope n) (viewOf (smallRope n)).rev :=
  ⟨small_balanced hn, by omega, fun _ _ => .inl rfl⟩

/-- What is sent after an edit that led to the text `n`. -/
def sent (n : String) (d : Delta UInt8) : Option (Option (List Change)) :=
  (changeForSyncKind (faithful (smallRope n)) 16 .incremental (some d) (viewOf (smallRope n))).map (·.2)

theorem not_sync {old : List Char} {p q : Position} {n : Option Nat} {s : List UInt8} {text : List Char} {r : Rope} (hs : s = enc text)
    (h : r.text ≠ enc (old.take (locate old p.line p.character) ++ text ++ old.drop (locate old q.line q.character))) :
    ¬ InSync old [⟨some (p, q), n, s⟩] r := by
  rintro ⟨new, h1, h2⟩
  cases h2 with
  | cons h2 h3 =>
    cases h3
    obtain ⟨t, h4, h5⟩ := h2
    have : t = text := enc_inj (by rw [← hs]; exact h4.symm)
    subst this
    exact h (by rw [h1, h5])

/-- An insertion in the second line of a text with `\r\n`, after a character of two code units. -/
def lspInsert : Delta UInt8 := ⟨[.copy 0 7, .insert [0xC3, 0xA9], .copy 7 8], 8⟩

example : Edited "a\r\n😀x".toList lspInsert (smallRope "a\r\n😀éx") (viewOf (smallRope "a\r\n😀éx")) ∧
    lspInsert.asSimpleInsert = some [0xC3, 0xA9] ∧ sent "a\r\n😀éx" lspInsert = some (some [⟨some (⟨1, 2⟩, ⟨1, 2⟩), some 0, [0xC3, 0xA9]⟩]) :=
  ⟨edited_example (by decide +kernel) (by decide +kernel) (by decide +kernel) (by decide +kernel) (by decide +kernel), by decide +kernel, by decide +kernel⟩

example : PlaceOk "a\r\n😀x".toList lspInsert.summary.1.1 := by
  intro a b h1 h2
  have h3 : ∃ x, a = "a\r\n😀".toList ++ x ∧ ['x'] = x ++ b := cut_prefix (by rw [← enc_append, ← enc_append, ← h1]; rfl) (Nat.le_of_eq h2.symm)
  obtain ⟨x, rfl, h4⟩ := h3
  have hx : x = [] := by
    refine Decidable.byContradiction fun hne => ?_
    have h5 := enc_pos hne
    have h6 : (enc ("a\r\n😀".toList ++ x)).length = 7 := h2
    rw [enc_append, List.length_append, show (enc "a\r\n😀".toList).length = 7 by decide +kernel] at h6
    omega
  subst hx
  intro u v h
  rcases u with _ | ⟨u0, _ | ⟨u1, u⟩⟩
  · simp at h
  · simp at h
    exact ⟨['😀'], h.2.symm⟩
  · have : '\r' ∈ ['\n', '😀'] := by
      have h : ['a', '\r', '\n', '😀'] = u0 :: u1 :: (u ++ '\r' :: v) := h
      simp only [List.cons.injEq] at h
      have h : ['\n', '😀'] = u ++ '\r' :: v := h.2.2
      rw [h]; simp
    simp at this

/-- A deletion in the middle of a line. -/
def lspDelete : Delta UInt8 := ⟨[.copy 0 1, .copy 2 4], 4⟩

example : Edited "abcd".toList lspDelete (smallRope "acd") (viewOf (smallRope "acd")) ∧ lspDelete.isSimpleDelete = true ∧ lspDelete.summary.1 = (1, 2) ∧
    sent "acd" lspDelete = some (some [⟨some (⟨0, 1⟩, ⟨0, 2⟩), some 1, []⟩]) :=
  ⟨edited_example (by decide +kernel) (by decide +kernel) (by decide +kernel) (by decide +kernel) (by decide +kernel), by decide +kernel, by decide +kernel,
    by decide +kernel⟩

/-- The deletion of the last character of a line, for which the code corrects the position. -/
example : sent "ab\ndef" ⟨[.copy 0 2, .copy 3 7], 7⟩ = some (some [⟨some (⟨0, 2⟩, ⟨0, 3⟩), some 1, []⟩]) := by decide +kernel

/-- A deletion at the end of the document: the whole document. -/
example : sent "ab" ⟨[.copy 0 2], 4⟩ = some (some [⟨none, none, [97, 98]⟩]) := by decide +kernel

/-! ## Where the server loses track -/

/-- **C74.** The end of a deletion is looked up in the text after it.  Deleting `bc` from `abc⏎def` makes the server delete `bc⏎d`. -/
theorem C74_delete_refuted : ∃ (old : List Char) (d : Delta UInt8) (r : Rope) (l : List Change), r.Balanced ∧ Edited old d r (viewOf r) ∧ d.isSimpleDelete = true ∧
    (changeForSyncKind (faithful r) 16 .incremental (some d) (viewOf r)).map (·.2) = some (some l) ∧ ¬ InSync old l r :=
  ⟨"abc\ndef".toList, ⟨[.copy 0 1, .copy 3 7], 7⟩, smallRope "a\ndef", [⟨some (⟨0, 1⟩, ⟨1, 1⟩), some 2, []⟩], small_balanced (by decide +kernel),
    edited_example (by decide +kernel) (by decide +kernel) (by decide +kernel) (by decide +kernel) (by decide +kernel), by decide +kernel,
    by decide +kernel, not_sync (text := []) rfl (by rw [small_text]; decide +kernel)⟩

/-- Deleting `é` from `éxyz` makes the server delete `éx`. -/
theorem C74_delete_units_refuted : ∃ l, sent "xyz" ⟨[.copy 2 5], 5⟩ = some (some l) ∧
    Edited "éxyz".toList ⟨[.copy 2 5], 5⟩ (smallRope "xyz") (viewOf (smallRope "xyz")) ∧ ¬ InSync "éxyz".toList l (smallRope "xyz") :=
  ⟨[⟨some (⟨0, 0⟩, ⟨0, 2⟩), some 2, []⟩], by decide +kernel,
    edited_example (by decide +kernel) (by decide +kernel) (by decide +kernel) (by decide +kernel) (by decide +kernel),
    not_sync (text := []) rfl (by rw [small_text]; decide +kernel)⟩

/-- Deleting the newline between two lines makes the server delete nothing. -/
theorem C74_delete_newline_refuted : ∃ l, sent "ab" ⟨[.copy 0 1, .copy 2 3], 3⟩ = some (some l) ∧
    Edited "a\nb".toList ⟨[.copy 0 1, .copy 2 3], 3⟩ (smallRope "ab") (viewOf (smallRope "ab")) ∧ ¬ InSync "a\nb".toList l (smallRope "ab") :=
  ⟨[⟨some (⟨0, 1⟩, ⟨0, 2⟩), some 1, []⟩], by decide +kernel,
    edited_example (by decide +kernel) (by decide +kernel) (by decide +kernel) (by decide +kernel) (by decide +kernel),
    not_sync (text := []) rfl (by rw [small_text]; decide +kernel)⟩

/-- **C74.** The plugin panics when `a` is deleted before `é`: the end of the deletion is inside a character of the new text. -/
theorem C74_panic_refuted : Edited "aé".toList ⟨[.copy 1 3], 3⟩ (smallRope "é") (viewOf (smallRope "é")) ∧ sent "é" ⟨[.copy 1 3], 3⟩ = none :=
  ⟨edited_example (by decide +kernel) (by decide +kernel) (by decide +kernel) (by decide +kernel) (by decide +kernel), by decide +kernel⟩

/-- **C74.** After a carriage return that is not followed by a newline, the server has another idea of the lines. -/
theorem C74_insert_refuted : ∃ l, sent "a\rbx" ⟨[.copy 0 3, .insert [120]], 3⟩ = some (some l) ∧
    Edited "a\rb".toList ⟨[.copy 0 3, .insert [120]], 3⟩ (smallRope "a\rbx") (viewOf (smallRope "a\rbx")) ∧ ¬ InSync "a\rb".toList l (smallRope "a\rbx") :=
  ⟨[⟨some (⟨0, 3⟩, ⟨0, 3⟩), some 0, [120]⟩], by decide +kernel,
    edited_example (by decide +kernel) (by decide +kernel) (by decide +kernel) (by decide +kernel) (by decide +kernel),
    not_sync (text := ['x']) (by decide +kernel) (by rw [small_text]; decide +kernel)⟩

/-- **C74.** A position beyond the end of a line should mean the end of the line; the code takes the start of the next line. -/
theorem C74_offset_refuted : (offsetOfPosition (faithful (smallRope "a\nb")) 16 (viewOf (smallRope "a\nb")) ⟨0, 5⟩).map (·.2) = some (some 2) ∧
    (enc ("a\nb".toList.take (locate "a\nb".toList 0 5))).length = 1 := by decide +kernel

/-- **C74.** If the core does not answer, the plugin panics. -/
theorem C74_unanswered_refuted : changeForSyncKind (fun _ _ _ _ => some none) 16 .full none (viewOf (smallRope "a\nb")) = none ∧
    changeForSyncKind (fun _ _ _ _ => some none) 16 .incremental none (viewOf (smallRope "a\nb")) = none := by
  constructor <;> rfl

end Lsp

end Xi
