import Verif.Core.RewrapLemmas
import Verif.Core.WrapLemmas

/-!
# `RewrapCtx` follows a rule for each line
-/

namespace Xi

open Find Unicode Uax14 LineBreakCursor RewrapCtx

/-- All breaks of the characters `B` that come after `A`; the last is at the end. -/
def streamTo (A B : List Char) (fin : Bool) : List (Nat × Bool) :=
  if B = [] then [] else breaksFrom A B ++ [((enc (A ++ B)).length, fin)]

theorem breaksFrom_bound {A B : List Char} : ∀ b ∈ breaksFrom A B, (enc A).length < b.1 ∧ b.1 < (enc (A ++ B)).length := by
  intro b hb
  cases B with
  | nil => simp [breaksFrom] at hb
  | cons x B =>
    have := innerBreaks_bound B _ _ b hb
    have := clen_pos x
    rw [enc_append, List.length_append, enc_cons, List.length_append]
    unfold clen at *
    omega

theorem breaksFrom_sorted (A B : List Char) : (breaksFrom A B).Pairwise (fun a b => a.1 < b.1) := by
  cases B with
  | nil => exact .nil
  | cons x B => exact innerBreaks_sorted B _ _

theorem streamTo_chain (A B : List Char) (fin : Bool) : Chain (enc A).length (enc (A ++ B)).length (streamTo A B fin) := by
  unfold streamTo
  split
  · rename_i h; rw [h, List.append_nil]; rfl
  · rename_i h
    have := enc_pos h
    exact chain_of_sorted (breaksFrom_sorted A B) breaksFrom_bound (by rw [enc_append, List.length_append]; omega)

/-- Moving a break. -/
def shift (k : Nat) (b : Nat × Bool) : Nat × Bool := (k + b.1, b.2)

theorem innerBreaks_shift {act : List Nat → Nat → Action} (k : Nat) : ∀ (cs : List Char) (h : List Nat) (pos : Nat),
    innerBreaks act h (k + pos) cs = (innerBreaks act h pos cs).map (shift k) := by
  intro cs
  induction cs with
  | nil => intro h pos; rfl
  | cons c cs ih =>
    intro h pos
    rw [innerBreaks, innerBreaks, Nat.add_assoc, ih]
    cases act h (cls c) <;> rfl

theorem streamTo_shift (A B : List Char) (fin : Bool) : streamTo A B fin = (streamTo [] B fin).map (shift (enc A).length) := by
  unfold streamTo
  split
  · rfl
  · rw [List.map_append, List.nil_append]
    congr 1
    · cases B with
      | nil => rfl
      | cons x B =>
        show innerBreaks machineAct [cls x] ((enc A).length + clen x) B = (innerBreaks machineAct [cls x] ((enc []).length + clen x) B).map _
        rw [innerBreaks_shift, show (enc []).length + clen x = clen x from Nat.zero_add _]
    · rw [enc_append, List.length_append]; rfl

/-- The class of the newline. -/
theorem cls_newline : cls '\n' = LF := by decide +kernel

/-- After a newline there is a break. -/
theorem act_newline {h : List Nat} (hh : History h) (y : Char) : machineAct (LF :: h) (cls y) = .hard := by
  have hh' : History (LF :: h) := by rw [← cls_newline]; exact hh.cons '\n'
  obtain ⟨v, hv, ha, _⟩ := hh'.machine (cls_lt y)
  have h1 := stateAfter_end hh'.2
  have h2 := (machine_line_end (cls_lt y) hv).2.2
  have e : stateAfter (LF :: h) = LF := h1.2 (by decide)
  have : 0xc0 ≤ v := h2.2 ⟨by rw [e]; decide, fun ⟨e', _⟩ => absurd (e.symm.trans e') (by decide)⟩
  rw [ha]; unfold actionOf; rw [if_pos this]

theorem act_newline_first (y : Char) : machineAct [LF] (cls y) = .hard := by
  have hh' : History [LF] := by rw [← cls_newline]; exact .one '\n'
  obtain ⟨v, hv, ha, _⟩ := hh'.machine (cls_lt y)
  have h2 := (machine_line_end (cls_lt y) hv).2.2
  have : 0xc0 ≤ v := h2.2 ⟨by decide, fun ⟨e', _⟩ => absurd e' (by decide)⟩
  rw [ha]; unfold actionOf; rw [if_pos this]

/-- The breaks of a line and of what comes after it. -/
theorem streamTo_line (A X : List Char) (y : Char) (Q : List Char) (fin : Bool) (hz : cls y ≠ ZWJ) :
    streamTo A (X ++ '\n' :: y :: Q) fin = streamTo A (X ++ ['\n']) true ++ streamTo (A ++ (X ++ ['\n'])) (y :: Q) fin := by
  have hX : ∃ x K, X ++ ['\n'] = x :: K ∧ X ++ '\n' :: y :: Q = x :: (K ++ y :: Q) := by
    cases X with
    | nil => exact ⟨'\n', [], rfl, rfl⟩
    | cons x X => exact ⟨x, X ++ ['\n'], rfl, by simp⟩
  obtain ⟨x, K, e1, e2⟩ := hX
  have hact : machineAct (historyOf K ++ [cls x]) (cls y) = .hard := by
    have e3 : historyOf K ++ [cls x] = historyOf (X ++ ['\n']) := by rw [e1]; simp [historyOf]
    rw [e3]
    have e4 : historyOf (X ++ ['\n']) = LF :: historyOf X := by rw [← cls_newline]; simp [historyOf]
    rw [e4]
    cases X with
    | nil => exact act_newline_first y
    | cons a X =>
      refine act_newline ?_ y
      have := history_append (.one a) X
      have e5 : historyOf (a :: X) = historyOf X ++ [cls a] := by simp [historyOf]
      rw [e5]; exact this
  have hm : ((enc A).length + clen x + (enc K).length, true) ∈ innerBreaks machineAct [cls x] ((enc A).length + clen x) (K ++ y :: Q) := by
    rw [innerBreaks_cut, hact]
    exact List.mem_append_right _ (List.mem_append_left _ (by simp [oneBreak]))
  have hp : (enc (A ++ x :: K)).length = (enc A).length + clen x + (enc K).length := by
    rw [enc_append, List.length_append, enc_cons, List.length_append]; unfold clen; omega
  rw [e1, e2]
  unfold streamTo
  rw [if_neg (by simp), if_neg (by simp), if_neg (by simp)]
  show innerBreaks machineAct [cls x] ((enc A).length + clen x) (K ++ y :: Q) ++ _ = (innerBreaks machineAct [cls x] ((enc A).length + clen x) K ++ _) ++
    (innerBreaks machineAct [cls y] ((enc (A ++ x :: K)).length + clen y) Q ++ _)
  rw [innerBreaks_resume hz hm, hp]
  simp

/-- A line that ends in a newline may be looked at by itself. -/
theorem fill_hard {W : Type} {ops : WidthOps W} {width : Nat → Nat → W} {maxWidth : W} (T2 : List (Nat × Bool)) : ∀ (T1 : List (Nat × Bool)) (lw : W) (pos : Nat) (e : Nat),
    T1.getLast? = some (e, true) → fill ops width maxWidth lw pos (T1 ++ T2) = fill ops width maxWidth lw pos T1 := by
  intro T1
  induction T1 with
  | nil => intro lw pos e h; cases h
  | cons b T1 ih =>
    intro lw pos e h
    rw [List.cons_append, fill, fill]
    cases T1 with
    | nil =>
      have hb : b.2 = true := by simp at h; rw [h]
      rw [hb]; rfl
    | cons c T1 =>
      have h' : (c :: T1).getLast? = some (e, true) := by simpa using h
      rw [ih _ _ e h']
      rfl

/-- A line may be looked at from its start. -/
theorem fill_shift {W : Type} {ops : WidthOps W} {width width' : Nat → Nat → W} {maxWidth : W} {k n : Nat} (hw : ∀ a b, b ≤ n → width (k + a) (k + b) = width' a b) :
    ∀ (T : List (Nat × Bool)) (lw : W) (pos : Nat), (∀ b ∈ T, b.1 ≤ n) →
    fill ops width maxWidth lw (k + pos) (T.map (shift k)) = (fill ops width' maxWidth lw pos T).map (k + ·) := by
  intro T
  induction T with
  | nil => intro lw pos _; rfl
  | cons b T ih =>
    intro lw pos hT
    have e : width (k + pos) (k + b.1) = width' pos b.1 := hw _ _ (hT b (by simp))
    have ih' := fun lw pos => ih lw pos (fun c hc => hT c (by simp [hc]))
    rw [List.map_cons, fill, fill]
    show (if b.2 = false then (if ops.isZero lw && ops.ge (width (k + pos) (k + b.1)) maxWidth then (if (T.map (shift k)).isEmpty then none else some (k + b.1))
      else if ops.gt (ops.add lw (width (k + pos) (k + b.1))) maxWidth then some (k + pos)
      else fill ops width maxWidth (ops.add lw (width (k + pos) (k + b.1))) (k + b.1) (T.map (shift k)))
      else if !ops.isZero lw && ops.gt (ops.add (width (k + pos) (k + b.1)) lw) maxWidth then some (k + pos) else some (k + b.1)) = _
    rw [e, ih', List.isEmpty_map]
    repeat' split
    all_goals rfl

/-- No line starts with a zero width joiner (class 42), except perhaps the first. -/
def NoJoiner (cs : List Char) : Prop := ∀ X y Y, cs = X ++ '\n' :: y :: Y → lbProperty y ≠ some 42

theorem NoJoiner.cls {cs X Y : List Char} {y : Char} (h : NoJoiner cs) (e : cs = X ++ '\n' :: y :: Y) : cls y ≠ ZWJ := by
  have := h X y Y e
  obtain ⟨q, hq, _⟩ := lbProperty_some y
  intro e
  apply this
  rw [hq]; unfold Unicode.cls at e; rw [hq] at e; exact congrArg some e

/-- A text that ends in a newline. -/
theorem ends_newline {X : List Char} (h : (enc X).getLast? = some newline) : ∃ Y, X = Y ++ ['\n'] := by
  have hne : enc X ≠ [] := by intro e; rw [e] at h; cases h
  have hlen : 0 < (enc X).length := List.length_pos_iff.2 hne
  have hi : (enc X)[(enc X).length - 1]? = some newline := by rw [← List.getLast?_eq_getElem?]; exact h
  have h1 : isCharBoundary (enc X) ((enc X).length - 1) = true := by
    simp only [isCharBoundary, hi]
    simp [isCont, newline]
  obtain ⟨_, ⟨Y, hY⟩, _⟩ := utf8_split ⟨X, rfl⟩ h1
  refine ⟨Y, enc_inj ?_⟩
  rw [enc_append, show enc Y = (enc X).take ((enc X).length - 1) from hY.symm]
  rw [List.getLast?_eq_some_iff] at h
  obtain ⟨ys, hys⟩ := h
  rw [hys]
  simp
  rfl

/-- What the lines of a text give, from the place `pos` on. -/
theorem streamTo_from {A X L Q : List Char} (fin : Bool) {pos : Nat} (hX : X = [] ∨ (enc X).getLast? = some newline) (hL : L ≠ [])
    (hQ : Q = [] ∨ (enc L).getLast? = some newline) (hj : NoJoiner (A ++ (X ++ (L ++ Q)))) (h1 : (enc (A ++ X)).length ≤ pos) (h2 : pos < (enc (A ++ (X ++ L))).length) :
    ∃ T2, (streamTo A (X ++ (L ++ Q)) fin).filter (fun b => decide (pos < b.1)) =
      (streamTo (A ++ X) L (if Q = [] then fin else true)).filter (fun b => decide (pos < b.1)) ++ T2 ∧ (Q = [] → T2 = []) := by
  -- the lines before
  have step1 : (streamTo A (X ++ (L ++ Q)) fin).filter (fun b => decide (pos < b.1)) = (streamTo (A ++ X) (L ++ Q) fin).filter (fun b => decide (pos < b.1)) := by
    rcases hX with rfl | hX
    · simp
    · obtain ⟨Y, rfl⟩ := ends_newline hX
      obtain ⟨l, L', rfl⟩ : ∃ l L', L = l :: L' := by cases L with | nil => exact absurd rfl hL | cons l L' => exact ⟨l, L', rfl⟩
      have e : Y ++ ['\n'] ++ (l :: L' ++ Q) = Y ++ '\n' :: l :: (L' ++ Q) := by simp
      rw [e, streamTo_line A Y l (L' ++ Q) fin (hj.cls (X := A ++ Y) (Y := L' ++ Q) (by simp)), List.filter_append]
      have : (streamTo A (Y ++ ['\n']) true).filter (fun b => decide (pos < b.1)) = [] := by
        rw [List.filter_eq_nil_iff]
        intro b hb
        have := ((streamTo_chain A (Y ++ ['\n']) true).mem hb).2
        simp; omega
      rw [this]; rfl
  rw [step1]
  by_cases hq : Q = []
  · refine ⟨[], ?_, fun _ => rfl⟩
    rw [if_pos hq, hq]; simp
  · rw [if_neg hq]
    rcases hQ with h | hQ
    · exact absurd h hq
    · obtain ⟨Y, rfl⟩ := ends_newline hQ
      obtain ⟨y, Q', rfl⟩ : ∃ y Q', Q = y :: Q' := by cases Q with | nil => exact absurd rfl hq | cons l L' => exact ⟨l, L', rfl⟩
      have e : Y ++ ['\n'] ++ y :: Q' = Y ++ '\n' :: y :: Q' := by simp
      rw [e, streamTo_line (A ++ X) Y y Q' fin (hj.cls (X := A ++ (X ++ Y)) (Y := Q') (by simp)), List.filter_append]
      exact ⟨_, rfl, fun h => absurd h hq⟩

/-- The breaks of a line taken by itself. -/
theorem lineStream_eq (L : List Char) : lineStream (enc L) = streamTo [] L (endsLine (enc L)) := by
  cases L with
  | nil => rfl
  | cons x B =>
    have hp := enc_pos (a := x :: B) (by simp)
    rw [lineStream, if_neg (by intro e; rw [e] at hp; simp at hp), lineBreaks_spec]
    unfold streamTo
    rw [if_neg (by simp)]
    obtain ⟨b, hb⟩ := breaksBy_inner machineAct B [cls x] (clen x)
    show (breaksBy machineAct [cls x] (clen x) B).dropLast ++ _ = innerBreaks machineAct [cls x] ((enc []).length + clen x) B ++ _
    rw [hb, List.dropLast_concat, show (enc []).length + clen x = clen x from Nat.zero_add _]
    rfl

section

variable {W : Type} {ops : WidthOps W} {measure : List UInt8 → W} {maxWidth : W}

/-- What is chosen from the breaks of the whole text is what the rule for the line says. -/
theorem fill_rule {A B : List Char} (hj : NoJoiner (A ++ B)) (hA : A = [] ∨ (enc A).getLast? = some newline) {pos : Nat} (h1 : (enc A).length ≤ pos)
    (h2 : pos ≤ (enc (A ++ B)).length) :
    fill ops (widthIn measure (enc (A ++ B))) maxWidth ops.zero pos ((streamTo A B (endsLine (enc (A ++ B)))).filter fun b => decide (pos < b.1)) =
      wrapOneLine (fillRule ops measure maxWidth) (enc (A ++ B)) pos := by
  obtain ⟨p, s, q, i, e, hl, hpos, hi⟩ := logical_exists _ (enc (A ++ B)) rfl pos h2
  -- in characters
  obtain ⟨⟨P, hP⟩, hrest⟩ := boundary_after_lines ⟨A ++ B, rfl⟩ e hl.start
  have hP : p = enc P := hP
  have hsq : Utf8 s ∧ Utf8 q := by
    rcases hl.stop with h | h
    · have := boundary_after_lines hrest rfl (Or.inr h)
      exact this
    · rw [h, List.append_nil] at hrest
      exact ⟨hrest, h ▸ utf8_nil⟩
  obtain ⟨⟨L, hL⟩, ⟨Q, hQ⟩⟩ := hsq
  have hL : s = enc L := hL
  have hQ : q = enc Q := hQ
  subst hP hL hQ
  have ecs : A ++ B = P ++ (L ++ Q) := enc_inj (by rw [e, enc_append, enc_append])
  -- the start is not inside of the line
  have hAP : (enc A).length ≤ (enc P).length := by
    apply Classical.byContradiction
    intro hn
    have hA' : A ≠ [] := by intro h; rw [h] at hn; simp [enc] at hn
    have hA : (enc A).getLast? = some newline := hA.resolve_left hA'
    have hlb : LineBoundary (enc (A ++ B)) (enc A).length := by
      have h0 := enc_pos hA'
      refine ⟨h0, ?_⟩
      rw [enc_append, List.getElem?_append_left (by omega), ← List.getLast?_eq_getElem?]; exact hA
    have h4 := (lineBoundary_iff e hl (i := (enc A).length - (enc P).length) (by omega) (by omega)).1
      (by rw [show (enc P).length + ((enc A).length - (enc P).length) = (enc A).length by omega]; exact hlb)
    rcases hi with hi | ⟨hi, _, hno⟩
    · omega
    · exact hno h4.2
  obtain ⟨X, hX1, hX2⟩ := cut_prefix (a := A) (b := B) (a' := P) (b' := L ++ Q) (by rw [← enc_append, ← enc_append, ecs]) hAP
  subst hX1
  have hXnl : X = [] ∨ (enc X).getLast? = some newline := by
    rcases hl.start with h | h
    · left
      have : (enc (A ++ X)).length = 0 := by rw [h]; rfl
      rw [enc_append, List.length_append] at this
      cases X with
      | nil => rfl
      | cons a b => have := enc_pos (a := a :: b) (by simp); omega
    · by_cases hx : X = []
      · exact .inl hx
      · right
        rw [enc_append, LineBreakCursor.getLast_append _ (by have := enc_pos hx; intro e; rw [e] at this; simp at this)] at h
        exact h
  rw [e, hpos, wrapOneLine_eq hl hi]
  rw [← e, ← hpos]
  have hruleU : fillRule ops measure maxWidth (enc L) i = fill ops (widthIn measure (enc L)) maxWidth ops.zero i ((lineStream (enc L)).filter fun b => decide (i < b.1)) := by
    unfold fillRule
    rw [if_pos ⟨L, rfl⟩]; rfl
  rw [hruleU]
  by_cases hLn : L = []
  · -- at the end of the text
    subst hLn
    have hi0 : i = 0 := by
      rcases hi with hi | ⟨hi, _⟩
      · simp [enc] at hi
      · simpa [enc] using hi
    have hq : enc Q = [] := hl.stop.resolve_left (by simp [enc])
    have hlenall : (enc (A ++ B)).length = (enc (A ++ X)).length := by rw [e, hq]; simp [enc]
    have : (streamTo A B (endsLine (enc (A ++ B)))).filter (fun b => decide (pos < b.1)) = [] := by
      rw [List.filter_eq_nil_iff]
      intro b hb
      have := ((streamTo_chain A B _).mem hb).2
      simp; omega
    rw [this]; rfl
  · have hQ' : Q = [] ∨ (enc L).getLast? = some newline := by
      rcases hl.stop with h | h
      · exact .inr h
      · left
        cases Q with
        | nil => rfl
        | cons a b => have := enc_pos (a := a :: b) (by simp); rw [h] at this; simp at this
    by_cases hii : i < (enc L).length
    · obtain ⟨T2, hT, hT2⟩ := streamTo_from (A := A) (X := X) (L := L) (Q := Q) (endsLine (enc (A ++ B))) (pos := pos) hXnl hLn hQ' (by rw [← hX2]; exact hj) (by omega) (by
        rw [← List.append_assoc, enc_append, List.length_append]; omega)
      rw [hX2] at hT ⊢
      rw [hT]
      have hfin : (if Q = [] then endsLine (enc (A ++ (X ++ (L ++ Q)))) else true) = endsLine (enc L) := by
        have hencL := enc_pos hLn
        split
        · rename_i h
          subst h
          rw [List.append_nil, ← List.append_assoc, enc_append, endsLine, LineBreakCursor.getLast_append _ (by intro e; rw [e] at hencL; simp at hencL)]
          rfl
        · rename_i h
          rw [endsLine, hQ'.resolve_left h]; rfl
      rw [← hX2] at *
      rw [hfin]
      have hsplit : fill ops (widthIn measure (enc (A ++ B))) maxWidth ops.zero pos
          ((streamTo (A ++ X) L (endsLine (enc L))).filter (fun b => decide (pos < b.1)) ++ T2) =
          fill ops (widthIn measure (enc (A ++ B))) maxWidth ops.zero pos ((streamTo (A ++ X) L (endsLine (enc L))).filter (fun b => decide (pos < b.1))) := by
        by_cases hq : Q = []
        · rw [hT2 hq, List.append_nil]
        · refine fill_hard T2 _ _ _ (enc (A ++ X ++ L)).length ?_
          unfold streamTo
          rw [if_neg hLn, List.filter_append, List.filter_cons_of_pos (by
            rw [enc_append (A ++ X), List.length_append]; simp only [decide_eq_true_eq]; clear hi; omega), List.filter_nil, List.getLast?_append]
          rw [endsLine, hQ'.resolve_left hq]; rfl
      rw [hsplit, streamTo_shift, lineStream_eq, List.filter_map]
      have hf : ((fun b : Nat × Bool => decide (pos < b.1)) ∘ shift (enc (A ++ X)).length) = fun b => decide (i < b.1) := by
        funext b
        show decide (pos < (enc (A ++ X)).length + b.1) = decide (i < b.1)
        rw [decide_eq_decide]; omega
      rw [hf, hpos]
      refine fill_shift (n := (enc L).length) ?_ _ _ _ ?_
      · intro a b hb
        unfold widthIn
        rw [e, List.take_length_add_append, List.drop_length_add_append, List.take_append_of_le_length hb]
      · intro b hb
        have := ((streamTo_chain [] L _).mem (List.mem_filter.1 hb).1).2
        simpa using this
    · -- at the end of the text, in a line without a newline
      have hie : i = (enc L).length ∧ enc Q = [] := by
        rcases hi with hi | ⟨h, h', _⟩
        · exact absurd hi hii
        · exact ⟨h, h'⟩
      have hlenall : (enc (A ++ B)).length = (enc (A ++ X)).length + (enc L).length := by
        rw [e, hie.2, List.append_nil, List.length_append]
      have h5 : (streamTo A B (endsLine (enc (A ++ B)))).filter (fun b => decide (pos < b.1)) = [] := by
        rw [List.filter_eq_nil_iff]
        intro b hb
        have := ((streamTo_chain A B _).mem hb).2
        simp; omega
      have h6 : (lineStream (enc L)).filter (fun b => decide (i < b.1)) = [] := by
        rw [List.filter_eq_nil_iff, lineStream_eq]
        intro b hb
        have := ((streamTo_chain [] L _).mem hb).2
        simp at this ⊢
        rw [hie.1]; simp [enc]
        omega
      rw [h5, h6]; rfl

end

end Xi
