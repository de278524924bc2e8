import Verif.Core.Detect
import Verif.Props.Cursor

/-!
# Detection of line endings and indentation: property C44
-/

namespace Xi

deriving instance DecidableEq for Except

namespace LineEnding

/-- Line feeds come only after carriage returns, and these only before line feeds. -/
def AllCrLf : List UInt8 → Prop
  | [] => True
  | 13 :: 10 :: s => AllCrLf s
  | 13 :: _ => False
  | 10 :: _ => False
  | _ :: s => AllCrLf s

theorem parseChunk_none {c : List UInt8} : parseChunk c = .ok none ↔ 10 ∉ c ∧ 13 ∉ c := by
  unfold parseChunk
  split
  · rename_i x hx
    have hmem := List.findIdx?_eq_some_iff_getElem.mp hx
    obtain ⟨hlt, hb, _⟩ := hmem
    constructor
    · intro h
      split at h
      · simp at h
      · split at h <;> simp at h
    · rintro ⟨h1, h2⟩
      exfalso
      have hin := List.getElem_mem hlt
      rcases Bool.or_eq_true _ _ ▸ hb with h | h
      · have h := eq_of_beq h; rw [h] at hin; exact h1 hin
      · have h := eq_of_beq h; rw [h] at hin; exact h2 hin
  · rename_i hx
    have := List.findIdx?_eq_none_iff.mp hx
    refine ⟨fun _ => ⟨fun h => by simpa using this _ h, fun h => by simpa using this _ h⟩, fun _ => rfl⟩

theorem parseChunk_lf {c : List UInt8} (h : 13 ∉ c) : parseChunk c = .ok (if 10 ∈ c then some .lf else none) := by
  by_cases h10 : (10 : UInt8) ∈ c
  · rw [if_pos h10]
    unfold parseChunk
    split
    · rename_i x hx
      obtain ⟨hlt, hb, _⟩ := List.findIdx?_eq_some_iff_getElem.mp hx
      have hin := List.getElem_mem hlt
      have h13 : c[x]? ≠ some 13 := by
        rw [List.getElem?_eq_getElem hlt]
        intro he
        rw [Option.some.inj he] at hin
        exact h hin
      rw [if_neg (fun hc => h13 hc.1)]
      rcases Bool.or_eq_true _ _ ▸ hb with hb | hb
      · rw [if_pos (by rw [List.getElem?_eq_getElem hlt, eq_of_beq hb])]
      · exact absurd (by rw [List.getElem?_eq_getElem hlt, eq_of_beq hb]) h13
    · rename_i hx
      exact absurd (List.findIdx?_eq_none_iff.mp hx _ h10) (by decide)
  · rw [if_neg h10]
    exact parseChunk_none.mpr ⟨h10, h⟩

theorem parseLoop_lf : ∀ (cs : List (List UInt8)) (crlf hasLf : Bool), 13 ∉ cs.flatten →
    parseLoop crlf hasLf cs = .ok (crlf, hasLf || decide (10 ∈ cs.flatten))
  | [], crlf, hasLf, _ => by simp [parseLoop]
  | c :: cs, crlf, hasLf, h => by
    simp only [List.flatten_cons, List.mem_append, not_or] at h
    simp only [parseLoop, parseChunk_lf h.1, List.flatten_cons, List.mem_append]
    by_cases h10 : (10 : UInt8) ∈ c
    · simp [h10, parseLoop_lf cs crlf true h.2]
    · simp [h10, parseLoop_lf cs crlf hasLf h.2]

/-- A whole document with only `\r\n`, in one chunk. -/
theorem parseChunk_crlf : ∀ {c : List UInt8}, AllCrLf c → parseChunk c = .ok (if 10 ∈ c then some .crLf else none)
  | [], _ => by simp [parseChunk]
  | b :: c, h => by
    unfold AllCrLf at h
    split at h
    · rename_i he; simp at he
    · rename_i s' he
      cases he
      simp [parseChunk, List.findIdx?_cons]
    · exact h.elim
    · exact h.elim
    · rename_i b' s' hn h13 h10 he
      cases he
      have hb13 : b ≠ 13 := by intro hb; subst hb; cases c <;> simp_all
      have hb10 : b ≠ 10 := by intro hb; subst hb; simp_all
      have ih := parseChunk_crlf h
      have key : parseChunk (b :: c) = parseChunk c := by
        unfold parseChunk
        rw [List.findIdx?_cons]
        have : (b == 10 || b == 13) = false := by simp [hb10, hb13]
        rw [this]
        cases hx : c.findIdx? (fun b => b == 10 || b == 13) with
        | none => simp
        | some x => simp
      rw [key, ih]
      simp [hb10.symm]

theorem AllCrLf.append : ∀ {a b : List UInt8}, AllCrLf (a ++ b) → a.getLast? ≠ some 13 → AllCrLf a ∧ AllCrLf b
  | [], b, h, _ => ⟨trivial, h⟩
  | [x], b, h, hl => by
    have hx : x ≠ 13 := by intro hx; subst hx; simp at hl
    have hx10 : x ≠ 10 := by intro hx; subst hx; simp [AllCrLf] at h
    have : AllCrLf (x :: b) = AllCrLf b := by
      rw [AllCrLf.eq_def]
      split <;> simp_all
    rw [List.singleton_append, this] at h
    refine ⟨?_, h⟩
    rw [AllCrLf.eq_def]
    split <;> simp_all [AllCrLf]
  | x :: y :: a, b, h, hl => by
    have hl' : a ≠ [] → a.getLast? ≠ some 13 := by
      intro ha
      cases a with
      | nil => exact absurd rfl ha
      | cons z a => simpa using hl
    by_cases hx : x = 13 ∧ y = 10
    · obtain ⟨rfl, rfl⟩ := hx
      have h' : AllCrLf (a ++ b) := h
      have : a.getLast? ≠ some 13 := by
        cases a with
        | nil => simp
        | cons z a => exact hl' (by simp)
      obtain ⟨h1, h2⟩ := AllCrLf.append h' this
      exact ⟨h1, h2⟩
    · have hx13 : x ≠ 13 := by
        intro hx'
        subst hx'
        rw [List.cons_append, List.cons_append, AllCrLf.eq_def] at h
        split at h <;> simp_all
      have hx10 : x ≠ 10 := by
        intro hx'
        subst hx'
        rw [List.cons_append, AllCrLf.eq_def] at h
        split at h <;> simp_all
      have drop : ∀ s, AllCrLf (x :: s) = AllCrLf s := by
        intro s
        rw [AllCrLf.eq_def]
        split <;> simp_all
      rw [List.cons_append, drop] at h
      obtain ⟨h1, h2⟩ := AllCrLf.append (a := y :: a) h (by simpa using hl)
      exact ⟨by rw [drop]; exact h1, h2⟩
  termination_by a => a.length

theorem parseLoop_crlf : ∀ (cs : List (List UInt8)) (crlf hasLf : Bool), AllCrLf cs.flatten → (∀ c ∈ cs, c.getLast? ≠ some 13) →
    parseLoop crlf hasLf cs = .ok (crlf || decide (10 ∈ cs.flatten), hasLf)
  | [], crlf, hasLf, _, _ => by simp [parseLoop]
  | c :: cs, crlf, hasLf, h, hl => by
    rw [List.flatten_cons] at h
    obtain ⟨h1, h2⟩ := h.append (hl c (by simp))
    have hl' : ∀ c ∈ cs, c.getLast? ≠ some 13 := fun c' hc' => hl c' (by simp [hc'])
    simp only [parseLoop, parseChunk_crlf h1, List.flatten_cons, List.mem_append]
    by_cases h10 : (10 : UInt8) ∈ c
    · simp [h10, parseLoop_crlf cs true hasLf h2 hl']
    · simp [h10, parseLoop_crlf cs crlf hasLf h2 hl']

theorem parseLoop_none : ∀ (cs : List (List UInt8)) (crlf hasLf : Bool), parseLoop crlf hasLf cs = .ok (false, false) →
    crlf = false ∧ hasLf = false ∧ 10 ∉ cs.flatten ∧ 13 ∉ cs.flatten
  | [], crlf, hasLf, h => by simp [parseLoop] at h; simp [h]
  | c :: cs, crlf, hasLf, h => by
    unfold parseLoop at h
    split at h
    · exact absurd (parseLoop_none cs _ _ h).1 (by simp)
    · exact absurd (parseLoop_none cs _ _ h).2.1 (by simp)
    · rename_i hc
      obtain ⟨h1, h2, h3, h4⟩ := parseLoop_none cs _ _ h
      obtain ⟨g1, g2⟩ := parseChunk_none.mp hc
      simp [h1, h2, h3, h4, g1, g2]
    · simp at h

end LineEnding

/-- The chunks of the whole rope are its text. -/
theorem chunks_full {r : Rope} (hr : r.Balanced) : ∃ cs, r.chunks .full = some cs ∧ cs.flatten = r.text := by
  have hu := Rope.text_utf8 hr
  obtain ⟨cs, h1, h2, _⟩ := C06_chunks r .full hr (by simp [Bounds.lo, Bounds.hi])
    (by obtain ⟨x, h⟩ := hu; exact ⟨[], x, by simpa using h, rfl⟩)
    (by obtain ⟨x, h⟩ := hu; exact ⟨x, [], by simpa using h, by simp [Bounds.hi, h]⟩)
  exact ⟨cs, h1, by simpa [Bounds.lo, Bounds.hi] using h2⟩

/-- **C44.** A document without carriage returns is reported as `\n` if it has a line
break, and as unknown if it has none, however it is cut into chunks. -/
theorem C44_lf (r : Rope) (hr : r.Balanced) (h : 13 ∉ r.text) :
    LineEnding.parse r = some (.ok (if 10 ∈ r.text then some .lf else none)) := by
  obtain ⟨cs, h1, h2⟩ := chunks_full hr
  rw [LineEnding.parse, h1, Option.map_some, LineEnding.parseChunks, LineEnding.parseLoop_lf cs _ _ (by rw [h2]; exact h), h2]
  by_cases h10 : (10 : UInt8) ∈ r.text <;> simp [h10]

/-- **C44.** A document is reported as unknown only if it has neither line feeds nor
carriage returns. -/
theorem C44_unknown (r : Rope) (hr : r.Balanced) :
    LineEnding.parse r = some (.ok none) ↔ 10 ∉ r.text ∧ 13 ∉ r.text := by
  constructor
  · intro h
    obtain ⟨cs, h1, h2⟩ := chunks_full hr
    rw [LineEnding.parse, h1, Option.map_some, LineEnding.parseChunks] at h
    split at h
    · simp at h
    · simp at h
    · simp at h
    · rename_i hl
      rw [← h2]
      exact (LineEnding.parseLoop_none cs _ _ hl).2.2
    · simp at h
  · rintro ⟨h1, h2⟩
    rw [C44_lf r hr h2, if_neg h1]

/-- **C44, in part.** A document in which all line breaks are `\r\n` is reported as such
if no chunk ends between the two characters.  Missing: chunks that do, for which it is
false (`C44_crlf_refuted`). -/
theorem C44_crlf_partial (r : Rope) (hr : r.Balanced) (h : LineEnding.AllCrLf r.text)
    (hc : ∀ cs, r.chunks .full = some cs → ∀ c ∈ cs, c.getLast? ≠ some 13) :
    LineEnding.parse r = some (.ok (if 10 ∈ r.text then some .crLf else none)) := by
  obtain ⟨cs, h1, h2⟩ := chunks_full hr
  rw [LineEnding.parse, h1, Option.map_some, LineEnding.parseChunks,
    LineEnding.parseLoop_crlf cs _ _ (by rw [h2]; exact h) (hc cs h1), h2]
  by_cases h10 : (10 : UInt8) ∈ r.text <;> simp [h10]

/-- A line, `\r\n`, and another line. -/
def crlfText (n m : Nat) : List UInt8 := List.replicate n 97 ++ ([13, 10] ++ List.replicate m 98)

theorem crlfText_all (n m : Nat) : LineEnding.AllCrLf (crlfText n m) := by
  unfold crlfText
  induction n with
  | zero =>
    rw [List.replicate_zero, List.nil_append]
    show LineEnding.AllCrLf (List.replicate m 98)
    induction m with
    | zero => trivial
    | succ m ih => rw [List.replicate_succ]; exact ih
  | succ n ih => rw [List.replicate_succ, List.cons_append]; exact ih

theorem crlfText_parse : (Rope.fromStr (crlfText 1023 600)).bind LineEnding.parse = some (.error ()) := by decide +kernel

section

attribute [local irreducible] LineEnding.AllCrLf

/-- **C44, refuted.** A document with one line break, `\r\n`, after a line of 1023 bytes:
when it is loaded, the first chunk ends with the carriage return, and the document is
reported as having mixed line endings. -/
theorem C44_crlf_refuted :
    ∃ s, LineEnding.AllCrLf s ∧ (Rope.fromStr s).bind LineEnding.parse = some (.error ()) :=
  ⟨crlfText 1023 600, crlfText_all 1023 600, crlfText_parse⟩

end

/-- **C44, refuted.** A document with both kinds of line break is reported as `\n` if it
is one chunk, and as mixed if it is two. -/
theorem C44_chunking_refuted :
    LineEnding.parseChunks [[97, 10, 98, 13, 10]] = .ok (some .lf) ∧
    LineEnding.parseChunks [[97, 10, 98], [13, 10]] = .error () := by
  decide

/-- A line of ASCII text and two line breaks. -/
example : LineEnding.AllCrLf [97, 13, 10, 98, 13, 10] ∧
    ((Rope.fromStr [97, 13, 10, 98, 13, 10]).bind LineEnding.parse) = some (.ok (some .crLf)) ∧
    ((Rope.fromStr [97, 13, 10, 98, 13, 10]).bind (·.chunks .full)) = some [[97, 13, 10, 98, 13, 10]] := by
  exact ⟨trivial, by decide +kernel, by decide +kernel⟩

/-! ## Indentation -/

/-- How a line is indented: the number of spaces before the first other byte, and whether
that byte is a tab. -/
def leading (l : List UInt8) : Nat × Bool := ((l.takeWhile (· = 32)).length, (l.dropWhile (· = 32)).head? = some 9)

theorem parseLineFrom_spec : ∀ (l : List UInt8) (n : Nat), Indentation.parseLineFrom n l =
    match n + (leading l).1, (leading l).2 with
    | 0, false => .ok none
    | 0, true => .ok (some .tabs)
    | m + 1, false => .ok (some (.spaces (m + 1)))
    | _ + 1, true => .error ()
  | [], n => by cases n <;> simp [Indentation.parseLineFrom, leading]
  | b :: l, n => by
    by_cases h32 : b = 32
    · subst h32
      have e : leading (32 :: l) = ((leading l).1 + 1, (leading l).2) := by simp [leading]
      rw [Indentation.parseLineFrom, parseLineFrom_spec l (n + 1), e]
      rw [show n + 1 + (leading l).1 = n + ((leading l).1 + 1) by omega]
    · have e : leading (b :: l) = (0, decide (b = 9)) := by simp [leading, h32]
      rw [e]
      by_cases h9 : b = 9
      · subst h9
        cases n <;> simp [Indentation.parseLineFrom]
      · have : Indentation.parseLineFrom n (b :: l) = .ok (if n > 0 then some (.spaces n) else none) := by
          rw [Indentation.parseLineFrom.eq_def]
          split <;> simp_all
        rw [this]
        cases n <;> simp [h9]

theorem gcdLoop_eq : ∀ (fuel a b : Nat), b < fuel → Indentation.gcdLoop fuel a b = Nat.gcd a b
  | 0, a, b, h => by omega
  | fuel + 1, a, b, h => by
    unfold Indentation.gcdLoop
    by_cases hb : b > 0
    · rw [if_pos hb, gcdLoop_eq fuel b (a % b) (by have := Nat.mod_lt a hb; omega), Nat.gcd_comm a b]
      rw [Nat.gcd_comm b (a % b), ← Nat.gcd_rec]
    · rw [if_neg hb]
      have : b = 0 := by omega
      subst this; simp

/-- **C44.** `gcd` is the greatest common divisor. -/
theorem C44_gcd (a b : Nat) : Indentation.gcd a b = Nat.gcd a b := by
  unfold Indentation.gcd
  split
  · rename_i h; subst h; simp
  · split
    · rename_i h
      rcases h with rfl | rfl <;> simp
    · exact gcdLoop_eq _ _ _ (by omega)

/-- The keys in the map of counts. -/
def keysOf (m : List (Nat × Nat)) : List Nat := m.map (·.1)

theorem count_keys (size : Nat) : ∀ (m : List (Nat × Nat)), (∀ k, k ∈ keysOf (Indentation.count size m) ↔ k = size ∨ k ∈ keysOf m) ∧
    ((keysOf m).Pairwise (· < ·) → (keysOf (Indentation.count size m)).Pairwise (· < ·))
  | [] => by simp [Indentation.count, keysOf]
  | (j, c) :: m => by
    obtain ⟨h1, h2⟩ := count_keys size m
    unfold Indentation.count
    split
    · refine ⟨by simp [keysOf], ?_⟩
      intro h
      simp only [keysOf, List.map_cons, List.pairwise_cons] at h ⊢
      refine ⟨?_, h⟩
      intro k hk
      rcases List.mem_cons.mp hk with rfl | hk
      · assumption
      · have := h.1 k hk; omega
    · split
      · rename_i hs
        subst hs
        refine ⟨by simp [keysOf], ?_⟩
        intro h
        simpa [keysOf] using h
      · refine ⟨?_, ?_⟩
        · intro k
          have := h1 k
          simp only [keysOf, List.map_cons, List.mem_cons] at this ⊢
          rw [this]
          constructor
          · rintro (h | h | h) <;> simp [h]
          · rintro (h | h | h) <;> simp [h]
        · intro h
          simp only [keysOf, List.map_cons, List.pairwise_cons] at h ⊢
          refine ⟨?_, h2 h.2⟩
          intro k hk
          rcases (h1 k).mp hk with rfl | hk
          · omega
          · exact h.1 k hk

/-- What the loop over the lines finds out. -/
theorem parseLoop_indent : ∀ (ls : List (List UInt8)) (t : Bool) (m : List (Nat × Nat)), (keysOf m).Pairwise (· < ·) →
    ((∃ l ∈ ls, 0 < (leading l).1 ∧ (leading l).2 = true) ∧ Indentation.parseLoop t m ls = .error ()) ∨
    ((∀ l ∈ ls, ¬ (0 < (leading l).1 ∧ (leading l).2 = true)) ∧ ∃ t' m', Indentation.parseLoop t m ls = .ok (t', m') ∧
      (keysOf m').Pairwise (· < ·) ∧ (t' = true ↔ t = true ∨ ∃ l ∈ ls, leading l = (0, true)) ∧
      ∀ k, k ∈ keysOf m' ↔ k ∈ keysOf m ∨ (0 < k ∧ ∃ l ∈ ls, leading l = (k, false)))
  | [], t, m, hm => by
    right
    refine ⟨by simp, t, m, rfl, hm, by simp, by simp⟩
  | l :: ls, t, m, hm => by
    unfold Indentation.parseLoop
    have e0 := parseLineFrom_spec l 0
    rw [Nat.zero_add] at e0
    rw [e0]
    generalize hl : leading l = p
    obtain ⟨a, b⟩ := p
    cases a with
    | zero =>
      cases b with
      | false =>
        simp only
        rcases parseLoop_indent ls t m hm with ⟨⟨x, hx, hy⟩, e⟩ | ⟨hn, t', m', e, hs, ht, hk⟩
        · left; exact ⟨⟨x, by simp [hx], hy⟩, e⟩
        · right
          refine ⟨by simp only [List.forall_mem_cons]; exact ⟨by simp [hl], hn⟩, t', m', e, hs, ?_, ?_⟩
          · rw [ht]; simp [hl]
          · intro k; rw [hk]
            simp only [List.mem_cons, exists_eq_or_imp, hl, Prod.mk.injEq, and_true]
            constructor
            · rintro (h | ⟨h0, h⟩)
              · exact .inl h
              · exact .inr ⟨h0, .inr h⟩
            · rintro (h | ⟨h0, h | h⟩)
              · exact .inl h
              · omega
              · exact .inr ⟨h0, h⟩
      | true =>
        simp only
        rcases parseLoop_indent ls true m hm with ⟨⟨x, hx, hy⟩, e⟩ | ⟨hn, t', m', e, hs, ht, hk⟩
        · left; exact ⟨⟨x, by simp [hx], hy⟩, e⟩
        · right
          refine ⟨by simp only [List.forall_mem_cons]; exact ⟨by simp [hl], hn⟩, t', m', e, hs, ?_, ?_⟩
          · rw [ht]; simp [hl]
          · intro k; rw [hk]; simp [hl]
    | succ a =>
      cases b with
      | false =>
        simp only
        obtain ⟨hc1, hc2⟩ := count_keys (a + 1) m
        rcases parseLoop_indent ls t (Indentation.count (a + 1) m) (hc2 hm) with ⟨⟨x, hx, hy⟩, e⟩ | ⟨hn, t', m', e, hs, ht, hk⟩
        · left; exact ⟨⟨x, by simp [hx], hy⟩, e⟩
        · right
          refine ⟨by simp only [List.forall_mem_cons]; exact ⟨by simp [hl], hn⟩, t', m', e, hs, ?_, ?_⟩
          · rw [ht]; simp [hl]
          · intro k; rw [hk, hc1]
            simp only [List.mem_cons, exists_eq_or_imp, hl, Prod.mk.injEq, and_true]
            constructor
            · rintro ((h | h) | ⟨h0, h⟩)
              · exact .inr ⟨by omega, .inl h.symm⟩
              · exact .inl h
              · exact .inr ⟨h0, .inr h⟩
            · rintro (h | ⟨h0, h | h⟩)
              · exact .inl (.inr h)
              · exact .inl (.inl h.symm)
              · exact .inr ⟨h0, h⟩
      | true =>
        left
        refine ⟨⟨l, by simp, by simp [hl]⟩, ?_⟩
        simp only

/-- The smallest size is found if all sizes are multiples of it. -/
theorem extractCount_multiple {m : List (Nat × Nat)} {n : Nat} (hs : (keysOf m).Pairwise (· < ·)) (hn : 2 ≤ n)
    (hmem : n ∈ keysOf m) (hall : ∀ k ∈ keysOf m, 0 < k ∧ n ∣ k) : Indentation.extractCount m = n := by
  cases m with
  | nil => simp [keysOf] at hmem
  | cons p m =>
    obtain ⟨j, c⟩ := p
    have hj : j = n := by
      simp only [keysOf, List.map_cons, List.pairwise_cons, List.mem_cons] at hs hmem hall
      rcases hmem with h | h
      · exact h.symm
      · have := hs.1 n h
        have hd := hall j (.inl rfl)
        have := Nat.le_of_dvd hd.1 hd.2
        omega
    subst hj
    have key : ∀ (l : List (Nat × Nat)), (∀ p ∈ l, j ∣ p.1) →
        l.foldl (fun a p => if Indentation.gcd a p.1 = 1 then a else Indentation.gcd a p.1) j = j := by
      intro l
      induction l with
      | nil => intro _; rfl
      | cons p l ih =>
        intro h
        rw [List.foldl_cons, C44_gcd, Nat.gcd_eq_left (h p (by simp)), if_neg (by omega)]
        exact ih (fun q hq => h q (by simp [hq]))
    unfold Indentation.extractCount
    simp only
    generalize hk : (if ((j, c) :: m).length < 4 then ((j, c) :: m).length else 4) = k
    have hk1 : ∃ i, k = i + 1 := by
      simp only [List.length_cons] at hk
      split at hk
      · exact ⟨m.length, hk.symm⟩
      · exact ⟨3, hk.symm⟩
    obtain ⟨i, rfl⟩ := hk1
    rw [List.take_succ_cons, List.foldl_cons]
    simp only [C44_gcd, Nat.gcd_zero_left]
    rw [if_neg (by omega)]
    have := key (m.take i) (by
      intro p hp
      exact (hall p.1 (by
        simp only [keysOf, List.map_cons, List.mem_cons]
        exact .inr (List.mem_map_of_mem (List.mem_of_mem_take hp)))).2)
    simpa only [C44_gcd] using this

/-- The lines of the whole rope. -/
theorem linesRaw_full {r : Rope} (hr : r.Balanced) : ∃ ls, r.linesRaw .full = some ls ∧ IsRawLines ls r.text := by
  have hu := Rope.text_utf8 hr
  obtain ⟨ls, h1, h2⟩ := C06_lines_raw r .full hr (by simp [Bounds.lo, Bounds.hi])
    (by obtain ⟨x, h⟩ := hu; exact ⟨[], x, by simpa using h, rfl⟩)
    (by obtain ⟨x, h⟩ := hu; exact ⟨x, [], by simpa using h, by simp [Bounds.hi, h]⟩)
  exact ⟨ls, h1, by simpa [Bounds.lo, Bounds.hi] using h2⟩

/-- **C44.** The indentation reported depends only on the text, not on its chunks. -/
theorem C44_indent_shape (r r' : Rope) (hr : r.Balanced) (hr' : r'.Balanced) (h : r.text = r'.text) :
    Indentation.parse r = Indentation.parse r' ∧ (Indentation.parse r).isSome := by
  obtain ⟨h1, h2⟩ := C06_lines_shape r r' hr hr' h
  refine ⟨by rw [Indentation.parse, Indentation.parse, h1], by rw [Indentation.parse, Option.isSome_map]; exact h2⟩

/-- **C44.** If the indented lines are all indented with tabs, that is reported. -/
theorem C44_indent_tabs (r : Rope) (ls : List (List UInt8)) (hr : r.Balanced) (hls : IsRawLines ls r.text)
    (hall : ∀ l ∈ ls, (leading l).1 = 0) (hsome : ∃ l ∈ ls, (leading l).2 = true) :
    Indentation.parse r = some (.ok (some .tabs)) := by
  obtain ⟨ls', h1, h2⟩ := linesRaw_full hr
  cases rawLines_unique hls h2
  rw [Indentation.parse, h1, Option.map_some, Indentation.parseLines]
  rcases parseLoop_indent ls false [] (by simp [keysOf]) with ⟨⟨x, hx, hy⟩, e⟩ | ⟨hn, t', m', e, hs, ht, hk⟩
  · have := hall x hx; omega
  · rw [e]
    obtain ⟨l, hl, hl2⟩ := hsome
    have ht' : t' = true := ht.mpr (.inr ⟨l, hl, Prod.ext (hall l hl) hl2⟩)
    have hm' : m' = [] := by
      cases m' with
      | nil => rfl
      | cons p m' =>
        rcases (hk p.1).mp (by simp [keysOf]) with h | ⟨h0, l, hl, h⟩
        · simp [keysOf] at h
        · have := hall l hl; rw [h] at this; simp only at this; omega
    subst ht' hm'
    rfl

/-- **C44.** If the indented lines are all indented with spaces, by multiples of `n`, and
at least one by `n`, then `n` is reported. -/
theorem C44_indent_spaces (r : Rope) (ls : List (List UInt8)) (n : Nat) (hr : r.Balanced) (hls : IsRawLines ls r.text) (hn : 2 ≤ n)
    (hall : ∀ l ∈ ls, (leading l).2 = false ∧ n ∣ (leading l).1) (hsome : ∃ l ∈ ls, (leading l).1 = n) :
    Indentation.parse r = some (.ok (some (.spaces n))) := by
  obtain ⟨ls', h1, h2⟩ := linesRaw_full hr
  cases rawLines_unique hls h2
  rw [Indentation.parse, h1, Option.map_some, Indentation.parseLines]
  rcases parseLoop_indent ls false [] (by simp [keysOf]) with ⟨⟨x, hx, hy⟩, e⟩ | ⟨hno, t', m', e, hs, ht, hk⟩
  · rw [(hall x hx).1] at hy; simp at hy
  · rw [e]
    obtain ⟨l, hl, hl2⟩ := hsome
    have hmem : n ∈ keysOf m' := (hk n).mpr (.inr ⟨by omega, l, hl, Prod.ext hl2 (hall l hl).1⟩)
    have ht' : t' = false := by
      cases t' with
      | false => rfl
      | true =>
        rcases ht.mp rfl with h | ⟨l, hl, h⟩
        · simp at h
        · have := (hall l hl).1; rw [h] at this; simp at this
    have hex := extractCount_multiple hs hn hmem (by
      intro k hk'
      rcases (hk k).mp hk' with h | ⟨h0, l, hl, h⟩
      · simp [keysOf] at h
      · have := (hall l hl).2; rw [h] at this; exact ⟨h0, this⟩)
    have hne : m'.isEmpty = false := by
      cases m' with
      | nil => simp [keysOf] at hmem
      | cons p m' => rfl
    subst ht'
    simp only [hne, Bool.not_false, hex]
    rw [if_pos (by omega)]

/-- **C44.** An error is reported exactly if some line has a tab after spaces, or some
line begins with a tab and another with a space. -/
theorem C44_indent_mixed (r : Rope) (ls : List (List UInt8)) (hr : r.Balanced) (hls : IsRawLines ls r.text) :
    Indentation.parse r = some (.error ()) ↔
      (∃ l ∈ ls, 0 < (leading l).1 ∧ (leading l).2 = true) ∨
      ((∃ l ∈ ls, leading l = (0, true)) ∧ ∃ l ∈ ls, 0 < (leading l).1) := by
  obtain ⟨ls', h1, h2⟩ := linesRaw_full hr
  cases rawLines_unique hls h2
  rw [Indentation.parse, h1, Option.map_some, Indentation.parseLines]
  rcases parseLoop_indent ls false [] (by simp [keysOf]) with ⟨hx, e⟩ | ⟨hno, t', m', e, hs, ht, hk⟩
  · rw [e]; simp [hx]
  · rw [e]
    have hempty : m'.isEmpty = false ↔ ∃ l ∈ ls, 0 < (leading l).1 := by
      constructor
      · intro h
        cases m' with
        | nil => simp at h
        | cons p m' =>
          rcases (hk p.1).mp (by simp [keysOf]) with h | ⟨h0, l, hl, h⟩
          · simp [keysOf] at h
          · exact ⟨l, hl, by rw [h]; exact h0⟩
      · rintro ⟨l, hl, h0⟩
        cases hl2 : (leading l).2 with
        | true => exact absurd ⟨h0, hl2⟩ (hno l hl)
        | false =>
          have := (hk (leading l).1).mpr (.inr ⟨h0, l, hl, Prod.ext rfl hl2⟩)
          cases m' with
          | nil => simp [keysOf] at this
          | cons p m' => rfl
    have hfirst : ¬ ∃ l ∈ ls, 0 < (leading l).1 ∧ (leading l).2 = true := by
      rintro ⟨l, hl, h⟩; exact hno l hl h
    simp only [Bool.false_eq_true, false_or] at ht
    rw [← hempty, ← ht]
    have h13 : ∀ x : Nat, (if 0 < x then Except.ok (some (Indentation.spaces x)) else Except.ok none : Except Unit (Option Indentation)) ≠
        .error () := by intro x; split <;> simp
    cases t' <;> cases hm : m'.isEmpty <;> simp [hfirst, hm, h13]

/-- Two levels of indentation by spaces, and lines that are not indented. -/
example : IsRawLines [[97, 10], [32, 32, 98, 10], [10], [32, 32, 32, 32, 99, 10], [100]]
    [97, 10, 32, 32, 98, 10, 10, 32, 32, 32, 32, 99, 10, 100] ∧
    leading [32, 32, 32, 32, 99, 10] = (4, false) ∧ leading [32, 32, 98, 10] = (2, false) ∧
    (Rope.fromStr [97, 10, 32, 32, 98, 10, 10, 32, 32, 32, 32, 99, 10, 100]).bind Indentation.parse = some (.ok (some (.spaces 2))) := by
  refine ⟨⟨rfl, by decide, by decide, by decide⟩, by decide, by decide, by decide +kernel⟩

end Xi
