import Verif.Lsp.Message
import Verif.Props.Files
import Verif.Props.Lsp
import Verif.Props.Detect

/-!
# C86: messages of a language server arrive whole
-/

namespace Xi.Lsp

open Find

/-! ## Specification: messages of the protocol -/

/-- A header of a message: its length, or its type. -/
inductive Field where
  | length (name : List Char)
  | type (name value : List Char)

/-- The end of a line. -/
def eol (crlf : Bool) : List Char := if crlf then ['\r', '\n'] else ['\n']

/-- The line of a header of a message that is `n` bytes long. -/
def Field.line (n : Nat) : Field → List Char
  | .length name => name ++ ": ".toList ++ Nat.toDigits 10 n
  | .type name value => name ++ ": ".toList ++ value

/-- Names are written in upper or lower case, and lines do not contain line feeds. -/
def Field.Ok : Field → Prop
  | .length name => name.map Char.toLower = "content-length".toList
  | .type name value => name.map Char.toLower = "content-type".toList ∧ '\n' ∉ value

/-- Whether a header tells the length. -/
def Field.isLength : Field → Bool
  | .length _ => true
  | .type _ _ => false

/-- A message: its headers, each with the kind of line end, the line end after them, and the body. -/
structure Msg where
  fields : List (Field × Bool)
  crlf : Bool
  body : List UInt8

/-- The bytes of a message. -/
def Msg.bytes (m : Msg) : List UInt8 := enc ((m.fields.flatMap fun f => f.1.line m.body.length ++ eol f.2) ++ eol m.crlf) ++ m.body

/-- The length is told, and the body is text. -/
structure Msg.Ok (m : Msg) : Prop where
  fields : ∀ f ∈ m.fields, f.1.Ok
  told : ∃ f ∈ m.fields, f.1.isLength = true
  text : Utf8 m.body
  size : m.body.length < 2 ^ 64

/-- What is assumed of `str::to_lowercase`. -/
def LowerOk (lower : List Char → List Char) : Prop := ∀ s : List Char, (∀ c ∈ s, c.toNat < 128) → lower s = s.map Char.toLower

/-! ## Lines -/

theorem mem_dropWhile {p : Char → Bool} {c : Char} : ∀ {s : List Char}, c ∈ s → p c = false → c ∈ s.dropWhile p
  | x :: s, h, hc => by
    rw [List.dropWhile_cons]
    split
    · next hx =>
      rcases List.mem_cons.mp h with rfl | h
      · rw [hc] at hx
        cases hx
      · exact mem_dropWhile h hc
    · exact h

theorem trim_nonempty {s : List Char} {c : Char} (h : c ∈ s) (hc : EditOps.isWhitespace c = false) : (trim s).isEmpty = false := by
  have : c ∈ trim s := by
    unfold trim
    rw [List.mem_reverse]
    apply mem_dropWhile _ hc
    rw [List.mem_reverse]
    exact mem_dropWhile h hc
  cases ht : trim s with
  | nil =>
    rw [ht] at this
    cases this
  | cons => rfl

theorem dropWhile_all {p : Char → Bool} {s t : List Char} (h : ∀ c ∈ s, p c = true) : (s ++ t).dropWhile p = t.dropWhile p := by
  induction s with
  | nil => rfl
  | cons x s ih =>
    rw [List.cons_append, List.dropWhile_cons, if_pos (h x List.mem_cons_self), ih (fun c hc => h c (List.mem_cons_of_mem _ hc))]

theorem dropWhile_none {p : Char → Bool} {s t : List Char} (hs : s ≠ []) (h : ∀ c ∈ s, p c = false) : (s ++ t).dropWhile p = s ++ t := by
  cases s with
  | nil => exact absurd rfl hs
  | cons x s => rw [List.cons_append, List.dropWhile_cons, if_neg (by rw [h x List.mem_cons_self]; decide)]

theorem trim_eq {d w : List Char} (hd : d ≠ []) (h : ∀ c ∈ d, EditOps.isWhitespace c = false) (hw : ∀ c ∈ w, EditOps.isWhitespace c = true) : trim (d ++ w) = d := by
  unfold trim
  rw [dropWhile_none hd h, List.reverse_append, dropWhile_all (by simpa using hw)]
  have := dropWhile_none (p := EditOps.isWhitespace) (s := d.reverse) (t := []) (by simpa using hd) (by simpa using h)
  rw [List.append_nil] at this
  rw [this, List.reverse_reverse]

theorem trim_white {w : List Char} (hw : ∀ c ∈ w, EditOps.isWhitespace c = true) : trim w = [] := by
  unfold trim
  have := dropWhile_all (t := []) hw
  rw [List.append_nil] at this
  rw [this]
  rfl

theorem split_at (v : List Char) : ∀ {name : List Char}, (∀ c ∈ name, c ≠ ':') → splitOnce (name ++ ':' :: ' ' :: v) = some (name, v)
  | [], _ => rfl
  | c :: name, h => by
    have ih := split_at v (name := name) (fun c hc => h c (List.mem_cons_of_mem _ hc))
    rw [List.cons_append, splitOnce.eq_def]
    split
    · next e => exact absurd (List.cons.inj e).1 (h c List.mem_cons_self)
    · next e =>
      obtain ⟨rfl, rfl⟩ := List.cons.inj e
      rw [ih]
      rfl
    · next e => cases e

theorem toLower_cases (c : Char) : c.toLower = c ∨ (65 ≤ c.toNat ∧ c.toNat ≤ 90) := by
  unfold Char.toLower
  split
  · next h => exact .inr ⟨h.1, h.2⟩
  · exact .inl rfl

/-- The characters of a name. -/
theorem name_char {c : Char} {l : List Char} (hl : ∀ c ∈ l, c.toNat < 128 ∧ c ≠ ':' ∧ EditOps.isWhitespace c = false) (h : c.toLower ∈ l) :
    c.toNat < 128 ∧ c ≠ ':' ∧ EditOps.isWhitespace c = false := by
  rcases toLower_cases c with e | ⟨h1, h2⟩
  · rw [e] at h
    exact hl c h
  · refine ⟨by omega, ?_, ?_⟩
    · rintro rfl
      exact absurd h1 (by decide)
    · unfold EditOps.isWhitespace
      simp
      omega

theorem name_chars {name l : List Char} (hl : ∀ c ∈ l, c.toNat < 128 ∧ c ≠ ':' ∧ EditOps.isWhitespace c = false) (h : name.map Char.toLower = l) :
    ∀ c ∈ name, c.toNat < 128 ∧ c ≠ ':' ∧ EditOps.isWhitespace c = false := by
  intro c hc
  exact name_char hl (h ▸ List.mem_map_of_mem hc)

theorem length_chars : ∀ c ∈ "content-length".toList, c.toNat < 128 ∧ c ≠ ':' ∧ EditOps.isWhitespace c = false := by decide

theorem type_chars : ∀ c ∈ "content-type".toList, c.toNat < 128 ∧ c ≠ ':' ∧ EditOps.isWhitespace c = false := by decide

theorem digit_bounds {c : Char} (h : c.isDigit = true) : 48 ≤ c.toNat ∧ c.toNat ≤ 57 := by
  simp only [Char.isDigit, Bool.and_eq_true, decide_eq_true_eq] at h
  exact ⟨h.1, h.2⟩

theorem digits_bounds {n : Nat} : ∀ c ∈ Nat.toDigits 10 n, 48 ≤ c.toNat ∧ c.toNat ≤ 57 := fun _ hc => digit_bounds (Nat.isDigit_of_mem_toDigits (by decide) (by decide) hc)

theorem digits_white {n : Nat} : ∀ c ∈ Nat.toDigits 10 n, EditOps.isWhitespace c = false := by
  intro c hc
  have := digits_bounds c hc
  unfold EditOps.isWhitespace
  simp
  omega

theorem digits_lower {n : Nat} : (Nat.toDigits 10 n).map Char.toLower = Nat.toDigits 10 n := by
  conv => rhs; rw [← List.map_id (Nat.toDigits 10 n)]
  apply List.map_congr_left
  intro c hc
  rcases toLower_cases c with e | ⟨h1, h2⟩
  · exact e
  · have := digits_bounds c hc
    omega

theorem radix_digits {n : Nat} (h : n < 2 ^ 64) : fromRadix (Nat.toDigits 10 n) = some n := by
  have hp : skipPlus (Nat.toDigits 10 n) = Nat.toDigits 10 n := by
    unfold skipPlus
    split
    · next rest e =>
      have := digits_bounds (n := n) '+' (by rw [e]; exact List.mem_cons_self)
      exact absurd this.1 (by decide)
    · rfl
  unfold fromRadix
  rw [hp]
  have h1 : (Nat.toDigits 10 n).isEmpty = false := by
    cases hd : Nat.toDigits 10 n with
    | nil => exact absurd hd Nat.toDigits_ne_nil
    | cons => rfl
  have h2 : (Nat.toDigits 10 n).all Char.isDigit = true := List.all_eq_true.mpr fun c hc => Nat.isDigit_of_mem_toDigits (by decide) (by decide) hc
  rw [Nat.ofDigitChars_ten_toDigits, h1, h2, if_neg]
  simpa using h

theorem eol_white (b : Bool) : ∀ c ∈ eol b, EditOps.isWhitespace c = true := by
  cases b <;> decide

theorem takeLine_line : ∀ {a : List UInt8} (rest : List UInt8), newline ∉ a → takeLine (a ++ newline :: rest) = (a ++ [newline], rest)
  | [], rest, _ => by simp [takeLine, newline]
  | x :: a, rest, h => by
    have hx : x ≠ 10 := fun e => h (e ▸ List.mem_cons_self)
    have ih := takeLine_line (a := a) rest (fun ha => h (List.mem_cons_of_mem _ ha))
    rw [List.cons_append, takeLine, if_neg hx, ih]
    rfl

theorem readLine_line {cs : List Char} (b : Bool) (rest : List UInt8) (h : '\n' ∉ cs) : readLine (enc (cs ++ eol b) ++ rest) = (cs ++ eol b, rest) := by
  have he : ∃ ds : List Char, eol b = ds ++ ['\n'] ∧ '\n' ∉ ds := by
    cases b
    · exact ⟨[], rfl, by decide⟩
    · exact ⟨['\r'], rfl, by decide⟩
  obtain ⟨ds, e, hds⟩ := he
  have hn : newline ∉ enc (cs ++ ds) := by
    rw [newline_mem_enc, List.mem_append]
    exact fun h' => h'.elim h hds
  have hl : enc (cs ++ eol b) ++ rest = enc (cs ++ ds) ++ newline :: rest := by
    rw [e, ← List.append_assoc, enc, List.flatMap_append, List.append_assoc]
    rfl
  have ht : takeLine (enc (cs ++ eol b) ++ rest) = (enc (cs ++ eol b), rest) := by
    rw [hl, takeLine_line rest hn, e, ← List.append_assoc, enc, enc, List.flatMap_append (xs := cs ++ ds)]
    rfl
  have hu : Files.fromUtf8 (enc (cs ++ eol b)) = some (enc (cs ++ eol b)) := Files.fromUtf8_some.2 ⟨⟨_, rfl⟩, rfl⟩
  unfold readLine
  rw [ht]
  simp only [hu, chars_enc]

variable {lower : List Char → List Char}

theorem parse_length (hl : LowerOk lower) {name : List Char} (hn : name.map Char.toLower = "content-length".toList) {n : Nat} (h : n < 2 ^ 64) (b : Bool) :
    parseHeader lower ((Field.length name).line n ++ eol b) = .ok (.contentLength n) := by
  have hc := name_chars length_chars hn
  have hne : name ≠ [] := by
    rintro rfl
    exact absurd hn (by decide)
  have hs : splitOnce ((Field.length name).line n ++ eol b) = some (name, Nat.toDigits 10 n ++ eol b) := by
    have := split_at (Nat.toDigits 10 n ++ eol b) (name := name) (fun c h => (hc c h).2.1)
    simpa [Field.line] using this
  have ht : trim name = name := by
    have := trim_eq (w := []) hne (fun c h => (hc c h).2.2) (by simp)
    rwa [List.append_nil] at this
  have hv : trim (Nat.toDigits 10 n ++ eol b) = Nat.toDigits 10 n := trim_eq Nat.toDigits_ne_nil digits_white (eol_white b)
  have hlo : lower (Nat.toDigits 10 n) = Nat.toDigits 10 n := by
    rw [hl _ (fun c h => Nat.lt_of_le_of_lt (digits_bounds c h).2 (by decide)), digits_lower]
  unfold parseHeader
  simp only [hs, ht, hl name (fun c h => (hc c h).1), hn, hv, hlo, radix_digits h]
  rw [if_neg (by decide), if_true]

theorem parse_type (hl : LowerOk lower) {name value : List Char} (hn : name.map Char.toLower = "content-type".toList) (n : Nat) (b : Bool) :
    parseHeader lower ((Field.type name value).line n ++ eol b) = .ok .contentType := by
  have hc := name_chars type_chars hn
  have hne : name ≠ [] := by
    rintro rfl
    exact absurd hn (by decide)
  have hs : splitOnce ((Field.type name value).line n ++ eol b) = some (name, value ++ eol b) := by
    have := split_at (value ++ eol b) (name := name) (fun c h => (hc c h).2.1)
    simpa [Field.line] using this
  have ht : trim name = name := by
    have := trim_eq (w := []) hne (fun c h => (hc c h).2.2) (by simp)
    rwa [List.append_nil] at this
  unfold parseHeader
  simp only [hs, ht, hl name (fun c h => (hc c h).1), hn, if_true]

theorem line_no_newline {f : Field} (h : f.Ok) (n : Nat) : '\n' ∉ f.line n := by
  have h1 : ∀ {name l : List Char}, (∀ c ∈ l, c.toNat < 128 ∧ c ≠ ':' ∧ EditOps.isWhitespace c = false) → name.map Char.toLower = l → '\n' ∉ name := by
    intro name l hl hn hm
    have := (name_chars hl hn _ hm).2.2
    exact absurd this (by decide)
  cases f with
  | length name =>
    simp only [Field.line, List.mem_append, not_or]
    refine ⟨⟨h1 length_chars h, by decide⟩, fun hd => ?_⟩
    have := digits_bounds _ hd
    exact absurd this.1 (by decide)
  | type name value =>
    simp only [Field.line, List.mem_append, not_or]
    exact ⟨⟨h1 type_chars h.1, by decide⟩, h.2⟩

theorem line_not_blank {f : Field} (n : Nat) (b : Bool) : (trim (f.line n ++ eol b)).isEmpty = false := by
  apply trim_nonempty (c := ':') _ (by decide)
  cases f <;> simp [Field.line]

theorem readHeaders_fields (hl : LowerOk lower) {n : Nat} (hn : n < 2 ^ 64) (b : Bool) (rest : List UInt8) :
    ∀ (fields : List (Field × Bool)) (fuel : Nat) (len : Option Nat), (∀ f ∈ fields, f.1.Ok) → fields.length < fuel →
      readHeaders lower fuel len (enc ((fields.flatMap fun f => f.1.line n ++ eol f.2) ++ eol b) ++ rest) =
        (.ok (if fields.any (·.1.isLength) then some n else len), rest)
  | [], fuel + 1, len, _, _ => by
    have := readLine_line (cs := []) b rest (by simp)
    rw [readHeaders]
    rw [List.nil_append] at this
    simp only [List.flatMap_nil, List.nil_append, this, trim_white (eol_white b)]
    rfl
  | f :: fields, fuel + 1, len, hf, hfuel => by
    have hline := readLine_line (cs := f.1.line n) f.2 (enc ((fields.flatMap fun f => f.1.line n ++ eol f.2) ++ eol b) ++ rest) (line_no_newline (hf f List.mem_cons_self) n)
    have hsplit : enc (((f :: fields).flatMap fun f => f.1.line n ++ eol f.2) ++ eol b) ++ rest =
        enc (f.1.line n ++ eol f.2) ++ (enc ((fields.flatMap fun f => f.1.line n ++ eol f.2) ++ eol b) ++ rest) := by
      simp only [enc, List.flatMap_cons, List.flatMap_append, List.append_assoc]
    have ih := readHeaders_fields hl hn b rest fields fuel
    have hf' : ∀ f ∈ fields, f.1.Ok := fun f h => hf f (List.mem_cons_of_mem _ h)
    have hfuel' : fields.length < fuel := Nat.lt_of_succ_lt_succ hfuel
    rw [hsplit, readHeaders]
    simp only [hline, line_not_blank, Bool.false_eq_true, if_false]
    obtain ⟨f, fb⟩ := f
    cases f with
    | length name =>
      simp only [parse_length hl (hf _ List.mem_cons_self : (Field.length name).Ok) hn fb]
      have h1 : (Field.length name).isLength = true := rfl
      rw [ih (some n) hf' hfuel', List.any_cons, h1, Bool.true_or, ite_self, if_pos rfl]
    | type name value =>
      simp only [parse_type hl (hf _ List.mem_cons_self : (Field.type name value).Ok).1 n fb]
      have h1 : (Field.type name value).isLength = false := rfl
      rw [ih len hf' hfuel', List.any_cons, h1, Bool.false_or]

theorem fields_short (n : Nat) (tail : List Char) : ∀ fields : List (Field × Bool), fields.length ≤ (enc ((fields.flatMap fun f => f.1.line n ++ eol f.2) ++ tail)).length
  | [] => Nat.zero_le _
  | f :: fields => by
    have ih := fields_short n tail fields
    have h1 : 1 ≤ (f.1.line n ++ eol f.2).length := by
      rw [List.length_append]
      have : 1 ≤ (eol f.2).length := by cases f.2 <;> decide
      omega
    have h2 := length_le_enc (f.1.line n ++ eol f.2)
    rw [List.flatMap_cons, List.append_assoc, enc_append, List.length_append, List.length_cons]
    omega

/-! ## C86 -/

/-- **C86.** One message is read from the stream, byte for byte, and what follows it is left there. -/
theorem C86_message (hl : LowerOk lower) {m : Msg} (h : m.Ok) (rest : List UInt8) : readMessage lower (m.bytes ++ rest) = (.ok m.body, rest) := by
  have hh := readHeaders_fields hl h.size m.crlf (m.body ++ rest) m.fields ((m.bytes ++ rest).length + 1) none h.fields (by
    have := fields_short m.body.length (eol m.crlf) m.fields
    rw [Msg.bytes, List.append_assoc, List.length_append]
    omega)
  rw [if_pos (List.any_eq_true.mpr h.told)] at hh
  have hb : m.bytes ++ rest = enc ((m.fields.flatMap fun f => f.1.line m.body.length ++ eol f.2) ++ eol m.crlf) ++ (m.body ++ rest) := by
    rw [Msg.bytes, List.append_assoc]
  rw [← hb] at hh
  have hu : Files.fromUtf8 m.body = some m.body := Files.fromUtf8_some.2 ⟨h.text, rfl⟩
  unfold readMessage
  rw [hh]
  simp only [List.length_append, List.take_left', List.drop_left', hu]
  rw [if_neg (by omega)]

/-- **C86.** Any number of messages, in whatever way their headers are written: each is read, in order. -/
theorem C86_stream (hl : LowerOk lower) (rest : List UInt8) : ∀ ms : List Msg, (∀ m ∈ ms, m.Ok) →
    readMessages lower ms.length (ms.flatMap Msg.bytes ++ rest) = (ms.map fun m => .ok m.body, rest)
  | [], _ => rfl
  | m :: ms, h => by
    have h1 := C86_message hl (h m List.mem_cons_self) (ms.flatMap Msg.bytes ++ rest)
    have ih := C86_stream hl rest ms (fun m hm => h m (List.mem_cons_of_mem _ hm))
    rw [List.flatMap_cons, List.append_assoc, List.length_cons, readMessages, h1, ih]
    rfl

/-- **C86.** What the plugin sends is a message of the protocol with that body. -/
theorem C86_sent (request : List UInt8) (h : Utf8 request) (hs : request.length < 2 ^ 64) : ∃ m : Msg, m.Ok ∧ m.body = request ∧ prepareJson request = m.bytes := by
  refine ⟨⟨[(.length "Content-Length".toList, true)], true, request⟩, ⟨?_, ?_, h, hs⟩, rfl, ?_⟩
  · intro f hf
    obtain rfl := List.mem_singleton.mp hf
    show _ = _
    decide
  · exact ⟨_, List.mem_singleton_self _, rfl⟩
  · unfold prepareJson Msg.bytes
    congr 2
    simp only [List.flatMap_cons, List.flatMap_nil, List.append_nil, Field.line, eol, if_true]
    simp

/-- **C86.** So a server that reads in the same way gets what was sent. -/
theorem C86_round_trip (hl : LowerOk lower) (requests : List (List UInt8)) (h : ∀ r ∈ requests, Utf8 r ∧ r.length < 2 ^ 64) :
    readMessages lower requests.length (requests.flatMap prepareJson) = (requests.map .ok, []) := by
  induction requests with
  | nil => rfl
  | cons r rs ih =>
    obtain ⟨m, m1, rfl, m3⟩ := C86_sent r (h r List.mem_cons_self).1 (h r List.mem_cons_self).2
    have ih := ih (fun r hr => h r (List.mem_cons_of_mem _ hr))
    rw [List.flatMap_cons, List.length_cons, readMessages, m3, C86_message hl m1, ih]
    rfl

/-- **C86.** An announced length that is no number, a line that is no header, a body that is not UTF-8 or is cut off: none of them makes a message.  Every message that is read is
UTF-8. -/
theorem C86_text (s body rest : List UInt8) (h : readMessage lower s = (.ok body, rest)) : Utf8 body ∧ ∃ before, s = before ++ body ++ rest := by
  have hline : ∀ s : List UInt8, ∃ a, s = a ++ (readLine s).2 := by
    intro s
    have ht : s = (takeLine s).1 ++ (takeLine s).2 := by
      induction s with
      | nil => rfl
      | cons b s ih =>
        rw [takeLine]
        split
        · rfl
        · rw [List.cons_append, ← ih]
    refine ⟨(takeLine s).1, ?_⟩
    unfold readLine
    split <;> exact ht
  have hheaders : ∀ (fuel : Nat) (len : Option Nat) (s : List UInt8), ∃ a, s = a ++ (readHeaders lower fuel len s).2 := by
    intro fuel
    induction fuel with
    | zero => exact fun len s => ⟨[], rfl⟩
    | succ fuel ih =>
      intro len s
      obtain ⟨a, ha⟩ := hline s
      rw [readHeaders]
      split
      · exact ⟨a, ha⟩
      · split
        · exact ⟨a, ha⟩
        · obtain ⟨b, hb⟩ := ih (some _) (readLine s).2
          exact ⟨a ++ b, by rw [List.append_assoc, ← hb, ← ha]⟩
        · obtain ⟨b, hb⟩ := ih len (readLine s).2
          exact ⟨a ++ b, by rw [List.append_assoc, ← hb, ← ha]⟩
  obtain ⟨a, ha⟩ := hheaders (s.length + 1) none s
  unfold readMessage at h
  split at h
  · cases h
  · cases h
  · next n r e =>
    rw [e] at ha
    split at h
    · cases h
    · split at h
      · next b hb =>
        obtain ⟨h1, h2⟩ := Prod.mk.inj h
        obtain rfl := Except.ok.inj h1
        obtain ⟨u1, u2⟩ := Files.fromUtf8_some.1 hb
        subst h2 u2
        exact ⟨u1, a, by rw [List.append_assoc, List.take_append_drop]; exact ha⟩
      · cases h

/-! ## Examples -/

/-- The lower case of ASCII. -/
def asciiLower (s : List Char) : List Char := s.map Char.toLower

/-- Two messages, the first with a type and in the manner of Unix. -/
example : (let ms : List Msg := [⟨[(.type "content-TYPE".toList "text: x".toList, false), (.length "CONTENT-LENGTH".toList, true)], false, enc "{\"é\": 1}".toList⟩,
      ⟨[(.length "Content-Length".toList, true)], true, []⟩]
    (∀ m ∈ ms, m.Ok) ∧ LowerOk asciiLower ∧ readMessages asciiLower 2 (ms.flatMap Msg.bytes) = ([.ok (enc "{\"é\": 1}".toList), .ok []], [])) := by
  refine ⟨?_, fun _ _ => rfl, by decide +kernel⟩
  intro m hm
  rcases List.mem_cons.mp hm with rfl | hm
  · refine ⟨?_, ⟨_, List.mem_cons_of_mem _ List.mem_cons_self, rfl⟩, ⟨_, rfl⟩, by decide⟩
    intro f hf
    rcases List.mem_cons.mp hf with rfl | hf
    · exact ⟨by decide, by decide⟩
    · obtain rfl := List.mem_singleton.mp hf
      show _ = _
      decide
  · obtain rfl := List.mem_singleton.mp hm
    refine ⟨?_, ⟨_, List.mem_cons_self, rfl⟩, ⟨[], rfl⟩, by decide⟩
    intro f hf
    obtain rfl := List.mem_singleton.mp hf
    show _ = _
    decide

/-- **C86, refuted.** A header that the plugin does not know, after the length: the message is lost, and so is the next one, whose header is taken for the end of the body. -/
theorem C86_header_refuted :
    readMessages asciiLower 5 (enc "Content-Length: 2\r\nX: 1\r\n\r\n{}Content-Length: 4\r\n\r\nnull".toList) =
      ([.error .unknown, .error .unknown, .error .unknown, .error .unknown, .error .unknown], []) := by decide +kernel

/-- **C86, refuted.** When the server has ended, the loop that reads from it goes on and on, with an error each time. -/
theorem C86_end_refuted : ∀ n, readMessages lower n [] = (List.replicate n (.error .unknown), [])
  | 0 => rfl
  | n + 1 => by
    have h : readMessage lower [] = (.error .unknown, []) := rfl
    rw [readMessages, h, C86_end_refuted n]
    rfl

end Xi.Lsp
