import Verif.Rope.FindLemmas
import Verif.Props.Rope

/-!
# C38, C56: searching
-/

namespace Xi

open Find Cursor

/-- The searches the theorem covers: all exact ones; and those that ignore case if the
pattern has no sigma and its first character is in lower case, or else has an ASCII lower
case. -/
def Find.Regular (lower : CaseTable) : CaseMatching → List Char → Prop
  | .exact, pat => pat ≠ []
  | .caseInsensitive, pat => pat ≠ [] ∧ 'Σ' ∉ pat ∧
    ∃ x, (pat.flatMap lower.char)[0]? = some x ∧ (x.toNat < 128 ∨ pat[0]? = some x)

/-- Where the pattern stands. -/
def Find.Occurs (lower : CaseTable) (s : List UInt8) : CaseMatching → List Char → Nat → Prop
  | .exact, pat => ExactAt s pat
  | .caseInsensitive, pat => CaseAt lower.char s (pat.flatMap lower.char)

/-- Where the occurrence at `p` ends. -/
def Find.Ends (lower : CaseTable) (s : List UInt8) : CaseMatching → List Char → Nat → Nat → Prop
  | .exact, pat => fun p e => e = p + (enc pat).length
  | .caseInsensitive, pat => CaseEnd lower.char s (pat.flatMap lower.char)

/-- The cursors from which one searches: a new one, at a character boundary; or what an
earlier search has left, with any pattern and number of steps, unless it failed. -/
inductive Find.Searching (lower : CaseTable) (r : Rope) : RopeCursor → Prop
  | new {p : Nat} {c : RopeCursor} : CharBoundary r.text p → Cursor.new r p = some c → Searching lower r c
  | step {c c' : RopeCursor} {cm : CaseMatching} {pat : List Char} {n : Nat} {res : FindResult} : Searching lower r c → Regular lower cm pat →
      findProgress lower cm pat n c = some (c', res) → res ≠ .notFound → Searching lower r c'

/-- What a search in `n` steps should return, from `p`. -/
def Find.Good (lower : CaseTable) (s : List UInt8) (cm : CaseMatching) (pat : List Char) (n p : Nat) (c' : RopeCursor) : FindResult → Prop
  | .found q => IsFirst (Occurs lower s cm pat) p (some q) ∧ Ends lower s cm pat q c'.position
  | .notFound => IsFirst (Occurs lower s cm pat) p none
  | .tryAgain => p + n ≤ c'.position ∧ c'.position ≤ s.length ∧ ∀ k, p ≤ k → k < c'.position → ¬ Occurs lower s cm pat k

namespace Find

theorem boundary_le {s : List UInt8} {p : Nat} (h : CharBoundary s p) : p ≤ s.length := by
  obtain ⟨a, b, rfl, rfl⟩ := h
  simp

theorem ready_new {r : Rope} (hr : r.Balanced) {p : Nat} {c : RopeCursor} (hp : CharBoundary r.text p) (h : Cursor.new r p = some c) : Ready r c p := by
  obtain ⟨c', pre, l, post, h1, h2, h3, h4⟩ := Cursor.new_spec hr (boundary_le hp)
  rw [h] at h1
  injection h1 with h1
  subst h1
  exact ⟨h3, h4, hp, boundary_le hp, .inl ⟨_, _, _, h2⟩⟩

theorem enc_first {x : Char} {cs : List Char} : ∃ b, (enc (x :: cs))[0]? = some b := by
  obtain ⟨b, t, e, -⟩ := encode_shape x
  exact ⟨b, by rw [enc_cons, e]; rfl⟩

theorem progress_spec {lower : CaseTable} {r : Rope} (hr : r.Balanced) {cm : CaseMatching} (hl : lower.Ok) {pat : List Char}
    (hreg : Regular lower cm pat) (n : Nat) {c : RopeCursor} {p : Nat} (hc : Ready r c p) :
    ∃ c' res, findProgress lower cm pat n c = some (c', res) ∧ Good lower r.text cm pat n p c' res ∧ (res ≠ .notFound → Ready r c' c'.position) := by
  have hut := Rope.text_utf8 hr
  have fin : ∀ {P : Nat → Prop} {E : Nat → Nat → Prop} {c' : RopeCursor} {res : FindResult},
      (match res with
      | .found q => IsFirst P p (some q) ∧ ∃ e, E q e ∧ Ready r c' e
      | .notFound => IsFirst P p none
      | .tryAgain => ∃ q, p + n ≤ q ∧ Ready r c' q ∧ ∀ k, p ≤ k → k < q → ¬ P k) →
      (match res with
      | .found q => IsFirst P p (some q) ∧ E q c'.position
      | .notFound => IsFirst P p none
      | .tryAgain => p + n ≤ c'.position ∧ c'.position ≤ r.text.length ∧ ∀ k, p ≤ k → k < c'.position → ¬ P k) ∧ (res ≠ .notFound → Ready r c' c'.position) := by
    intro P E c' res h
    cases res with
    | found q =>
      obtain ⟨h1, e, h2, h3⟩ := h
      have := h3.position
      subst this
      exact ⟨⟨h1, h2⟩, fun _ => h3⟩
    | notFound => exact ⟨h, fun h => absurd rfl h⟩
    | tryAgain =>
      obtain ⟨q, h1, h2, h3⟩ := h
      have := h2.position
      subst this
      exact ⟨⟨h1, h2.le, h3⟩, fun _ => h2⟩
  cases cm with
  | exact =>
    have hne : pat ≠ [] := hreg
    obtain ⟨x, pt, rfl⟩ := List.exists_cons_of_ne_nil hne
    obtain ⟨b, hb⟩ := enc_first (x := x) (cs := pt)
    have hpu : Utf8 (enc (x :: pt)) := ⟨_, rfl⟩
    have hpne : enc (x :: pt) ≠ [] := by intro h; rw [h] at hb; simp at hb
    obtain ⟨c', res, h1, h2⟩ := findProgressIter_spec (P := ExactAt r.text (x :: pt)) (fun p hp => ⟨(exact_boundary hut hpu hpne hp).1, (exact_boundary hut hpu hpne hp).2.1⟩)
      (exact_scanner hut hpu hb) (exact_matcher hpu hpne) n hc
    have h3 := fin h2
    refine ⟨c', res, ?_, ?_, h3.2⟩
    · simp only [findProgress, List.isEmpty_cons, Bool.false_eq_true, if_false, hb, Option.bind_eq_bind, Option.bind_some, h1]
    · cases res <;> exact h3.1
  | caseInsensitive =>
    obtain ⟨hne, hsig, x, h0, hx⟩ := hreg
    cases hlow : pat.flatMap lower.char with
    | nil => rw [hlow] at h0; simp at h0
    | cons y low =>
      rw [hlow] at h0
      simp at h0
      subst h0
      obtain ⟨b, hb⟩ := enc_first (x := y) (cs := low)
      obtain ⟨c', res, h1, h2⟩ := findProgressIter_spec (P := CaseAt lower.char r.text (y :: low)) (fun p hp => caseAt_lt (by simp) hp)
        (casei_scanner hut hl hb hx) (casei_matcher (lower := lower) (by simp)) n hc
      have h3 := fin h2
      refine ⟨c', res, ?_, ?_, h3.2⟩
      · simp only [findProgress, List.isEmpty_eq_false_iff.2 hne, Bool.false_eq_true, if_false, hl.str pat hsig, hlow, hb, Option.bind_eq_bind,
          Option.bind_some, h1]
      · have h4 := h3.1
        rw [← hlow] at h4
        cases res <;> exact h4

theorem searching_ready {lower : CaseTable} (hl : lower.Ok) {r : Rope} (hr : r.Balanced) {c : RopeCursor} (h : Searching lower r c) :
    Ready r c c.position := by
  induction h with
  | new h1 h2 =>
    have h3 := ready_new hr h1 h2
    rw [h3.position]
    exact h3
  | @step c c' cm pat n res h1 h2 h3 h4 ih =>
    obtain ⟨c2, res2, g1, -, g3⟩ := progress_spec hr hl h2 n ih
    rw [g1] at h3
    injection h3 with h3
    injection h3 with e1 e2
    subst e1 e2
    exact g3 h4

theorem iter_more {scanner : List UInt8 → Option (Option Nat)} {matcher : RopeCursor → Option (RopeCursor × Option Nat)} : ∀ (n m : Nat) {c c' : RopeCursor}
    {res : FindResult}, findProgressIter scanner matcher n c = some (c', res) →
    findProgressIter scanner matcher (n + m) c = if res = .tryAgain then findProgressIter scanner matcher m c' else some (c', res)
  | 0, m, c, c', res, h => by
    simp only [findProgressIter, Option.some.injEq, Prod.mk.injEq] at h
    obtain ⟨rfl, rfl⟩ := h
    rw [Nat.zero_add, if_pos rfl]
  | n + 1, m, c, c', res, h => by
    rw [show n + 1 + m = (n + m) + 1 by omega]
    simp only [findProgressIter] at h ⊢
    cases hs : findCore scanner matcher c with
    | none => rw [hs] at h; simp at h
    | some x =>
      obtain ⟨c1, r1⟩ := x
      rw [hs] at h
      simp only [Option.bind_eq_bind, Option.bind_some] at h ⊢
      cases r1 with
      | tryAgain => exact iter_more n m h
      | found q =>
        simp only [pure, Option.some.injEq, Prod.mk.injEq] at h
        obtain ⟨rfl, rfl⟩ := h
        rfl
      | notFound =>
        simp only [pure, Option.some.injEq, Prod.mk.injEq] at h
        obtain ⟨rfl, rfl⟩ := h
        rfl

theorem progress_more {lower : CaseTable} {cm : CaseMatching} {pat : List Char} (n m : Nat) {c c' : RopeCursor} {res : FindResult}
    (h : findProgress lower cm pat n c = some (c', res)) :
    findProgress lower cm pat (n + m) c = if res = .tryAgain then findProgress lower cm pat m c' else some (c', res) := by
  unfold findProgress at h ⊢
  by_cases hp : pat.isEmpty = true
  · simp only [hp, if_true, Option.some.injEq, Prod.mk.injEq] at h ⊢
    obtain ⟨rfl, rfl⟩ := h
    rfl
  · simp only [hp, if_false] at h ⊢
    cases cm with
    | exact =>
      simp only at h ⊢
      cases hb : (List.flatMap String.utf8EncodeChar pat)[0]? with
      | none => simp [hb] at h
      | some b =>
        simp only [hb, Option.bind_eq_bind, Option.bind_some] at h ⊢
        exact iter_more n m h
    | caseInsensitive =>
      simp only at h ⊢
      cases hb : (List.flatMap String.utf8EncodeChar (lower.str pat))[0]? with
      | none => simp [hb] at h
      | some b =>
        simp only [hb, Option.bind_eq_bind, Option.bind_some] at h ⊢
        exact iter_more n m h

/-- What `find` makes of it. -/
def place : FindResult → Option Nat
  | .found q => some q
  | _ => none

theorem find_of_progress {lower : CaseTable} {cm : CaseMatching} {pat : List Char} (n : Nat) {c c' : RopeCursor} {res : FindResult} (hn : n ≤ 2 ^ 64 - 1)
    (h : findProgress lower cm pat n c = some (c', res)) (hres : res ≠ .tryAgain) :
    find lower cm pat c = some (c', place res) := by
  obtain ⟨m, hm⟩ : ∃ m, n + m = 2 ^ 64 - 1 := ⟨2 ^ 64 - 1 - n, by omega⟩
  have h1 := progress_more n m h
  rw [if_neg hres, hm] at h1
  unfold find
  rw [h1]
  cases res with
  | found q => rfl
  | notFound => rfl
  | tryAgain => exact absurd rfl hres

theorem find_spec {lower : CaseTable} (hl : lower.Ok) {r : Rope} (hr : r.Balanced) (hsize : r.text.length < 2 ^ 64 - 1) {cm : CaseMatching} {pat : List Char}
    (hreg : Regular lower cm pat) {c : RopeCursor} (hc : Searching lower r c) :
    ∃ c' res, find lower cm pat c = some (c', res) ∧ IsFirst (Occurs lower r.text cm pat) c.position res ∧
      ∀ q, res = some q → Ends lower r.text cm pat q c'.position ∧ Searching lower r c' := by
  obtain ⟨c', res, h1, h2, h3⟩ := progress_spec hr hl hreg (2 ^ 64 - 1) (searching_ready hl hr hc)
  have hne : res ≠ .tryAgain := by
    rintro rfl
    obtain ⟨g1, g2, -⟩ := h2
    omega
  refine ⟨c', _, find_of_progress _ (Nat.le_refl _) h1 hne, ?_, ?_⟩
  · cases res with
    | found q => exact h2.1
    | notFound => exact h2
    | tryAgain => exact absurd rfl hne
  · intro q hq
    cases res with
    | found q' =>
      injection hq with hq
      subst hq
      exact ⟨h2.2, .step hc hreg h1 (by simp)⟩
    | notFound => cases hq
    | tryAgain => cases hq

end Find

/-! ## C38 -/

/-- **C38.** An exact search returns the first place, at or after the cursor, where the text
contains the pattern, and nothing exactly if there is none; then the cursor is at the end of
the occurrence, ready for the next search. -/
theorem C38_find (lower : CaseTable) (hl : lower.Ok) (r : Rope) (hr : r.Balanced) (hsize : r.text.length < 2 ^ 64 - 1) (pat : List Char)
    (hpat : pat ≠ []) (c : RopeCursor) (hc : Searching lower r c) :
    ∃ c' res, find lower .exact pat c = some (c', res) ∧ IsFirst (ExactAt r.text pat) c.position res ∧
      ∀ q, res = some q → c'.position = q + (enc pat).length ∧ Searching lower r c' :=
  find_spec hl hr hsize (cm := .exact) hpat hc

/-- **C38.** A new cursor is where it should be. -/
theorem C38_new (lower : CaseTable) (r : Rope) (hr : r.Balanced) (p : Nat) (hp : CharBoundary r.text p) :
    ∃ c, Cursor.new r p = some c ∧ c.position = p ∧ Searching lower r c := by
  obtain ⟨c, pre, l, post, h1, h2, h3, h4⟩ := Cursor.new_spec hr (boundary_le hp)
  exact ⟨c, h1, h4, .new hp h1⟩

/-- **C38.** The search in a bounded number of steps: if it is suspended, it has got on by at
least as many bytes and has not passed over an occurrence. -/
theorem C38_progress (lower : CaseTable) (hl : lower.Ok) (r : Rope) (hr : r.Balanced) (pat : List Char) (hpat : pat ≠ []) (n : Nat) (c : RopeCursor)
    (hc : Searching lower r c) :
    ∃ c' res, findProgress lower .exact pat n c = some (c', res) ∧
      match res with
      | .found q => IsFirst (ExactAt r.text pat) c.position (some q) ∧ c'.position = q + (enc pat).length
      | .notFound => IsFirst (ExactAt r.text pat) c.position none
      | .tryAgain => c.position + n ≤ c'.position ∧ c'.position ≤ r.text.length ∧ (∀ k, c.position ≤ k → k < c'.position → ¬ ExactAt r.text pat k) ∧
          Searching lower r c' := by
  obtain ⟨c', res, h1, h2, h3⟩ := progress_spec hr hl (cm := .exact) hpat n (searching_ready hl hr hc)
  refine ⟨c', res, h1, ?_⟩
  cases res with
  | found q => exact h2
  | notFound => exact h2
  | tryAgain => exact ⟨h2.1, h2.2.1, h2.2.2, .step (cm := .exact) hc hpat h1 (by simp)⟩

/-- **C38.** A suspended search that is resumed gives what it would have given in one go. -/
theorem C38_resume (lower : CaseTable) (cm : CaseMatching) (pat : List Char) (n m : Nat) (c c' : RopeCursor)
    (h : findProgress lower cm pat n c = some (c', .tryAgain)) :
    findProgress lower cm pat (n + m) c = findProgress lower cm pat m c' := by
  rw [progress_more n m h, if_pos rfl]

theorem isFirst_unique {P : Nat → Prop} {p : Nat} {a b : Option Nat} (ha : IsFirst P p a) (hb : IsFirst P p b) : a = b := by
  cases a with
  | none =>
    cases b with
    | none => rfl
    | some y => exact absurd hb.2.1 (ha y hb.1)
  | some x =>
    cases b with
    | none => exact absurd ha.2.1 (hb x ha.1)
    | some y =>
      rcases Nat.lt_trichotomy x y with h | h | h
      · exact absurd ha.2.1 (hb.2.2 x ha.1 h)
      · rw [h]
      · exact absurd hb.2.1 (ha.2.2 y hb.1 h)

/-- **C38.** The result depends on the text only, not on how it is cut into leaves. -/
theorem C38_chunking (lower : CaseTable) (hl : lower.Ok) (r r' : Rope) (hr : r.Balanced) (hr' : r'.Balanced) (ht : r.text = r'.text)
    (hsize : r.text.length < 2 ^ 64 - 1) (pat : List Char) (hpat : pat ≠ []) (p : Nat) (hp : CharBoundary r.text p) :
    ∃ c c' d d' res, Cursor.new r p = some c ∧ Cursor.new r' p = some c' ∧ find lower .exact pat c = some (d, res) ∧
      find lower .exact pat c' = some (d', res) := by
  obtain ⟨c, h1, h2, h3⟩ := C38_new lower r hr p hp
  obtain ⟨c', g1, g2, g3⟩ := C38_new lower r' hr' p (ht ▸ hp)
  obtain ⟨d, res, h4, h5, -⟩ := C38_find lower hl r hr hsize pat hpat c h3
  obtain ⟨d', res', g4, g5, -⟩ := C38_find lower hl r' hr' (ht ▸ hsize) pat hpat c' g3
  rw [h2, ht] at h5
  rw [g2] at g5
  obtain rfl := isFirst_unique h5 g5
  exact ⟨c, c', d, d', res, h1, g1, h4, g4⟩

/-! ## C56 -/

/-- **C56**, in part: a search that ignores case returns the first place, at or after the
cursor, where the lower case of the text starts with the lower case of the pattern, for a
pattern without sigma whose first character is in lower case or has an ASCII lower case. -/
theorem C56_find_partial (lower : CaseTable) (hl : lower.Ok) (r : Rope) (hr : r.Balanced) (hsize : r.text.length < 2 ^ 64 - 1) (pat : List Char)
    (hpat : Regular lower .caseInsensitive pat) (c : RopeCursor) (hc : Searching lower r c) :
    ∃ c' res, find lower .caseInsensitive pat c = some (c', res) ∧
      IsFirst (CaseAt lower.char r.text (pat.flatMap lower.char)) c.position res ∧
      ∀ q, res = some q → CaseEnd lower.char r.text (pat.flatMap lower.char) q c'.position ∧ Searching lower r c' :=
  find_spec hl hr hsize (cm := .caseInsensitive) hpat hc

/-- **C56**, in part: in a bounded number of steps. -/
theorem C56_progress_partial (lower : CaseTable) (hl : lower.Ok) (r : Rope) (hr : r.Balanced) (pat : List Char)
    (hpat : Regular lower .caseInsensitive pat) (n : Nat) (c : RopeCursor) (hc : Searching lower r c) :
    ∃ c' res, findProgress lower .caseInsensitive pat n c = some (c', res) ∧
      match res with
      | .found q => IsFirst (CaseAt lower.char r.text (pat.flatMap lower.char)) c.position (some q) ∧
          CaseEnd lower.char r.text (pat.flatMap lower.char) q c'.position
      | .notFound => IsFirst (CaseAt lower.char r.text (pat.flatMap lower.char)) c.position none
      | .tryAgain => c.position + n ≤ c'.position ∧ c'.position ≤ r.text.length ∧
          (∀ k, c.position ≤ k → k < c'.position → ¬ CaseAt lower.char r.text (pat.flatMap lower.char) k) ∧ Searching lower r c' := by
  obtain ⟨c', res, h1, h2, h3⟩ := progress_spec hr hl (cm := .caseInsensitive) hpat n (searching_ready hl hr hc)
  refine ⟨c', res, h1, ?_⟩
  cases res with
  | found q => exact h2
  | notFound => exact h2
  | tryAgain => exact ⟨h2.1, h2.2.1, h2.2.2, .step (cm := .caseInsensitive) hc hpat h1 (by simp)⟩

/-- Some of the Unicode tables. -/
def someLower : CaseTable where
  char c := if 65 ≤ c.toNat ∧ c.toNat ≤ 90 then [Char.ofNat (c.toNat + 32)]
    else if c = 'É' then ['é']
    else if c = 'Σ' then ['σ']
    else if c.toNat = 0x130 then ['i', Char.ofNat 0x307]
    else if c.toNat = 0x212A then ['k']
    else [c]
  str l := if l = ['a', 'Σ'] then ['a', 'ς'] else l.flatMap fun c =>
    if 65 ≤ c.toNat ∧ c.toNat ≤ 90 then [Char.ofNat (c.toNat + 32)]
    else if c = 'É' then ['é']
    else if c = 'Σ' then ['σ']
    else if c.toNat = 0x130 then ['i', Char.ofNat 0x307]
    else if c.toNat = 0x212A then ['k']
    else [c]

theorem someLower_ok : someLower.Ok where
  char_ne c := by
    simp only [someLower]
    repeat' split
    all_goals simp
  ascii c x h hx := by
    simp only [someLower] at h
    split at h
    · rename_i hc
      simp at h
      subst h
      have : (Char.ofNat (c.toNat + 32)).toNat = c.toNat + 32 := by
        have : (c.toNat + 32).isValidChar := Or.inl (by omega)
        simp [Char.ofNat, this]
        rfl
      omega
    · split at h
      · simp at h; subst h; exact absurd hx (by decide)
      · split at h
        · simp at h; subst h; exact absurd hx (by decide)
        · split at h
          · simp at h; subst h; exact .inr (.inr (.inl ⟨rfl, by assumption⟩))
          · split at h
            · simp at h; subst h; exact .inr (.inr (.inr ⟨rfl, by assumption⟩))
            · simp at h; exact .inl h
  str l h := by
    simp only [someLower]
    rw [if_neg]
    rintro rfl
    simp at h
  str_ne l h := by
    simp only [someLower]
    split
    · simp
    · obtain ⟨c, l, rfl⟩ := List.exists_cons_of_ne_nil h
      rw [List.flatMap_cons]
      repeat' split
      all_goals simp

theorem find_of_eval {lower : CaseTable} {r : Rope} {cm : CaseMatching} {pat : List Char} {p n : Nat} {res : FindResult} {c : RopeCursor}
    (hc : Cursor.new r p = some c)
    (h : ((Cursor.new r p).bind (findProgress lower cm pat n)).map (·.2) = some res) (hn : n ≤ 2 ^ 64 - 1) (hres : res ≠ .tryAgain) :
    ∃ c', find lower cm pat c = some (c', place res) := by
  rw [hc, Option.bind_some, Option.map_eq_some_iff] at h
  obtain ⟨⟨c', res'⟩, h1, h2⟩ := h
  simp only at h2
  subst h2
  exact ⟨c', find_of_progress n hn h1 hres⟩

theorem smallRope_balanced {cs : List Char} (h : (enc cs).length ≤ 1024) : Node.Balanced (.fromLeaf (enc cs) : Rope) :=
  ⟨0, Node.wf_fromLeaf ⟨⟨cs, rfl⟩, h⟩⟩

theorem smallRope_cursor (cs : List Char) (h : (enc cs).length ≤ 1024) : ∃ c : RopeCursor, Cursor.new (.fromLeaf (enc cs) : Rope) 0 = some c := by
  obtain ⟨c, _, _, _, h1, -⟩ := Cursor.new_spec (smallRope_balanced h) (Nat.zero_le _)
  exact ⟨c, h1⟩

/-- **C56** refuted: the pattern "É" is not found in the text "É" when case is ignored, though
it is when it is not; the scanner looks for the first character of the pattern as it was
given. -/
theorem C56_upper_refuted : ∃ (c c' c'' : RopeCursor), Cursor.new (.fromLeaf (enc ['É']) : Rope) 0 = some c ∧
    Node.Balanced (.fromLeaf (enc ['É']) : Rope) ∧ find someLower .caseInsensitive ['É'] c = some (c', none) ∧
    CaseAt someLower.char (enc ['É']) (['É'].flatMap someLower.char) 0 ∧ find someLower .exact ['É'] c = some (c'', some 0) := by
  obtain ⟨c, hc⟩ := smallRope_cursor ['É'] (by decide +kernel)
  obtain ⟨c', h'⟩ := find_of_eval (lower := someLower) (cm := .caseInsensitive) (pat := ['É']) (n := 5) (res := .notFound) hc (by decide +kernel)
    (by decide) (by simp)
  obtain ⟨c'', h''⟩ := find_of_eval (lower := someLower) (cm := .exact) (pat := ['É']) (n := 5) (res := .found 0) hc (by decide +kernel) (by decide) (by simp)
  exact ⟨c, c', c'', hc, smallRope_balanced (by decide +kernel), h', ⟨[], ['É'], rfl, rfl, by decide +kernel⟩, h''⟩

/-- **C56** refuted: the pattern "aΣ" is not found in the text "aΣ" when case is ignored; only
in the pattern does the sigma become a final one. -/
theorem C56_sigma_refuted : ∃ (c c' c'' : RopeCursor), Cursor.new (.fromLeaf (enc ['a', 'Σ']) : Rope) 0 = some c ∧
    Node.Balanced (.fromLeaf (enc ['a', 'Σ']) : Rope) ∧ find someLower .caseInsensitive ['a', 'Σ'] c = some (c', none) ∧
    CaseAt someLower.char (enc ['a', 'Σ']) (['a', 'Σ'].flatMap someLower.char) 0 ∧ find someLower .exact ['a', 'Σ'] c = some (c'', some 0) := by
  obtain ⟨c, hc⟩ := smallRope_cursor ['a', 'Σ'] (by decide +kernel)
  obtain ⟨c', h'⟩ := find_of_eval (lower := someLower) (cm := .caseInsensitive) (pat := ['a', 'Σ']) (n := 5) (res := .notFound) hc (by decide +kernel)
    (by decide) (by simp)
  obtain ⟨c'', h''⟩ := find_of_eval (lower := someLower) (cm := .exact) (pat := ['a', 'Σ']) (n := 5) (res := .found 0) hc (by decide +kernel) (by decide)
    (by simp)
  exact ⟨c, c', c'', hc, smallRope_balanced (by decide +kernel), h', ⟨[], ['a', 'Σ'], rfl, rfl, by decide +kernel⟩, h''⟩

/-! ## The hypotheses can be met -/

/-- A search that ignores case passes over a capital I with a dot and finds a Kelvin sign. -/
example : Regular someLower .caseInsensitive ['K', 'x'] ∧ Regular someLower .caseInsensitive ['é', 'A'] ∧
    ((Cursor.new (.fromLeaf (enc [Char.ofNat 0x130, 'k', Char.ofNat 0x212A, 'X', 'a']) : Rope) 0).bind
      (findProgress someLower .caseInsensitive ['K', 'x'] 10)).map (fun x => (x.1.position, x.2)) = some (7, .found 3) :=
  ⟨⟨by simp, by decide, 'k', by decide +kernel, .inl (by decide)⟩, ⟨by simp, by decide, 'é', by decide +kernel, .inr rfl⟩, by decide +kernel⟩

/-- The pattern crosses from one leaf to the next. -/
example : exampleRope.Balanced ∧ CharBoundary exampleRope.text 0 ∧
    ((Cursor.new exampleRope 590).bind (findProgress someLower .exact ['a', '\n', 'é', 'b'] 20)).map (fun x => (x.1.position, x.2)) = some (603, .found 598) ∧
    ((Cursor.new exampleRope 590).bind (findProgress someLower .exact ['a', '\n', 'é', 'b'] 3)).map (fun x => (x.1.position, x.2)) = some (593, .tryAgain) := by
  refine ⟨exampleRope_balanced, (boundary_iff_spec (Rope.text_utf8 exampleRope_balanced)).1 boundary_zero, by decide +kernel, by decide +kernel⟩

end Xi
