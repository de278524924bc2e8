import Verif.Core.FindUpdate

/-!
# C72: search highlights
-/

namespace Xi

open Find Selection FindState

variable {lower : CaseTable} {cm : CaseMatching} {pat : List Char} {s : List UInt8} {text : Rope} {h : FindState}

/-- There is only one way to mark the matches from left to right. -/
theorem Leftmost.unique {M : Nat → Nat → Prop} (hM : ∀ p e e', M p e → M p e' → e = e') : ∀ {c : Nat} {l l' : List (Nat × Nat)}, Leftmost M c l → Leftmost M c l' → l = l'
  | _, _, _, .done _, .done _ => rfl
  | _, _, _, .done h, .step h1 h2 _ _ => absurd h2 (h _ _ h1)
  | _, _, _, .step h1 h2 _ _, .done h => absurd h2 (h _ _ h1)
  | _, _, _, .step (p := p) (e := e) h1 h2 h3 h4, .step (p := p') (e := e') g1 g2 g3 g4 => by
    have hp : p = p' := by
      rcases Nat.lt_trichotomy p p' with h | h | h
      · exact absurd h2 (g3 _ _ h1 h)
      · exact h
      · exact absurd g2 (h3 _ _ g1 h)
    subst hp
    have he := hM _ _ _ h2 g2
    subst he
    rw [h4.unique hM g4]

/-- **C72.**  The highlights of two searches of the same text agree. -/
theorem C72_exact_unique {occ occ' : Selection} (h1 : Exact lower s cm pat occ) (h2 : Exact lower s cm pat occ') :
    occ.map (fun r => (r.start, r.stop)) = occ'.map (fun r => (r.start, r.stop)) :=
  Leftmost.unique (M := Match lower s cm pat) (fun _ _ _ g g' => match_unique g g') h1 h2

/-- **C72.**  Highlights that are exact are all matches, and none of the text between
highlights has a match. -/
theorem C72_exact_complete {occ : Selection} (h1 : Exact lower s cm pat occ) {p e : Nat} (hm : Match lower s cm pat p e) :
    ∃ r ∈ occ, r.start ≤ p ∧ (p < r.stop ∨ r.start = p) := by
  have gen : ∀ {c : Nat} {l : List (Nat × Nat)}, Leftmost (Match lower s cm pat) c l → c ≤ p → ∃ x ∈ l, x.1 ≤ p ∧ (p < x.2 ∨ x.1 = p) := by
    intro c l hl
    induction hl with
    | done h => intro hc; exact absurd hm (h _ _ hc)
    | @step c q f l h1 h2 h3 _ ih =>
      intro hc
      by_cases hpq : p < q
      · exact absurd hm (h3 _ _ hc hpq)
      · by_cases hpf : p < f
        · exact ⟨(q, f), by simp, Nat.le_of_not_lt hpq, .inl hpf⟩
        · obtain ⟨x, x1, x2⟩ := ih (Nat.le_of_not_lt hpf)
          exact ⟨x, by simp [x1], x2⟩
  obtain ⟨x, x1, x2⟩ := gen h1 (Nat.zero_le _)
  obtain ⟨r, r1, rfl⟩ := List.mem_map.1 x1
  exact ⟨r, r1, x2⟩

/-- **C72.**  Searching any range keeps the highlights sound: it does not panic, and each
highlight is a match. -/
theorem C72_search_sound (hl : lower.Ok) (ht : text.Balanced) (hsize : text.text.length < 2 ^ 64 - 1) (hp : h.searchString = some pat)
    (hreg : Regular lower h.caseMatching pat) (hw : h.wholeWords = false) (ho : Sound lower text.text h.caseMatching pat h.occurrences)
    {start stop : Nat} (h1 : start ≤ stop) (h2 : start ≤ text.text.length) (slop : Bool) :
    ∃ occ, updateFind lower false h text start stop slop = some { h with occurrences := occ, hlsDirty := true } ∧
      Sound lower text.text h.caseMatching pat occ :=
  updateFind_sound hl ht hsize hp hreg hw ho h1 h2 slop

/-- **C72.**  Searching the whole text makes them exact, whatever was searched before. -/
theorem C72_search_exact (hl : lower.Ok) (ht : text.Balanced) (hsize : text.text.length < 2 ^ 64 - 1) (hp : h.searchString = some pat)
    (hreg : Regular lower h.caseMatching pat) (hw : h.wholeWords = false) (ho : Sound lower text.text h.caseMatching pat h.occurrences)
    (slop : Bool) :
    ∃ occ, updateFind lower false h text 0 text.text.length slop = some { h with occurrences := occ, hlsDirty := true } ∧
      Sound lower text.text h.caseMatching pat occ ∧ Exact lower text.text h.caseMatching pat occ :=
  updateFind_exact hl ht hsize hp hreg hw ho slop

/-- `do_find` again and again; `visible k` is where the window is at the `k`th time. -/
def FindProgress.run (lower : CaseTable) (text : Rope) (visible : Nat → Nat) (start : FindProgress × List FindState) : Nat → Option (FindProgress × List FindState)
  | 0 => some start
  | k + 1 => do
    let (p, qs) ← FindProgress.run lower text visible start k
    FindProgress.doFind lower false text (visible k) p qs

/-- **C72.**  The incremental search of a text comes to an end, however the window is scrolled
meanwhile; it never panics; and when it has ended the highlights of each query are exactly its
matches. -/
theorem C72_find_all (hl : lower.Ok) (ht : text.Balanced) (hsize : text.text.length < 2 ^ 64 - 1) (visible : Nat → Nat)
    (hv : ∀ k, visible k ≤ text.text.length) {p : FindProgress} (hp : p.Inside text.text.length) (hne : p ≠ .ready) {qs : List FindState}
    (hq : ∀ q ∈ qs, Good lower text.text q) :
    ∃ n qs', FindProgress.run lower text visible (p, qs) n = some (.ready, qs') ∧ Each SameQuery qs qs' ∧
      ∀ q ∈ qs', Good lower text.text q ∧ Done lower text.text q := by
  have gen : ∀ (m k : Nat) (p' : FindProgress) (qs' : List FindState), p'.togo text.text.length ≤ m → FindProgress.run lower text visible (p, qs) k = some (p', qs') →
      p'.Inside text.text.length → p' ≠ .ready → Each SameQuery qs qs' → (∀ q ∈ qs', Good lower text.text q) →
      ∃ n qs'', FindProgress.run lower text visible (p, qs) n = some (.ready, qs'') ∧ Each SameQuery qs qs'' ∧
        ∀ q ∈ qs'', Good lower text.text q ∧ Done lower text.text q := by
    intro m
    induction m with
    | zero =>
      intro k p' qs' hm _ _ hne' _ _
      cases p' with
      | ready => exact absurd rfl hne'
      | started => simp only [FindProgress.togo] at hm; omega
      | inProgress a b => simp only [FindProgress.togo] at hm; omega
    | succ m ih =>
      intro k p' qs' hm hrun hin hne' he hg
      obtain ⟨p2, qs2, d1, d2, d3, d4, d5, d6⟩ := FindProgress.doFind_spec hl ht hsize (hv k) hin hne' hg
      have hrun' : FindProgress.run lower text visible (p, qs) (k + 1) = some (p2, qs2) := by
        simp only [FindProgress.run, hrun, Option.bind_eq_bind, Option.bind_some]
        exact d1
      have he' : Each SameQuery qs qs2 := he.trans (R := SameQuery) (fun _ _ _ g g' => sameQuery_trans g g') d4
      by_cases hr : p2 = .ready
      · subst hr
        exact ⟨k + 1, qs2, hrun', he', fun q hq' => ⟨d5 q hq', d6 rfl q hq'⟩⟩
      · exact ih (k + 1) p2 qs2 (by omega) hrun' d2 hr he' d5
  exact gen _ 0 p qs (Nat.le_refl _) rfl hp hne (Each.refl (fun _ => ⟨rfl, rfl, rfl⟩) qs) hq

/-- **C72.**  A new query has no highlights, so a search may begin with it. -/
theorem C72_new_query (h : FindState) (caseSensitive : Bool) (hreg : Regular lower (if caseSensitive then .exact else .caseInsensitive) pat)
    (hc : (h.setFind pat caseSensitive false).2 = true) : Good lower s (h.setFind pat caseSensitive false).1 ∧
      (h.setFind pat caseSensitive false).1.searchString = some pat := by
  unfold setFind at hc ⊢
  simp only at hc ⊢
  generalize (if pat.isEmpty = true then h.unset else h) = k at hc ⊢
  by_cases hne : k.searchString = some pat ∧ sameCase (if caseSensitive = true then .exact else .caseInsensitive) k.caseMatching = true ∧ k.wholeWords = false
  · rw [if_pos hne] at hc
    cases hc
  · rw [if_neg hne]
    refine ⟨?_, rfl⟩
    intro pat' hp
    have hp : some pat = some pat' := hp
    rw [Option.some.injEq] at hp
    subst hp
    exact ⟨hreg, rfl, List.Pairwise.nil, by simp [unset]⟩

/-- **C72 (in part).**  After an edit each highlight is still a match, and nothing panics: if
the edit deletes nothing where it inserts something, or is not close to the end of the text.
Otherwise it need not be (`C72_edit_bogus_refuted`); and a match may go without a highlight
(`C72_edit_missed_refuted`, `C72_edit_lost_refuted`). -/
theorem C72_edit_sound_partial (hl : lower.Ok) (hn : lower.KeepsNewline) {base : List UInt8} (ht : text.Balanced) {d : Delta UInt8} (hd : d.WF)
    (hbl : base.length = d.baseLen) (htext : text.text = d.result base) (hsize : text.text.length < 2 ^ 64 - 1) (hp : h.searchString = some pat)
    (hreg : Regular lower h.caseMatching pat) (hw : h.wholeWords = false) (ho : Sound lower base h.caseMatching pat h.occurrences)
    (hcase : Separate d.baseLen 0 false d.els ∨ d.summary.1.2 + d.summary.2 ≤ text.text.length) :
    ∃ h', updateHighlights lower false h text d = some h' ∧ SameQuery h h' ∧ Sound lower text.text h.caseMatching pat h'.occurrences :=
  updateHighlights_sound hl hn ht hd hbl htext hsize hp hreg hw ho hcase

/-! ### Cases -/

/-- A search for `pat`, case and all. -/
def query (pat : List Char) (whole : Bool) (occ : Selection) : FindState := ⟨true, some pat, .exact, whole, occ⟩

/-- A short text. -/
def note (cs : List Char) : Rope := .fromLeaf (enc cs)

theorem note_text (cs : List Char) : (note cs).text = enc cs := by
  simp [note, Node.text, Node.fromLeaf, Node.leaves]
  rfl

theorem note_exact {cs pat : List Char} {occ : Selection} (hs : (enc cs).length ≤ 1024) (hp : pat ≠ [])
    (h : ((query pat false []).updateFind someLower false (note cs) 0 (enc cs).length false).map FindState.occurrences = some occ) :
    Sound someLower (note cs).text .exact pat occ ∧ Exact someLower (note cs).text .exact pat occ := by
  obtain ⟨occ', h1, h2, h3⟩ := C72_search_exact (h := query pat false []) (text := note cs) someLower_ok (smallRope_balanced hs)
    (by rw [note_text]; omega) rfl hp rfl ⟨List.Pairwise.nil, by simp [query]⟩ false
  rw [note_text] at h1
  rw [h1] at h
  simp only [Option.map_some, Option.some.injEq] at h
  subst h
  exact ⟨h2, h3⟩

theorem someLower_newline : someLower.KeepsNewline := by
  refine ⟨by decide, ?_⟩
  intro c hc
  have h1 : (someLower.char c)[0]? = some '\n' := by
    simp only [someLower] at hc ⊢
    repeat' split at hc
    all_goals simp only [List.mem_cons, List.not_mem_nil, or_false] at hc
    · rename_i h
      rw [if_pos h, ← hc]; rfl
    · exact absurd hc (by decide)
    · exact absurd hc (by decide)
    · exact absurd hc (by decide)
    · exact absurd hc (by decide)
    · subst hc; decide
  rcases someLower_ok.ascii c '\n' h1 (by decide) with h | h | h | h
  · exact h
  · exact absurd h.1 (by decide)
  · exact absurd h.1 (by decide)
  · exact absurd h.1 (by decide)

/-- Three of four overlapping places: the highlights of "aa" in "aaaaa a". -/
example : Exact someLower (note ['a', 'a', 'a', 'a', 'a', ' ', 'a']).text .exact ['a', 'a'] [.new 0 2, .new 2 4] :=
  (note_exact (by decide) (by decide) (by decide +kernel)).2

/-- The incremental search of a text. -/
example : Good someLower (note ['x', 'a', 'b']).text (FindState.new.setFind ['A', 'b'] false false).1 ∧ FindProgress.Inside 3 .started ∧
    (FindProgress.run someLower (note ['x', 'a', 'b']) (fun _ => 1) (.started, [(FindState.new.setFind ['A', 'b'] false false).1]) 3).map
      (fun x => (x.1, x.2.map FindState.occurrences)) = some (.ready, [[.new 1 3]]) := by
  refine ⟨(C72_new_query _ false ?_ (by decide)).1, trivial, by decide +kernel⟩
  refine ⟨by decide, by decide, 'a', by decide, .inl (by decide)⟩

/-- An edit the theorem covers: "ab\nab" with a word typed over the first letter. -/
example : let d : Delta UInt8 := ⟨[.insert (enc ['x', 'y']), .copy 1 5], 5⟩
    d.WF ∧ d.result (enc ['a', 'b', '\n', 'a', 'b']) = (note ['x', 'y', 'b', '\n', 'a', 'b']).text ∧
    d.summary.1.2 + d.summary.2 ≤ (note ['x', 'y', 'b', '\n', 'a', 'b']).text.length ∧
    Sound someLower (enc ['a', 'b', '\n', 'a', 'b']) .exact ['a', 'b'] [.new 0 2, .new 3 5] ∧
    ((query ['a', 'b'] false [.new 0 2, .new 3 5]).updateHighlights someLower false (note ['x', 'y', 'b', '\n', 'a', 'b']) d).map FindState.occurrences = some [.new 4 6] := by
  refine ⟨by decide +kernel, by rw [note_text]; decide +kernel, by rw [note_text]; decide +kernel, ?_, by decide +kernel⟩
  have := (note_exact (cs := ['a', 'b', '\n', 'a', 'b']) (pat := ['a', 'b']) (occ := [.new 0 2, .new 3 5]) (by decide) (by decide) (by decide +kernel)).1
  rwa [note_text] at this

/-- What the edits below do to the highlights of `pat` in `a`, which become those in `b`. -/
def HighlightEdit (pat a b : List Char) (d : Delta UInt8) (before after : Selection) : Prop :=
  Exact someLower (note a).text .exact pat before ∧ d.WF ∧ (note a).text.length = d.baseLen ∧ d.result (note a).text = (note b).text ∧
    ((query pat false before).updateHighlights someLower false (note b) d).map FindState.occurrences = some after

theorem edited_of {pat a b : List Char} {d : Delta UInt8} {before after : Selection} (ha : (enc a).length ≤ 1024) (hp : pat ≠ [])
    (h1 : ((query pat false []).updateFind someLower false (note a) 0 (enc a).length false).map FindState.occurrences = some before)
    (h2 : d.WF) (h3 : (enc a).length = d.baseLen) (h4 : d.result (enc a) = enc b)
    (h5 : ((query pat false before).updateHighlights someLower false (note b) d).map FindState.occurrences = some after) : HighlightEdit pat a b d before after :=
  ⟨(note_exact ha hp h1).2, h2, by rw [note_text]; exact h3, by rw [note_text, note_text]; exact h4, h5⟩

theorem not_exact {cs pat : List Char} {occ occ' : Selection} (hs : (enc cs).length ≤ 1024) (hp : pat ≠ [])
    (h : ((query pat false []).updateFind someLower false (note cs) 0 (enc cs).length false).map FindState.occurrences = some occ')
    (hne : occ.map (fun r => (r.start, r.stop)) ≠ occ'.map (fun r => (r.start, r.stop))) : ¬ Exact someLower (note cs).text .exact pat occ :=
  fun h1 => hne (C72_exact_unique h1 (note_exact hs hp h).2)

/-- **C72** refuted for edits: when a deletion brings a match about, it is not highlighted if
there is no highlight before it on the line.  "ab" in "aXXb", after the deletion of "XX". -/
theorem C72_edit_missed_refuted : ∃ (pat a b : List Char) (d : Delta UInt8) (before after : Selection), HighlightEdit pat a b d before after ∧
    ¬ Exact someLower (note b).text .exact pat after := by
  refine ⟨['a', 'b'], ['a', 'X', 'X', 'b'], ['a', 'b'], ⟨[.copy 0 1, .copy 3 4], 4⟩, [], [], edited_of (by decide) (by decide) (by decide +kernel)
    (by decide) (by decide) (by decide) (by decide +kernel), not_exact (occ' := [.new 0 2]) (by decide) (by decide) (by decide +kernel) (by decide)⟩

/-- **C72** refuted for edits: a highlight that begins right behind a deletion is lost.  "ab"
in "xXab foo", after the deletion of "X". -/
theorem C72_edit_lost_refuted : ∃ (pat a b : List Char) (d : Delta UInt8) (before after : Selection), HighlightEdit pat a b d before after ∧
    before = [.new 2 4] ∧ after = [] ∧ ¬ Exact someLower (note b).text .exact pat after := by
  refine ⟨['a', 'b'], ['x', 'X', 'a', 'b', ' ', 'f'], ['x', 'a', 'b', ' ', 'f'], ⟨[.copy 0 1, .copy 2 6], 6⟩, _, _,
    edited_of (by decide) (by decide) (by decide +kernel) (by decide) (by decide) (by decide) (by decide +kernel), rfl, rfl,
    not_exact (occ' := [.new 1 3]) (by decide) (by decide) (by decide +kernel) (by decide)⟩

/-- **C72** refuted for edits: half a match stays highlighted if it is replaced close to the end
of the text.  "bc" in "xabc", when "hello" is typed over "xab". -/
theorem C72_edit_bogus_refuted : ∃ (pat a b : List Char) (d : Delta UInt8) (before after : Selection), HighlightEdit pat a b d before after ∧
    after = [.new 5 6] ∧ ¬ Sound someLower (note b).text .exact pat after := by
  refine ⟨['b', 'c'], ['x', 'a', 'b', 'c'], ['h', 'e', 'l', 'l', 'o', 'c'], ⟨[.insert (enc ['h', 'e', 'l', 'l', 'o']), .copy 3 4], 4⟩, [.new 2 4], _,
    edited_of (by decide) (by decide) (by decide +kernel) (by decide +kernel) (by decide) (by decide) (by decide +kernel), rfl, ?_⟩
  intro hs
  have hm := (hs.2 (.new 5 6) (by simp)).2
  obtain ⟨A, x, B, -, -, h1, h2⟩ := match_local (lower := someLower) (cm := .exact) (pat := ['b', 'c']) (by simp [Regular]) hm
  have h2 : x = enc ['b', 'c'] := h2
  rw [h2] at h1
  exact absurd h1 (by decide)

/-- **C72** refuted for edits: a caret may be highlighted.  "ab" in "xab", when "hello" is typed
over all of it. -/
theorem C72_edit_caret_refuted : ∃ (pat a b : List Char) (d : Delta UInt8) (before after : Selection), HighlightEdit pat a b d before after ∧ after = [.new 5 5] :=
  ⟨['a', 'b'], ['x', 'a', 'b'], ['h', 'e', 'l', 'l', 'o'], ⟨[.insert (enc ['h', 'e', 'l', 'l', 'o'])], 3⟩, [.new 1 3], _,
    edited_of (by decide) (by decide) (by decide +kernel) (by decide +kernel) (by decide) (by decide) (by decide +kernel), rfl⟩

/-- **C72** refuted for whole words: after a match that is not made of whole words the search
goes on behind it, and so misses "a a" from 3 to 6 in "xa a a". -/
theorem C72_whole_words_refuted : ((query ['a', ' ', 'a'] true []).updateFind someLower false (note ['x', 'a', ' ', 'a', ' ', 'a']) 0 6 false).map FindState.occurrences = some [] ∧
    isMatchingWholeWords (note ['x', 'a', ' ', 'a', ' ', 'a']) 3 6 = some true ∧
    Match someLower (note ['x', 'a', ' ', 'a', ' ', 'a']).text .exact ['a', ' ', 'a'] 3 6 := by
  refine ⟨by decide +kernel, by decide +kernel, ?_⟩
  rw [note_text]
  exact match_of_local (lower := someLower) (cm := .exact) (pat := ['a', ' ', 'a']) (A := enc ['x', 'a', ' ']) (x := enc ['a', ' ', 'a']) (B := [])
    (by simp [Regular]) ⟨['x', 'a', ' ', 'a', ' ', 'a'], rfl⟩ rfl

/-- **C72** refuted for whole words: a highlight stays when its word grows.  "ab" in
"ab xy ab", after the deletion of the first space. -/
theorem C72_whole_words_stale_refuted :
    ((query ['a', 'b'] true []).updateFind someLower false (note ['a', 'b', ' ', 'x', 'y', ' ', 'a', 'b']) 0 8 false).map FindState.occurrences = some [.new 0 2, .new 6 8] ∧
    ((query ['a', 'b'] true [.new 0 2, .new 6 8]).updateHighlights someLower false (note ['a', 'b', 'x', 'y', ' ', 'a', 'b']) ⟨[.copy 0 2, .copy 3 8], 8⟩).map
      FindState.occurrences = some [.new 0 2, .new 5 7] ∧
    isMatchingWholeWords (note ['a', 'b', 'x', 'y', ' ', 'a', 'b']) 0 2 = some false := by
  refine ⟨by decide +kernel, by decide +kernel, by decide +kernel⟩

/-- **C72** refuted for whole words: looking for the whole word "é" panics as soon as there is
one, since the test looks at a byte in the middle of the character. -/
theorem C72_whole_words_panic_refuted : ((query ['é'] true []).updateFind someLower false (note ['é']) 0 2 false).isNone = true ∧
    ((query ['é'] false []).updateFind someLower false (note ['é']) 0 2 false).map FindState.occurrences = some [.new 0 2] := by
  refine ⟨by decide +kernel, by decide +kernel⟩

/-- **C72** refuted when debug assertions are on: searching again after an edit panics when
there is a match further on than the line of the edit in the same leaf.  "a" in "a\na", when "b"
is typed behind the first line. -/
theorem C72_debug_refuted : let d : Delta UInt8 := ⟨[.copy 0 1, .insert (enc ['b']), .copy 1 3], 3⟩
    ((query ['a'] false [.new 0 1, .new 2 3]).updateHighlights someLower true (note ['a', 'b', '\n', 'a']) d).isNone = true ∧
    ((query ['a'] false [.new 0 1, .new 2 3]).updateHighlights someLower false (note ['a', 'b', '\n', 'a']) d).map FindState.occurrences = some [.new 0 1, .new 3 4] := by
  refine ⟨by decide +kernel, by decide +kernel⟩

end Xi
