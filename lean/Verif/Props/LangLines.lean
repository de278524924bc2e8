import Verif.Lang.HighlightLemmas
/-!
# C95 and C96: the lines and the numbers of scopes of the experimental highlighter

C95: the number of a state stands for a stack; a line is cut into spans that cover it from its beginning to its end; the state at its end is that of a reader who has read
it; a span says what its text is.  Refuted: the span of a comment to the end of the line may go beyond that (`C95_line_refuted`); the next line is read as if it were the
first (`C95_carry_refuted`); what comes before an escape in a string is not said to be in a string (`C95_string_refuted`).

C96: a number that the plugin uses for a scope is the number of that scope in the table of the core.  Refuted: a save adds the scopes to the table once more, and a change of
language after that counts from the wrong place (`C96_refuted`).
-/

namespace Xi

namespace Lang

/-- The number of a state stands for a stack: its top is the head of the stack. -/
theorem C95_top {α : Type} [DecidableEq α] {ctx : Context α} {stacks : List (Nat × List α)} (h : Grown ctx stacks) {s : Nat} {st : List α} (hs : (s, st) ∈ stacks) :
    ctx.tos s = some st.head? := h.tos hs

/-- To pop gives the number of the tail, and nothing for the empty stack. -/
theorem C95_pop {α : Type} [DecidableEq α] {ctx : Context α} {stacks : List (Nat × List α)} (h : Grown ctx stacks) {s : Nat} {st : List α} (hs : (s, st) ∈ stacks) :
    (st = [] ∧ ctx.pop s = some none) ∨ ∃ el tail s', st = el :: tail ∧ ctx.pop s = some (some s') ∧ (s', tail) ∈ stacks := by
  cases st with
  | nil => exact Or.inl ⟨rfl, h.pop_nil hs⟩
  | cons el tail =>
    obtain ⟨s', h1, h2⟩ := h.pop_cons hs
    exact Or.inr ⟨el, tail, s', rfl, h1, h2⟩

/-- Two numbers are the same exactly if their stacks are. -/
theorem C95_same {α : Type} [DecidableEq α] {ctx : Context α} {stacks : List (Nat × List α)} (h : Grown ctx stacks) {s s' : Nat} {st st' : List α} (hs : (s, st) ∈ stacks)
    (hs' : (s', st') ∈ stacks) : s = s' ↔ st = st' := by
  constructor
  · rintro rfl; exact h.same_stack hs hs'
  · rintro rfl; exact h.same_state hs hs'

/-- The number 0 is that of the empty stack. -/
theorem grown_zero {α : Type} [DecidableEq α] {ctx : Context α} {stacks : List (Nat × List α)} (h : Grown ctx stacks) : (0, []) ∈ stacks := by
  induction h with
  | new => exact List.mem_cons_self
  | push _ _ _ ih => exact List.mem_cons_of_mem _ ih

/-- A line is cut without a panic; the spans cover it without gaps, and end where it ends unless `//` occurs in it; the state at the end is that of the reader; and what the
spans say is true.  Missing from the property: the end after `//`, the state the line begins with, and the spans of strings and comments. -/
theorem C95_line_partial {ctx : Context StateEl} {stacks : List (Nat × List StateEl)} (hg : Grown ctx stacks) (off base : Nat) (cs : List Char) :
    ∃ ctx' state spans stacks' stop, computeSyntax off base ctx (encode cs) = some (ctx', state, spans) ∧ Grown ctx' stacks' ∧
      (state, stackOf (readMode .code 0 cs)) ∈ stacks' ∧ Tiles base stop spans ∧ base + (encode cs).length ≤ stop ∧
      ((∀ a b, cs ≠ a ++ '/' :: '/' :: b) → stop = base + (encode cs).length) ∧ ∀ s ∈ spans, Tells off base cs s :=
  syntaxGo_spec off base ((encode cs).length + 1) hg (m := .code) (grown_zero hg) [] cs [] (Nat.lt_succ_self _) (.nil _) (by simp)

/-- Refuted: the spans end where the line ends.  The line `a//b` has four bytes, its spans five. -/
theorem C95_line_refuted : (encode "a//b".toList).length = 4 ∧
    (computeSyntax 0 0 Context.new (encode "a//b".toList)).map (fun x => x.2.2) = some [⟨0, 1, 0⟩, ⟨1, 5, StateEl.comment.scopeId⟩] := by
  decide +kernel

/-- Refuted: a line is read from where the one before it ended.  After the first line the reader is in a comment, and remains there in the second, where the plugin finds a
keyword. -/
theorem C95_carry_refuted : readMode .code 0 "/* a\n".toList = .comment 0 ∧ readMode .code 0 "/* a\nfn b".toList = .comment 0 ∧
    ((computeSyntax 0 0 Context.new (encode "/* a\n".toList)).bind (fun x => computeSyntax 0 5 x.1 (encode "fn b".toList))).map (fun x => x.2.2.head?) =
      some (some ⟨5, 7, StateEl.keyword.scopeId⟩) := by
  decide +kernel

/-- Refuted: what is in a string is said to be so.  The letters before an escape are given the scope of code. -/
theorem C95_string_refuted : readMode .code 0 ['"', 'a', 'b'] = .string ∧
    (computeSyntax 0 0 Context.new (encode ['"', 'a', 'b', '\\', 'n', '"'])).map (fun x => (x.2.2.take 2)) =
      some [⟨0, 1, StateEl.strQuote.scopeId⟩, ⟨1, 3, StateEl.source.scopeId⟩] := by
  decide +kernel

/-- A line with a keyword, a number and an operator. -/
example : (computeSyntax 10 0 Context.new (encode "let é = 5;\n".toList)).isSome = true ∧ ∀ a b, "let é = 5;\n".toList ≠ a ++ '/' :: '/' :: b := by
  refine ⟨by decide +kernel, ?_⟩
  intro a b h
  have h1 : '/' ∈ "let é = 5;\n".toList := by rw [h]; simp
  exact absurd h1 (by decide +kernel)

example : ∃ ctx : Context StateEl, Grown ctx [((Context.new.push 0 StateEl.comment).2, [.comment]), (0, [])] := ⟨_, .push .new (by simp) _⟩

/-- What the plugin uses as numbers is right: the number `offset + k` is in the table of the core the scope `k` of the language. -/
def Right (v : Numbers) : Prop :=
  ∃ off, v.parserOffset = some off ∧ ∀ (k : Nat) (scope : List String), (scopesOf v.language)[k]? = some scope → v.table[off + k]? = some scope

/-- A language follows another one each time. -/
def Changing : List Language → Prop
  | a :: b :: t => a ≠ b ∧ Changing (b :: t)
  | _ => True

theorem announce_right {v : Numbers} (h : v.parserOffset = none) (hn : v.nextOffset = v.table.length) :
    Right v.announce ∧ v.announce.nextOffset = v.announce.table.length ∧ v.announce.language = v.language := by
  simp only [Numbers.announce, h]
  refine ⟨⟨_, rfl, ?_⟩, by simp [hn], trivial⟩
  intro k scope hk
  simp only [hn]
  rw [List.getElem?_append_right (by omega), show v.table.length + k - v.table.length = k by omega]
  exact hk

theorem highlight_again {v : Numbers} (h : Right v) : Right (v.highlight v.language) ∧ (v.highlight v.language).language = v.language := by
  obtain ⟨off, h1, h2⟩ := h
  simp only [Numbers.highlight, Numbers.choose, ne_eq, not_true_eq_false, if_false, Numbers.announce, h1]
  refine ⟨⟨off, rfl, ?_⟩, trivial⟩
  intro k scope hk
  have := h2 k scope hk
  rw [List.getElem?_append_left (List.getElem?_eq_some_iff.mp this).1]
  exact this

theorem changes_right (l : Language) (ls : List Language) (v : Numbers) (hn : v.nextOffset = v.table.length) (hc : Changing (l :: ls))
    (hv : v.parserOffset = none ∨ l ≠ v.language) :
    Right ((l :: ls).foldl Numbers.highlight v) ∧ ((l :: ls).foldl Numbers.highlight v).language = (l :: ls).getLast (by simp) := by
  have key : Right (v.highlight l) ∧ (v.highlight l).nextOffset = (v.highlight l).table.length ∧ (v.highlight l).language = l := by
    simp only [Numbers.highlight, Numbers.choose]
    by_cases hl : l = v.language
    · rw [if_neg (by simpa using hl)]
      obtain ⟨a, b, c⟩ := announce_right (hv.resolve_right (by simpa using hl)) hn
      exact ⟨a, b, by rw [c, hl]⟩
    · rw [if_pos hl]
      exact announce_right (v := { v with language := l, parserOffset := none }) rfl hn
  induction ls generalizing l v with
  | nil => exact ⟨key.1, by simpa using key.2.2⟩
  | cons a t ih =>
    have hne : a ≠ (v.highlight l).language := by rw [key.2.2]; exact fun h => hc.1 h.symm
    have key' : Right ((v.highlight l).highlight a) ∧ ((v.highlight l).highlight a).nextOffset = ((v.highlight l).highlight a).table.length ∧
        ((v.highlight l).highlight a).language = a := by
      have e : (v.highlight l).highlight a = Numbers.announce { v.highlight l with language := a, parserOffset := none } := by
        rw [Numbers.highlight, Numbers.choose, if_pos hne]
      rw [e]
      exact announce_right (v := { v.highlight l with language := a, parserOffset := none }) rfl key.2.1
    have := ih a (v.highlight l) key.2.1 hc.2 (Or.inr hne) key'
    rw [List.foldl_cons, List.getLast_cons (by simp)]
    exact this

/-- As long as the language changes each time, and then for any number of saves, the numbers are right.  Missing from the property: changes after saves. -/
theorem C96_partial (l : Language) (ls : List Language) (hc : Changing (l :: ls)) (saves : Nat) :
    Right ((l :: ls ++ List.replicate saves ((l :: ls).getLast (by simp))).foldl Numbers.highlight Numbers.new) := by
  obtain ⟨h1, h2⟩ := changes_right l ls Numbers.new rfl hc (Or.inl rfl)
  rw [List.foldl_append, ← h2]
  generalize (l :: ls).foldl Numbers.highlight Numbers.new = v at h1
  have : ∀ n (w : Numbers), Right w → w.language = v.language → Right ((List.replicate n v.language).foldl Numbers.highlight w) := by
    intro n
    induction n with
    | zero => exact fun w hw _ => hw
    | succ n ih =>
      intro w hw hl
      rw [List.replicate_succ, List.foldl_cons]
      obtain ⟨a, b⟩ := highlight_again hw
      rw [← hl] at ih ⊢
      exact ih _ a b
  exact this saves v h1 rfl

/-- Whatever happens, what is in the table stays there: spans sent earlier keep their meaning. -/
theorem C96_keeps (v : Numbers) (l : Language) {i : Nat} {scope : List String} (h : v.table[i]? = some scope) : (v.highlight l).table[i]? = some scope := by
  have e : (v.highlight l).table = v.table ++ scopesOf (v.choose l).language := by
    simp only [Numbers.highlight, Numbers.announce]
    have : (v.choose l).table = v.table := by simp only [Numbers.choose]; split <;> rfl
    split <;> simp [this]
  rw [e, List.getElem?_append_left (List.getElem?_eq_some_iff.mp h).1]
  exact h

/-- Refuted: the numbers are right.  A view of Rust is saved, and then its language becomes plain text: the number the plugin uses for it means Rust to the core. -/
theorem C96_refuted :
    let v := [Language.rust, .rust, .plainText].foldl Numbers.highlight Numbers.new
    v.parserOffset = some 10 ∧ scopesOf v.language = [["source.plaintext"]] ∧ v.table[10]? = some ["source.rust"] := by
  decide +kernel

example : Changing [.plainText, .rust, .other 3, .rust] := by simp [Changing]

end Lang

end Xi
