import Verif.Spec.Lang
/-!
# Lemmas on stacks as numbers
-/

namespace Xi

namespace Lang

variable {α : Type} [DecidableEq α]

/-- What holds of every context. -/
structure Sound (ctx : Context α) (stacks : List (Nat × List α)) : Prop where
  zero : (0, []) ∈ stacks
  /-- Stacks have entries. -/
  entry : ∀ {s st}, (s, st) ∈ stacks → (s = 0 ∧ st = []) ∨ ∃ (k : Nat) (el : α) (prev : Nat) (st' : List α), s = k + 1 ∧ st = el :: st' ∧ ctx.entries[k]? = some ⟨el, prev⟩ ∧ (prev, st') ∈ stacks
  /-- The table leads to entries. -/
  next : ∀ p ∈ ctx.next, ∃ k : Nat, p.2 = k + 1 ∧ ctx.entries[k]? = some ⟨p.1.2, p.1.1⟩
  /-- Entries are in the table. -/
  table : ∀ {k : Nat} {e}, ctx.entries[k]? = some e → ((e.prev, e.top), k + 1) ∈ ctx.next
  /-- No entry occurs twice. -/
  once : ∀ {j k : Nat} {e}, ctx.entries[j]? = some e → ctx.entries[k]? = some e → j = k

omit [DecidableEq α] in
theorem getElem?_snoc_some {l : List α} {x e : α} {k : Nat} (h : (l ++ [x])[k]? = some e) : l[k]? = some e ∨ (k = l.length ∧ e = x) := by
  rcases Nat.lt_trichotomy k l.length with hk | hk | hk
  · rw [List.getElem?_append_left hk] at h
    exact Or.inl h
  · subst hk
    simp at h
    exact Or.inr ⟨rfl, h.symm⟩
  · rw [List.getElem?_eq_none (by simp; omega)] at h
    cases h

omit [DecidableEq α] in
theorem getElem?_snoc {l : List α} {x e : α} {k : Nat} (h : l[k]? = some e) : (l ++ [x])[k]? = some e := by
  have : k < l.length := (List.getElem?_eq_some_iff.mp h).1
  rwa [List.getElem?_append_left this]

theorem Sound.push {ctx : Context α} {stacks : List (Nat × List α)} (h : Sound ctx stacks) {s : Nat} {st : List α} (hs : (s, st) ∈ stacks) (el : α) :
    Sound (ctx.push s el).1 (((ctx.push s el).2, el :: st) :: stacks) := by
  unfold Context.push
  cases hf : ctx.next.find? (fun p => decide (p.1 = (s, el))) with
  | some p =>
    have hp := List.find?_some hf
    have hm := List.mem_of_find?_eq_some hf
    simp only [decide_eq_true_eq] at hp
    obtain ⟨k, hk, he⟩ := h.next p hm
    rw [hp] at he
    refine ⟨List.mem_cons_of_mem _ h.zero, ?_, h.next, h.table, h.once⟩
    intro s' st' hm'
    rcases List.mem_cons.mp hm' with heq | hm'
    · cases heq
      exact Or.inr ⟨k, el, s, st, hk, rfl, he, List.mem_cons_of_mem _ hs⟩
    · rcases h.entry hm' with h1 | ⟨k, el, prev, st', h1, h2, h3, h5⟩
      · exact Or.inl h1
      · exact Or.inr ⟨k, el, prev, st', h1, h2, h3, List.mem_cons_of_mem _ h5⟩
  | none =>
    have hnew : ∀ p ∈ ctx.next, p.1 ≠ (s, el) := by
      intro p hp
      simpa using List.find?_eq_none.mp hf p hp
    have hno : ∀ k : Nat, ctx.entries[k]? ≠ some ⟨el, s⟩ := fun k hk => hnew _ (h.table hk) rfl
    refine ⟨List.mem_cons_of_mem _ h.zero, ?_, ?_, ?_, ?_⟩
    · intro s' st' hm'
      rcases List.mem_cons.mp hm' with heq | hm'
      · simp only [Prod.mk.injEq] at heq
        refine Or.inr ⟨ctx.entries.length, el, s, st, ?_, heq.2, ?_, List.mem_cons_of_mem _ hs⟩
        · simpa using heq.1
        · simp
      · rcases h.entry hm' with h1 | ⟨k, el, prev, st', h1, h2, h3, h5⟩
        · exact Or.inl h1
        · exact Or.inr ⟨k, el, prev, st', h1, h2, getElem?_snoc h3, List.mem_cons_of_mem _ h5⟩
    · intro p hp
      rcases List.mem_cons.mp hp with rfl | hp
      · exact ⟨ctx.entries.length, by simp, by simp⟩
      · obtain ⟨k, h1, h2⟩ := h.next p hp
        exact ⟨k, h1, getElem?_snoc h2⟩
    · intro k e he
      rcases getElem?_snoc_some he with he | ⟨rfl, rfl⟩
      · exact List.mem_cons_of_mem _ (h.table he)
      · simp
    · intro j k e hj hk
      rcases getElem?_snoc_some hj with hj | ⟨rfl, rfl⟩ <;> rcases getElem?_snoc_some hk with hk | ⟨h1, h2⟩
      · exact h.once hj hk
      · subst h2; exact absurd hj (hno j)
      · exact absurd hk (hno k)
      · exact h1.symm

theorem Grown.sound {ctx : Context α} {stacks : List (Nat × List α)} (h : Grown ctx stacks) : Sound ctx stacks := by
  induction h with
  | new =>
    refine ⟨by simp, ?_, by simp [Context.new], by simp [Context.new], by simp [Context.new]⟩
    intro s st hm
    simp at hm
    exact Or.inl hm
  | push h hs el ih => exact ih.push hs el

theorem Grown.tos {ctx : Context α} {stacks : List (Nat × List α)} (h : Grown ctx stacks) {s : Nat} {st : List α} (hs : (s, st) ∈ stacks) :
    ctx.tos s = some st.head? := by
  rcases h.sound.entry hs with ⟨rfl, rfl⟩ | ⟨k, el, prev, st', rfl, rfl, h3, h4⟩
  · rfl
  · simp [Context.tos, Context.entry, h3]

theorem Grown.pop_nil {ctx : Context α} {stacks : List (Nat × List α)} (h : Grown ctx stacks) {s : Nat} (hs : (s, []) ∈ stacks) : ctx.pop s = some none := by
  rcases h.sound.entry hs with ⟨rfl, _⟩ | ⟨k, el, prev, st', rfl, h2, h3, h4⟩
  · rfl
  · cases h2

theorem Grown.pop_cons {ctx : Context α} {stacks : List (Nat × List α)} (h : Grown ctx stacks) {s : Nat} {el : α} {st : List α} (hs : (s, el :: st) ∈ stacks) :
    ∃ s', ctx.pop s = some (some s') ∧ (s', st) ∈ stacks := by
  rcases h.sound.entry hs with ⟨rfl, h2⟩ | ⟨k, el, prev, st', rfl, h2, h3, h4⟩
  · cases h2
  · cases h2
    exact ⟨prev, by simp [Context.pop, Context.entry, h3], h4⟩

theorem Grown.same_stack {ctx : Context α} {stacks : List (Nat × List α)} (h : Grown ctx stacks) {s : Nat} {st st' : List α} (hs : (s, st) ∈ stacks) (hs' : (s, st') ∈ stacks) :
    st = st' := by
  induction st generalizing s st' with
  | nil =>
    rcases h.sound.entry hs with ⟨rfl, _⟩ | ⟨k, el, prev, st'', rfl, h2, h3, h4⟩
    · rcases h.sound.entry hs' with ⟨_, rfl⟩ | ⟨k, el, prev, st'', h1, h2, h3, h4⟩
      · rfl
      · omega
    · cases h2
  | cons el st ih =>
    rcases h.sound.entry hs with ⟨rfl, h2⟩ | ⟨k, el, prev, st'', rfl, h2, h3, h4⟩
    · cases h2
    · cases h2
      rcases h.sound.entry hs' with ⟨h1, _⟩ | ⟨k', el', prev', st'', h1, rfl, h3', h4'⟩
      · omega
      · have : k = k' := by omega
        subst this
        rw [h3] at h3'
        cases h3'
        rw [ih h4 h4']

theorem Grown.same_state {ctx : Context α} {stacks : List (Nat × List α)} (h : Grown ctx stacks) {s s' : Nat} {st : List α} (hs : (s, st) ∈ stacks) (hs' : (s', st) ∈ stacks) :
    s = s' := by
  induction st generalizing s s' with
  | nil =>
    rcases h.sound.entry hs with ⟨rfl, _⟩ | ⟨k, el, prev, st'', rfl, h2, h3, h4⟩
    · rcases h.sound.entry hs' with ⟨rfl, _⟩ | ⟨k, el, prev, st'', h1, h2, h3, h4⟩
      · rfl
      · cases h2
    · cases h2
  | cons el st ih =>
    rcases h.sound.entry hs with ⟨rfl, h2⟩ | ⟨k, el, prev, st'', rfl, h2, h3, h4⟩
    · cases h2
    · cases h2
      rcases h.sound.entry hs' with ⟨rfl, h2⟩ | ⟨k', el', prev', st'', rfl, h2, h3', h4'⟩
      · cases h2
      · cases h2
        have := ih h4 h4'
        subst this
        rw [h.sound.once h3 h3']

end Lang

end Xi
