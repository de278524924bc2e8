import Verif.Plugin.SyntectCacheLemmas
import Verif.Props.StateCache

/-!
# C90: the scopes the core gets from the plugin for syntax highlighting
-/

namespace Xi

namespace Syntect

open Plugin

variable {σ P : Type} [DecidableEq σ]

/-- **C90.** A stack that is looked up gets a number, which is the place of the stack in the list of all stacks that were numbered so far; a new stack is added
at the end of it, and no stack is in it twice.  Only the empty stack, which has no number, is an error. -/
theorem C90_numbers (m : StackMap σ) (table : List (List σ)) (hm : Numbered m table) (stack : List σ) :
    (stack = [] → m.getValue stack = none)
    ∧ (stack ≠ [] → ∃ m' result, m.getValue stack = some (m', result) ∧
        ((stack ∈ table ∧ Numbered m' table ∧ ∃ id, result = .existing id ∧ table[id]? = some stack)
          ∨ (stack ∉ table ∧ Numbered m' (table ++ [stack]) ∧ result = .new table.length))) := by
  refine ⟨?_, fun hs => ?_⟩
  · rintro rfl
    rw [StackMap.getValue, Node.getValue]
  · rcases hm.getValue hs with ⟨m', id, h1, h2, h3⟩ | ⟨m', h1, h2, h3⟩
    · exact ⟨m', _, h1, .inl ⟨List.mem_of_getElem? h3, h2, id, rfl, h3⟩⟩
    · exact ⟨m', _, h1, .inr ⟨h3, h2, rfl⟩⟩

/-- **C90.** Two stacks have the same number only if they are equal. -/
theorem C90_distinct (m : StackMap σ) (table : List (List σ)) (hm : Numbered m table) : table.Nodup := by
  rw [List.nodup_iff_pairwise_ne, List.pairwise_iff_getElem]
  intro i j hi hj hlt he
  have := hm.nodup (List.getElem?_eq_getElem hi) (by rw [he]; exact List.getElem?_eq_getElem hj)
  omega

/-- **C90**, in part. In a session in which highlighting does not begin anew while there are scopes that have not been sent, nothing panics, and what the core
understands is what a highlighter would have sent that sends the scopes of each byte themselves: the numbers are those of the table of the core, and the spans
cover the lines. Missing: that highlighting begins anew after a look at the syntax for comments or indentation, before the scopes have been sent. -/
theorem C90_scopes_partial (parser : Parser P σ) (stackOf : P → List σ) (hp : parser.Ok stackOf) (ops : List (Op P σ)) (hc : Calm stackOf false false ops) :
    ∃ st, PluginState.run parser {} ops = some st ∧ decode [] st.sent = (ops.foldl (Ideal.step parser) {}).sent := by
  obtain ⟨st, h1, h2⟩ := Ready.run hp ops (Ready.start stackOf) hc
  exact ⟨st, h1, h2.sent⟩

/-- **C90.** When a document is opened, the plugin highlights all of it, in stretches that follow each other from its start, and each byte gets the scopes that
parsing the document from its start gives; however long the lines take, whatever is evicted from the cache, and however often the plugin is interrupted. -/
theorem C90_open [DecidableEq P] (parser : Parser P σ) (stackOf : P → List σ) (hp : parser.Ok stackOf) (initial : P) (h0 : stackOf initial = []) (r : Rope)
    (hr : r.Balanced) (ht : Utf8 r.text) (source : Source) (size rev : Nat) (hsize : 4 ≤ size) (ha : Answers source size rev r)
    (rng : Nat → Nat → Nat → Nat) (busy : Nat → Nat → Bool) (fuel : Nat) (hf : r.text.count newline < fuel) :
    ∃ st c, PluginState.idles parser initial source size rng busy fuel (PluginState.restart {} initial)
        (StateCache.reset (StateCache.new r.text.length rev (r.text.count newline + 1))) = some (st, c)
      ∧ Follow 0 (decode [] st.sent)
      ∧ (decode [] st.sent).flatMap (·.scopes) = (List.range (r.text.count newline + 1)).flatMap (scopesIn parser initial r.text)
      ∧ c.frontier = [] := by
  have hsw : Sweep parser stackOf initial source size r (StateCache.reset (StateCache.new r.text.length rev (r.text.count newline + 1))) 0 := by
    have hcoh := C42_new r.text ht rev
    refine ⟨⟨⟨hcoh, List.Pairwise.nil, by simp [StateCache.reset, StateCache.truncateCache, StateCache.new], by simp [StateCache.reset, StateCache.truncateCache, StateCache.new],
      by simp [StateCache.reset, StateCache.truncateCache, StateCache.new], by simp [StateCache.reset, StateCache.truncateCache, StateCache.new]⟩, ?_, ?_, trivial⟩, ?_, rfl, ?_, .inl rfl, ⟨hr, hsize, fun s u => .inl (ha s u)⟩, ha⟩
    · exact List.pairwise_singleton _ _
    · intro p hp
      rw [show (StateCache.reset (StateCache.new (S := Option (P × List σ)) r.text.length rev (r.text.count newline + 1))).frontier = [0] from rfl] at hp
      rw [List.mem_singleton] at hp
      omega
    · intro e he
      cases he
    · intro e he
      cases he
  have hready : Ready stackOf true false (PluginState.restart ({} : PluginState P σ) initial) ({ initial := some initial } : Ideal P σ) :=
    ⟨⟨Numbered.empty, rfl, rfl, rfl, rfl, Drawn.nil _⟩, fun _ => ⟨initial, rfl, h0⟩, fun _ => rfl⟩
  have hcov : Covered parser initial r.text ({ initial := some initial } : Ideal P σ) 0 := ⟨rfl, rfl, rfl, trivial⟩
  obtain ⟨st, c, i, h1, h2, h3, h4, h5⟩ := Sweep.idles hp h0 rng busy fuel hsw hready hcov (by omega)
  refine ⟨st, c, h1, by rw [h2.sent]; exact h5.follow, ?_, h4⟩
  rw [h2.sent, ← h5.all, h3, List.append_nil]

/-- **C90.** Each line that is highlighted later, after edits, gets the scopes that parsing the document from its start gives, as long as the cache of states is right
(C70). -/
theorem C90_line [DecidableEq P] (parser : Parser P σ) (stackOf : P → List σ) (hp : parser.Ok stackOf) (initial : P) (h0 : stackOf initial = []) (r : Rope)
    (c : StateCache (Option (P × List σ))) (ht : Tracked (highlighter parser initial) c r.text) (hc : ∀ e ∈ c.entries, ∃ p, e.state = some (some (p, stackOf p)))
    (source : Source) (size : Nat) (hr : Reading source size r c.buf.rev) (ha : Answers source size c.buf.rev r) (rng : Nat → Nat) (p : Nat) (rest : List Nat)
    (hf : c.frontier = p :: rest) (st : PluginState P σ) (i : Ideal P σ) (hst : InStep st i) (hi : i.initial = some initial) :
    ∃ m st' c' more, st.highlightOneLine parser initial source size rng c = some (st', c', more)
      ∧ Plugin.highlightOneLine (highlighter parser initial) source size rng c = some (c', more)
      ∧ m ≤ p ∧ InStep st' (i.draw (lineBegin r.text m) (scopesIn parser initial r.text m))
      ∧ Tracked (highlighter parser initial) c' r.text ∧ ∀ e ∈ c'.entries, ∃ p, e.state = some (some (p, stackOf p)) := by
  obtain ⟨m, st', c', more, h1, h2, h3, -, -, -, h7, h8⟩ := oneLine hp h0 ht hc hr ha rng hf (pending := true) ⟨hst, fun _ => ⟨initial, hi, h0⟩, by simp⟩ hi
  exact ⟨m, st', c', more, h1, h2, h3, h7.inStep, h8.tracked, h8.consistent⟩

/-! ## Examples -/

/-- A parser with scope 1 for the text and scope 2 for lines that begin with `#`; its state is whether something was parsed. -/
def hashParser : Parser Bool Nat where
  parse begun line :=
    (true, (if begun then [] else [(0, fun _ => [1])]) ++
      (if line.head? = some 35 then [(0, fun s => s ++ [2]), (line.length, fun _ => [1])] else []))

/-- The scopes of that parser at the start of a line. -/
def hashStack (begun : Bool) : List Nat := if begun then [1] else []

theorem hashParser_ok : hashParser.Ok hashStack := by
  refine ⟨?_, ?_, ?_, ?_⟩
  · intro p line
    cases p <;> by_cases h : line.head? = some 35 <;> simp [hashParser, h]
  · intro p line
    cases p <;> by_cases h : line.head? = some 35 <;> simp [hashParser, h]
  · intro p line
    cases p <;> by_cases h : line.head? = some 35 <;> simp [hashParser, h, stackAfter, hashStack]
  · intro p line
    cases p <;> by_cases h : line.head? = some 35 <;> simp [hashParser, h, stackAfter, hashStack]

/-- Two lines, a flush, a line again. -/
def hashOps : List (Op Bool Nat) :=
  [.restart false, .line 0 [97, 10] none, .line 2 [35, 10] (some (true, [1])), .flush, .metadata [35], .line 2 [35] (some (true, [1])), .flush, .restart false]

example : Calm hashStack false false hashOps := by simp [Calm, hashOps, hashStack]

example : ∃ st, PluginState.run hashParser {} hashOps = some st
    ∧ decode [] st.sent = [⟨0, [some [1], some [1], some [1, 2], some [1, 2]]⟩, ⟨2, [some [1, 2]]⟩] := by
  obtain ⟨st, h1, h2⟩ := C90_scopes_partial hashParser hashStack hashParser_ok hashOps (by simp [Calm, hashOps, hashStack])
  exact ⟨st, h1, by rw [h2]; decide +kernel⟩

/-- A document with three lines is opened. -/
example : (PluginState.idles hashParser false (faithful (Node.fromLeaf [97, 10, 35, 120, 10, 98])) 8 (fun _ _ => id) (fun _ n => n % 2 = 0) 4
    (PluginState.restart {} false) (StateCache.reset (StateCache.new 6 0 3))).map (fun x => (decode [] x.1.sent, x.2.frontier)) =
    some ([⟨0, [some [1], some [1], some [1, 2], some [1, 2], some [1, 2]]⟩, ⟨5, [some [1]]⟩], []) := by decide +kernel

/-- **C90** is refuted in general: the text is highlighted; a look at a line for a comment gives a stack a number; the document is saved before the plugin is
idle, and the new stack is never sent; then the line is highlighted with a number that the table of the core does not have (and the core takes it as an index). -/
theorem C90_lost_refuted : ∃ ops : List (Op Bool Nat), ∃ st, PluginState.run hashParser {} ops = some st
    ∧ decode [] st.sent ≠ (ops.foldl (Ideal.step hashParser) {}).sent
    ∧ st.sent = [.addScopes [[1]], .updateSpans 0 2 [⟨0, 2, 0⟩], .updateSpans 0 2 [⟨0, 2, 1⟩, ⟨2, 2, 0⟩]] :=
  ⟨[.restart false, .line 0 [97, 10] none, .flush, .metadata [35, 10], .restart false, .line 0 [35, 10] none, .flush], _, rfl, by decide +kernel, by decide +kernel⟩

end Syntect

end Xi
