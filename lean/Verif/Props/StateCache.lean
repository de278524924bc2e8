import Verif.Plugin.HighlightLemmas
import Verif.Props.ChunkCache

/-!
# C70: a plugin's states per line
-/

namespace Xi

open Plugin StateCache

variable {S : Type}

/-! ## Places -/

/-- **C70.** A new cache. -/
theorem C70_new (t : List UInt8) (ht : Utf8 t) (rev : Nat) : Placed (StateCache.new t.length rev (t.count newline + 1) : StateCache S) t :=
  ⟨C42_new t ht rev, .nil, by simp [StateCache.new], by simp [StateCache.new], by simp [StateCache.new], by simp [StateCache.new]⟩

/-- **C70.** After an edit, simple or not, every state is still at the start of a line, with the right offset. -/
theorem C70_update_places (c : StateCache S) (t t' : List UInt8) (d : Delta UInt8) (hc : Placed c t) (hd : d.WF) (hl : t.length = d.baseLen)
    (hw : WholeChars t d) (ha : d.apply t = some t') (rev : Nat) :
    ∃ c', c.update (some d) t'.length (t'.count newline + 1) rev = some c' ∧ Placed c' t' ∧ c'.buf.rev = rev := update_placed hc hd hl hw ha rev

/-- **C70.** The same for an edit that is too large to be sent. -/
theorem C70_unknown_places (c : StateCache S) (t t' : List UInt8) (hc : Placed c t) (ht' : Utf8 t') (rev : Nat) :
    ∃ c', c.update none t'.length (t'.count newline + 1) rev = some c' ∧ Placed c' t' ∧ c'.buf.rev = rev := update_none_placed hc ht' rev

/-- **C70.** A state that has been stored is found again, whichever entry is thrown out for it; the number
of entries stays bounded. -/
theorem C70_set (source : Source) (size : Nat) (r : Rope) (c : StateCache S) (hr : Reading source size r c.buf.rev) (ha : Answers source size c.buf.rev r)
    (hp : Placed c r.text) (rng : Nat → Nat) (n : Nat) (hn : n ≤ r.text.count newline + 1) (s : S) :
    ∃ c', c.set source size rng n s = some c' ∧ Placed c' r.text ∧ c'.frontier = c.frontier ∧
      c'.get n = (if n ≤ r.text.count newline then some s else none) := by
  obtain ⟨c', h1, h2, -, h4, h5⟩ := set_spec hr ha hp rng hn s
  refine ⟨c', h1, h2, h4, ?_⟩
  have found : ∀ e ∈ c'.entries, e.line = n → e.state = some s → c'.get n = some s := by
    intro e he hen hes
    rcases get_spec h2 n with ⟨x, s', g1, g2, g3, g4⟩ | ⟨g1, -⟩
    · have : x = e := by
        obtain ⟨i, hi, rfl⟩ := List.mem_iff_getElem.1 he
        obtain ⟨j, hj, rfl⟩ := List.mem_iff_getElem.1 g1
        have hs := List.pairwise_iff_getElem.1 h2.sorted
        rcases Nat.lt_trichotomy i j with hij | rfl | hij
        · have := hs i j hi hj hij; omega
        · rfl
        · have := hs j i hj hi hij; omega
      rw [g4, ← g3, this, hes]
    · exact absurd hen (g1 e he)
  rcases h5 with ⟨pre, e, post, g1, g2, g3⟩ | ⟨g0, -, pre, post, -, -, -, g3⟩ | ⟨g1, g2⟩
  · have hle := hp.line e (by rw [g1]; simp)
    rw [g2] at hle
    rw [if_pos hle]
    exact found { e with state := some s } (by rw [g3]; simp) g2 rfl
  · rw [if_pos g0]
    exact found ⟨n, lineBegin r.text n, some s⟩ (by rw [g3]; simp) rfl rfl
  · rw [if_neg (by omega)]
    rcases get_spec h2 n with ⟨x, s', k1, k2, -, -⟩ | ⟨-, k2⟩
    · have := h2.line x k1; omega
    · exact k2

/-- **C70.** `get_prev` gives the nearest state at or before a line. -/
theorem C70_get_prev (c : StateCache S) (t : List UInt8) (hp : Placed c t) (s0 : S) (n : Nat) (hn : 0 < n) :
    (∃ e ∈ c.entries, ∃ s, e.line ≤ n ∧ e.state = some s ∧ (∀ x ∈ c.entries, x.line ≤ n → x.line ≤ e.line) ∧ c.getPrev s0 n = (e.line, lineBegin t e.line, s)) ∨
    ((∀ e ∈ c.entries, n < e.line) ∧ c.getPrev s0 n = (0, 0, s0)) := by
  obtain ⟨pre, post, h1, h2, h3⟩ := split_sorted hp.sorted n
  obtain ⟨off, h4, h5⟩ := getPrev_spec hp s0 (.inl hn) h1 h2 h3
  rcases List.eq_nil_or_concat pre with rfl | ⟨pre', e, rfl⟩
  · right
    refine ⟨fun e he => h3 e (by rw [h1] at he; simpa using he), ?_⟩
    rw [h4, h5]
    simp [endAt, lineBegin_zero]
  · left
    rw [List.concat_eq_append] at h1 h2 h4 h5
    have he : e ∈ c.entries := by rw [h1]; simp
    obtain ⟨s, hs⟩ := Option.isSome_iff_exists.1 (hp.state e he)
    rw [endAt_concat _ _ _ _ _ hs] at h4 h5
    refine ⟨e, he, s, h2 e (by simp), hs, fun x hx hle => ?_, by rw [h4, h5]⟩
    have hsp := hp.sorted
    rw [h1] at hx hsp
    rcases List.mem_append.1 hx with hx | hx
    · exact lastLine_concat pre' e ▸ lastLine_ge (List.pairwise_append.1 hsp).1 hx
    · have := h3 x hx; omega

/-! ## States -/

/-- **C70.** Everything is pending after `reset`. -/
theorem C70_reset (h : Highlighter S) (t : List UInt8) (ht : Utf8 t) (rev : Nat) :
    Tracked h (StateCache.new t.length rev (t.count newline + 1)).reset t ∧ (StateCache.new t.length rev (t.count newline + 1) : StateCache S).reset.frontier = [0] :=
  ⟨⟨⟨C42_new t ht rev, .nil, by simp [StateCache.new, reset, truncateCache, truncateFrontier, binSearch], by simp [StateCache.new, reset, truncateCache, truncateFrontier, binSearch],
      by simp [StateCache.new, reset, truncateCache, truncateFrontier, binSearch], by simp [StateCache.new, reset, truncateCache, truncateFrontier, binSearch]⟩,
    by simp [StateCache.new, reset, truncateCache, truncateFrontier, binSearch, lineBefore, afterOffset, findOffset],
    by simp [StateCache.new, reset, truncateCache, truncateFrontier, binSearch, lineBefore, afterOffset, findOffset],
    by simp [StateCache.new, reset, truncateCache, truncateFrontier, binSearch, lineBefore, afterOffset, findOffset, Chain]⟩,
    by simp [StateCache.new, reset, truncateCache, truncateFrontier, binSearch, lineBefore, afterOffset, findOffset]⟩

/-- **C70.** Up to the first pending line, every state is the one computed from the start of the document. -/
theorem C70_before_pending (h : Highlighter S) (hl : h.Lawful) (c : StateCache S) (t : List UInt8) (ht : Tracked h c t) (e : CacheEntry S) (he : e ∈ c.entries)
    (hp : ∀ p ∈ c.frontier, e.line ≤ p) : ∃ s, e.state = some s ∧ h.same s (stateAt h t e.line) = true := by
  obtain ⟨pre, post, h1, h2, h3⟩ := split_sorted ht.placed.sorted e.line
  have hchain := ht.chain
  rw [h1, chain_append] at hchain
  have hin : e ∈ pre := by
    rw [h1] at he
    rcases List.mem_append.1 he with he | he
    · exact he
    · have := h3 e he; omega
  exact hchain.1.right hl hp (hl.refl _) e hin (Nat.le_refl _) h2

/-- **C70.** When nothing is pending, every cached state is the one computed from the start of the document. -/
theorem C70_done (h : Highlighter S) (hl : h.Lawful) (c : StateCache S) (t : List UInt8) (ht : Tracked h c t) (hf : c.frontier = []) (n : Nat) (s : S)
    (hg : c.get n = some s) : h.same s (stateAt h t n) = true := by
  rcases get_spec ht.placed n with ⟨e, s', g1, g2, g3, g4⟩ | ⟨-, g2⟩
  · obtain ⟨s1, k1, k2⟩ := C70_before_pending h hl c t ht e g1 (by simp [hf])
    rw [g4] at hg
    rw [g3] at k1
    rw [← g2, ← Option.some.inj hg, Option.some.inj k1]
    exact k2
  · rw [g2] at hg; simp at hg

/-- **C70.** A step of the highlighter keeps the states right as far as no line is pending. -/
theorem C70_highlight (h : Highlighter S) (hl : h.Lawful) (source : Source) (size : Nat) (r : Rope) (c : StateCache S) (ht : Tracked h c r.text)
    (hr : Reading source size r c.buf.rev) (ha : Answers source size c.buf.rev r) (rng : Nat → Nat) :
    ∃ c' more, highlightOneLine h source size rng c = some (c', more) ∧ c'.buf.rev = c.buf.rev ∧ Tracked h c' r.text := by
  obtain ⟨c', more, h1, h2, h3, -⟩ := highlight_spec hl ht hr ha rng
  exact ⟨c', more, h1, h2, h3⟩

/-- Steps of the highlighter, whatever it says about more work. -/
inductive Highlights (h : Highlighter S) (source : Source) (size : Nat) : Nat → StateCache S → StateCache S → Prop
  | zero {c : StateCache S} : Highlights h source size 0 c c
  | succ {n : Nat} {rng : Nat → Nat} {c c1 c2 : StateCache S} {more : Bool} : highlightOneLine h source size rng c = some (c1, more) → Highlights h source size n c1 c2 →
      Highlights h source size (n + 1) c c2

/-- **C70.** If it is called often enough, the highlighter finishes, after at most the number of lines for each pending line. -/
theorem C70_finishes (h : Highlighter S) (hl : h.Lawful) (source : Source) (size : Nat) (r : Rope) (c : StateCache S) (ht : Tracked h c r.text)
    (hr : Reading source size r c.buf.rev) (ha : Answers source size c.buf.rev r) :
    ∃ n c', n ≤ workLeft c r.text ∧ Highlights h source size n c c' ∧ c'.frontier = [] ∧ Tracked h c' r.text := by
  have key : ∀ (k : Nat) (c : StateCache S), effort c r.text ≤ k → Tracked h c r.text → Reading source size r c.buf.rev → Answers source size c.buf.rev r →
      ∃ n c', n ≤ k ∧ Highlights h source size n c c' ∧ c'.frontier = [] ∧ Tracked h c' r.text := by
    intro k
    induction k with
    | zero =>
      intro c hk ht hr ha
      cases hf : c.frontier with
      | nil => exact ⟨0, c, Nat.le_refl _, .zero, hf, ht⟩
      | cons p rest =>
        obtain ⟨_, _, -, -, -, -, h5⟩ := highlight_spec hl ht hr ha id
        have := h5 (by simp [hf])
        omega
    | succ k ih =>
      intro c hk ht hr ha
      cases hf : c.frontier with
      | nil => exact ⟨0, c, Nat.zero_le _, .zero, hf, ht⟩
      | cons p rest =>
        obtain ⟨c1, more, h1, h2, h3, -, h5⟩ := highlight_spec hl ht hr ha id
        have := h5 (by simp [hf])
        obtain ⟨n, c', g1, g2, g3, g4⟩ := ih c1 (by omega) h3 (by rw [h2]; exact hr) (by rw [h2]; exact ha)
        exact ⟨n + 1, c', by omega, .succ h1 g2, g3, g4⟩
  have hle : effort c r.text ≤ workLeft c r.text := effort_rest rfl
  exact key _ c hle ht hr ha

/-- The condition on an edit. -/
def SafeDelta (c : StateCache S) (t : List UInt8) (d : Delta UInt8) : Prop :=
  d.asSimpleInsert.isSome ∨ d.isSimpleDelete = true → SafeEdit c t d.summary.1.1 d.summary.1.2 (d.asSimpleInsert.getD [])

/-- **C70.** After an edit that does not lose a pending line, the states are right as far as no line is pending. -/
theorem C70_update_partial (h : Highlighter S) (c : StateCache S) (t t' : List UInt8) (d : Delta UInt8) (ht : Tracked h c t) (hd : d.WF) (hl : t.length = d.baseLen)
    (hw : WholeChars t d) (ha : d.apply t = some t') (hs : SafeDelta c t d) (hlen : t'.length < 2 ^ 64) (rev : Nat) :
    ∃ c', c.update (some d) t'.length (t'.count newline + 1) rev = some c' ∧ Tracked h c' t' ∧ c'.buf.rev = rev := by
  obtain ⟨A, D, N, B, c1, h1, h2, h3, h4, h5⟩ := updateLineCache_spec ht.placed hd hl hw ha
  obtain ⟨b, k1, k2, k3⟩ := update_spec ht.placed.coh hd hl hw ha rev
  have hbuf : c1.buf = c.buf := by rcases h5 with h5 | ⟨h5, -⟩ <;> exact h5.buf
  refine ⟨{ c1 with buf := b }, ?_, ?_, k3⟩
  · rw [StateCache.update, updateStates, h4]
    simp only [Option.bind_eq_bind, Option.bind_some, hbuf, k1]
    rfl
  · rcases h5 with h5 | ⟨h5, h6⟩
    · rw [h1, List.append_assoc] at ht
      rw [h2, List.append_assoc] at k2 ⊢
      exact h5.tracked ht k2
    · have hsafe : SafeEdit c t A.length (A ++ D).length N := by
        rcases h6 with ⟨g1, g2⟩ | ⟨g1, g2, g3⟩
        · have := hs (.inl (by rw [g1]; rfl))
          rw [h3, g1] at this
          exact this
        · have := hs (.inr g2)
          rw [h3, g1] at this
          rw [g3]
          exact this
      rw [h1] at ht hsafe
      rw [h2] at k2 hlen ⊢
      exact h5.tracked ht k2 hsafe hlen

/-- **C70.** After an edit that is too large to be sent, everything is pending. -/
theorem C70_unknown (h : Highlighter S) (c : StateCache S) (t t' : List UInt8) (ht : Tracked h c t) (ht' : Utf8 t') (rev : Nat) :
    ∃ c', c.update none t'.length (t'.count newline + 1) rev = some c' ∧ Tracked h c' t' ∧ c'.buf.rev = rev := by
  have h5 := truncateCache_cut ht.placed
  refine ⟨{ c.truncateCache 0 with buf := { c.buf.clear with bufSize := t'.length, numLines := t'.count newline + 1, rev := rev } }, ?_, ?_, rfl⟩
  · rw [StateCache.update, updateStates]
    simp only [Option.bind_eq_bind, Option.bind_some, h5.buf]
    rfl
  · exact h5.tracked (X := t) (Y := t') (by simpa using ht) (held_clear ht')

/-- **C70.** When nothing is pending, any edit is fine. -/
theorem C70_safe_when_done (c : StateCache S) (t : List UInt8) (d : Delta UInt8) (hf : c.frontier = []) : SafeDelta c t d := by
  intro _ old _
  left
  simp [hf]

/-- **C70.** When a single line is pending, an edit without newlines is fine. -/
theorem C70_safe_one (c : StateCache S) (t : List UInt8) (d : Delta UInt8) (p : Nat) (hf : c.frontier = [p]) (h1 : newline ∉ d.asSimpleInsert.getD [])
    (h2 : newline ∉ part t d.summary.1.1 d.summary.1.2) : SafeDelta c t d := by
  intro _ old _
  rw [List.count_eq_zero.2 h1, List.count_eq_zero.2 h2, hf]
  simp only [Nat.add_zero, Nat.sub_zero]
  rcases Nat.lt_or_ge p old with h | h
  · left
    intro q hq _
    simp only [List.mem_singleton] at hq
    omega
  · right
    exact ⟨p, fun q hq _ => by simpa using hq, h, h⟩

/-- **C70.** An edit after all pending lines is fine: they are before the next state. -/
theorem C70_safe_after (c : StateCache S) (t : List UInt8) (d : Delta UInt8) (h : ∀ p ∈ c.frontier, p < lastEntry c ((t.take d.summary.1.1).count newline)) :
    SafeDelta c t d := by
  intro _ old _
  left
  intro p hp hle
  have := h p hp
  omega

/-- One step of a plugin that highlights a document; `ok` restricts the edits, and `answers` says that the peer
answers while a line is highlighted. -/
inductive StateStep (h : Highlighter S) (answers : Prop) (ok : StateCache S → List UInt8 → Delta UInt8 → Prop) : StateCache S → Rope → StateCache S → Rope → Prop
  /-- an edit is announced -/
  | edit {c : StateCache S} {r r' : Rope} {d : Delta UInt8} {c' : StateCache S} {rev : Nat} : r'.Balanced → d.WF → r.text.length = d.baseLen → WholeChars r.text d →
      d.apply r.text = some r'.text → r'.text.length < 2 ^ 64 → ok c r.text d → c.update (some d) r'.text.length (r'.text.count newline + 1) rev = some c' →
      StateStep h answers ok c r c' r'
  /-- an edit is announced, but not what it is -/
  | unknown {c : StateCache S} {r r' : Rope} {c' : StateCache S} {rev : Nat} : r'.Balanced → c.update none r'.text.length (r'.text.count newline + 1) rev = some c' →
      StateStep h answers ok c r c' r'
  /-- a line is highlighted -/
  | highlight {c : StateCache S} {r : Rope} {source : Source} {size : Nat} {rng : Nat → Nat} {c' : StateCache S} {more : Bool} : Reading source size r c.buf.rev →
      (answers → Answers source size c.buf.rev r) → highlightOneLine h source size rng c = some (c', more) → StateStep h answers ok c r c' r
  /-- a line is read -/
  | read {c : StateCache S} {r : Rope} {source : Source} {size n : Nat} {b : ChunkCache} {x : Option (List UInt8)} : Reading source size r c.buf.rev →
      c.buf.getLine source size n = some (b, x) → StateStep h answers ok c r { c with buf := b } r

/-- The cache after any number of steps. -/
inductive StateHistory (h : Highlighter S) (answers : Prop) (ok : StateCache S → List UInt8 → Delta UInt8 → Prop) : StateCache S → Rope → Prop
  | new {r : Rope} {rev : Nat} : r.Balanced → StateHistory h answers ok (StateCache.new r.text.length rev (r.text.count newline + 1)).reset r
  | step {c c' : StateCache S} {r r' : Rope} : StateHistory h answers ok c r → StateStep h answers ok c r c' r' → StateHistory h answers ok c' r'

/-- **C70.** After any sequence of edits, reads and highlighting, in any order, every cached state is at the start of a line
of the document. -/
theorem C70_places (h : Highlighter S) (answers : Prop) (ok : StateCache S → List UInt8 → Delta UInt8 → Prop) (c : StateCache S) (r : Rope)
    (hh : StateHistory h answers ok c r) : Placed c r.text := by
  induction hh with
  | new hr => exact (C70_reset h _ (Rope.text_utf8 hr) _).1.placed
  | step _ hs ih =>
    cases hs with
    | edit h1 h2 h3 h4 h5 h6 h7 h8 =>
      obtain ⟨c1, g1, g2, -⟩ := C70_update_places _ _ _ _ ih h2 h3 h4 h5 _
      rw [g1] at h8; cases h8; exact g2
    | unknown h1 h2 =>
      obtain ⟨c1, g1, g2, -⟩ := C70_unknown_places _ _ _ ih (Rope.text_utf8 h1) _
      rw [g1] at h2; cases h2; exact g2
    | highlight h1 h2 h3 =>
      obtain ⟨c1, more, g1, -, g2⟩ := highlight_placed h ih h1 _
      rw [g1] at h3; cases h3; exact g2
    | read h1 h2 => exact ih.buf (readOk_coherent (C42_get_line h1 ih.coh _) h2)

/-- **C70.** After any sequence of edits, reads and highlighting in which no edit loses a pending line: when nothing is
pending, every cached state is the one computed from the start of the document. -/
theorem C70_history_partial (h : Highlighter S) (hl : h.Lawful) (c : StateCache S) (r : Rope) (hh : StateHistory h True SafeDelta c r) :
    Tracked h c r.text ∧ (c.frontier = [] → ∀ n s, c.get n = some s → h.same s (stateAt h r.text n) = true) := by
  have : Tracked h c r.text := by
    induction hh with
    | new hr => exact (C70_reset h _ (Rope.text_utf8 hr) _).1
    | step _ hs ih =>
      cases hs with
      | edit h1 h2 h3 h4 h5 h6 h7 h8 =>
        obtain ⟨c1, g1, g2, -⟩ := C70_update_partial h _ _ _ _ ih h2 h3 h4 h5 h7 h6 _
        rw [g1] at h8; cases h8; exact g2
      | unknown h1 h2 =>
        obtain ⟨c1, g1, g2, -⟩ := C70_unknown h _ _ _ ih (Rope.text_utf8 h1) _
        rw [g1] at h2; cases h2; exact g2
      | highlight h1 h2 h3 =>
        obtain ⟨c1, more, g1, -, g2⟩ := C70_highlight h hl _ _ _ _ ih h1 (h2 trivial) _
        rw [g1] at h3; cases h3; exact g2
      | read h1 h2 =>
        have hb := readOk_coherent (C42_get_line h1 ih.placed.coh _) h2
        exact ⟨ih.placed.buf hb, ih.sorted, ih.bound, ih.chain⟩
  exact ⟨this, fun hf n s hg => C70_done h hl c _ this hf n s hg⟩

/-! ## What goes wrong, and examples -/

/-- A highlighter: the state says whether a bracket is open. -/
def bracketHighlighter : Highlighter Bool := ⟨false, fun s l => if l.contains 40 then true else if l.contains 41 then false else s, fun a b => a == b⟩

theorem bracket_lawful : bracketHighlighter.Lawful :=
  ⟨by simp [bracketHighlighter], by simp [bracketHighlighter], by simp [bracketHighlighter], fun a b l h => by simp only [bracketHighlighter, beq_iff_eq] at h ⊢; rw [h]⟩

/-- Steps for the examples: an edit, a line highlighted, a line not highlighted because the peer does not answer. -/
inductive StateOp where
  | edit (i e : Nat) (s : List UInt8)
  | look (size : Nat)
  | lost

/-- Plain text in one leaf. -/
def Plain (t : List UInt8) : Prop := t.length ≤ 1024 ∧ ∀ b ∈ t, b.toNat < 128

instance (t : List UInt8) : Decidable (Plain t) := by unfold Plain; infer_instance

def plainElement (n : Nat) : DeltaElement UInt8 → Prop
  | .copy b e => b ≤ n ∧ e ≤ n
  | .insert s => ∀ b ∈ s, b.toNat < 128

instance (n : Nat) : ∀ el, Decidable (plainElement n el)
  | .copy _ _ => by unfold plainElement; infer_instance
  | .insert _ => by unfold plainElement; infer_instance

/-- One step of an example. -/
def stateOp (x : List UInt8 × StateCache Bool) : StateOp → Option (List UInt8 × StateCache Bool)
  | .edit i e s => do
    let d ← Delta.simpleEdit i e s x.1.length
    let t ← d.apply x.1
    let c ← x.2.update (some d) t.length (t.count newline + 1) x.2.buf.rev
    if Plain t ∧ d.WF ∧ x.1.length = d.baseLen ∧ ∀ el ∈ d.els, plainElement x.1.length el then some (t, c) else none
  | .look size => if 4 ≤ size then (highlightOneLine bracketHighlighter (faithful (Node.fromLeaf x.1 : Rope)) size id x.2).map (fun y => (x.1, y.1)) else none
  | .lost => (highlightOneLine bracketHighlighter (fun _ _ _ _ => some none) 8 id x.2).map (fun y => (x.1, y.1))

theorem plain_boundary {t : List UInt8} (h : Plain t) {k : Nat} (hk : k ≤ t.length) : CharBoundary t k := by
  have := charBoundary_ends (a := t.take k) (b := t.drop k) (utf8_ascii (fun b hb => h.2 b (List.mem_of_mem_take hb))) (utf8_ascii (fun b hb => h.2 b (List.mem_of_mem_drop hb)))
  rw [List.take_append_drop, List.length_take, Nat.min_eq_left hk] at this
  exact this

theorem plain_balanced {t : List UInt8} (h : Plain t) : (Node.fromLeaf t : Rope).Balanced := ⟨0, Node.wf_fromLeaf ⟨utf8_ascii h.2, h.1⟩⟩

theorem stateOp_history {answers : Prop} {ok : StateCache Bool → List UInt8 → Delta UInt8 → Prop} {x y : List UInt8 × StateCache Bool} {op : StateOp} (hp : Plain x.1)
    (hh : StateHistory bracketHighlighter answers ok x.2 (Node.fromLeaf x.1)) (hop : answers → op ≠ .lost)
    (hok : (∀ c t d, ok c t d) ∨ ∀ i e s, op ≠ .edit i e s ∨ ∀ d, ok x.2 x.1 d) (h : stateOp x op = some y) :
    Plain y.1 ∧ StateHistory bracketHighlighter answers ok y.2 (Node.fromLeaf y.1) := by
  obtain ⟨t, c⟩ := x
  cases op with
  | edit i e s =>
    simp only [stateOp, Option.bind_eq_bind] at h
    obtain ⟨d, -, h2⟩ := Option.bind_eq_some_iff.1 h
    obtain ⟨t', h3, h4⟩ := Option.bind_eq_some_iff.1 h2
    obtain ⟨c', h5, h6⟩ := Option.bind_eq_some_iff.1 h4
    split at h6
    · rename_i hc
      cases h6
      refine ⟨hc.1, .step hh (.edit (d := d) (rev := c.buf.rev) (plain_balanced hc.1) hc.2.1 ?_ ?_ ?_ ?_ ?_ ?_)⟩
      · rw [Node.text_fromLeaf]; exact hc.2.2.1
      · intro el hel
        have := hc.2.2.2 el hel
        rw [Node.text_fromLeaf]
        cases el with
        | copy b e => exact ⟨plain_boundary hp this.1, plain_boundary hp this.2⟩
        | insert s => exact utf8_ascii this
      · rw [Node.text_fromLeaf, Node.text_fromLeaf]; exact h3
      · rw [Node.text_fromLeaf]; show t'.length < _; have := hc.1.1; omega
      · rw [Node.text_fromLeaf]
        rcases hok with hok | hok
        · exact hok _ _ _
        · rcases hok i e s with hok | hok
          · exact absurd rfl hok
          · exact hok d
      · rw [Node.text_fromLeaf]; exact h5
    · simp at h6
  | look size =>
    rw [stateOp] at h
    by_cases hs : 4 ≤ size
    · rw [if_pos hs] at h
      obtain ⟨⟨c', more⟩, h1, rfl⟩ := Option.map_eq_some_iff.1 h
      exact ⟨hp, .step hh (.highlight ⟨plain_balanced hp, hs, fun _ _ => .inl rfl⟩ (fun _ _ _ => rfl) h1)⟩
    · rw [if_neg hs] at h; simp at h
  | lost =>
    simp only [stateOp, Option.map_eq_some_iff] at h
    obtain ⟨⟨c', more⟩, h1, rfl⟩ := h
    exact ⟨hp, .step hh (.highlight ⟨plain_balanced hp, by decide, fun _ _ => .inr rfl⟩ (fun h => absurd rfl (hop h)) h1)⟩

/-- An example from the start. -/
def stateOps (t : List UInt8) (ops : List StateOp) : Option (List UInt8 × StateCache Bool) :=
  ops.foldlM stateOp (t, (StateCache.new t.length 0 (t.count newline + 1)).reset)

theorem stateOps_history {answers : Prop} {ok : StateCache Bool → List UInt8 → Delta UInt8 → Prop} {t : List UInt8} {ops : List StateOp} {y : List UInt8 × StateCache Bool} (hp : Plain t) (hop : answers → ∀ op ∈ ops, op ≠ .lost)
    (hok : (∀ c t d, ok c t d) ∨ ∀ op ∈ ops, ∀ i e s, op ≠ .edit i e s) (h : stateOps t ops = some y) : Plain y.1 ∧ StateHistory bracketHighlighter answers ok y.2 (Node.fromLeaf y.1) := by
  have key : ∀ (ops : List StateOp) (x : List UInt8 × StateCache Bool), (answers → ∀ op ∈ ops, op ≠ .lost) →
      ((∀ c t d, ok c t d) ∨ ∀ op ∈ ops, ∀ i e s, op ≠ .edit i e s) → Plain x.1 →
      StateHistory bracketHighlighter answers ok x.2 (Node.fromLeaf x.1) → ops.foldlM stateOp x = some y →
      Plain y.1 ∧ StateHistory bracketHighlighter answers ok y.2 (Node.fromLeaf y.1) := by
    intro ops
    induction ops with
    | nil => intro x _ _ hp hh h; cases h; exact ⟨hp, hh⟩
    | cons op ops ih =>
      intro x hop hok hp hh h
      rw [List.foldlM_cons] at h
      obtain ⟨z, h1, h2⟩ := Option.bind_eq_some_iff.1 h
      obtain ⟨g1, g2⟩ := stateOp_history hp hh (fun ha => hop ha op (by simp))
        (hok.elim .inl (fun hok => .inr (fun i e s => .inl (hok op (by simp) i e s)))) h1
      exact ih z (fun ha o ho => hop ha o (by simp [ho])) (hok.elim .inl (fun hok => .inr (fun o ho => hok o (by simp [ho])))) g1 g2 h2
  refine key ops _ hop hok hp ?_ h
  have := StateHistory.new (h := bracketHighlighter) (answers := answers) (ok := ok) (rev := 0) (plain_balanced hp)
  rw [Node.text_fromLeaf] at this
  exact this

/-- Lines without brackets. -/
def plainLines (n : Nat) : List UInt8 := (List.replicate n [97, 10]).flatten

/-- The lines whose state is wrong. -/
def wrongStates (x : List UInt8 × StateCache Bool) : List Nat :=
  (x.2.entries.filter (fun e => e.state != some (stateAt bracketHighlighter x.1 e.line))).map (·.line)

/-- Fourteen lines, all highlighted. -/
def highlighted (size : Nat) : List StateOp := List.replicate 15 (.look size)

/-- A bracket is opened in line 10, then two characters are typed in line 3, and everything is highlighted: nothing
is pending, but the states from line 11 on are wrong. -/
theorem bracket_lost : (stateOps (plainLines 14) (highlighted 8 ++ [.edit 20 20 [40], .edit 6 6 [98], .edit 6 6 [98]] ++ List.replicate 20 (.look 8))).map
    (fun x => (x.2.frontier, wrongStates x)) = some ([], [11, 12, 13, 14]) := by decide +kernel

/-- A bracket is opened in line 4, then a line is inserted before it. -/
theorem bracket_lost_line : (stateOps (plainLines 14) (highlighted 8 ++ [.edit 8 8 [40], .edit 6 6 [10]] ++ List.replicate 20 (.look 8))).map
    (fun x => (x.2.frontier, wrongStates x)) = some ([], [6, 7, 8, 9, 10, 11, 12, 13, 14, 15]) := by decide +kernel

/-- The peer does not answer while the new bracket is highlighted. -/
theorem bracket_lost_answer : (stateOps (plainLines 14) (highlighted 8 ++ [.edit 20 20 [40, 40], .lost] ++ List.replicate 20 (.look 8))).map
    (fun x => (x.2.frontier, wrongStates x)) = some ([], [11, 12, 13, 14]) := by decide +kernel

/-- The full claim: when nothing is pending, every cached state is right. -/
def StatesRight (answers : Prop) : Prop := ∀ (c : StateCache Bool) (r : Rope), StateHistory bracketHighlighter answers (fun _ _ _ => True) c r → c.frontier = [] →
    ∀ n s, c.get n = some s → bracketHighlighter.same s (stateAt bracketHighlighter r.text n) = true

theorem not_right {answers : Prop} {t : List UInt8} {ops : List StateOp} (hp : Plain t) (hop : answers → ∀ op ∈ ops, op ≠ .lost) (n : Nat) (s : Bool)
    (h : (stateOps t ops).map (fun x => (x.2.frontier, x.2.get n, stateAt bracketHighlighter x.1 n)) = some ([], some s, !s)) : ¬ StatesRight answers := by
  intro hall
  obtain ⟨⟨t', c⟩, h1, h2⟩ := Option.map_eq_some_iff.1 h
  simp only [Prod.mk.injEq] at h2
  have := hall c (Node.fromLeaf t') (stateOps_history hp hop (.inl fun _ _ _ => trivial) h1).2 h2.1 n s h2.2.1
  rw [Node.text_fromLeaf] at this
  change bracketHighlighter.same s (stateAt bracketHighlighter t' n) = true at this
  rw [h2.2.2] at this
  cases s <;> simp [bracketHighlighter] at this

theorem answering {ops : List StateOp} (h : ∀ op ∈ ops, (match op with | .lost => false | _ => true) = true) : True → ∀ op ∈ ops, op ≠ .lost := by
  rintro - op hop rfl
  exact absurd (h _ hop) (by simp)

/-- **C70, refuted.** A bracket is opened in line 10, then two characters are typed in line 3, and everything is
highlighted: `patchup_frontier` moves the first pending line but drops the next one.  Nothing is pending then, but the
state of line 12 is wrong. -/
theorem C70_refuted : ¬ StatesRight True :=
  not_right (t := plainLines 14) (ops := highlighted 8 ++ [.edit 20 20 [40], .edit 6 6 [98], .edit 6 6 [98]] ++ List.replicate 20 (.look 8)) (by decide +kernel)
    (answering (by decide +kernel)) 12 false (by decide +kernel)

/-- **C70, refuted** with a single pending line: a bracket is opened in line 4, then a line is inserted before it. -/
theorem C70_newline_refuted : ¬ StatesRight True :=
  not_right (t := plainLines 14) (ops := highlighted 8 ++ [.edit 8 8 [40], .edit 6 6 [10]] ++ List.replicate 20 (.look 8)) (by decide +kernel)
    (answering (by decide +kernel)) 7 false (by decide +kernel)

/-- **C70, refuted** with a single edit, when the peer does not answer once: the line is not pending any more. -/
theorem C70_no_answer_refuted : ¬ StatesRight False :=
  not_right (t := plainLines 14) (ops := highlighted 8 ++ [.edit 20 20 [40, 40], .lost] ++ List.replicate 20 (.look 8)) (by decide +kernel)
    (fun h => h.elim) 12 false (by decide +kernel)

/-- **C70, refuted.** The pending lines can be out of order, and beyond the end of the document. -/
theorem C70_frontier_refuted :
    (∃ (c : StateCache Bool) (r : Rope), StateHistory bracketHighlighter True (fun _ _ _ => True) c r ∧ c.frontier = [3, 2]) ∧
    (∃ (c : StateCache Bool) (r : Rope), StateHistory bracketHighlighter True (fun _ _ _ => True) c r ∧ c.frontier = [0, 18446744073709551614]) := by
  constructor
  · have h : (stateOps (plainLines 14) (highlighted 4096 ++ [.edit 8 8 [98], .edit 7 11 []])).map (fun x => x.2.frontier) = some [3, 2] := by decide +kernel
    obtain ⟨x, h1, h2⟩ := Option.map_eq_some_iff.1 h
    exact ⟨x.2, _, (stateOps_history (by decide +kernel) (answering (by decide +kernel)) (.inl fun _ _ _ => trivial) h1).2, h2⟩
  · have h : (stateOps (plainLines 14) (highlighted 4096 ++ [.edit 2 2 [98], .edit 1 7 []])).map (fun x => x.2.frontier) = some [0, 18446744073709551614] := by decide +kernel
    obtain ⟨x, h1, h2⟩ := Option.map_eq_some_iff.1 h
    exact ⟨x.2, _, (stateOps_history (by decide +kernel) (answering (by decide +kernel)) (.inl fun _ _ _ => trivial) h1).2, h2⟩

/-- **C70, refuted.** The idle handler stops after the first pending line has settled, though another is pending, and does
not ask to be called again. -/
theorem C70_idle_refuted : ∃ (c c' : StateCache Bool) (r : Rope), StateHistory bracketHighlighter True (fun _ _ _ => True) c r ∧
    idle bracketHighlighter (faithful r) 8 id (fun _ => false) c = some (c', false) ∧ c'.frontier = [10] := by
  have h : (stateOps (plainLines 14) (highlighted 8 ++ [.edit 20 20 [40], .edit 6 6 [98]])).bind (fun x =>
      (idle bracketHighlighter (faithful (Node.fromLeaf x.1)) 8 id (fun _ => false) x.2).map (fun y => (y.2, y.1.frontier))) = some (false, [10]) := by decide +kernel
  obtain ⟨x, h1, h2⟩ := Option.bind_eq_some_iff.1 h
  obtain ⟨⟨c', b⟩, h3, h4⟩ := Option.map_eq_some_iff.1 h2
  simp only [Prod.mk.injEq] at h4
  obtain ⟨rfl, h4⟩ := h4
  exact ⟨x.2, c', _, (stateOps_history (by decide +kernel) (answering (by decide +kernel)) (.inl fun _ _ _ => trivial) h1).2, h3, h4⟩

/-- The states of a document with brackets, after it was highlighted, and again after a bracket was closed. -/
example : (stateOps [40, 10, 97, 10, 41, 10, 98, 10] (List.replicate 5 (.look 8))).map (fun x => (x.2.frontier, wrongStates x, x.2.get 1, x.2.get 3)) =
    some ([], [], some true, some false) := by decide +kernel

example : (stateOps [40, 10, 97, 10, 41, 10, 98, 10] (List.replicate 5 (.look 8) ++ [.edit 3 3 [41]])).map (fun x => (x.2.frontier, wrongStates x)) = some ([1], [2]) := by decide +kernel

example : (stateOps [40, 10, 97, 10, 41, 10, 98, 10] (List.replicate 5 (.look 8) ++ [.edit 3 3 [41]] ++ List.replicate 3 (.look 8))).map (fun x => (x.2.frontier, wrongStates x)) =
    some ([], []) := by decide +kernel

/-- A history with an edit that is safe: the cache is complete when the bracket is closed. -/
example : ∃ (c : StateCache Bool) (r : Rope), StateHistory bracketHighlighter True SafeDelta c r ∧ c.frontier = [1] ∧ c.entries.length = 4 := by
  have h : (stateOps [40, 10, 97, 10, 41, 10, 98, 10] (List.replicate 5 (.look 8))).bind (fun x => (stateOp x (.edit 3 3 [41])).map (fun y => (x.2.frontier, y.2.frontier, y.2.entries.length))) =
    some ([], [1], 4) := by decide +kernel
  obtain ⟨x, h1, h2⟩ := Option.bind_eq_some_iff.1 h
  obtain ⟨y, h3, h4⟩ := Option.map_eq_some_iff.1 h2
  simp only [Prod.mk.injEq] at h4
  have g := stateOps_history (answers := True) (ok := SafeDelta) (by decide +kernel) (answering (by decide +kernel)) (.inr fun op hop => by
    rw [List.mem_replicate] at hop
    rw [hop.2]
    intros; simp) h1
  exact ⟨y.2, _, (stateOp_history g.1 g.2 (fun _ => by simp) (.inr fun i e s => .inr fun d => C70_safe_when_done _ _ d h4.1) h3).2, h4.2.1, h4.2.2⟩

end Xi
