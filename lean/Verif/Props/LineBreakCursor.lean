import Verif.Core.LineBreakCursorLemmas
import Verif.Props.Rope

/-!
# C67: line breaks in a rope

`LineBreakCursor` walks over the leaves of a rope.  What it finds does not depend on how the
text is cut into leaves; from the start it is what the iterator over a string finds; the last
break is hard just if the text ends in a newline.  Started again at a break it goes on as it
would have without; but not if a zero width joiner follows.
-/

namespace Xi

open Find Unicode Uax14

open LineBreakCursor

/-- **C67**: from any place between characters, the cursor never panics, and what it finds
depends on the text only, not on how it is cut into leaves. -/
theorem C67_leaves (r r' : Rope) (hr : r.Balanced) (hr' : r'.Balanced) (ht : r.text = r'.text) (p : Nat) (hp : CharBoundary r.text p) :
    ∃ c c' bs, LineBreakCursor.new r p = some c ∧ LineBreakCursor.new r' p = some c' ∧
      c.collect r.len (r.len + 1) = some bs ∧ c'.collect r'.len (r'.len + 1) = some bs := by
  obtain ⟨cs, hcs⟩ : ∃ cs, r.text = enc cs := by
    obtain ⟨n, hw⟩ := hr
    obtain ⟨cs, h⟩ := leaves_utf8 (ls := r.leaves) (leaf_ok hw)
    exact ⟨cs, h⟩
  rw [hcs] at hp
  obtain ⟨A, B, h1, rfl⟩ := boundary_enc.1 hp
  rw [h1] at hcs
  obtain ⟨c, e1, e2⟩ := collect_from hr hcs
  obtain ⟨c', e1', e2'⟩ := collect_from hr' (ht ▸ hcs)
  exact ⟨c, c', _, e1, e1', e2, by rw [e2', ht]⟩

/-- **C67**: from the start of the text the cursor finds what the iterator over a string finds,
except that the last break is hard just if the text ends in a newline. -/
theorem C67_whole (r : Rope) (hr : r.Balanced) (hne : r.text ≠ []) : ∃ c bs b,
    LineBreakCursor.new r 0 = some c ∧ lineBreaks r.text = some (bs ++ [(r.text.length, b)]) ∧
      c.collect r.len (r.len + 1) = some (bs ++ [(r.text.length, r.text.getLast? == some newline)]) := by
  obtain ⟨cs, hcs⟩ : ∃ cs, r.text = enc cs := by
    obtain ⟨n, hw⟩ := hr
    obtain ⟨cs, h⟩ := leaves_utf8 (ls := r.leaves) (leaf_ok hw)
    exact ⟨cs, h⟩
  cases cs with
  | nil => exact absurd hcs hne
  | cons x B =>
    obtain ⟨c, e1, e2⟩ := collect_from hr (A := []) (B := x :: B) hcs
    obtain ⟨b, hb⟩ := breaksBy_inner machineAct B [cls x] (clen x)
    refine ⟨c, breaksFrom [] (x :: B), b, e1, ?_, e2⟩
    rw [hcs, lineBreaks_spec]
    show some (breaksBy machineAct [cls x] (clen x) B) = _
    rw [hb, enc_cons, List.length_append]
    show _ = some (innerBreaks machineAct [cls x] ((enc []).length + clen x) B ++ _)
    rw [show (enc []).length + clen x = clen x from Nat.zero_add _]
    rfl

/-- **C67** in part: if the cursor finds a break at `p`, then a cursor started at `p` finds
what comes after that.  Missing: the case that a zero width joiner (class 42) follows. -/
theorem C67_resume_partial (r : Rope) (hr : r.Balanced) (A K B : List Char) (x y : Char) (ht : r.text = enc (A ++ x :: (K ++ y :: B))) (b : Bool)
    (hz : lbProperty y ≠ some 42) : ∃ c c' bs bs',
    LineBreakCursor.new r (enc A).length = some c ∧ c.collect r.len (r.len + 1) = some bs ∧
    LineBreakCursor.new r (enc (A ++ x :: K)).length = some c' ∧ c'.collect r.len (r.len + 1) = some bs' ∧
    (((enc (A ++ x :: K)).length, b) ∈ bs → ∃ before, bs = before ++ ((enc (A ++ x :: K)).length, b) :: bs') := by
  obtain ⟨c, e1, e2⟩ := collect_from hr (A := A) (B := x :: (K ++ y :: B)) ht
  obtain ⟨c', e1', e2'⟩ := collect_from hr (A := A ++ x :: K) (B := y :: B) (by rw [ht]; simp)
  refine ⟨c, c', _, _, e1, e2, e1', e2', ?_⟩
  intro hm
  have hp : (enc (A ++ x :: K)).length = (enc A).length + clen x + (enc K).length := by
    rw [enc_append, List.length_append, enc_cons, List.length_append]; unfold clen; omega
  have hlt : (enc (A ++ x :: K)).length < r.text.length := by
    have h := enc_pos (a := y :: B) (by simp)
    rw [ht, show A ++ x :: (K ++ y :: B) = (A ++ x :: K) ++ y :: B by simp, enc_append (A ++ x :: K), List.length_append]; omega
  have hm : ((enc A).length + clen x + (enc K).length, b) ∈ innerBreaks machineAct [cls x] ((enc A).length + clen x) (K ++ y :: B) := by
    rcases List.mem_append.1 hm with hm | hm
    · rw [← hp]; exact hm
    · rw [List.mem_singleton] at hm
      injection hm with hm _
      omega
  have hcls : cls y ≠ ZWJ := by
    obtain ⟨q, hq, _⟩ := lbProperty_some y
    intro e
    apply hz
    rw [hq]; unfold cls at e; rw [hq] at e; exact congrArg some e
  refine ⟨innerBreaks machineAct [cls x] ((enc A).length + clen x) K, ?_⟩
  show innerBreaks machineAct [cls x] ((enc A).length + clen x) (K ++ y :: B) ++ _ = _
  rw [innerBreaks_resume hcls hm, ← hp]
  simp [breaksFrom]

/-- A cursor started at a place, and all that it finds. -/
def breaksAt (r : Rope) (p : Nat) : Option (List (Nat × Bool)) := do
  (← LineBreakCursor.new r p).collect r.len (r.len + 1)

/-- **C67** does not hold in full: in a line that starts with a zero width joiner and an emoji,
the cursor finds a break after the joiner, but not if it starts at the line. -/
theorem C67_resume_refuted : ∃ r : Rope, r.Balanced ∧ r.text = enc ['\n', '\u200d', '😀'] ∧
    breaksAt r 0 = some [(1, true), (4, false), (8, false)] ∧ breaksAt r 1 = some [(8, false)] :=
  ⟨.fromLeaf (enc ['\n', '\u200d', '😀']), ⟨0, Node.wf_fromLeaf ⟨⟨_, rfl⟩, by decide +kernel⟩⟩, by decide +kernel, by decide +kernel, by decide +kernel⟩

/-- A rope of two leaves. -/
example : ∃ c, LineBreakCursor.new exampleRope 0 = some c ∧ exampleRope.Balanced := by
  obtain ⟨c, _, _, h, _⟩ := C67_whole exampleRope exampleRope_balanced (by decide +kernel)
  exact ⟨c, h, exampleRope_balanced⟩

end Xi
