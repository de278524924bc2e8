import Verif.Core.SaveText
import Verif.Props.Files
import Verif.Props.Rope
import Verif.Rope.CursorMetric

/-!
# C77: the text that is saved
-/

namespace Xi

namespace Files

/-- In a rope of several leaves every leaf is long. -/
theorem leaf_min {h : Nat} {n : Rope} (hw : n.WF h) (ho : n.isOkChild = true ∨ 0 < h) : ∀ l ∈ n.leaves, 511 ≤ l.length := by
  induction h generalizing n with
  | zero =>
    obtain ⟨l, rfl, hl⟩ := hw.leafNode
    intro m hm
    have : m = l := by simpa [Node.fromLeaf, Node.leaves] using hm
    subst this
    rcases ho with ho | ho
    · simpa [Node.fromLeaf, Node.isOkChild, TreeLeaf.isOkChild, minLeaf] using ho
    · omega
  | succ h ih =>
    obtain ⟨len, info, cs, rfl, _, _, hk⟩ := hw.kids
    intro m hm
    rw [Node.leaves, leavesList_eq, List.mem_flatMap] at hm
    obtain ⟨c, hc, hm⟩ := hm
    exact ih (hk c hc).1 (.inl (hk c hc).2) m hm

theorem suffix_of_long {e a l : List UInt8} (h : e.length ≤ l.length) : e <:+ a ++ l ↔ e <:+ l := by
  constructor
  · intro h'
    exact List.suffix_of_suffix_length_le h' (List.suffix_append a l) h
  · intro h'
    exact h'.trans (List.suffix_append a l)

/-- **C77.** The text that is saved: the text itself, with the line ending added if it is not empty and does not end with it.  That
the code looks only at the last leaf makes no difference. -/
theorem C77_text_for_save {r : Rope} (hr : r.Balanced) {e : List UInt8} (he : Utf8 e) (hlen : e.length ≤ 511) :
    ropeForSave r none = some r ∧
    ∃ r', ropeForSave r (some e) = some r' ∧ r'.Balanced ∧
      (r.text = [] ∨ e <:+ r.text → r' = r) ∧ (r.text ≠ [] → ¬ e <:+ r.text → r'.text = r.text ++ e) := by
  refine ⟨rfl, ?_⟩
  have hl : r.len = r.text.length := Rope.len_eq hr
  unfold ropeForSave
  simp only
  by_cases h0 : r.len < 1
  · rw [if_pos h0]
    have : r.text = [] := by
      apply List.length_eq_zero_iff.1
      omega
    exact ⟨r, rfl, hr, fun _ => rfl, fun h => absurd this h⟩
  · rw [if_neg h0]
    have hne : r.text ≠ [] := by
      intro h
      rw [h] at hl
      simp at hl
      omega
    obtain ⟨c, pre, l, post, e1, e2, e3, e4⟩ := Cursor.new_spec hr (p := r.len) (by omega)
    have hrl := e2.toAt.rootLen
    have hlv := e2.toAt.leaves
    have htx := e2.toAt.text
    have hlo := e2.lo
    have hhi := e2.hi
    rw [e3] at hlv htx hrl
    have hleaf : c.getLeaf = some (some (l, c.position - c.offsetOfLeaf)) := by
      unfold Cursor.getLeaf
      rw [e2.toAt.leaf]
      simp only
      rw [if_pos (by rw [e2.toAt.off]; exact hlo)]
    have hsuf : e <:+ r.text ↔ e <:+ l := by
      have hpost : post = [] := by
        rcases hhi with h | h
        · omega
        · exact h.1
      subst hpost
      have ht : r.text = pre.flatMap LeafSpec.content ++ l := by rw [htx]; simp; rfl
      by_cases hp : pre = []
      · subst hp
        rw [ht]
        simp
      · rw [ht]
        refine suffix_of_long ?_
        obtain ⟨h, hw⟩ := hr
        have h1 : 0 < h := by
          apply Nat.pos_of_ne_zero
          rintro rfl
          obtain ⟨x, rfl, -⟩ := hw.leafNode
          simp only [Node.fromLeaf, Node.leaves] at hlv
          have := congrArg List.length hlv
          simp only [List.length_append, List.length_cons, List.length_nil] at this
          exact hp (List.length_eq_zero_iff.1 (by omega))
        have := leaf_min hw (.inr h1) l (by rw [hlv]; simp)
        omega
    simp only [e1, hleaf, Option.bind_eq_bind, Option.bind_some]
    by_cases hc : e <:+ l
    · rw [if_pos (by simpa using hc)]
      exact ⟨r, rfl, hr, fun _ => rfl, fun _ h => absurd (hsuf.2 hc) h⟩
    · rw [if_neg (by simpa using hc)]
      obtain ⟨x, x1, x2, x3⟩ := Rope.fromStr_spec he
      have hcut : Cut (List UInt8) r.text r.len := by rw [hl]; exact cut_length (Rope.text_utf8 hr)
      obtain ⟨m, m1, m2, m3⟩ := Node.edit_spec (iv := ⟨r.len, r.len⟩) hr x3 hcut hcut
      refine ⟨m, ?_, m3, ?_, ?_⟩
      · have : (Bounds.fromOn r.len).intoInterval r.len = some ⟨r.len, r.len⟩ := by simp [Bounds.intoInterval, Interval.new]
        simp only [x1, Option.bind_some, Rope.edit, this, Option.bind_eq_bind, m1]
      · rintro (h | h)
        · exact absurd h hne
        · exact absurd (hsuf.1 h) hc
      · intro _ _
        rw [m2]
        simp [hl, x2]

/-- **C77.** Saving again does not add another line ending, and a text that was not empty ends with one. -/
theorem C77_text_for_save_twice {r r' : Rope} (hr : r.Balanced) {e : List UInt8} (he : Utf8 e) (hlen : e.length ≤ 511) (h : ropeForSave r (some e) = some r') :
    ropeForSave r' (some e) = some r' ∧ (r.text ≠ [] → e <:+ r'.text) ∧ r.text <+: r'.text := by
  obtain ⟨-, x, x1, x2, x3, x4⟩ := C77_text_for_save hr he hlen
  rw [h] at x1
  injection x1 with x1
  subst x1
  obtain ⟨-, y, y1, y2, y3, y4⟩ := C77_text_for_save x2 he hlen
  by_cases hc : r.text = [] ∨ e <:+ r.text
  · have := x3 hc
    subst this
    refine ⟨h, fun h0 => ?_, List.prefix_rfl⟩
    rcases hc with hc | hc
    · exact absurd hc h0
    · exact hc
  · simp only [not_or] at hc
    have ht := x4 hc.1 hc.2
    have hs : e <:+ r'.text := by rw [ht]; exact List.suffix_append _ _
    refine ⟨?_, fun _ => hs, by rw [ht]; exact List.prefix_append _ _⟩
    rw [y1, y3 (.inr hs)]

/-- **C77.** What is saved is the text the model of files speaks of. -/
theorem C77_text_for_save_bytes {r : Rope} (hr : r.Balanced) {e : List UInt8} (he : Utf8 e) (hlen : e.length ≤ 511) :
    (ropeForSave r (some e)).map (·.text) = some (textForSave r.text (some e)) := by
  obtain ⟨-, x, x1, x2, x3, x4⟩ := C77_text_for_save hr he hlen
  rw [x1, Option.map_some]
  unfold textForSave
  simp only
  by_cases h0 : r.text.length < 1
  · rw [if_pos h0, x3 (.inl (List.length_eq_zero_iff.1 (by omega)))]
  · rw [if_neg h0]
    by_cases hc : e <:+ r.text
    · rw [if_pos (by simpa using hc), x3 (.inr hc)]
    · rw [if_neg (by simpa using hc), x4 (by rintro h; simp [h] at h0) hc]

/-- The hypotheses are met: a text without a line ending, one with "\n" where "\r\n" is wanted, and one that has it. -/
example : (ropeForSave (Node.fromLeaf (bytesOf "ab")) (some (bytesOf "\r\n"))).map (·.text) = some (bytesOf "ab\r\n") ∧
    (ropeForSave (Node.fromLeaf (bytesOf "ab\n")) (some (bytesOf "\r\n"))).map (·.text) = some (bytesOf "ab\n\r\n") ∧
    (ropeForSave (Node.fromLeaf (bytesOf "ab\r\n")) (some (bytesOf "\r\n"))).map (·.text) = some (bytesOf "ab\r\n") ∧
    (bytesOf "\r\n").length ≤ 511 := by
  refine ⟨?_, ?_, ?_, ?_⟩ <;> decide +kernel

end Files

end Xi
