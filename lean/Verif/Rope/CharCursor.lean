import Verif.Rope.FindLemmas

/-!
# Lemmas: cursors moving over characters
-/

namespace Xi

open Find

/-- Every boundary of an encoded text is between two of its characters. -/
theorem boundary_enc {cs : List Char} {k : Nat} : CharBoundary (enc cs) k ↔ ∃ xs ys, cs = xs ++ ys ∧ k = (enc xs).length := by
  constructor
  · rintro ⟨a, b, h, rfl⟩
    refine ⟨a, b, ?_, rfl⟩
    rw [← List.flatMap_append] at h
    exact enc_inj h
  · rintro ⟨xs, ys, rfl, rfl⟩
    exact ⟨xs, ys, by simp, rfl⟩

theorem prev_char {A B : List Char} {c : Char} :
    IsPrev (CharBoundary (enc (A ++ c :: B))) (enc (A ++ [c])).length (some (enc A).length) := by
  have hpos : 0 < (enc [c]).length := enc_pos (by simp)
  refine ⟨by rw [enc_append, List.length_append]; omega, boundary_enc.mpr ⟨A, c :: B, rfl, rfl⟩, ?_⟩
  rintro k h1 h2 ⟨a, b, e1, rfl⟩
  rw [enc_append] at e1
  obtain ⟨x, e2, e3⟩ := cut_prefix e1 (Nat.le_of_lt h1)
  cases x with
  | nil => simp [e2] at h1
  | cons y x =>
    injection e3 with e3 e4
    subst e3
    rw [e2] at h2
    simp [enc] at h2
    omega

theorem charAt_cut {A B : List Char} {c : Char} : CharAt (enc (A ++ c :: B)) (enc A).length (some c) := by
  refine ⟨enc B, ?_⟩
  rw [enc_append, List.drop_left' rfl, enc_cons]

theorem IsPrev.unique {B : Nat → Prop} {p a b : Nat} (h : IsPrev B p (some a)) (h' : IsPrev B p (some b)) : a = b := by
  rcases Nat.lt_trichotomy a b with hlt | heq | hgt
  · exact absurd h'.2.1 (h.2.2 b hlt h'.1)
  · exact heq
  · exact absurd h.2.1 (h'.2.2 a hgt h.1)

theorem IsNext.unique {B : Nat → Prop} {n p a b : Nat} (h : IsNext B n p (some a)) (h' : IsNext B n p (some b)) : a = b := by
  rcases Nat.lt_trichotomy a b with hlt | heq | hgt
  · exact absurd h.2.2.1 (h'.2.2.2 a h.1 hlt)
  · exact heq
  · exact absurd h'.2.2.1 (h.2.2.2 b h'.1 hgt)

namespace Cursor

theorem set_stands {r : Rope} {c : Cursor (List UInt8) RopeInfo} {st : Option Nat} (h : Stands r c st) {p : Nat}
    (hp : p ≤ r.text.length) : ∃ c', c.set p = some c' ∧ Stands r c' (some p) := by
  obtain ⟨c', e, h'⟩ := call_spec h (.set hp)
  simp only [call] at e
  cases hs : c.set p with
  | none => simp [hs] at e
  | some x => simp [hs] at e; subst e; exact ⟨_, rfl, h'⟩

theorem new_stands {r : Rope} (hr : r.Balanced) {p : Nat} (hp : p ≤ r.text.length) :
    ∃ c, Cursor.new r p = some c ∧ Stands r c (some p) := by
  obtain ⟨c, pre, l, post, h1, h2, h3, h4⟩ := Cursor.new_spec hr hp
  exact ⟨c, h1, h3, h4, pre, l, post, h2⟩

theorem prevCodepoint_of_call {c c' : Cursor (List UInt8) RopeInfo} {x : Option Char}
    (h : c.call .prevCodepoint = some (c', .char x)) : c.prevCodepoint = some (c', x) := by
  simp only [call] at h
  cases hs : c.prevCodepoint with
  | none => simp [hs] at h
  | some y => obtain ⟨c1, x1⟩ := y; simp [hs] at h; simp [h]

theorem nextCodepoint_of_call {c c' : Cursor (List UInt8) RopeInfo} {x : Option Char}
    (h : c.call .nextCodepoint = some (c', .char x)) : c.nextCodepoint = some (c', x) := by
  simp only [call] at h
  cases hs : c.nextCodepoint with
  | none => simp [hs] at h
  | some y => obtain ⟨c1, x1⟩ := y; simp [hs] at h; simp [h]

theorem prevCodepoint_spec {r : Rope} {c : Cursor (List UInt8) RopeInfo} {A B : List Char} {ch : Char}
    (ht : r.text = enc (A ++ ch :: B)) (h : Stands r c (some (enc (A ++ [ch])).length)) :
    ∃ c', c.prevCodepoint = some (c', some ch) ∧ Stands r c' (some (enc A).length) := by
  obtain ⟨c', e, h'⟩ := call_spec h (.prevCodepoint (by rw [ht]; exact prev_char) (by rw [ht]; exact charAt_cut))
  exact ⟨c', prevCodepoint_of_call e, h'⟩

theorem prevCodepoint_zero {r : Rope} {c : Cursor (List UInt8) RopeInfo} (h : Stands r c (some 0)) :
    ∃ c', c.prevCodepoint = some (c', none) ∧ Stands r c' none ∧ c'.position = 0 := by
  obtain ⟨c', e, h'⟩ := call_spec h .prevCodepointNone
  have e' := prevCodepoint_of_call e
  refine ⟨c', e', h', ?_⟩
  obtain ⟨h1, h2, pre, l, post, h3⟩ := h
  have hp : c.prev baseMetric = some ({ c with leaf := none }, none) := by
    unfold Cursor.prev
    rw [h3.leaf]
    exact if_pos h2
  simp only [prevCodepoint, hp, Option.bind_eq_bind, Option.bind_some, getLeaf] at e'
  simp at e'
  rw [← e']
  exact h2

theorem nextCodepoint_spec {r : Rope} {c : Cursor (List UInt8) RopeInfo} {A B : List Char} {ch : Char}
    (ht : r.text = enc (A ++ ch :: B)) (h : Stands r c (some (enc A).length)) :
    ∃ c', c.nextCodepoint = some (c', some ch) ∧ Stands r c' (some (enc (A ++ [ch])).length) := by
  have hn := next_char (A := A) (B := B) (c := ch)
  rw [← enc_append, ← ht] at hn
  have hl : (enc A).length + (String.utf8EncodeChar ch).length = (enc (A ++ [ch])).length := by simp
  rw [hl] at hn
  obtain ⟨c', e, h'⟩ := call_spec h (.nextCodepoint (by rw [ht]; exact boundary_enc.mpr ⟨A, _, rfl, rfl⟩)
    (by rw [ht]; exact charAt_cut) hn)
  exact ⟨c', nextCodepoint_of_call e, h'⟩

theorem nextCodepoint_end {r : Rope} {c : Cursor (List UInt8) RopeInfo} (hr : r.Balanced) (h : Stands r c (some r.text.length)) :
    ∃ c', c.nextCodepoint = some (c', none) ∧ Stands r c' none ∧ c'.position = r.text.length := by
  have hb : CharBoundary r.text r.text.length := by
    obtain ⟨cs, hcs⟩ := Rope.text_utf8 hr
    exact ⟨cs, [], by simpa using hcs, by rw [← hcs]⟩
  obtain ⟨c', e, h'⟩ := call_spec (st' := none) h (.nextCodepoint hb (c := none) rfl (fun k h1 h2 => by omega))
  have e' := nextCodepoint_of_call e
  refine ⟨c', e', h', ?_⟩
  obtain ⟨h1, h2, pre, l, post, h3⟩ := h
  have hlen : c.position ≥ c.root.len := by rw [h1, h2, Rope.len_eq hr]; exact Nat.le_refl _
  have hn : c.next baseMetric = some ({ c with leaf := none }, none) := by
    unfold Cursor.next
    rw [if_pos (.inl hlen)]
  unfold nextCodepoint at e'
  cases hg : c.getLeaf with
  | none => simp [hg] at e'
  | some g =>
    cases g with
    | none =>
      simp [hg] at e'
      rw [← e']; exact h2
    | some lo =>
      obtain ⟨l', o⟩ := lo
      simp only [hg, hn, Option.bind_eq_bind, Option.bind_some] at e'
      cases hc : charAt l' o with
      | none => simp [hc] at e'
      | some x =>
        simp [hc] at e'
        rw [← e'.1]; exact h2

end Cursor

end Xi
