import Verif.Unicode.Emoji

/-!
# C63: looking up emoji

`is_emoji` and `is_emoji_modifier_base` search a table by halving.  The search answers for
every character, without reading outside of the table, and the answer is whether the
character is in the table.
-/

namespace Xi

open Unicode

namespace Unicode

/-- The list is in strictly ascending order. -/
def Ascending (l : List Nat) : Prop :=
  ∀ (i j x y : Nat), i < j → l[i]? = some x → l[j]? = some y → x < y

/-- The binary search finds exactly what is in the part of the list that it looks at. -/
theorem isInAscList_spec {l : List Nat} (hl : Ascending l) (c : Nat) : ∀ (fuel start stop : Nat),
    start ≤ stop → stop < l.length → stop - start < fuel →
    ∃ b, isInAscList c l fuel start stop = some b ∧
      (b = true ↔ ∃ i, start ≤ i ∧ i ≤ stop ∧ l[i]? = some c) := by
  intro fuel
  induction fuel with
  | zero => intro start stop _ _ h; omega
  | succ fuel ih =>
    intro start stop h1 h2 h3
    have hs : start < l.length := by omega
    have hm : (start + stop) / 2 < l.length := by omega
    have es := List.getElem?_eq_getElem hs
    have et := List.getElem?_eq_getElem h2
    have em := List.getElem?_eq_getElem hm
    unfold isInAscList
    simp only [es, et, em, Option.bind_eq_bind, Option.bind_some, Option.pure_def]
    by_cases e1 : c = l[start]
    · exact ⟨true, if_pos e1, by simp; exact ⟨start, by omega, h1, by rw [es, e1]⟩⟩
    · rw [if_neg e1]
      by_cases e2 : c = l[stop]
      · exact ⟨true, if_pos e2, by simp; exact ⟨stop, h1, by omega, by rw [et, e2]⟩⟩
      · rw [if_neg e2]
        by_cases e3 : stop - start ≤ 1
        · refine ⟨false, if_pos e3, ?_⟩
          simp only [Bool.false_eq_true, false_iff]
          rintro ⟨i, hi1, hi2, h⟩
          have : i = start ∨ i = stop := by omega
          rcases this with rfl | rfl
          · rw [es] at h; injection h with h; exact e1 h.symm
          · rw [et] at h; injection h with h; exact e2 h.symm
        · rw [if_neg e3]
          by_cases e4 : l[(start + stop) / 2] ≤ c
          · rw [if_pos e4]
            obtain ⟨b, hb, hb'⟩ := ih ((start + stop) / 2) stop (by omega) h2 (by omega)
            refine ⟨b, hb, hb'.trans ⟨fun ⟨i, a, b, d⟩ => ⟨i, by omega, b, d⟩, fun ⟨i, a, b, d⟩ => ⟨i, ?_, b, d⟩⟩⟩
            by_cases hlt : i < (start + stop) / 2
            · have := hl i ((start + stop) / 2) _ _ hlt d em; omega
            · omega
          · rw [if_neg e4]
            obtain ⟨b, hb, hb'⟩ := ih start ((start + stop) / 2) (by omega) hm (by omega)
            refine ⟨b, hb, hb'.trans ⟨fun ⟨i, a, b, d⟩ => ⟨i, a, by omega, d⟩, fun ⟨i, a, b, d⟩ => ⟨i, a, ?_, d⟩⟩⟩
            by_cases hlt : (start + stop) / 2 < i
            · have := hl ((start + stop) / 2) i _ _ hlt em d; omega
            · omega

/-- A list whose neighbours ascend is ascending. -/
theorem Ascending.of_pairwise {l : List Nat} (h : l.Pairwise (· < ·)) : Ascending l := by
  intro i j x y hij hx hy
  obtain ⟨hi, rfl⟩ := List.getElem?_eq_some_iff.1 hx
  obtain ⟨hj, rfl⟩ := List.getElem?_eq_some_iff.1 hy
  exact List.pairwise_iff_getElem.1 h i j hi hj hij

/-- The elements are in ascending order, each beyond `a`. -/
def ascends : Nat → List Nat → Bool
  | _, [] => true
  | a, b :: l => Nat.blt a b && ascends b l

/-- What `ascends` says. -/
theorem ascends_pairwise : ∀ (l : List Nat) (a : Nat), ascends a l = true → (a :: l).Pairwise (· < ·) := by
  intro l
  induction l with
  | nil => intro a _; simp
  | cons b l ih =>
    intro a h
    simp only [ascends, Bool.and_eq_true, Nat.blt_eq] at h
    have := ih b h.2
    refine List.pairwise_cons.2 ⟨fun x hx => ?_, this⟩
    rcases List.mem_cons.1 hx with rfl | hx
    · exact h.1
    · exact Nat.lt_trans h.1 ((List.pairwise_cons.1 this).1 x hx)

/-- The table of emoji is in order. -/
theorem emojiTable_ascending : Ascending emojiTable :=
  .of_pairwise (List.pairwise_cons.1 (ascends_pairwise _ 0 (by decide +kernel : ascends 0 emojiTable = true))).2

/-- The table of modifier bases is in order. -/
theorem emojiModifierBaseTable_ascending : Ascending emojiModifierBaseTable :=
  .of_pairwise (List.pairwise_cons.1 (ascends_pairwise _ 0 (by decide +kernel : ascends 0 emojiModifierBaseTable = true))).2

end Unicode

/-- **C63**: searching a list in ascending order from its first to its last element answers,
never reads outside of the list, and finds exactly its elements.  The number of steps is at
most the length of the list. -/
theorem C63_search {l : List Nat} (hl : l.Pairwise (· < ·)) (hne : l ≠ []) (c fuel : Nat) (hf : l.length ≤ fuel) :
    ∃ b, isInAscList c l fuel 0 (l.length - 1) = some b ∧ (b = true ↔ c ∈ l) := by
  have hlen := List.length_pos_iff.2 hne
  obtain ⟨b, hb, hb'⟩ := isInAscList_spec (.of_pairwise hl) c fuel 0 (l.length - 1) (by omega) (by omega) (by omega)
  refine ⟨b, hb, hb'.trans ⟨fun ⟨i, _, _, h⟩ => List.mem_of_getElem? h, fun h => ?_⟩⟩
  obtain ⟨i, hi, rfl⟩ := List.mem_iff_getElem.1 h
  exact ⟨i, by omega, by omega, List.getElem?_eq_getElem hi⟩

/-- **C63**: the search for an emoji never reads outside of the table, and a character is
taken for an emoji exactly if it is in the table. -/
theorem C63_emoji (c : Char) :
    isInAscList c.toNat emojiTable 2000 0 (emojiTable.length - 1) = some (isEmoji c) ∧
    (isEmoji c = true ↔ c.toNat ∈ emojiTable) := by
  obtain ⟨b, hb, hb'⟩ := C63_search (List.pairwise_cons.1 (ascends_pairwise _ 0
    (by decide +kernel : ascends 0 emojiTable = true))).2 (by decide) c.toNat 2000 (by decide +kernel)
  unfold isEmoji
  rw [hb]
  exact ⟨rfl, hb'⟩

/-- **C63**: the same for bases of modifiers. -/
theorem C63_modifier_base (c : Char) :
    isInAscList c.toNat emojiModifierBaseTable 2000 0 (emojiModifierBaseTable.length - 1) = some (isEmojiModifierBase c) ∧
    (isEmojiModifierBase c = true ↔ c.toNat ∈ emojiModifierBaseTable) := by
  obtain ⟨b, hb, hb'⟩ := C63_search (List.pairwise_cons.1 (ascends_pairwise _ 0
    (by decide +kernel : ascends 0 emojiModifierBaseTable = true))).2 (by decide) c.toNat 2000 (by decide +kernel)
  unfold isEmojiModifierBase
  rw [hb]
  exact ⟨rfl, hb'⟩

/-- The elements of the first list that are not in the second, both in ascending order. -/
def Unicode.without : Nat → List Nat → List Nat → List Nat
  | 0, l, _ => l
  | _ + 1, [], _ => []
  | _ + 1, l, [] => l
  | fuel + 1, a :: l, b :: m =>
    if a = b then without fuel l (b :: m) else if b < a then without fuel (a :: l) m else a :: without fuel l (b :: m)

/-- Nothing is lost that is not in the second list. -/
theorem Unicode.mem_without : ∀ (fuel : Nat) (l m : List Nat) (c : Nat), c ∈ l → c ∈ without fuel l m ∨ c ∈ m := by
  intro fuel
  induction fuel with
  | zero => intro l m c h; exact Or.inl h
  | succ fuel ih =>
    intro l m c h
    match l, m with
    | [], m => simp at h
    | a :: l, [] => exact Or.inl h
    | a :: l, b :: m =>
      unfold without
      split
      · rename_i e
        rcases List.mem_cons.1 h with rfl | h
        · exact Or.inr (by simp [e])
        · exact ih l (b :: m) c h
      · split
        · rcases ih (a :: l) m c h with h | h
          · exact Or.inl h
          · exact Or.inr (List.mem_cons_of_mem _ h)
        · rcases List.mem_cons.1 h with rfl | h
          · exact Or.inl (by simp)
          · rcases ih l (b :: m) c h with h | h
            · exact Or.inl (List.mem_cons_of_mem _ h)
            · exact Or.inr h

/-- **C63**: every base of modifiers is an emoji. -/
theorem C63_base_is_emoji (c : Char) (h : isEmojiModifierBase c = true) : isEmoji c = true := by
  have hm := (C63_modifier_base c).2.1 h
  refine (C63_emoji c).2.2 ?_
  rcases mem_without 4000 emojiModifierBaseTable emojiTable c.toNat hm with h | h
  · have e : without 4000 emojiModifierBaseTable emojiTable = [] := by decide +kernel
    rw [e] at h; simp at h
  · exact h

/-- The search takes few steps: 16 are enough for the table of emoji. -/
example : isInAscList 0x1F600 emojiTable 16 0 (emojiTable.length - 1) = some true ∧
    isInAscList 0x1F54F emojiTable 16 0 (emojiTable.length - 1) = some false := by decide +kernel

/-- Some characters that are emoji and some that are not. -/
example : isEmoji '😀' = true ∧ isEmoji '#' = true ∧ isEmoji 'a' = false ∧ isEmojiModifierBase '👍' = true ∧
    isEmojiModifierBase '😀' = false := by decide +kernel

end Xi
