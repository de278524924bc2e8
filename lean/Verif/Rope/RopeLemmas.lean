import Verif.Rope.Rope
import Verif.Rope.TreeBuild
import Verif.Rope.Utf8Lemmas

/-!
# Lemmas on ropes: string leaves
-/

namespace Xi

theorem memrchr_some {b : UInt8} {s : List UInt8} {i : Nat} (h : memrchr b s = some i) : s[i]? = some b := by
  induction s generalizing i with
  | nil => simp [memrchr] at h
  | cons x s ih =>
    simp only [memrchr] at h
    split at h
    · rename_i j hj
      simp at h; subst h
      simpa using ih hj
    · split at h
      · rename_i hx
        simp at h; subst h; simp [hx]
      · simp at h

theorem memrchr_none {b : UInt8} {s : List UInt8} (h : memrchr b s = none) : b ∉ s := by
  induction s with
  | nil => simp
  | cons x s ih =>
    simp only [memrchr] at h
    split at h
    · simp at h
    · rename_i hn
      split at h
      · simp at h
      · rename_i hx
        simp only [List.mem_cons, not_or]
        exact ⟨fun e => hx e.symm, ih hn⟩

theorem newline_boundary {s : List UInt8} (hs : Utf8 s) {i : Nat} (hi : s[i]? = some newline) :
    isCharBoundary s (i + 1) = true := by
  have h1 : isCharBoundary s i = true := by
    simp only [isCharBoundary, hi]
    simp [isCont, newline]
  obtain ⟨h2, h3, h4⟩ := utf8_split hs h1
  obtain ⟨cs, hcs⟩ := h4
  have hlt : i < s.length := (List.getElem?_eq_some_iff.1 hi).1
  cases cs with
  | nil =>
    have := congrArg List.length hcs
    simp at this; omega
  | cons c cs =>
    obtain ⟨x, r, e1, -, -, l1⟩ := encode_shape c
    have hx : x = newline := by
      have := congrArg (fun l => l[0]?) hcs
      simp [e1, hi] at this
      exact this.symm
    have hr : r = [] := by
      rw [hx] at l1
      simp [lenOfFirst, newline] at l1
      exact l1
    subst hr
    rw [boundary_iff hs]
    refine ⟨hlt, ?_, ?_⟩
    · rw [List.take_add_one, hi]
      exact utf8_append h3 ⟨[c], by simp [e1, hx]⟩
    · refine ⟨cs, ?_⟩
      rw [← List.tail_drop, hcs]
      simp [e1]

theorem backToBoundary_spec {s : List UInt8} (hs : Utf8 s) {i : Nat} (hi : i ≤ s.length) :
    backToBoundary s i ≤ i ∧ i < backToBoundary s i + 4 ∧ isCharBoundary s (backToBoundary s i) = true ∧
      ∀ k, backToBoundary s i < k → k ≤ i → isCharBoundary s k = false := by
  obtain ⟨j, h1, h2, h3, h4⟩ := boundary_near hs hi
  have : backToBoundary s i = j := by
    clear h2 hi
    induction i with
    | zero => simp [backToBoundary]; omega
    | succ i ih =>
      simp only [backToBoundary]
      by_cases hj : j = i + 1
      · subst hj; rw [if_pos h3]
      · rw [if_neg (by rw [h4 (i + 1) (by omega) (by omega)]; simp)]
        exact ih (by omega) (fun k hk1 hk2 => h4 k hk1 (by omega))
  rw [this]
  exact ⟨h1, h2, h3, h4⟩

theorem findLeafSplit_spec {s : List UInt8} {ms : Nat} (hs : Utf8 s) (hl : 1024 < s.length) (h1 : 511 ≤ ms)
    (h2 : ms ≤ min 1024 (s.length - 511)) :
    ∃ sp, findLeafSplit s ms = some sp ∧ isCharBoundary s sp = true ∧ 511 ≤ sp ∧ sp ≤ min 1024 (s.length - 511) ∧
      (ms ≤ sp ∨ min 1024 (s.length - 511) < sp + 4) := by
  simp only [findLeafSplit, minLeaf, maxLeaf]
  rw [if_neg (by omega), if_neg (by omega)]
  split
  · rename_i pos hpos
    have hg := memrchr_some hpos
    rw [List.getElem?_drop] at hg
    have hlt : ms - 1 + pos < min 1024 (s.length - 511) := by
      have := (List.getElem?_eq_some_iff.1 hg).1
      rw [List.length_take] at this; omega
    rw [List.getElem?_take_of_lt hlt] at hg
    have := newline_boundary hs hg
    rw [show ms - 1 + pos + 1 = ms + pos by omega] at this
    exact ⟨_, rfl, this, by omega, by omega, Or.inl (by omega)⟩
  · obtain ⟨g1, g2, g3, -⟩ := backToBoundary_spec hs (i := min 1024 (s.length - 511)) (by omega)
    exact ⟨_, rfl, g3, by omega, g1, Or.inr g2⟩

theorem strSlice_spec {s : List UInt8} {a b : Nat} (hab : a ≤ b) (ha : isCharBoundary s a = true)
    (hb : isCharBoundary s b = true) : strSlice s a b = some ((s.take b).drop a) := by
  simp [strSlice, hab, ha, hb]

theorem boundary_zero {s : List UInt8} : isCharBoundary s 0 = true := by simp [isCharBoundary]

theorem boundary_length {s : List UInt8} : isCharBoundary s s.length = true := by simp [isCharBoundary]

theorem strPush_whole {l m : List UInt8} (hl : Utf8 l) (hm : Utf8 m) (ll : l.length ≤ 1024) (lm : m.length ≤ 1024)
    (hnot : ¬ (511 ≤ l.length ∧ 511 ≤ m.length)) :
    (strPush l m ⟨0, m.length⟩ = some (l ++ m, none) ∧ (l ++ m).length ≤ 1024) ∨
    (∃ a r, strPush l m ⟨0, m.length⟩ = some (a, some r) ∧ Utf8 a ∧ Utf8 r ∧ a.length ≤ 1024 ∧ r.length ≤ 1024 ∧
      a ++ r = l ++ m ∧ 511 ≤ a.length ∧ 511 ≤ r.length) := by
  have hlm := utf8_append hl hm
  simp only [strPush, strSlice_spec (Nat.zero_le _) boundary_zero boundary_length, Option.bind_eq_bind, Option.bind_some,
    List.take_length, List.drop_zero, maxLeaf]
  by_cases hle : (l ++ m).length ≤ 1024
  · left
    rw [if_pos hle]
    exact ⟨rfl, hle⟩
  · right
    rw [if_neg hle]
    generalize hs : l ++ m = s at hle hlm
    have hlen : s.length = l.length + m.length := by rw [← hs]; simp
    simp only [findLeafSplitForMerge, maxLeaf, minLeaf]
    rw [if_neg (by omega)]
    obtain ⟨sp, e, g1, g2, g3, g4⟩ := findLeafSplit_spec hlm (ms := max 511 (s.length - 1024)) (by omega) (by omega) (by omega)
    obtain ⟨-, g5, g6⟩ := utf8_split hlm g1
    refine ⟨s.take sp, s.drop sp, ?_, g5, g6, ?_, ?_, ?_, ?_, ?_⟩
    · rw [e]
      simp only [Option.bind_some, strSlice_spec (show sp ≤ s.length by omega) g1 boundary_length,
        strSlice_spec (Nat.zero_le sp) boundary_zero g1]
      simp
    · rw [List.length_take]; omega
    · rw [List.length_drop]; omega
    · rw [List.take_append_drop]
    · rw [List.length_take]; omega
    · rw [List.length_drop]; omega

/-- String leaves hold well-formed UTF-8 of at most 1024 bytes. -/
instance : LeafSpec (List UInt8) RopeInfo UInt8 where
  content s := s
  ok s := Utf8 s ∧ s.length ≤ 1024
  valid := Utf8
  valid_nil := utf8_nil
  valid_append := utf8_append
  valid_right := utf8_right
  valid_left := utf8_left
  valid_content h := h.1
  len_eq _ := rfl
  pos := by
    intro l _ h
    have : 511 ≤ l.length := by simpa [TreeLeaf.isOkChild, minLeaf] using h
    omega
  ok_default := ⟨utf8_nil, by simp [TreeLeaf.default]⟩
  content_default := rfl
  push_whole := by
    intro l m h1 h2 hnot
    simp only [TreeLeaf.isOkChild, minLeaf, decide_eq_true_eq, ge_iff_le] at hnot ⊢
    rcases strPush_whole h1.1 h2.1 h1.2 h2.2 hnot with ⟨e, hl⟩ | ⟨a, r, e, u1, u2, l1, l2, happ, m1, m2⟩
    · left
      refine ⟨l ++ m, e, ⟨utf8_append h1.1 h2.1, hl⟩, rfl, ?_⟩
      rw [List.length_append]; omega
    · right
      exact ⟨a, r, e, ⟨u1, l1⟩, ⟨u2, l2⟩, happ, m1, m2⟩
  push_slice := by
    intro l s e h1 hse hel hs he
    have bs : isCharBoundary l s = true := (boundary_iff h1.1).2 ⟨by omega, hs,
      utf8_right hs (by rw [List.take_append_drop]; exact h1.1)⟩
    have be : isCharBoundary l e = true := (boundary_iff h1.1).2 ⟨by omega, he,
      utf8_right he (by rw [List.take_append_drop]; exact h1.1)⟩
    have hu : Utf8 ((l.take e).drop s) := by
      refine utf8_right (a := l.take s) hs ?_
      have : l.take s ++ (l.take e).drop s = l.take e := by
        have h := List.take_append_drop s (l.take e)
        rwa [List.take_take, Nat.min_eq_left hse] at h
      rw [this]; exact he
    have hl : ((l.take e).drop s).length ≤ 1024 := by
      rw [List.length_drop, List.length_take]
      have := h1.2
      omega
    refine ⟨(l.take e).drop s, ?_, ⟨hu, hl⟩, rfl⟩
    show strPush [] l ⟨s, e⟩ = _
    simp only [strPush, strSlice_spec hse bs be, Option.bind_eq_bind, Option.bind_some, List.nil_append, maxLeaf]
    rw [if_pos hl]; rfl

theorem cut_iff {s : List UInt8} (hs : Utf8 s) {i : Nat} : Cut (List UInt8) s i ↔ CharBoundary s i := by
  rw [← boundary_iff_spec hs, boundary_iff hs]; rfl

theorem opt_ite_bind' {α β : Type} {c : Prop} [Decidable c] {a b : Option α} {f : α → Option β} :
    (if c then a >>= f else b >>= f) = (if c then a else b) >>= f := by
  split <;> rfl

namespace Rope

theorem text_utf8 {r : Rope} (h : r.Balanced) : Utf8 r.text := by
  obtain ⟨k, hk⟩ := h
  exact hk.valid

theorem pushLeaf_spec {b : TreeBuilder (List UInt8) RopeInfo} {t s : List UInt8} (hb : b.Holds t) (hs : Utf8 s)
    (hl : s.length ≤ 1024) : ∃ b', b.pushLeaf s = some b' ∧ b'.Holds (t ++ s) := by
  have := TreeBuilder.push_spec hb (Node.wf_fromLeaf (L := List UInt8) (l := s) ⟨hs, hl⟩)
  rwa [show (Node.fromLeaf s : Rope).text = s by simp [Node.fromLeaf, Node.text, Node.leaves, LeafSpec.content]] at this

theorem pushStrLoop_spec (fuel : Nat) : ∀ {b : TreeBuilder (List UInt8) RopeInfo} {t s : List UInt8}, b.Holds t → Utf8 s →
    s.length ≤ fuel → ∃ b', pushStrLoop fuel b s = some b' ∧ b'.Holds (t ++ s) := by
  induction fuel with
  | zero =>
    intro b t s hb hs hl
    have : s = [] := List.length_eq_zero_iff.1 (by omega)
    subst this
    exact ⟨b, rfl, by simpa using hb⟩
  | succ fuel ih =>
    intro b t s hb hs hl
    simp only [pushStrLoop]
    by_cases he : s = []
    · subst he
      exact ⟨b, rfl, by simpa using hb⟩
    · have hpos : 0 < s.length := List.length_pos_iff.2 he
      rw [if_neg (by simp [he])]
      have key : ∃ sp, (if s.length > maxLeaf then findLeafSplitForBulk s else some s.length) = some sp ∧
          isCharBoundary s sp = true ∧ 0 < sp ∧ sp ≤ 1024 ∧ sp ≤ s.length := by
        by_cases h : s.length > maxLeaf
        · rw [if_pos h]
          simp only [maxLeaf] at h
          obtain ⟨sp, e, g1, g2, g3, -⟩ := findLeafSplit_spec hs (ms := 511) (by omega) (by omega) (by omega)
          exact ⟨sp, e, g1, by omega, by omega, by omega⟩
        · rw [if_neg h]
          simp only [maxLeaf] at h
          exact ⟨_, rfl, boundary_length, hpos, by omega, by omega⟩
      obtain ⟨sp, e, g1, g2, g3, g4⟩ := key
      obtain ⟨-, g5, g6⟩ := utf8_split hs g1
      obtain ⟨b1, e1, hb1⟩ := pushLeaf_spec hb g5 (by rw [List.length_take]; omega)
      obtain ⟨b2, e2, hb2⟩ := ih hb1 g6 (by rw [List.length_drop]; omega)
      refine ⟨b2, ?_, ?_⟩
      · rw [opt_ite_bind', e]
        simp only [Option.bind_eq_bind, Option.bind_some, strSlice_spec (Nat.zero_le sp) boundary_zero g1,
          strSlice_spec g4 g1 boundary_length, List.drop_zero, List.take_length, e1, e2]
      · rw [List.append_assoc, List.take_append_drop] at hb2
        exact hb2

theorem pushStr_spec {b : TreeBuilder (List UInt8) RopeInfo} {t s : List UInt8} (hb : b.Holds t) (hs : Utf8 s) :
    ∃ b', pushStr b s = some b' ∧ b'.Holds (t ++ s) := by
  simp only [pushStr]
  split
  · rename_i hl
    split
    · rename_i he
      simp at he
      subst he
      exact ⟨b, rfl, by simpa using hb⟩
    · exact pushLeaf_spec hb hs hl
  · exact pushStrLoop_spec _ hb hs (Nat.le_refl _)

theorem fromStr_spec {s : List UInt8} (hs : Utf8 s) : ∃ r, fromStr s = some r ∧ r.text = s ∧ r.Balanced := by
  obtain ⟨b, e, hb⟩ := pushStr_spec TreeBuilder.holds_new hs
  obtain ⟨r, e', t, w⟩ := TreeBuilder.build_spec hb
  exact ⟨r, by simp [fromStr, e, e'], by simpa using t, w⟩

theorem add_spec {a b : Rope} (ha : a.Balanced) (hb : b.Balanced) :
    ∃ r, add a b = some r ∧ r.text = a.text ++ b.text ∧ r.Balanced := by
  obtain ⟨h, ha⟩ := ha
  obtain ⟨k, hb⟩ := hb
  obtain ⟨b1, e1, h1⟩ := TreeBuilder.push_spec TreeBuilder.holds_new ha
  obtain ⟨b2, e2, h2⟩ := TreeBuilder.push_spec h1 hb
  obtain ⟨r, e', t, w⟩ := TreeBuilder.build_spec h2
  exact ⟨r, by simp [add, e1, e2, e'], by simpa using t, w⟩

end Rope

end Xi
