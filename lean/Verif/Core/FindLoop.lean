import Verif.Core.Find
import Verif.Core.FindMatch
import Verif.Rope.DiffLemmas
import Verif.Rope.PanicLemmas

/-!
# Lemmas on the loop of `update_find`
-/

namespace Xi

open Find Cursor Selection

variable {lower : CaseTable} {cm : CaseMatching} {pat : List Char}

theorem Find.find_ready (hl : lower.Ok) {r : Rope} (hsize : r.text.length < 2 ^ 64 - 1) (hreg : Regular lower cm pat) {c : RopeCursor} {p : Nat}
    (hc : Ready r c p) :
    ∃ c' res, find lower cm pat c = some (c', res) ∧ IsFirst (Occurs lower r.text cm pat) p res ∧
      ∀ q, res = some q → Ends lower r.text cm pat q c'.position ∧ Ready r c' c'.position := by
  obtain ⟨c', res, h1, h2, h3⟩ := progress_spec hc.balanced hl hreg (2 ^ 64 - 1) hc
  have hne : res ≠ .tryAgain := by
    rintro rfl
    obtain ⟨g1, g2, -⟩ := h2
    omega
  refine ⟨c', _, find_of_progress _ (Nat.le_refl _) h1 hne, ?_, ?_⟩
  · cases res with
    | found q => exact h2.1
    | notFound => exact h2
    | tryAgain => exact absurd rfl hne
  · intro q hq
    cases res with
    | found q' =>
      injection hq with hq
      subst hq
      exact ⟨h2.2, h3 (by simp)⟩
    | notFound => cases hq
    | tryAgain => cases hq

theorem Find.Ready.set {r : Rope} {c : RopeCursor} {p q : Nat} (h : Ready r c p) (hq : CharBoundary r.text q) :
    ∃ c', c.set q = some c' ∧ Ready r c' q := by
  obtain ⟨rfl, h2, h3⟩ := h.alive
  obtain ⟨c', pre, l, post, k1, k2, k3, k4⟩ := set_spec h2 h3 (Find.boundary_le hq)
  exact ⟨c', k1, ⟨k3, k4, hq, Find.boundary_le hq, .inl ⟨_, _, _, k2⟩⟩⟩

namespace FindState

/-- `next_codepoint_offset` does not panic inside a character either. -/
theorem nextOffset_some {r : Rope} (hr : r.Balanced) {off : Nat} (h : off ≤ r.text.length) :
    ∃ res, r.nextCodepointOffset off = some res ∧ off ≤ res.getD r.text.length := by
  obtain ⟨c, pre, l, post, h1, h2, rfl, rfl⟩ := new_spec hr h
  have hlen : c.root.len = c.root.text.length := by
    obtain ⟨n, hw⟩ := hr
    exact hw.len_eq
  have hroot := h2.toAt.rootLen
  by_cases hge : c.position ≥ c.root.len
  · refine ⟨none, ?_, h⟩
    simp [Rope.nextCodepointOffset, h1, Cursor.next, hge]
  · have hlo := h2.lo
    have hc : c.leaf.isNone = false := by rw [h2.leaf]; rfl
    have hlt : c.position - lenOf pre < l.length := by
      have := h2.hi
      have e : (LeafSpec.content l).length = l.length := rfl
      rcases this with h | ⟨rfl, h⟩
      · omega
      · simp at hroot; omega
    have hcc : ¬ (c.position ≥ c.root.len ∨ (some l).isNone = true) := by simp [hge]
    have hb : l[c.position - lenOf pre]? = some l[c.position - lenOf pre] := List.getElem?_eq_getElem hlt
    simp only [Rope.nextCodepointOffset, h1, Option.bind_eq_bind, Option.bind_some, Cursor.next, if_neg hcc, nextInsideLeaf,
      h2.leaf, h2.off, if_neg (Nat.not_lt.2 hlo), baseMetric, codepointNext, if_neg (Nat.ne_of_lt hlt), hb, pure]
    have hpos : 1 ≤ lenUtf8FromFirstByte l[c.position - lenOf pre] := by
      unfold lenUtf8FromFirstByte
      repeat' split
      all_goals omega
    generalize lenUtf8FromFirstByte l[c.position - lenOf pre] = k at *
    have el : TreeLeaf.len (I := RopeInfo) l = l.length := rfl
    by_cases hend : c.position - lenOf pre + k = TreeLeaf.len (I := RopeInfo) l ∧ lenOf pre + (c.position - lenOf pre + k) ≠ c.root.len
    · rw [if_pos hend]
      cases post with
      | nil =>
        obtain ⟨c', g1, -, -, -, g5⟩ := nextLeaf_none h2.toAt
        simp only [g1, Option.bind_some, Option.isSome_some, if_true]
        exact ⟨_, rfl, by simp; omega⟩
      | cons m post =>
        obtain ⟨c', g1, -, -, g4⟩ := nextLeaf_some h2.toAt
        simp only [g1, Option.bind_some, Option.isSome_some, if_true]
        refine ⟨_, rfl, ?_⟩
        have : lenOf (pre ++ [l]) = lenOf pre + l.length := by rw [lenOf_append]; simp [lenOf]; rfl
        simp
        omega
    · rw [if_neg hend]
      simp only [Option.bind_some, Option.isSome_some, if_true]
      exact ⟨_, rfl, by simp; omega⟩

theorem atOrNext_some {r : Rope} (hr : r.Balanced) {off : Nat} (h : off ≤ r.text.length) :
    ∃ res, r.atOrNextCodepointBoundary off = some res ∧ off ≤ res.getD r.text.length := by
  obtain ⟨b, h1, -⟩ := C52_is_codepoint_boundary r off hr h
  simp only [Rope.atOrNextCodepointBoundary, h1, Option.bind_eq_bind, Option.bind_some]
  cases b with
  | true => exact ⟨some off, by simp, by simp⟩
  | false =>
    simp only [Bool.false_eq_true, if_false]
    exact nextOffset_some hr h

/-- Where the leaf with the byte `to` ends. -/
theorem leafEnd {r : Rope} (hr : r.Balanced) (to : Nat) : ∃ c c' x, Cursor.new r to = some c ∧ c.nextLeaf = some (c', x) ∧
    CharBoundary r.text c'.position ∧ min to r.text.length ≤ c'.position := by
  obtain ⟨c, pre, l, post, h1, h2, h3, h4, h5, h6⟩ := descend_spec (new_shape hr (p := to))
  have hc : c.root = r := h3
  have hp : c.position = to := h4
  have h5 : lenOf pre ≤ to := h5
  have h6 : to < lenOf pre + (LeafSpec.content l).length ∨ post = [] := h6
  have hlen : c.root.len = c.root.text.length := by
    rw [hc]
    obtain ⟨n, hw⟩ := hr
    exact hw.len_eq
  have hut := Rope.text_utf8 hr
  cases post with
  | nil =>
    obtain ⟨c', x, g1, g5⟩ : ∃ c' x, c.nextLeaf = some (c', x) ∧ c'.position = c.root.len := by
      obtain ⟨c', g1, -, -, -, g5⟩ := nextLeaf_none h2
      exact ⟨c', none, g1, g5⟩
    refine ⟨c, c', x, h1, g1, ?_, ?_⟩
    · rw [g5, hlen, hc, ← boundary_iff_spec hut]
      exact boundary_length
    · rw [g5, hlen, hc]; omega
  | cons m post =>
    obtain ⟨c', g1, g2, g3, g4⟩ := nextLeaf_some h2
    have e : lenOf (pre ++ [l]) = lenOf pre + (LeafSpec.content l).length := by rw [lenOf_append]; simp [lenOf]
    refine ⟨c, c', _, h1, g1, ?_, ?_⟩
    · have ht := g2.text
      rw [g3, hc] at ht
      obtain ⟨n, hw⟩ := g2.balanced
      have hoks : ∀ x ∈ (pre ++ [l]) ++ m :: post, LeafSpec.ok (L := List UInt8) x := by
        rw [← g2.leaves]; exact leaf_ok hw
      rw [ht, g4]
      have u1 : Utf8 ((pre ++ [l]).flatMap (LeafSpec.content (L := List UInt8))) := leaves_utf8 (fun x hx => hoks x (List.mem_append_left _ hx))
      refine charBoundary_ends u1 (utf8_right u1 ?_)
      rw [← ht]
      exact hut
    · rw [g4, e]
      have := h6.resolve_right (by simp)
      omega

/-- The regions are determined by which they are. -/
theorem inv_ext : ∀ {a b : Selection}, Inv a → Inv b → (∀ r, r ∈ a ↔ r ∈ b) → a = b
  | [], [], _, _, _ => rfl
  | [], y :: b, _, _, h => absurd ((h y).2 (List.mem_cons_self ..)) (by simp)
  | x :: a, [], _, _, h => absurd ((h x).1 (List.mem_cons_self ..)) (by simp)
  | x :: a, y :: b, ha, hb, h => by
    obtain ⟨ha1, ha2⟩ := List.pairwise_cons.1 ha
    obtain ⟨hb1, hb2⟩ := List.pairwise_cons.1 hb
    have hxy : x = y := by
      have h1 := (h x).1 (List.mem_cons_self ..)
      have h2 := (h y).2 (List.mem_cons_self ..)
      rcases List.mem_cons.1 h1 with h1 | h1
      · exact h1
      · rcases List.mem_cons.1 h2 with h2 | h2
        · exact h2.symm
        · have := hi_lt (hb1 _ h1)
          have := hi_lt (ha1 _ h2)
          omega
    subst hxy
    rw [inv_ext ha2 hb2]
    intro r
    have := h r
    simp only [List.mem_cons] at this
    constructor
    · intro hr
      rcases this.1 (.inr hr) with rfl | hr'
      · have := hi_lt (ha1 _ hr); omega
      · exact hr'
    · intro hr
      rcases this.2 (.inr hr) with rfl | hr'
      · have := hi_lt (hb1 _ hr); omega
      · exact hr'

theorem lo_of {r : SelRegion} (h : r.start < r.stop) : r.lo = r.start ∧ r.hi = r.stop := by
  simp only [SelRegion.lo, SelRegion.hi]; omega

variable {s : List UInt8}

theorem boundary_take {E k : Nat} (hE : CharBoundary s E) (hk : CharBoundary s k) (h : k ≤ E) : CharBoundary (s.take E) k := by
  obtain ⟨cs, ds, rfl, rfl⟩ := hE
  rw [List.take_left]
  exact (boundary_left ⟨cs, rfl⟩ ⟨ds, rfl⟩ h).1 hk

/-- What one match does to the highlights. -/
theorem take_spec (hreg : Regular lower cm pat) (hs : Utf8 s) {text sub : Rope} {E : Nat} (hsub : sub.text = s.take E)
    (hEs : CharBoundary s E) {occ : Selection} (ho : Sound lower s cm pat occ) {q : Nat} {c : RopeCursor} (hc : Ready sub c c.position)
    (hm : Match lower s cm pat q c.position) :
    (∃ o ∈ occ, ∃ c', o.start ≤ q ∧ q < o.stop ∧ o.stop ≤ c.position ∧ takeMatch text false q c occ = some (some c', occ) ∧ Ready sub c' o.stop ∧ c'.position = o.stop) ∨
    (∀ o ∈ occ, ¬ (o.start ≤ q ∧ q < o.stop)) ∧ ∃ occ', takeMatch text false q c occ = some (some c, occ') ∧ Sound lower s cm pat occ' ∧
      ∀ r, r ∈ occ' ↔ r = .new q c.position ∨ r ∈ occ ∧ ¬ (r.start < c.position ∧ q < r.stop) := by
  obtain ⟨hinv, hall⟩ := ho
  have hlt := (match_lt hreg hm).1
  have hq : (SelRegion.new q c.position).lo = q ∧ (SelRegion.new q c.position).hi = c.position := by
    simp only [SelRegion.new, SelRegion.lo, SelRegion.hi]; omega
  have hne : (SelRegion.new q c.position).start ≠ (SelRegion.new q c.position).stop := by
    show q ≠ c.position; omega
  rcases C32_distinct_partial hinv (fun r hr => Nat.ne_of_lt (hall r hr).1) hne with ⟨o, h1, h2, h3, h4⟩ | ⟨h1, occ', h2, h3, h4⟩
  · left
    obtain ⟨o1, o2⟩ := hall o h1
    obtain ⟨l1, l2⟩ := lo_of o1
    rw [l1, hq.1] at h2
    rw [l2, hq.1] at h3
    have hle : o.stop ≤ c.position := by
      by_cases he : o.start = q
      · rw [he] at o2
        exact Nat.le_of_eq (match_unique o2 hm)
      · exact match_mono o2 hm (by omega)
    refine ⟨o, h1, ?_⟩
    by_cases he : o.stop = c.position
    · refine ⟨c, h2, h3, hle, ?_, he ▸ hc, he.symm⟩
      simp [takeMatch, h4, l2, he]
      omega
    · obtain ⟨-, hb⟩ := match_boundary hreg hs o2
      have hpos := hc.le
      rw [hsub, List.length_take] at hpos
      obtain ⟨c', g1, g2⟩ := hc.set (q := o.stop) (by
        rw [hsub]
        exact boundary_take hEs hb (by omega))
      refine ⟨c', h2, h3, hle, ?_, g2, g2.position⟩
      simp [takeMatch, h4, l2, he, g1]
  · right
    refine ⟨?_, occ', ?_, ⟨h3, ?_⟩, ?_⟩
    · intro o hoo
      obtain ⟨l1, l2⟩ := lo_of (hall o hoo).1
      have := h1 o hoo
      rw [l1, l2, hq.1] at this
      exact this
    · simp [takeMatch, h2, hq]
      omega
    · intro r hr
      rcases (h4 r).1 hr with rfl | ⟨hr, -⟩
      · exact ⟨hlt, hm⟩
      · exact hall r hr
    · intro r
      rw [h4 r]
      constructor
      · rintro (h | ⟨h, h'⟩)
        · exact .inl h
        · obtain ⟨l1, l2⟩ := lo_of (hall r h).1
          rw [l1, l2, hq.1, hq.2] at h'
          exact .inr ⟨h, h'⟩
      · rintro (h | ⟨h, h'⟩)
        · exact .inl h
        · obtain ⟨l1, l2⟩ := lo_of (hall r h).1
          refine .inr ⟨h, ?_⟩
          rw [l1, l2, hq.1, hq.2]
          exact h'

/-- The loop keeps the highlights sound. -/
theorem loop_sound (hl : lower.Ok) (hreg : Regular lower cm pat) (hs : Utf8 s) {text sub : Rope} {E to : Nat} (hsub : sub.text = s.take E)
    (hsize : s.length < 2 ^ 64 - 1) (hEs : CharBoundary s E) : ∀ (fuel : Nat) {occ : Selection} {c : RopeCursor} {p : Nat}, Sound lower s cm pat occ → Ready sub c p →
    s.length < fuel + p → ∃ occ', findLoop lower false text cm pat false to fuel c occ = some occ' ∧ Sound lower s cm pat occ'
  | 0, occ, c, p, _, hc, hf => by
    have := hc.le
    rw [hsub, List.length_take] at this
    omega
  | fuel + 1, occ, c, p, ho, hc, hf => by
    obtain ⟨c', res, h1, h2, h3⟩ := find_ready hl (r := sub) (by rw [hsub, List.length_take]; omega) hreg hc
    simp only [findLoop, h1, Option.bind_eq_bind, Option.bind_some]
    cases res with
    | none => exact ⟨occ, rfl, ho⟩
    | some q =>
      obtain ⟨g1, g2⟩ := h3 q rfl
      have hm : Match lower s cm pat q c'.position := match_take hreg hs (E := E) (by rw [← hsub]; exact ⟨h2.2.1, g1⟩)
      have hpq : p ≤ q := h2.1
      have hlt := (match_lt hreg hm).1
      rcases take_spec (text := text) hreg hs hsub hEs ho g2 hm with ⟨o, k1, c'', k2, k3, k4, k5, k6, k7⟩ | ⟨-, occ', k2, k3, -⟩
      · simp only [k5, Option.bind_some, linesRaw]
        simpa using loop_sound hl hreg hs hsub hsize hEs fuel ho k6 (by omega)
      · simp only [k2, Option.bind_some, linesRaw]
        simpa using loop_sound hl hreg hs hsub hsize hEs fuel k3 g2 (by omega)

/-- Over the whole text, the loop finds exactly the matches. -/
theorem loop_exact (hl : lower.Ok) (hreg : Regular lower cm pat) (hs : Utf8 s) {text sub : Rope} {to : Nat} (hsub : sub.text = s)
    (hsize : s.length < 2 ^ 64 - 1) : ∀ (fuel : Nat) {L R : Selection} {c : RopeCursor} {p : Nat}, Sound lower s cm pat (L ++ R) → Ready sub c p →
    (∀ r ∈ L, r.stop ≤ p) → (∀ r ∈ R, p ≤ r.start) → s.length < fuel + p →
    ∃ R', findLoop lower false text cm pat false to fuel c (L ++ R) = some (L ++ R') ∧ Sound lower s cm pat (L ++ R') ∧
      Leftmost (Match lower s cm pat) p (R'.map fun r => (r.start, r.stop))
  | 0, L, R, c, p, _, hc, _, _, hf => by
    have := hc.le
    rw [hsub] at this
    omega
  | fuel + 1, L, R, c, p, ho, hc, hL, hR, hf => by
    obtain ⟨c', res, h1, h2, h3⟩ := find_ready hl (r := sub) (by rw [hsub]; omega) hreg hc
    simp only [findLoop, h1, Option.bind_eq_bind, Option.bind_some]
    cases res with
    | none =>
      have hnone : ∀ q e, p ≤ q → ¬ Match lower s cm pat q e := by
        intro q e hq hm
        exact h2 q hq (hsub ▸ hm.1)
      have : R = [] := by
        cases R with
        | nil => rfl
        | cons r R =>
          exact absurd (ho.2 r (by simp)).2 (hnone _ _ (hR r (by simp)))
      subst this
      exact ⟨[], rfl, ho, .done hnone⟩
    | some q =>
      obtain ⟨g1, g2⟩ := h3 q rfl
      have hm : Match lower s cm pat q c'.position := by rw [← hsub]; exact ⟨h2.2.1, g1⟩
      have hpq : p ≤ q := h2.1
      have hfirst : ∀ q' e', p ≤ q' → q' < q → ¬ Match lower s cm pat q' e' := by
        intro q' e' k1 k2 hm'
        exact h2.2.2 q' k1 k2 (hsub ▸ hm'.1)
      have hlt := (match_lt hreg hm).1
      have htake : sub.text = s.take s.length := by rw [hsub, List.take_length]
      have hEs : CharBoundary s s.length := by
        rw [← boundary_iff_spec hs]; exact boundary_length
      rcases take_spec (text := text) hreg hs htake hEs ho g2 hm with ⟨o, k1, c'', k2, k3, k4, k5, k6, k7⟩ | ⟨k1, occ', k2, k3, k4⟩
      · -- an old highlight
        have hoR : o ∈ R := by
          rcases List.mem_append.1 k1 with h | h
          · have := hL o h; omega
          · exact h
        obtain ⟨R1, R2, rfl⟩ := List.append_of_mem hoR
        have hoq : o.start = q := by
          have := hR o hoR
          by_cases h : o.start < q
          · exact absurd (ho.2 o k1).2 (hfirst _ _ this h)
          · omega
        have hR1 : R1 = [] := by
          cases R1 with
          | nil => rfl
          | cons x R1 =>
            have hx := ho.2 x (by simp)
            have hb : Before x o := by
              have := ho.1
              simp only [Selection.Inv, List.pairwise_append, List.cons_append, List.pairwise_cons] at this
              exact this.2.1.1 o (by simp)
            have := hi_lt hb
            have b1 := hb.1
            rw [(lo_of hx.1).2, (lo_of (ho.2 o k1).1).1] at b1
            exact absurd hx.2 (hfirst _ _ (hR x (by simp)) (by omega))
        subst hR1
        have hstop : o.stop = c'.position := by
          have := (ho.2 o k1).2
          rw [hoq] at this
          exact match_unique this hm
        simp only [k5, Option.bind_some, linesRaw]
        have e : L ++ ([] ++ o :: R2) = (L ++ [o]) ++ R2 := by simp
        rw [e] at ho ⊢
        obtain ⟨R', m1, m2, m3⟩ := loop_exact hl hreg hs (text := text) (to := to) hsub hsize fuel ho k6 (by
          intro r hr
          rcases List.mem_append.1 hr with h | h
          · have := hL r h; omega
          · rw [List.mem_singleton.1 h]; exact Nat.le_refl _) (by
          intro r hr
          have hb : Before o r := by
            have := ho.1
            simp only [Selection.Inv, List.pairwise_append] at this
            exact this.2.2 o (by simp) r hr
          have b1 := hb.1
          rw [(lo_of (ho.2 o (by simp)).1).2, (lo_of (ho.2 r (by simp [hr])).1).1] at b1
          exact b1) (by omega)
        refine ⟨o :: R', ?_, ?_, ?_⟩
        · simpa using m1
        · simpa using m2
        · rw [List.map_cons, hoq]
          refine .step hpq (hstop ▸ hm) hfirst m3
      · -- a new one
        have hR' : ∀ r ∈ R, q < r.start := by
          intro r hr
          have h1 := hR r hr
          have h2 := ho.2 r (by simp [hr])
          by_cases h : r.start < q
          · exact absurd h2.2 (hfirst _ _ h1 h)
          · have := k1 r (by simp [hr])
            omega
        have e : occ' = (L ++ [.new q c'.position]) ++ R.filter (fun r => decide (c'.position ≤ r.start)) := by
          have hinv := ho.1
          apply inv_ext k3.1
          · simp only [Selection.Inv, List.pairwise_append] at hinv ⊢
            refine ⟨⟨hinv.1, List.pairwise_singleton _ _, ?_⟩, hinv.2.1.filter _, ?_⟩
            · intro a ha b hb
              rw [List.mem_singleton.1 hb]
              have h1 := hL a ha
              have h2 := (ho.2 a (by simp [ha])).1
              constructor
              · rw [(lo_of h2).2]; show a.stop ≤ min q c'.position; omega
              · rintro (h | h)
                · omega
                · have : q = c'.position := h
                  omega
            · intro a ha b hb
              rw [List.mem_filter] at hb
              rcases List.mem_append.1 ha with ha | ha
              · exact hinv.2.2 a ha b hb.1
              · rw [List.mem_singleton.1 ha]
                have h2 := (ho.2 b (by simp [hb.1])).1
                have h3 := of_decide_eq_true hb.2
                constructor
                · rw [(lo_of h2).1]; show max q c'.position ≤ b.start; omega
                · rintro (h | h)
                  · have : q = c'.position := h
                    omega
                  · omega
          · intro r
            rw [k4 r]
            simp only [List.mem_append, List.mem_singleton, List.mem_filter, decide_eq_true_eq]
            constructor
            · rintro (h | ⟨h | h, h'⟩)
              · exact .inl (.inr h)
              · exact .inl (.inl h)
              · refine .inr ⟨h, ?_⟩
                have := hR' r h
                have := (ho.2 r (by simp [h])).1
                omega
            · rintro ((h | h) | ⟨h, h'⟩)
              · have := hL r h
                exact .inr ⟨.inl h, by omega⟩
              · exact .inl h
              · exact .inr ⟨.inr h, by omega⟩
        simp only [k2, Option.bind_some, linesRaw]
        rw [e] at k3 ⊢
        obtain ⟨R', m1, m2, m3⟩ := loop_exact hl hreg hs (text := text) (to := to) hsub hsize fuel k3 g2 (by
          intro r hr
          rcases List.mem_append.1 hr with h | h
          · have := hL r h; omega
          · rw [List.mem_singleton.1 h]; exact Nat.le_refl _) (by
          intro r hr
          exact of_decide_eq_true (List.mem_filter.1 hr).2) (by omega)
        refine ⟨.new q c'.position :: R', ?_, ?_, ?_⟩
        · simpa using m1
        · simpa using m2
        · exact .step hpq hm hfirst m3

end FindState

end Xi
