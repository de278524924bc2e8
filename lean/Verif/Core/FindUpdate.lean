import Verif.Core.FindEdit
import Verif.Props.Delta

/-!
# Lemmas on `update_highlights`
-/

namespace Xi

open Find Cursor Selection

variable {lower : CaseTable} {cm : CaseMatching} {pat : List Char} {s : List UInt8}

/-- Lower case leaves a line feed alone, and makes none of another character. -/
def CaseTable.KeepsNewline (lower : CaseTable) : Prop := lower.char '\n' = ['\n'] ∧ ∀ c, '\n' ∈ lower.char c → c = '\n'

namespace Find

theorem newline_enc {u : List Char} (h : newline ∈ enc u) : '\n' ∈ u := by
  obtain ⟨i, hi⟩ := List.mem_iff_getElem?.1 h
  have hb : CharBoundary (enc u) i := by
    rw [← boundary_iff_spec ⟨u, rfl⟩]
    simp [isCharBoundary, hi]
    right; decide
  obtain ⟨cs, ds, h1, rfl⟩ := hb
  have hu : u = cs ++ ds := by
    apply enc_inj
    rw [enc_append]
    exact h1
  rw [h1, List.getElem?_append_right (Nat.le_refl _), Nat.sub_self] at hi
  cases ds with
  | nil => simp at hi
  | cons d ds =>
    have hd : d = '\n' := by
      by_cases hw : d.toNat < 128
      · simp only [List.flatMap_cons, encode_ascii hw, List.cons_append, List.getElem?_cons_zero, Option.some.injEq] at hi
        have := congrArg UInt8.toNat hi
        simp [newline] at this
        apply Char.ext
        apply UInt32.toNat_inj.1
        have e : d.val.toNat = d.toNat := rfl
        rw [e]
        show d.toNat = 10
        omega
      · obtain ⟨b, t, h2, h3⟩ := encode_wide hw
        simp only [List.flatMap_cons, h2, List.cons_append, List.getElem?_cons_zero, Option.some.injEq] at hi
        rw [hi] at h3
        exact absurd h3 (by decide)
    rw [hu, hd]
    simp

/-- A match of a pattern without a line feed has none. -/
theorem match_no_newline (hn : lower.KeepsNewline) (hreg : Regular lower cm pat) (hpat : newline ∉ enc pat) {p e : Nat} (h : Match lower s cm pat p e) {j : Nat}
    (h1 : p ≤ j) (h2 : j < e) : s[j]? ≠ some newline := by
  intro hj
  obtain ⟨A, x, B, rfl, rfl, rfl, hx⟩ := match_local hreg h
  have hmem : newline ∈ x := by
    rw [List.getElem?_append_right h1, List.getElem?_append_left (by omega)] at hj
    exact List.mem_of_getElem? hj
  cases cm with
  | exact =>
    have hx : x = enc pat := hx
    exact hpat (hx ▸ hmem)
  | caseInsensitive =>
    obtain ⟨u, rfl, g1, g2⟩ := hx
    obtain ⟨v, w, rfl⟩ := List.append_of_mem (newline_enc hmem)
    have hv := g2 v (List.prefix_append _ _) (by
      intro h
      have := congrArg List.length h
      simp at this)
    have hvp : v.flatMap lower.char <+: (v ++ '\n' :: w).flatMap lower.char := by
      rw [List.flatMap_append]; exact List.prefix_append _ _
    have hlt : (v.flatMap lower.char).length < (pat.flatMap lower.char).length := by
      apply Nat.lt_of_not_le
      intro hle
      exact hv (List.prefix_of_prefix_length_le g1 hvp hle)
    have hp2 : v.flatMap lower.char ++ ['\n'] <+: pat.flatMap lower.char := by
      refine List.prefix_of_prefix_length_le ?_ g1 (by rw [List.length_append, List.length_singleton]; omega)
      rw [List.flatMap_append, List.flatMap_cons, hn.1]
      exact ⟨w.flatMap lower.char, by simp⟩
    have : '\n' ∈ pat.flatMap lower.char := hp2.subset (by simp)
    obtain ⟨c, c1, c2⟩ := List.mem_flatMap.1 this
    have := hn.2 c c2
    subst this
    apply hpat
    rw [enc, List.mem_flatMap]
    exact ⟨'\n', c1, by decide⟩

end Find

namespace FindState

theorem endOfLine_spec {text : Rope} (ht : text.Balanced) {offset : Nat} (h : offset ≤ text.text.length) :
    ∃ stop, endOfLine text offset = some (some stop) ∧ offset ≤ stop ∧ stop ≤ text.text.length ∧
      (stop = text.text.length ∨ offset < stop ∧ text.text[stop - 1]? = some newline) := by
  have hlen : text.len = text.text.length := by
    obtain ⟨n, hw⟩ := ht
    exact hw.len_eq
  obtain ⟨c, pre, l, post, h1, h2, rfl, rfl⟩ := new_spec ht h
  obtain ⟨c', r, g1, g2, -, g4⟩ := next_spec_pos finds_lines h2 (by simp [linesMetric])
  simp only [endOfLine, h1, g1, Option.bind_eq_bind, Option.bind_some]
  cases r with
  | some e =>
    obtain ⟨k1, k2, k3, -⟩ := g2
    exact ⟨e, rfl, by omega, k2, .inr ⟨k1, k3.2⟩⟩
  | none =>
    simp only [g4 rfl, if_true]
    exact ⟨_, rfl, by omega, by omega, .inl hlen⟩

theorem endOfLine_none {text : Rope} (ht : text.Balanced) {offset : Nat} (h : text.text.length < offset) : endOfLine text offset = some none := by
  have hlen : text.len = text.text.length := by
    obtain ⟨n, hw⟩ := ht
    exact hw.len_eq
  obtain ⟨c, pre, l, post, h1, h2, h3, h4, -⟩ := descend_spec (new_shape ht (p := offset))
  have h1 : Cursor.new text offset = some c := h1
  have h3 : c.root = text := h3
  have h4 : c.position = offset := h4
  simp only [endOfLine, h1, Option.bind_eq_bind, Option.bind_some, Cursor.next]
  rw [if_pos (.inl (by rw [h3, h4]; omega))]
  simp only [Option.bind_some, h4]
  rw [if_neg (by omega)]
  rfl

theorem redoTo_spec {text : Rope} (ht : text.Balanced) (pat : List Char) (offset : Nat) :
    (redoTo text pat offset = some none ∧ text.text.length < offset ∧ newline ∉ enc pat) ∨
    ∃ stop, redoTo text pat offset = some (some stop) ∧ stop ≤ text.text.length ∧ (offset ≤ text.text.length → offset ≤ stop) ∧
      (stop = text.text.length ∨ newline ∉ enc pat ∧ offset < stop ∧ text.text[stop - 1]? = some newline) := by
  have hlen : text.len = text.text.length := by
    obtain ⟨n, hw⟩ := ht
    exact hw.len_eq
  unfold redoTo
  cases hm : memchr newline (pat.flatMap String.utf8EncodeChar) with
  | some i =>
    right
    exact ⟨text.len, by simp, by omega, by omega, .inl hlen⟩
  | none =>
    have hn : newline ∉ enc pat := memchr_none hm
    simp only [Option.isSome_none, Bool.false_eq_true, if_false]
    by_cases h : offset ≤ text.text.length
    · obtain ⟨stop, g1, g2, g3, g4⟩ := endOfLine_spec ht h
      exact .inr ⟨stop, g1, g3, fun _ => g2, g4.imp id fun h => ⟨hn, h⟩⟩
    · exact .inl ⟨endOfLine_none ht (by omega), by omega, hn⟩

theorem deletions_pos {α : Type} (n : Nat) : ∀ (els : List (DeltaElement α)) (pos last : Nat), ∀ D ∈ Delta.deletionsGo n els pos last, 0 < D.len
  | [], pos, last => by
    intro D hD
    simp only [Delta.deletionsGo] at hD
    split at hD
    · rw [List.mem_singleton] at hD
      subst hD
      simp only
      omega
    · cases hD
  | .copy b e :: els, pos, last => by
    intro D hD
    simp only [Delta.deletionsGo] at hD
    split at hD
    · rcases List.mem_cons.1 hD with rfl | hD
      · simp only
        omega
      · exact deletions_pos n els _ _ D hD
    · exact deletions_pos n els _ _ D hD
  | .insert x :: els, pos, last => by
    intro D hD
    exact deletions_pos n els _ _ D hD

theorem inserts_pos {α : Type} {n : Nat} : ∀ {els : List (DeltaElement α)} {lo : Nat} (pos last : Nat), ElsWF n lo els → ∀ I ∈ Delta.insertsGo els pos last, 0 < I.len
  | [], lo, pos, last, _ => by simp [Delta.insertsGo]
  | .copy b e :: els, lo, pos, last, h => inserts_pos (els := els) _ _ h.2.2
  | .insert x :: els, lo, pos, last, h => by
    intro I hI
    rcases List.mem_cons.1 hI with rfl | hI
    · exact List.length_pos_iff.2 h.1
    · exact inserts_pos _ _ h.2 I hI

/-- What is left of the highlights after the first three steps. -/
theorem moved {base : List UInt8} {d : Delta UInt8} (hd : d.WF) {occ : Selection} (ho : Sound lower base cm pat occ) :
    ∃ occ1 occ2 occ3, deleteOld occ d = some occ1 ∧ occ1.applyDelta d false .default = some occ2 ∧ deleteNew occ2 d = some occ3 ∧ Selection.Inv occ3 ∧
      ∀ r ∈ occ3, r.lo = r.start ∧ r.hi = r.stop ∧ ∃ o ∈ occ, r.start = d.transformIx o.start false ∧ r.stop = d.transformIx o.stop false ∧
        (∀ D ∈ d.iterDeletions, ¬ (D.oldOffset < o.stop ∧ o.start < D.oldOffset + D.len)) ∧
        ∀ I ∈ d.iterInserts, ¬ (I.newOffset - 1 < r.stop ∧ r.start < I.newOffset + I.len) := by
  obtain ⟨m1, -⟩ := C14_transform_monotone d hd
  obtain ⟨occ1, a1, a2, a3⟩ := deleteAll (fun D : Delta.Region => D.oldOffset) (fun D => D.oldOffset + D.len) d.iterDeletions (occ := occ) (by
    intro D hD
    have := deletions_pos _ _ _ _ D hD
    show D.oldOffset < D.oldOffset + D.len
    omega) ho.1
  have hmv : ∀ r : SelRegion, (moveRegion d false .default r).start = d.transformIx r.start false ∧ (moveRegion d false .default r).stop = d.transformIx r.stop false := by
    intro r
    simp [moveRegion, driftFlags, SelRegion.new, SelRegion.withAffinity]
  have hfw : ∀ r ∈ occ1, (moveRegion d false .default r).start ≤ (moveRegion d false .default r).stop := by
    intro r hr
    rw [(hmv r).1, (hmv r).2]
    exact m1 _ _ _ (Nat.le_of_lt (ho.2 r ((a3 r).1 hr).1).1)
  have hlo : ∀ r ∈ occ1, (moveRegion d false .default r).lo = d.transformIx r.start false ∧ (moveRegion d false .default r).hi = d.transformIx r.stop false := by
    intro r hr
    have := hfw r hr
    have h1 := (hmv r).1
    have h2 := (hmv r).2
    rw [h1, h2] at this
    simp only [SelRegion.lo, SelRegion.hi, h1, h2]
    omega
  obtain ⟨occ2, b1, b2, b3⟩ := addAll (moveRegion d false .default) occ1 occ1 (s := []) (fun x hx => hx) hfw (by
    refine List.Pairwise.imp_of_mem ?_ a2
    intro x y hx hy hb
    rw [(hlo x hx).2, (hlo y hy).1]
    apply m1
    have := hb.1
    rw [(lo_of (ho.2 x ((a3 x).1 hx).1).1).2, (lo_of (ho.2 y ((a3 y).1 hy).1).1).1] at this
    exact this) List.Pairwise.nil (by simp) (by simp)
  obtain ⟨occ3, c1, c2, c3⟩ := deleteAll (fun I : Delta.Region => I.newOffset - 1) (fun I => I.newOffset + I.len) d.iterInserts (occ := occ2) (by
    intro I hI
    have := inserts_pos _ _ hd I hI
    show I.newOffset - 1 < I.newOffset + I.len
    omega) b2
  refine ⟨occ1, occ2, occ3, a1, b1, c1, c2, ?_⟩
  intro r hr
  obtain ⟨r1, r2⟩ := (c3 r).1 hr
  obtain ⟨f1, o, o1, o2, o3⟩ := b3 r r1
  have hl : r.lo = r.start ∧ r.hi = r.stop := by
    simp only [SelRegion.lo, SelRegion.hi]; omega
  obtain ⟨q1, q2⟩ := (a3 o).1 o1
  have hoo := lo_of (ho.2 o q1).1
  refine ⟨hl.1, hl.2, o, q1, ?_, ?_, ?_, ?_⟩
  · rw [← hl.1, o2, (hlo o o1).1]
  · rw [← hl.2, o3, (hlo o o1).2]
  · intro D hD
    have := q2 D hD
    rw [hoo.1, hoo.2] at this
    exact this
  · intro I hI
    have := r2 I hI
    rw [hl.1, hl.2] at this
    exact this

/-- The offsets of what is left. -/
theorem moved_le {d : Delta UInt8} (hd : d.WF) {base : List UInt8} (hl : base.length = d.baseLen) {e : Nat} (he : e ≤ d.baseLen) :
    d.transformIx e false ≤ (d.result base).length := by
  obtain ⟨m1, -⟩ := C14_transform_monotone d hd
  obtain ⟨f1, f2, f3, -⟩ := edit_offsets hd
  obtain ⟨s1, s2, mid, s3, s4⟩ := Delta.summary_spec d base hd hl
  have hlen : (d.result base).length = d.summary.1.1 + d.summary.2 + (base.length - d.summary.1.2) := by
    rw [s4]
    simp only [List.length_append, List.length_take, List.length_drop, s3]
    omega
  by_cases h : d.summary.1.2 < e
  · rw [f2 e h he]; omega
  · have := m1 false e _ (Nat.le_of_not_lt h)
    omega

/-- A highlight before the edit, or beyond what is searched again, is still right. -/
theorem kept_outside {d : Delta UInt8} (hd : d.WF) {base : List UInt8} (hl : base.length = d.baseLen) {p e : Nat} (h1 : p < e) (h2 : e ≤ d.baseLen)
    (hD : ∀ D ∈ d.iterDeletions, ¬ (D.oldOffset < e ∧ p < D.oldOffset + D.len))
    (ho : d.transformIx e false ≤ d.summary.1.1 ∨ d.summary.1.2 + d.summary.2 ≤ d.transformIx p false) :
    d.transformIx e false = d.transformIx p false + (e - p) ∧
    ((d.result base).drop (d.transformIx p false)).take (e - p) = (base.drop p).take (e - p) := by
  obtain ⟨m1, -⟩ := C14_transform_monotone d hd
  obtain ⟨f1, f2, f3, f4⟩ := edit_offsets hd
  obtain ⟨s1, s2, mid, s3, s4⟩ := Delta.summary_spec d base hd hl
  generalize d.summary.1.1 = a at *
  generalize d.summary.1.2 = b at *
  generalize d.summary.2 = m at *
  rcases ho with ho | ho
  · have hea : e ≤ a := by
      apply Nat.le_of_not_lt
      intro hlt
      have h3 := m1 false a e (Nat.le_of_lt hlt)
      rw [f1 a (Nat.le_refl _)] at h3
      obtain ⟨D, d1, d2, d3⟩ := f4 e hlt h2 (by omega)
      exact hD D d1 ⟨by omega, by omega⟩
    rw [f1 e hea, f1 p (by omega)]
    refine ⟨by omega, ?_⟩
    rw [s4, List.append_assoc, List.drop_append_of_le_length (by simp; omega), List.take_append_of_le_length (by simp; omega), List.drop_take,
      List.take_take]
    congr 1
    omega
  · have hpb : b ≤ p := by
      apply Nat.le_of_not_lt
      intro hlt
      by_cases hpa : p ≤ a
      · rw [f1 p hpa] at ho
        omega
      · have := m1 false p b (Nat.le_of_lt hlt)
        omega
    have hTp : d.transformIx p false = p - b + (a + m) := by
      by_cases h : p = b
      · subst h
        omega
      · exact f2 p (by omega) (by omega)
    rw [f2 e (by omega) h2, hTp]
    refine ⟨by omega, ?_⟩
    have hlen : (base.take a ++ mid).length = a + m := by
      rw [List.length_append, List.length_take, s3]; omega
    rw [s4, Nat.add_comm, ← List.drop_drop, List.drop_left' hlen, List.drop_drop, show b + (p - b) = p by omega]

/-- The new search begins no later than it ends. -/
theorem start_le {d : Delta UInt8} (hd : d.WF) (hn : lower.KeepsNewline) (hreg : Regular lower cm pat) {base : List UInt8} (hl : base.length = d.baseLen) {p e stop : Nat}
    (hm : Match lower base cm pat p e) (hp : d.transformIx p false ≤ d.summary.1.1)
    (hstop : stop = (d.result base).length ∨ newline ∉ enc pat ∧ d.summary.1.2 + d.summary.2 < stop ∧ (d.result base)[stop - 1]? = some newline) :
    d.transformIx e false ≤ stop := by
  obtain ⟨h1, h2⟩ := match_lt hreg hm
  have hle := moved_le hd hl (e := e) (by omega)
  rcases hstop with rfl | ⟨g1, g2, g3⟩
  · exact hle
  · obtain ⟨m1, -⟩ := C14_transform_monotone d hd
    obtain ⟨f1, f2, f3, f4⟩ := edit_offsets hd
    obtain ⟨s1, s2, mid, s3, s4⟩ := Delta.summary_spec d base hd hl
    generalize d.summary.1.1 = a at *
    generalize d.summary.1.2 = b at *
    generalize d.summary.2 = m at *
    apply Nat.le_of_not_lt
    intro hlt
    have hbe : b < e := by
      apply Nat.lt_of_not_le
      intro h
      have := m1 false e b h
      omega
    have hpb : p ≤ b := by
      apply Nat.le_of_not_lt
      intro h
      rw [f2 p h (by omega)] at hp
      omega
    rw [f2 e hbe (by omega)] at hlt
    have hlen : (base.take a ++ mid).length = a + m := by
      rw [List.length_append, List.length_take, s3]; omega
    rw [s4, List.getElem?_append_right (by omega), hlen, List.getElem?_drop] at g3
    exact match_no_newline hn hreg g1 hm (by omega) (by omega) g3

/-- `update_highlights` keeps the highlights sound, unless a replacement near the end of the
text hides a deletion. -/
theorem updateHighlights_sound (hl : lower.Ok) (hn : lower.KeepsNewline) {base : List UInt8} {text : Rope} (ht : text.Balanced) {d : Delta UInt8} (hd : d.WF)
    (hbl : base.length = d.baseLen) (htext : text.text = d.result base) (hsize : text.text.length < 2 ^ 64 - 1) {h : FindState} (hp : h.searchString = some pat)
    (hreg : Regular lower h.caseMatching pat) (hw : h.wholeWords = false) (ho : Sound lower base h.caseMatching pat h.occurrences)
    (hcase : Separate d.baseLen 0 false d.els ∨ d.summary.1.2 + d.summary.2 ≤ text.text.length) :
    ∃ h', updateHighlights lower false h text d = some h' ∧ SameQuery h h' ∧ Sound lower text.text h.caseMatching pat h'.occurrences := by
  have hu := Rope.text_utf8 ht
  obtain ⟨occ1, occ2, occ3, a1, a2, a3, a4, a5⟩ := moved hd ho
  obtain ⟨s1, s2, mid, s3, s4⟩ := Delta.summary_spec d base hd hbl
  obtain ⟨f1, f2, f3, f4⟩ := edit_offsets hd
  obtain ⟨m1, -⟩ := C14_transform_monotone d hd
  -- a highlight whose bytes are unchanged is sound
  have hok : ∀ r o : SelRegion, o ∈ h.occurrences → r.start = d.transformIx o.start false → r.stop = d.transformIx o.stop false →
      d.transformIx o.stop false = d.transformIx o.start false + (o.stop - o.start) →
      ((d.result base).drop (d.transformIx o.start false)).take (o.stop - o.start) = (base.drop o.start).take (o.stop - o.start) →
      r.start < r.stop ∧ Match lower text.text h.caseMatching pat r.start r.stop := by
    intro r o k1 k2 k3 k4 k5
    obtain ⟨q1, q2⟩ := ho.2 o k1
    have hle := moved_le hd hbl (e := o.stop) (by have := (match_lt hreg q2).2; omega)
    have := match_move hreg (s' := text.text) (p' := d.transformIx o.start false) hu q2 (by rw [htext]; exact k5) (by rw [htext]; omega)
    rw [k2, k3, k4]
    exact ⟨by omega, this⟩
  have hsep : Separate d.baseLen 0 false d.els → Sound lower text.text h.caseMatching pat occ3 := by
    intro hs
    refine ⟨a4, ?_⟩
    intro r hr
    obtain ⟨-, -, o, o1, o2, o3, o4, o5⟩ := a5 r hr
    obtain ⟨q1, q2⟩ := ho.2 o o1
    have hle := (match_lt hreg q2).2
    obtain ⟨k1, k2, -⟩ := stretch hd hbl q1 (by omega) (by
      intro j j1 j2
      cases hcj : coveredAt d.els j with
      | true => rfl
      | false =>
        obtain ⟨D, d1, d2, d3⟩ := ((C17_regions_partial d hd).2 hs j).2 ⟨by omega, hcj⟩
        exact absurd ⟨by omega, by omega⟩ (o4 D d1)) (by
      intro I hI
      rw [← o2, ← o3]
      exact o5 I hI)
    exact hok r o o1 o2 o3 k1 k2
  simp only [updateHighlights, hp, a1, a2, a3, Option.bind_eq_bind, Option.bind_some]
  obtain ⟨A, l, B, e1, e2, -, e4, -⟩ := C32_range_partial a4 (Nat.zero_le d.summary.1.1)
  simp only [e2, Option.bind_some]
  rcases redoTo_spec ht pat (d.summary.1.2 + d.summary.2) with ⟨g1, g2, -⟩ | ⟨stop, g1, g2, g3, g4⟩
  · simp only [g1, Option.bind_some]
    refine ⟨_, rfl, ⟨hp, rfl, rfl⟩, ?_⟩
    exact hsep (hcase.resolve_right (by omega))
  · simp only [g1, Option.bind_some]
    have hlen : text.text.length = d.summary.1.1 + d.summary.2 + (base.length - d.summary.1.2) := by
      rw [htext, s4]
      simp only [List.length_append, List.length_take, List.length_drop, s3]
      omega
    have has : d.summary.1.1 ≤ stop := by
      rcases g4 with h | h <;> omega
    have hdel := C32_delete_partial a4 has (by
      by_cases hlt : d.summary.1.1 < stop
      · exact .inl hlt
      · right
        intro r hr ⟨c1, c2⟩
        obtain ⟨b1, b2, o, o1, o2, o3, o4, -⟩ := a5 r hr
        obtain ⟨q1, q2⟩ := ho.2 o o1
        have hle := (match_lt hreg q2).2
        rw [b1, o2] at c1
        rw [b2, o3] at c2
        by_cases he : o.stop ≤ d.summary.1.1
        · rw [f1 _ he] at c2
          rw [f1 _ (by omega)] at c1
          omega
        · obtain ⟨D, d1, d2, d3⟩ := f4 o.stop (by omega) (by omega) c2
          exact o4 D d1 ⟨by omega, by omega⟩)
    simp only [hdel, Option.bind_some]
    have hs4 : Sound lower text.text h.caseMatching pat (occ3.filter (fun r => !(decide (d.summary.1.1 < r.hi) && decide (r.lo < stop)))) := by
      refine ⟨inv_sublist List.filter_sublist a4, ?_⟩
      intro r hr
      rw [List.mem_filter] at hr
      obtain ⟨r1, r2⟩ := hr
      rcases hcase with hc | hc
      · exact (hsep hc).2 r r1
      · obtain ⟨b1, b2, o, o1, o2, o3, o4, -⟩ := a5 r r1
        obtain ⟨q1, q2⟩ := ho.2 o o1
        have hle := (match_lt hreg q2).2
        simp only [Bool.not_eq_true', Bool.and_eq_false_iff, decide_eq_false_iff_not] at r2
        have := g3 hc
        obtain ⟨k1, k2⟩ := kept_outside hd hbl q1 (by omega) o4 (by
          rw [b1, b2, o2, o3] at r2
          rcases r2 with r2 | r2
          · exact .inl (by omega)
          · exact .inr (by omega))
        exact hok r o o1 o2 o3 k1 k2
    have hst : (l.getLast?.map SelRegion.stop).getD 0 ≤ stop := by
      cases hl' : l.getLast? with
      | none => simp
      | some r =>
        have hrl : r ∈ l := List.mem_of_getLast? hl'
        obtain ⟨b1, b2, o, o1, o2, o3, -⟩ := a5 r (by rw [e1]; simp [hrl])
        simp only [Option.map_some, Option.getD_some]
        rw [o3]
        refine start_le hd hn hreg hbl (ho.2 o o1).2 ?_ ?_
        · rw [← o2, ← b1]
          exact (e4 r hrl).2
        · rw [← htext]
          exact g4
    obtain ⟨occ', z1, z2⟩ := updateFind_sound hl ht hsize (h := ⟨h.hlsDirty, some pat, h.caseMatching, h.wholeWords, _⟩) rfl hreg hw hs4 hst (Nat.le_trans hst g2) false
    exact ⟨_, z1, ⟨hp, rfl, rfl⟩, z2⟩

end FindState

end Xi
