import Verif.Spec.Layers
import Verif.Props.Spans

/-!
# Lemmas on layers of styles
-/

namespace Xi

variable {T O : Type}

theorem cells_ext {a b : List (Option T)} {n : Nat} (ha : a.length = n) (hb : b.length = n) (h : ∀ p, p < n → cellIx a p = cellIx b p) : a = b := by
  apply List.ext_getElem (by omega)
  intro p h1 h2
  have := h p (by omega)
  rw [cellIx, cellIx, List.getElem?_eq_getElem h1, List.getElem?_eq_getElem h2] at this
  simpa using this

theorem cellIx_append_left {a b : List (Option T)} {p : Nat} (h : p < a.length) : cellIx (a ++ b) p = cellIx a p := by
  rw [cellIx, List.getElem?_append_left h]; rfl

theorem cellIx_append_right {a b : List (Option T)} {p : Nat} (h : a.length ≤ p) : cellIx (a ++ b) p = cellIx b (p - a.length) := by
  rw [cellIx, List.getElem?_append_right h]; rfl

theorem cellIx_slice (t : List (Option T)) {s e p : Nat} (h : s + p < e) : cellIx ((t.take e).drop s) p = cellIx t (s + p) := by
  simp only [cellIx, List.getElem?_drop, List.getElem?_take]
  rw [if_pos h]

theorem cellIx_take (t : List (Option T)) {e p : Nat} (h : p < e) : cellIx (t.take e) p = cellIx t p := by
  simp only [cellIx, List.getElem?_take]
  rw [if_pos h]

theorem cellIx_drop (t : List (Option T)) (s p : Nat) : cellIx (t.drop s) p = cellIx t (s + p) := by
  simp only [cellIx, List.getElem?_drop]

theorem cellIx_replicate (n p : Nat) : cellIx (List.replicate n (none : Option T)) p = none := by
  simp only [cellIx, List.getElem?_replicate]
  split <;> rfl

/-- The cell of a text where a range has been replaced. -/
theorem cellIx_edit {t x : List (Option T)} {s e : Nat} (hse : s ≤ e) (he : e ≤ t.length) (hx : x.length = e - s) (p : Nat) :
    cellIx (t.take s ++ x ++ t.drop e) p = if s ≤ p ∧ p < e then cellIx x (p - s) else cellIx t p := by
  have h1 : (t.take s).length = s := by simp; omega
  have h2 : (t.take s ++ x).length = e := by simp; omega
  by_cases hp : p < s
  · rw [if_neg (by omega), cellIx_append_left (by omega), cellIx_append_left (by omega), cellIx_take _ hp]
  · by_cases hp2 : p < e
    · rw [if_pos (by omega), cellIx_append_left (by omega), cellIx_append_right (by omega), h1]
    · rw [if_neg (by omega), cellIx_append_right (by omega), h2, cellIx_drop, show e + (p - e) = p by omega]

theorem edit_length {t x : List (Option T)} {s e : Nat} (hse : s ≤ e) (he : e ≤ t.length) (hx : x.length = e - s) :
    (t.take s ++ x ++ t.drop e).length = t.length := by simp; omega

theorem mergeCell_none (x : Option Style) : mergeCell resolveCell x none = x := by cases x <;> rfl

theorem none_mergeCell (x : Option Style) : mergeCell resolveCell none x = x := by cases x <;> rfl

theorem combine_insert_none (a b : List (Option Style)) : combine (a ++ none :: b) = combine (a ++ b) := by
  simp only [combine, List.foldl_append, List.foldl_cons, mergeCell_none]

theorem combine_nones (n : Nat) : combine (List.replicate n none) = none := by
  induction n with
  | zero => rfl
  | succ n ih => rw [List.replicate_succ]; exact ih

theorem combineRows_length (n : Nat) (rows : List (List (Option Style))) : (combineRows n rows).length = n := by simp [combineRows]

theorem combineRows_cell {n p : Nat} (rows : List (List (Option Style))) (h : p < n) :
    cellIx (combineRows n rows) p = combine (rows.map (fun r => cellIx r p)) := by
  simp [combineRows, cellIx, h]

theorem SpansTree.blank_spec (n : Nat) : ∃ t : SpansTree T, (SpansBuilder.new n).build = some t ∧ t.text = List.replicate n none ∧ t.Balanced := by
  obtain ⟨t, e, h, w⟩ := SpansBuilder.build_spec (SpansBuilder.has_new (T := T) n)
  exact ⟨t, e, by rw [h, paint_nil], w⟩

/-! ## Resolving -/

variable {Sc M : Type} [DecidableEq Sc]

namespace Layers

theorem resolveLoop_spec {n s e : Nat} (hse : s ≤ e) (he : e ≤ n) (rest : List (Nat × ScopeLayer Sc M)) :
    ∀ {resolved : SpansTree Style}, (∀ x ∈ rest, x.2.styleSpans.Balanced ∧ x.2.styleSpans.text.length = n) →
      resolved.Balanced → resolved.text.length = e - s →
      ∃ r, resolveLoop ⟨s, e⟩ rest resolved = some r ∧ r.Balanced ∧ r.text.length = e - s ∧
        ∀ p, p < e - s → cellIx r.text p =
          (rest.map (fun x => cellIx x.2.styleSpans.text (s + p))).foldl (mergeCell resolveCell) (cellIx resolved.text p) := by
  induction rest with
  | nil => intro resolved _ h1 h2; exact ⟨resolved, rfl, h1, h2, fun p _ => rfl⟩
  | cons x rest ih =>
    intro resolved hx h1 h2
    obtain ⟨b1, b2⟩ := hx x (by simp)
    obtain ⟨m, e1, t1, w1⟩ := Node.subseq_spec (iv := ⟨s, e⟩) b1 (fun _ => ⟨spans_cut (by simp only; omega), spans_cut (by simp only; omega)⟩)
    have hml : m.text.length = e - s := by rw [t1]; simp; omega
    obtain ⟨r1, e2, w2, t2⟩ := SpansTree.merge_spec resolveCell h1 w1 (by omega)
    have hrl : r1.text.length = e - s := by rw [t2, List.length_zipWith]; omega
    obtain ⟨r, e3, w3, l3, c3⟩ := ih (fun y hy => hx y (by simp [hy])) w2 hrl
    refine ⟨r, ?_, w3, l3, ?_⟩
    · simp only [resolveLoop, e1, Option.bind_eq_bind, Option.bind_some]
      rw [if_neg (by rw [SpansTree.len_eq h1, SpansTree.len_eq w1]; simp; omega), e2]
      exact e3
    · intro p hp
      rw [c3 p hp, List.map_cons, List.foldl_cons]
      congr 1
      rw [t2, ← cellIx_slice x.2.styleSpans.text (by omega : s + p < e)]
      have e4 : (x.2.styleSpans.text.take e).drop s = m.text := t1.symm
      rw [e4]
      simp only [cellIx, List.getElem?_zipWith]
      rw [List.getElem?_eq_getElem (by omega), List.getElem?_eq_getElem (by omega)]
      rfl

/-- `resolve_styles` brings the merged styles up to date in the range given. -/
theorem resolveStyles_spec {ls : Layers Sc M} {n s e : Nat} (hse : s ≤ e) (he : e ≤ n)
    (hl : ∀ x ∈ ls.layers, x.2.styleSpans.Balanced ∧ x.2.styleSpans.text.length = n)
    (hm : ls.merged.Balanced) (hn : ls.merged.text.length = n)
    (hempty : ls.layers = [] → ∀ p, cellIx ls.merged.text p = none) :
    ∃ m, ls.resolveStyles ⟨s, e⟩ = some { ls with merged := m } ∧ m.Balanced ∧ m.text.length = n ∧
      ∀ p, p < n → cellIx m.text p =
        if s ≤ p ∧ p < e then combine (ls.layers.map (fun x => cellIx x.2.styleSpans.text p)) else cellIx ls.merged.text p := by
  obtain ⟨layers, deleted, merged⟩ := ls
  simp only at hl hm hn hempty ⊢
  cases layers with
  | nil =>
    refine ⟨merged, rfl, hm, hn, fun p hp => ?_⟩
    rw [hempty rfl p]
    split <;> rfl
  | cons x rest =>
    obtain ⟨b1, b2⟩ := hl x (by simp)
    obtain ⟨r0, e1, t1, w1⟩ := Node.subseq_spec (iv := ⟨s, e⟩) b1 (fun _ => ⟨spans_cut (by simp only; omega), spans_cut (by simp only; omega)⟩)
    obtain ⟨r, e2, w2, l2, c2⟩ := resolveLoop_spec hse he rest (fun y hy => hl y (by simp [hy])) w1 (by rw [t1]; simp; omega)
    obtain ⟨m, e3, t3, w3⟩ := Node.edit_spec (iv := ⟨s, e⟩) hm w2 (spans_cut (by simp only; omega)) (spans_cut (by simp only; omega))
    have t3 : m.text = merged.text.take s ++ r.text ++ merged.text.drop e := t3
    refine ⟨m, by simp [resolveStyles, e1, e2, e3], w3, by rw [t3, edit_length hse (by omega) l2]; exact hn, fun p hp => ?_⟩
    rw [t3, cellIx_edit hse (by omega) l2]
    split
    · rename_i hc
      rw [c2 (p - s) (by omega), t1, cellIx_slice _ (by simp only; omega), show s + (p - s) = p by omega]
      simp only [combine, List.map_cons, List.foldl_cons, none_mergeCell]
    · rfl

end Layers

/-! ## One layer -/

/-- What holds of a layer of a text of length `n`: the styles are those of the
scopes. -/
structure ScopeLayer.Good (n : Nat) (l : ScopeLayer Sc M) : Prop where
  scopeB : l.scopeSpans.Balanced
  styleB : l.styleSpans.Balanced
  scopeLen : l.scopeSpans.text.length = n
  styles : l.styleSpans.text = l.scopeSpans.text.map (fun c => c.bind (fun i => l.styleLookup[i]?))
  ids : ∀ p i, cellIx l.scopeSpans.text p = some i → i < l.styleLookup.length
  lookupLen : l.styleLookup.length = l.stackLookup.length
  stacks : ∀ s ∈ l.stackLookup, s ≠ []

namespace ScopeLayer

theorem Good.styleLen {n : Nat} {l : ScopeLayer Sc M} (h : l.Good n) : l.styleSpans.text.length = n := by
  rw [h.styles, List.length_map]; exact h.scopeLen

theorem Good.styleCell {n : Nat} {l : ScopeLayer Sc M} (h : l.Good n) (p : Nat) :
    cellIx l.styleSpans.text p = (cellIx l.scopeSpans.text p).bind (fun i => l.styleLookup[i]?) := by
  rw [h.styles]
  simp only [cellIx, List.getElem?_map]
  cases l.scopeSpans.text[p]? <;> rfl

theorem new_spec (n : Nat) : ∃ l : ScopeLayer Sc M, ScopeLayer.new n = some l ∧ l.Good n ∧
    l.scopeSpans.text = List.replicate n none ∧ l.styleLookup = [] := by
  obtain ⟨a, e1, t1, w1⟩ := SpansTree.blank_spec (T := Nat) n
  obtain ⟨b, e2, t2, w2⟩ := SpansTree.blank_spec (T := Style) n
  refine ⟨⟨[], [], [], a, b⟩, by simp [ScopeLayer.new, e1, e2], ⟨w1, w2, by simp [t1], ?_, ?_, rfl, by simp⟩, t1, rfl⟩
  · simp [t1, t2]
  · intro p i hi
    simp only [t1, cellIx_replicate] at hi
    cases hi

theorem styleLoop_spec (lookup : List Style) (rest : List (Span Nat)) :
    ∀ {p : Span Nat} {sb : SpansBuilder Style} {n lo : Nat} {out : List (Span Style)},
      sb.Has n out → SpansIn 0 lo out → SpansIn lo n (p :: rest) → (∀ s ∈ p :: rest, s.data < lookup.length) →
      ∃ sb' new, styleLoop lookup p rest sb = some sb' ∧ sb'.Has n (out ++ new) ∧
        ∀ q, cellAt new q = (cellAt (p :: rest) q).bind (fun i => lookup[i]?) := by
  induction rest with
  | nil =>
    intro p sb n lo out h ho hs hd
    obtain ⟨h1, h2, h3, -⟩ := hs
    have hp := hd p (by simp)
    obtain ⟨sb', e, a1, -⟩ := SpansBuilder.addSpan_next (data := lookup[p.data]) h ho h1 h2 h3
    refine ⟨sb', _, by simp [styleLoop, List.getElem?_eq_getElem hp, e], a1, fun q => ?_⟩
    rw [cellAt_one, cellAt_one]
    split <;> simp [List.getElem?_eq_getElem hp]
  | cons x rest ih =>
    intro p sb n lo out h ho hs hd
    have hs' := hs
    obtain ⟨h1, h2, h3, h4, h5, h6, h7⟩ := hs
    have hp := hd p (by simp)
    have hx := hd x (by simp)
    have hgp : lookup[p.data]? = some lookup[p.data] := List.getElem?_eq_getElem hp
    have hgx : lookup[x.data]? = some lookup[x.data] := List.getElem?_eq_getElem hx
    have add : ∃ sb' new, (do styleLoop lookup x rest (← sb.addSpan p.iv lookup[p.data])) = some sb' ∧ sb'.Has n (out ++ new) ∧
        ∀ q, cellAt new q = (cellAt (p :: x :: rest) q).bind (fun i => lookup[i]?) := by
      obtain ⟨sb1, e1, a1, a2⟩ := SpansBuilder.addSpan_next (data := lookup[p.data]) h ho h1 h2 h3
      obtain ⟨sb2, new, e2, a3, a4⟩ := ih a1 a2 hs'.2.2.2 (fun s hs => hd s (List.mem_cons_of_mem _ hs))
      refine ⟨sb2, _ :: new, by simp [e1, e2], by simpa using a3, fun q => ?_⟩
      rw [cellAt_cons, a4, cellAt_cons p]
      simp only
      split <;> simp [hgp]
    simp only [styleLoop, hgp, hgx, Option.bind_eq_bind, Option.bind_some]
    by_cases hc : x.iv.start = p.iv.stop
    · rw [if_pos hc]
      by_cases heq : lookup[p.data] = lookup[x.data]
      · rw [if_pos heq]
        have hu : p.iv.union x.iv = ⟨p.iv.start, x.iv.stop⟩ := by
          simp only [Interval.union, Interval.isEmpty, decide_eq_true_eq]
          rw [if_neg (by omega), if_neg (by omega)]
          congr 1 <;> omega
        rw [hu]
        obtain ⟨sb2, new, e2, a3, a4⟩ := ih (p := ⟨⟨p.iv.start, x.iv.stop⟩, p.data⟩) h ho ⟨h1, by simp only; omega, h6, h7⟩
          (fun s hs => by
            rcases List.mem_cons.1 hs with rfl | hs
            · exact hp
            · exact hd s (by simp [hs]))
        refine ⟨sb2, new, e2, a3, fun q => ?_⟩
        rw [a4, cellAt_cons, cellAt_cons p, cellAt_cons x]
        simp only
        by_cases hq1 : p.iv.start ≤ q ∧ q < p.iv.stop
        · rw [if_pos hq1, if_pos (by omega)]
        · rw [if_neg hq1]
          by_cases hq2 : x.iv.start ≤ q ∧ q < x.iv.stop
          · rw [if_pos hq2, if_pos (by omega)]
            simp [hgp, hgx, heq]
          · rw [if_neg hq2, if_neg (by omega)]
      · rw [if_neg heq]; exact add
    · rw [if_neg hc]; exact add

theorem mem_cellAt {lo hi : Nat} {spans : List (Span Nat)} (h : SpansIn lo hi spans) {s : Span Nat} (hs : s ∈ spans) :
    s.iv.start < hi ∧ cellAt spans s.iv.start = some s.data ∧ lo ≤ s.iv.start := by
  induction spans generalizing lo with
  | nil => cases hs
  | cons x rest ih =>
    obtain ⟨h1, h2, h3, h4⟩ := h
    rw [cellAt_cons]
    rcases List.mem_cons.1 hs with rfl | hs
    · exact ⟨by omega, by rw [if_pos (by omega)], h1⟩
    · obtain ⟨a, b, c⟩ := ih h4 hs
      exact ⟨a, by rw [if_neg (by omega)]; exact b, by omega⟩

theorem styled_length (lookup : List Style) (row : List (Option Nat)) : (styled lookup row).length = row.length := by simp [styled]

theorem updateStyles_spec {l : ScopeLayer Sc M} {spans : SpansTree Nat} {n s e : Nat} (hse : s ≤ e) (he : e ≤ n)
    (hb : l.styleSpans.Balanced) (hn : l.styleSpans.text.length = n) (hs : spans.Balanced) (hx : spans.text.length = e - s)
    (hi : ∀ p i, cellIx spans.text p = some i → i < l.styleLookup.length) :
    ∃ m, l.updateStyles ⟨s, e⟩ spans = some { l with styleSpans := m } ∧ m.Balanced ∧
      m.text = l.styleSpans.text.take s ++ styled l.styleLookup spans.text ++ l.styleSpans.text.drop e := by
  obtain ⟨list, i1, i2, i3⟩ := SpansTree.iter_spec hs
  have hlen := SpansTree.len_eq hs
  have hcell : ∀ p, p < e - s → cellIx spans.text p = cellAt list p := by
    intro p hp
    have := paint_get spans.text.length list p
    rw [i3, if_pos (by omega)] at this
    rw [cellIx, this]; rfl
  have key : ∃ sb new, styleAll l.styleLookup spans.len list = some sb ∧ sb.Has (e - s) new ∧
      ∀ q, cellAt new q = (cellAt list q).bind (fun i => l.styleLookup[i]?) := by
    cases list with
    | nil => exact ⟨_, [], rfl, by rw [hlen, hx]; exact SpansBuilder.has_new _, fun q => by rw [cellAt_nil, cellAt_nil]; rfl⟩
    | cons p rest =>
      obtain ⟨sb, new, e1, a1, a2⟩ := styleLoop_spec l.styleLookup rest (SpansBuilder.has_new spans.len) (lo := 0) trivial
        (by rw [hlen]; exact i2) (fun x hx' => by
          obtain ⟨c1, c2, -⟩ := mem_cellAt i2 hx'
          exact hi _ _ ((hcell _ (by omega)).trans c2))
      exact ⟨sb, new, e1, by rw [hlen, hx] at a1; simpa using a1, a2⟩
  obtain ⟨sb, new, e1, a1, a2⟩ := key
  obtain ⟨st, e2, t2, w2⟩ := SpansBuilder.build_spec a1
  have t2' : st.text = styled l.styleLookup spans.text := by
    apply cells_ext (n := e - s) (by rw [t2, paint_length]) (by rw [styled_length, hx])
    intro p hp
    rw [t2, cellIx, paint_get, if_pos hp, a2]
    simp only [styled, cellIx, List.getElem?_map, Option.join_some]
    rw [← hcell p hp, cellIx]
    cases spans.text[p]? <;> rfl
  obtain ⟨m, e3, t3, w3⟩ := Node.edit_spec (iv := ⟨s, e⟩) hb w2 (spans_cut (by simp only; omega)) (spans_cut (by simp only; omega))
  refine ⟨m, ?_, w3, by rw [t3, t2']⟩
  simp [updateStyles, i1, e1, e2, e3]

theorem styled_edit (lookup : List Style) (t x : List (Option Nat)) (s e : Nat) :
    styled lookup (t.take s ++ x ++ t.drop e) = (styled lookup t).take s ++ styled lookup x ++ (styled lookup t).drop e := by
  simp [styled]

theorem updateScopes_spec {l : ScopeLayer Sc M} {spans : SpansTree Nat} {n s e : Nat} (h : l.Good n) (hse : s ≤ e) (he : e ≤ n)
    (hs : spans.Balanced) (hx : spans.text.length = e - s)
    (hi : ∀ p i, cellIx spans.text p = some i → i < l.styleLookup.length) :
    ∃ l', l.updateScopes ⟨s, e⟩ spans = some l' ∧ l'.Good n ∧ l'.styleLookup = l.styleLookup ∧
      l'.scopeSpans.text = l.scopeSpans.text.take s ++ spans.text ++ l.scopeSpans.text.drop e := by
  have hl := h.scopeLen
  obtain ⟨sc, e1, t1, w1⟩ := Node.edit_spec (iv := ⟨s, e⟩) h.scopeB hs (spans_cut (by simp only; omega)) (spans_cut (by simp only; omega))
  have t1 : sc.text = l.scopeSpans.text.take s ++ spans.text ++ l.scopeSpans.text.drop e := t1
  obtain ⟨m, e2, w2, t2⟩ := updateStyles_spec (l := { l with scopeSpans := sc }) hse he h.styleB h.styleLen hs hx hi
  refine ⟨{ l with scopeSpans := sc, styleSpans := m }, by simp [updateScopes, e1, e2], ⟨w1, w2, ?_, ?_, ?_, h.lookupLen, h.stacks⟩, rfl, t1⟩
  · show sc.text.length = n
    rw [t1, edit_length hse (by omega) hx, hl]
  · show m.text = styled l.styleLookup sc.text
    rw [t2, t1, styled_edit]
    congr 3 <;> exact h.styles
  · intro p i hp
    have hp : cellIx sc.text p = some i := hp
    rw [t1, cellIx_edit hse (by omega) hx] at hp
    split at hp
    · exact hi _ _ hp
    · exact h.ids _ _ hp

theorem styled_shape {α : Type} (lookup : List Style) (t : List (Option Nat)) (els : List (DeltaElement α)) :
    styled lookup (shapeCells t els) = shapeCells (styled lookup t) els := by
  induction els with
  | nil => rfl
  | cons el els ih =>
    cases el with
    | copy b e => unfold styled at ih; simp [shapeCells, styled, ih]
    | insert s => unfold styled at ih; simp [shapeCells, styled, ih]

theorem shapeCells_mem {α : Type} (t : List (Option T)) (els : List (DeltaElement α)) {x : T} (h : some x ∈ shapeCells t els) : some x ∈ t := by
  induction els with
  | nil => cases h
  | cons el els ih =>
    cases el with
    | copy b e =>
      rcases List.mem_append.1 h with h | h
      · exact List.mem_of_mem_take (List.mem_of_mem_drop h)
      · exact ih h
    | insert s =>
      rcases List.mem_append.1 h with h | h
      · have := List.eq_of_mem_replicate h
        cases this
      · exact ih h

theorem cellIx_mem {t : List (Option T)} {x : T} : (∃ p, cellIx t p = some x) ↔ some x ∈ t := by
  rw [List.mem_iff_getElem?]
  simp only [cellIx]
  constructor
  · rintro ⟨p, h⟩
    refine ⟨p, ?_⟩
    cases hc : t[p]? with
    | none => rw [hc] at h; cases h
    | some y => rw [hc] at h; simp at h; rw [h]
  · rintro ⟨p, h⟩; exact ⟨p, by rw [h]; rfl⟩

theorem shapeCells_length {α : Type} {n lo : Nat} {els : List (DeltaElement α)} (t : List (Option T)) (ht : t.length = n) (h : ElsWF n lo els) :
    (shapeCells t els).length = Delta.totalElementLen els := by
  induction els generalizing lo with
  | nil => rfl
  | cons el els ih =>
    cases el with
    | copy b e =>
      obtain ⟨h1, h2, h3⟩ := h
      have := h3.lo_le
      rw [totalElementLen_eq]
      simp [shapeCells, ih h3, totalElementLen_eq, elsMask]; omega
    | insert s => rw [totalElementLen_eq]; simp [shapeCells, ih h.2, totalElementLen_eq, elsMask]

theorem blankScopes_spec {α : Type} {l : ScopeLayer Sc M} {n : Nat} {d : Delta α} (h : l.Good n) (hd : d.WF) (hl : d.baseLen = n) :
    ∃ l', l.blankScopes d = some l' ∧ l'.Good d.newDocumentLen ∧ l'.styleLookup = l.styleLookup ∧
      l'.scopeSpans.text = shapeCells l.scopeSpans.text d.els ∧ l'.styleSpans.text = shapeCells l.styleSpans.text d.els := by
  obtain ⟨a, e1, w1, t1⟩ := SpansTree.applyShape_spec h.scopeB hd (by rw [h.scopeLen, hl])
  obtain ⟨b, e2, w2, t2⟩ := SpansTree.applyShape_spec h.styleB hd (by rw [h.styleLen, hl])
  refine ⟨{ l with scopeSpans := a, styleSpans := b }, by simp [blankScopes, e1, e2], ⟨w1, w2, ?_, ?_, ?_, h.lookupLen, h.stacks⟩, rfl, t1, t2⟩
  · show a.text.length = _
    rw [t1]; exact shapeCells_length _ (h.scopeLen.trans hl.symm) hd
  · show b.text = styled l.styleLookup a.text
    rw [t1, t2, styled_shape, h.styles]; rfl
  · intro p i hp
    have hp : cellIx a.text p = some i := hp
    rw [t1] at hp
    obtain ⟨q, hq⟩ := cellIx_mem.2 (shapeCells_mem _ _ (cellIx_mem.1 ⟨p, hp⟩))
    exact h.ids q i hq

theorem stylesForStacks_some (sy : Syntect Sc M) (th : Theme Sc M) (stacks : List (List Sc)) :
    ∀ (cache : List (List Sc × M)), (∀ s ∈ stacks, s ≠ []) →
      ∃ styles cache', stylesForStacks sy th cache stacks = some (styles, cache') ∧ styles.length = stacks.length := by
  induction stacks with
  | nil => intro cache _; exact ⟨[], cache, rfl, rfl⟩
  | cons s rest ih =>
    intro cache h
    have hs : s.length ≠ 0 := fun h0 => h s (by simp) (List.length_eq_zero_iff.1 h0)
    have hm : ∃ m, modFor sy th cache s = some m := by
      simp only [modFor, if_neg hs]
      split <;> exact ⟨_, rfl⟩
    obtain ⟨m, hm⟩ := hm
    obtain ⟨styles, cache', e1, e2⟩ := ih ((s, m) :: cache) (fun x hx => h x (by simp [hx]))
    exact ⟨sy.toStyle m :: styles, cache', by simp [stylesForStacks, hm, e1], by simp [e2]⟩

theorem addScopes_spec {sy : Syntect Sc M} {th : Theme Sc M} {l : ScopeLayer Sc M} {n : Nat} {stacks : List (List Sc)} (h : l.Good n)
    (hs : ∀ s ∈ stacks, s ≠ []) :
    ∃ l', l.addScopes sy th stacks = some l' ∧ l'.Good n ∧ l'.scopeSpans = l.scopeSpans ∧ l'.styleSpans = l.styleSpans ∧
      l'.styleLookup.length = l.styleLookup.length + stacks.length := by
  obtain ⟨styles, cache, e1, e2⟩ := stylesForStacks_some sy th stacks l.styleCache hs
  refine ⟨{ l with stackLookup := l.stackLookup ++ stacks, styleLookup := l.styleLookup ++ styles, styleCache := cache },
    by simp [addScopes, e1], ⟨h.scopeB, h.styleB, h.scopeLen, ?_, ?_, ?_, ?_⟩, rfl, rfl, by simp [e2]⟩
  · show l.styleSpans.text = styled (l.styleLookup ++ styles) l.scopeSpans.text
    rw [h.styles]
    apply List.map_congr_left
    intro c hc
    cases c with
    | none => rfl
    | some i =>
      obtain ⟨p, hp⟩ := cellIx_mem.2 hc
      simp only [Option.bind_some]
      rw [List.getElem?_append_left (h.ids p i hp)]
  · intro p i hp
    have := h.ids p i hp
    simp only [List.length_append]; omega
  · simp [h.lookupLen, e2]
  · intro s hx
    rcases List.mem_append.1 hx with hx | hx
    · exact h.stacks s hx
    · exact hs s hx

theorem themeChanged_spec {sy : Syntect Sc M} {th : Theme Sc M} {l : ScopeLayer Sc M} {n : Nat} (h : l.Good n) :
    ∃ l', l.themeChanged sy th = some l' ∧ l'.Good n ∧ l'.scopeSpans = l.scopeSpans ∧
      l'.styleLookup.length = l.styleLookup.length := by
  obtain ⟨styles, cache, e1, e2⟩ := stylesForStacks_some sy th l.stackLookup l.styleCache h.stacks
  obtain ⟨b, e3, t3, w3⟩ := SpansTree.blank_spec (T := Style) n
  have hl : styles.length = l.styleLookup.length := by rw [e2, h.lookupLen]
  have hlen : l.styleSpans.len = n := by rw [SpansTree.len_eq h.styleB, h.styleLen]
  obtain ⟨m, e4, w4, t4⟩ := updateStyles_spec (l := { l with styleLookup := styles, styleCache := cache, styleSpans := b })
    (Nat.zero_le n) (Nat.le_refl n) w3 (by simp [t3]) h.scopeB (by rw [h.scopeLen]; rfl) (fun p i hp => by rw [hl]; exact h.ids p i hp)
  refine ⟨{ l with styleLookup := styles, styleCache := cache, styleSpans := m }, ?_, ⟨h.scopeB, w4, h.scopeLen, ?_, ?_, e2, h.stacks⟩, rfl, hl⟩
  · simp only [themeChanged, e1, Option.bind_eq_bind, Option.bind_some]
    rw [hlen, e3]
    exact e4
  · show m.text = styled styles l.scopeSpans.text
    rw [t4]
    simp only [t3, List.take_zero, List.nil_append]
    rw [List.drop_of_length_le (by simp), List.append_nil]
  · intro p i hp
    show i < styles.length
    rw [hl]; exact h.ids p i hp

end ScopeLayer

/-! ## All layers -/

/-- What is kept true of the layers. -/
structure Layers.Inv (ls : Layers Sc M) (s : LayersState) : Prop where
  keys : (ls.layers.map Prod.fst).Pairwise (· < ·)
  stopped : ls.deleted = s.stopped
  rows : ∀ pid, (ls.layers.lookup pid).map (fun l => (l.scopeSpans.text, l.styleLookup.length)) = s.rows pid
  good : ∀ x ∈ ls.layers, x.2.Good s.len
  mergedB : ls.merged.Balanced
  mergedLen : ls.merged.text.length = s.len
  merged : ∀ p, p < s.len → cellIx ls.merged.text p = combine (ls.layers.map (fun x => cellIx x.2.styleSpans.text p))

theorem lookup_split {A : Type} {a b : List (Nat × A)} {pid : Nat} {l : A} (h : ∀ x ∈ a, x.1 ≠ pid) (q : Nat) :
    (a ++ (pid, l) :: b).lookup q = if q = pid then some l else (a ++ b).lookup q := by
  induction a with
  | nil =>
    simp only [List.nil_append, List.lookup_cons]
    split
    · rename_i hc; rw [if_pos (by simpa using hc)]
    · rename_i hc; rw [if_neg (by simpa using hc)]
  | cons x a ih =>
    have hx := h x (by simp)
    obtain ⟨k, v⟩ := x
    have hx : k ≠ pid := hx
    have := ih (fun y hy => h y (by simp [hy]))
    simp only [List.cons_append, List.lookup_cons, this]
    by_cases hc : q = k
    · subst hc
      simp [hx]
    · have hc : (q == k) = false := by simpa using hc
      simp only [hc]

theorem insertLayer_split {layers : List (Nat × ScopeLayer Sc M)} {pid : Nat} (l : ScopeLayer Sc M)
    (hk : (layers.map Prod.fst).Pairwise (· < ·)) (hn : pid ∉ layers.map Prod.fst) :
    ∃ a b, layers = a ++ b ∧ insertLayer pid l layers = a ++ (pid, l) :: b ∧
      ((a ++ (pid, l) :: b).map Prod.fst).Pairwise (· < ·) ∧ ∀ x ∈ a, x.1 < pid := by
  induction layers with
  | nil => exact ⟨[], [], rfl, rfl, by simp, by simp⟩
  | cons x rest ih =>
    rw [List.map_cons, List.pairwise_cons] at hk
    simp only [insertLayer]
    split
    · rename_i hc
      refine ⟨[], x :: rest, rfl, rfl, ?_, by simp⟩
      simp only [List.nil_append, List.map_cons, List.pairwise_cons]
      refine ⟨?_, hk⟩
      intro k hk'
      rcases List.mem_cons.1 hk' with rfl | hk'
      · exact hc
      · exact Nat.lt_trans hc (hk.1 k hk')
    · rename_i hc
      simp only [List.map_cons, List.mem_cons, not_or] at hn
      obtain ⟨a, b, e1, e2, e3, e4⟩ := ih hk.2 hn.2
      refine ⟨x :: a, b, by rw [e1]; rfl, by rw [e2]; rfl, ?_, ?_⟩
      · rw [List.cons_append, List.map_cons, List.pairwise_cons]
        refine ⟨?_, e3⟩
        intro k hk'
        simp only [List.map_append, List.map_cons, List.mem_append, List.mem_cons] at hk'
        have h1 := hk.1 k
        rw [e1] at h1
        simp only [List.map_append, List.mem_append] at h1
        rcases hk' with hk' | rfl | hk'
        · exact h1 (Or.inl hk')
        · omega
        · exact h1 (Or.inr hk')
      · intro y hy
        rcases List.mem_cons.1 hy with rfl | hy
        · omega
        · exact e4 y hy

theorem changeLayer_split {a b : List (Nat × ScopeLayer Sc M)} {pid : Nat} {l l' : ScopeLayer Sc M}
    {f : ScopeLayer Sc M → Option (ScopeLayer Sc M)} (h : ∀ x ∈ a, x.1 ≠ pid) (hf : f l = some l') :
    changeLayer pid f (a ++ (pid, l) :: b) = some (a ++ (pid, l') :: b) := by
  induction a with
  | nil => simp [changeLayer, hf]
  | cons x a ih =>
    have hx := h x (by simp)
    simp [changeLayer, hx, ih (fun y hy => h y (by simp [hy]))]

theorem keys_find {layers : List (Nat × ScopeLayer Sc M)} {pid : Nat} (h : pid ∈ layers.map Prod.fst) :
    ∃ a l b, layers = a ++ (pid, l) :: b ∧ ∀ x ∈ a, x.1 ≠ pid := by
  induction layers with
  | nil => cases h
  | cons x rest ih =>
    by_cases hx : x.1 = pid
    · exact ⟨[], x.2, rest, by rw [← hx]; rfl, by simp⟩
    · rw [List.map_cons, List.mem_cons] at h
      obtain ⟨a, l, b, e1, e2⟩ := ih (h.resolve_left (fun e => hx e.symm))
      refine ⟨x :: a, l, b, by rw [e1]; rfl, ?_⟩
      intro y hy
      rcases List.mem_cons.1 hy with rfl | hy
      · exact hx
      · exact e2 y hy

namespace Layers

variable {ls : Layers Sc M} {s : LayersState}

theorem Inv.styleOk (h : ls.Inv s) : ∀ x ∈ ls.layers, x.2.styleSpans.Balanced ∧ x.2.styleSpans.text.length = s.len :=
  fun x hx => ⟨(h.good x hx).styleB, (h.good x hx).styleLen⟩

theorem lookup_none {A : Type} {l : List (Nat × A)} {pid : Nat} (h : pid ∉ l.map Prod.fst) : l.lookup pid = none := by
  induction l with
  | nil => rfl
  | cons x l ih =>
    simp only [List.map_cons, List.mem_cons, not_or] at h
    obtain ⟨k, v⟩ := x
    rw [List.lookup_cons, ih h.2]
    have : (pid == k) = false := by simpa using h.1
    rw [this]

/-- After `create_if_missing` the layer is there. -/
theorem create_spec (h : ls.Inv s) {pid : Nat} (hd : pid ∉ s.stopped) :
    ∃ ls' a l b, ls.createIfMissing pid = some (some ls') ∧ ls'.Inv (s.set pid (s.row pid)) ∧
      ls'.layers = a ++ (pid, l) :: b ∧ (∀ x ∈ a, x.1 ≠ pid) ∧ (l.scopeSpans.text, l.styleLookup.length) = s.row pid ∧
      l.Good s.len ∧ ls'.merged = ls.merged := by
  unfold createIfMissing
  rw [if_neg (by rw [h.stopped]; exact hd)]
  by_cases hk : pid ∈ ls.layers.map Prod.fst
  · rw [if_pos hk]
    obtain ⟨a, l, b, e1, e2⟩ := keys_find hk
    have hl : ls.layers.lookup pid = some l := by rw [e1, lookup_split e2, if_pos rfl]
    have hr := h.rows pid
    rw [hl] at hr
    have hrow : s.row pid = (l.scopeSpans.text, l.styleLookup.length) := by rw [LayersState.row, ← hr]; rfl
    refine ⟨ls, a, l, b, rfl, ⟨h.keys, h.stopped, ?_, h.good, h.mergedB, h.mergedLen, h.merged⟩, e1, e2, hrow.symm, ?_, rfl⟩
    · intro q
      rw [h.rows q]
      simp only [LayersState.set]
      split
      · rename_i hq
        subst hq
        rw [← hr, hrow]; rfl
      · rfl
    · exact h.good (pid, l) (by rw [e1]; simp)
  · rw [if_neg hk]
    have hlen : ls.merged.len = s.len := by rw [SpansTree.len_eq h.mergedB, h.mergedLen]
    obtain ⟨l, e1, g, t, lk⟩ := ScopeLayer.new_spec (Sc := Sc) (M := M) s.len
    obtain ⟨a, b, e2, e3, e4, e5⟩ := insertLayer_split l h.keys hk
    have hno : ls.layers.lookup pid = none := lookup_none hk
    have hr : s.rows pid = none := by rw [← h.rows pid, hno]; rfl
    have hrow : s.row pid = (l.scopeSpans.text, l.styleLookup.length) := by rw [LayersState.row, hr, t, lk]; rfl
    refine ⟨{ ls with layers := insertLayer pid l ls.layers }, a, l, b, by simp [hlen, e1], ⟨?_, h.stopped, ?_, ?_, h.mergedB, h.mergedLen, ?_⟩,
      e3, fun x hx => Nat.ne_of_lt (e5 x hx), hrow.symm, g, rfl⟩
    · simp only [e3]; exact e4
    · intro q
      simp only [e3, lookup_split (fun x hx => Nat.ne_of_lt (e5 x hx)), ← e2, LayersState.set]
      split
      · rw [hrow]; rfl
      · exact h.rows q
    · intro x hx
      simp only [e3, List.mem_append, List.mem_cons] at hx
      rcases hx with hx | rfl | hx
      · exact h.good x (by rw [e2]; simp [hx])
      · exact g
      · exact h.good x (by rw [e2]; simp [hx])
    · intro p hp
      rw [h.merged p hp]
      simp only [e3]
      rw [e2]
      simp only [List.map_append, List.map_cons]
      rw [g.styleCell, t, cellIx_replicate]
      exact (combine_insert_none _ _).symm

/-- One layer changed in the range from `lo` to `hi` at most, and the merged styles
resolved there. -/
theorem change_spec (h : ls.Inv s) {pid lo hi : Nat} {a b : List (Nat × ScopeLayer Sc M)} {l l' : ScopeLayer Sc M}
    (hl : ls.layers = a ++ (pid, l) :: b) (ha : ∀ x ∈ a, x.1 ≠ pid) (hg : l'.Good s.len) (h1 : lo ≤ hi) (h2 : hi ≤ s.len)
    (hsame : ∀ p, ¬ (lo ≤ p ∧ p < hi) → cellIx l'.styleSpans.text p = cellIx l.styleSpans.text p) :
    ∃ ls', ({ ls with layers := a ++ (pid, l') :: b } : Layers Sc M).resolveStyles ⟨lo, hi⟩ = some ls' ∧
      ls'.Inv (s.set pid (l'.scopeSpans.text, l'.styleLookup.length)) ∧
      ∀ p, p < s.len → ¬ (lo ≤ p ∧ p < hi) → cellIx ls'.merged.text p = cellIx ls.merged.text p := by
  have hgood : ∀ x ∈ a ++ (pid, l') :: b, x.2.Good s.len := by
    intro x hx
    have hgs := h.good x
    rw [hl] at hgs
    simp only [List.mem_append, List.mem_cons] at hx hgs
    rcases hx with hx | rfl | hx
    · exact hgs (Or.inl hx)
    · exact hg
    · exact hgs (Or.inr (Or.inr hx))
  obtain ⟨m, e1, w1, l1, c1⟩ := resolveStyles_spec (ls := { ls with layers := a ++ (pid, l') :: b }) h1 h2
    (fun x hx => ⟨(hgood x hx).styleB, (hgood x hx).styleLen⟩) h.mergedB h.mergedLen (fun h0 => by simp at h0)
  refine ⟨_, e1, ⟨?_, h.stopped, ?_, hgood, w1, l1, ?_⟩, fun p hp hc => by rw [c1 p hp, if_neg hc]⟩
  · have := h.keys
    rw [hl] at this
    simpa using this
  · intro q
    simp only [lookup_split ha, LayersState.set]
    split
    · rfl
    · rename_i hq
      rw [← h.rows q, hl, lookup_split ha, if_neg hq]
  · intro p hp
    rw [c1 p hp]
    split
    · rfl
    · rename_i hc
      simp only
      rw [h.merged p hp, hl]
      simp only [List.map_append, List.map_cons]
      rw [hsame p hc]

theorem resolve_empty {ls : Layers Sc M} {n : Nat} (hm : ls.merged.Balanced) (hn : ls.merged.text.length = n)
    (hl : ∀ x ∈ ls.layers, x.2.Good n) (he : ls.layers = [] → ∀ p, cellIx ls.merged.text p = none) :
    ∃ m, ls.resolveStyles ⟨0, n⟩ = some { ls with merged := m } ∧ m.Balanced ∧ m.text.length = n ∧
      ∀ p, p < n → cellIx m.text p = combine (ls.layers.map (fun x => cellIx x.2.styleSpans.text p)) := by
  obtain ⟨m, e1, w1, l1, c1⟩ := resolveStyles_spec (Nat.zero_le n) (Nat.le_refl n) (fun x hx => ⟨(hl x hx).styleB, (hl x hx).styleLen⟩) hm hn he
  exact ⟨m, e1, w1, l1, fun p hp => by rw [c1 p hp, if_pos ⟨Nat.zero_le p, hp⟩]⟩

theorem changeAll_spec {f : ScopeLayer Sc M → Option (ScopeLayer Sc M)} {g : ScopeLayer Sc M → ScopeLayer Sc M}
    (layers : List (Nat × ScopeLayer Sc M)) (h : ∀ x ∈ layers, f x.2 = some (g x.2)) :
    changeAll f layers = some (layers.map (fun x => (x.1, g x.2))) := by
  induction layers with
  | nil => rfl
  | cons x rest ih => simp [changeAll, h x (by simp), ih (fun y hy => h y (by simp [hy]))]

theorem lookup_map {A B : Type} (g : A → B) (l : List (Nat × A)) (q : Nat) :
    (l.map (fun x => (x.1, g x.2))).lookup q = (l.lookup q).map g := by
  induction l with
  | nil => rfl
  | cons x l ih =>
    obtain ⟨k, v⟩ := x
    simp only [List.map_cons, List.lookup_cons, ih]
    by_cases hc : q = k
    · subst hc; simp
    · have hc : (q == k) = false := by simpa using hc
      simp only [hc]

theorem lookup_mem {A : Type} {l : List (Nat × A)} {q : Nat} {v : A} (h : l.lookup q = some v) : (q, v) ∈ l := by
  induction l with
  | nil => cases h
  | cons x l ih =>
    obtain ⟨k, w⟩ := x
    rw [List.lookup_cons] at h
    by_cases hc : q = k
    · subst hc
      simp at h
      simp [h]
    · have hc : (q == k) = false := by simpa using hc
      rw [hc] at h
      exact List.mem_cons_of_mem _ (ih h)

theorem lookup_filter {A : Type} (l : List (Nat × A)) (pid q : Nat) :
    (l.filter (fun x => x.1 ≠ pid)).lookup q = if q = pid then none else l.lookup q := by
  induction l with
  | nil => simp
  | cons x l ih =>
    obtain ⟨k, w⟩ := x
    rw [List.filter_cons]
    by_cases hk : k = pid
    · subst hk
      rw [if_neg (by simp), ih, List.lookup_cons]
      split
      · rfl
      · rename_i hq
        have hc : (q == k) = false := by simpa using hq
        rw [hc]
    · rw [if_pos (by simpa using hk), List.lookup_cons, List.lookup_cons, ih]
      by_cases hc : q = k
      · subst hc; simp [hk]
      · have hc : (q == k) = false := by simpa using hc
        simp only [hc]

theorem addScopes_inv (sy : Syntect Sc M) (th : Theme Sc M) (h : ls.Inv s) (pid : Nat) {stacks : List (List Sc)} (hs : ∀ st ∈ stacks, st ≠ []) :
    ∃ ls', ls.addScopes sy th pid stacks = some ls' ∧ ls'.Inv (LayersOp.next s (LayersOp.addScopes th pid stacks)) := by
  by_cases hd : pid ∈ s.stopped
  · refine ⟨ls, ?_, by simpa [LayersOp.next, hd] using h⟩
    simp [addScopes, createIfMissing, h.stopped, hd]
  · obtain ⟨ls', a, l, b, e1, h', e2, e3, e4, g, em⟩ := create_spec h hd
    obtain ⟨l', e5, g', e6, e7, e8⟩ := ScopeLayer.addScopes_spec (sy := sy) (th := th) g hs
    have hc := changeLayer_split (f := fun l => l.addScopes sy th stacks) (b := b) e3 e5
    refine ⟨{ ls' with layers := a ++ (pid, l') :: b }, ?_, ⟨?_, ?_, ?_, ?_, h'.mergedB, ?_, ?_⟩⟩
    · simp [addScopes, e1, e2, hc]
    · have := h'.keys
      rw [e2] at this
      simpa using this
    · simp only [LayersOp.next, if_neg hd]; exact h'.stopped
    · intro q
      have := h'.rows q
      rw [e2, lookup_split e3] at this
      simp only [LayersOp.next, if_neg hd, lookup_split e3, LayersState.set] at this ⊢
      split
      · rw [← e4]; simp [e6, e8]
      · rename_i hq
        simpa [hq] using this
    · intro x hx
      have := h'.good x
      rw [e2] at this
      simp only [LayersOp.next, if_neg hd]
      simp only [List.mem_append, List.mem_cons] at hx this
      rcases hx with hx | rfl | hx
      · exact this (Or.inl hx)
      · exact g'
      · exact this (Or.inr (Or.inr hx))
    · simp only [LayersOp.next, if_neg hd]; exact h'.mergedLen
    · intro p hp
      simp only [LayersOp.next, if_neg hd] at hp
      have := h'.merged p hp
      rw [e2] at this
      simp only [List.map_append, List.map_cons, e7] at this ⊢
      exact this

theorem updateLayer_inv (h : ls.Inv s) (pid : Nat) {iv : Interval} {spans : SpansTree Nat} {e : SpansExpr Nat} (h1 : iv.start ≤ iv.stop)
    (h2 : iv.stop ≤ s.len) (hb : spans.Balanced) (hl : spans.text.length = iv.stop - iv.start)
    (hi : ∀ i, some i ∈ spans.text → i < (s.row pid).2) :
    ∃ ls', ls.updateLayer pid iv spans = some ls' ∧ ls'.Inv (LayersOp.next s (LayersOp.update pid iv e spans.text : LayersOp Sc M)) ∧
      ∀ p, p < s.len → ¬ (iv.start ≤ p ∧ p < iv.stop) → cellIx ls'.merged.text p = cellIx ls.merged.text p := by
  by_cases hd : pid ∈ s.stopped
  · refine ⟨ls, ?_, by simpa [LayersOp.next, hd] using h, fun _ _ _ => rfl⟩
    simp [updateLayer, createIfMissing, h.stopped, hd]
  · obtain ⟨ls', a, l, b, e1, h', e2, e3, e4, g, em⟩ := create_spec h hd
    obtain ⟨lo, hi'⟩ := iv
    simp only at h1 h2 hl
    have hlk : l.styleLookup.length = (s.row pid).2 := by rw [← e4]
    obtain ⟨l', e5, g', e6, e7⟩ := ScopeLayer.updateScopes_spec g h1 h2 hb hl
      (fun p i hp => by rw [hlk]; exact hi i (ScopeLayer.cellIx_mem.1 ⟨p, hp⟩))
    have hc := changeLayer_split (f := fun l => l.updateScopes ⟨lo, hi'⟩ spans) (b := b) e3 e5
    obtain ⟨ls2, e8, inv, out⟩ := change_spec h' (l' := l') e2 e3 g' h1 h2 (fun p hp => by
      rw [g'.styleCell, g.styleCell, e6, e7, cellIx_edit h1 (by rw [g.scopeLen]; exact h2) hl, if_neg hp])
    refine ⟨ls2, ?_, ?_, fun p hp hc => by rw [out p hp hc, em]⟩
    · simp [updateLayer, e1, e2, hc, e8]
    · have : (s.set pid (s.row pid)).set pid (l'.scopeSpans.text, l'.styleLookup.length) =
          LayersOp.next s (LayersOp.update pid ⟨lo, hi'⟩ e spans.text : LayersOp Sc M) := by
        simp only [LayersOp.next, if_neg hd, LayersState.set]
        congr 1
        funext q
        split
        · rw [← e4, e7, e6]
        · rfl
      rw [← this]; exact inv

theorem themeChanged_inv (sy : Syntect Sc M) (th : Theme Sc M) (h : ls.Inv s) :
    ∃ ls', ls.themeChanged sy th = some ls' ∧ ls'.Inv s := by
  let g : ScopeLayer Sc M → ScopeLayer Sc M := fun l => (l.themeChanged sy th).getD l
  have hg : ∀ x ∈ ls.layers, x.2.themeChanged sy th = some (g x.2) ∧ (g x.2).Good s.len ∧ (g x.2).scopeSpans = x.2.scopeSpans ∧
      (g x.2).styleLookup.length = x.2.styleLookup.length := by
    intro x hx
    obtain ⟨l', e1, e2, e3, e4⟩ := ScopeLayer.themeChanged_spec (sy := sy) (th := th) (h.good x hx)
    have : g x.2 = l' := by simp [g, e1]
    rw [this]
    exact ⟨e1, e2, e3, e4⟩
  have e1 := changeAll_spec (f := ScopeLayer.themeChanged sy th) (g := g) ls.layers (fun x hx => (hg x hx).1)
  obtain ⟨m0, e2, t2, w2⟩ := SpansTree.blank_spec (T := Style) s.len
  have hlen : ls.merged.len = s.len := by rw [SpansTree.len_eq h.mergedB, h.mergedLen]
  have hgood : ∀ x ∈ ls.layers.map (fun x => (x.1, g x.2)), x.2.Good s.len := by
    intro x hx
    obtain ⟨y, hy, rfl⟩ := List.mem_map.1 hx
    exact (hg y hy).2.1
  obtain ⟨m, e3, w3, l3, c3⟩ := resolve_empty (ls := { ls with layers := ls.layers.map (fun x => (x.1, g x.2)), merged := m0 }) (n := s.len)
    w2 (by simp [t2]) hgood (fun _ p => by simp only [t2, cellIx_replicate])
  refine ⟨{ ls with layers := ls.layers.map (fun x => (x.1, g x.2)), merged := m }, ?_, ⟨?_, h.stopped, ?_, hgood, w3, l3, c3⟩⟩
  · have hm0 : m0.len = s.len := by rw [SpansTree.len_eq w2, t2]; simp
    simp only [themeChanged, e1, Option.bind_eq_bind, Option.bind_some]
    rw [hlen, e2]
    simp only [Option.bind_some]
    rw [hm0]; exact e3
  · show ((ls.layers.map (fun x => (x.1, g x.2))).map Prod.fst).Pairwise (· < ·)
    rw [List.map_map]; exact h.keys
  · intro q
    simp only [lookup_map, Option.map_map]
    rw [← h.rows q]
    cases hq : ls.layers.lookup q with
    | none => rfl
    | some l =>
      obtain ⟨-, -, a1, a2⟩ := hg (q, l) (lookup_mem hq)
      simp only at a1 a2
      simp [a1, a2]

theorem removeLayer_inv (h : ls.Inv s) (pid : Nat) :
    ∃ ls', ls.removeLayer pid = some ls' ∧ ls'.Inv (LayersOp.next s (LayersOp.remove pid : LayersOp Sc M)) := by
  have hkeys : ((ls.layers.filter (fun x => x.1 ≠ pid)).map Prod.fst).Pairwise (· < ·) :=
    List.Pairwise.sublist (List.Sublist.map _ List.filter_sublist) h.keys
  have hrows : ∀ q, ((ls.layers.filter (fun x => x.1 ≠ pid)).lookup q).map (fun l => (l.scopeSpans.text, l.styleLookup.length)) =
      (LayersOp.next s (LayersOp.remove pid : LayersOp Sc M)).rows q := by
    intro q
    rw [lookup_filter]
    simp only [LayersOp.next]
    split
    · rfl
    · exact h.rows q
  have hgood : ∀ x ∈ ls.layers.filter (fun x => x.1 ≠ pid), x.2.Good s.len := fun x hx => h.good x (List.mem_filter.1 hx).1
  unfold removeLayer
  by_cases hk : pid ∈ ls.layers.map Prod.fst
  · simp only [if_pos hk]
    have hlen : ls.merged.len = s.len := by rw [SpansTree.len_eq h.mergedB, h.mergedLen]
    obtain ⟨m0, e2, t2, w2⟩ := SpansTree.blank_spec (T := Style) s.len
    obtain ⟨m, e3, w3, l3, c3⟩ := resolve_empty
      (ls := { layers := ls.layers.filter (fun x => x.1 ≠ pid), deleted := pid :: ls.deleted, merged := m0 }) (n := s.len)
      w2 (by simp [t2]) hgood (fun _ p => by simp only [t2, cellIx_replicate])
    refine ⟨{ layers := ls.layers.filter (fun x => x.1 ≠ pid), deleted := pid :: ls.deleted, merged := m }, ?_,
      ⟨hkeys, ?_, hrows, hgood, w3, l3, c3⟩⟩
    · rw [hlen, e2]; exact e3
    · simp only [LayersOp.next, h.stopped]
  · simp only [if_neg hk]
    have hf : ls.layers.filter (fun x => x.1 ≠ pid) = ls.layers := by
      rw [List.filter_eq_self]
      intro x hx
      have : x.1 ≠ pid := fun he => hk (List.mem_map.2 ⟨x, hx, he⟩)
      simpa using this
    refine ⟨_, rfl, ⟨hkeys, ?_, hrows, hgood, h.mergedB, h.mergedLen, ?_⟩⟩
    · simp only [LayersOp.next, h.stopped]
    · simp only [hf]; exact h.merged

/-- Where a cell comes from. -/
theorem shapeCells_source {α : Type} {n : Nat} (els : List (DeltaElement α)) :
    ∀ {lo : Nat}, ElsWF n lo els → ∀ p, (∀ t : List (Option Style), t.length = n → cellIx (shapeCells t els) p = none) ∨
      ∃ j, j < n ∧ ∀ t : List (Option Style), t.length = n → cellIx (shapeCells t els) p = cellIx t j := by
  induction els with
  | nil => intro lo _ p; exact Or.inl (fun t _ => by simp [shapeCells, cellIx])
  | cons el els ih =>
    intro lo h p
    cases el with
    | copy b e =>
      obtain ⟨h1, h2, h3⟩ := h
      have he := h3.lo_le
      have hlen : ∀ t : List (Option Style), t.length = n → ((t.take e).drop b).length = e - b := by intro t ht; simp; omega
      by_cases hp : p < e - b
      · refine Or.inr ⟨b + p, by omega, fun t ht => ?_⟩
        rw [shapeCells, cellIx_append_left (by rw [hlen t ht]; exact hp), cellIx_slice _ (by omega)]
      · have := ih h3 (p - (e - b))
        refine this.imp (fun hn t ht => ?_) (fun ⟨j, hj, hn⟩ => ⟨j, hj, fun t ht => ?_⟩)
        all_goals
          rw [shapeCells, cellIx_append_right (by rw [hlen t ht]; omega), hlen t ht]
          exact hn t ht
    | insert s =>
      by_cases hp : p < s.length
      · refine Or.inl (fun t ht => ?_)
        rw [shapeCells, cellIx_append_left (by simpa using hp), cellIx_replicate]
      · have := ih h.2 (p - s.length)
        refine this.imp (fun hn t ht => ?_) (fun ⟨j, hj, hn⟩ => ⟨j, hj, fun t ht => ?_⟩)
        all_goals
          rw [shapeCells, cellIx_append_right (by simp; omega), List.length_replicate]
          exact hn t ht

theorem combine_all_none {A : Type} (l : List A) (f : A → Option Style) (h : ∀ x ∈ l, f x = none) : combine (l.map f) = none := by
  have : l.map f = List.replicate l.length none := by
    rw [List.eq_replicate_iff]
    refine ⟨by simp, fun y hy => ?_⟩
    obtain ⟨x, hx, rfl⟩ := List.mem_map.1 hy
    exact h x hx
  rw [this, combine_nones]

theorem updateAll_inv {α : Type} (h : ls.Inv s) {d : Delta α} (base : List α) (hb : base.length = d.baseLen) (hd : d.WF) (hl : d.baseLen = s.len) (hr : d.summary.1.2 ≤ d.newDocumentLen) :
    ∃ ls', ls.updateAll d = some ls' ∧ ls'.Inv (s.edited d) := by
  let g : ScopeLayer Sc M → ScopeLayer Sc M := fun l => (l.blankScopes d).getD l
  have hg : ∀ x ∈ ls.layers, x.2.blankScopes d = some (g x.2) ∧ (g x.2).Good d.newDocumentLen ∧ (g x.2).styleLookup = x.2.styleLookup ∧
      (g x.2).scopeSpans.text = shapeCells x.2.scopeSpans.text d.els ∧ (g x.2).styleSpans.text = shapeCells x.2.styleSpans.text d.els := by
    intro x hx
    obtain ⟨l', e1, e2, e3, e4, e5⟩ := ScopeLayer.blankScopes_spec (h.good x hx) hd hl
    have : g x.2 = l' := by simp [g, e1]
    rw [this]
    exact ⟨e1, e2, e3, e4, e5⟩
  have e1 := changeAll_spec (f := ScopeLayer.blankScopes d) (g := g) ls.layers (fun x hx => (hg x hx).1)
  obtain ⟨m0, e2, w2, t2⟩ := SpansTree.applyShape_spec h.mergedB hd (by rw [h.mergedLen, hl])
  have hml : m0.text.length = d.newDocumentLen := by
    rw [t2]; exact ScopeLayer.shapeCells_length _ (h.mergedLen.trans hl.symm) hd
  have hgood : ∀ x ∈ ls.layers.map (fun x => (x.1, g x.2)), x.2.Good d.newDocumentLen := by
    intro x hx
    obtain ⟨y, hy, rfl⟩ := List.mem_map.1 hx
    exact (hg y hy).2.1
  have hcell : ∀ p, p < d.newDocumentLen → cellIx m0.text p =
      combine ((ls.layers.map (fun x => (x.1, g x.2))).map (fun x => cellIx x.2.styleSpans.text p)) := by
    intro p hp
    have hd' := hd
    unfold Delta.WF at hd'
    rw [hl] at hd'
    have hs := shapeCells_source d.els hd' p
    rw [t2, List.map_map]
    rcases hs with hs | ⟨j, hj, hs⟩
    · rw [hs _ h.mergedLen, combine_all_none]
      intro x hx
      simp only [Function.comp]
      rw [(hg x hx).2.2.2.2, hs _ (h.good x hx).styleLen]
    · rw [hs _ h.mergedLen, h.merged j hj]
      congr 1
      apply List.map_congr_left
      intro x hx
      simp only [Function.comp]
      rw [(hg x hx).2.2.2.2, hs _ (h.good x hx).styleLen]
  obtain ⟨s1, s2, -⟩ := d.summary_spec base hd hb
  obtain ⟨m, e3, w3, l3, c3⟩ := resolveStyles_spec (ls := { ls with layers := ls.layers.map (fun x => (x.1, g x.2)), merged := m0 }) s1 hr
    (fun x hx => ⟨(hgood x hx).styleB, (hgood x hx).styleLen⟩) w2 hml (fun h0 p => by
      by_cases hp : p < d.newDocumentLen
      · have := hcell p hp
        simp only at h0
        rw [h0] at this
        exact this
      · simp only [cellIx]
        rw [List.getElem?_eq_none (by omega)]; rfl)
  refine ⟨{ ls with layers := ls.layers.map (fun x => (x.1, g x.2)), merged := m }, ?_, ⟨?_, h.stopped, ?_, hgood, w3, l3, ?_⟩⟩
  · simp only [updateAll, e1, e2, Option.bind_eq_bind, Option.bind_some, Interval.new, if_pos s1]
    exact e3
  · show ((ls.layers.map (fun x => (x.1, g x.2))).map Prod.fst).Pairwise (· < ·)
    rw [List.map_map]; exact h.keys
  · intro q
    simp only [lookup_map, Option.map_map, LayersState.edited]
    rw [← h.rows q]
    cases hq : ls.layers.lookup q with
    | none => rfl
    | some l =>
      obtain ⟨-, -, a1, a2, -⟩ := hg (q, l) (lookup_mem hq)
      simp only at a1 a2
      simp [a1, a2]
  · intro p hp
    rw [c3 p hp]
    split
    · rfl
    · exact hcell p hp

end Layers

end Xi
