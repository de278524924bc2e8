import Verif.Core.EditorSpans
import Verif.Props.Engine
import Verif.Props.Layers
import Verif.Props.Spans
import Verif.Props.EditView

/-!
# C82: what a plugin sends about an older revision is put where it belongs
-/

namespace Xi

/-! ## The spans of a plugin -/

theorem SpansTree.ofList_spec {T : Type} {len : Nat} {spans : List (Span T)} (h : SpansIn 0 len spans) :
    ∃ n, ofList len spans = some n ∧ n.Balanced ∧ n.text = paint len spans := by
  obtain ⟨sb, e1, a⟩ := addAll_spec spans (SpansBuilder.has_new len) trivial h
  obtain ⟨n, e2, t, w⟩ := SpansBuilder.build_spec a
  refine ⟨n, ?_, w, by simpa using t⟩
  have key : ∀ (l : List (Span T)) (lo : Nat) (sb : SpansBuilder T), SpansIn lo len l →
      l.foldlM (fun sb s => do sb.addSpan (← Interval.new s.iv.start s.iv.stop) s.data) sb = l.foldlM (fun sb s => sb.addSpan s.iv s.data) sb := by
    intro l
    induction l with
    | nil => intro _ _ _; rfl
    | cons s l ih =>
      intro lo sb hs
      obtain ⟨h1, h2, h3, h4⟩ := hs
      rw [List.foldlM_cons, List.foldlM_cons]
      have : Interval.new s.iv.start s.iv.stop = some s.iv := by
        unfold Interval.new
        rw [if_pos (by omega)]
      simp only [this, Option.bind_eq_bind, Option.bind_some]
      cases sb.addSpan s.iv s.data with
      | none => rfl
      | some sb' => simp only [Option.bind_some]; exact ih _ _ h4
  unfold ofList
  rw [key spans 0 _ h, e1]
  exact e2

/-! ## Where spans belong -/

/-- The edit that changes nothing. -/
def Delta.nothing {α : Type} (n : Nat) : Delta α := ⟨if n = 0 then [] else [.copy 0 n], n⟩

/-- Spans for the range of `len` at `start` of the text `base`, put where they belong in the text `text` that the edit `d` has made of it. -/
structure Placed {α T : Type} (d : Delta α) (base text : List α) (start len : Nat) (spans : List (Span T)) (iv : Interval) (tree : SpansTree T) : Prop where
  order : iv.start ≤ iv.stop
  inside : iv.stop ≤ text.length
  balanced : tree.Balanced
  size : tree.text.length = iv.stop - iv.start
  /-- nothing is made up -/
  values : ∀ x, some x ∈ tree.text → ∃ s ∈ spans, s.data = x
  /-- each character of the range that is still there has the value that was sent for it -/
  kept : ∀ pre post b e ix, d.els = pre ++ .copy b e :: post → b ≤ ix → ix < e → start ≤ ix → ix < start + len →
    iv.start ≤ (elsText base pre).length + (ix - b) ∧ (elsText base pre).length + (ix - b) < iv.stop ∧
    text[(elsText base pre).length + (ix - b)]? = base[ix]? ∧
    tree.text[(elsText base pre).length + (ix - b) - iv.start]? = some (cellAt spans (ix - start))
  /-- the other characters that are still there are not in the new range -/
  others : ∀ pre post b e ix, d.els = pre ++ .copy b e :: post → b ≤ ix → ix < e → (ix < start ∨ start + len ≤ ix) →
    (elsText base pre).length + (ix - b) < iv.start ∨ iv.stop ≤ (elsText base pre).length + (ix - b)

theorem cellAt_data {T : Type} {spans : List (Span T)} {p : Nat} {x : T} (h : cellAt spans p = some x) : ∃ s ∈ spans, s.data = x := by
  simp only [cellAt, Option.map_eq_some_iff] at h
  obtain ⟨s, h1, h2⟩ := h
  exact ⟨s, List.mem_of_find?_eq_some h1, h2⟩

theorem paint_data {T : Type} {spans : List (Span T)} {n : Nat} {x : T} (h : some x ∈ paint n spans) : ∃ s ∈ spans, s.data = x := by
  obtain ⟨p, -, hp⟩ := List.mem_map.1 h
  exact cellAt_data hp

theorem paint_has {T : Type} {spans : List (Span T)} {lo n : Nat} (h : SpansIn lo n spans) {s : Span T} (hs : s ∈ spans) : some s.data ∈ paint n spans := by
  have key : ∀ {lo : Nat} {l : List (Span T)}, SpansIn lo n l → s ∈ l → cellAt l s.iv.start = some s.data ∧ lo ≤ s.iv.start ∧ s.iv.start < n := by
    intro lo l
    induction l generalizing lo with
    | nil => intro _ h; cases h
    | cons x l ih =>
      intro hl hm
      obtain ⟨h1, h2, h3, h4⟩ := hl
      rw [cellAt_cons]
      rcases List.mem_cons.1 hm with rfl | hm
      · exact ⟨by rw [if_pos ⟨Nat.le_refl _, h2⟩], h1, by omega⟩
      · obtain ⟨i1, i2, i3⟩ := ih h4 hm
        exact ⟨by rw [if_neg (by omega), i1], by omega, i3⟩
  obtain ⟨k1, -, k2⟩ := key h hs
  exact List.mem_map.2 ⟨_, List.mem_range.2 k2, k1⟩

section

variable {α T : Type}

theorem placed_delta {d : Delta α} {base text : List α} (hd : d.WF) (hb : d.baseLen = base.length) (ht : d.result base = text) {start len : Nat}
    {spans : List (Span T)} (hl : start + len ≤ base.length)
    (hend : d.intervalUntouched start (start + len) = true → d.transformIx (start + len) true = d.transformIx (start + len) false)
    {tree : SpansTree T} (hw : tree.Balanced) (htree : tree.text = paint len spans) :
    ∃ tree', (if d.intervalUntouched start (start + len) then some tree else tree.transform start (start + len) d) = some tree' ∧
      Placed d base text start len spans ⟨d.transformIx start false, d.transformIx (start + len) true⟩ tree' := by
  obtain ⟨mono, aft, -, fin⟩ := C14_transform_monotone d hd
  have tracks : ∀ pre post b e ix, d.els = pre ++ .copy b e :: post → b ≤ ix → ix < e →
      d.transformIx ix true = (elsText base pre).length + (ix - b) ∧ d.transformIx (ix + 1) false = (elsText base pre).length + (ix - b) + 1 ∧
      text[d.transformIx ix true]? = base[ix]? := by
    intro pre post b e ix h1 h2 h3
    rw [← ht]
    exact C14_transform_tracks_characters d hd h1 h2 h3 base hb.symm
  have hlen : text.length = d.newDocumentLen := by
    rw [← ht, Delta.newDocumentLen, totalElementLen_eq, Delta.result, elsText_length]
    rw [← hb]; exact ElsWF.inRange hd
  have order : d.transformIx start false ≤ d.transformIx (start + len) true :=
    Nat.le_trans (mono false _ _ (Nat.le_add_right start len)) (aft _)
  have inside : d.transformIx (start + len) true ≤ text.length := by
    rw [hlen, ← fin]
    exact mono true _ _ (by omega)
  have others : ∀ pre post b e ix, d.els = pre ++ .copy b e :: post → b ≤ ix → ix < e → (ix < start ∨ start + len ≤ ix) →
      (elsText base pre).length + (ix - b) < d.transformIx start false ∨ d.transformIx (start + len) true ≤ (elsText base pre).length + (ix - b) := by
    intro pre post b e ix h1 h2 h3 h4
    obtain ⟨t1, t2, -⟩ := tracks pre post b e ix h1 h2 h3
    rcases h4 with h4 | h4
    · have := mono false (ix + 1) start h4
      omega
    · have := mono true _ ix h4
      omega
  have near : ∀ pre post b e ix, d.els = pre ++ .copy b e :: post → b ≤ ix → ix < e → start ≤ ix → ix < start + len →
      d.transformIx start false ≤ (elsText base pre).length + (ix - b) ∧ (elsText base pre).length + (ix - b) < d.transformIx (start + len) true := by
    intro pre post b e ix h1 h2 h3 h4 h5
    obtain ⟨t1, t2, -⟩ := tracks pre post b e ix h1 h2 h3
    have a1 := mono false _ ix h4
    have a2 := aft ix
    have a3 := mono false (ix + 1) _ h5
    have a4 := aft (start + len)
    omega
  by_cases hu : d.intervalUntouched start (start + len) = true
  · refine ⟨tree, by rw [if_pos hu], order, inside, hw, ?_, ?_, ?_, others⟩
    · obtain ⟨pre, b, e, post, h1, h2, h3⟩ := untouchedGo_spec start (start + len) d.els true hd (by simp) hu
      have t1 := (tracks pre post b e (start - 1) h1 (by omega) (by omega)).2.1
      have t2 := (tracks pre post b e (start + len - 1) h1 (by omega) (by omega)).2.1
      rw [show start - 1 + 1 = start by omega] at t1
      rw [show start + len - 1 + 1 = start + len by omega] at t2
      rw [htree, paint_length, hend hu]
      show len = d.transformIx (start + len) false - d.transformIx start false
      omega
    · intro x hx
      rw [htree] at hx
      exact paint_data hx
    · intro pre post b e ix h1 h2 h3 h4 h5
      obtain ⟨n1, n2⟩ := near pre post b e ix h1 h2 h3 h4 h5
      obtain ⟨t1, -, t3⟩ := tracks pre post b e ix h1 h2 h3
      obtain ⟨pre', b', e', post', k1, k2, k3⟩ := untouchedGo_spec start (start + len) d.els true hd (by simp) hu
      have u1 := (tracks pre' post' b' e' (start - 1) k1 (by omega) (by omega)).2.1
      have u2 := (tracks pre' post' b' e' ix k1 (by omega) (by omega)).1
      rw [show start - 1 + 1 = start by omega] at u1
      refine ⟨n1, n2, by rw [← t1]; exact t3, ?_⟩
      show tree.text[_ - d.transformIx start false]? = _
      rw [htree, paint_get, show (elsText base pre).length + (ix - b) - d.transformIx start false = ix - start by omega, if_pos (by omega)]
  · obtain ⟨its, i1, i2, i3⟩ := SpansTree.iter_spec hw
    have hpl : tree.text.length = len := by rw [htree, paint_length]
    rw [hpl] at i2 i3
    have hsz : start + len - start = len := by omega
    obtain ⟨m, e1, w, l, t, c⟩ := C36_transform tree its d base start (start + len) ⟨hw, by rw [SpansTree.len_eq hw, hpl, hsz], i1, by rw [hsz]; exact i2,
      by rw [hsz]; exact i3.symm⟩ (Nat.le_add_right _ _) hd hb (by omega)
    refine ⟨m, by rw [if_neg hu, e1], order, inside, w, ?_, ?_, ?_, others⟩
    · rw [← SpansTree.len_eq w, l]
    · intro x hx
      rw [t] at hx
      obtain ⟨s, h1, h2⟩ := paint_data hx
      obtain ⟨s0, h3, rfl⟩ := List.mem_map.1 h1
      have := paint_has i2 h3
      rw [i3, htree] at this
      obtain ⟨s1, k1, k2⟩ := paint_data this
      exact ⟨s1, k1, k2.trans h2⟩
    · intro pre post b e ix h1 h2 h3 h4 h5
      obtain ⟨n1, n2⟩ := near pre post b e ix h1 h2 h3 h4 h5
      obtain ⟨t1, -, t3⟩ := tracks pre post b e ix h1 h2 h3
      obtain ⟨-, c2⟩ := c pre post b e ix h1 h2 h3 h4 h5
      refine ⟨n1, n2, by rw [← t1]; exact t3, ?_⟩
      show m.text[_ - d.transformIx start false]? = _
      rw [c2, htree, paint_get, if_pos (by omega)]

theorem placed_nothing {base : List α} {start len : Nat} {spans : List (Span T)} (hl : start + len ≤ base.length) {tree : SpansTree T}
    (hw : tree.Balanced) (htree : tree.text = paint len spans) : Placed (.nothing base.length) base base start len spans ⟨start, start + len⟩ tree := by
  have only : ∀ pre post b e, (Delta.nothing base.length : Delta α).els = pre ++ .copy b e :: post → (elsText base pre).length = 0 ∧ b = 0 := by
    intro pre post b e h
    unfold Delta.nothing at h
    split at h
    · simp at h
    · cases pre with
      | nil => simp at h; exact ⟨rfl, h.1.1.symm⟩
      | cons x pre => simp at h
  refine ⟨Nat.le_add_right _ _, hl, hw, by rw [htree, paint_length]; show len = start + len - start; omega, fun x hx => paint_data (htree ▸ hx), ?_, ?_⟩
  · intro pre post b e ix h1 h2 h3 h4 h5
    obtain ⟨o1, rfl⟩ := only pre post b e h1
    rw [o1]
    refine ⟨by simpa using h4, by simpa using h5, by simp, ?_⟩
    rw [htree, paint_get, show 0 + (ix - 0) - (⟨start, start + len⟩ : Interval).start = ix - start by simp, if_pos (by omega)]
  · intro pre post b e ix h1 h2 h3 h4
    obtain ⟨o1, rfl⟩ := only pre post b e h1
    rw [o1]
    show 0 + (ix - 0) < start ∨ start + len ≤ 0 + (ix - 0)
    omega

variable {tok : RevId → Nat} {e : Engine α}

/-- Nothing has been inserted right at the end of a range in which nothing has been edited. -/
def EndKept (tok : RevId → Nat) (e : Engine α) (rev start stop : Nat) : Prop :=
  ∀ d, e.tryDeltaRevHead tok rev = some (.ok d) → d.intervalUntouched start stop = true → d.transformIx stop true = d.transformIx stop false

/-- **C82, part.** Spans that a plugin sends for a range of a revision that the engine still has: whatever has been edited and undone since, they come to a
range of the current text, with one value for each of its characters; each character of the range that is still there has the value that was sent for
it, the others stay outside.  Missing: text inserted right at the end of the range (`C82_end_refuted`), and revisions that are gone (`C82_unknown_refuted`). -/
theorem C82_place_partial (h : Engine.Reach tok e) {rev : Nat} {base : List α} (hx : e.getRev tok rev = some (some base)) {start len : Nat} {spans : List (Span T)}
    (hs : SpansIn 0 len spans) (hl : start + len ≤ base.length) (hend : EndKept tok e rev start (start + len)) :
    ∃ id d iv tree, e.getHeadRevId = some id ∧ placeSpans tok e start len spans rev = some (iv, tree) ∧ Placed d base e.text start len spans iv tree ∧
      (if rev = tok id then base = e.text ∧ d = .nothing base.length else e.tryDeltaRevHead tok rev = some (.ok d) ∧ d.apply base = some e.text) := by
  obtain ⟨tree, e1, w, t⟩ := SpansTree.ofList_spec hs
  obtain ⟨l, hden⟩ := h.den
  obtain ⟨d, h1, h2, h3, h4⟩ := hden.deltaRevHead hx
  obtain ⟨pre, r, hr, hlast⟩ := hden.last
  have hid : e.getHeadRevId = some r.revId := by rw [Engine.getHeadRevId, hlast]; rfl
  unfold placeSpans
  simp only [e1, hid, Option.bind_eq_bind, Option.bind_some]
  by_cases hc : rev = tok r.revId
  · have hhead := hden.head_read tok hid
    rw [← hc, hx] at hhead
    obtain rfl : base = e.text := Option.some.inj (Option.some.inj hhead)
    refine ⟨r.revId, .nothing e.text.length, _, tree, rfl, ?_, placed_nothing hl w t, by rw [if_pos hc]; exact ⟨rfl, rfl⟩⟩
    rw [if_neg (by simpa using hc), Interval.new, if_pos (Nat.le_add_right _ _)]
    rfl
  · obtain ⟨tree', k1, k2⟩ := placed_delta h2 h3 h4 hl (hend d h1) w t
    refine ⟨r.revId, d, _, tree', rfl, ?_, k2, by rw [if_neg hc]; exact ⟨h1, by rw [d.apply_spec _ h2 h3.symm, h4]⟩⟩
    rw [if_pos (by simpa using hc), h1]
    simp only [Option.bind_some]
    have ho : d.transformIx start false ≤ d.transformIx (start + len) true := k2.order
    have hn : Interval.new (d.transformIx start false) (d.transformIx (start + len) true) = some ⟨d.transformIx start false, d.transformIx (start + len) true⟩ := by
      rw [Interval.new, if_pos ho]
    rw [hn]
    split at k1
    · rename_i hu
      obtain rfl := Option.some.inj k1
      rw [if_pos hu]; rfl
    · rename_i hu
      rw [if_neg hu, k1]; rfl

/-! ## The layers of an editor -/

variable {Sc M : Type} [DecidableEq Sc]

/-- What can come about in an editor, of its engine and its layers: edits, undos and collected garbage (the layers are given the difference to the last
head, editor.rs:257-269), plugins that define scopes and stop, changes of the theme, and spans for any revision that is still there. -/
inductive StylesReach (tok : RevId → Nat) (sy : Syntect Sc M) : Engine α → Layers Sc M → LayersState → Prop
  | start (e : Engine α) (h : Engine.Reach tok e) (he : e.text = []) : StylesReach tok sy e .empty .start
  | change (e e' : Engine α) (ls ls' : Layers Sc M) (s : LayersState) (id : RevId) (d : Delta α) (h : StylesReach tok sy e ls s) (hr : Engine.Reach tok e')
      (hid : e.getHeadRevId = some id) (hx : e'.getRev tok (tok id) = some (some e.text)) (hd : e'.tryDeltaRevHead tok (tok id) = some (.ok d))
      (hlen : d.summary.1.2 ≤ d.newDocumentLen) (hls : ls.updateAll d = some ls') : StylesReach tok sy e' ls' (s.edited d)
  | scopes (e : Engine α) (ls ls' : Layers Sc M) (s : LayersState) (th : Theme Sc M) (pid : Nat) (stacks : List (List Sc)) (h : StylesReach tok sy e ls s)
      (hs : ∀ st ∈ stacks, st ≠ []) (hls : ls.addScopes sy th pid stacks = some ls') :
      StylesReach tok sy e ls' (LayersOp.next s (.addScopes th pid stacks))
  | stop (e : Engine α) (ls ls' : Layers Sc M) (s : LayersState) (pid : Nat) (h : StylesReach tok sy e ls s) (hls : ls.removeLayer pid = some ls') :
      StylesReach tok sy e ls' (LayersOp.next s (.remove pid : LayersOp Sc M))
  | theme (e : Engine α) (ls ls' : Layers Sc M) (s : LayersState) (th : Theme Sc M) (h : StylesReach tok sy e ls s) (hls : ls.themeChanged sy th = some ls') :
      StylesReach tok sy e ls' s
  | spans (e : Engine α) (ls ls' : Layers Sc M) (s : LayersState) (base : List α) (pid start len rev : Nat) (spans : List (Span Nat)) (iv : Interval)
      (tree : SpansTree Nat) (h : StylesReach tok sy e ls s) (hx : e.getRev tok rev = some (some base)) (hs : SpansIn 0 len spans)
      (hl : start + len ≤ base.length) (hend : EndKept tok e rev start (start + len)) (hsc : ∀ x ∈ spans, x.data < (s.row pid).2)
      (hp : placeSpans tok e start len spans rev = some (iv, tree)) (hls : ls.updateLayer pid iv tree = some ls') :
      StylesReach tok sy e ls' (LayersOp.next s (.update pid iv (.build 0 []) tree.text : LayersOp Sc M))

variable {sy : Syntect Sc M}

theorem spans_step {s : LayersState} {ls : Layers Sc M} (hr : Engine.Reach tok e) (hinv : ls.Inv s) (hlen : s.len = e.text.length) {rev : Nat} {base : List α}
    (hx : e.getRev tok rev = some (some base)) {pid start len : Nat} {spans : List (Span Nat)} (hs : SpansIn 0 len spans) (hl : start + len ≤ base.length)
    (hend : EndKept tok e rev start (start + len)) (hsc : ∀ x ∈ spans, x.data < (s.row pid).2) :
    ∃ iv tree ls', placeSpans tok e start len spans rev = some (iv, tree) ∧ ls.updateLayer pid iv tree = some ls' ∧
      ls'.Inv (LayersOp.next s (.update pid iv (.build 0 []) tree.text : LayersOp Sc M)) ∧ iv.start ≤ iv.stop ∧ iv.stop ≤ e.text.length ∧
      tree.text.length = iv.stop - iv.start ∧
      ∀ p, p < s.len → ¬ (iv.start ≤ p ∧ p < iv.stop) → cellIx ls'.merged.text p = cellIx ls.merged.text p := by
  obtain ⟨id, d, iv, tree, -, h1, h2, -⟩ := C82_place_partial hr hx hs hl hend
  obtain ⟨ls', h3, h4, h5⟩ := Layers.updateLayer_inv (e := .build 0 []) hinv pid h2.order (by rw [hlen]; exact h2.inside) h2.balanced h2.size (fun i hi => by
    obtain ⟨x, k1, rfl⟩ := h2.values i hi
    exact hsc x k1)
  exact ⟨iv, tree, ls', h1, h3, h4, h2.order, h2.inside, h2.size, h5⟩

omit [DecidableEq Sc] in
theorem next_len (s : LayersState) (op : LayersOp Sc M) (h : ∀ d, op ≠ .edit d) : (op.next s).len = s.len := by
  cases op with
  | addScopes th pid stacks => simp only [LayersOp.next]; split <;> rfl
  | edit d => exact absurd rfl (h d)
  | update pid iv e cells => simp only [LayersOp.next]; split <;> rfl
  | remove pid => rfl
  | theme th => rfl

theorem styles_inv {ls : Layers Sc M} {s : LayersState} (h : StylesReach tok sy e ls s) : Engine.Reach tok e ∧ ls.Inv s ∧ s.len = e.text.length := by
  induction h with
  | start e h he => exact ⟨h, Layers.empty_inv, by rw [he]; rfl⟩
  | change e e' ls ls' s id d h hr hid hx hd hlen hls ih =>
    obtain ⟨-, i2, i3⟩ := ih
    obtain ⟨l, hden⟩ := hr.den
    obtain ⟨d', h1, h2, h3, h4⟩ := hden.deltaRevHead hx
    rw [hd] at h1
    obtain rfl := Except.ok.inj (Option.some.inj h1)
    obtain ⟨ls2, k1, k2⟩ := Layers.updateAll_inv i2 e.text h3.symm h2 (by rw [h3, i3]) hlen
    rw [hls] at k1
    obtain rfl := Option.some.inj k1
    refine ⟨hr, k2, ?_⟩
    show d.newDocumentLen = _
    rw [← h4, Delta.newDocumentLen, totalElementLen_eq, Delta.result, elsText_length]
    rw [← h3]; exact ElsWF.inRange h2
  | scopes e ls ls' s th pid stacks h hs hls ih =>
    obtain ⟨i1, i2, i3⟩ := ih
    obtain ⟨ls2, k1, k2⟩ := Layers.addScopes_inv sy th i2 pid hs
    rw [hls] at k1
    obtain rfl := Option.some.inj k1
    exact ⟨i1, k2, by rw [next_len _ _ (fun d => by simp), i3]⟩
  | stop e ls ls' s pid h hls ih =>
    obtain ⟨i1, i2, i3⟩ := ih
    obtain ⟨ls2, k1, k2⟩ := Layers.removeLayer_inv i2 pid
    rw [hls] at k1
    obtain rfl := Option.some.inj k1
    exact ⟨i1, k2, by rw [next_len _ _ (fun d => by simp), i3]⟩
  | theme e ls ls' s th h hls ih =>
    obtain ⟨i1, i2, i3⟩ := ih
    obtain ⟨ls2, k1, k2⟩ := Layers.themeChanged_inv sy th i2
    rw [hls] at k1
    obtain rfl := Option.some.inj k1
    exact ⟨i1, k2, i3⟩
  | spans e ls ls' s base pid start len rev spans iv tree h hx hs hl hend hsc hp hls ih =>
    obtain ⟨i1, i2, i3⟩ := ih
    obtain ⟨iv', tree', ls2, k1, k2, k3, -⟩ := spans_step i1 i2 i3 hx hs hl hend hsc
    rw [hp] at k1
    cases k1
    rw [hls] at k2
    obtain rfl := Option.some.inj k2
    exact ⟨i1, k3, by rw [next_len _ _ (fun d => by simp), i3]⟩

/-- **C82, part.** Whatever has happened before: the layers have a row for each plugin that is as long as the text and is what its own updates have made it, and
when a plugin sends spans for a revision that is still there, they are put in its row where they belong (`C82_place_partial`); the styles elsewhere do not change. -/
theorem C82_spans_partial {ls : Layers Sc M} {s : LayersState} (h : StylesReach tok sy e ls s) : ls.Shows s ∧ s.len = e.text.length ∧
    ∀ rev base pid start len (spans : List (Span Nat)), e.getRev tok rev = some (some base) → SpansIn 0 len spans → start + len ≤ base.length →
      EndKept tok e rev start (start + len) → (∀ x ∈ spans, x.data < (s.row pid).2) →
      ∃ iv tree ls', placeSpans tok e start len spans rev = some (iv, tree) ∧ ls.updateLayer pid iv tree = some ls' ∧
        ls'.Shows (LayersOp.next s (.update pid iv (.build 0 []) tree.text : LayersOp Sc M)) ∧ tree.text.length = iv.stop - iv.start ∧
        iv.start ≤ iv.stop ∧ iv.stop ≤ e.text.length ∧
        ∀ p : Nat, p < iv.start ∨ iv.stop ≤ p → ls'.merged.text[p]? = ls.merged.text[p]? := by
  obtain ⟨h1, h2, h3⟩ := styles_inv h
  refine ⟨h2.shows, h3, fun rev base pid start len spans hx hs hl hend hsc => ?_⟩
  obtain ⟨iv, tree, ls', k1, k2, k3, k4, k5, k6, k7⟩ := spans_step h1 h2 h3 hx hs hl hend hsc
  refine ⟨iv, tree, ls', k1, k2, k3.shows, k6, k4, k5, fun p hp => ?_⟩
  have l1 := h2.mergedLen
  have l2 := k3.mergedLen
  rw [next_len _ _ (fun d => by simp)] at l2
  by_cases hc : p < s.len
  · have := k7 p hc (by omega)
    unfold cellIx at this
    rw [List.getElem?_eq_getElem (by omega), List.getElem?_eq_getElem (by omega)] at this ⊢
    simpa using this
  · rw [List.getElem?_eq_none (by omega), List.getElem?_eq_none (by omega)]

end

open Gesture in
/-- **C82, part.** The whole of `update_spans`: the view the plugin names marks the lines whose styles have changed, so that it goes on to show what it should
(C57, C80).  Missing, besides what is missing above: other views of the same text are not told. -/
theorem C82_update_partial {Sc M : Type} [DecidableEq Sc] {tok : RevId → Nat} {sy : Syntect Sc M} {e : Engine UInt8} {ls : Layers Sc M} {s : LayersState} (h : StylesReach tok sy e ls s)
    {rule : WrapRule} {r : Rope} {v : ShownView} {m : Missing} {find : List Selection} {client : List (Option (ScreenLine (List UInt8) (Look (Option Style))))}
    (hv : WrapRun rule r v.lines) (hseen : ViewReachable m (stateOf find ls.merged.text r v client))
    {rev pid start len : Nat} {base : List UInt8} {spans : List (Span Nat)} (hx : e.getRev tok rev = some (some base)) (hs : SpansIn 0 len spans)
    (hl : start + len ≤ base.length) (hend : EndKept tok e rev start (start + len)) (hsc : ∀ x ∈ spans, x.data < (s.row pid).2)
    (hb : ∀ iv tree, placeSpans tok e start len spans rev = some (iv, tree) → CharBoundary r.text iv.start ∧ CharBoundary r.text iv.stop) :
    ∃ iv tree ls' v', placeSpans tok e start len spans rev = some (iv, tree) ∧ updateSpans tok e ls r v pid start len spans rev = some (ls', v') ∧
      ls'.Shows (LayersOp.next s (.update pid iv (.build 0 []) tree.text : LayersOp Sc M)) ∧ v'.lines = v.lines ∧ v'.selection = v.selection ∧
      ViewReachable m (stateOf find ls'.merged.text r v' client) := by
  obtain ⟨-, -, h3⟩ := C82_spans_partial h
  obtain ⟨iv, tree, ls', k1, k2, k3, k4, k5, k6, k7⟩ := h3 rev base pid start len spans hx hs hl hend hsc
  obtain ⟨b1, b2⟩ := hb iv tree k1
  obtain ⟨v', g1, g2, g3, g4⟩ := C82_drawn hv k5 b1 b2 k7 hseen
  exact ⟨iv, tree, ls', v', k1, by simp [updateSpans, k1, k2, g1], k3, g2, g3, g4⟩

/-! ## A concrete editor -/

def spTok (r : RevId) : Nat := r.num

/-- A document of six characters. -/
def spE0 : Engine Nat := (Engine.new spTok [1, 2, 3, 4, 5, 6]).get (by decide +kernel)

/-- Two characters are inserted in the middle. -/
def spE1 : Engine Nat := (spE0.editRev spTok 1 1 1 ⟨[.copy 0 3, .insert [7, 8], .copy 3 6], 6⟩).get (by decide +kernel)

/-- The layers of the document. -/
def spL0 : Layers Nat (Option Nat) := ((Layers.empty : Layers Nat (Option Nat)).updateAll (⟨[.insert [1, 2, 3, 4, 5, 6]], 0⟩ : Delta Nat)).get (by decide +kernel)

/-- A plugin defines three scopes. -/
def spL1 : Layers Nat (Option Nat) := (spL0.addScopes toySyntect toyTheme 1 [[1], [1, 7], [1, 9]]).get (by decide +kernel)

/-- It colours the last character. -/
def spT1 : Interval × SpansTree Nat := (placeSpans spTok spE0 0 6 [⟨⟨5, 6⟩, 1⟩] 1).get (by decide +kernel)

def spL2 : Layers Nat (Option Nat) := (spL1.updateLayer 1 spT1.1 spT1.2).get (by decide +kernel)

/-- The layers after the insertion. -/
def spL3 : Layers Nat (Option Nat) := (spL2.updateAll (⟨[.copy 0 3, .insert [7, 8], .copy 3 6], 6⟩ : Delta Nat)).get (by decide +kernel)

theorem spE0_reach : Engine.Reach spTok spE0 := new_reach spTok [1, 2, 3, 4, 5, 6] (by simp [spE0])

theorem spE1_reach : Engine.Reach spTok spE1 :=
  editRev_reach spE0_reach (p := 1) (g := 1) (t := 1) (d := ⟨[.copy 0 3, .insert [7, 8], .copy 3 6], 6⟩) (by decide) (by simp [spE1])

/-- What an engine says about the way to its head. -/
def told {E : Type} : Option (Except E (Delta Nat)) → Option (List (DeltaElement Nat) × Nat)
  | some (.ok d) => some (d.els, d.baseLen)
  | _ => none

theorem told_ok {E : Type} {o : Option (Except E (Delta Nat))} {els : List (DeltaElement Nat)} {n : Nat} (h : told o = some (els, n)) : o = some (.ok ⟨els, n⟩) := by
  unfold told at h
  split at h
  · cases h; rfl
  · cases h

/-- The colours of the characters. -/
def colours (ls : Layers Nat (Option Nat)) : List (Option Nat) := ls.merged.text.map (fun c => c.bind Style.fgColor)

theorem sp_styles : ∃ s, StylesReach spTok toySyntect spE1 spL3 s ∧ s.row 1 = ([none, none, none, none, none, none, none, some 1], 3) := by
  have h0 := StylesReach.start (sy := toySyntect) (tok := spTok) ((Engine.empty : Option (Engine Nat)).get (by decide +kernel)) (.empty (by simp)) (by decide +kernel)
  have h1 := StylesReach.change _ spE0 _ spL0 _ ⟨0, 0, 0⟩ ⟨[.insert [1, 2, 3, 4, 5, 6]], 0⟩ h0 spE0_reach (by decide +kernel) (by decide +kernel) (told_ok (by decide +kernel))
    (by decide +kernel) (by simp [spL0])
  have h2 := StylesReach.scopes _ _ spL1 _ toyTheme 1 [[1], [1, 7], [1, 9]] h1 (by decide) (by simp [spL1])
  have h3 := StylesReach.spans _ _ spL2 _ [1, 2, 3, 4, 5, 6] 1 0 6 1 [⟨⟨5, 6⟩, 1⟩] spT1.1 spT1.2 h2 (by decide +kernel) (by decide) (by decide)
    (fun d hd hu => by
      have : spE0.tryDeltaRevHead spTok 1 = some (.ok ⟨[.copy 0 6], 6⟩) := told_ok (by decide +kernel)
      rw [this] at hd
      obtain rfl := Except.ok.inj (Option.some.inj hd)
      decide) (by decide) (by show _ = some spT1; simp [spT1]) (by simp [spL2])
  have h4 := StylesReach.change _ spE1 _ spL3 _ ⟨1, 0, 1⟩ ⟨[.copy 0 3, .insert [7, 8], .copy 3 6], 6⟩ h3 spE1_reach (by decide +kernel) (by decide +kernel) (told_ok (by decide +kernel))
    (by decide +kernel) (by simp [spL3])
  exact ⟨_, h4, by decide +kernel⟩

/-- Spans that were sent for `[2, 5)` of the text before the insertion: what is inserted inside a span is coloured like it. -/
example : (∃ s, StylesReach spTok toySyntect spE1 spL3 s ∧ ∀ x ∈ ([⟨⟨0, 2⟩, 2⟩] : List (Span Nat)), x.data < (s.row 1).2) ∧
    spE1.getRev spTok 1 = some (some [1, 2, 3, 4, 5, 6]) ∧ SpansIn 0 3 ([⟨⟨0, 2⟩, 2⟩] : List (Span Nat)) ∧ EndKept spTok spE1 1 2 (2 + 3) ∧
    ((placeSpans spTok spE1 2 3 [⟨⟨0, 2⟩, 2⟩] 1).bind fun x => (spL3.updateLayer 1 x.1 x.2).map colours) =
      some [none, none, some 9, some 9, some 9, some 9, none, some 7] := by
  refine ⟨?_, by decide +kernel, by decide, ?_, by decide +kernel⟩
  · obtain ⟨s, h1, h2⟩ := sp_styles
    exact ⟨s, h1, by rw [h2]; decide⟩
  · intro d hd hu
    have : spE1.tryDeltaRevHead spTok 1 = some (.ok ⟨[.copy 0 3, .insert [7, 8], .copy 3 6], 6⟩) := told_ok (by decide +kernel)
    rw [this] at hd
    obtain rfl := Except.ok.inj (Option.some.inj hd)
    decide

/-- **C82, refuted: text inserted right at the end of the range.** The plugin colours the second and third character of the six, and meanwhile two characters
have been inserted after them.  The range of the update is taken to end after the inserted characters, but there are only two cells for it: the row
of the plugin becomes shorter than the text, and when the theme is set once more, the colour of the last character is that of the last but two. -/
theorem C82_end_refuted : (∃ s, StylesReach spTok toySyntect spE1 spL3 s ∧ ∀ x ∈ ([⟨⟨0, 2⟩, 2⟩] : List (Span Nat)), x.data < (s.row 1).2) ∧
    spE1.getRev spTok 1 = some (some [1, 2, 3, 4, 5, 6]) ∧ spE1.text = [1, 2, 3, 7, 8, 4, 5, 6] ∧
    colours spL3 = [none, none, none, none, none, none, none, some 7] ∧
    ((placeSpans spTok spE1 1 2 [⟨⟨0, 2⟩, 2⟩] 1).bind fun x => some (x.1.start, x.1.stop, x.2.text.length)) = some (1, 5, 2) ∧
    ((placeSpans spTok spE1 1 2 [⟨⟨0, 2⟩, 2⟩] 1).bind fun x => (spL3.updateLayer 1 x.1 x.2).map fun ls => ls.layers.map fun l => l.2.scopeSpans.len) = some [6] ∧
    ((placeSpans spTok spE1 1 2 [⟨⟨0, 2⟩, 2⟩] 1).bind fun x => (spL3.updateLayer 1 x.1 x.2).bind fun ls => (ls.themeChanged toySyntect toyTheme).map colours) =
      some [none, some 9, some 9, none, none, some 7, none, none] := by
  refine ⟨?_, by decide +kernel, by decide +kernel, by decide +kernel, by decide +kernel, by decide +kernel, by decide +kernel⟩
  obtain ⟨s, h1, h2⟩ := sp_styles
  exact ⟨s, h1, by rw [h2]; decide⟩

/-- **C82, refuted: a revision that is not there.** The error is only logged; the spans are put at the offsets of the unknown text, here beyond the end of the
text, and the row of the plugin becomes longer than the text. -/
theorem C82_unknown_refuted : (∃ s, StylesReach spTok toySyntect spE1 spL3 s) ∧ spE1.getRev spTok 99 = some none ∧ spE1.text.length = 8 ∧
    ((placeSpans spTok spE1 9 2 [⟨⟨0, 2⟩, 2⟩] 99).bind fun x => some (x.1.start, x.1.stop)) = some (9, 11) ∧
    ((placeSpans spTok spE1 9 2 [⟨⟨0, 2⟩, 2⟩] 99).bind fun x => (spL3.updateLayer 1 x.1 x.2).map fun ls => ls.layers.map fun l => l.2.scopeSpans.len) = some [10] := by
  refine ⟨?_, by decide +kernel, by decide +kernel, by decide +kernel, by decide +kernel⟩
  obtain ⟨s, h1, -⟩ := sp_styles
  exact ⟨s, h1⟩

end Xi
