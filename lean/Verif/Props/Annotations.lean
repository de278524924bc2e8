import Verif.Core.EditorSpans
import Verif.Core.FindRange
import Verif.Props.Gesture
import Verif.Props.PluginSpans

/-!
# C83: the annotations that a view sends
-/

namespace Xi.Gesture

open Selection
open FindState (Each mapM_each)

variable {V : Type} {g : Graphemes} {ls : Wrapping} {r : Rope}

/-! ## What it is about -/

/-- The range tells, by lines of the screen and bytes on them, the text from `lo` to `hi`. -/
def Tells (ls : Wrapping) (r : Rope) (lo hi : Nat) (a : AnnotationRange) : Prop :=
  ∃ s e, OnLine (screenStarts ls r) a.startLine s lo ∧ lo = s + a.startCol ∧ OnLine (screenStarts ls r) a.endLine e hi ∧ hi = e + a.endCol

/-- Where line `n` of the screen begins, or the end of the text, if there is no such line. -/
def LineBegins (ls : Wrapping) (r : Rope) (n o : Nat) : Prop :=
  (∀ s, (screenStarts ls r)[n]? = some s → o = s) ∧ ((screenStarts ls r).length ≤ n → o = r.text.length)

/-- The ranges tell the regions of the selection which touch the interval, in order; one that only begins where the interval ends may be missing. -/
def RegionsTold (ls : Wrapping) (r : Rope) (iv : Interval) (sel : Selection) (ranges : List AnnotationRange) : Prop :=
  ∃ A l B, sel = A ++ l ++ B ∧ Each (fun q a => Tells ls r q.lo q.hi a) l ranges ∧ (∀ q ∈ A, q.hi < iv.start) ∧ (∀ q ∈ l, iv.start ≤ q.hi ∧ q.lo ≤ iv.stop) ∧
    ∀ q ∈ B, iv.stop ≤ q.lo

/-- The spans are in the text and their ends are between characters. -/
def SpansOk (r : Rope) (spans : List (Span V)) : Prop := ∀ s ∈ spans, CharBoundary r.text s.iv.start ∧ CharBoundary r.text s.iv.stop

/-- The annotations are about the text as it is. -/
def NotesOk (r : Rope) (a : Annotations V) : Prop := ∃ len spans, a.items.Shows len spans ∧ SpansOk r spans

/-- All annotations of the store are about the text as it is. -/
def StoreOk (r : Rope) (store : AnnotationStore V) : Prop := ∀ e ∈ store, ∀ a ∈ e.2, NotesOk r a

/-- The spans of the annotations which touch the interval are told in order, with their data. -/
def NotesTold (ls : Wrapping) (r : Rope) (iv : Interval) (a : Annotations V) (slice : AnnotationSlice V) : Prop :=
  slice.kind = a.kind ∧ ∃ spans, a.items.iter = some spans ∧
    Each (fun s x => Tells ls r s.iv.start s.iv.stop x) (spans.filter fun s => s.iv.start ≤ iv.stop ∧ iv.start ≤ s.iv.stop) slice.ranges ∧
    slice.payloads = some ((spans.filter fun s => s.iv.start ≤ iv.stop ∧ iv.start ≤ s.iv.stop).map Span.data)

/-! ## What is sent -/

theorem rangeOf_spec (hf : Fits g ls r) {lo hi : Nat} (h1 : CharBoundary r.text lo) (h2 : CharBoundary r.text hi) :
    ∃ a, rangeOf ls r lo hi = some a ∧ Tells ls r lo hi a := by
  obtain ⟨hl, -⟩ := hf.lines
  obtain ⟨n, s, hs⟩ := hl.onLine lo
  obtain ⟨m, e, he⟩ := hl.onLine hi
  refine ⟨⟨n, lo - s, m, hi - e⟩, ?_, s, e, hs, ?_, he, ?_⟩
  · simp [rangeOf, hl.lineCol h1 hs, hl.lineCol h2 he]
  · have := hs.le
    show lo = s + (lo - s)
    omega
  · have := he.le
    show hi = e + (hi - e)
    omega

theorem regions_told (hf : Fits g ls r) {sel : Selection} (hs : Inv sel) (hq : ∀ q ∈ sel, CharBoundary r.text q.lo ∧ CharBoundary r.text q.hi) {iv : Interval}
    (hiv : iv.start ≤ iv.stop) : ∃ l ranges, sel.regionsInRange iv.start iv.stop = some l ∧ l.mapM (fun q => rangeOf ls r q.lo q.hi) = some ranges ∧
      RegionsTold ls r iv sel ranges := by
  obtain ⟨A, l, B, h1, h2, h3, h4, h5⟩ := C32_range_partial hs hiv
  obtain ⟨m, e1, e2⟩ := mapM_each (R := fun q a => Tells ls r q.lo q.hi a) (f := fun q => rangeOf ls r q.lo q.hi) (l := l) (by
    intro q hm
    obtain ⟨b1, b2⟩ := hq q (by rw [h1]; simp [hm])
    exact rangeOf_spec hf b1 b2)
  exact ⟨l, m, h2, e1, A, l, B, h1, e2, h3, h4, fun q hq => (h5 q hq).1⟩

/-- **C83.** The selection is sent as the ranges of its regions that touch the interval. -/
theorem C83_selection (hf : Fits g ls r) {sel : Selection} (hs : Valid r sel) {iv : Interval} (hiv : iv.start ≤ iv.stop) :
    ∃ slice : AnnotationSlice V, selectionAnnotations sel iv ls r = some slice ∧ slice.kind = .selection ∧ slice.payloads = none ∧ RegionsTold ls r iv sel slice.ranges := by
  obtain ⟨l, m, h1, h2, h3⟩ := regions_told hf hs.inv (fun q hq => ⟨(hs.ok q hq).lo, (hs.ok q hq).hi⟩) hiv
  exact ⟨⟨.selection, m, none⟩, by simp [selectionAnnotations, h1, h2], rfl, rfl, h3⟩

/-- **C83.** The occurrences of a query are sent as the ranges of those that touch the interval, with the number of the query beside each. -/
theorem C83_find (hf : Fits g ls r) {occ : Selection} (hs : Inv occ) (hq : ∀ q ∈ occ, RegionOk r q) (payload : V) {iv : Interval} (hiv : iv.start ≤ iv.stop) :
    ∃ slice : AnnotationSlice V, findAnnotations occ payload iv ls r = some slice ∧ slice.kind = .find ∧
      slice.payloads = some (slice.ranges.map fun _ => payload) ∧ RegionsTold ls r iv occ slice.ranges := by
  obtain ⟨l, m, h1, h2, h3⟩ := regions_told hf hs (fun q hm => ⟨(hq q hm).lo, (hq q hm).hi⟩) hiv
  exact ⟨⟨.find, m, some (List.replicate m.length payload)⟩, by simp [findAnnotations, h1, h2], rfl, by simp [List.map_const'], h3⟩

/-- **C83.** The annotations of a plugin are sent as the ranges of those that touch the interval, with what the plugin said about each. -/
theorem C83_plugin (hf : Fits g ls r) {a : Annotations V} (ha : NotesOk r a) (iv : Interval) :
    ∃ slice, AnnotationStore.sliceOf ls r iv a = some slice ∧ NotesTold ls r iv a slice := by
  obtain ⟨len, spans, hs, hb⟩ := ha
  obtain ⟨m, e1, e2⟩ := mapM_each (R := fun s x => Tells ls r s.iv.start s.iv.stop x) (f := fun s : Span V => rangeOf ls r s.iv.start s.iv.stop)
    (l := spans.filter fun s => s.iv.start ≤ iv.stop ∧ iv.start ≤ s.iv.stop) (by
    intro s hm
    obtain ⟨b1, b2⟩ := hb s (List.mem_filter.1 hm).1
    exact rangeOf_spec hf b1 b2)
  refine ⟨⟨a.kind, m, _⟩, ?_, rfl, spans, hs.2.2.1, e2, rfl⟩
  simp only [AnnotationStore.sliceOf, hs.2.2.1, Option.bind_eq_bind, Option.bind_some, ge_iff_le, e1]
  rfl

theorem lineBegins (hf : Fits g ls r) (n : Nat) : ∃ o, ls.lines.offsetOfLine r n = some o ∧ LineBegins ls r n o := by
  obtain ⟨hl, hc⟩ := hf.lines
  cases e : (screenStarts ls r)[n]? with
  | some s =>
    refine ⟨s, hl.offset n s e, ?_, ?_⟩
    · intro s' h; rw [e] at h; simpa using h
    · intro h; have := (List.getElem?_eq_some_iff.1 e).1; omega
  | none =>
    refine ⟨_, hc n (List.getElem?_eq_none_iff.1 e), ?_, fun _ => rfl⟩
    intro s' h; rw [e] at h; cases h

theorem lineBegins_le (hf : Fits g ls r) {n m a b : Nat} (h : n ≤ m) (ha : LineBegins ls r n a) (hb : LineBegins ls r m b) : a ≤ b := by
  obtain ⟨hl, -⟩ := hf.lines
  by_cases c : m < (screenStarts ls r).length
  · obtain ⟨s, hs⟩ : ∃ s, (screenStarts ls r)[m]? = some s := ⟨_, List.getElem?_eq_getElem c⟩
    obtain ⟨t, ht⟩ : ∃ s, (screenStarts ls r)[n]? = some s := ⟨_, List.getElem?_eq_getElem (by omega)⟩
    rw [hb.1 s hs, ha.1 t ht]
    rcases Nat.lt_or_eq_of_le h with h | rfl
    · exact Nat.le_of_lt (get_lt hl.sorted h ht hs)
    · rw [ht] at hs; simp at hs; omega
  · rw [hb.2 (by omega)]
    by_cases c2 : n < (screenStarts ls r).length
    · obtain ⟨t, ht⟩ : ∃ s, (screenStarts ls r)[n]? = some s := ⟨_, List.getElem?_eq_getElem c2⟩
      rw [ha.1 t ht]
      exact hl.start_le ht
    · rw [ha.2 (by omega)]; exact Nat.le_refl _

/-- **C83.** With each update a view sends the regions of the selection, the occurrences of the queries and the annotations of all plugins that touch the lines
on the screen and two more, if they all are about the text as it is. -/
theorem C83_sent_partial (hf : Fits g ls r) {sel : Selection} (hs : Valid r sel) {find : List (Selection × V)} (hfind : ∀ q ∈ find, Inv q.1 ∧ ∀ x ∈ q.1, RegionOk r x)
    {store : AnnotationStore V} (hst : StoreOk r store) (firstLine height : Nat) :
    ∃ top bottom s f p, LineBegins ls r firstLine top ∧ LineBegins ls r (firstLine + height + 2) bottom ∧ sentAnnotations ls r firstLine height sel find store = some (s :: f ++ p) ∧
      s.kind = .selection ∧ s.payloads = none ∧ RegionsTold ls r ⟨top, bottom⟩ sel s.ranges ∧
      Each (fun q x => x.kind = .find ∧ x.payloads = some (x.ranges.map fun _ => q.2) ∧ RegionsTold ls r ⟨top, bottom⟩ q.1 x.ranges) find f ∧
      Each (NotesTold ls r ⟨top, bottom⟩) (store.flatMap Prod.snd) p := by
  obtain ⟨top, t1, t2⟩ := lineBegins hf firstLine
  obtain ⟨bottom, b1, b2⟩ := lineBegins hf (firstLine + height + 2)
  have hle := lineBegins_le hf (by omega) t2 b2
  obtain ⟨s, s1, s2, s3, s4⟩ := C83_selection (V := V) hf hs (iv := ⟨top, bottom⟩) hle
  obtain ⟨f, f1, f2⟩ := mapM_each (l := find) (f := fun q => findAnnotations q.1 q.2 ⟨top, bottom⟩ ls r)
    (R := fun q x => x.kind = .find ∧ x.payloads = some (x.ranges.map fun _ => q.2) ∧ RegionsTold ls r ⟨top, bottom⟩ q.1 x.ranges)
    (fun q hq => C83_find hf (hfind q hq).1 (hfind q hq).2 q.2 (iv := ⟨top, bottom⟩) hle)
  obtain ⟨p, p1, p2⟩ := mapM_each (l := store.flatMap Prod.snd) (f := AnnotationStore.sliceOf ls r ⟨top, bottom⟩) (R := NotesTold ls r ⟨top, bottom⟩) (by
    intro a ha
    obtain ⟨e, he, ha⟩ := List.mem_flatMap.1 ha
    exact C83_plugin hf (hst e he a ha) _)
  refine ⟨top, bottom, s, f, p, t2, b2, ?_, s2, s3, s4, f2, p2⟩
  have hi : Interval.new top bottom = some ⟨top, bottom⟩ := by simp [Interval.new, hle]
  have hp : AnnotationStore.iterRange store ls r ⟨top, bottom⟩ = some p := p1
  simp only [sentAnnotations, t1, b1, hi, s1, f1, hp, Option.bind_eq_bind, Option.bind_some, Option.pure_def]

/-! ## How they come about -/

/-- What the plugin has told of this kind. -/
def notesOf (store : AnnotationStore V) (plugin : Nat) (kind : AnnotationType) : Option (Annotations V) :=
  (store.find? fun e => e.1 = plugin).bind fun e => e.2.find? fun a => a.kind = kind

/-- Each plugin is there once, and each kind of its annotations. -/
structure StoreInv (store : AnnotationStore V) : Prop where
  plugins : store.Pairwise fun a b => a.1 ≠ b.1
  kinds : ∀ e ∈ store, e.2.Pairwise fun a b => a.kind ≠ b.kind

theorem updateEntry_spec {iv : Interval} {item : Annotations V} : ∀ {l : List (Annotations V)}, l.Pairwise (fun a b => a.kind ≠ b.kind) → ∀ {a' : Annotations V},
    a'.kind = item.kind →
    (match l.find? (fun a => a.kind = item.kind) with
      | none => a' = item
      | some a => ∃ t, a.items.edit iv item.items = some t ∧ a'.items = t) →
    ∃ l', AnnotationStore.updateEntry iv item l = some l' ∧ l'.Pairwise (fun a b => a.kind ≠ b.kind) ∧ (∀ a ∈ l', a = a' ∨ a ∈ l) ∧
      l'.find? (fun a => a.kind = item.kind) = some a' ∧ ∀ k, k ≠ item.kind → l'.find? (fun a => a.kind = k) = l.find? (fun a => a.kind = k)
  | [], _, a', hk, h => by
    obtain rfl : a' = item := h
    exact ⟨[a'], rfl, by simp, by simp, by simp, fun k hk => by simp [hk.symm]⟩
  | x :: l, hp, a', hk, h => by
    obtain ⟨hp1, hp2⟩ := List.pairwise_cons.1 hp
    by_cases c : x.kind = item.kind
    · simp only [List.find?_cons, c, decide_true] at h
      obtain ⟨t, h1, h2⟩ := h
      have : { x with items := t } = a' := by
        obtain ⟨i', k'⟩ := a'
        simp only at h2 hk
        subst h2 hk
        simp [c]
      refine ⟨a' :: l, ?_, ?_, ?_, ?_, ?_⟩
      · simp only [AnnotationStore.updateEntry, c, if_true, h1, Option.bind_eq_bind, Option.bind_some, Option.pure_def]
        rw [← this, c]
      · refine List.pairwise_cons.2 ⟨fun b hb => ?_, hp2⟩
        have := hp1 b hb
        rw [hk, ← c]; exact this
      · intro a ha
        rcases List.mem_cons.1 ha with rfl | ha
        · exact .inl rfl
        · exact .inr (by simp [ha])
      · simp [hk]
      · intro k hk'
        simp [List.find?_cons, hk, c, hk'.symm]
    · simp only [List.find?_cons, c, decide_false] at h
      obtain ⟨l', e1, e2, e3, e4, e5⟩ := updateEntry_spec hp2 hk h
      refine ⟨x :: l', ?_, ?_, ?_, ?_, ?_⟩
      · simp [AnnotationStore.updateEntry, c, e1]
      · refine List.pairwise_cons.2 ⟨fun b hb => ?_, e2⟩
        rcases e3 b hb with rfl | hb
        · rw [hk]; exact c
        · exact hp1 b hb
      · intro a ha
        rcases List.mem_cons.1 ha with rfl | ha
        · exact .inr (by simp)
        · rcases e3 a ha with h | h
          · exact .inl h
          · exact .inr (by simp [h])
      · simp [List.find?_cons, c, e4]
      · intro k hk'
        simp only [List.find?_cons]
        split
        · rfl
        · exact e5 k hk'

theorem update_spec {iv : Interval} {item : Annotations V} {plugin : Nat} : ∀ {store : AnnotationStore V}, StoreInv store → ∀ {a' : Annotations V}, a'.kind = item.kind →
    (match notesOf store plugin item.kind with
      | none => a' = item
      | some a => ∃ t, a.items.edit iv item.items = some t ∧ a'.items = t) →
    ∃ store', AnnotationStore.update plugin iv item store = some store' ∧ StoreInv store' ∧ (∀ e ∈ store', e.1 = plugin ∨ e ∈ store) ∧
      (∀ e ∈ store', ∀ a ∈ e.2, a = a' ∨ ∃ e0 ∈ store, a ∈ e0.2) ∧ notesOf store' plugin item.kind = some a' ∧
      ∀ p k, p ≠ plugin ∨ k ≠ item.kind → notesOf store' p k = notesOf store p k
  | [], _, a', hk, h => by
    obtain rfl : a' = item := h
    refine ⟨[(plugin, [a'])], rfl, ⟨by simp, by simp⟩, by simp, by simp, by simp [notesOf], fun p k hpk => ?_⟩
    rcases hpk with hp | hk
    · simp [notesOf, hp.symm]
    · by_cases hp : plugin = p <;> simp [notesOf, hp, hk.symm]
  | e :: store, hi, a', hk, h => by
    obtain ⟨hp1, hp2⟩ := List.pairwise_cons.1 hi.plugins
    by_cases c : e.1 = plugin
    · have h : match e.2.find? (fun a => a.kind = item.kind) with
        | none => a' = item
        | some a => ∃ t, a.items.edit iv item.items = some t ∧ a'.items = t := by
        simpa only [notesOf, List.find?_cons, c, decide_true, Option.bind_some] using h
      obtain ⟨l', e1, e2, e3, e4, e5⟩ := updateEntry_spec (hi.kinds e (by simp)) hk h
      refine ⟨(e.1, l') :: store, ?_, ⟨?_, ?_⟩, ?_, ?_, ?_, ?_⟩
      · simp [AnnotationStore.update, c, e1]
      · exact List.pairwise_cons.2 ⟨hp1, hp2⟩
      · intro x hx
        rcases List.mem_cons.1 hx with rfl | hx
        · exact e2
        · exact hi.kinds x (by simp [hx])
      · intro x hx
        rcases List.mem_cons.1 hx with rfl | hx
        · exact .inl c
        · exact .inr (by simp [hx])
      · intro x hx a ha
        rcases List.mem_cons.1 hx with rfl | hx
        · rcases e3 a ha with h | h
          · exact .inl h
          · exact .inr ⟨e, by simp, h⟩
        · exact .inr ⟨x, by simp [hx], ha⟩
      · simp [notesOf, c, e4]
      · intro p k hpk
        by_cases hp : e.1 = p
        · have hk' : k ≠ item.kind := by
            rcases hpk with h | h
            · exact absurd (hp.symm.trans c) h
            · exact h
          simp [notesOf, List.find?_cons, hp, e5 k hk']
        · simp [notesOf, List.find?_cons, hp]
    · have h : match notesOf store plugin item.kind with
        | none => a' = item
        | some a => ∃ t, a.items.edit iv item.items = some t ∧ a'.items = t := by
        simpa only [notesOf, List.find?_cons, c, decide_false] using h
      obtain ⟨s', e1, e2, e3, e4, e5, e6⟩ := update_spec ⟨hp2, fun x hx => hi.kinds x (by simp [hx])⟩ hk h
      refine ⟨e :: s', ?_, ⟨?_, ?_⟩, ?_, ?_, ?_, ?_⟩
      · simp [AnnotationStore.update, c, e1]
      · refine List.pairwise_cons.2 ⟨fun x hx => ?_, e2.plugins⟩
        rcases e3 x hx with h | h
        · rw [h]; exact c
        · exact hp1 x h
      · intro x hx
        rcases List.mem_cons.1 hx with rfl | hx
        · exact hi.kinds x (by simp)
        · exact e2.kinds x hx
      · intro x hx
        rcases List.mem_cons.1 hx with rfl | hx
        · exact .inr (by simp)
        · rcases e3 x hx with h | h
          · exact .inl h
          · exact .inr (by simp [h])
      · intro x hx a ha
        rcases List.mem_cons.1 hx with rfl | hx
        · exact .inr ⟨x, by simp, ha⟩
        · rcases e4 x hx a ha with h | ⟨e0, h1, h2⟩
          · exact .inl h
          · exact .inr ⟨e0, by simp [h1], h2⟩
      · simpa [notesOf, List.find?_cons, c] using e5
      · intro p k hpk
        by_cases hp : e.1 = p
        · simp [notesOf, List.find?_cons, hp]
        · have := e6 p k hpk
          simpa [notesOf, List.find?_cons, hp] using this

/-- What the plugin has told of this kind is `old`, for the first `n` bytes of the text. -/
def HasTold (store : AnnotationStore V) (plugin : Nat) (kind : AnnotationType) (n : Nat) (old : List (Span V)) : Prop :=
  match notesOf store plugin kind with
  | none => n = 0 ∧ old = []
  | some a => a.items.Shows n old

theorem placeSpans_head {α T : Type} {tok : RevId → Nat} {e : Engine α} {h : RevId} (hh : e.getHeadRevId = some h) {start len : Nat} {spans : List (Span T)}
    (hs : SpansIn 0 len spans) : ∃ tree, placeSpans tok e start len spans (tok h) = some (⟨start, start + len⟩, tree) ∧ tree.Shows len spans := by
  obtain ⟨sb, t, e1, e2, w, hl, hi⟩ := SpansTree.build_exact hs
  have hsh := SpansTree.shows w hi
  rw [hl] at hsh
  obtain ⟨t', e3, w', t3⟩ := SpansTree.ofList_spec hs
  have key : SpansTree.ofList len spans = some t := by
    have k : ∀ (l : List (Span T)) (lo : Nat) (sb : SpansBuilder T), SpansIn lo len l →
        l.foldlM (fun sb s => do sb.addSpan (← Interval.new s.iv.start s.iv.stop) s.data) sb = l.foldlM (fun sb s => sb.addSpan s.iv s.data) sb := by
      intro l
      induction l with
      | nil => intro _ _ _; rfl
      | cons s l ih =>
        intro lo sb hs
        obtain ⟨h1, h2, h3, h4⟩ := hs
        rw [List.foldlM_cons, List.foldlM_cons]
        have : Interval.new s.iv.start s.iv.stop = some s.iv := by
          unfold Interval.new
          rw [if_pos (by omega)]
        simp only [this, Option.bind_eq_bind, Option.bind_some]
        cases sb.addSpan s.iv s.data with
        | none => rfl
        | some sb' => simp only [Option.bind_some]; exact ih _ _ h4
    unfold SpansTree.ofList
    rw [k spans 0 _ hs, e1]
    exact e2
  exact ⟨t, by simp [placeSpans, key, hh, Interval.new], hsh⟩

/-- **C83 (in part).**  What a plugin tells about a range of the current text takes the place of what it has told about the range, and of nothing else.  It is put
in its place if the plugin has told something of the kind about all the text before the range, and if the range cuts no annotation. -/
theorem C83_update_partial {α : Type} {tok : RevId → Nat} {e : Engine α} {h : RevId} (hh : e.getHeadRevId = some h) {store : AnnotationStore V} (hi : StoreInv store)
    (hst : StoreOk r store) {plugin start len n : Nat} {kind : AnnotationType} {spans old : List (Span V)} (hs : SpansIn 0 len spans)
    (hb : ∀ s ∈ spans, CharBoundary r.text (s.iv.start + start) ∧ CharBoundary r.text (s.iv.stop + start))
    (hold : HasTold store plugin kind n old) (hn : start ≤ n) (u1 : Uncut old start) (u2 : Uncut old (start + len)) :
    ∃ store', updateAnnotations tok e store plugin start len spans kind (tok h) = some store' ∧ StoreInv store' ∧ StoreOk r store' ∧
      HasTold store' plugin kind (max n (start + len)) (old.filter (fun s => s.iv.stop ≤ start) ++
        spans.map (fun s => ⟨⟨s.iv.start + start, s.iv.stop + start⟩, s.data⟩) ++ old.filter (fun s => start + len ≤ s.iv.start)) ∧
      ∀ p k, p ≠ plugin ∨ k ≠ kind → notesOf store' p k = notesOf store p k := by
  obtain ⟨tree, t1, t2⟩ := placeSpans_head (tok := tok) (start := start) hh hs
  have fin : ∀ a' : Annotations V, a'.kind = kind →
      (match notesOf store plugin kind with
        | none => a' = ⟨tree, kind⟩
        | some a => ∃ t, a.items.edit ⟨start, start + len⟩ tree = some t ∧ a'.items = t) →
      a'.items.Shows (max n (start + len)) (old.filter (fun s => s.iv.stop ≤ start) ++
        spans.map (fun s => ⟨⟨s.iv.start + start, s.iv.stop + start⟩, s.data⟩) ++ old.filter (fun s => start + len ≤ s.iv.start)) →
      SpansOk r old → ∃ store', updateAnnotations tok e store plugin start len spans kind (tok h) = some store' ∧ StoreInv store' ∧ StoreOk r store' ∧
        HasTold store' plugin kind (max n (start + len)) (old.filter (fun s => s.iv.stop ≤ start) ++
          spans.map (fun s => ⟨⟨s.iv.start + start, s.iv.stop + start⟩, s.data⟩) ++ old.filter (fun s => start + len ≤ s.iv.start)) ∧
        ∀ p k, p ≠ plugin ∨ k ≠ kind → notesOf store' p k = notesOf store p k := by
    intro a' hk hm hsh hok
    obtain ⟨store', s1, s2, -, s3, s4, s5⟩ := update_spec (iv := ⟨start, start + len⟩) (item := ⟨tree, kind⟩) (plugin := plugin) hi hk hm
    refine ⟨store', by simp only [updateAnnotations, t1, Option.bind_eq_bind, Option.bind_some, s1], s2, ?_, ?_, s5⟩
    · intro x hx a ha
      rcases s3 x hx a ha with rfl | ⟨e0, h1, h2⟩
      · refine ⟨_, _, hsh, ?_⟩
        intro s hs
        simp only [List.mem_append, List.mem_filter, List.mem_map] at hs
        rcases hs with (⟨hs, -⟩ | ⟨s0, hs, rfl⟩) | ⟨hs, -⟩
        · exact hok s hs
        · exact hb s0 hs
        · exact hok s hs
      · exact hst e0 h1 a h2
    · have s4 : notesOf store' plugin kind = some a' := s4
      simpa only [HasTold, s4] using hsh
  cases ho : notesOf store plugin kind with
  | none =>
    rw [HasTold, ho] at hold
    obtain ⟨rfl, rfl⟩ := hold
    have h0 : start = 0 := by omega
    subst h0
    refine fin ⟨tree, kind⟩ rfl (by rw [ho]) ?_ (fun s hs => by cases hs)
    have : spans.map (fun s => (⟨⟨s.iv.start + 0, s.iv.stop + 0⟩, s.data⟩ : Span V)) = spans := by simp
    rw [this]
    simpa using t2
  | some a =>
    rw [HasTold, ho] at hold
    obtain ⟨t, e1, e2⟩ := C36_edit hold t2 (iv := ⟨start, start + len⟩) (by show start ≤ start + len; omega) u1 u2
    have hok : SpansOk r old := by
      obtain ⟨x, hx, ha⟩ : ∃ x ∈ store, a ∈ x.2 := by
        simp only [notesOf, Option.bind_eq_some_iff] at ho
        obtain ⟨x, h1, h2⟩ := ho
        exact ⟨x, List.mem_of_find?_eq_some h1, List.mem_of_find?_eq_some h2⟩
      obtain ⟨len', sp, h1, h2⟩ := hst x hx a ha
      have := h1.2.2.1
      rw [hold.2.2.1, Option.some.injEq] at this
      rw [this]; exact h2
    refine fin ⟨t, kind⟩ rfl (by rw [ho]; exact ⟨t, e1, rfl⟩) ?_ hok
    have k1 : min start n = start := by omega
    have k2 : start + len + (n - (start + len)) = max n (start + len) := by omega
    have k3 : (old.filter (fun s => start + len ≤ s.iv.start)).map (fun s => (⟨⟨s.iv.start - (start + len) + (start + len), s.iv.stop - (start + len) + (start + len)⟩, s.data⟩ : Span V)) =
        old.filter (fun s => start + len ≤ s.iv.start) := by
      conv => rhs; rw [← List.map_id (old.filter (fun s => start + len ≤ s.iv.start))]
      apply List.map_congr_left
      intro s hs
      have h1 := (hold.2.2.2.1.bounds s (List.mem_filter.1 hs).1).2.1
      have h2 := (List.mem_filter.1 hs).2
      simp only [decide_eq_true_eq] at h2
      rw [show s.iv.start - (start + len) + (start + len) = s.iv.start by omega, show s.iv.stop - (start + len) + (start + len) = s.iv.stop by omega]
      rfl
    simp only [k1, k2, k3] at e2
    exact e2

/-! ## Edits -/

/-- **C83 (in part).**  What a plugin tells about a range of any revision that the engine still has, place by place: it is put where the text of the range is now
(`Placed`, see C82), in the place of what was told about it, also if annotations are cut by that; the annotations of all other places stay, and so do those of other
kinds and plugins.  The plugin has to have told something of the kind about the whole text. -/
theorem C83_older_partial {α : Type} {tok : RevId → Nat} {e : Engine α} (h : Engine.Reach tok e) {rev : Nat} {base : List α} (hx : e.getRev tok rev = some (some base))
    {store : AnnotationStore V} (hi : StoreInv store) {plugin start len : Nat} {kind : AnnotationType} {spans : List (Span V)} (hs : SpansIn 0 len spans)
    (hl : start + len ≤ base.length) (hend : EndKept tok e rev start (start + len)) {a : Annotations V} (ha : notesOf store plugin kind = some a)
    (hb : a.items.Balanced) (hlen : a.items.text.length = e.text.length) :
    ∃ d iv tree store' a', updateAnnotations tok e store plugin start len spans kind rev = some store' ∧ Placed d base e.text start len spans iv tree ∧
      (d = .nothing base.length ∧ base = e.text ∨ e.tryDeltaRevHead tok rev = some (.ok d) ∧ d.apply base = some e.text) ∧ StoreInv store' ∧
      notesOf store' plugin kind = some a' ∧ a'.items.Balanced ∧ a'.items.text.length = e.text.length ∧
      (∀ i : Nat, a'.items.text[i]? = if iv.start ≤ i ∧ i < iv.stop then tree.text[i - iv.start]? else a.items.text[i]?) ∧
      ∀ p k, p ≠ plugin ∨ k ≠ kind → notesOf store' p k = notesOf store p k := by
  obtain ⟨id, d, iv, tree, -, h1, h2, h3⟩ := C82_place_partial h hx hs hl hend
  have o := h2.order
  have n := h2.inside
  have sz := h2.size
  obtain ⟨t, e1, e2, e3⟩ := Node.edit_spec (iv := iv) hb h2.balanced (spans_cut (by omega)) (spans_cut (by omega))
  obtain ⟨store', s1, s2, -, -, s4, s5⟩ := update_spec (iv := iv) (item := ⟨tree, kind⟩) (plugin := plugin) (a' := ⟨t, kind⟩) hi rfl (by
    show (match notesOf store plugin kind with
      | none => _
      | some a => _)
    rw [ha]
    exact ⟨t, e1, rfl⟩)
  refine ⟨d, iv, tree, store', ⟨t, kind⟩, by simp only [updateAnnotations, h1, Option.bind_eq_bind, Option.bind_some, s1], h2, ?_, s2, s4, e3, ?_, ?_, s5⟩
  · split at h3
    · exact .inl ⟨h3.2, h3.1⟩
    · exact .inr h3
  · show t.text.length = _
    rw [e2]
    simp only [List.length_append, List.length_take, List.length_drop]
    omega
  · intro i
    show t.text[i]? = _
    rw [e2]
    by_cases c1 : i < iv.start
    · rw [if_neg (by omega), List.append_assoc, List.getElem?_append_left (by simp; omega), List.getElem?_take, if_pos c1]
    · by_cases c2 : i < iv.stop
      · rw [if_pos (by omega), List.append_assoc, List.getElem?_append_right (by simp; omega), List.getElem?_append_left (by simp; omega)]
        congr 1
        simp only [List.length_take]
        omega
      · rw [if_neg (by omega), List.getElem?_append_right (by simp; omega), List.getElem?_drop]
        congr 1
        simp only [List.length_append, List.length_take]
        omega

/-- No annotation ends after the start of the interval, or one meets it. -/
def Meets (iv : Interval) (spans : List (Span V)) : Prop :=
  (∀ s ∈ spans, s.iv.stop ≤ iv.start) ∨ ∃ s ∈ spans, iv.start < s.iv.stop ∧ s.iv.start < iv.stop ∧ iv.start < iv.stop

theorem kept_eq {lo hi : Nat} {iv : Interval} {spans kept : List (Span V)} (hs : SpansIn lo hi spans) (hm : Meets iv spans) (hp : kept <+: spans)
    (h1 : ∀ s ∈ kept, s.iv.stop ≤ iv.start ∨ iv.stop ≤ s.iv.start ∨ iv.stop ≤ iv.start)
    (h2 : ∀ s, spans[kept.length]? = some s → iv.start < s.iv.stop ∧ s.iv.start < iv.stop ∧ iv.start < iv.stop) :
    kept = spans.filter (fun s => s.iv.stop ≤ iv.start) := by
  obtain ⟨rest, rfl⟩ := hp
  have hlow : ∀ s ∈ kept, s.iv.stop ≤ iv.start := by
    rcases hm with hm | ⟨x, hx, m1, m2, m3⟩
    · exact fun s hs => hm s (by simp [hs])
    · intro k hk
      have := h1 k hk
      rcases List.mem_append.1 hx with hx' | hx'
      · have := h1 x hx'; omega
      · obtain ⟨a, b, rfl⟩ := List.append_of_mem hk
        rw [List.append_assoc, List.cons_append] at hs
        have g := hs.fromStart.2.2.2
        have := (g.bounds x (by simp [hx'])).1
        have := hs.fromStart.2.1
        omega
  have hhigh : ∀ s ∈ rest, iv.start < s.iv.stop := by
    cases rest with
    | nil => simp
    | cons y rest =>
      have := h2 y (by simp)
      intro s hs'
      rcases List.mem_cons.1 hs' with rfl | hs'
      · exact this.1
      · have g := hs.fromStart.2.2.2
        have := g.bounds s hs'
        omega
  rw [List.filter_append, List.filter_eq_self.2 (by simpa using hlow), List.filter_eq_nil_iff.2 (by simpa using hhigh), List.append_nil]

/-- The annotations that end before the edit are kept, the others are deleted. -/
def Cleared (iv : Interval) (a a' : Annotations V) : Prop :=
  a'.kind = a.kind ∧ ∃ len spans, a.items.Shows len spans ∧ a'.items.Shows len (spans.filter fun s => s.iv.stop ≤ iv.start)

theorem each_find {α β : Type} {R : α → β → Prop} {P : α → Bool} {Q : β → Bool} (h : ∀ a b, R a b → P a = Q b) {l : List α} {m : List β} (hr : Each R l m) :
    (l.find? P = none ∧ m.find? Q = none) ∨ ∃ a b, l.find? P = some a ∧ m.find? Q = some b ∧ R a b ∧ a ∈ l ∧ b ∈ m := by
  induction hr with
  | nil => exact .inl ⟨rfl, rfl⟩
  | @cons a b l m h1 _ ih =>
    simp only [List.find?_cons, h a b h1]
    cases hq : Q b with
    | true => exact .inr ⟨a, b, rfl, rfl, h1, by simp, by simp⟩
    | false =>
      rcases ih with ih | ⟨x, y, i1, i2, i3, i4, i5⟩
      · exact .inl ih
      · exact .inr ⟨x, y, i1, i2, i3, by simp [i4], by simp [i5]⟩

theorem each_map {α β γ : Type} {R : α → β → Prop} {f : α → γ} {f' : β → γ} (h : ∀ a b, R a b → f' b = f a) {l : List α} {m : List β} (hr : Each R l m) : m.map f' = l.map f := by
  induction hr with
  | nil => rfl
  | cons h1 _ ih => simp [h _ _ h1, ih]

theorem each_mem {α β : Type} {R : α → β → Prop} {l : List α} {m : List β} (hr : Each R l m) : ∀ b ∈ m, ∃ a ∈ l, R a b := by
  induction hr with
  | nil => simp
  | @cons a b l m h1 _ ih =>
    intro y hy
    rcases List.mem_cons.1 hy with rfl | hy
    · exact ⟨a, by simp, h1⟩
    · obtain ⟨x, hx, h⟩ := ih y hy
      exact ⟨x, by simp [hx], h⟩

/-- **C83 (in part).**  An edit deletes the annotations of each kind that do not end before it, if one of them meets what is replaced, or if there are none.  The
others are about the same text as before. -/
theorem C83_edit_partial {r' : Rope} {A old new B : List UInt8} (h1 : r.text = A ++ (old ++ B)) (h2 : r'.text = A ++ (new ++ B)) (uA : Utf8 A) (uo : Utf8 (old ++ B))
    (un : Utf8 (new ++ B)) {store : AnnotationStore V} (hi : StoreInv store) (hst : StoreOk r store)
    (hm : ∀ e ∈ store, ∀ a ∈ e.2, ∀ spans, a.items.iter = some spans → Meets ⟨A.length, A.length + old.length⟩ spans) :
    ∃ store', AnnotationStore.invalidate store ⟨A.length, A.length + old.length⟩ = some store' ∧ StoreInv store' ∧ StoreOk r' store' ∧
      ∀ p k, (notesOf store p k = none ∧ notesOf store' p k = none) ∨
        ∃ a a', notesOf store p k = some a ∧ notesOf store' p k = some a' ∧ Cleared ⟨A.length, A.length + old.length⟩ a a' := by
  have one : ∀ a : Annotations V, NotesOk r a → (∀ spans, a.items.iter = some spans → Meets ⟨A.length, A.length + old.length⟩ spans) →
      ∃ a', AnnotationStore.invalidateOne ⟨A.length, A.length + old.length⟩ a = some a' ∧ (Cleared ⟨A.length, A.length + old.length⟩ a a' ∧ NotesOk r' a') := by
    rintro a ⟨len, spans, hs, hb⟩ hm
    obtain ⟨m, kept, e1, e2, e3, e4, e5⟩ := C36_delete_after _ _ _ hs ⟨A.length, A.length + old.length⟩
    have := kept_eq hs.2.2.2.1 (hm spans hs.2.2.1) e3 e4 e5
    subst this
    refine ⟨⟨m, a.kind⟩, by simp [AnnotationStore.invalidateOne, e1], ⟨rfl, len, spans, hs, e2⟩, len, _, e2, ?_⟩
    intro s hs'
    obtain ⟨m1, m2⟩ := List.mem_filter.1 hs'
    simp only [decide_eq_true_eq] at m2
    obtain ⟨b1, b2⟩ := hb s m1
    have b3 := (hs.2.2.2.1.bounds s m1).2.1
    rw [h1, boundary_left uA uo (by omega)] at b1 b2
    rw [h2, boundary_left uA un (by omega), boundary_left uA un (by omega)]
    exact ⟨b1, b2⟩
  obtain ⟨store', f1, f2⟩ := mapM_each (l := store)
    (f := fun e => do return (e.1, ← e.2.mapM (AnnotationStore.invalidateOne ⟨A.length, A.length + old.length⟩)))
    (R := fun e e' => e'.1 = e.1 ∧ Each (fun a a' => Cleared ⟨A.length, A.length + old.length⟩ a a' ∧ NotesOk r' a') e.2 e'.2) (by
    intro e he
    obtain ⟨l', g1, g2⟩ := mapM_each (l := e.2) (fun a ha => one a (hst e he a ha) (hm e he a ha))
    exact ⟨(e.1, l'), by simp [g1], rfl, g2⟩)
  refine ⟨store', f1, ⟨?_, ?_⟩, ?_, ?_⟩
  · have hk := each_map (f := Prod.fst) (f' := Prod.fst) (fun a b h => h.1) f2
    have := hi.plugins
    rw [← List.pairwise_map (f := Prod.fst) (R := fun a b => a ≠ b)] at this ⊢
    rw [hk]; exact this
  · intro x hx
    obtain ⟨e, he, -, h⟩ := each_mem f2 x hx
    have hk := each_map (f := Annotations.kind) (f' := Annotations.kind) (fun a b h => h.1.1) h
    have := hi.kinds e he
    rw [← List.pairwise_map (f := Annotations.kind) (R := fun a b => a ≠ b)] at this ⊢
    rw [hk]; exact this
  · intro x hx a ha
    obtain ⟨e, he, -, h⟩ := each_mem f2 x hx
    obtain ⟨-, -, -, h⟩ := each_mem h a ha
    exact h
  · intro p k
    rcases each_find (P := fun e => decide (e.1 = p)) (Q := fun e => decide (e.1 = p)) (fun a b h => by rw [h.1]) f2 with ⟨g1, g2⟩ | ⟨e, e', g1, g2, ⟨-, g3⟩, -, -⟩
    · exact .inl ⟨by simp [notesOf, g1], by simp [notesOf, g2]⟩
    · rcases each_find (P := fun a => decide (a.kind = k)) (Q := fun a => decide (a.kind = k)) (fun a b h => by rw [h.1.1]) g3 with ⟨k1, k2⟩ | ⟨a, a', k1, k2, ⟨k3, -⟩, -, -⟩
      · exact .inl ⟨by simp [notesOf, g1, k1], by simp [notesOf, g2, k2]⟩
      · exact .inr ⟨a, a', by simp [notesOf, g1, k1], by simp [notesOf, g2, k2], k3⟩

/-- The texts and the annotations of a view that come about as the theorems above say. -/
inductive NotesReach : Rope → AnnotationStore V → Prop
  | start (r : Rope) : NotesReach r []
  | told {r : Rope} {store store' : AnnotationStore V} {α : Type} {tok : RevId → Nat} {e : Engine α} {h : RevId} {plugin start len n : Nat} {kind : AnnotationType}
      {spans old : List (Span V)} : NotesReach r store → e.getHeadRevId = some h → SpansIn 0 len spans →
      (∀ s ∈ spans, CharBoundary r.text (s.iv.start + start) ∧ CharBoundary r.text (s.iv.stop + start)) → HasTold store plugin kind n old → start ≤ n →
      Uncut old start → Uncut old (start + len) → updateAnnotations tok e store plugin start len spans kind (tok h) = some store' → NotesReach r store'
  | edit {r r' : Rope} {store store' : AnnotationStore V} {A old new B : List UInt8} : NotesReach r store → r.text = A ++ (old ++ B) → r'.text = A ++ (new ++ B) →
      Utf8 A → Utf8 (old ++ B) → Utf8 (new ++ B) →
      (∀ e ∈ store, ∀ a ∈ e.2, ∀ spans, a.items.iter = some spans → Meets ⟨A.length, A.length + old.length⟩ spans) →
      AnnotationStore.invalidate store ⟨A.length, A.length + old.length⟩ = some store' → NotesReach r' store'

/-- **C83 (in part).**  So all annotations stay about the text as it is, and can be sent. -/
theorem C83_session_partial {store : AnnotationStore V} (h : NotesReach r store) : StoreInv store ∧ StoreOk r store := by
  induction h with
  | start r => exact ⟨⟨.nil, by simp⟩, by intro e he; cases he⟩
  | told _ hh hs hb hold hn u1 u2 hu ih =>
    obtain ⟨s', k1, k2, k3, -⟩ := C83_update_partial hh ih.1 ih.2 hs hb hold hn u1 u2
    rw [hu, Option.some.injEq] at k1
    subst k1
    exact ⟨k2, k3⟩
  | edit _ h1 h2 uA uo un hm hu ih =>
    obtain ⟨s', k1, k2, k3, -⟩ := C83_edit_partial h1 h2 uA uo un ih.1 ih.2 hm
    rw [hu, Option.some.injEq] at k1
    subst k1
    exact ⟨k2, k3⟩

/-! ## Examples -/

/-- An engine that has just got its text. -/
def anE : Engine UInt8 := (Engine.new spTok ("ab\ncd\nef".toList.flatMap String.utf8EncodeChar)).get (by decide +kernel)

/-- A plugin has told of two places in "ab\ncd\nef". -/
def anS1 : AnnotationStore Nat := (updateAnnotations spTok anE [] 7 0 8 [⟨⟨0, 2⟩, 10⟩, ⟨⟨4, 8⟩, 11⟩] (.other "lint") 1).get (by decide +kernel)

/-- Then of another place, between them. -/
def anS2 : AnnotationStore Nat := (updateAnnotations spTok anE anS1 7 2 2 [⟨⟨1, 2⟩, 12⟩] (.other "lint") 1).get (by decide +kernel)

/-- Then "cd" was replaced. -/
def anS3 : AnnotationStore Nat := (AnnotationStore.invalidate anS2 ⟨3, 5⟩).get (by decide +kernel)

/-- What there is to see of the annotations of plugins. -/
def seenNotes (text : String) (store : AnnotationStore Nat) : Option (List (List AnnotationRange × Option (List Nat))) :=
  (sentAnnotations (noWrap (smallRope text)) (smallRope text) 0 10 [.caret 0] [] store).map fun l => l.tail.map fun s => (s.ranges, s.payloads)

theorem anE_head : anE.getHeadRevId = some ⟨1, 0, 1⟩ := by decide +kernel

theorem anS1_bounds : ∀ s ∈ ([⟨⟨0, 2⟩, 10⟩, ⟨⟨4, 8⟩, 11⟩] : List (Span Nat)), CharBoundary (smallRope "ab\ncd\nef").text (s.iv.start + 0) ∧
    CharBoundary (smallRope "ab\ncd\nef").text (s.iv.stop + 0) := by
  intro s hs
  simp only [List.mem_cons, List.not_mem_nil, or_false] at hs
  rcases hs with rfl | rfl <;> exact ⟨small_boundary (by decide +kernel), small_boundary (by decide +kernel)⟩

theorem anS1_def : updateAnnotations spTok anE [] 7 0 8 [⟨⟨0, 2⟩, 10⟩, ⟨⟨4, 8⟩, 11⟩] (.other "lint") (spTok ⟨1, 0, 1⟩) = some anS1 := by
  show updateAnnotations spTok anE [] 7 0 8 [⟨⟨0, 2⟩, 10⟩, ⟨⟨4, 8⟩, 11⟩] (.other "lint") 1 = some anS1
  simp [anS1]

theorem anS1_reach : NotesReach (smallRope "ab\ncd\nef") anS1 :=
  .told (n := 0) (old := []) (.start _) anE_head (by decide) anS1_bounds (by simp [HasTold, notesOf]) (Nat.le_refl _) (by simp [Uncut]) (by simp [Uncut]) anS1_def

theorem anS1_told : HasTold anS1 7 (.other "lint") 8 [⟨⟨0, 2⟩, 10⟩, ⟨⟨4, 8⟩, 11⟩] := by
  obtain ⟨s', h1, -, -, h2, -⟩ := C83_update_partial (r := smallRope "ab\ncd\nef") (n := 0) (old := []) (plugin := 7) (kind := .other "lint") (tok := spTok) anE_head
    (C83_session_partial (.start (V := Nat) (smallRope "ab\ncd\nef"))).1 (C83_session_partial (.start _)).2
    (start := 0) (len := 8) (by decide) anS1_bounds (by simp [HasTold, notesOf]) (Nat.le_refl _) (by simp [Uncut]) (by simp [Uncut])
  rw [anS1_def, Option.some.injEq] at h1
  subst h1
  exact h2

theorem anS2_reach : NotesReach (smallRope "ab\ncd\nef") anS2 := by
  refine .told (start := 2) (len := 2) (spans := [⟨⟨1, 2⟩, 12⟩]) anS1_reach anE_head (by decide) ?_ anS1_told (by decide) ?_ ?_
    (show updateAnnotations spTok anE anS1 7 2 2 [⟨⟨1, 2⟩, 12⟩] (.other "lint") 1 = some anS2 by simp [anS2])
  · intro s hs
    simp only [List.mem_cons, List.not_mem_nil, or_false] at hs
    subst hs
    exact ⟨small_boundary (by decide +kernel), small_boundary (by decide +kernel)⟩
  · unfold Uncut; decide
  · unfold Uncut; decide

theorem anS3_reach : NotesReach (smallRope "ab\nXYZ\nef") anS3 := by
  refine .edit (A := "ab\n".toList.flatMap String.utf8EncodeChar) (old := "cd".toList.flatMap String.utf8EncodeChar) (new := "XYZ".toList.flatMap String.utf8EncodeChar)
    (B := "\nef".toList.flatMap String.utf8EncodeChar) anS2_reach (by decide +kernel) (by decide +kernel) ⟨_, rfl⟩ ⟨"cd\nef".toList, by decide +kernel⟩
    ⟨"XYZ\nef".toList, by decide +kernel⟩ ?_ (show AnnotationStore.invalidate anS2 ⟨3, 5⟩ = some anS3 by simp [anS3])
  intro e he a ha spans hs
  have key : ∀ e ∈ anS2, ∀ a ∈ e.2, a.items.iter = some [⟨⟨0, 2⟩, 10⟩, ⟨⟨3, 4⟩, 12⟩, ⟨⟨4, 8⟩, 11⟩] := by decide +kernel
  rw [key e he a ha, Option.some.injEq] at hs
  subst hs
  exact .inr ⟨⟨⟨3, 4⟩, 12⟩, by simp, by decide⟩

/-- Both kinds of steps, and what is sent after them. -/
example : NotesReach (smallRope "ab\ncd\nef") anS2 ∧ seenNotes "ab\ncd\nef" anS2 = some [([⟨0, 0, 0, 2⟩, ⟨1, 0, 1, 1⟩, ⟨1, 1, 2, 2⟩], some [10, 12, 11])] ∧
    NotesReach (smallRope "ab\nXYZ\nef") anS3 ∧ seenNotes "ab\nXYZ\nef" anS3 = some [([⟨0, 0, 0, 2⟩], some [10])] :=
  ⟨anS2_reach, by decide +kernel, anS3_reach, by decide +kernel⟩

/-- The hypotheses of `C83_sent_partial` are met there. -/
example : Fits plainGraphemes (noWrap (smallRope "ab\ncd\nef")) (smallRope "ab\ncd\nef") ∧ Valid (smallRope "ab\ncd\nef") [.new 1 4] ∧ StoreOk (smallRope "ab\ncd\nef") anS2 ∧
    (sentAnnotations (noWrap (smallRope "ab\ncd\nef")) (smallRope "ab\ncd\nef") 0 10 [.new 1 4] [([.new 3 5, .new 6 7], 99)] anS2).map
      (fun l => l.map fun s => (s.ranges, s.payloads)) =
      some [([⟨0, 1, 1, 1⟩], none), ([⟨1, 0, 1, 2⟩, ⟨2, 0, 2, 1⟩], some [99, 99]), ([⟨0, 0, 0, 2⟩, ⟨1, 0, 1, 1⟩, ⟨1, 1, 2, 2⟩], some [10, 12, 11])] :=
  ⟨noWrap_fits (small_balanced (by decide +kernel)), Valid.single (small_region (by decide +kernel) (by decide +kernel)), (C83_session_partial anS2_reach).2, by decide +kernel⟩

/-- Annotations of all eight characters of the text of C82's example, after its insertion. -/
def lintStore : AnnotationStore Nat :=
  (updateAnnotations spTok spE1 ([] : AnnotationStore Nat) 7 0 8 [⟨⟨0, 8⟩, 10⟩] (.other "lint") (spTok ⟨1, 1, 1⟩)).get (by decide +kernel)

/-- The plugin then tells of three characters of the text before the insertion, which two characters were inserted into: they are told about where they are now,
and the hypotheses of `C83_older_partial` are met. -/
example : ((notesOf lintStore 7 (.other "lint")).map fun a => a.items.text) = some (List.replicate 8 (some 10)) ∧
    spE1.getRev spTok 1 = some (some [1, 2, 3, 4, 5, 6]) ∧ EndKept spTok spE1 1 2 (2 + 3) ∧
    ((updateAnnotations spTok spE1 lintStore 7 2 3 [⟨⟨0, 2⟩, 2⟩] (.other "lint") 1).bind fun s => (notesOf s 7 (.other "lint")).map fun a => a.items.text) =
      some [some 10, some 10, some 2, some 2, some 2, some 2, none, some 10] := by
  refine ⟨by decide +kernel, by decide +kernel, ?_, by decide +kernel⟩
  intro d hd hu
  have : spE1.tryDeltaRevHead spTok 1 = some (.ok ⟨[.copy 0 3, .insert [7, 8], .copy 3 6], 6⟩) := told_ok (by decide +kernel)
  rw [this] at hd
  obtain rfl := Except.ok.inj (Option.some.inj hd)
  decide

/-- **C83, refuted.**  The first annotations of a kind are put at the start of the text, wherever the range is that the plugin names: the interval is not used then
(annotations.rs:161-164 and 172).  Here the plugin tells of "cd" on the second line, and "ab" on the first one is marked. -/
theorem C83_first_refuted : (updateAnnotations spTok anE [] 7 3 2 [⟨⟨0, 2⟩, 10⟩] (.other "lint") 1).bind (seenNotes "ab\ncd\nef") = some [([⟨0, 0, 0, 2⟩], some [10])] := by
  decide +kernel

/-- **C83, refuted.**  Annotations after an edit that meets none are not moved: with "X" put before the text, "Xa" is marked instead of "ab". -/
theorem C83_insert_refuted : NotesReach (smallRope "ab\ncd\nef") anS1 ∧ seenNotes "ab\ncd\nef" anS1 = some [([⟨0, 0, 0, 2⟩, ⟨1, 1, 2, 2⟩], some [10, 11])] ∧
    (AnnotationStore.invalidate anS1 ⟨0, 0⟩).bind (seenNotes "Xab\ncd\nef") = some [([⟨0, 0, 0, 2⟩, ⟨1, 0, 2, 1⟩], some [10, 11])] :=
  ⟨anS1_reach, by decide +kernel, by decide +kernel⟩

/-- A plugin has told of one place in "ab\ncd\nef", at its end. -/
def anS4 : AnnotationStore Nat := (updateAnnotations spTok anE [] 7 0 8 [⟨⟨4, 8⟩, 11⟩] (.other "lint") 1).get (by decide +kernel)

/-- **C83, refuted.**  When text before an annotation is deleted, the annotation may end after the end of the text; then the next update of the view crashes. -/
theorem C83_delete_refuted : NotesReach (smallRope "ab\ncd\nef") anS4 ∧ ∃ s, AnnotationStore.invalidate anS4 ⟨0, 3⟩ = some s ∧ seenNotes "cd\nef" s = none := by
  refine ⟨.told (start := 0) (len := 8) (n := 0) (old := []) (spans := [⟨⟨4, 8⟩, 11⟩]) (plugin := 7) (kind := .other "lint") (.start _) anE_head (by decide) ?_
    (by simp [HasTold, notesOf]) (Nat.le_refl _) (by simp [Uncut]) (by simp [Uncut])
    (show updateAnnotations spTok anE [] 7 0 8 [⟨⟨4, 8⟩, 11⟩] (.other "lint") 1 = some anS4 by simp [anS4]), ?_⟩
  · intro s hs
    simp only [List.mem_cons, List.not_mem_nil, or_false] at hs
    subst hs
    exact ⟨small_boundary (by decide +kernel), small_boundary (by decide +kernel)⟩
  · exact ⟨(AnnotationStore.invalidate anS4 ⟨0, 3⟩).get (by decide +kernel), by simp, by decide +kernel⟩

end Xi.Gesture
