import Verif.View.StyleIds
import Verif.Props.Encode

/-!
# C84: a style number means the style it was defined for
-/

namespace Xi.Gesture

/-! ## Specification -/

/-- How a stretch of a line looks. -/
inductive Meaning where
  | find (index : Nat)
  | selection
  | style (s : Style)
deriving DecidableEq

/-- What a front end has been told about the numbers. -/
abbrev StyleTable := Nat → Option Style

/-- A front end is told styles: the last definition of a number counts. -/
def StyleTable.define (t : StyleTable) (defs : List (Nat × Style)) : StyleTable := defs.foldl (fun t d n => if n = d.1 then some d.2 else t n) t

/-- What a front end makes of a number (docs/docs/frontend-protocol.md, `def_style`): the first eight are reserved. -/
def meaningOf (t : StyleTable) (n : Nat) : Option Meaning :=
  if n = 0 then some .selection else if n < 8 then some (.find (n - 1)) else (t n).map .style

/-- How a line that was received looks: start, end and look of each stretch. -/
def seenAs (t : StyleTable) (styles : List Int) : List (Int × Int × Option Meaning) := (decodeStyles 0 styles).map fun p => (p.1, p.2.1, meaningOf t p.2.2.toNat)

/-- How a stretch should look: a style is on top of the theme's default. -/
def wantedMeaning (dflt : Style) : StyleRef → Meaning
  | .find i => .find i
  | .selection => .selection
  | .style s => .style (dflt.merge s)

/-- How a line should look. -/
def wanted (dflt : Style) (refs : StyleRefs) : List (Int × Int × Option Meaning) := refs.map fun p => ((p.1 : Int), (p.2.1 : Int), some (wantedMeaning dflt p.2.2))

/-- The highlights are of one of the first seven queries. -/
def FewQueries (refs : StyleRefs) : Prop := ∀ p ∈ refs, ∀ i, p.2.2 = .find i → i < 7

/-! ## The numbers -/

section

variable {Th : Type}

/-- The number of a stretch, if its style has one. -/
def numberOf (m : ThemeStyleMap Th) : StyleRef → Nat
  | .find i => i + 1
  | .selection => 0
  | .style s => (m.lookup s).getD 0

/-- The stretch has a number of its own. -/
def KnownRef (m : ThemeStyleMap Th) : StyleRef → Prop
  | .find i => i < 7
  | .selection => True
  | .style s => ∃ n, m.lookup s = some n

/-- The numbers are as the front end has been told. -/
def MapOk (m : ThemeStyleMap Th) (t : StyleTable) : Prop :=
  ∀ s n, m.lookup s = some n → 8 ≤ n ∧ n < 8 + m.styles.length ∧ t n = some (m.mergeWithDefault s)

/-- No number has changed. -/
structure Extends (m m' : ThemeStyleMap Th) : Prop where
  keep : ∀ s n, m.lookup s = some n → m'.lookup s = some n
  dflt : m'.defaultStyle = m.defaultStyle

theorem Extends.refl (m : ThemeStyleMap Th) : Extends m m := ⟨fun _ _ h => h, rfl⟩

theorem Extends.trans {a b c : ThemeStyleMap Th} (h : Extends a b) (h' : Extends b c) : Extends a c :=
  ⟨fun s n hs => h'.keep s n (h.keep s n hs), h'.dflt.trans h.dflt⟩

theorem Extends.known {m m' : ThemeStyleMap Th} (h : Extends m m') {r : StyleRef} (hk : KnownRef m r) : KnownRef m' r ∧ numberOf m' r = numberOf m r := by
  cases r with
  | find i => exact ⟨hk, rfl⟩
  | selection => exact ⟨trivial, rfl⟩
  | style s =>
    obtain ⟨n, hn⟩ := hk
    exact ⟨⟨n, h.keep s n hn⟩, by simp [numberOf, hn, h.keep s n hn]⟩

theorem define_append (t : StyleTable) (a b : List (Nat × Style)) : t.define (a ++ b) = (t.define a).define b := by simp [StyleTable.define]

theorem get_put {K V : Type} [DecidableEq K] (l : List (K × V)) (k k' : K) (v : V) :
    ThemeStyleMap.get? (ThemeStyleMap.put l k v) k' = if k' = k then some v else ThemeStyleMap.get? l k' := by
  unfold ThemeStyleMap.get? ThemeStyleMap.put
  by_cases h : k' = k
  · subst h
    simp
  · have h' : ¬ k = k' := fun e => h e.symm
    simp only [List.find?_cons, h', decide_false, h, if_false]
    congr 1
    rw [List.find?_filter]
    congr 1
    funext e
    by_cases he : e.1 = k'
    · simp [he, h]
    · simp [he]

/-- **C84.** A theme that is set starts the numbering again: the first style after it gets the first number that is not reserved, as in a new map. -/
theorem C84_reset {foreground : Th → Option Nat} {read : ThemePath → Option Th} {m m' : ThemeStyleMap Th} {name : String}
    (h : m.setTheme foreground read name = (true, m')) (s : Style) : m'.lookup s = none ∧ (m'.add s).1 = 8 ∧ (m'.add s).2.styles = [s] := by
  unfold ThemeStyleMap.setTheme at h
  split at h
  · cases h
  · split at h
    · cases h
    · cases h
      exact ⟨rfl, rfl, rfl⟩

/-- **C84.** A style gets a number that the front end has been told to mean the style on top of the
theme's default; no number changes its meaning. -/
theorem C84_number {m : ThemeStyleMap Th} {t : StyleTable} (h : MapOk m t) (s : Style) :
    MapOk (m.getOrDef s).2.1 (t.define (m.getOrDef s).2.2) ∧ Extends m (m.getOrDef s).2.1 ∧ (m.getOrDef s).2.1.lookup s = some (m.getOrDef s).1 ∧
      (t.define (m.getOrDef s).2.2) (m.getOrDef s).1 = some (m.defaultStyle.merge s) ∧ 8 ≤ (m.getOrDef s).1 ∧
      ∀ n, n < 8 + m.styles.length → (t.define (m.getOrDef s).2.2) n = t n := by
  unfold ThemeStyleMap.getOrDef
  cases hl : m.lookup s with
  | some ix =>
    obtain ⟨h1, h2, h3⟩ := h s ix hl
    exact ⟨h, Extends.refl m, hl, h3, h1, fun _ _ => rfl⟩
  | none =>
    have look : ∀ s', (m.add s).2.lookup s' = if s' = s then some (m.styles.length + 8) else m.lookup s' := by
      intro s'
      exact get_put m.map s s' _
    have hext : Extends m (m.add s).2 := by
      refine ⟨fun s' n hn => ?_, rfl⟩
      rw [look]
      by_cases e : s' = s
      · rw [e, hl] at hn
        cases hn
      · rw [if_neg e, hn]
    refine ⟨?_, hext, ?_, ?_, ?_, ?_⟩
    · intro s' n hn
      rw [look] at hn
      have hlen : (m.add s).2.styles.length = m.styles.length + 1 := by simp [ThemeStyleMap.add]
      by_cases e : s' = s
      · rw [if_pos e] at hn
        cases hn
        subst e
        exact ⟨by omega, by show _ < 8 + (m.add s').2.styles.length; omega, by simp [StyleTable.define, ThemeStyleMap.add, nReservedStyles]⟩
      · rw [if_neg e] at hn
        obtain ⟨h1, h2, h3⟩ := h s' n hn
        refine ⟨h1, by show _ < 8 + (m.add s).2.styles.length; omega, ?_⟩
        have : n ≠ m.styles.length + 8 := by omega
        simp only [StyleTable.define, ThemeStyleMap.add, nReservedStyles, List.foldl_cons, List.foldl_nil, this, if_false]
        exact h3
    · rw [look, if_pos rfl]
      rfl
    · simp [StyleTable.define]
      rfl
    · show 8 ≤ m.styles.length + 8
      omega
    · intro n hn
      have : n ≠ m.styles.length + 8 := by omega
      simp [StyleTable.define, ThemeStyleMap.add, nReservedStyles, this]

theorem numberOne_spec {m : ThemeStyleMap Th} {t : StyleTable} (h : MapOk m t) (r : StyleRef) (hq : ∀ i, r = .find i → i < 7) :
    MapOk (numberOne m r).2.1 (t.define (numberOne m r).2.2) ∧ Extends m (numberOne m r).2.1 ∧ KnownRef (numberOne m r).2.1 r ∧
      (numberOne m r).1 = numberOf (numberOne m r).2.1 r := by
  cases r with
  | find i => exact ⟨h, Extends.refl m, hq i rfl, rfl⟩
  | selection => exact ⟨h, Extends.refl m, trivial, rfl⟩
  | style s =>
    obtain ⟨h1, h2, h3, -⟩ := C84_number h s
    exact ⟨h1, h2, ⟨_, h3⟩, by simp [numberOne, numberOf, h3]⟩

/-- A line's styles with the numbers of the map. -/
def numbered (m : ThemeStyleMap Th) (refs : StyleRefs) : List Int := pushStyles 0 (refs.map fun p => (p.1, p.2.1, numberOf m p.2.2))

/-- All of a line's styles have numbers. -/
def KnownRefs (m : ThemeStyleMap Th) (refs : StyleRefs) : Prop := ∀ p ∈ refs, KnownRef m p.2.2

theorem Extends.numbered {m m' : ThemeStyleMap Th} (h : Extends m m') {refs : StyleRefs} (hk : KnownRefs m refs) :
    KnownRefs m' refs ∧ numbered m' refs = numbered m refs := by
  refine ⟨fun p hp => (h.known (hk p hp)).1, ?_⟩
  unfold Gesture.numbered
  congr 1
  apply List.map_congr_left
  intro p hp
  rw [(h.known (hk p hp)).2]

theorem numberRefs_spec : ∀ (refs : StyleRefs) {m : ThemeStyleMap Th} {t : StyleTable}, MapOk m t → FewQueries refs →
    MapOk (numberRefs m refs).2.1 (t.define (numberRefs m refs).2.2) ∧ Extends m (numberRefs m refs).2.1 ∧ KnownRefs (numberRefs m refs).2.1 refs ∧
      pushStyles 0 (numberRefs m refs).1 = numbered (numberRefs m refs).2.1 refs ∧
      (numberRefs m refs).1 = refs.map (fun p => (p.1, p.2.1, numberOf (numberRefs m refs).2.1 p.2.2))
  | [], m, t, h, _ => ⟨h, Extends.refl m, by simp [KnownRefs], rfl, rfl⟩
  | (a, b, r) :: refs, m, t, h, hq => by
    obtain ⟨h1, h2, h3, h4⟩ := numberOne_spec h r (fun i hi => hq _ (List.mem_cons_self ..) i hi)
    obtain ⟨g1, g2, g3, -, g5⟩ := numberRefs_spec refs h1 (fun p hp => hq p (List.mem_cons_of_mem _ hp))
    have hlist : (numberRefs m ((a, b, r) :: refs)).1 = ((a, b, r) :: refs).map
        (fun p => (p.1, p.2.1, numberOf (numberRefs m ((a, b, r) :: refs)).2.1 p.2.2)) := by
      simp only [numberRefs, List.map_cons, h4, (g2.known h3).2]
      exact congrArg _ g5
    refine ⟨?_, ?_, ?_, ?_, hlist⟩
    · simp only [numberRefs, define_append]
      exact g1
    · exact h2.trans g2
    · intro p hp
      rcases List.mem_cons.1 hp with rfl | hp
      · exact (g2.known h3).1
      · exact g3 p hp
    · rw [hlist]
      rfl

/-- **C84.** A line that is encoded looks to the front end as it should, if the highlights are of the
first seven queries. -/
theorem C84_line_partial {m : ThemeStyleMap Th} {t : StyleTable} (h : MapOk m t) {refs : StyleRefs} (hk : KnownRefs m refs) :
    seenAs t (numbered m refs) = wanted m.defaultStyle refs := by
  unfold seenAs numbered wanted
  rw [show (0 : Int) = ((0 : Nat) : Int) from rfl, C79_decode, List.map_map, List.map_map]
  apply List.map_congr_left
  rintro ⟨a, b, r⟩ hp
  simp only [Function.comp_apply, Int.toNat_natCast, Prod.mk.injEq, true_and]
  have hk := hk _ hp
  cases r with
  | find i =>
    have : i < 7 := hk
    simp [numberOf, meaningOf, wantedMeaning, show i + 1 < 8 by omega]
  | selection => rfl
  | style s =>
    obtain ⟨n, hn⟩ := hk
    obtain ⟨h1, h2, h3⟩ := h s n hn
    simp only [numberOf, hn, Option.getD_some, meaningOf, show ¬ n = 0 by omega, show ¬ n < 8 by omega, if_false, h3, Option.map_some, wantedMeaning]
    rfl

/-! ## Updates -/

variable {T : Type}

/-- A line with numbers. -/
def numberedLine (m : ThemeStyleMap Th) (L : ScreenLine T StyleRefs) : ScreenLine T (List Int) := ⟨L.text, numbered m L.styles, L.cursor⟩

/-- The styles of all lines have numbers. -/
def KnownLines (m : ThemeStyleMap Th) (client : List (Option (ScreenLine T StyleRefs))) : Prop := ∀ L, some L ∈ client → KnownRefs m L.styles

/-- The lines of the front end, with numbers. -/
def numberedClient (m : ThemeStyleMap Th) (client : List (Option (ScreenLine T StyleRefs))) : List (Option (ScreenLine T (List Int))) :=
  client.map (Option.map (numberedLine m))

theorem Extends.client {m m' : ThemeStyleMap Th} (h : Extends m m') {client : List (Option (ScreenLine T StyleRefs))} (hk : KnownLines m client) :
    KnownLines m' client ∧ numberedClient m' client = numberedClient m client := by
  refine ⟨fun L hL => (h.numbered (hk L hL)).1, ?_⟩
  apply List.map_congr_left
  intro o ho
  cases o with
  | none => rfl
  | some L => simp [numberedLine, (h.numbered (hk L ho)).2]

/-- An operation with its lines' styles numbered. -/
def numberedOp (m : ThemeStyleMap Th) : UpdateOp T StyleRefs → UpdateOp T (List Int)
  | .invalidate n => .invalidate n
  | .skip n => .skip n
  | .copy n => .copy n
  | .insert lines => .insert (lines.map fun l => (l.1, numbered m l.2.1, l.2.2))
  | .update lines => .update lines

/-- All styles of inserted lines have numbers. -/
def KnownOp (m : ThemeStyleMap Th) : UpdateOp T StyleRefs → Prop
  | .insert lines => ∀ l ∈ lines, KnownRefs m l.2.1
  | _ => True

/-- Highlights of inserted lines are of the first seven queries. -/
def FewOp : UpdateOp T StyleRefs → Prop
  | .insert lines => ∀ l ∈ lines, FewQueries l.2.1
  | _ => True

theorem Extends.op {m m' : ThemeStyleMap Th} (h : Extends m m') {op : UpdateOp T StyleRefs} (hk : KnownOp m op) : KnownOp m' op ∧ numberedOp m' op = numberedOp m op := by
  cases op with
  | insert lines =>
    refine ⟨fun l hl => (h.numbered (hk l hl)).1, ?_⟩
    simp only [numberedOp, UpdateOp.insert.injEq]
    apply List.map_congr_left
    intro l hl
    rw [(h.numbered (hk l hl)).2]
  | _ => exact ⟨trivial, rfl⟩

theorem numberLines_spec : ∀ (lines : List (T × StyleRefs × Option (List Nat))) {m : ThemeStyleMap Th} {t : StyleTable}, MapOk m t →
    (∀ l ∈ lines, FewQueries l.2.1) →
    MapOk (numberLines m lines).2.1 (t.define (numberLines m lines).2.2) ∧ Extends m (numberLines m lines).2.1 ∧
      (∀ l ∈ lines, KnownRefs (numberLines m lines).2.1 l.2.1) ∧
      (numberLines m lines).1 = lines.map (fun l => (l.1, numbered (numberLines m lines).2.1 l.2.1, l.2.2))
  | [], m, t, h, _ => ⟨h, Extends.refl m, by simp, rfl⟩
  | (a, refs, c) :: lines, m, t, h, hq => by
    obtain ⟨h1, h2, h3, h4, -⟩ := numberRefs_spec refs h (hq _ (List.mem_cons_self ..))
    obtain ⟨g1, g2, g3, g4⟩ := numberLines_spec lines h1 (fun l hl => hq l (List.mem_cons_of_mem _ hl))
    refine ⟨?_, h2.trans g2, ?_, ?_⟩
    · simp only [numberLines, define_append]
      exact g1
    · intro l hl
      rcases List.mem_cons.1 hl with rfl | hl
      · exact (g2.numbered h3).1
      · exact g3 l hl
    · simp only [numberLines, List.map_cons, h4, (g2.numbered h3).2]
      exact congrArg _ g4

theorem numberOps_spec : ∀ (ops : List (UpdateOp T StyleRefs)) {m : ThemeStyleMap Th} {t : StyleTable}, MapOk m t → (∀ op ∈ ops, FewOp op) →
    MapOk (numberOps m ops).2.1 (t.define (numberOps m ops).2.2) ∧ Extends m (numberOps m ops).2.1 ∧ (∀ op ∈ ops, KnownOp (numberOps m ops).2.1 op) ∧
      (numberOps m ops).1 = ops.map (numberedOp (numberOps m ops).2.1)
  | [], m, t, h, _ => ⟨h, Extends.refl m, by simp, rfl⟩
  | .insert lines :: ops, m, t, h, hq => by
    obtain ⟨h1, h2, h3, h4⟩ := numberLines_spec lines h (hq _ (List.mem_cons_self ..))
    obtain ⟨g1, g2, g3, g4⟩ := numberOps_spec ops h1 (fun l hl => hq l (List.mem_cons_of_mem _ hl))
    have e := g2.op (op := .insert lines) h3
    refine ⟨?_, h2.trans g2, ?_, ?_⟩
    · simp only [numberOps, define_append]
      exact g1
    · intro l hl
      rcases List.mem_cons.1 hl with rfl | hl
      · exact e.1
      · exact g3 l hl
    · simp only [numberOps, List.map_cons, e.2, h4]
      exact congrArg _ g4
  | .invalidate n :: ops, m, t, h, hq => by
    obtain ⟨g1, g2, g3, g4⟩ := numberOps_spec ops h (fun l hl => hq l (List.mem_cons_of_mem _ hl))
    refine ⟨g1, g2, ?_, by simp only [numberOps, List.map_cons]; exact congrArg _ g4⟩
    intro op hop
    rcases List.mem_cons.1 hop with rfl | hop
    · trivial
    · exact g3 op hop
  | .skip n :: ops, m, t, h, hq => by
    obtain ⟨g1, g2, g3, g4⟩ := numberOps_spec ops h (fun l hl => hq l (List.mem_cons_of_mem _ hl))
    refine ⟨g1, g2, ?_, by simp only [numberOps, List.map_cons]; exact congrArg _ g4⟩
    intro op hop
    rcases List.mem_cons.1 hop with rfl | hop
    · trivial
    · exact g3 op hop
  | .copy n :: ops, m, t, h, hq => by
    obtain ⟨g1, g2, g3, g4⟩ := numberOps_spec ops h (fun l hl => hq l (List.mem_cons_of_mem _ hl))
    refine ⟨g1, g2, ?_, by simp only [numberOps, List.map_cons]; exact congrArg _ g4⟩
    intro op hop
    rcases List.mem_cons.1 hop with rfl | hop
    · trivial
    · exact g3 op hop
  | .update lines :: ops, m, t, h, hq => by
    obtain ⟨g1, g2, g3, g4⟩ := numberOps_spec ops h (fun l hl => hq l (List.mem_cons_of_mem _ hl))
    refine ⟨g1, g2, ?_, by simp only [numberOps, List.map_cons]; exact congrArg _ g4⟩
    intro op hop
    rcases List.mem_cons.1 hop with rfl | hop
    · trivial
    · exact g3 op hop

/-- An update is applied to numbered lines as to the lines themselves. -/
theorem apply_numbered (m : ThemeStyleMap Th) (mi : Missing) (client : List (Option (ScreenLine T StyleRefs))) : ∀ (ops : List (UpdateOp T StyleRefs)) (ix : Nat),
    applyUpdate mi (numberedClient m client) (ops.map (numberedOp m)) ix = (applyUpdate mi client ops ix).map (numberedClient m)
  | [], ix => rfl
  | op :: ops, ix => by
    have ih := apply_numbered m mi client ops
    have happ : ∀ a b : List (Option (ScreenLine T StyleRefs)), numberedClient m (a ++ b) = numberedClient m a ++ numberedClient m b := by
      intro a b
      simp [numberedClient]
    have hcut : ∀ k n, ((numberedClient m client).drop k).take n = numberedClient m ((client.drop k).take n) := by
      intro k n
      simp [numberedClient, List.map_take, List.map_drop]
    have hl : (numberedClient m client).length = client.length := by simp [numberedClient]
    cases op with
    | invalidate n =>
      simp only [List.map_cons, numberedOp, applyUpdate, ih, Option.map_map]
      congr 1
      funext x
      simp [numberedClient]
    | skip n => simp only [List.map_cons, numberedOp, applyUpdate, ih]
    | copy n =>
      simp only [List.map_cons, numberedOp, applyUpdate, ih, hl, hcut]
      split
      · rw [Option.map_map, Option.map_map]
        congr 1
        funext x
        simp [happ]
      · rfl
    | insert lines =>
      simp only [List.map_cons, numberedOp, applyUpdate, ih, Option.map_map]
      congr 1
      funext x
      simp [numberedClient, numberedLine]
    | update lines =>
      simp only [List.map_cons, numberedOp, applyUpdate, ih, hl, hcut]
      split
      · rw [Option.map_map, Option.map_map]
        congr 1
        funext x
        simp only [Function.comp_apply, happ]
        congr 1
        simp only [numberedClient, List.map_zipWith, List.zipWith_map_left]
        congr 1
        funext o c
        cases o <;> rfl
      · rfl

/-- What the front end has afterwards comes from what it had and what was inserted. -/
theorem apply_known {m : ThemeStyleMap Th} {mi : Missing} {client : List (Option (ScreenLine T StyleRefs))} (hk : KnownLines m client) :
    ∀ (ops : List (UpdateOp T StyleRefs)) (ix : Nat) {client' : List (Option (ScreenLine T StyleRefs))}, (∀ op ∈ ops, KnownOp m op) →
      applyUpdate mi client ops ix = some client' → KnownLines m client'
  | [], ix, client', _, h => by
    cases h
    intro L hL
    simp at hL
  | op :: ops, ix, client', ho, h => by
    have ih := fun ix {c} => apply_known (mi := mi) hk ops ix (client' := c) (fun o hx => ho o (List.mem_cons_of_mem _ hx))
    have hop := ho op (List.mem_cons_self ..)
    have both : ∀ {a b : List (Option (ScreenLine T StyleRefs))}, KnownLines m a → KnownLines m b → KnownLines m (a ++ b) := by
      intro a b ha hb L hL
      rcases List.mem_append.1 hL with h | h
      · exact ha L h
      · exact hb L h
    cases op with
    | invalidate n =>
      simp only [applyUpdate, Option.map_eq_some_iff] at h
      obtain ⟨c, h1, rfl⟩ := h
      refine both ?_ (ih ix h1)
      intro L hL
      simp at hL
    | skip n => exact ih _ h
    | copy n =>
      simp only [applyUpdate] at h
      split at h
      · simp only [Option.map_eq_some_iff] at h
        obtain ⟨c, h1, rfl⟩ := h
        refine both ?_ (ih _ h1)
        intro L hL
        exact hk L (List.mem_of_mem_drop (List.mem_of_mem_take hL))
      · cases h
    | insert lines =>
      simp only [applyUpdate, Option.map_eq_some_iff] at h
      obtain ⟨c, h1, rfl⟩ := h
      refine both ?_ (ih ix h1)
      intro L hL
      simp only [List.mem_map, Option.some.injEq] at hL
      obtain ⟨l, hl, rfl⟩ := hL
      exact hop l hl
    | update lines =>
      simp only [applyUpdate] at h
      split at h
      · simp only [Option.map_eq_some_iff] at h
        obtain ⟨c, h1, rfl⟩ := h
        refine both ?_ (ih _ h1)
        intro L hL
        obtain ⟨k, hk'⟩ := List.getElem?_of_mem hL
        rw [List.getElem?_zipWith] at hk'
        split at hk'
        · rename_i o c' e1 e2
          cases o with
          | none => simp [Missing.line] at hk'
          | some L' =>
            simp only [Missing.line, Option.map_some, Option.some.injEq] at hk'
            subst hk'
            exact hk L' (List.mem_of_mem_drop (List.mem_of_mem_take (List.mem_of_getElem? e1)))
        · cases hk'
      · cases h

/-! ## Sessions -/

/-- A view and the lines the front end has of it; `st` tells what the lines were encoded from. -/
structure StyledView (T : Type) where
  st : ViewState T StyleRefs
  front : List (Option (ScreenLine T (List Int)))

/-- An update is sent: its styles are numbered and defined, then it is applied to what the front end has. -/
def sendStyled (mi : Missing) (m : ThemeStyleMap Th) (t : StyleTable) (v : StyledView T) (shadow' : LineCacheShadow) (ops : List (UpdateOp T StyleRefs)) :
    Option (ThemeStyleMap Th × StyleTable × StyledView T) := do
  let sent := numberOps m ops
  return (sent.2.1, t.define sent.2.2, ⟨⟨shadow', v.st.cur, ← applyUpdate mi v.st.client ops 0⟩, ← applyUpdate mi v.front sent.1 0⟩)

/-- The lines of a view after a change of theme, and its window. -/
structure Redrawn (T : Type) where
  cur : List (ScreenLine T StyleRefs)
  firstLine : Nat
  height : Nat

/-- `notify_client_and_update_views`, tabs.rs:457-470: all views are made dirty and rendered, one after the other. -/
def redrawAll (mi : Missing) : ThemeStyleMap Th → StyleTable → List (StyledView T × Redrawn T) → Option (ThemeStyleMap Th × StyleTable × List (StyledView T))
  | m, t, [] => some (m, t, [])
  | m, t, (v, d) :: rest => do
    let (shadow', ops) ← renderIfDirty d.cur (.allDirty d.cur.length) d.firstLine d.height
    let (m, t, v) ← sendStyled mi m t ⟨⟨.allDirty d.cur.length, d.cur, v.st.client⟩, v.front⟩ shadow' ops
    let (m, t, vs) ← redrawAll mi m t rest
    return (m, t, v :: vs)

/-- All highlights on the lines are of the first seven queries. -/
def FewLines (cur : List (ScreenLine T StyleRefs)) : Prop := ∀ L ∈ cur, FewQueries L.styles

/-- The map, what the front end knows of it, and all views. -/
structure StyledState (Th T : Type) where
  map : ThemeStyleMap Th
  table : StyleTable
  views : List (StyledView T)

/-- What happens: a view opens or closes, it changes without a message to the front end (see C57 and C80 for what is
told to the shadow), it sends an update, another theme is set, or the folder of themes changes. -/
inductive StyledStep (foreground : Th → Option Nat) (mi : Missing) : StyledState Th T → StyledState Th T → Prop
  | opened (s : StyledState Th T) (cur : List (ScreenLine T StyleRefs)) (h : 0 < cur.length) (hf : FewLines cur) :
      StyledStep foreground mi s { s with views := ⟨⟨.allDirty cur.length, cur, []⟩, []⟩ :: s.views }
  | closed (s : StyledState Th T) (pre post : List (StyledView T)) (v : StyledView T) (h : s.views = pre ++ v :: post) :
      StyledStep foreground mi s { s with views := pre ++ post }
  | changed (s : StyledState Th T) (pre post : List (StyledView T)) (v : StyledView T) (st : ViewState T StyleRefs) (h : s.views = pre ++ v :: post)
      (hs : ViewStep mi v.st st) (hc : st.client = v.st.client) (hf : FewLines st.cur) :
      StyledStep foreground mi s { s with views := pre ++ ⟨st, v.front⟩ :: post }
  | render (s : StyledState Th T) (pre post : List (StyledView T)) (v v' : StyledView T) (h : s.views = pre ++ v :: post) (firstLine height : Nat)
      (shadow' : LineCacheShadow) (ops : List (UpdateOp T StyleRefs)) (hr : renderIfDirty v.st.cur v.st.shadow firstLine height = some (shadow', ops))
      (m : ThemeStyleMap Th) (t : StyleTable) (hs : sendStyled mi s.map s.table v shadow' ops = some (m, t, v')) :
      StyledStep foreground mi s ⟨m, t, pre ++ v' :: post⟩
  | request (s : StyledState Th T) (pre post : List (StyledView T)) (v v' : StyledView T) (h : s.views = pre ++ v :: post) (firstLine height a b : Nat)
      (hab : a < b) (shadow' : LineCacheShadow) (ops : List (UpdateOp T StyleRefs))
      (hr : viewRequestLines v.st.cur v.st.shadow firstLine height a b = some (shadow', ops))
      (m : ThemeStyleMap Th) (t : StyleTable) (hs : sendStyled mi s.map s.table v shadow' ops = some (m, t, v')) :
      StyledStep foreground mi s ⟨m, t, pre ++ v' :: post⟩
  | theme (s : StyledState Th T) (read : ThemePath → Option Th) (name : String) (m m' : ThemeStyleMap Th) (t' : StyleTable) (drawn : List (Redrawn T))
      (views : List (StyledView T)) (h : s.map.setTheme foreground read name = (true, m)) (hl : drawn.length = s.views.length)
      (hf : ∀ d ∈ drawn, 0 < d.cur.length ∧ FewLines d.cur) (hr : redrawAll mi m s.table (s.views.zip drawn) = some (m', t', views)) :
      StyledStep foreground mi s ⟨m', t', views⟩
  | files (s : StyledState Th T) (m : ThemeStyleMap Th) (h : m.map = s.map.map ∧ m.styles = s.map.styles ∧ m.defaultStyle = s.map.defaultStyle) :
      StyledStep foreground mi s { s with map := m }

/-- The states of a session: it begins without views. -/
inductive StyledReach (foreground : Th → Option Nat) (mi : Missing) : StyledState Th T → Prop
  | start (m : ThemeStyleMap Th) (builtIn : List (String × Th)) (h : ThemeStyleMap.new foreground builtIn = some m) :
      StyledReach foreground mi ⟨m, fun _ => none, []⟩
  | step (s s' : StyledState Th T) (h : StyledReach foreground mi s) (hs : StyledStep foreground mi s s') : StyledReach foreground mi s'

/-- What is always true of a view. -/
structure ViewOk (mi : Missing) (m : ThemeStyleMap Th) (v : StyledView T) : Prop where
  reach : ViewReachable mi v.st
  few : FewLines v.st.cur
  known : KnownLines m v.st.client
  front : v.front = numberedClient m v.st.client

theorem ViewOk.extend {mi : Missing} {m m' : ThemeStyleMap Th} (h : Extends m m') {v : StyledView T} (hv : ViewOk mi m v) : ViewOk mi m' v :=
  ⟨hv.reach, hv.few, (h.client hv.known).1, by rw [hv.front, (h.client hv.known).2]⟩

theorem encodeLines_few {cur : List (ScreenLine T StyleRefs)} (hf : FewLines cur) (a n : Nat) : ∀ l ∈ encodeLines cur a n, FewQueries l.2.1 := by
  intro l hl
  simp only [encodeLines, List.mem_map] at hl
  obtain ⟨L, hL, rfl⟩ := hl
  exact hf L (List.mem_of_mem_drop (List.mem_of_mem_take hL))

theorem updateLoop_few {cur : List (ScreenLine T StyleRefs)} (hf : FewLines cur) : ∀ (segs : List PlanSegment) (b : List ShadowSpan) (ops : List (UpdateOp T StyleRefs))
    (n : Nat) {r : List ShadowSpan × List (UpdateOp T StyleRefs)}, (∀ op ∈ ops, FewOp op) → updateLoop cur segs b ops n = some r → ∀ op ∈ r.2, FewOp op
  | [], b, ops, n, r, h, e => by
    cases e
    exact h
  | seg :: segs, b, ops, n, r, h, e => by
    have more : ∀ x : List (UpdateOp T StyleRefs), (∀ op ∈ x, FewOp op) → ∀ op ∈ ops ++ x, FewOp op := by
      intro x hx op hop
      rcases List.mem_append.1 hop with h' | h'
      · exact h op h'
      · exact hx op h'
    simp only [updateLoop] at e
    split at e
    · exact updateLoop_few hf segs _ _ _ (more _ (by simp [FewOp])) e
    · split at e
      · split at e
        · cases e
        · refine updateLoop_few hf segs _ _ _ (more _ ?_) e
          unfold copyOps
          intro op hop
          rcases List.mem_append.1 hop with h' | h'
          · split at h'
            · simp only [List.mem_singleton] at h'
              subst h'
              trivial
            · simp at h'
          · split at h'
            · simp only [List.mem_singleton] at h'
              subst h'
              trivial
            · simp only [List.mem_singleton] at h'
              subst h'
              trivial
      · split at e
        · exact updateLoop_few hf segs _ _ _ (more _ (by simp [FewOp])) e
        · split at e
          · cases e
          · refine updateLoop_few hf segs _ _ _ (more _ ?_) e
            intro op hop
            simp only [List.mem_singleton] at hop
            subst hop
            exact encodeLines_few hf _ _

theorem sendUpdate_few {cur : List (ScreenLine T StyleRefs)} (hf : FewLines cur) {s : LineCacheShadow} {plan : RenderPlan}
    {r : LineCacheShadow × List (UpdateOp T StyleRefs)} (h : sendUpdate cur s plan = some r) : ∀ op ∈ r.2, FewOp op := by
  simp only [sendUpdate, Option.bind_eq_bind, Option.bind_eq_some_iff] at h
  obtain ⟨b, -, h⟩ := h
  split at h
  · simp only [Option.bind_eq_some_iff] at h
    obtain ⟨segs, -, x, h2, h3⟩ := h
    cases h3
    exact updateLoop_few hf segs [] [] 0 (by simp) h2
  · cases h
    intro op hop
    simp only [List.mem_singleton] at hop
    subst hop
    trivial

/-- An update of a view. -/
theorem sendStyled_ok {mi : Missing} {m : ThemeStyleMap Th} {t : StyleTable} (hm : MapOk m t) {v : StyledView T} (hk : KnownLines m v.st.client)
    (hfr : v.front = numberedClient m v.st.client) {shadow' : LineCacheShadow} {ops : List (UpdateOp T StyleRefs)} (ho : ∀ op ∈ ops, FewOp op) {m' : ThemeStyleMap Th}
    {t' : StyleTable} {v' : StyledView T} (h : sendStyled mi m t v shadow' ops = some (m', t', v')) :
    MapOk m' t' ∧ Extends m m' ∧ KnownLines m' v'.st.client ∧ v'.front = numberedClient m' v'.st.client ∧ v'.st.shadow = shadow' ∧ v'.st.cur = v.st.cur ∧
      applyUpdate mi v.st.client ops 0 = some v'.st.client := by
  simp only [sendStyled, Option.bind_eq_bind, Option.bind_eq_some_iff] at h
  obtain ⟨client, h1, front, h2, h3⟩ := h
  cases h3
  obtain ⟨g1, g2, g3, g4⟩ := numberOps_spec ops hm ho
  obtain ⟨k1, k2⟩ := g2.client hk
  refine ⟨g1, g2, apply_known k1 ops 0 g3 h1, ?_, rfl, rfl, h1⟩
  have := apply_numbered (numberOps m ops).2.1 mi v.st.client ops 0
  rw [k2, ← hfr, ← g4, h1, h2] at this
  exact Option.some.inj this

theorem planSegments_validity : ∀ (fuel : Nat) (spans : List ShadowSpan) (a : Nat) (plan : RenderPlan) (b : Nat) {segs : List PlanSegment},
    planSegments fuel spans a plan b = some segs → ∀ seg ∈ segs, ∃ sp ∈ spans, seg.validity = sp.validity
  | 0, _, _, _, _, segs, h => by
    cases h
    simp
  | fuel + 1, [], _, _, _, segs, h => by
    cases h
    simp
  | fuel + 1, sp :: spans, _, [], _, segs, h => by
    cases h
    simp
  | fuel + 1, sp :: spans, a, p :: plan, b, segs, h => by
    simp only [planSegments, Option.bind_eq_bind] at h
    split at h
    · cases h
    · simp only [Option.bind_eq_some_iff] at h
      obtain ⟨rest, h1, h2⟩ := h
      cases h2
      intro seg hseg
      rcases List.mem_cons.1 hseg with rfl | hseg
      · exact ⟨sp, List.mem_cons_self .., rfl⟩
      · obtain ⟨x, hx, e⟩ := planSegments_validity fuel _ _ _ _ h1 seg hseg
        split at hx
        · exact ⟨x, List.mem_cons_of_mem _ hx, e⟩
        · exact ⟨x, hx, e⟩

/-- An operation that keeps nothing of what the front end has. -/
def FreshOp : UpdateOp T StyleRefs → Prop
  | .insert _ => True
  | .invalidate _ => True
  | _ => False

theorem updateLoop_fresh {cur : List (ScreenLine T StyleRefs)} : ∀ (segs : List PlanSegment) (b : List ShadowSpan) (ops : List (UpdateOp T StyleRefs))
    (n : Nat) {r : List ShadowSpan × List (UpdateOp T StyleRefs)}, (∀ seg ∈ segs, seg.validity = .invalid) → (∀ op ∈ ops, FreshOp op) →
    updateLoop cur segs b ops n = some r → ∀ op ∈ r.2, FreshOp op
  | [], b, ops, n, r, _, h, e => by
    cases e
    exact h
  | seg :: segs, b, ops, n, r, hv, h, e => by
    have more : ∀ x : UpdateOp T StyleRefs, FreshOp x → ∀ op ∈ ops ++ [x], FreshOp op := by
      intro x hx op hop
      rcases List.mem_append.1 hop with h' | h'
      · exact h op h'
      · simp only [List.mem_singleton] at h'
        subst h'
        exact hx
    have hvs := fun s hs => hv s (List.mem_cons_of_mem _ hs)
    simp only [updateLoop, hv seg (List.mem_cons_self ..), Validity.invalid, Bool.and_self, Bool.false_eq_true, if_false] at e
    split at e
    · exact updateLoop_fresh segs _ _ _ hvs (more _ (by simp [FreshOp])) e
    · split at e
      · exact updateLoop_fresh segs _ _ _ hvs (more _ (by simp [FreshOp])) e
      · split at e
        · cases e
        · exact updateLoop_fresh segs _ _ _ hvs (more _ (by simp [FreshOp])) e

theorem render_fresh {cur : List (ScreenLine T StyleRefs)} {firstLine height : Nat} {r : LineCacheShadow × List (UpdateOp T StyleRefs)}
    (h : renderIfDirty cur (.allDirty cur.length) firstLine height = some r) : ∀ op ∈ r.2, FreshOp op := by
  simp only [renderIfDirty, sendUpdate, Option.bind_eq_bind, Option.bind_eq_some_iff] at h
  obtain ⟨plan, -, b, hb, h⟩ := h
  have hd : (LineCacheShadow.allDirty cur.length).dirty = true := rfl
  simp only [LineCacheShadow.needsRender, hd, if_true, Option.some.injEq] at hb
  subst hb
  simp only [if_true, Option.bind_eq_some_iff] at h
  obtain ⟨segs, h1, x, h2, h3⟩ := h
  cases h3
  refine updateLoop_fresh segs [] [] 0 ?_ (by simp) h2
  intro seg hseg
  obtain ⟨sp, hsp, e⟩ := planSegments_validity _ _ _ _ _ h1 seg hseg
  rw [e]
  simp only [LineCacheShadow.allDirty, addSpan, List.getLast?_nil] at hsp
  split at hsp
  · simp at hsp
    rw [hsp]
  · simp at hsp

/-- Such operations do not look at what the front end has. -/
theorem apply_fresh {S : Type} {mi : Missing} (old old' : List (Option (ScreenLine T S))) : ∀ (ops : List (UpdateOp T S)) (ix ix' : Nat),
    (∀ op ∈ ops, (∃ l, op = .insert l) ∨ ∃ n, op = .invalidate n) → applyUpdate mi old ops ix = applyUpdate mi old' ops ix'
  | [], _, _, _ => rfl
  | op :: ops, ix, ix', h => by
    have ih := apply_fresh (mi := mi) old old' ops ix ix' (fun o ho => h o (List.mem_cons_of_mem _ ho))
    rcases h op (List.mem_cons_self ..) with ⟨l, rfl⟩ | ⟨n, rfl⟩
    · simp only [applyUpdate, ih]
    · simp only [applyUpdate, ih]

theorem redrawAll_ok {mi : Missing} : ∀ (l : List (StyledView T × Redrawn T)) {m m' : ThemeStyleMap Th} {t t' : StyleTable} {views : List (StyledView T)},
    MapOk m t → (∀ p ∈ l, ViewReachable mi p.1.st ∧ 0 < p.2.cur.length ∧ FewLines p.2.cur) → redrawAll mi m t l = some (m', t', views) →
    MapOk m' t' ∧ Extends m m' ∧ views.map (fun v => v.st.cur) = l.map (fun p => p.2.cur) ∧ ∀ v ∈ views, ViewOk mi m' v
  | [], m, m', t, t', views, hm, _, h => by
    cases h
    exact ⟨hm, Extends.refl _, rfl, by simp⟩
  | (v, d) :: l, m, m', t, t', views, hm, hl, h => by
    simp only [redrawAll, Option.bind_eq_bind, Option.bind_eq_some_iff] at h
    obtain ⟨⟨shadow', ops⟩, h1, ⟨m1, t1, v1⟩, h2, ⟨m2, t2, vs⟩, h3, h4⟩ := h
    cases h4
    obtain ⟨k1, k2, k3⟩ := hl _ (List.mem_cons_self ..)
    have hfresh := render_fresh h1
    have hone : ∀ op ∈ ops, (∃ l, op = .insert l) ∨ ∃ n, op = .invalidate n := by
      intro op hop
      have := hfresh op hop
      cases op with
      | insert l => exact .inl ⟨l, rfl⟩
      | invalidate n => exact .inr ⟨n, rfl⟩
      | _ => exact absurd this (by simp [FreshOp])
    have hfew : ∀ op ∈ ops, FewOp op := by
      simp only [renderIfDirty, Option.bind_eq_bind, Option.bind_eq_some_iff] at h1
      obtain ⟨plan, -, h1⟩ := h1
      exact sendUpdate_few k3 h1
    have hsend : sendStyled mi m t ⟨⟨.allDirty d.cur.length, d.cur, []⟩, []⟩ shadow' ops = some (m1, t1, v1) := by
      simp only [sendStyled, Option.bind_eq_bind, Option.bind_eq_some_iff] at h2 ⊢
      obtain ⟨client, g1, front, g2, g3⟩ := h2
      refine ⟨client, ?_, front, ?_, g3⟩
      · rw [← g1]
        exact apply_fresh _ _ _ _ _ hone
      · rw [← g2]
        refine apply_fresh _ _ _ _ _ ?_
        rw [(numberOps_spec ops hm hfew).2.2.2]
        intro op hop
        obtain ⟨o, ho, rfl⟩ := List.mem_map.1 hop
        rcases hone o ho with ⟨l, rfl⟩ | ⟨n, rfl⟩
        · exact .inl ⟨_, rfl⟩
        · exact .inr ⟨n, rfl⟩
    obtain ⟨g1, g2, g3, g4, g5, g6, g7⟩ := sendStyled_ok hm (by simp [KnownLines]) rfl hfew hsend
    have hreach : ViewReachable mi v1.st := by
      have hstep : ViewReachable mi (⟨.allDirty d.cur.length, d.cur, v.st.client⟩ : ViewState T StyleRefs) := .step _ _ k1 (.setDirty v.st d.cur k2)
      have happ : applyUpdate mi v.st.client ops 0 = some v1.st.client := by
        rw [← g7]
        exact apply_fresh _ _ _ _ _ hone
      have e : v1.st = ⟨shadow', d.cur, v1.st.client⟩ := by
        obtain ⟨⟨a, b, c⟩, f⟩ := v1
        simp only at g5 g6
        rw [g5, g6]
      rw [e]
      exact .step _ _ hstep (.render _ d.firstLine d.height shadow' ops _ h1 happ)
    obtain ⟨f1, f2, f3, f4⟩ := redrawAll_ok l g1 (fun p hp => hl p (List.mem_cons_of_mem _ hp)) h3
    refine ⟨f1, g2.trans f2, ?_, ?_⟩
    · simp only [List.map_cons, f3, g6]
    · intro w hw
      rcases List.mem_cons.1 hw with rfl | hw
      · exact ViewOk.extend f2 ⟨hreach, by rw [g6]; exact k3, g3, g4⟩
      · exact f4 w hw

/-- What is always true. -/
structure StyledOk (mi : Missing) (s : StyledState Th T) : Prop where
  map : MapOk s.map s.table
  views : ∀ v ∈ s.views, ViewOk mi s.map v

theorem StyledOk.replace {mi : Missing} {s : StyledState Th T} (h : StyledOk mi s) {pre post : List (StyledView T)} {v v' : StyledView T} (hv : s.views = pre ++ v :: post)
    {m : ThemeStyleMap Th} {t : StyleTable} (hm : MapOk m t) (he : Extends s.map m) (hok : ViewOk mi m v') : StyledOk mi ⟨m, t, pre ++ v' :: post⟩ := by
  refine ⟨hm, ?_⟩
  intro w hw
  have old : ∀ x ∈ s.views, ViewOk mi m x := fun x hx => (h.views x hx).extend he
  rcases List.mem_append.1 hw with hw | hw
  · exact old w (by rw [hv]; simp [hw])
  · rcases List.mem_cons.1 hw with rfl | hw
    · exact hok
    · exact old w (by rw [hv]; simp [hw])

theorem StyledOk.step {foreground : Th → Option Nat} {mi : Missing} {s s' : StyledState Th T} (h : StyledOk mi s) (hs : StyledStep foreground mi s s') :
    StyledOk mi s' := by
  cases hs with
  | opened cur hl hf =>
    refine ⟨h.map, ?_⟩
    intro v hv
    rcases List.mem_cons.1 hv with rfl | hv
    · exact ⟨.init cur hl, hf, by simp [KnownLines], rfl⟩
    · exact h.views v hv
  | closed pre post v hv =>
    refine ⟨h.map, fun w hw => h.views w ?_⟩
    rw [hv]
    rcases List.mem_append.1 hw with hw | hw
    · simp [hw]
    · simp [hw]
  | changed pre post v st hv hst hc hf =>
    have hok := h.views v (by rw [hv]; simp)
    exact h.replace hv h.map (Extends.refl _) ⟨.step _ _ hok.reach hst, hf, by show KnownLines _ st.client; rw [hc]; exact hok.known, by
      show v.front = numberedClient _ st.client
      rw [hc]
      exact hok.front⟩
  | render pre post v v' hv firstLine height shadow' ops hr m t hsend =>
    have hok := h.views v (by rw [hv]; simp)
    have hfew : ∀ op ∈ ops, FewOp op := by
      have := hr
      simp only [renderIfDirty, Option.bind_eq_bind, Option.bind_eq_some_iff] at this
      obtain ⟨plan, -, h1⟩ := this
      exact sendUpdate_few hok.few h1
    obtain ⟨g1, g2, g3, g4, g5, g6, g7⟩ := sendStyled_ok h.map hok.known hok.front hfew hsend
    refine h.replace hv g1 g2 ⟨?_, by rw [g6]; exact hok.few, g3, g4⟩
    have e : v'.st = ⟨shadow', v.st.cur, v'.st.client⟩ := by
      obtain ⟨⟨a, b, c⟩, f⟩ := v'
      simp only at g5 g6
      rw [g5, g6]
    rw [e]
    exact .step _ _ hok.reach (.render _ firstLine height shadow' ops _ hr g7)
  | request pre post v v' hv firstLine height a b hab shadow' ops hr m t hsend =>
    have hok := h.views v (by rw [hv]; simp)
    have hfew : ∀ op ∈ ops, FewOp op := by
      have := hr
      simp only [viewRequestLines, Option.bind_eq_bind, Option.bind_eq_some_iff] at this
      obtain ⟨plan, -, plan', -, h1⟩ := this
      exact sendUpdate_few hok.few h1
    obtain ⟨g1, g2, g3, g4, g5, g6, g7⟩ := sendStyled_ok h.map hok.known hok.front hfew hsend
    refine h.replace hv g1 g2 ⟨?_, by rw [g6]; exact hok.few, g3, g4⟩
    have e : v'.st = ⟨shadow', v.st.cur, v'.st.client⟩ := by
      obtain ⟨⟨a, b, c⟩, f⟩ := v'
      simp only at g5 g6
      rw [g5, g6]
    rw [e]
    exact .step _ _ hok.reach (.request _ firstLine height a b hab shadow' ops _ hr g7)
  | theme read name m m' t' drawn views ht hl hf hr =>
    have hm : MapOk m s.table := by
      have : m.map = [] := by
        unfold ThemeStyleMap.setTheme at ht
        split at ht
        · cases ht
        · split at ht
          · cases ht
          · cases ht
            rfl
      intro x n hn
      simp [ThemeStyleMap.lookup, ThemeStyleMap.get?, this] at hn
    obtain ⟨f1, -, -, f4⟩ := redrawAll_ok (s.views.zip drawn) hm (by
      intro p hp
      obtain ⟨a, b⟩ := List.of_mem_zip hp
      exact ⟨(h.views _ a).reach, hf _ b⟩) hr
    exact ⟨f1, f4⟩
  | files m hm =>
    have hlook : ∀ x, m.lookup x = s.map.lookup x := by
      intro x
      simp [ThemeStyleMap.lookup, hm.1]
    refine ⟨?_, fun v hv => (h.views v hv).extend ⟨fun x n hn => by rw [hlook]; exact hn, hm.2.2⟩⟩
    intro x n hn
    rw [hlook] at hn
    obtain ⟨h1, h2, h3⟩ := h.map x n hn
    exact ⟨h1, by rw [hm.2.1]; exact h2, by rw [h3]; simp [ThemeStyleMap.mergeWithDefault, hm.2.2]⟩

theorem styled_ok {foreground : Th → Option Nat} {mi : Missing} {s : StyledState Th T} (h : StyledReach foreground mi s) : StyledOk mi s := by
  induction h with
  | start m builtIn h =>
    refine ⟨?_, by simp⟩
    simp only [ThemeStyleMap.new, Option.bind_eq_bind, Option.bind_eq_some_iff] at h
    obtain ⟨th, -, h⟩ := h
    cases h
    intro x n hn
    simp [ThemeStyleMap.lookup, ThemeStyleMap.get?] at hn
  | step s s' _ hs ih => exact ih.step hs

/-- **C84.** In every session, with any number of views, changes of text, selection, queries, styles and theme, each line that the front end
has of a view looks as it should have when it was sent: each number means the style of the text on top of the default of the current
theme.  The highlights have to be of the first seven queries. -/
theorem C84_session_partial {foreground : Th → Option Nat} {mi : Missing} {s : StyledState Th T} (h : StyledReach foreground mi s) :
    ∀ v ∈ s.views, ViewReachable mi v.st ∧ v.front.map (Option.map fun L => (L.text, L.cursor, seenAs s.table L.styles)) =
      v.st.client.map (Option.map fun L => (L.text, L.cursor, wanted s.map.defaultStyle L.styles)) := by
  have hok := styled_ok h
  intro v hv
  have hv := hok.views v hv
  refine ⟨hv.reach, ?_⟩
  rw [hv.front]
  simp only [numberedClient, List.map_map]
  apply List.map_congr_left
  intro o ho
  cases o with
  | none => rfl
  | some L => simp only [Function.comp_apply, Option.map_some, numberedLine, C84_line_partial hok.map (hv.known L ho)]

/-- **C84.** Whatever has happened, rendering a view does not crash, and afterwards the lines of its window and two lines around it are
on the front end with the text they should have, and every line the front end has of it looks as it should. -/
theorem C84_render_partial {foreground : Th → Option Nat} {mi : Missing} {s : StyledState Th T} (h : StyledReach foreground mi s) {v : StyledView T} (hv : v ∈ s.views)
    (firstLine height : Nat) : ∃ shadow' ops m' t' v', renderIfDirty v.st.cur v.st.shadow firstLine height = some (shadow', ops) ∧
      sendStyled mi s.map s.table v shadow' ops = some (m', t', v') ∧ v'.front.length = v.st.cur.length ∧
      (∀ (i : Nat) c, min firstLine v.st.cur.length ≤ i + 2 ∧ i < min firstLine v.st.cur.length + height + 2 → v.st.cur[i]? = some c → ∃ L, v'.front[i]? = some (some L)) ∧
      ∀ (i : Nat) L, v'.front[i]? = some (some L) → ∃ c, v.st.cur[i]? = some c ∧ L.text = c.text ∧ seenAs t' L.styles = wanted m'.defaultStyle c.styles ∧
        m'.defaultStyle = s.map.defaultStyle := by
  have hok := styled_ok h
  have hvo := hok.views v hv
  obtain ⟨shadow', ops, client', h1, h2, -, h3⟩ := C57_render_partial hvo.reach firstLine height
  have hfew : ∀ op ∈ ops, FewOp op := by
    have := h1
    simp only [renderIfDirty, Option.bind_eq_bind, Option.bind_eq_some_iff] at this
    obtain ⟨plan, -, h1⟩ := this
    exact sendUpdate_few hvo.few h1
  obtain ⟨g1, g2, g3, g4⟩ := numberOps_spec ops hok.map hfew
  have happ := apply_numbered (numberOps s.map ops).2.1 mi v.st.client ops 0
  rw [(g2.client hvo.known).2, ← hvo.front, ← g4, h2, Option.map_some] at happ
  have hsend : sendStyled mi s.map s.table v shadow' ops = some ((numberOps s.map ops).2.1, s.table.define (numberOps s.map ops).2.2,
      ⟨⟨shadow', v.st.cur, client'⟩, numberedClient (numberOps s.map ops).2.1 client'⟩) := by
    simp [sendStyled, h2, happ]
  have hkn := apply_known (g2.client hvo.known).1 ops 0 g3 h2
  refine ⟨shadow', ops, _, _, _, h1, hsend, ?_, ?_, ?_⟩
  · simp [numberedClient, h3.len]
  · intro i c hi hc
    obtain ⟨L, hL, -⟩ := h3.window i c hi hc
    exact ⟨numberedLine (numberOps s.map ops).2.1 L, by simp [numberedClient, hL]⟩
  · intro i L hL
    simp only [numberedClient, List.getElem?_map, Option.map_eq_some_iff] at hL
    obtain ⟨o, ho, hL⟩ := hL
    cases o with
    | none => simp at hL
    | some L' =>
      obtain ⟨L'', e0, rfl⟩ := hL
      cases e0
      obtain ⟨c, hc, e1, e2⟩ := h3.valid i L' ho
      refine ⟨c, hc, e1, ?_, g2.dflt⟩
      rw [← e2]
      exact C84_line_partial g1 (hkn L' (List.mem_of_getElem? ho))

/-- **C84.** A change of theme does not crash, and afterwards all the front end has was sent with the new theme. -/
theorem C84_theme_partial {foreground : Th → Option Nat} {mi : Missing} {s : StyledState Th T} (h : StyledReach foreground mi s) {read : ThemePath → Option Th} {name : String}
    {m : ThemeStyleMap Th} (hs : s.map.setTheme foreground read name = (true, m)) (drawn : List (Redrawn T)) (hl : drawn.length = s.views.length)
    (hf : ∀ d ∈ drawn, 0 < d.cur.length ∧ FewLines d.cur) : ∃ m' t' views, redrawAll mi m s.table (s.views.zip drawn) = some (m', t', views) ∧
      views.map (fun v => v.st.cur) = drawn.map (fun d => d.cur) ∧ m'.defaultStyle = Style.defaultForTheme foreground m.theme ∧
      ∀ v ∈ views, ∀ (i : Nat) L, v.front[i]? = some (some L) → ∃ c, v.st.cur[i]? = some c ∧ L.text = c.text ∧ seenAs t' L.styles = wanted m'.defaultStyle c.styles := by
  have hok := styled_ok h
  have hmap : m.map = [] ∧ m.defaultStyle = Style.defaultForTheme foreground m.theme := by
    unfold ThemeStyleMap.setTheme at hs
    split at hs
    · cases hs
    · split at hs
      · cases hs
      · cases hs
        exact ⟨rfl, rfl⟩
  have hm : MapOk m s.table := by
    intro x n hn
    simp [ThemeStyleMap.lookup, ThemeStyleMap.get?, hmap.1] at hn
  have run : ∀ (l : List (StyledView T × Redrawn T)) (m : ThemeStyleMap Th) (t : StyleTable), MapOk m t → (∀ p ∈ l, ViewReachable mi p.1.st ∧ 0 < p.2.cur.length ∧ FewLines p.2.cur) →
      ∃ m' t' views, redrawAll mi m t l = some (m', t', views) ∧ ∀ v ∈ views, ∀ (i : Nat) L, v.st.client[i]? = some (some L) →
        ∃ c, v.st.cur[i]? = some c ∧ L.text = c.text ∧ L.styles = c.styles := by
    intro l
    induction l with
    | nil => exact fun m t _ _ => ⟨m, t, [], rfl, by simp⟩
    | cons p l ih =>
      intro m t hm hl
      obtain ⟨k1, k2, k3⟩ := hl p (List.mem_cons_self ..)
      have hstep : ViewReachable mi (⟨.allDirty p.2.cur.length, p.2.cur, p.1.st.client⟩ : ViewState T StyleRefs) := .step _ _ k1 (.setDirty p.1.st p.2.cur k2)
      obtain ⟨shadow', ops, client', h1, h2, -, h3⟩ := C57_render_partial hstep p.2.firstLine p.2.height
      have hfew : ∀ op ∈ ops, FewOp op := by
        have := h1
        simp only [renderIfDirty, Option.bind_eq_bind, Option.bind_eq_some_iff] at this
        obtain ⟨plan, -, h1⟩ := this
        exact sendUpdate_few k3 h1
      have hfresh := render_fresh h1
      have hone : ∀ op ∈ ops, (∃ l, op = .insert l) ∨ ∃ n, op = .invalidate n := by
        intro op hop
        have := hfresh op hop
        cases op with
        | insert l => exact .inl ⟨l, rfl⟩
        | invalidate n => exact .inr ⟨n, rfl⟩
        | _ => exact absurd this (by simp [FreshOp])
      obtain ⟨g1, g2, g3, g4⟩ := numberOps_spec ops hm hfew
      have happ := apply_numbered (numberOps m ops).2.1 mi p.1.st.client ops 0
      rw [← g4, h2, Option.map_some] at happ
      have happ' : applyUpdate mi p.1.front (numberOps m ops).1 0 = some (numberedClient (numberOps m ops).2.1 client') := by
        rw [← happ]
        refine apply_fresh _ _ _ _ _ ?_
        rw [g4]
        intro op hop
        obtain ⟨o, ho, rfl⟩ := List.mem_map.1 hop
        rcases hone o ho with ⟨l, rfl⟩ | ⟨n, rfl⟩
        · exact .inl ⟨_, rfl⟩
        · exact .inr ⟨n, rfl⟩
      obtain ⟨m', t', views, f1, f2⟩ := ih (numberOps m ops).2.1 (t.define (numberOps m ops).2.2) g1 (fun p hp => hl p (List.mem_cons_of_mem _ hp))
      refine ⟨m', t', ⟨⟨shadow', p.2.cur, client'⟩, numberedClient (numberOps m ops).2.1 client'⟩ :: views, ?_, ?_⟩
      · obtain ⟨v, d⟩ := p
        simp only at h1 h2 happ' f1
        simp [redrawAll, h1, sendStyled, h2, happ', f1]
      · intro v hv
        rcases List.mem_cons.1 hv with rfl | hv
        · exact h3.valid
        · exact f2 v hv
  have hin : ∀ p ∈ s.views.zip drawn, ViewReachable mi p.1.st ∧ 0 < p.2.cur.length ∧ FewLines p.2.cur := by
    intro p hp
    obtain ⟨a, b⟩ := List.of_mem_zip hp
    exact ⟨(hok.views _ a).reach, hf _ b⟩
  obtain ⟨m', t', views, f1, f2⟩ := run (s.views.zip drawn) m s.table hm hin
  obtain ⟨e1, e2, e3, e4⟩ := redrawAll_ok _ hm hin f1
  refine ⟨m', t', views, f1, ?_, e2.dflt.trans hmap.2, ?_⟩
  · rw [e3, ← List.map_snd_zip (l₁ := s.views) (l₂ := drawn) (by omega), List.map_map]
    simp [List.map_snd_zip (show drawn.length ≤ s.views.length by omega)]
  · intro v hv i L hL
    have hv4 := e4 v hv
    rw [hv4.front] at hL
    simp only [numberedClient, List.getElem?_map, Option.map_eq_some_iff] at hL
    obtain ⟨o, ho, hL⟩ := hL
    cases o with
    | none => simp at hL
    | some L' =>
      obtain ⟨L'', e0, rfl⟩ := hL
      cases e0
      obtain ⟨c, hc, k1, k2⟩ := f2 v hv i L' ho
      refine ⟨c, hc, k1, ?_⟩
      rw [← k2]
      exact C84_line_partial e1 (hv4.known L' (List.mem_of_getElem? ho))

/-- **C84.** What is sent of a line is what `encode_styles` sends (C79) with the numbers of the map. -/
theorem C84_encoded (m : ThemeStyleMap Th) (sel : List (Nat × Nat)) (hls : List (List (Nat × Nat))) (spans : List (Span Style)) :
    numbered m (refList sel hls spans) = pushStyles 0 (styleList (fun s => (m.lookup s).getD 0) sel hls spans) := by
  unfold numbered refList styleList
  have hfind : (hls.mapIdx fun index hl => hl.map fun p => (p.1, p.2, StyleRef.find index)).map (List.map fun p => (p.1, p.2.1, numberOf m p.2.2)) =
      hls.mapIdx fun index hl => hl.map fun p => (p.1, p.2, index + 1) := by
    apply List.ext_getElem?
    intro k
    simp only [List.getElem?_map, List.getElem?_mapIdx, Option.map_map]
    congr 1
    funext hl
    simp [numberOf]
  simp only [List.map_append, List.map_flatten, hfind, List.map_map]
  rfl

end

/-! ## Examples and refutations -/

/-- Themes of the examples are the colours of their texts. -/
def tinyMap : ThemeStyleMap Nat := (ThemeStyleMap.new (Th := Nat) some [("InspiredGitHub", 1), ("Dark", 2)]).get (by decide)

/-- A style of the examples. -/
def bold : Style := { priority := 200, weight := some 700 }

/-- A line of the examples: a highlight, then bold text. -/
def tinyLine : ScreenLine String StyleRefs := ⟨"some text", [(0, 4, .find 0), (5, 9, .style bold)], []⟩

/-- A view with two such lines is opened. -/
def tiny1 : StyledState Nat String := ⟨tinyMap, fun _ => none, [⟨⟨.allDirty 2, [tinyLine, tinyLine], []⟩, []⟩]⟩

theorem tinyLine_few : FewQueries tinyLine.styles := by
  intro p hp i hi
  simp only [tinyLine, List.mem_cons, List.not_mem_nil, or_false] at hp
  rcases hp with rfl | rfl
  · cases hi
    omega
  · cases hi

theorem tiny1_reach : StyledReach some .clear tiny1 :=
  .step _ _ (.start tinyMap [("InspiredGitHub", 1), ("Dark", 2)] (by simp [tinyMap]))
    (.opened _ [tinyLine, tinyLine] (by decide) (by
      intro L hL
      simp only [List.mem_cons, List.not_mem_nil, or_false, or_self] at hL
      rw [hL]
      exact tinyLine_few))

/-- Non-vacuity: rendering it defines a style with number 8, in black. -/
example : ((renderIfDirty [tinyLine, tinyLine] (.allDirty 2) 0 5).map fun p => (numberOps tinyMap p.2).2.2) = some [(8, { priority := 200, fgColor := some 1, weight := some 700 })] := by
  decide +kernel

/-- Non-vacuity: the theme can be changed. -/
example : (tinyMap.setTheme some (fun _ => none) "Dark").1 = true ∧ (tinyMap.setTheme some (fun _ => none) "Dark").2.theme = 2 := by decide

/-- **C84, refuted for more than seven queries.** The number of the eighth query's highlights is that of the first style: what it has
found looks like bold text. -/
theorem C84_queries_refuted : (let sent := numberRefs tinyMap [(0, 4, .find 7), (5, 9, .style bold)]
    seenAs (StyleTable.define (fun _ => none) sent.2.2) (pushStyles 0 sent.1)) =
      [(0, 4, some (.style { priority := 200, fgColor := some 1, weight := some 700 })), (5, 9, some (.style { priority := 200, fgColor := some 1, weight := some 700 }))] := by
  decide +kernel

end Xi.Gesture
