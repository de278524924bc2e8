import Verif.Core.LayersLemmas

/-!
# Layers of styles (core-lib/src/layers.rs): C58 and C59
-/

namespace Xi

variable {Sc M : Type} [DecidableEq Sc]

/-- The derived `Default` of `Layers`, layers.rs:33. -/
def Layers.empty : Layers Sc M := ⟨[], [], Node.fromLeaf TreeLeaf.default⟩

/-- Nothing yet. -/
def LayersState.start : LayersState := ⟨0, fun _ => none, []⟩

theorem Layers.empty_inv : (Layers.empty : Layers Sc M).Inv .start := by
  refine ⟨.nil, rfl, fun _ => rfl, ?_, ⟨0, ?_⟩, rfl, ?_⟩
  · intro x hx; cases hx
  · exact Node.wf_fromLeaf LeafSpec.ok_default
  · intro p hp; cases hp

theorem LayersOp.run_inv (sy : Syntect Sc M) {ls : Layers Sc M} {s : LayersState} (h : ls.Inv s) (op : LayersOp Sc M) (ho : op.Ok s) :
    ∃ ls', op.run sy ls = some ls' ∧ ls'.Inv (op.next s) := by
  cases op with
  | addScopes th pid stacks => exact Layers.addScopes_inv sy th h pid ho
  | edit d => exact Layers.updateAll_inv h (List.replicate d.baseLen ()) (by simp) ho.1 ho.2.1 ho.2.2
  | update pid iv e cells =>
    obtain ⟨h1, h2, h3, h4, h5⟩ := ho
    obtain ⟨n, e1, w, rfl⟩ := SpansTree.eval_spec e h1
    obtain ⟨ls', e2, inv, -⟩ := Layers.updateLayer_inv (e := e) h pid h2 h3 w h4 h5
    exact ⟨ls', by simp [run, e1, e2], inv⟩
  | remove pid => exact Layers.removeLayer_inv h pid
  | theme th => exact Layers.themeChanged_inv sy th h

theorem Layers.Inv.shows {ls : Layers Sc M} {s : LayersState} (h : ls.Inv s) : ls.Shows s := by
  refine ⟨h.keys, h.stopped, fun pid => ?_, fun x hx => ⟨(h.good x hx).scopeB, (h.good x hx).styleB⟩,
    fun x hx => by rw [SpansTree.len_eq (h.good x hx).scopeB, (h.good x hx).scopeLen],
    fun x hx => ⟨(h.good x hx).lookupLen, (h.good x hx).styles⟩, h.mergedB, ?_⟩
  · rw [← h.rows pid]
    cases hq : ls.layers.lookup pid with
    | none => rfl
    | some l => simp [(h.good (pid, l) (Layers.lookup_mem hq)).lookupLen]
  · apply cells_ext h.mergedLen (combineRows_length _ _)
    intro p hp
    rw [h.merged p hp, combineRows_cell _ hp, List.map_map]; rfl

theorem LayersOp.history_inv (sy : Syntect Sc M) (ops : List (LayersOp Sc M)) :
    ∀ {ls : Layers Sc M} {s : LayersState}, ls.Inv s → AllOk s ops →
      ∃ ls', ops.foldlM (run sy) ls = some ls' ∧ ls'.Inv (ops.foldl next s) := by
  induction ops with
  | nil => intro ls s h _; exact ⟨ls, rfl, h⟩
  | cons op ops ih =>
    intro ls s h ho
    obtain ⟨l1, e1, h1⟩ := run_inv sy h op ho.1
    obtain ⟨l2, e2, h2⟩ := ih h1 ho.2
    exact ⟨l2, by simp [e1, e2], h2⟩

/-- **C58, part.** Whatever plugins define scopes, send spans and stop, whatever
edits and changes of theme come between: nothing panics, each plugin's row is
what its own updates and the edits make it, its styles are those of its scopes,
and the merged styles are at every position what the layers give together, in the
order of the plugins' ids.  Missing: edits whose range, in the old text, reaches
beyond the end of the new text; see `C58_length_refuted` and
`C58_panic_refuted`. -/
theorem C58_layers_partial (sy : Syntect Sc M) (ops : List (LayersOp Sc M)) (h : LayersOp.AllOk .start ops) :
    ∃ ls, ops.foldlM (LayersOp.run sy) Layers.empty = some ls ∧ ls.Shows (ops.foldl LayersOp.next .start) := by
  obtain ⟨ls, e, inv⟩ := LayersOp.history_inv sy ops Layers.empty_inv h
  exact ⟨ls, e, inv.shows⟩

/-- At one position: an attribute comes from the last layer, in the order of the
ids, that sets it (all layers have the same priority). -/
theorem C58_last_wins (prio : Nat) (cells : List (Option Style)) (hp : ∀ c ∈ cells, ∀ s, c = some s → s.priority = prio) :
    (combine cells).bind Style.fgColor = (cells.filterMap (fun c => c.bind Style.fgColor)).getLast? ∧
    (combine cells).bind Style.bgColor = (cells.filterMap (fun c => c.bind Style.bgColor)).getLast? ∧
    (combine cells).bind Style.weight = (cells.filterMap (fun c => c.bind Style.weight)).getLast? ∧
    (combine cells).bind Style.underline = (cells.filterMap (fun c => c.bind Style.underline)).getLast? ∧
    (combine cells).bind Style.italic = (cells.filterMap (fun c => c.bind Style.italic)).getLast? := by
  have key : ∀ {A : Type} (get : Style → Option A), (∀ p q : Style, get (p.over q) = (get p).or (get q)) →
      ∀ (cells : List (Option Style)) (acc : Option Style), (∀ s, acc = some s → s.priority = prio) →
        (∀ c ∈ cells, ∀ s, c = some s → s.priority = prio) →
        (cells.foldl (mergeCell resolveCell) acc).bind get = ((cells.filterMap (fun c => c.bind get)).getLast?).or (acc.bind get) := by
    intro A get hget cells
    induction cells with
    | nil => intro acc _ _; rfl
    | cons c cells ih =>
      intro acc ha hc
      have hc' := fun x hx => hc x (List.mem_cons_of_mem _ hx)
      have hcp := hc c (by simp)
      rw [List.foldl_cons]
      cases c with
      | none =>
        rw [mergeCell_none, ih acc ha hc']
        rfl
      | some b =>
        have hb := hcp b rfl
        have hstep : ∀ r, mergeCell resolveCell acc (some b) = some r → r.priority = prio ∧ get r = (get b).or (acc.bind get) := by
          intro r hr
          cases acc with
          | none =>
            simp only [mergeCell, resolveCell, Option.some.injEq] at hr
            subst hr
            exact ⟨hb, by simp⟩
          | some a =>
            have hap := ha a rfl
            simp only [mergeCell, resolveCell, Option.some.injEq, Style.merge] at hr
            rw [if_neg (by omega)] at hr
            subst hr
            exact ⟨hb, hget b a⟩
        obtain ⟨r, hr⟩ : ∃ r, mergeCell resolveCell acc (some b) = some r := by cases acc <;> exact ⟨_, rfl⟩
        obtain ⟨h1, h2⟩ := hstep r hr
        rw [hr, ih (some r) (fun s hs => by cases hs; exact h1) hc']
        simp only [Option.bind_some, h2, List.filterMap_cons]
        cases hgb : get b with
        | none => simp
        | some v =>
          simp only [List.getLast?_cons, Option.some_or]
          cases (cells.filterMap fun c => c.bind get).getLast? <;> rfl
  refine ⟨?_, ?_, ?_, ?_, ?_⟩
  · exact (key Style.fgColor (fun _ _ => rfl) cells none (fun _ h => by cases h) hp).trans (by simp)
  · exact (key Style.bgColor (fun _ _ => rfl) cells none (fun _ h => by cases h) hp).trans (by simp)
  · exact (key Style.weight (fun _ _ => rfl) cells none (fun _ h => by cases h) hp).trans (by simp)
  · exact (key Style.underline (fun _ _ => rfl) cells none (fun _ h => by cases h) hp).trans (by simp)
  · exact (key Style.italic (fun _ _ => rfl) cells none (fun _ h => by cases h) hp).trans (by simp)

/-! ### A concrete theme -/

/-- Modifiers are colours; the later one wins. -/
def toySyntect : Syntect Nat (Option Nat) where
  default := none
  apply a b := b.or a
  toStyle m := { priority := 200, fgColor := m }

/-- Every scope has its own colour. -/
def toyTheme : Theme Nat (Option Nat) := fun st => st.getLast?

/-- A text of ten characters; plugin 1 has coloured `[2, 6)`, plugin 3 `[4, 8)`; an
edit replaces `[3, 5)` by one character, and plugin 1 is stopped. -/
def toyHistory : List (LayersOp Nat (Option Nat)) :=
  [.edit ⟨[.insert (List.replicate 10 ())], 0⟩,
   .addScopes toyTheme 3 [[7], [7, 8]], .addScopes toyTheme 1 [[7], [7, 9]],
   .update 1 ⟨0, 10⟩ (.build 10 [⟨⟨2, 6⟩, 1⟩]) [none, none, some 1, some 1, some 1, some 1, none, none, none, none],
   .update 3 ⟨4, 8⟩ (.build 4 [⟨⟨0, 4⟩, 1⟩]) [some 1, some 1, some 1, some 1],
   .edit ⟨[.copy 0 3, .insert [()], .copy 5 10], 10⟩,
   .remove 1]

example : LayersOp.AllOk .start toyHistory := by
  refine ⟨⟨?_, rfl, ?_⟩, ?_, ?_, ⟨⟨?_, ?_⟩, ?_, ?_, rfl, ?_⟩, ⟨⟨?_, ?_⟩, ?_, ?_, rfl, ?_⟩, ⟨?_, rfl, ?_⟩, trivial, trivial⟩
  all_goals first | decide | (intro i hi; simp at hi; subst hi; decide) | (intro i hi; simp at hi; rcases hi with rfl | rfl <;> decide)

/-- Deleting the second half of a text of ten characters, with one plugin. -/
def toyBefore : List (LayersOp Nat (Option Nat)) := [.edit ⟨[.insert (List.replicate 10 ())], 0⟩, .addScopes toyTheme 1 [[7]]]

/-- **C58, refuted for edits at the end.** `update_all` resolves the styles in the
range of the edit *in the old text* (layers.rs:84-85).  After deleting `[5, 10)`
from a text of ten characters the merged styles are ten long instead of five. -/
theorem C58_length_refuted : LayersOp.AllOk .start toyBefore ∧ (toyBefore.foldl LayersOp.next .start).len = 10 ∧
    (⟨[.copy 0 5], 10⟩ : Delta Unit).WF ∧ (⟨[.copy 0 5], 10⟩ : Delta Unit).newDocumentLen = 5 ∧
    ((toyBefore.foldlM (LayersOp.run toySyntect) Layers.empty).bind (fun ls => ls.updateAll (⟨[.copy 0 5], 10⟩ : Delta Unit))).map
      (fun ls => ls.merged.len) = some 10 := by
  refine ⟨⟨⟨by decide, rfl, by decide⟩, ?_, trivial⟩, by decide, by decide, by decide, by decide +kernel⟩
  intro st hs
  simp at hs
  subst hs
  decide

/-- A text of 150 characters; plugin 1 has 70 spans in `[0, 140)`, plugin 2 none. -/
def toyMany : List (LayersOp Nat (Option Nat)) :=
  [.edit ⟨[.insert (List.replicate 150 ())], 0⟩, .addScopes toyTheme 1 [[7]],
   .update 1 ⟨0, 150⟩ (.build 150 ((List.range 70).map (fun i => ⟨⟨2 * i, 2 * i + 1⟩, 0⟩)))
     (paint 150 ((List.range 70).map (fun i => ⟨⟨2 * i, 2 * i + 1⟩, 0⟩))), .addScopes toyTheme 2 [[7]]]

/-- **C58, refuted: a crash.** With two plugins, deleting the end of the text can
crash the core: the two layers, cut to a range that is not there, come out with
different lengths. -/
theorem C58_panic_refuted : LayersOp.AllOk .start toyMany ∧ (toyMany.foldl LayersOp.next .start).len = 150 ∧
    (⟨[.copy 0 140], 150⟩ : Delta Unit).WF ∧
    (toyMany.foldlM (LayersOp.run toySyntect) Layers.empty).isSome ∧
    ((toyMany.foldlM (LayersOp.run toySyntect) Layers.empty).bind (fun ls => ls.updateAll (⟨[.copy 0 140], 150⟩ : Delta Unit))).isNone := by
  refine ⟨⟨⟨by decide, rfl, by decide +kernel⟩, ?_, ⟨⟨by decide +kernel, rfl⟩, by decide, by decide +kernel, by simp [paint_length], ?_⟩, ?_, trivial⟩,
    by decide +kernel, by decide, by decide +kernel, by decide +kernel⟩
  · intro st hs
    simp at hs
    subst hs
    decide
  · intro i hi
    obtain ⟨p, -, hp⟩ := List.mem_map.1 hi
    simp only [cellAt, Option.map_eq_some_iff] at hp
    obtain ⟨sp, h1, rfl⟩ := hp
    have := List.mem_of_find?_eq_some h1
    obtain ⟨j, -, rfl⟩ := List.mem_map.1 this
    exact Nat.zero_lt_one
  · intro st hs
    simp at hs
    subst hs
    decide

/-! ## C59: the style of a stack of scopes -/

/-- What the theme says about a stack: its word on each prefix, the longer ones
over the shorter ones. -/
def stackMod (sy : Syntect Sc M) (th : Theme Sc M) (stack : List Sc) : M :=
  ((List.range stack.length).map (fun i => th (stack.take (i + 1)))).foldl sy.apply sy.default

/-- The same without its word on the root scope. -/
def rootlessMod (sy : Syntect Sc M) (th : Theme Sc M) (stack : List Sc) : M :=
  ((List.range' 1 (stack.length - 1)).map (fun i => th (stack.take (i + 1)))).foldl sy.apply sy.default

/-- Every stack of two scopes or more comes after the stack without its last
scope. -/
def ParentsFirst (known : List (List Sc)) : List (List Sc) → Prop
  | [] => True
  | s :: rest => s ≠ [] ∧ (2 ≤ s.length → s.dropLast ∈ known) ∧ ParentsFirst (known ++ [s]) rest

/-- What can happen to the styles of one plugin. -/
inductive ScopeOp (Sc M : Type) where
  | add (stacks : List (List Sc))
  | theme (th : Theme Sc M)

/-- The theme after an operation. -/
def ScopeOp.theme' (th : Theme Sc M) : ScopeOp Sc M → Theme Sc M
  | .add _ => th
  | .theme th => th

/-- What the program does; the theme in force is that of `th`. -/
def ScopeOp.run (sy : Syntect Sc M) (st : ScopeLayer Sc M × Theme Sc M) (op : ScopeOp Sc M) : Option (ScopeLayer Sc M × Theme Sc M) :=
  match op with
  | .add stacks => do return (← st.1.addScopes sy st.2 stacks, st.2)
  | .theme th => do return (← st.1.themeChanged sy th, th)

/-- The stacks defined, in order. -/
def ScopeOp.stacks : List (ScopeOp Sc M) → List (List Sc)
  | [] => []
  | .add s :: rest => s ++ stacks rest
  | .theme _ :: rest => stacks rest

theorem ParentsFirst.append {a b : List (List Sc)} : ∀ {known : List (List Sc)}, ParentsFirst known (a ++ b) ↔
    ParentsFirst known a ∧ ParentsFirst (known ++ a) b := by
  induction a with
  | nil => intro known; simp [ParentsFirst]
  | cons x a ih =>
    intro known
    simp only [List.cons_append, ParentsFirst, ih, List.append_assoc, List.nil_append]
    constructor
    · rintro ⟨h1, h2, h3, h4⟩; exact ⟨⟨h1, h2, h3⟩, h4⟩
    · rintro ⟨⟨h1, h2, h3⟩, h4⟩; exact ⟨h1, h2, h3, h4⟩

namespace ScopeLayer

theorem applyFrom_parent (sy : Syntect Sc M) (th : Theme Sc M) (stack : List Sc) (h : 2 ≤ stack.length) :
    applyFrom sy th stack (stack.length - 1) (rootlessMod sy th stack.dropLast) = rootlessMod sy th stack := by
  have h1 : stack.length - (stack.length - 1) = 1 := by omega
  have h2 : stack.length - 1 = (stack.dropLast.length - 1) + 1 := by simp; omega
  unfold applyFrom
  rw [h1]
  conv => rhs; rw [rootlessMod, h2, List.range'_concat, List.map_append, List.foldl_append]
  have h3 : 1 + 1 * (stack.dropLast.length - 1) = stack.length - 1 := by simp; omega
  rw [h3]
  simp only [List.range'_one, List.map_cons, List.map_nil, List.foldl_cons, List.foldl_nil]
  congr 1
  rw [rootlessMod]
  congr 1
  apply List.map_congr_left
  intro i hi
  rw [List.mem_range'] at hi
  obtain ⟨j, hj, rfl⟩ := hi
  rw [List.dropLast_eq_take, List.take_take, Nat.min_eq_left]
  simp at hj
  omega

theorem modFor_spec (sy : Syntect Sc M) (th : Theme Sc M) (cache : List (List Sc × M)) (stack : List Sc) (h0 : stack ≠ [])
    (h : 2 ≤ stack.length → cache.lookup stack.dropLast = some (rootlessMod sy th stack.dropLast)) :
    modFor sy th cache stack = some (rootlessMod sy th stack) := by
  have hlen : stack.length ≠ 0 := fun hc => h0 (List.length_eq_zero_iff.1 hc)
  unfold modFor
  rw [if_neg hlen]
  by_cases h1 : stack.length = 1
  · simp [h1, findCached, applyFrom, rootlessMod]
  · obtain ⟨k, hk⟩ : ∃ k, stack.length - 1 = k + 1 := ⟨stack.length - 2, by omega⟩
    have hc := h (by omega)
    rw [List.dropLast_eq_take, hk] at hc
    rw [hk]
    simp only [findCached, hc]
    rw [← hk, ← List.dropLast_eq_take, applyFrom_parent sy th stack (by omega)]

theorem stylesForStacks_spec (sy : Syntect Sc M) (th : Theme Sc M) (stacks : List (List Sc)) :
    ∀ {cache : List (List Sc × M)} {known : List (List Sc)}, (∀ s ∈ known, cache.lookup s = some (rootlessMod sy th s)) →
      ParentsFirst known stacks →
      ∃ cache', stylesForStacks sy th cache stacks = some (stacks.map (fun s => sy.toStyle (rootlessMod sy th s)), cache') ∧
        ∀ s ∈ known ++ stacks, cache'.lookup s = some (rootlessMod sy th s) := by
  induction stacks with
  | nil => intro cache known h _; exact ⟨cache, rfl, by simpa using h⟩
  | cons st rest ih =>
    intro cache known h hp
    obtain ⟨p1, p2, p3⟩ := hp
    have hm := modFor_spec sy th cache st p1 (fun h2 => h _ (p2 h2))
    obtain ⟨cache', e1, e2⟩ := ih (cache := (st, rootlessMod sy th st) :: cache) (known := known ++ [st]) (by
      intro s hs
      rw [List.lookup_cons]
      by_cases hc : s = st
      · subst hc; simp
      · have hb : (s == st) = false := by simpa using hc
        rw [hb]
        simp only [List.mem_append, List.mem_singleton, hc, or_false] at hs
        exact h s hs) p3
    exact ⟨cache', by simp [stylesForStacks, hm, e1], by simpa using e2⟩

/-- The styles and the cache are those of the theme. -/
structure Fresh (sy : Syntect Sc M) (th : Theme Sc M) (n : Nat) (l : ScopeLayer Sc M) : Prop where
  good : l.Good n
  styles : l.styleLookup = l.stackLookup.map (fun s => sy.toStyle (rootlessMod sy th s))
  cache : ∀ s ∈ l.stackLookup, l.styleCache.lookup s = some (rootlessMod sy th s)
  parents : ParentsFirst [] l.stackLookup

end ScopeLayer

open ScopeLayer in
theorem ScopeOp.run_fresh (sy : Syntect Sc M) {th : Theme Sc M} {n : Nat} {l : ScopeLayer Sc M} (h : l.Fresh sy th n) (op : ScopeOp Sc M)
    (hp : ParentsFirst [] (l.stackLookup ++ ScopeOp.stacks [op])) :
    ∃ l', op.run sy (l, th) = some (l', op.theme' th) ∧ l'.Fresh sy (op.theme' th) n ∧ l'.stackLookup = l.stackLookup ++ ScopeOp.stacks [op] := by
  cases op with
  | add stacks =>
    have hs' : ScopeOp.stacks [(ScopeOp.add stacks : ScopeOp Sc M)] = stacks := by simp [ScopeOp.stacks]
    rw [hs'] at hp ⊢
    have hp2 : ParentsFirst l.stackLookup stacks := by simpa using (ParentsFirst.append.1 hp).2
    obtain ⟨cache, e1, e2⟩ := stylesForStacks_spec sy th stacks h.cache hp2
    have hne : ∀ s ∈ stacks, s ≠ [] := by
      have : ∀ {known rest : List (List Sc)}, ParentsFirst known rest → ∀ s ∈ rest, s ≠ [] := by
        intro known rest
        induction rest generalizing known with
        | nil => intro _ s hs; cases hs
        | cons x rest ih =>
          rintro ⟨q1, _, q3⟩ s hs
          rcases List.mem_cons.1 hs with rfl | hs
          · exact q1
          · exact ih q3 s hs
      exact this hp2
    obtain ⟨l', e3, g, -, -, -⟩ := addScopes_spec (sy := sy) (th := th) h.good hne
    have e4 : l.addScopes sy th stacks = some ⟨l.stackLookup ++ stacks,
        l.styleLookup ++ stacks.map (fun s => sy.toStyle (rootlessMod sy th s)), cache, l.scopeSpans, l.styleSpans⟩ := by
      simp [addScopes, e1]
    rw [e4] at e3
    cases e3
    refine ⟨_, by simp [run, e4]; rfl, ⟨g, by simp [h.styles, theme'], e2, hp⟩, rfl⟩
  | theme th' =>
    have hs' : ScopeOp.stacks [(ScopeOp.theme th' : ScopeOp Sc M)] = [] := by simp [ScopeOp.stacks]
    rw [hs', List.append_nil] at hp ⊢
    obtain ⟨cache, e1, e2⟩ := stylesForStacks_spec sy th' l.stackLookup (cache := l.styleCache) (known := []) (by simp) hp
    obtain ⟨l', e3, g, -, -⟩ := themeChanged_spec (sy := sy) (th := th') h.good
    have e4 := e3
    have key : l'.stackLookup = l.stackLookup ∧ l'.styleCache = cache ∧
        l'.styleLookup = l.stackLookup.map (fun s => sy.toStyle (rootlessMod sy th' s)) := by
      simp only [themeChanged, e1, updateStyles, Option.bind_eq_bind, Option.bind_some, Option.bind_eq_some_iff] at e3
      obtain ⟨_, _, _, _, _, _, _, _, _, _, e5⟩ := e3
      cases e5
      exact ⟨rfl, rfl, rfl⟩
    refine ⟨l', by simp [run, e4, theme'], ⟨g, ?_, ?_, ?_⟩, key.1⟩
    · rw [key.1, key.2.2]; rfl
    · rw [key.1, key.2.1]; simpa [theme'] using e2
    · rw [key.1]; exact hp

theorem ScopeOp.history_fresh (sy : Syntect Sc M) (ops : List (ScopeOp Sc M)) :
    ∀ {th : Theme Sc M} {n : Nat} {l : ScopeLayer Sc M}, l.Fresh sy th n → ParentsFirst [] (l.stackLookup ++ ScopeOp.stacks ops) →
      ∃ l', ops.foldlM (run sy) (l, th) = some (l', ops.foldl theme' th) ∧ l'.Fresh sy (ops.foldl theme' th) n ∧
        l'.stackLookup = l.stackLookup ++ ScopeOp.stacks ops := by
  induction ops with
  | nil => intro th n l h _; exact ⟨l, rfl, h, by simp [ScopeOp.stacks]⟩
  | cons op ops ih =>
    intro th n l h hp
    have hs : ScopeOp.stacks (op :: ops) = ScopeOp.stacks [op] ++ ScopeOp.stacks ops := by cases op <;> simp [ScopeOp.stacks]
    rw [hs, ← List.append_assoc] at hp
    obtain ⟨l1, e1, h1, k1⟩ := run_fresh sy h op (ParentsFirst.append.1 hp).1
    obtain ⟨l2, e2, h2, k2⟩ := ih h1 (by rw [k1]; exact hp)
    exact ⟨l2, by simp [e1, e2], h2, by rw [k2, k1, hs, List.append_assoc]⟩

theorem rootlessMod_eq (sy : Syntect Sc M) (th : Theme Sc M) (stack : List Sc)
    (h : ∀ sc, sy.apply sy.default (th [sc]) = sy.default) : rootlessMod sy th stack = stackMod sy th stack := by
  cases stack with
  | nil => rfl
  | cons x rest =>
    unfold rootlessMod stackMod
    rw [List.range_eq_range']
    have : (x :: rest).length = (x :: rest).length - 1 + 1 := by simp
    conv => rhs; rw [this, List.range'_succ, List.map_cons, List.foldl_cons]
    simp [h x]

/-- **C59, part.** Whatever stacks a plugin defines and whatever changes of theme
come between, as long as every stack of two scopes or more is defined after the
stack without its last scope: no operation panics, and the style of each stack is
what the theme now in force says about its prefixes, *except the root scope*; so
it is right for themes that say nothing about root scopes alone.  See
`C59_root_refuted`, `C59_orphan_refuted` and `C59_stale_refuted` for the rest. -/
theorem C59_styles_partial (sy : Syntect Sc M) (th : Theme Sc M) (ops : List (ScopeOp Sc M)) (len : Nat)
    (hp : ParentsFirst [] (ScopeOp.stacks ops)) :
    ∃ l0 l, ScopeLayer.new len = some l0 ∧ ops.foldlM (ScopeOp.run sy) (l0, th) = some (l, ops.foldl ScopeOp.theme' th) ∧
      l.stackLookup = ScopeOp.stacks ops ∧
      l.styleLookup = (ScopeOp.stacks ops).map (fun s => sy.toStyle (rootlessMod sy (ops.foldl ScopeOp.theme' th) s)) ∧
      ((∀ sc, sy.apply sy.default (ops.foldl ScopeOp.theme' th [sc]) = sy.default) →
        l.styleLookup = (ScopeOp.stacks ops).map (fun s => sy.toStyle (stackMod sy (ops.foldl ScopeOp.theme' th) s))) := by
  obtain ⟨a, e1, t1, w1⟩ := SpansTree.blank_spec (T := Nat) len
  obtain ⟨b, e2, t2, w2⟩ := SpansTree.blank_spec (T := Style) len
  obtain ⟨l0, e3, g, -, -⟩ := ScopeLayer.new_spec (Sc := Sc) (M := M) len
  have e4 : ScopeLayer.new len = some (⟨[], [], [], a, b⟩ : ScopeLayer Sc M) := by simp [ScopeLayer.new, e1, e2]
  rw [e4] at e3
  cases e3
  have hf : (⟨[], [], [], a, b⟩ : ScopeLayer Sc M).Fresh sy th len := ⟨g, rfl, by simp, trivial⟩
  obtain ⟨l, e5, f, k⟩ := ScopeOp.history_fresh sy ops hf (by simpa using hp)
  have k : l.stackLookup = ScopeOp.stacks ops := by simpa using k
  refine ⟨_, l, e4, e5, k, by rw [f.styles, k], fun h => ?_⟩
  rw [f.styles, k]
  apply List.map_congr_left
  intro s _
  rw [rootlessMod_eq sy _ s h]

example : ParentsFirst [] (ScopeOp.stacks [(.add [[1], [1, 2]] : ScopeOp Nat (Option Nat)), .theme toyTheme, .add [[1, 2, 3], [1, 4]]]) := by
  refine ⟨by decide, by decide, by decide, fun _ => by decide, by decide, fun _ => by decide, by decide, fun _ => by decide, trivial⟩

/-- **C59, refuted for root scopes and for stacks whose prefixes are not known.**
With no cached prefix, the loop that applies the theme starts at the end of the
stack (layers.rs:239 and 254): whatever the theme says, the style is that of the
empty modifier. -/
theorem C59_orphan_refuted (sy : Syntect Sc M) (th : Theme Sc M) (stack : List Sc) (h : stack ≠ []) :
    ∃ cache, ScopeLayer.stylesForStacks sy th [] [stack] = some ([sy.toStyle sy.default], cache) := by
  have hn : ∀ k, ScopeLayer.findCached ([] : List (List Sc × M)) stack k = none := by
    intro k
    induction k with
    | zero => rfl
    | succ k ih => simp [ScopeLayer.findCached, ih]
  have hlen : stack.length ≠ 0 := fun hc => h (List.length_eq_zero_iff.1 hc)
  exact ⟨_, by simp [ScopeLayer.stylesForStacks, ScopeLayer.modFor, hlen, hn, ScopeLayer.applyFrom]; rfl⟩

/-- The theme gives scope 7 the colour 7; text of scope 7 is shown without it. -/
theorem C59_root_refuted : (ScopeLayer.stylesForStacks toySyntect toyTheme [] [[7]]).map Prod.fst = some [{ priority := 200 }] ∧
    toySyntect.toStyle (stackMod toySyntect toyTheme [7]) = { priority := 200, fgColor := some 7 } := by decide

/-- **C59, refuted for changes of theme.** The cache is not cleared
(layers.rs:193-203).  If `[7, 8, 9]` is defined before `[7, 8]`, and
`[7, 8]` was cached in the old theme, it keeps the old colour. -/
theorem C59_stale_refuted : ∃ (stacks : List (List Nat)) (old new : Theme Nat (Option Nat)) (cache : List (List Nat × Option Nat)),
    ((ScopeLayer.stylesForStacks toySyntect old [] stacks).map Prod.snd = some cache) ∧
    (ScopeLayer.stylesForStacks toySyntect new cache stacks).map Prod.fst ≠
      (ScopeLayer.stylesForStacks toySyntect new [] stacks).map Prod.fst := by
  refine ⟨[[7, 8, 9], [7], [7, 8]], toyTheme, fun _ => none, [([7, 8], some 8), ([7], none), ([7, 8, 9], none)], by decide, by decide⟩

/-- **C59, refuted: a crash.** An empty stack (or one whose scopes were all
rejected) makes `stack.len() - 1` underflow, layers.rs:243. -/
theorem C59_empty_refuted (sy : Syntect Sc M) (th : Theme Sc M) (cache : List (List Sc × M)) (rest : List (List Sc)) :
    ScopeLayer.stylesForStacks sy th cache ([] :: rest) = none := by
  simp [ScopeLayer.stylesForStacks, ScopeLayer.modFor]

end Xi
