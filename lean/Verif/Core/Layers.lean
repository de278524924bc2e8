import Verif.Rope.Spans

/-!
# Model of `rust/core-lib/src/layers.rs` and of `Style` (styles.rs)

Themes are syntect's (an external crate): a theme is any function from stacks of
scopes to style modifiers.  Scopes arrive parsed: the strings that
`Scope::new` rejects are dropped before the model begins (layers.rs:208-219).
-/

namespace Xi

/-- `struct Style`, styles.rs:43-61. -/
structure Style where
  priority : Nat
  fgColor : Option Nat := none
  bgColor : Option Nat := none
  weight : Option Nat := none
  underline : Option Bool := none
  italic : Option Bool := none
deriving DecidableEq, Repr

/-- The body of `Style::merge`, styles.rs:126-133, with the style that wins first. -/
def Style.over (p1 p2 : Style) : Style :=
  ⟨p1.priority, p1.fgColor.or p2.fgColor, p1.bgColor.or p2.bgColor, p1.weight.or p2.weight,
    p1.underline.or p2.underline, p1.italic.or p2.italic⟩

/-- `Style::merge`, styles.rs:123-134.  The assertion of `Style::new` that the
priority is at most 1000 (styles.rs:94) holds for the priorities of styles that
went through `Style::new` before; it is left out. -/
def Style.merge (self other : Style) : Style :=
  if self.priority > other.priority then self.over other else other.over self

/-- What is used of syntect: `Scope` and `StyleModifier` with its `default` and
`apply`, and `Style::from_syntect_style_mod` (styles.rs:65-79). -/
structure Syntect (Sc M : Type) where
  default : M
  apply : M → M → M
  toStyle : M → Style

/-- `Highlighter::style_mod_for_stack` for a theme. -/
abbrev Theme (Sc M : Type) := List Sc → M

variable {Sc M : Type} [DecidableEq Sc]

/-- `struct ScopeLayer`, layers.rs:41-52.  The cache is a list of entries, the last
one inserted first. -/
structure ScopeLayer (Sc M : Type) where
  stackLookup : List (List Sc)
  styleLookup : List Style
  styleCache : List (List Sc × M)
  scopeSpans : SpansTree Nat
  styleSpans : SpansTree Style

/-- `struct Layers`, layers.rs:34-38.  The `BTreeMap` is a list in the order of
the keys. -/
structure Layers (Sc M : Type) where
  layers : List (Nat × ScopeLayer Sc M)
  deleted : List Nat
  merged : SpansTree Style

namespace ScopeLayer

/-- `ScopeLayer::new`, layers.rs:183-191. -/
def new (len : Nat) : Option (ScopeLayer Sc M) := do
  return ⟨[], [], [], ← (SpansBuilder.new len).build, ← (SpansBuilder.new len).build⟩

/-- The search for a cached style, layers.rs:241-250: the longest proper prefix of
`stack` of at least one scope that is in the cache; `k` is the length of the
prefix tried.  The result is the style and the number of scopes it stands for. -/
def findCached (cache : List (List Sc × M)) (stack : List Sc) : Nat → Option (M × Nat)
  | 0 => none
  | k + 1 => match cache.lookup (stack.take (k + 1)) with
    | some m => some (m, k + 1)
    | none => findCached cache stack k

/-- Applying the rest of the stack, layers.rs:253-257. -/
def applyFrom (sy : Syntect Sc M) (th : Theme Sc M) (stack : List Sc) (i : Nat) (base : M) : M :=
  (List.range' i (stack.length - i)).foldl (fun m i => sy.apply m (th (stack.take (i + 1)))) base

/-- One round of the loop of `styles_for_stacks`, layers.rs:237-263: the modifier of
the stack.  `stack.len() - 1` underflows for an empty stack.  With no cached
prefix `upper_bound_of_last` stays at the length of the stack, so nothing is
applied. -/
def modFor (sy : Syntect Sc M) (th : Theme Sc M) (cache : List (List Sc × M)) (stack : List Sc) : Option M :=
  if stack.length = 0 then none
  else match findCached cache stack (stack.length - 1) with
    | some (m, k) => some (applyFrom sy th stack k m)
    | none => some (applyFrom sy th stack stack.length sy.default)

/-- `styles_for_stacks`, layers.rs:228-265: the styles and the new cache. -/
def stylesForStacks (sy : Syntect Sc M) (th : Theme Sc M) : List (List Sc × M) → List (List Sc) →
    Option (List Style × List (List Sc × M))
  | cache, [] => some ([], cache)
  | cache, stack :: rest => do
    let m ← modFor sy th cache stack
    let (styles, cache) ← stylesForStacks sy th ((stack, m) :: cache) rest
    return (sy.toStyle m :: styles, cache)

/-- `ScopeLayer::add_scopes`, layers.rs:205-226. -/
def addScopes (sy : Syntect Sc M) (th : Theme Sc M) (l : ScopeLayer Sc M) (stacks : List (List Sc)) : Option (ScopeLayer Sc M) := do
  let (styles, cache) ← stylesForStacks sy th l.styleCache stacks
  return { l with stackLookup := l.stackLookup ++ stacks, styleLookup := l.styleLookup ++ styles, styleCache := cache }

/-- The loop of `update_styles`, layers.rs:297-307, with the span in hand first. -/
def styleLoop (lookup : List Style) : Span Nat → List (Span Nat) → SpansBuilder Style → Option (SpansBuilder Style)
  | p, [], sb => do sb.addSpan p.iv (← lookup[p.data]?)
  | p, n :: rest, sb => do
    let ps ← lookup[p.data]?
    if n.iv.start = p.iv.stop then do
      let ns ← lookup[n.data]?
      if ps = ns then styleLoop lookup ⟨p.iv.union n.iv, p.data⟩ rest sb
      else styleLoop lookup n rest (← sb.addSpan p.iv ps)
    else styleLoop lookup n rest (← sb.addSpan p.iv ps)

/-- The spans of `update_styles`, layers.rs:283-308. -/
def styleAll (lookup : List Style) (len : Nat) : List (Span Nat) → Option (SpansBuilder Style)
  | [] => some (SpansBuilder.new len)
  | p :: rest => styleLoop lookup p rest (SpansBuilder.new len)

/-- `update_styles`, layers.rs:282-310. -/
def updateStyles (l : ScopeLayer Sc M) (iv : Interval) (spans : SpansTree Nat) : Option (ScopeLayer Sc M) := do
  let sb ← styleAll l.styleLookup spans.len (← spans.iter)
  return { l with styleSpans := ← l.styleSpans.edit iv (← sb.build) }

/-- `update_scopes`, layers.rs:267-270. -/
def updateScopes (l : ScopeLayer Sc M) (iv : Interval) (spans : SpansTree Nat) : Option (ScopeLayer Sc M) := do
  let l := { l with scopeSpans := ← l.scopeSpans.edit iv spans }
  l.updateStyles iv spans

/-- `blank_scopes`, layers.rs:275-278. -/
def blankScopes {α : Type} (d : Delta α) (l : ScopeLayer Sc M) : Option (ScopeLayer Sc M) := do
  return { l with styleSpans := ← l.styleSpans.applyShape d, scopeSpans := ← l.scopeSpans.applyShape d }

/-- `ScopeLayer::theme_changed`, layers.rs:193-203. -/
def themeChanged (sy : Syntect Sc M) (th : Theme Sc M) (l : ScopeLayer Sc M) : Option (ScopeLayer Sc M) := do
  let (styles, cache) ← stylesForStacks sy th l.styleCache l.stackLookup
  let l := { l with styleLookup := styles, styleCache := cache }
  let len := l.styleSpans.len
  let l := { l with styleSpans := ← (SpansBuilder.new len).build }
  l.updateStyles ⟨0, len⟩ l.scopeSpans

end ScopeLayer

/-- `BTreeMap::insert` of a key that is not there. -/
def insertLayer (pid : Nat) (l : ScopeLayer Sc M) : List (Nat × ScopeLayer Sc M) → List (Nat × ScopeLayer Sc M)
  | [] => [(pid, l)]
  | x :: rest => if pid < x.1 then (pid, l) :: x :: rest else x :: insertLayer pid l rest

/-- `layers.get_mut(&pid).unwrap()` and a change to what is there. -/
def changeLayer (pid : Nat) (f : ScopeLayer Sc M → Option (ScopeLayer Sc M)) :
    List (Nat × ScopeLayer Sc M) → Option (List (Nat × ScopeLayer Sc M))
  | [] => none
  | x :: rest =>
    if x.1 = pid then do return (pid, ← f x.2) :: rest
    else do return x :: (← changeLayer pid f rest)

/-- `for layer in layers.values_mut()`. -/
def changeAll (f : ScopeLayer Sc M → Option (ScopeLayer Sc M)) :
    List (Nat × ScopeLayer Sc M) → Option (List (Nat × ScopeLayer Sc M))
  | [] => some []
  | x :: rest => do return (x.1, ← f x.2) :: (← changeAll f rest)

/-- The closure of `resolve_styles`, layers.rs:132-135. -/
def resolveCell (a : Style) (b : Option Style) : Style := match b with
  | some b => a.merge b
  | none => a

namespace Layers

/-- The loop of `resolve_styles`, layers.rs:129-136. -/
def resolveLoop (iv : Interval) : List (Nat × ScopeLayer Sc M) → SpansTree Style → Option (SpansTree Style)
  | [], resolved => some resolved
  | other :: rest, resolved => do
    let spans ← other.2.styleSpans.subseq iv
    if resolved.len ≠ spans.len then none
    else resolveLoop iv rest (← resolved.merge spans resolveCell)

/-- `resolve_styles`, layers.rs:122-138. -/
def resolveStyles (ls : Layers Sc M) (iv : Interval) : Option (Layers Sc M) :=
  match ls.layers with
  | [] => some ls
  | first :: rest => do
    let resolved ← resolveLoop iv rest (← first.2.styleSpans.subseq iv)
    return { ls with merged := ← ls.merged.edit iv resolved }

/-- `create_if_missing`, layers.rs:159-167; `none` inside is `Err`. -/
def createIfMissing (ls : Layers Sc M) (pid : Nat) : Option (Option (Layers Sc M)) :=
  if pid ∈ ls.deleted then some none
  else if pid ∈ ls.layers.map Prod.fst then some (some ls)
  else do return some { ls with layers := insertLayer pid (← ScopeLayer.new ls.merged.len) ls.layers }

/-- `add_scopes`, layers.rs:60-71. -/
def addScopes (sy : Syntect Sc M) (th : Theme Sc M) (ls : Layers Sc M) (pid : Nat) (stacks : List (List Sc)) : Option (Layers Sc M) := do
  match ← ls.createIfMissing pid with
  | none => return ls
  | some ls => return { ls with layers := ← changeLayer pid (fun l => l.addScopes sy th stacks) ls.layers }

/-- `update_all`, layers.rs:78-86. -/
def updateAll {α : Type} (ls : Layers Sc M) (d : Delta α) : Option (Layers Sc M) := do
  let merged ← ls.merged.applyShape d
  let layers ← changeAll (ScopeLayer.blankScopes d) ls.layers
  let iv ← Interval.new d.summary.1.1 d.summary.1.2
  resolveStyles { ls with merged := merged, layers := layers } iv

/-- `update_layer`, layers.rs:89-95. -/
def updateLayer (ls : Layers Sc M) (pid : Nat) (iv : Interval) (spans : SpansTree Nat) : Option (Layers Sc M) := do
  match ← ls.createIfMissing pid with
  | none => return ls
  | some ls => resolveStyles { ls with layers := ← changeLayer pid (fun l => l.updateScopes iv spans) ls.layers } iv

/-- `remove_layer`, layers.rs:99-109; what is returned is left out. -/
def removeLayer (ls : Layers Sc M) (pid : Nat) : Option (Layers Sc M) :=
  let found := pid ∈ ls.layers.map Prod.fst
  let ls := { ls with deleted := pid :: ls.deleted, layers := ls.layers.filter (fun x => x.1 ≠ pid) }
  if found then do
    let len := ls.merged.len
    resolveStyles { ls with merged := ← (SpansBuilder.new len).build } ⟨0, len⟩
  else some ls

/-- `theme_changed`, layers.rs:111-118. -/
def themeChanged (sy : Syntect Sc M) (th : Theme Sc M) (ls : Layers Sc M) : Option (Layers Sc M) := do
  let layers ← changeAll (ScopeLayer.themeChanged sy th) ls.layers
  let merged ← (SpansBuilder.new ls.merged.len).build
  resolveStyles { ls with layers := layers, merged := merged } ⟨0, merged.len⟩

end Layers

end Xi
