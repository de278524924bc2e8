import Verif.View.Gesture
import Verif.Rope.Spans

/-!
# Model of `rust/core-lib/src/annotations.rs` and of the annotations a view sends

Payloads (`serde_json::Value`) are of any type.  The `HashMap` of the store is a list, in the order in which the plugins have come; the real
order of its entries is not determined.
-/

namespace Xi.Gesture

/-- `AnnotationType`, annotations.rs:29-34. -/
inductive AnnotationType where
  | selection
  | find
  | other (s : String)
deriving DecidableEq

/-- `AnnotationRange`, annotations.rs:46-54. -/
structure AnnotationRange where
  startLine : Nat
  startCol : Nat
  endLine : Nat
  endCol : Nat
deriving DecidableEq

/-- `AnnotationSlice`, annotations.rs:108-114. -/
structure AnnotationSlice (V : Type) where
  kind : AnnotationType
  ranges : List AnnotationRange
  payloads : Option (List V)

/-- From offsets to lines and columns, annotations.rs:202-205, selection.rs:236-240 and find.rs:418-422. -/
def rangeOf (ls : Wrapping) (text : Rope) (lo hi : Nat) : Option AnnotationRange := do
  let (startLine, startCol) ← ls.lines.offsetToLineCol text lo
  let (endLine, endCol) ← ls.lines.offsetToLineCol text hi
  return ⟨startLine, startCol, endLine, endCol⟩

/-- `get_annotations` of a selection, selection.rs:231-244. -/
def selectionAnnotations {V : Type} (sel : Selection) (iv : Interval) (ls : Wrapping) (text : Rope) : Option (AnnotationSlice V) := do
  let regions ← sel.regionsInRange iv.start iv.stop
  return ⟨.selection, ← regions.mapM (fun r => rangeOf ls text r.lo r.hi), none⟩

/-- `get_annotations` of a query, find.rs:413-428; `payload` is what `{"id": self.id}` is. -/
def findAnnotations {V : Type} (occurrences : Selection) (payload : V) (iv : Interval) (ls : Wrapping) (text : Rope) : Option (AnnotationSlice V) := do
  let regions ← occurrences.regionsInRange iv.start iv.stop
  let ranges ← regions.mapM (fun r => rangeOf ls text r.lo r.hi)
  return ⟨.find, ranges, some (List.replicate ranges.length payload)⟩

/-- `Annotations`, annotations.rs:89-92. -/
structure Annotations (V : Type) where
  items : SpansTree V
  kind : AnnotationType

/-- `AnnotationStore`, annotations.rs:144-146. -/
abbrev AnnotationStore (V : Type) := List (Nat × List (Annotations V))

namespace AnnotationStore

variable {V : Type}

/-- `Annotations::invalidate`, annotations.rs:101-103. -/
def invalidateOne (iv : Interval) (a : Annotations V) : Option (Annotations V) := do return { a with items := ← a.items.deleteAfter iv }

/-- `AnnotationStore::invalidate`, annotations.rs:154-160. -/
def invalidate (self : AnnotationStore V) (iv : Interval) : Option (AnnotationStore V) :=
  self.mapM fun e => do return (e.1, ← e.2.mapM (invalidateOne iv))

/-- The search for the type, annotations.rs:170-176. -/
def updateEntry (iv : Interval) (item : Annotations V) : List (Annotations V) → Option (List (Annotations V))
  | [] => some [item]
  | a :: rest =>
    if a.kind = item.kind then do return { a with items := ← a.items.edit iv item.items } :: rest
    else do return a :: (← updateEntry iv item rest)

/-- `AnnotationStore::update`, annotations.rs:163-177. -/
def update (source : Nat) (iv : Interval) (item : Annotations V) : AnnotationStore V → Option (AnnotationStore V)
  | [] => some [(source, [item])]
  | e :: rest =>
    if e.1 = source then do return (e.1, ← updateEntry iv item e.2) :: rest
    else do return e :: (← update source iv item rest)

/-- One kind of annotations of `iter_range`, annotations.rs:190-213. -/
def sliceOf (ls : Wrapping) (text : Rope) (iv : Interval) (a : Annotations V) : Option (AnnotationSlice V) := do
  let spans := (← a.items.iter).filter fun s => s.iv.start ≤ iv.stop ∧ s.iv.stop ≥ iv.start
  let ranges ← spans.mapM (fun s => rangeOf ls text s.iv.start s.iv.stop)
  return ⟨a.kind, ranges, some (spans.map Span.data)⟩

/-- `iter_range`, annotations.rs:181-216. -/
def iterRange (self : AnnotationStore V) (ls : Wrapping) (text : Rope) (iv : Interval) : Option (List (AnnotationSlice V)) :=
  (self.flatMap Prod.snd).mapM (sliceOf ls text iv)

/-- `clear`, annotations.rs:219-221; nothing calls it. -/
def clear (self : AnnotationStore V) (plugin : Nat) : AnnotationStore V := self.filter fun e => e.1 ≠ plugin

end AnnotationStore

/-- The annotations of an update, view.rs:754-768; `find` are the queries with their payloads. -/
def sentAnnotations {V : Type} (ls : Wrapping) (text : Rope) (firstLine height : Nat) (sel : Selection) (find : List (Selection × V)) (store : AnnotationStore V) :
    Option (List (AnnotationSlice V)) := do
  let iv ← Interval.new (← ls.lines.offsetOfLine text firstLine) (← ls.lines.offsetOfLine text (firstLine + height + 2))
  let s ← selectionAnnotations sel iv ls text
  let f ← find.mapM (fun q => findAnnotations q.1 q.2 iv ls text)
  let p ← store.iterRange ls text iv
  return s :: f ++ p

end Xi.Gesture
