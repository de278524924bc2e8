import Verif.Core.IndexSet

/-!
# Model of `rust/core-lib/src/selection.rs`
-/

namespace Xi

/-- `enum InsertDrift`, selection.rs:36-43. -/
inductive InsertDrift where
  | inside
  | outside
  | default
deriving DecidableEq

/-- `struct SelRegion`, selection.rs:283-296; `upstream` is the affinity. -/
structure SelRegion where
  start : Nat
  stop : Nat
  horiz : Option Nat
  upstream : Bool
deriving DecidableEq

namespace SelRegion

/-- `SelRegion::new`, selection.rs:300-302. -/
def new (start stop : Nat) : SelRegion := ⟨start, stop, none, false⟩

/-- `SelRegion::caret`, selection.rs:305-307. -/
def caret (pos : Nat) : SelRegion := ⟨pos, pos, none, false⟩

/-- `with_affinity`, selection.rs:315-317. -/
def withAffinity (self : SelRegion) (upstream : Bool) : SelRegion := { self with upstream := upstream }

/-- `SelRegion::min`, selection.rs:320-322. -/
def lo (self : SelRegion) : Nat := min self.start self.stop

/-- `SelRegion::max`, selection.rs:325-327. -/
def hi (self : SelRegion) : Nat := max self.start self.stop

/-- `is_caret`, selection.rs:330-332. -/
def isCaret (self : SelRegion) : Bool := self.start == self.stop

/-- `should_merge`, selection.rs:341-344. -/
def shouldMerge (self other : SelRegion) : Bool :=
  other.lo < self.hi || ((self.isCaret || other.isCaret) && other.lo == self.hi)

/-- `merge_with`, selection.rs:348-356. -/
def mergeWith (self other : SelRegion) : SelRegion :=
  let isForward := decide (self.stop ≥ self.start)
  let newMin := min self.lo other.lo
  let newMax := max self.hi other.hi
  if isForward then SelRegion.new newMin newMax else SelRegion.new newMax newMin

end SelRegion

/-- `struct Selection`, selection.rs:47-51: its regions. -/
abbrev Selection := List SelRegion

namespace Selection

/-- `collapse`, selection.rs:70-73; `none` is the failed index. -/
def collapse : Selection → Option Selection
  | [] => none
  | r :: _ => some [{ r with start := r.stop }]

/-- `search`, selection.rs:77-85; `binary_search_by` is modelled by its
meaning when the ends of the regions increase, which the invariant gives. -/
def search (self : Selection) (offset : Nat) : Nat := self.findIdx (fun r => r.hi ≥ offset)

/-- The loop of `add_region`, selection.rs:112-115, over the regions from `end_ix` on. -/
def mergeLoop : List SelRegion → SelRegion → Nat → SelRegion × Nat
  | [], region, endIx => (region, endIx)
  | r :: rest, region, endIx =>
    if region.shouldMerge r then mergeLoop rest (region.mergeWith r) (endIx + 1) else (region, endIx)

/-- The end of `add_region`, selection.rs:116-121. -/
def putRegion (self : Selection) (ix endIx : Nat) (region : SelRegion) : Option Selection :=
  if ix = endIx then some (self.insertIdx ix region)
  else removeNAt (self.set ix region) (ix + 1) (endIx - ix - 1)

/-- `add_region`, selection.rs:96-122; `first` is the region at `ix`. -/
def addRegion (self : Selection) (region : SelRegion) : Option Selection :=
  let ix := self.search region.lo
  match self[ix]? with
  | none => some (self ++ [region])
  | some first =>
    if first.lo ≤ region.lo then
      if first.shouldMerge region then
        let m := mergeLoop (self.drop (ix + 1)) (region.mergeWith first) (ix + 1)
        self.putRegion ix m.2 m.1
      else
        let m := mergeLoop (self.drop (ix + 1)) region (ix + 1)
        self.putRegion (ix + 1) m.2 m.1
    else
      let m := mergeLoop (self.drop ix) region ix
      self.putRegion ix m.2 m.1

/-- `regions_in_range`, selection.rs:130-137; `none` is the failed slice. -/
def regionsInRange (self : Selection) (start stop : Nat) : Option (List SelRegion) :=
  let first := self.search start
  let last := self.search stop
  let last := if (self[last]?).any (fun r => r.lo ≤ stop) then last + 1 else last
  if first ≤ last then some ((self.take last).drop first) else none

/-- `delete_range`, selection.rs:140-156; the subtraction is checked. -/
def deleteRange (self : Selection) (start stop : Nat) (deleteAdjacent : Bool) : Option Selection :=
  let first := self.search start
  let last := self.search stop
  match self[first]? with
  | none => some self
  | some r =>
    let first := if deleteAdjacent = false ∧ r.hi = start then first + 1 else first
    let last := if (self[last]?).any (fun r => (deleteAdjacent && r.lo ≤ stop) || (!deleteAdjacent && r.lo < stop)) then last + 1 else last
    if first ≤ last then removeNAt self first (last - first) else none

/-- `add_range_distinct`, selection.rs:165-196, from line 182 on. -/
def insertDistinct (self : Selection) (region : SelRegion) (ix : Nat) : Option (Selection × (Nat × Nat)) := do
  let last := self.search region.hi
  let last := if (self[last]?).any (fun r => r.lo < region.hi) then last + 1 else last
  let regions ← if ix ≤ last then removeNAt self ix (last - ix) else none
  let regions := if ix = regions.length then regions ++ [region] else regions.insertIdx ix region
  let r ← regions[ix]?
  return (regions, (r.lo, r.hi))

/-- `add_range_distinct`, selection.rs:165-196. -/
def addRangeDistinct (self : Selection) (region : SelRegion) : Option (Selection × (Nat × Nat)) :=
  let ix := self.search region.lo
  let ix := if (self[ix]?).any (fun r => r.hi == region.lo) then ix + 1 else ix
  match self[ix]? with
  | some occ =>
    if (occ.lo = region.lo ∧ occ.hi = region.hi) ∨ (region.lo ≥ occ.lo ∧ occ.hi > region.lo) then some (self, (occ.lo, occ.hi))
    else self.insertDistinct region ix
  | none => self.insertDistinct region ix

/-- On which side of text inserted at them the two ends of a region go, selection.rs:209-216. -/
def driftFlags (after : Bool) (drift : InsertDrift) (region : SelRegion) : Bool × Bool :=
  let isCaret := region.start == region.stop
  let isForward := decide (region.start < region.stop)
  match drift, isCaret with
  | .inside, false => (!isForward, isForward)
  | .outside, false => (isForward, !isForward)
  | _, _ => (after, after)

/-- The new place of a region in `apply_delta`, selection.rs:218-222. -/
def moveRegion {α : Type} (delta : Delta α) (after : Bool) (drift : InsertDrift) (region : SelRegion) : SelRegion :=
  let flags := driftFlags after drift region
  (SelRegion.new (delta.transformIx region.start flags.1) (delta.transformIx region.stop flags.2)).withAffinity region.upstream

/-- `apply_delta`, selection.rs:205-226. -/
def applyDelta {α : Type} (self : Selection) (delta : Delta α) (after : Bool) (drift : InsertDrift) : Option Selection :=
  self.foldlM (fun result region => result.addRegion (moveRegion delta after drift region)) []

end Selection

end Xi
