/-!
# Model of `rust/core-lib/src/width_cache.rs`

Widths are of any type `W` with a value standing for `0.0`.  A hash map is a function, a
panic is `none`.
-/

namespace Xi

/-- `struct WidthCacheKey`, width_cache.rs:40-43: style and string. -/
abbrev WidthKey := Nat × String

/-- `struct WidthCache`, width_cache.rs:33-37. -/
structure WidthCache (W : Type) where
  m : WidthKey → Option Nat
  widths : List W

/-- `struct WidthBatchReq`, width_cache.rs:47-54; a request of one style
(`WidthReq`, 58-62) is a pair. -/
structure WidthBatch (W : Type) where
  cache : WidthCache W
  pendingTok : Nat
  req : List (Nat × List String)
  reqToks : List (List Nat)
  reqIds : Nat → Option Nat

namespace WidthCache

variable {W : Type}

/-- `new`, width_cache.rs:94-96. -/
def new : WidthCache W := ⟨fun _ => none, []⟩

/-- `resolve`, width_cache.rs:104-106. -/
def resolve (c : WidthCache W) (tok : Nat) : Option W := c.widths[tok]?

/-- `batch_req`, width_cache.rs:109-118. -/
def batchReq (c : WidthCache W) : WidthBatch W := ⟨c, c.widths.length, [], [], fun _ => none⟩

end WidthCache

namespace WidthBatch

variable {W : Type}

/-- The entry for the style, made if there is none, width_cache.rs:132-137. -/
def entry (b : WidthBatch W) (id : Nat) : Nat × WidthBatch W :=
  match b.reqIds id with
  | some i => (i, b)
  | none => (b.req.length, ⟨b.cache, b.pendingTok, b.req ++ [(id, [])], b.reqToks ++ [[]],
      fun j => if j = id then some b.req.length else b.reqIds j⟩)

/-- `request`, width_cache.rs:123-146. -/
def request (b : WidthBatch W) (id : Nat) (s : String) : Option (Nat × WidthBatch W) :=
  match b.cache.m (id, s) with
  | some tok => some (tok, b)
  | none =>
    let (i, b) := b.entry id
    if i < b.req.length ∧ i < b.reqToks.length then
      let tok := b.pendingTok
      some (tok, ⟨⟨fun k => if k = (id, s) then some tok else b.cache.m k, b.cache.widths⟩, tok + 1,
        b.req.modify i (fun r => (r.1, r.2 ++ [s])), b.reqToks.modify i (· ++ [tok]), b.reqIds⟩)
    else none

/-- The assignments of one style, width_cache.rs:160-162. -/
def assign (widths : List W) : List (W × Nat) → Option (List W)
  | [] => some widths
  | (w, t) :: r => if t < widths.length then assign (widths.set t w) r else none

/-- `resolve_pending`, width_cache.rs:150-166.  `measure` is the front-end; `none` is an
error.  The second component says whether the result is `Ok`. -/
def resolvePending (zero : W) (b : WidthBatch W) (measure : List (Nat × List String) → Option (List (List W))) :
    Option (WidthCache W × Bool) :=
  if b.pendingTok > b.cache.widths.length then
    let widths := b.cache.widths ++ List.replicate (b.pendingTok - b.cache.widths.length) zero
    match measure b.req with
    | none => some (⟨b.cache.m, widths⟩, false)
    | some ws =>
      match assign widths ((ws.zip b.reqToks).flatMap fun (w, t) => w.zip t) with
      | none => none
      | some widths => some (⟨b.cache.m, widths⟩, true)
  else some (b.cache, true)

/-- All requests of a batch, as `refill_pot_breaks` makes them (linewrap.rs:517-521). -/
def requests (b : WidthBatch W) : List WidthKey → Option (List Nat × WidthBatch W)
  | [] => some ([], b)
  | (id, s) :: r => do
    let (t, b) ← b.request id s
    let (ts, b) ← requests b r
    some (t :: ts, b)

end WidthBatch

end Xi
