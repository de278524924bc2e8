import Verif.Rope.Delta
import Verif.Rope.Codepoint
import Verif.Rope.Lines
import Verif.Core.Wrap

/-!
# Model of `rust/plugin-lib/src/base_cache.rs`, and of the answers of the core

A function that can panic returns `Option`; inside, `Err(_)` is again `none`.  Inserted ropes are
their bytes.  The length of the chunks that are fetched is a parameter.
-/

namespace Xi

namespace Plugin

/-- `struct GetDataResponse`, core-lib/src/plugins/rpc.rs:156-161. -/
structure GetData where
  chunk : List UInt8
  offset : Nat
  firstLine : Nat
  firstLineOffset : Nat
deriving DecidableEq

/-- `enum TextUnit`, plugins/rpc.rs:166-173. -/
inductive TextUnit where
  | utf8
  | line
deriving DecidableEq

/-- `TextUnit::resolve_offset`, plugins/rpc.rs:331-350. -/
def TextUnit.resolveOffset (unit : TextUnit) (text : Rope) (offset : Nat) : Option (Option Nat) :=
  match unit with
  | .utf8 => if offset > text.len then some none else text.atOrPrevCodepointBoundary offset
  | .line => if offset > text.measure linesMetric + 1 then some none else (text.offsetOfLine offset).map some

/-- `MAX_SIZE_LIMIT`, event_context.rs:53. -/
def maxSizeLimit : Nat := 1024 * 1024

/-- The end of the chunk, editor.rs:694-701. -/
def chunkEnd (text : Rope) (offset maxSize : Nat) : Option Nat :=
  let endOff := offset + min maxSize maxSizeLimit
  if endOff ≥ text.len then some text.len else (text.prevCodepointOffset (endOff + 1)).bind id

/-- `Editor::plugin_get_data`, editor.rs:681-708, on the text of the requested revision. -/
def pluginGetData (text : Rope) (start : Nat) (unit : TextUnit) (maxSize : Nat) : Option (Option GetData) := do
  match ← unit.resolveOffset text start with
  | none => return none
  | some offset =>
    let chunk ← text.sliceToCow (.range offset (← chunkEnd text offset maxSize))
    let firstLine ← text.lineOfOffset offset
    let firstLineOffset ← checkedSub offset (← text.offsetOfLine firstLine)
    return some ⟨chunk, offset, firstLine, firstLineOffset⟩

/-- `DataSource::get_data`, plugin-lib/src/lib.rs:56-62: start, unit, size and revision. -/
abbrev Source := Nat → TextUnit → Nat → Nat → Option (Option GetData)

/-- `slice::binary_search` on an increasing list: `inl` is `Ok`, `inr` is `Err`. -/
def binSearch (l : List Nat) (x : Nat) : Nat ⊕ Nat :=
  let ix := (l.takeWhile (· < x)).length
  if l[ix]? = some x then .inl ix else .inr ix

/-- `newline_offsets`, base_cache.rs:454-460; `cur` is `cur_idx`, the list is the rest of the text. -/
def newlineOffsetsFrom : Nat → List UInt8 → Nat → List Nat
  | 0, _, _ => []
  | fuel + 1, text, cur =>
    match memchr newline text with
    | none => []
    | some idx => (cur + idx + 1) :: newlineOffsetsFrom fuel (text.drop (idx + 1)) (cur + idx + 1)

/-- `newline_offsets`, base_cache.rs:454-460. -/
def newlineOffsets (text : List UInt8) : List Nat := newlineOffsetsFrom (text.length + 1) text 0

/-- `struct ChunkCache`, base_cache.rs:36-53. -/
structure ChunkCache where
  offset : Nat
  contents : List UInt8
  firstLine : Nat
  firstLineOffset : Nat
  lineOffsets : List Nat
  bufSize : Nat
  numLines : Nat
  rev : Nat
deriving DecidableEq

namespace ChunkCache

/-- `new`, base_cache.rs:56-62. -/
def new (bufSize rev numLines : Nat) : ChunkCache := ⟨0, [], 0, 0, [], bufSize, numLines, rev⟩

/-- `clear`, base_cache.rs:230-236. -/
def clear (c : ChunkCache) : ChunkCache := { c with contents := [], offset := 0, lineOffsets := [], firstLine := 0, firstLineOffset := 0 }

/-- `cached_offset_of_line`, base_cache.rs:243-263. -/
def cachedOffsetOfLine (c : ChunkCache) (lineNum : Nat) : Option (Option Nat) :=
  if lineNum < c.firstLine then some none
  else
    let rel := lineNum - c.firstLine
    if rel = 0 then (checkedSub c.offset c.firstLineOffset).map some
    else if rel ≤ c.lineOffsets.length then (c.lineOffsets[rel - 1]?).map (fun o => some (c.offset + o))
    else if lineNum = c.numLines ∧ c.offset + c.contents.length = c.bufSize then some (some (c.offset + c.contents.length))
    else some none

/-- The new first line, base_cache.rs:281-285. -/
def newFirstLine (c : ChunkCache) (offset : Nat) : Option (Nat × Nat) :=
  match binSearch c.lineOffsets offset with
  | .inl idx => some (c.firstLine + idx + 1, 0)
  | .inr 0 => some (c.firstLine, c.firstLineOffset + offset)
  | .inr (idx + 1) => do
    let last ← c.lineOffsets[idx]?
    return (c.firstLine + (idx + 1), ← checkedSub offset last)

/-- `clear_up_to`, base_cache.rs:272-293. -/
def clearUpTo (c : ChunkCache) (offset : Nat) : Option ChunkCache :=
  if isCharBoundary c.contents offset then do
    let (line, lineOff) ← c.newFirstLine offset
    return { c with
      contents := c.contents.drop offset, offset := c.offset + offset,
      lineOffsets := (c.lineOffsets.filter (fun i => i > offset)).map (· - offset),
      firstLine := line, firstLineOffset := lineOff }
  else none

/-- `recalculate_line_offsets`, base_cache.rs:312-315. -/
def recalculate (c : ChunkCache) : ChunkCache := { c with lineOffsets := newlineOffsets c.contents }

/-- `reset_chunk`, base_cache.rs:296-302. -/
def resetChunk (c : ChunkCache) (data : GetData) : ChunkCache :=
  recalculate { c with contents := data.chunk, offset := data.offset, firstLine := data.firstLine, firstLineOffset := data.firstLineOffset }

/-- `append_chunk`, base_cache.rs:305-310. -/
def appendChunk (c : ChunkCache) (data : GetData) : ChunkCache := recalculate { c with contents := c.contents ++ data.chunk }

/-- Putting the new line offsets among the old, base_cache.rs:367-379. -/
def mergeOffsets (shifted new : List Nat) : Option (List Nat) :=
  match new with
  | [] => none
  | first :: _ =>
    match binSearch shifted first with
    | .inl _ => none
    | .inr ix => some (shifted.take ix ++ new ++ shifted.drop ix)

/-- `simple_insert`, base_cache.rs:351-378. -/
def simpleInsert (c : ChunkCache) (text : List UInt8) (insOffset : Nat) : Option ChunkCache := do
  let rel ← checkedSub insOffset c.offset
  let shifted := c.lineOffsets.map (fun off => if off > rel then off + text.length else off)
  if text.count newline > 0 then
    return { c with lineOffsets := ← mergeOffsets shifted ((newlineOffsets text).map (· + rel)) }
  else return { c with lineOffsets := shifted }

/-- What happens to a line offset when a newline is deleted, base_cache.rs:391-396. -/
def deletedOffset (start stop delSize off : Nat) : Option Nat :=
  if off ≤ start then some off else if off ≤ stop then none else some (off - delSize)

/-- `simple_delete`, base_cache.rs:381-405. -/
def simpleDelete (c : ChunkCache) (start stop : Nat) : Option ChunkCache := do
  let delSize ← checkedSub stop start
  let start ← checkedSub start c.offset
  let stop ← checkedSub stop c.offset
  if stop ≤ c.contents.length then
    if (memchr newline ((c.contents.take stop).drop start)).isSome then
      return { c with lineOffsets := c.lineOffsets.filterMap (deletedOffset start stop delSize) }
    else return { c with lineOffsets := c.lineOffsets.map (fun off => if off ≥ stop then off - delSize else off) }
  else none

/-- `should_clear`, base_cache.rs:320-348; `none` inside is "clear", otherwise the cache with new line
offsets. -/
def shouldClear (c : ChunkCache) (delta : Delta UInt8) : Option (Option ChunkCache) := do
  let iv ← Interval.new delta.summary.1.1 delta.summary.1.2
  if iv.start < c.offset ∨ iv.start > c.offset + c.contents.length then return none
  else if delta.isSimpleDelete then (c.simpleDelete iv.start (min iv.stop (c.offset + c.contents.length))).map some
  else
    match delta.asSimpleInsert with
    | some text => if iv.stop - iv.start = 0 then (c.simpleInsert text iv.start).map some else none
    | none => return none

/-- The variables of `update_chunk`, base_cache.rs:409-414. -/
structure UpdateState where
  newState : List UInt8
  prevCopyEnd : Nat
  delBefore : Nat
  insBefore : Nat

/-- One element in `update_chunk`, base_cache.rs:416-441. -/
def updateStep (c : ChunkCache) (st : UpdateState) : DeltaElement UInt8 → Option UpdateState
  | .copy start stop =>
    let chunkStop := c.offset + c.contents.length
    if start < c.offset then do
      let del ← checkedSub start st.prevCopyEnd
      let new ← if stop ≥ c.offset then strSlice c.contents 0 (min (stop - c.offset) c.contents.length) else some []
      return { st with delBefore := st.delBefore + del, newState := st.newState ++ new, prevCopyEnd := stop }
    else if start ≤ chunkStop then do
      let del := if st.prevCopyEnd < c.offset then c.offset - st.prevCopyEnd else 0
      let cpStop ← checkedSub stop c.offset
      let new ← strSlice c.contents (start - c.offset) (min cpStop c.contents.length)
      return { st with delBefore := st.delBefore + del, newState := st.newState ++ new, prevCopyEnd := stop }
    else return { st with prevCopyEnd := stop }
  | .insert s =>
    if st.prevCopyEnd < c.offset then some { st with insBefore := st.insBefore + s.length }
    else if st.prevCopyEnd ≤ c.offset + c.contents.length then some { st with newState := st.newState ++ s }
    else some st

/-- `update_chunk`, base_cache.rs:408-448. -/
def updateChunk (c : ChunkCache) (delta : Delta UInt8) : Option ChunkCache := do
  let st ← delta.els.foldlM (updateStep c) ⟨[], 0, 0, 0⟩
  return { c with offset := ← checkedSub (c.offset + st.insBefore) st.delBefore, contents := st.newState }

/-- The part of `update` that uses the edit, base_cache.rs:210-224. -/
def updateText (c : ChunkCache) (delta : Option (Delta UInt8)) : Option ChunkCache :=
  match delta with
  | none => some c.clear
  | some delta =>
    if c.offset = 0 ∧ c.contents = [] then some c.clear
    else do
      match ← c.shouldClear delta with
      | none => return c.clear
      | some c => c.updateChunk delta

/-- `update`, base_cache.rs:208-228. -/
def update (c : ChunkCache) (delta : Option (Delta UInt8)) (newLen numLines rev : Nat) : Option ChunkCache := do
  return { ← c.updateText delta with bufSize := newLen, numLines := numLines, rev := rev }

/-- A fetch that starts the chunk anew; `false` is `Err`. -/
def refetch (source : Source) (size : Nat) (c : ChunkCache) (start : Nat) (unit : TextUnit) : Option (ChunkCache × Bool) := do
  match ← source start unit size c.rev with
  | none => return (c, false)
  | some resp => return (c.resetChunk resp, true)

/-- A fetch of what follows the chunk; `false` is `Err`. -/
def fetchMore (source : Source) (size : Nat) (c : ChunkCache) : Option (ChunkCache × Bool) := do
  match ← source (c.offset + c.contents.length) .utf8 size c.rev with
  | none => return (c, false)
  | some resp => return (c.appendChunk resp, true)

/-- The condition of the first fetch of `get_line`, base_cache.rs:86-89. -/
def misses (c : ChunkCache) (lineNum : Nat) : Bool :=
  c.contents.isEmpty || decide (lineNum < c.firstLine) || (decide (lineNum = c.firstLine) && decide (c.firstLineOffset > 0)) ||
    decide (lineNum > c.firstLine + c.lineOffsets.length)

/-- Discarding what is not needed, base_cache.rs:106-109 and 136-138. -/
def dropTo (c : ChunkCache) (startOff : Nat) : Option ChunkCache := if startOff ≠ 0 then c.clearUpTo startOff else some c

/-- The loop of `get_line`, base_cache.rs:100-114. -/
def lineLoop (source : Source) (size lineNum : Nat) : Nat → ChunkCache → Nat → Option (ChunkCache × Option (List UInt8))
  | 0, _, _ => none
  | fuel + 1, c, startOff => do
    match ← c.cachedOffsetOfLine (lineNum + 1) with
    | some endOff => return (c, some (← strSlice c.contents startOff (← checkedSub endOff c.offset)))
    | none =>
      match ← fetchMore source size (← c.dropTo startOff) with
      | (c, false) => return (c, none)
      | (c, true) => lineLoop source size lineNum fuel c 0

/-- `get_line` once the start of the line is in the chunk, base_cache.rs:96-114. -/
def lineFrom (source : Source) (size : Nat) (c : ChunkCache) (lineNum : Nat) : Option (ChunkCache × Option (List UInt8)) := do
  let start ← ← c.cachedOffsetOfLine lineNum
  lineLoop source size lineNum (c.bufSize + 2) c (← checkedSub start c.offset)

/-- `get_line`, base_cache.rs:77-115. -/
def getLine (source : Source) (size : Nat) (c : ChunkCache) (lineNum : Nat) : Option (ChunkCache × Option (List UInt8)) :=
  if lineNum ≥ c.numLines then some (c, none)
  else if c.misses lineNum then do
    match ← refetch source size c lineNum .line with
    | (c, false) => return (c, none)
    | (c, true) => lineFrom source size c lineNum
  else lineFrom source size c lineNum

/-- One turn of the loop of `get_region`, base_cache.rs:130-145: either the answer or the cache for
the next turn. -/
def regionStep (source : Source) (size start stop : Nat) (c : ChunkCache) : Option ((ChunkCache × Option (List UInt8)) ⊕ ChunkCache) := do
  let startOff ← checkedSub start c.offset
  let endOff ← checkedSub stop c.offset
  if endOff ≤ c.contents.length then return .inl (c, some (← strSlice c.contents startOff endOff))
  else
    match ← fetchMore source size (← c.dropTo startOff) with
    | (c, false) => return .inl (c, none)
    | (c, true) => return .inr c

/-- The loop of `get_region`, base_cache.rs:130-145. -/
def regionLoop (source : Source) (size start stop : Nat) : Nat → ChunkCache → Option (ChunkCache × Option (List UInt8))
  | 0, _ => none
  | fuel + 1, c => do
    match ← regionStep source size start stop c with
    | .inl r => return r
    | .inr c => regionLoop source size start stop fuel c

/-- `get_region`, base_cache.rs:117-146. -/
def getRegion (source : Source) (size : Nat) (c : ChunkCache) (interval : Bounds) : Option (ChunkCache × Option (List UInt8)) := do
  let iv ← interval.intoInterval c.bufSize
  if c.contents.isEmpty ∨ iv.start < c.offset ∨ iv.start ≥ c.offset + c.contents.length then
    match ← refetch source size c iv.start .utf8 with
    | (c, false) => return (c, none)
    | (c, true) => regionLoop source size iv.start iv.stop (c.bufSize + 2) c
  else regionLoop source size iv.start iv.stop (c.bufSize + 2) c

/-- The fetch in `get_document`, base_cache.rs:155-158. -/
def documentFetch (source : Source) (size : Nat) (c : ChunkCache) (cur : Nat) : Option (ChunkCache × Bool) :=
  if c.contents.isEmpty ∨ cur ≠ c.offset then refetch source size c cur .utf8 else some (c, true)

/-- The loop of `get_document`, base_cache.rs:154-161. -/
def documentLoop (source : Source) (size : Nat) : Nat → ChunkCache → Nat → List UInt8 → Option (ChunkCache × Option (List UInt8))
  | 0, _, _, _ => none
  | fuel + 1, c, cur, result =>
    if cur < c.bufSize then do
      match ← documentFetch source size c cur with
      | (c, false) => return (c, none)
      | (c, true) => documentLoop source size fuel c (c.offset + c.contents.length) (result ++ c.contents)
    else some (c, some result)

/-- `get_document`, base_cache.rs:151-163. -/
def getDocument (source : Source) (size : Nat) (c : ChunkCache) : Option (ChunkCache × Option (List UInt8)) :=
  documentLoop source size (c.bufSize + 1) c 0 []

/-- `offset_of_line`, base_cache.rs:165-181, with the depth of the recursion. -/
def offsetOfLineFrom (source : Source) (size lineNum : Nat) : Nat → ChunkCache → Option (ChunkCache × Option Nat)
  | 0, _ => none
  | fuel + 1, c =>
    if lineNum > c.numLines then some (c, none)
    else do
      match ← c.cachedOffsetOfLine lineNum with
      | some offset => return (c, some offset)
      | none =>
        match ← refetch source size c lineNum .line with
        | (c, false) => return (c, none)
        | (c, true) => offsetOfLineFrom source size lineNum fuel c

/-- `offset_of_line`, base_cache.rs:165-181.  The recursion is never deeper (C42_offset_of_line). -/
def offsetOfLine (source : Source) (size : Nat) (c : ChunkCache) (lineNum : Nat) : Option (ChunkCache × Option Nat) :=
  offsetOfLineFrom source size lineNum 2 c

/-- The line in the chunk, base_cache.rs:199-204. -/
def cachedLineOfOffset (c : ChunkCache) (offset : Nat) : Option Nat := do
  match binSearch c.lineOffsets (← checkedSub offset c.offset) with
  | .inl ix => return ix + c.firstLine + 1
  | .inr ix => return ix + c.firstLine

/-- `line_of_offset`, base_cache.rs:183-205. -/
def lineOfOffset (source : Source) (size : Nat) (c : ChunkCache) (offset : Nat) : Option (ChunkCache × Option Nat) :=
  if offset > c.bufSize then some (c, none)
  else if c.contents.isEmpty ∨ offset < c.offset ∨ offset > c.offset + c.contents.length then do
    match ← refetch source size c offset .utf8 with
    | (c, false) => return (c, none)
    | (c, true) => return (c, some (← c.cachedLineOfOffset offset))
  else do return (c, some (← c.cachedLineOfOffset offset))

end ChunkCache

end Plugin

end Xi
