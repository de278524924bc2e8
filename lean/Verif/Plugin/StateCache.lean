import Verif.Plugin.ChunkCache

/-!
# The plugin's cache of states per line

Model of `rust/plugin-lib/src/state_cache.rs` and of its user, the highlighter of
`rust/syntect-plugin/src/main.rs`. A state is whatever the plugin keeps per line; the cache holds, for
some lines, the state at the start of the line, and a list of lines from which states must be computed
again, the frontier.
-/

namespace Xi

namespace Plugin

/-- `CACHE_SIZE`, state_cache.rs:26. -/
def cacheSize : Nat := 1024

/-- `NUM_PROBES`, state_cache.rs:29. -/
def numProbes : Nat := 5

/-- `struct CacheEntry`, state_cache.rs:31-35. -/
structure CacheEntry (S : Type) where
  line : Nat
  offset : Nat
  state : Option S
  deriving DecidableEq

/-- `struct StateCache`, state_cache.rs:39-44. -/
structure StateCache (S : Type) where
  buf : ChunkCache
  entries : List (CacheEntry S)
  frontier : List Nat

namespace StateCache

variable {S : Type}

/-- `new`, state_cache.rs:47-53. -/
def new (bufSize rev numLines : Nat) : StateCache S := ⟨ChunkCache.new bufSize rev numLines, [], []⟩

/-- `find_line`, state_cache.rs:111-113. -/
def findLine (c : StateCache S) (lineNum : Nat) : Nat ⊕ Nat := binSearch (c.entries.map (·.line)) lineNum

/-- `find_offset`, state_cache.rs:116-118. -/
def findOffset (c : StateCache S) (offset : Nat) : Nat ⊕ Nat := binSearch (c.entries.map (·.offset)) offset

/-- The loop of `get_prev`, state_cache.rs:129-138; the list is `state_cache[..=ix]` backwards. -/
def scanBack (s0 : S) : List (CacheEntry S) → Nat × Nat × S
  | [] => (0, 0, s0)
  | e :: es =>
    match e.state with
    | some s => (e.line, e.offset, s)
    | none => scanBack s0 es

/-- `get_prev`, state_cache.rs:122-141; `s0` is `S::default()`. -/
def getPrev (s0 : S) (c : StateCache S) (lineNum : Nat) : Nat × Nat × S :=
  if lineNum > 0 then
    match c.findLine lineNum with
    | .inl ix => scanBack s0 (c.entries.take (ix + 1)).reverse
    | .inr 0 => (0, 0, s0)
    | .inr (ix + 1) => scanBack s0 (c.entries.take (ix + 1)).reverse
  else (0, 0, s0)

/-- `get`, state_cache.rs:144-146. -/
def get (c : StateCache S) (lineNum : Nat) : Option S :=
  match c.findLine lineNum with
  | .inl ix => c.entries[ix]?.bind (·.state)
  | .inr _ => none

/-- `compute_gap`, state_cache.rs:217-226. -/
def computeGap (c : StateCache S) (ix : Nat) : Option Nat :=
  let before := if ix = 0 then 0 else (c.entries[ix - 1]?.map (·.offset)).getD 0
  let after := (c.entries[ix + 1]?.map (·.offset)).getD c.buf.bufSize
  if after ≥ before then some (after - before) else none

/-- One probe of `choose_victim`, state_cache.rs:207-211; `random` is the number from the generator,
brought into range. -/
def probe (c : StateCache S) (best : Option (Nat × Nat)) (random : Nat) : Option (Option (Nat × Nat)) := do
  if c.entries.length = 0 then none
  else
    let ix := random % c.entries.length
    let gap ← c.computeGap ix
    match best with
    | some (lastGap, last) => return if gap < lastGap then some (gap, ix) else some (lastGap, last)
    | none => return some (gap, ix)

/-- `choose_victim`, state_cache.rs:203-214. The random numbers are a parameter. -/
def chooseVictim (rng : Nat → Nat) (c : StateCache S) : Option Nat := do
  let best ← ((List.range numProbes).map rng).foldlM c.probe none
  best.map (·.2)

/-- `evict`, state_cache.rs:198-201. -/
def evict (rng : Nat → Nat) (c : StateCache S) : Option (StateCache S) := do
  return { c with entries := c.entries.eraseIdx (← c.chooseVictim rng) }

/-- `insert_entry`, state_cache.rs:184-195, with the state that the caller stores at once (lines 154-156). -/
def insertEntry (rng : Nat → Nat) (c : StateCache S) (lineNum offset : Nat) (s : S) : Option (StateCache S) := do
  let c ← if c.entries.length ≥ cacheSize then c.evict rng else some c
  match c.findLine lineNum with
  | .inl _ => none
  | .inr ix => return { c with entries := c.entries.take ix ++ ⟨lineNum, offset, some s⟩ :: c.entries.drop ix }

/-- `set` and `get_entry`, state_cache.rs:150-181. -/
def set (source : Source) (size : Nat) (rng : Nat → Nat) (c : StateCache S) (lineNum : Nat) (s : S) : Option (StateCache S) :=
  match c.findLine lineNum with
  | .inl ix => some { c with entries := c.entries.modify ix (fun e => { e with state := some s }) }
  | .inr _ =>
    if lineNum = c.buf.numLines then some c
    else
      match c.buf.offsetOfLine source size lineNum with
      | some (buf, some offset) => insertEntry rng { c with buf := buf } lineNum offset s
      | _ => none

/-- `truncate_frontier`, state_cache.rs:238-246. -/
def truncateFrontier (c : StateCache S) (lineNum : Nat) : StateCache S :=
  match binSearch c.frontier lineNum with
  | .inl ix => { c with frontier := c.frontier.take (ix + 1) }
  | .inr ix => { c with frontier := c.frontier.take ix ++ [lineNum] }

/-- `find_offset` and the `match` after it, state_cache.rs:266-269 and 284-287: the first entry after the
offset. -/
def afterOffset (c : StateCache S) (offset : Nat) : Nat :=
  match c.findOffset offset with
  | .inl ix => ix + 1
  | .inr ix => ix

/-- The line of the entry before `ix`, state_cache.rs:230-233 and 303-306. -/
def lineBefore (c : StateCache S) (ix : Nat) : Nat := if ix = 0 then 0 else (c.entries[ix - 1]?.map (·.line)).getD 0

/-- `truncate_cache`, state_cache.rs:229-236; also `clear_to_start` (329-331). -/
def truncateCache (c : StateCache S) (offset : Nat) : StateCache S :=
  let ix := c.afterOffset offset
  { c.truncateFrontier (c.lineBefore ix) with entries := c.entries.take ix }

/-- `reset`, state_cache.rs:334-336; also `clear` (102-104). -/
def reset (c : StateCache S) : StateCache S := c.truncateCache 0

/-- `old_ln.wrapping_add(nl_count_delta as usize)`, state_cache.rs:317. -/
def wrappingShift (ln : Nat) (delta : Int) : Nat := ((ln + delta) % (2 ^ 64)).toNat

/-- What `patchup_frontier` keeps of a pending line after the edit, state_cache.rs:315-319; `next` is the line of
`state_cache[cache_idx]`. -/
def pendingAfter (next : Option Nat) (delta : Int) (old : Nat) : List Nat :=
  match next with
  | some n => if old ≥ n then [wrappingShift old delta] else []
  | none => []

/-- The loop of `patchup_frontier`, state_cache.rs:309-324. -/
def patchLoop (lineNum : Nat) (next : Option Nat) (delta : Int) : List Nat → Bool → List Nat
  | [], needPush => if needPush then [lineNum] else []
  | old :: rest, needPush =>
    if old < lineNum then old :: patchLoop lineNum next delta rest needPush
    else if needPush then lineNum :: (pendingAfter next delta old ++ patchLoop lineNum next delta rest false)
    else patchLoop lineNum next delta rest needPush

/-- `patchup_frontier`, state_cache.rs:302-326. -/
def patchupFrontier (c : StateCache S) (ix : Nat) (delta : Int) : StateCache S :=
  { c with frontier := patchLoop (c.lineBefore ix) (c.entries[ix]?.map (·.line)) delta c.frontier true }

/-- `line_cache_simple_insert`, state_cache.rs:265-276. -/
def simpleInsert (c : StateCache S) (start newLen newlines : Nat) : StateCache S :=
  let ix := c.afterOffset start
  let moved := (c.entries.drop ix).map (fun e => { e with line := e.line + newlines, offset := e.offset + newLen })
  patchupFrontier { c with entries := c.entries.take ix ++ moved } ix newlines

/-- One entry after a deletion, state_cache.rs:291-294. -/
def moveBack (newlines len : Nat) (e : CacheEntry S) : Option (CacheEntry S) := do
  return { e with line := ← checkedSub e.line newlines, offset := ← checkedSub e.offset len }

/-- `line_cache_simple_delete`, state_cache.rs:278-300. -/
def simpleDelete (c : StateCache S) (start stop : Nat) : Option (StateCache S) :=
  if start ≥ c.buf.offset ∧ stop ≤ c.buf.offset + c.buf.contents.length then do
    let deleted ← strSlice c.buf.contents (start - c.buf.offset) (stop - c.buf.offset)
    let ix := c.afterOffset start
    let rest := (c.entries.drop ix).dropWhile (fun e => e.offset ≤ stop)
    let moved ← rest.mapM (moveBack (deleted.count newline) (← checkedSub stop start))
    return patchupFrontier { c with entries := c.entries.take ix ++ moved } ix (-(deleted.count newline : Int))
  else some (c.truncateCache start)

/-- `update_line_cache`, state_cache.rs:249-263. -/
def updateLineCache (c : StateCache S) (delta : Delta UInt8) : Option (StateCache S) := do
  let iv ← Interval.new delta.summary.1.1 delta.summary.1.2
  let newLen := delta.summary.2
  match delta.asSimpleInsert with
  | some n => if iv.stop - iv.start = 0 ∧ newLen = n.length then some (c.simpleInsert iv.start newLen (n.count newline)) else none
  | none =>
    if delta.isSimpleDelete then
      if newLen = 0 then c.simpleDelete iv.start iv.stop else none
    else some (c.truncateCache iv.start)

/-- The states after `update`, state_cache.rs:91-96. -/
def updateStates (c : StateCache S) : Option (Delta UInt8) → Option (StateCache S)
  | some d => c.updateLineCache d
  | none => some (c.truncateCache 0)

/-- `update`, state_cache.rs:88-99. -/
def update (c : StateCache S) (delta : Option (Delta UInt8)) (bufSize numLines rev : Nat) : Option (StateCache S) := do
  let c ← c.updateStates delta
  return { c with buf := ← c.buf.update delta bufSize numLines rev }

/-- `get_frontier`, state_cache.rs:343-345. -/
def getFrontier (c : StateCache S) : Option Nat := c.frontier.head?

/-- `update_frontier`, state_cache.rs:349-355. -/
def updateFrontier (c : StateCache S) (new : Nat) : Option (StateCache S) :=
  match c.frontier with
  | [] => none
  | _ :: rest => some { c with frontier := if rest.head? = some new then rest else new :: rest }

/-- `close_frontier`, state_cache.rs:359-361. -/
def closeFrontier (c : StateCache S) : Option (StateCache S) :=
  match c.frontier with
  | [] => none
  | _ :: rest => some { c with frontier := rest }

end StateCache

/-- The part of a highlighter that the cache does not know: `step` computes the state after a line
(`compute_syntax`, syntect-plugin/src/main.rs:123-159), `same` compares two states (201), `init` is the
state at the start of the document. -/
structure Highlighter (S : Type) where
  init : S
  step : S → List UInt8 → S
  same : S → S → Bool

section

variable {S : Type}

/-- The end of `highlight_one_line` when there is a new state, syntect-plugin/src/main.rs:198-211. -/
def settle (h : Highlighter S) (source : Source) (size : Nat) (rng : Nat → Nat) (c : StateCache S) (s : S) (lineNum : Nat) : Option (StateCache S × Bool) := do
  let converged := match c.get lineNum with
    | some old => h.same old s
    | none => false
  if converged then return (← c.closeFrontier, false)
  else
    let c ← c.set source size rng lineNum s
    return (← c.updateFrontier lineNum, true)

/-- `highlight_one_line` after the line was read, syntect-plugin/src/main.rs:185-211. -/
def highlightRead (h : Highlighter S) (source : Source) (size : Nat) (rng : Nat → Nat) (c : StateCache S) (lineNum : Nat) (s : S) (line : Option (List UInt8)) :
    Option (StateCache S × Bool) :=
  match line with
  | some text =>
    if text.getLast? = some newline then settle h source size rng c (h.step s text) (lineNum + 1)
    else do return (← c.closeFrontier, false)
  | none => do return (← c.closeFrontier, false)

/-- `highlight_one_line`, syntect-plugin/src/main.rs:177-214. The spans that are sent to the core and the
offsets for them are not modelled; a last line without newline only produces spans. -/
def highlightOneLine (h : Highlighter S) (source : Source) (size : Nat) (rng : Nat → Nat) (c : StateCache S) : Option (StateCache S × Bool) :=
  match c.getFrontier with
  | none => some (c, false)
  | some p =>
    let (lineNum, _, s) := c.getPrev h.init p
    match c.buf.getLine source size lineNum with
    | none => none
    | some (buf, line) => highlightRead h source size rng { c with buf := buf } lineNum s line

/-- `LINES_PER_RPC`, syntect-plugin/src/main.rs:44. -/
def linesPerRpc : Nat := 10

/-- The loop of `idle`, syntect-plugin/src/main.rs:729-740; the result says whether `schedule_idle` is called
again. `busy` is `request_is_pending`. -/
def idleLoop (h : Highlighter S) (source : Source) (size : Nat) (rng : Nat → Nat) (busy : Nat → Bool) : Nat → StateCache S → Option (StateCache S × Bool)
  | 0, c => some (c, true)
  | n + 1, c =>
    match highlightOneLine h source size rng c with
    | none => none
    | some (c, false) => some (c, false)
    | some (c, true) => if busy n then some (c, true) else idleLoop h source size rng busy n c

/-- `idle`, syntect-plugin/src/main.rs:725-741, without auto-indent. -/
def idle (h : Highlighter S) (source : Source) (size : Nat) (rng : Nat → Nat) (busy : Nat → Bool) (c : StateCache S) : Option (StateCache S × Bool) :=
  idleLoop h source size rng busy linesPerRpc c

end

end Plugin

end Xi
