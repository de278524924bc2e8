import Verif.Rope.Interval

/-!
# Model of `rust/core-lib/src/linewrap.rs`: the list of pending wrap tasks

The field `work` of `Lines` (linewrap.rs:70) is a list of intervals.
-/

namespace Xi

namespace WrapTasks

/-- The loop of `add_task`, linewrap.rs:138-147: over `to_update`, with `new_task`
and the new `work`, and the push after it (148-150). -/
def addLoop : List Interval → Option Interval → List Interval → List Interval
  | [], some stop, work => work ++ [stop]
  | [], none, work => work
  | t :: rest, some new, work =>
    if !(t.intersect new).isEmpty then addLoop rest (some (t.union new)) work
    else addLoop rest none (work ++ [new, t])
  | t :: rest, none, work => addLoop rest none (work ++ [t])

/-- `Lines::add_task`, linewrap.rs:120-151. -/
def add (work : List Interval) (iv : Interval) : List Interval :=
  if iv.isEmpty then work
  else match work.findIdx? (fun t => !(t.intersect iv).isEmpty) with
    | none => work ++ [iv]
    | some idx => addLoop (work.drop idx) (some iv) (work.take idx)

/-- `Lines::interval_needs_wrap`, linewrap.rs:158-160. -/
def needsWrap (work : List Interval) (iv : Interval) : Bool := work.any (fun t => !(t.intersect iv).isEmpty)

/-- `Lines::get_next_task`, linewrap.rs:201-209; the outer `none` is the failed
assertion of `Interval::new`. -/
def getNext (work : List Interval) (visible : Nat) : Option (Option Interval) :=
  match work.find? (fun t => t.stop > visible) with
  | some t => (Interval.new (max t.start visible) t.stop).map some
  | none => some work.getLast?

/-- The body of the loop of `update_tasks_after_wrap`, linewrap.rs:218-229: what a
task is replaced with. -/
def cutTask (wrapped task : Interval) : List Interval :=
  if task.isBefore wrapped.start || task.isAfter wrapped.stop then [task]
  else (if wrapped.start > task.start then [task.pre wrapped] else []) ++
    (if wrapped.stop < task.stop then [task.suf wrapped] else [])

/-- `Lines::update_tasks_after_wrap`, linewrap.rs:211-231. -/
def afterWrap (work : List Interval) (wrapped : Interval) : List Interval :=
  if work.isEmpty then work else work.flatMap (cutTask wrapped)

/-- The body of the first loop of `patchup_tasks`, linewrap.rs:238-252. -/
def shiftTask (iv : Interval) (newLen : Nat) (task : Interval) : Option (List Interval) := do
  if task.isBefore iv.start then return [task]
  else if task.contains iv.start then
    let size ← iv.size
    let tailEnd := max iv.start (task.stop + newLen - size)
    return [task.pre iv, ← Interval.new iv.start tailEnd]
  else
    return [← ((task.suf iv).translate newLen).translateNeg (← iv.size)]

/-- The second loop of `patchup_tasks`, linewrap.rs:255-263. -/
def joinLoop : List Interval → List Interval → List Interval
  | [], work => work
  | task :: rest, work => match work.getLast? with
    | some prev =>
      if prev.stop ≥ task.start then joinLoop rest (work.dropLast ++ [prev.union task])
      else joinLoop rest (work ++ [task])
    | none => joinLoop rest (work ++ [task])

/-- `Lines::patchup_tasks`, linewrap.rs:234-264. -/
def patchup (work : List Interval) (iv : Interval) (newLen : Nat) : Option (List Interval) := do
  let newWork := (← work.mapM (shiftTask iv newLen)).flatten
  return joinLoop (newWork.filter (fun iv => !iv.isEmpty)) []

end WrapTasks

end Xi
