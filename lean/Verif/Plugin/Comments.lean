import Verif.Rope.Delta
import Verif.Lsp.Message

/-!
# Comments and indentation in the plugin for syntax highlighting

Model of the editing part of `rust/syntect-plugin/src/main.rs` and of `selected_line_ranges` in `rust/core-lib/src/event_context.rs`.  Texts are
characters and offsets count them, where the code counts bytes.  The cache of the document is right (C42), so that `get_line` and `offset_of_line`
give what the text says and fail only beyond its end.
-/

namespace Xi

namespace Syntect

/-- The lines of a text with their newlines, as `get_line` gives them; the last one has none. -/
def linesOf : List Char → List (List Char)
  | [] => [[]]
  | c :: cs =>
    if c = '\n' then [c] :: linesOf cs
    else
      match linesOf cs with
      | [] => [[c]]
      | l :: ls => (c :: l) :: ls

/-- `View::offset_of_line`; `none` is an error. -/
def offsetOf (lines : List (List Char)) (n : Nat) : Option Nat := if n ≤ lines.length then some (lines.take n).flatten.length else none

/-- `EditBuilder`, main.rs:47. -/
abbrev EditBuilder := DeltaBuilder Char

/-- `str::find` for a string. -/
def findStr (pat : List Char) : List Char → Option Nat
  | [] => if pat.isEmpty then some 0 else none
  | c :: cs => if pat.isPrefixOf (c :: cs) then some 0 else (findStr pat cs).map (· + 1)

/-- A space or a tab, main.rs:584. -/
def isBlank (c : Char) : Bool := c = ' ' || c = '\t'

/-- The least indentation of the lines from `start` to `stop`, main.rs:579-588. -/
def leastIndent (lines : List (List Char)) (start stop : Nat) : Nat :=
  ((List.range' start (stop - start)).map (fun n => ((lines[n]?).bind (fun l => l.findIdx? (fun c => !isBlank c))).getD 0)).min?.getD 0

/-- `insert_comment_marker`, main.rs:570-601; `none` is a panic. -/
def insertCommentMarker (lines : List (List Char)) (comment : List Char) (builder : EditBuilder) (start stop : Nat) : Option EditBuilder :=
  let k := leastIndent lines start stop
  (List.range' start (stop - start)).foldlM (fun builder n => do
    let offset ← offsetOf lines n
    let line ← lines[n]?
    if comment.isPrefixOf (Lsp.trim line) then return builder
    else builder.replace (offset + k) (offset + k) comment) builder

/-- `remove_comment_marker`, main.rs:603-623; `none` is a panic. -/
def removeCommentMarker (lines : List (List Char)) (comment : List Char) (builder : EditBuilder) (start stop : Nat) : Option EditBuilder :=
  (List.range' start (stop - start)).foldlM (fun builder n => do
    let offset ← offsetOf lines n
    let line ← lines[n]?
    match findStr comment line with
    | some off => builder.delete (offset + off) (offset + off + comment.length)
    | none =>
      if Lsp.trim line = Lsp.trim comment then builder.delete offset (offset + (Lsp.trim comment).length)
      else return builder) builder

/-- `toggle_comment_line_range`, main.rs:545-568; `comment n` is the marker for comments that `get_metadata` finds for line `n`. -/
def toggleLineRange (lines : List (List Char)) (comment : Nat → Option (List Char)) (builder : EditBuilder) (range : Nat × Nat) : Option EditBuilder :=
  match comment range.1 with
  | none => some builder
  | some s =>
    match lines[range.1]? with
    | none => some builder
    | some l =>
      if Lsp.trim s = Lsp.trim l || s.isPrefixOf (Lsp.trim l) then removeCommentMarker lines s builder range.1 range.2
      else insertCommentMarker lines s builder range.1 range.2

/-- `toggle_comment`, main.rs:520-543; the edit that is sent, if there is one. -/
def toggleComment (text : List Char) (comment : Nat → Option (List Char)) (ranges : List (Nat × Nat)) : Option (Option (Delta Char)) := do
  if ranges.isEmpty then return none
  else
    let builder ← ranges.foldlM (toggleLineRange (linesOf text) comment) (DeltaBuilder.new text.length)
    return (if builder.isEmpty then none else some builder.build)

/-- The step of the loop of `selected_line_ranges`, core-lib/src/event_context.rs:644-661, from the lines of the ends of a region. -/
def combine (st : Option (Nat × Nat) × List (Nat × Nat)) (region : Nat × Nat) : Option (Nat × Nat) × List (Nat × Nat) :=
  let start := region.1
  let stop := region.2 + 1
  match st.1 with
  | none => (some (start, stop), st.2)
  | some prev =>
    if start ≤ prev.2 then (some (min prev.1 start, max prev.2 stop), st.2)
    else (some (start, stop), st.2 ++ [prev])

/-- The end of `selected_line_ranges`, core-lib/src/event_context.rs:663-667. -/
def finishRanges (st : Option (Nat × Nat) × List (Nat × Nat)) : List (Nat × Nat) :=
  match st.1 with
  | some prev => st.2 ++ [prev]
  | none => st.2

/-- `selected_line_ranges`, core-lib/src/event_context.rs:638-668, from the lines of the ends of the regions. -/
def selectedLineRanges (regions : List (Nat × Nat)) : List (Nat × Nat) := finishRanges (regions.foldl combine (none, []))

end Syntect

end Xi
