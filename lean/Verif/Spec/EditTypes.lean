import Verif.View.EditTypes

/-!
# What the names of notifications say
-/

namespace Xi

namespace EditTypes

/-- The words of a name, between underscores. -/
def wordsOf : List Char → List (List Char)
  | [] => [[]]
  | c :: cs =>
    if c = '_' then [] :: wordsOf cs
    else
      match wordsOf cs with
      | [] => [[c]]
      | w :: ws => (c :: w) :: ws

/-- The words of a name. -/
def words (name : String) : List String := (wordsOf name.toList).map String.ofList

/-- A name asks to change the selection, and not to move the cursor alone. -/
def asksToSelect (name : String) : Bool :=
  (words name).drop ((words name).length - 3) = ["and", "modify", "selection"]

/-- A name asks to move the cursor. -/
def asksToMove (name : String) : Bool :=
  !asksToSelect name && ((words name).take 1 = ["move"] || (words name).take 2 = ["scroll", "page"])

/-- The words of a name that say where to. -/
def whereTo (name : String) : List String :=
  ((words name).filter fun w => !["move", "to", "of", "scroll", "and", "modify", "selection"].contains w).map fun w =>
    if w = "backward" then "left" else if w = "forward" then "right" else if w = "beginning" then "start" else w

/-- A movement in words. -/
def phrase : Movement → List String
  | .left => ["left"]
  | .right => ["right"]
  | .leftWord => ["word", "left"]
  | .rightWord => ["word", "right"]
  | .leftOfLine => ["left", "end", "line"]
  | .rightOfLine => ["right", "end", "line"]
  | .up => ["up"]
  | .down => ["down"]
  | .upPage => ["page", "up"]
  | .downPage => ["page", "down"]
  | .upExactPosition => ["up", "exactly"]
  | .downExactPosition => ["down", "exactly"]
  | .startOfParagraph => ["start", "paragraph"]
  | .endOfParagraph => ["end", "paragraph"]
  | .endOfParagraphKill => ["end", "paragraph", "or", "beyond"]
  | .startOfDocument => ["start", "document"]
  | .endOfDocument => ["end", "document"]

/-- The name of the variant of an event, edit_types.rs:30-93, in the form of the names on the wire. -/
def eventName {S : Type} : Event S → String
  | .view (.move _) => "move"
  | .view (.modifySelection _) => "modify_selection"
  | .view .selectAll => "select_all"
  | .view (.scroll _) => "scroll"
  | .view .addSelectionAbove => "add_selection_above"
  | .view .addSelectionBelow => "add_selection_below"
  | .view (.click _) => "click"
  | .view (.drag _) => "drag"
  | .view (.gesture _ _ _) => "gesture"
  | .view (.gotoLine _) => "goto_line"
  | .view (.find _ _ _ _) => "find"
  | .view (.multiFind _) => "multi_find"
  | .view (.findNext _ _ _) => "find_next"
  | .view (.findPrevious _ _ _) => "find_previous"
  | .view .findAll => "find_all"
  | .view (.highlightFind _) => "highlight_find"
  | .view (.selectionForFind _) => "selection_for_find"
  | .view (.replace _ _) => "replace"
  | .view .selectionForReplace => "selection_for_replace"
  | .view .selectionIntoLines => "selection_into_lines"
  | .view .collapseSelections => "collapse_selections"
  | .buffer (.delete _ _) => "delete"
  | .buffer .backspace => "backspace"
  | .buffer .transpose => "transpose"
  | .buffer .undo => "undo"
  | .buffer .redo => "redo"
  | .buffer .uppercase => "uppercase"
  | .buffer .lowercase => "lowercase"
  | .buffer .capitalize => "capitalize"
  | .buffer .indent => "indent"
  | .buffer .outdent => "outdent"
  | .buffer (.insert _) => "insert"
  | .buffer (.paste _) => "paste"
  | .buffer .insertNewline => "insert_newline"
  | .buffer .insertTab => "insert_tab"
  | .buffer .yank => "yank"
  | .buffer .replaceNext => "replace_next"
  | .buffer .replaceAll => "replace_all"
  | .buffer .duplicateLine => "duplicate_line"
  | .buffer .increaseNumber => "increase_number"
  | .buffer .decreaseNumber => "decrease_number"
  | .special .debugRewrap => "debug_rewrap"
  | .special .debugWrapWidth => "debug_wrap_width"
  | .special .debugPrintSpans => "debug_print_spans"
  | .special (.resize _) => "resize"
  | .special (.requestLines _) => "request_lines"
  | .special (.requestHover _ _) => "request_hover"
  | .special .debugToggleComment => "debug_toggle_comment"
  | .special .reindent => "reindent"
  | .special (.toggleRecording _) => "toggle_recording"
  | .special (.playRecording _) => "play_recording"
  | .special (.clearRecording _) => "clear_recording"

/-- The notification to use today for one that is deprecated or a synonym, rpc.rs:310-317, 403 and 407. -/
def modern {S : Type} : Notification S → Notification S
  | .moveBackward => .moveLeft
  | .moveForward => .moveRight
  | .gesture line col .pointSelect => .gesture line col (.select .point false)
  | .gesture line col .toggleSel => .gesture line col (.select .point true)
  | .gesture line col .rangeSelect => .gesture line col (.selectExtend .point)
  | .gesture line col .lineSelect => .gesture line col (.select .line false)
  | .gesture line col .wordSelect => .gesture line col (.select .word false)
  | .gesture line col .multiLineSelect => .gesture line col (.select .line true)
  | .gesture line col .multiWordSelect => .gesture line col (.select .word true)
  | n => n

end EditTypes

end Xi
