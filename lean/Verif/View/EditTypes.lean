import Verif.View.Gesture

/-!
# From the notifications of a front end to events

Model of `rust/core-lib/src/edit_types.rs`: all notifications about a view, `EditNotification` of `rust/core-lib/src/rpc.rs`, and the events that
they are turned into.
-/

namespace Xi

namespace EditTypes

/-- `struct MouseAction`, rpc.rs:334-339. -/
structure Mouse where
  line : Nat
  column : Nat
  flags : Nat
  clickCount : Option Nat
deriving DecidableEq

/-- `enum SelectionModifier`, rpc.rs:351-356. -/
inductive Modifier where
  | none
  | set
  | add
  | addRemovingCurrent
deriving DecidableEq

/-- `struct FindQuery`, rpc.rs:366-374. -/
structure Query where
  id : Option Nat
  chars : String
  caseSensitive : Bool
  regex : Bool
  wholeWords : Bool
deriving DecidableEq

/-- `enum EditNotification`, rpc.rs:383-523; `S` is `Size`, which has floating-point numbers. -/
inductive Notification (S : Type) where
  | insert (chars : String)
  | paste (chars : String)
  | deleteForward
  | deleteBackward
  | deleteWordForward
  | deleteWordBackward
  | deleteToEndOfParagraph
  | deleteToBeginningOfLine
  | insertNewline
  | insertTab
  | moveUp
  | moveUpAndModifySelection
  | moveDown
  | moveDownAndModifySelection
  | moveLeft
  | moveBackward
  | moveLeftAndModifySelection
  | moveRight
  | moveForward
  | moveRightAndModifySelection
  | moveWordLeft
  | moveWordLeftAndModifySelection
  | moveWordRight
  | moveWordRightAndModifySelection
  | moveToBeginningOfParagraph
  | moveToBeginningOfParagraphAndModifySelection
  | moveToEndOfParagraph
  | moveToEndOfParagraphAndModifySelection
  | moveToLeftEndOfLine
  | moveToLeftEndOfLineAndModifySelection
  | moveToRightEndOfLine
  | moveToRightEndOfLineAndModifySelection
  | moveToBeginningOfDocument
  | moveToBeginningOfDocumentAndModifySelection
  | moveToEndOfDocument
  | moveToEndOfDocumentAndModifySelection
  | scrollPageUp
  | pageUpAndModifySelection
  | scrollPageDown
  | pageDownAndModifySelection
  | selectAll
  | addSelectionAbove
  | addSelectionBelow
  | scroll (x : (Int × Int))
  | resize (x : S)
  | gotoLine (line : Nat)
  | requestLines (x : (Int × Int))
  | yank
  | transpose
  | click (x : Mouse)
  | drag (x : Mouse)
  | gesture (line : Nat) (col : Nat) (ty : Gesture.GestureType)
  | undo
  | redo
  | find (chars : String) (caseSensitive : Bool) (regex : Bool) (wholeWords : Bool)
  | multiFind (queries : (List Query))
  | findNext (wrapAround : Bool) (allowSame : Bool) (modifySelection : Modifier)
  | findPrevious (wrapAround : Bool) (allowSame : Bool) (modifySelection : Modifier)
  | findAll
  | debugRewrap
  | debugWrapWidth
  | debugPrintSpans
  | debugToggleComment
  | uppercase
  | lowercase
  | capitalize
  | reindent
  | indent
  | outdent
  | highlightFind (visible : Bool)
  | selectionForFind (caseSensitive : Bool)
  | replace (chars : String) (preserveCase : Bool)
  | replaceNext
  | replaceAll
  | selectionForReplace
  | requestHover (requestId : Nat) (position : (Option (Nat × Nat)))
  | selectionIntoLines
  | duplicateLine
  | increaseNumber
  | decreaseNumber
  | toggleRecording (recordingName : (Option String))
  | playRecording (recordingName : String)
  | clearRecording (recordingName : String)
  | collapseSelections

/-- `enum ViewEvent`, edit_types.rs:30-52. -/
inductive ViewEvent where
  | move (x : Movement)
  | modifySelection (x : Movement)
  | selectAll
  | scroll (x : (Int × Int))
  | addSelectionAbove
  | addSelectionBelow
  | click (x : Mouse)
  | drag (x : Mouse)
  | gesture (line : Nat) (col : Nat) (ty : Gesture.GestureType)
  | gotoLine (line : Nat)
  | find (chars : String) (caseSensitive : Bool) (regex : Bool) (wholeWords : Bool)
  | multiFind (queries : (List Query))
  | findNext (wrapAround : Bool) (allowSame : Bool) (modifySelection : Modifier)
  | findPrevious (wrapAround : Bool) (allowSame : Bool) (modifySelection : Modifier)
  | findAll
  | highlightFind (visible : Bool)
  | selectionForFind (caseSensitive : Bool)
  | replace (chars : String) (preserveCase : Bool)
  | selectionForReplace
  | selectionIntoLines
  | collapseSelections

/-- `enum BufferEvent`, edit_types.rs:56-77. -/
inductive BufferEvent where
  | delete (movement : Movement) (kill : Bool)
  | backspace
  | transpose
  | undo
  | redo
  | uppercase
  | lowercase
  | capitalize
  | indent
  | outdent
  | insert (x : String)
  | paste (x : String)
  | insertNewline
  | insertTab
  | yank
  | replaceNext
  | replaceAll
  | duplicateLine
  | increaseNumber
  | decreaseNumber

/-- `enum SpecialEvent`, edit_types.rs:81-93. -/
inductive SpecialEvent (S : Type) where
  | debugRewrap
  | debugWrapWidth
  | debugPrintSpans
  | resize (x : S)
  | requestLines (x : (Int × Int))
  | requestHover (requestId : Nat) (position : (Option (Nat × Nat)))
  | debugToggleComment
  | reindent
  | toggleRecording (x : (Option String))
  | playRecording (x : String)
  | clearRecording (x : String)

/-- `enum EventDomain`, edit_types.rs:96-100. -/
inductive Event (S : Type) where
  | view (e : ViewEvent)
  | buffer (e : BufferEvent)
  | special (e : SpecialEvent S)

variable {S : Type}

/-- `impl From<EditNotification> for EventDomain`, edit_types.rs:121-303; for gestures see `GestureType.translate`. -/
def toEvent : Notification S → Event S
  | .insert chars => .buffer (.insert chars)
  | .paste chars => .buffer (.paste chars)
  | .deleteForward => .buffer (.delete .right false)
  | .deleteBackward => .buffer .backspace
  | .deleteWordForward => .buffer (.delete .rightWord false)
  | .deleteWordBackward => .buffer (.delete .leftWord false)
  | .deleteToEndOfParagraph => .buffer (.delete .endOfParagraphKill true)
  | .deleteToBeginningOfLine => .buffer (.delete .leftOfLine false)
  | .insertNewline => .buffer .insertNewline
  | .insertTab => .buffer .insertTab
  | .moveUp => .view (.move .up)
  | .moveUpAndModifySelection => .view (.modifySelection .up)
  | .moveDown => .view (.move .down)
  | .moveDownAndModifySelection => .view (.modifySelection .down)
  | .moveLeft => .view (.move .left)
  | .moveBackward => .view (.move .left)
  | .moveLeftAndModifySelection => .view (.modifySelection .left)
  | .moveRight => .view (.move .right)
  | .moveForward => .view (.move .right)
  | .moveRightAndModifySelection => .view (.modifySelection .right)
  | .moveWordLeft => .view (.move .leftWord)
  | .moveWordLeftAndModifySelection => .view (.modifySelection .leftWord)
  | .moveWordRight => .view (.move .rightWord)
  | .moveWordRightAndModifySelection => .view (.modifySelection .rightWord)
  | .moveToBeginningOfParagraph => .view (.move .startOfParagraph)
  | .moveToBeginningOfParagraphAndModifySelection => .view (.modifySelection .startOfParagraph)
  | .moveToEndOfParagraph => .view (.move .endOfParagraph)
  | .moveToEndOfParagraphAndModifySelection => .view (.modifySelection .endOfParagraph)
  | .moveToLeftEndOfLine => .view (.move .leftOfLine)
  | .moveToLeftEndOfLineAndModifySelection => .view (.modifySelection .leftOfLine)
  | .moveToRightEndOfLine => .view (.move .rightOfLine)
  | .moveToRightEndOfLineAndModifySelection => .view (.modifySelection .rightOfLine)
  | .moveToBeginningOfDocument => .view (.move .startOfDocument)
  | .moveToBeginningOfDocumentAndModifySelection => .view (.modifySelection .startOfDocument)
  | .moveToEndOfDocument => .view (.move .endOfDocument)
  | .moveToEndOfDocumentAndModifySelection => .view (.modifySelection .endOfDocument)
  | .scrollPageUp => .view (.move .upPage)
  | .pageUpAndModifySelection => .view (.modifySelection .upPage)
  | .scrollPageDown => .view (.move .downPage)
  | .pageDownAndModifySelection => .view (.modifySelection .downPage)
  | .selectAll => .view .selectAll
  | .addSelectionAbove => .view .addSelectionAbove
  | .addSelectionBelow => .view .addSelectionBelow
  | .scroll x => .view (.scroll x)
  | .resize x => .special (.resize x)
  | .gotoLine line => .view (.gotoLine line)
  | .requestLines x => .special (.requestLines x)
  | .yank => .buffer .yank
  | .transpose => .buffer .transpose
  | .click x => .view (.click x)
  | .drag x => .view (.drag x)
  | .gesture line col ty => .view (.gesture line col ty.translate)
  | .undo => .buffer .undo
  | .redo => .buffer .redo
  | .find chars caseSensitive regex wholeWords => .view (.find chars caseSensitive regex wholeWords)
  | .multiFind queries => .view (.multiFind queries)
  | .findNext wrapAround allowSame modifySelection => .view (.findNext wrapAround allowSame modifySelection)
  | .findPrevious wrapAround allowSame modifySelection => .view (.findPrevious wrapAround allowSame modifySelection)
  | .findAll => .view .findAll
  | .debugRewrap => .special .debugRewrap
  | .debugWrapWidth => .special .debugWrapWidth
  | .debugPrintSpans => .special .debugPrintSpans
  | .uppercase => .buffer .uppercase
  | .lowercase => .buffer .lowercase
  | .capitalize => .buffer .capitalize
  | .indent => .buffer .indent
  | .outdent => .buffer .outdent
  | .reindent => .special .reindent
  | .debugToggleComment => .special .debugToggleComment
  | .highlightFind visible => .view (.highlightFind visible)
  | .selectionForFind caseSensitive => .view (.selectionForFind caseSensitive)
  | .replace chars preserveCase => .view (.replace chars preserveCase)
  | .replaceNext => .buffer .replaceNext
  | .replaceAll => .buffer .replaceAll
  | .selectionForReplace => .view .selectionForReplace
  | .requestHover requestId position => .special (.requestHover requestId position)
  | .selectionIntoLines => .view .selectionIntoLines
  | .duplicateLine => .buffer .duplicateLine
  | .increaseNumber => .buffer .increaseNumber
  | .decreaseNumber => .buffer .decreaseNumber
  | .toggleRecording recordingName => .special (.toggleRecording recordingName)
  | .playRecording recordingName => .special (.playRecording recordingName)
  | .clearRecording recordingName => .special (.clearRecording recordingName)
  | .collapseSelections => .view .collapseSelections

/-- The method of a notification on the wire, which serde makes from the name of the variant, rpc.rs:380-382. -/
def method : Notification S → String
  | .insert _ => "insert"
  | .paste _ => "paste"
  | .deleteForward => "delete_forward"
  | .deleteBackward => "delete_backward"
  | .deleteWordForward => "delete_word_forward"
  | .deleteWordBackward => "delete_word_backward"
  | .deleteToEndOfParagraph => "delete_to_end_of_paragraph"
  | .deleteToBeginningOfLine => "delete_to_beginning_of_line"
  | .insertNewline => "insert_newline"
  | .insertTab => "insert_tab"
  | .moveUp => "move_up"
  | .moveUpAndModifySelection => "move_up_and_modify_selection"
  | .moveDown => "move_down"
  | .moveDownAndModifySelection => "move_down_and_modify_selection"
  | .moveLeft => "move_left"
  | .moveBackward => "move_backward"
  | .moveLeftAndModifySelection => "move_left_and_modify_selection"
  | .moveRight => "move_right"
  | .moveForward => "move_forward"
  | .moveRightAndModifySelection => "move_right_and_modify_selection"
  | .moveWordLeft => "move_word_left"
  | .moveWordLeftAndModifySelection => "move_word_left_and_modify_selection"
  | .moveWordRight => "move_word_right"
  | .moveWordRightAndModifySelection => "move_word_right_and_modify_selection"
  | .moveToBeginningOfParagraph => "move_to_beginning_of_paragraph"
  | .moveToBeginningOfParagraphAndModifySelection => "move_to_beginning_of_paragraph_and_modify_selection"
  | .moveToEndOfParagraph => "move_to_end_of_paragraph"
  | .moveToEndOfParagraphAndModifySelection => "move_to_end_of_paragraph_and_modify_selection"
  | .moveToLeftEndOfLine => "move_to_left_end_of_line"
  | .moveToLeftEndOfLineAndModifySelection => "move_to_left_end_of_line_and_modify_selection"
  | .moveToRightEndOfLine => "move_to_right_end_of_line"
  | .moveToRightEndOfLineAndModifySelection => "move_to_right_end_of_line_and_modify_selection"
  | .moveToBeginningOfDocument => "move_to_beginning_of_document"
  | .moveToBeginningOfDocumentAndModifySelection => "move_to_beginning_of_document_and_modify_selection"
  | .moveToEndOfDocument => "move_to_end_of_document"
  | .moveToEndOfDocumentAndModifySelection => "move_to_end_of_document_and_modify_selection"
  | .scrollPageUp => "scroll_page_up"
  | .pageUpAndModifySelection => "page_up_and_modify_selection"
  | .scrollPageDown => "scroll_page_down"
  | .pageDownAndModifySelection => "page_down_and_modify_selection"
  | .selectAll => "select_all"
  | .addSelectionAbove => "add_selection_above"
  | .addSelectionBelow => "add_selection_below"
  | .scroll _ => "scroll"
  | .resize _ => "resize"
  | .gotoLine _ => "goto_line"
  | .requestLines _ => "request_lines"
  | .yank => "yank"
  | .transpose => "transpose"
  | .click _ => "click"
  | .drag _ => "drag"
  | .gesture _ _ _ => "gesture"
  | .undo => "undo"
  | .redo => "redo"
  | .find _ _ _ _ => "find"
  | .multiFind _ => "multi_find"
  | .findNext _ _ _ => "find_next"
  | .findPrevious _ _ _ => "find_previous"
  | .findAll => "find_all"
  | .debugRewrap => "debug_rewrap"
  | .debugWrapWidth => "debug_wrap_width"
  | .debugPrintSpans => "debug_print_spans"
  | .debugToggleComment => "debug_toggle_comment"
  | .uppercase => "uppercase"
  | .lowercase => "lowercase"
  | .capitalize => "capitalize"
  | .reindent => "reindent"
  | .indent => "indent"
  | .outdent => "outdent"
  | .highlightFind _ => "highlight_find"
  | .selectionForFind _ => "selection_for_find"
  | .replace _ _ => "replace"
  | .replaceNext => "replace_next"
  | .replaceAll => "replace_all"
  | .selectionForReplace => "selection_for_replace"
  | .requestHover _ _ => "request_hover"
  | .selectionIntoLines => "selection_into_lines"
  | .duplicateLine => "duplicate_line"
  | .increaseNumber => "increase_number"
  | .decreaseNumber => "decrease_number"
  | .toggleRecording _ => "toggle_recording"
  | .playRecording _ => "play_recording"
  | .clearRecording _ => "clear_recording"
  | .collapseSelections => "collapse_selections"

end EditTypes

end Xi
