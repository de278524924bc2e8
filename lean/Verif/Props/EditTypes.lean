import Verif.View.EditTypes
import Verif.Spec.EditTypes

/-!
# C112: notifications become the events that their names say
-/

namespace Xi

namespace EditTypes

variable {S : Type}

/-- The notification that an event comes from. -/
def back : Event S → Option (Notification S)
  | .buffer (.insert chars) => some (.insert chars)
  | .buffer (.paste chars) => some (.paste chars)
  | .buffer (.delete .right false) => some (.deleteForward)
  | .buffer .backspace => some (.deleteBackward)
  | .buffer (.delete .rightWord false) => some (.deleteWordForward)
  | .buffer (.delete .leftWord false) => some (.deleteWordBackward)
  | .buffer (.delete .endOfParagraphKill true) => some (.deleteToEndOfParagraph)
  | .buffer (.delete .leftOfLine false) => some (.deleteToBeginningOfLine)
  | .buffer .insertNewline => some (.insertNewline)
  | .buffer .insertTab => some (.insertTab)
  | .view (.move .up) => some (.moveUp)
  | .view (.modifySelection .up) => some (.moveUpAndModifySelection)
  | .view (.move .down) => some (.moveDown)
  | .view (.modifySelection .down) => some (.moveDownAndModifySelection)
  | .view (.move .left) => some (.moveLeft)
  | .view (.modifySelection .left) => some (.moveLeftAndModifySelection)
  | .view (.move .right) => some (.moveRight)
  | .view (.modifySelection .right) => some (.moveRightAndModifySelection)
  | .view (.move .leftWord) => some (.moveWordLeft)
  | .view (.modifySelection .leftWord) => some (.moveWordLeftAndModifySelection)
  | .view (.move .rightWord) => some (.moveWordRight)
  | .view (.modifySelection .rightWord) => some (.moveWordRightAndModifySelection)
  | .view (.move .startOfParagraph) => some (.moveToBeginningOfParagraph)
  | .view (.modifySelection .startOfParagraph) => some (.moveToBeginningOfParagraphAndModifySelection)
  | .view (.move .endOfParagraph) => some (.moveToEndOfParagraph)
  | .view (.modifySelection .endOfParagraph) => some (.moveToEndOfParagraphAndModifySelection)
  | .view (.move .leftOfLine) => some (.moveToLeftEndOfLine)
  | .view (.modifySelection .leftOfLine) => some (.moveToLeftEndOfLineAndModifySelection)
  | .view (.move .rightOfLine) => some (.moveToRightEndOfLine)
  | .view (.modifySelection .rightOfLine) => some (.moveToRightEndOfLineAndModifySelection)
  | .view (.move .startOfDocument) => some (.moveToBeginningOfDocument)
  | .view (.modifySelection .startOfDocument) => some (.moveToBeginningOfDocumentAndModifySelection)
  | .view (.move .endOfDocument) => some (.moveToEndOfDocument)
  | .view (.modifySelection .endOfDocument) => some (.moveToEndOfDocumentAndModifySelection)
  | .view (.move .upPage) => some (.scrollPageUp)
  | .view (.modifySelection .upPage) => some (.pageUpAndModifySelection)
  | .view (.move .downPage) => some (.scrollPageDown)
  | .view (.modifySelection .downPage) => some (.pageDownAndModifySelection)
  | .view .selectAll => some (.selectAll)
  | .view .addSelectionAbove => some (.addSelectionAbove)
  | .view .addSelectionBelow => some (.addSelectionBelow)
  | .view (.scroll x) => some (.scroll x)
  | .special (.resize x) => some (.resize x)
  | .view (.gotoLine line) => some (.gotoLine line)
  | .special (.requestLines x) => some (.requestLines x)
  | .buffer .yank => some (.yank)
  | .buffer .transpose => some (.transpose)
  | .view (.click x) => some (.click x)
  | .view (.drag x) => some (.drag x)
  | .view (.gesture line col ty) => some (.gesture line col ty)
  | .buffer .undo => some (.undo)
  | .buffer .redo => some (.redo)
  | .view (.find chars caseSensitive regex wholeWords) => some (.find chars caseSensitive regex wholeWords)
  | .view (.multiFind queries) => some (.multiFind queries)
  | .view (.findNext wrapAround allowSame modifySelection) => some (.findNext wrapAround allowSame modifySelection)
  | .view (.findPrevious wrapAround allowSame modifySelection) => some (.findPrevious wrapAround allowSame modifySelection)
  | .view .findAll => some (.findAll)
  | .special .debugRewrap => some (.debugRewrap)
  | .special .debugWrapWidth => some (.debugWrapWidth)
  | .special .debugPrintSpans => some (.debugPrintSpans)
  | .buffer .uppercase => some (.uppercase)
  | .buffer .lowercase => some (.lowercase)
  | .buffer .capitalize => some (.capitalize)
  | .buffer .indent => some (.indent)
  | .buffer .outdent => some (.outdent)
  | .special .reindent => some (.reindent)
  | .special .debugToggleComment => some (.debugToggleComment)
  | .view (.highlightFind visible) => some (.highlightFind visible)
  | .view (.selectionForFind caseSensitive) => some (.selectionForFind caseSensitive)
  | .view (.replace chars preserveCase) => some (.replace chars preserveCase)
  | .buffer .replaceNext => some (.replaceNext)
  | .buffer .replaceAll => some (.replaceAll)
  | .view .selectionForReplace => some (.selectionForReplace)
  | .special (.requestHover requestId position) => some (.requestHover requestId position)
  | .view .selectionIntoLines => some (.selectionIntoLines)
  | .buffer .duplicateLine => some (.duplicateLine)
  | .buffer .increaseNumber => some (.increaseNumber)
  | .buffer .decreaseNumber => some (.decreaseNumber)
  | .special (.toggleRecording recordingName) => some (.toggleRecording recordingName)
  | .special (.playRecording recordingName) => some (.playRecording recordingName)
  | .special (.clearRecording recordingName) => some (.clearRecording recordingName)
  | .view .collapseSelections => some (.collapseSelections)
  | _ => none

theorem back_toEvent (n : Notification S) : back (toEvent n) = some (modern n) := by
  cases n with
  | gesture line col ty => cases ty <;> rfl
  | _ => rfl

/-- **C112** (nothing is lost): two notifications become the same event only if they are the same, but for synonyms and names that are deprecated,
and these become the same event. -/
theorem C112_same (n n' : Notification S) : toEvent n = toEvent n' ↔ modern n = modern n' := by
  constructor
  · intro h
    have := congrArg back h
    rw [back_toEvent, back_toEvent] at this
    exact Option.some.inj this
  · intro h
    have gen : ∀ n : Notification S, toEvent n = toEvent (modern n) := by
      intro n
      cases n with
      | gesture line col ty => cases ty <;> rfl
      | _ => rfl
    rw [gen n, gen n', h]

/-- **C112** (kinds): the cursor moves for names that ask for it, and the selection is changed for names that ask for that. -/
theorem C112_kinds (n : Notification S) :
    ((∃ m, toEvent n = .view (.move m)) ↔ asksToMove (method n) = true) ∧
      ((∃ m, toEvent n = .view (.modifySelection m)) ↔ asksToSelect (method n) = true) := by
  cases n <;> simp only [toEvent, method, Event.view.injEq, ViewEvent.move.injEq, ViewEvent.modifySelection.injEq, reduceCtorEq, exists_false,
    exists_eq', false_iff, true_iff] <;> decide +kernel

/-- **C112** (movements): the movement is the one that the name says, with and without the selection. -/
theorem C112_moves (n : Notification S) (m : Movement) (h : toEvent n = .view (.move m) ∨ toEvent n = .view (.modifySelection m)) :
    whereTo (method n) = phrase m := by
  cases n <;> simp only [toEvent, Event.view.injEq, ViewEvent.move.injEq, ViewEvent.modifySelection.injEq, reduceCtorEq, or_false, false_or] at h <;>
    (subst h; simp only [method]; decide +kernel)

/-- Phrases tell movements apart. -/
theorem phrase_inj (a b : Movement) (h : phrase a = phrase b) : a = b := by
  cases a <;> cases b <;> first | rfl | exact absurd h (by decide +kernel)

/-- **C112** (pairs): a notification that changes the selection goes where the one goes that has the same words for where to. -/
theorem C112_pairs (n n' : Notification S) (m m' : Movement) (h : toEvent n = .view (.move m)) (h' : toEvent n' = .view (.modifySelection m'))
    (hw : whereTo (method n) = whereTo (method n')) : m = m' := by
  rw [C112_moves n m (.inl h), C112_moves n' m' (.inr h')] at hw
  exact phrase_inj m m' hw

/-- Non-vacuity: a pair, and a synonym. -/
example : whereTo (method (.scrollPageUp : Notification Nat)) = whereTo (method (.pageUpAndModifySelection : Notification Nat)) ∧
    toEvent (.pageUpAndModifySelection : Notification Nat) = .view (.modifySelection .upPage) ∧
    modern (.moveBackward : Notification Nat) = modern .moveLeft ∧ (.moveBackward : Notification Nat) ≠ .moveLeft :=
  ⟨by decide +kernel, rfl, rfl, by intro h; cases h⟩

/-- **C112** (text): exactly these notifications with a text put that text into the buffer, and they are told apart. -/
theorem C112_text (n : Notification S) (chars : String) :
    (toEvent n = .buffer (.insert chars) ↔ n = .insert chars) ∧ (toEvent n = .buffer (.paste chars) ↔ n = .paste chars) := by
  cases n <;> simp [toEvent]

/-- **C112** (deletion): what is deleted is on the side that the name says, and only a deletion to the end of the paragraph is kept for yanking. -/
theorem C112_deletion (n : Notification S) :
    (∀ m kill, toEvent n = .buffer (.delete m kill) →
      (words (method n)).head? = some "delete" ∧ (kill = true ↔ method n = "delete_to_end_of_paragraph") ∧
      ((words (method n)).contains "forward" = true → m = .right ∨ m = .rightWord) ∧
      ((words (method n)).contains "backward" = true → m = .leftWord) ∧
      ((words (method n)).contains "word" = true ↔ m = .leftWord ∨ m = .rightWord) ∧
      (method n = "delete_to_beginning_of_line" → m = .leftOfLine) ∧ (method n = "delete_to_end_of_paragraph" → m = .endOfParagraphKill)) ∧
    (toEvent n = .buffer .backspace ↔ method n = "delete_backward") := by
  cases n <;> simp only [toEvent, method, Event.buffer.injEq, BufferEvent.delete.injEq, reduceCtorEq, false_implies, implies_true, true_and, false_iff,
    true_iff] <;> try decide +kernel
  all_goals
    refine ⟨?_, by decide +kernel⟩
    rintro m kill ⟨rfl, rfl⟩
    decide +kernel

/-- **C112** (names): all that neither moves, nor changes the selection by a movement, nor deletes becomes the event of the same name. -/
theorem C112_names (n : Notification S) (h1 : asksToMove (method n) = false) (h2 : asksToSelect (method n) = false)
    (h3 : (words (method n)).head? ≠ some "delete") : eventName (toEvent n) = method n := by
  cases n <;> first
    | rfl
    | exact absurd h1 (by simp only [method]; decide +kernel)
    | exact absurd h2 (by simp only [method]; decide +kernel)
    | exact absurd (by simp only [method]; decide +kernel) h3

/-- **C112** (contents): events have the contents of their notifications, each in its place. -/
theorem C112_contents (s : S) (chars : String) (a b c : Bool) (range : Int × Int) (mouse : Mouse) (queries : List Query) (how : Modifier) (k : Nat)
    (place : Option (Nat × Nat)) (name : Option String) :
    toEvent (S := S) (.find chars a b c) = .view (.find chars a b c) ∧ toEvent (S := S) (.multiFind queries) = .view (.multiFind queries) ∧
      toEvent (S := S) (.findNext a b how) = .view (.findNext a b how) ∧ toEvent (S := S) (.findPrevious a b how) = .view (.findPrevious a b how) ∧
      toEvent (S := S) (.replace chars a) = .view (.replace chars a) ∧ toEvent (S := S) (.highlightFind a) = .view (.highlightFind a) ∧
      toEvent (S := S) (.selectionForFind a) = .view (.selectionForFind a) ∧ toEvent (S := S) (.gotoLine k) = .view (.gotoLine k) ∧
      toEvent (S := S) (.scroll range) = .view (.scroll range) ∧ toEvent (S := S) (.requestLines range) = .special (.requestLines range) ∧
      toEvent (S := S) (.click mouse) = .view (.click mouse) ∧ toEvent (S := S) (.drag mouse) = .view (.drag mouse) ∧
      toEvent (.resize s) = .special (.resize s) ∧ toEvent (S := S) (.requestHover k place) = .special (.requestHover k place) ∧
      toEvent (S := S) (.toggleRecording name) = .special (.toggleRecording name) ∧
      toEvent (S := S) (.playRecording chars) = .special (.playRecording chars) ∧
      toEvent (S := S) (.clearRecording chars) = .special (.clearRecording chars) ∧
      ∀ l x ty, toEvent (S := S) (.gesture l x (.select ty a)) = .view (.gesture l x (.select ty a)) :=
  ⟨rfl, rfl, rfl, rfl, rfl, rfl, rfl, rfl, rfl, rfl, rfl, rfl, rfl, rfl, rfl, rfl, rfl, fun _ _ _ => rfl⟩

end EditTypes

end Xi
