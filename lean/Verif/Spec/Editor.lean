import Verif.Core.Editor
import Verif.Spec.Delta

/-!
# Specification: the undo history as a stack of texts
-/

namespace Xi

variable {α : Type}

/-- The texts that undo and redo can show, oldest first; the text at `cur - 1` is shown.  `last` is the type of the last command. -/
structure UndoStack (α : Type) where
  texts : List (List α)
  cur : Nat
  last : EditType

namespace UndoStack

/-- A new document. -/
def start (text : List α) : UndoStack α := ⟨[text], 1, .other⟩

/-- The text that is shown. -/
def current (s : UndoStack α) : Option (List α) := s.texts[s.cur - 1]?

/-- A new step: what could be redone is forgotten, and of more than 20 texts the oldest one. -/
def push (s : UndoStack α) (text : List α) (t : EditType) : UndoStack α :=
  let texts := s.texts.take s.cur ++ [text]
  let kept := texts.drop (texts.length - 20)
  ⟨kept, kept.length, t⟩

/-- The last step goes on. -/
def amend (s : UndoStack α) (text : List α) (t : EditType) : UndoStack α := ⟨s.texts.dropLast ++ [text], s.cur, t⟩

/-- One step back. -/
def undo (s : UndoStack α) : UndoStack α := if 1 < s.cur then ⟨s.texts, s.cur - 1, .undo⟩ else s

/-- One step forward. -/
def redo (s : UndoStack α) : UndoStack α := if s.cur < s.texts.length then ⟨s.texts, s.cur + 1, .redo⟩ else s

/-- A command of type `t` that leads to `text`: it continues the last step if that was of the same type, and of a type that can be
continued. -/
def command (s : UndoStack α) (t : EditType) (text : List α) (last : EditType) : UndoStack α :=
  if t = s.last ∧ t ≠ .other ∧ t ≠ .transpose then s.amend text last else s.push text last

end UndoStack

/-- The edit is made for this text. -/
def Delta.Fits (d : Delta α) (text : List α) : Prop := d.WF ∧ d.baseLen = text.length

namespace Editor

/-- Only undo and redo have these types. -/
def CommandType.Plain (t : CommandType) : Prop := t.before ≠ some .undo ∧ t.before ≠ some .redo ∧ t.after ≠ some .undo ∧ t.after ≠ some .redo

/-- The type of a command when its edit is made. -/
def CommandType.first (t : CommandType) : EditType := t.before.getD .other

/-- The type of a command when the next command looks at it. -/
def CommandType.final (t : CommandType) : EditType := t.after.getD t.first

/-- The text after the events of a recording. -/
def playText (text : List α) : List (Event α) → List α
  | [] => text
  | .buffer _ (some d) :: rest => playText (d.result text) rest
  | _ :: rest => playText text rest

/-- The edits of the recording are made for the text they meet, and there is no undo or redo among them. -/
def PlayFits (text : List α) : List (Event α) → Prop
  | [] => True
  | .buffer _ (some d) :: rest => d.Fits text ∧ PlayFits (d.result text) rest
  | .buffer _ none :: rest => PlayFits text rest
  | .view :: rest => PlayFits text rest
  | .undo :: _ => False
  | .redo :: _ => False

/-- Something is edited. -/
def Event.edits : Event α → Bool
  | .buffer _ (some _) => true
  | _ => false

/-- What the positive result about the undo history asks of an input: edits fit the text they are made for, a plugin leaves the group
open and its edit is accepted, an acknowledgement answers an update, and a recording edits something. -/
def Legal (tok : RevId → Nat) (e : Editor α) : Input α → Prop
  | .event (.buffer t (some d)) => t.Plain ∧ d.Fits e.text
  | .event _ => True
  | .play events => PlayFits e.text events ∧ events.any Event.edits = true
  | .plugin rev priority g d => g = none ∧ d.WF ∧ ∃ base, e.engine.getRev tok rev = some (some base) ∧ base.length = d.baseLen
  | .ack => 0 < e.revsInFlight
  | .save => True
  | .reload d => d.Fits e.text

/-- What an input does to the stack of texts; `text` is the text before it and `merged` the text after a plugin's edit. -/
def stackStep (text merged : List α) (s : UndoStack α) : Input α → UndoStack α
  | .event (.buffer t (some d)) => s.command t.first (d.result text) t.final
  | .event (.buffer _ none) => s
  | .event .undo => s.undo
  | .event .redo => s.redo
  | .event .view => ⟨s.texts, s.cur, .other⟩
  | .play events => s.push (playText text events) .other
  | .plugin _ _ _ _ => s.push merged .other
  | .ack => s
  | .save => s
  | .reload d => s.push (d.result text) .other

/-- The states of an editor with `n` plugins, with the stack of texts that belongs to them. -/
inductive Session (tok : RevId → Nat) (n : Nat) : Editor α → UndoStack α → Prop
  | start {text e} : withText tok text = some e → Session tok n e (.start text)
  | step {e e' s} (i : Input α) : Session tok n e s → Legal tok e i → input tok n e i = some e' →
      Session tok n e' (stackStep e.text e'.text s i)

/-- All states of an editor. -/
inductive Run (tok : RevId → Nat) : Editor α → Prop
  | start {text e} : withText tok text = some e → Run tok e
  | step {e e'} (n : Nat) (i : Input α) : Run tok e → input tok n e i = some e' → Run tok e'

/-- The edits of an event are well formed. -/
def Event.Wf : Event α → Prop
  | .buffer _ (some d) => d.WF
  | _ => True

/-- The edits of an input are well formed, and it does not save or load. -/
def Input.Unsaved : Input α → Prop
  | .event ev => ev.Wf
  | .play events => ∀ ev ∈ events, ev.Wf
  | .plugin _ _ _ d => d.WF
  | .ack => True
  | .save => False
  | .reload _ => False

/-- What can happen between two saves. -/
inductive Unsaved (tok : RevId → Nat) (e : Editor α) : Editor α → Prop
  | refl : Unsaved tok e e
  | step {e1 e2} (n : Nat) (i : Input α) : Unsaved tok e e1 → i.Unsaved → input tok n e1 i = some e2 → Unsaved tok e e2

end Editor

end Xi
