import Verif.Core.Files
import Verif.Rope.Cursor
import Verif.Rope.Rope

/-!
# Model of `EventContext::text_for_save` on ropes
-/

namespace Xi

namespace Files

/-- `EventContext::text_for_save`, event_context.rs:528-551; `ending` is the line ending if `save_with_newline` is set.  Whether
the text ends with it is seen from the last leaf alone. -/
def ropeForSave (rope : Rope) (ending : Option (List UInt8)) : Option Rope :=
  match ending with
  | none => some rope
  | some e =>
    if rope.len < 1 then some rope
    else do
      let cursor ← Cursor.new rope rope.len
      let (last, _) ← (← cursor.getLeaf)
      if e.isSuffixOf last then return rope else rope.edit (.fromOn rope.len) (← Rope.fromStr e)

end Files

end Xi
