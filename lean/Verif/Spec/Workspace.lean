import Verif.Lsp.Workspace

/-!
# Folders above a document, and extensions
-/

namespace Xi

namespace Lsp

/-- The folders above a document, from the innermost. -/
def above (doc : DocPath) : List DocPath := (List.range doc.names.length).map fun k => ⟨doc.absolute, doc.names.drop (k + 1)⟩

/-- The folder has an entry of that name. -/
def Has (fs : Folders) (folder : DocPath) (name : String) : Prop := ∃ entries, fs folder = some entries ∧ some name ∈ entries

/-- The folder can be read. -/
def Readable (fs : Folders) (folder : DocPath) : Prop := fs folder ≠ none

/-- The end of a name after its last dot, if something comes before that dot. -/
def HasExtension (name : String) (ext : List Char) : Prop := name ≠ ".." ∧ ∃ stem, stem ≠ [] ∧ name.toList = stem ++ '.' :: ext ∧ '.' ∉ ext

end Lsp

end Xi
