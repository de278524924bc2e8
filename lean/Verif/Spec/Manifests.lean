import Verif.Core.Manifests

/-!
# Where manifests are, and the settings in the folder of a plugin
-/

namespace Xi

namespace Catalog

variable {T : Type}

/-- Where there is a manifest for one of the given paths: in the folder itself, or else in a folder in it. -/
inductive ManifestAt (disk : Disk) (paths : List Path) : Path → Prop
  | here {p : Path} : p ∈ paths → disk.exists_ ("manifest.toml" :: p) = true → ManifestAt disk paths ("manifest.toml" :: p)
  | inside {p : Path} {entries : List (Option String)} {name : String} : p ∈ paths → disk.exists_ ("manifest.toml" :: p) = false →
      disk.readDir p = some entries → some name ∈ entries → disk.exists_ ("manifest.toml" :: name :: p) = true → ManifestAt disk paths ("manifest.toml" :: name :: p)

/-- The settings of a language in the folder of its plugin: those in its file, if there is one, and none otherwise. -/
inductive SettingsOf (disk : Disk) (toml : Toml T) (dir : Path) : Lang T → Lang T → Prop
  | file {lang : Lang T} {file : Path} {text : String} {t : T} : file = String.ofList (Config.withExtension lang.name.toList "toml".toList) :: dir →
      disk.exists_ file = true → disk.read file = some text → toml.table text = some t → SettingsOf disk toml dir lang ⟨lang.name, some t⟩
  | none {lang : Lang T} : disk.exists_ (String.ofList (Config.withExtension lang.name.toList "toml".toList) :: dir) = false → SettingsOf disk toml dir lang lang

/-- The lists have the same length, and what is at the same place is related. -/
inductive Pairwise2 {A B : Type} (R : A → B → Prop) : List A → List B → Prop
  | nil : Pairwise2 R [] []
  | cons {a : A} {b : B} {as : List A} {bs : List B} : R a b → Pairwise2 R as bs → Pairwise2 R (a :: as) (b :: bs)

end Catalog

end Xi
