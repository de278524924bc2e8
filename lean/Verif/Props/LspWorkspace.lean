import Verif.Spec.Workspace

/-!
# The language, the workspace and the server of a document (lsp-lib/src/utils.rs, lsp_plugin.rs): C105
-/

namespace Xi

namespace Lsp

section
variable {fs : Folders} {identifier : String} {config : List LanguageConfig}

theorem above_cons (a : Bool) (n : String) (names : List String) : above ⟨a, n :: names⟩ = ⟨a, names⟩ :: above ⟨a, names⟩ := by
  simp only [above, List.length_cons, List.range_succ_eq_map, List.map_cons, List.map_map]
  rfl

/-- **C105.**  The root of a workspace is the innermost folder above the document with an entry of the given name, if the folders on the
way there can be read. -/
theorem C105_root (names : List String) (root : DocPath) : workspaceRoot fs identifier true names = .ok root ↔
    ∃ before after, above ⟨true, names⟩ = before ++ root :: after ∧ Has fs root identifier ∧
      ∀ f ∈ before, Readable fs f ∧ ¬ Has fs f identifier := by
  induction names with
  | nil => simp [workspaceRoot, above]
  | cons n names ih =>
    rw [above_cons, workspaceRoot]
    cases hf : fs ⟨true, names⟩ with
    | none =>
      simp only [reduceCtorEq, false_iff]
      rintro ⟨before, after, he, hh, hb⟩
      cases before with
      | nil => cases he; obtain ⟨e, he, -⟩ := hh; rw [hf] at he; cases he
      | cons b before =>
        obtain ⟨rfl, -⟩ := List.cons.inj he
        exact (hb _ (List.mem_cons_self ..)).1 hf
    | some entries =>
      by_cases hi : some identifier ∈ entries
      · simp only [hi, if_true]
        constructor
        · intro h
          cases h
          exact ⟨[], _, rfl, ⟨entries, hf, hi⟩, by simp⟩
        · rintro ⟨before, after, he, hh, hb⟩
          cases before with
          | nil => cases he; rfl
          | cons b before =>
            obtain ⟨rfl, -⟩ := List.cons.inj he
            exact absurd ⟨entries, hf, hi⟩ (hb _ (List.mem_cons_self ..)).2
      · have hn : ¬ Has fs ⟨true, names⟩ identifier := by
          rintro ⟨e, he, hm⟩
          rw [hf] at he
          cases he
          exact hi hm
        simp only [hi, if_false]
        rw [ih]
        constructor
        · rintro ⟨before, after, he, hh, hb⟩
          refine ⟨⟨true, names⟩ :: before, after, by rw [he]; rfl, hh, ?_⟩
          intro f hm
          rcases List.mem_cons.1 hm with rfl | hm
          · exact ⟨by simp [Readable, hf], hn⟩
          · exact hb f hm
        · rintro ⟨before, after, he, hh, hb⟩
          cases before with
          | nil => cases he; exact absurd hh hn
          | cons b before =>
            simp only [List.cons_append, List.cons.injEq] at he
            exact ⟨before, after, he.2, hh, fun f hm => hb f (by simp [hm])⟩

/-- **C105 (in part).**  If all folders above a document can be read, it has a root exactly if one of them has an entry of the given name. -/
theorem C105_some_root_partial (names : List String) (hr : ∀ f ∈ above ⟨true, names⟩, Readable fs f) :
    (∃ root, workspaceRoot fs identifier true names = .ok root) ↔ ∃ f ∈ above ⟨true, names⟩, Has fs f identifier := by
  induction names with
  | nil => simp [workspaceRoot, above]
  | cons n names ih =>
    rw [above_cons] at hr ⊢
    have ih := ih fun f hm => hr f (List.mem_cons_of_mem _ hm)
    have h0 := hr ⟨true, names⟩ (by simp)
    rw [workspaceRoot]
    cases hf : fs ⟨true, names⟩ with
    | none => exact absurd hf h0
    | some entries =>
      by_cases hi : some identifier ∈ entries
      · simp only [hi, if_true]
        exact ⟨fun _ => ⟨_, by simp, entries, hf, hi⟩, fun _ => ⟨_, rfl⟩⟩
      · simp only [hi, if_false]
        rw [ih]
        constructor
        · rintro ⟨f, hm, hh⟩
          exact ⟨f, by simp [hm], hh⟩
        · rintro ⟨f, hm, hh⟩
          rcases List.mem_cons.1 hm with rfl | hm
          · obtain ⟨e, he, hmem⟩ := hh
            rw [hf] at he
            cases he
            exact absurd hmem hi
          · exact ⟨f, hm, hh⟩

/-- **C105.**  Documents of one folder have the same root. -/
theorem C105_siblings (a : Bool) (n n' : String) (names : List String) :
    workspaceRoot fs identifier a (n :: names) = workspaceRoot fs identifier a (n' :: names) := by
  rw [workspaceRoot, workspaceRoot]

/-- **C105.**  A folder inside a workspace that can be read and has no entry of the given name belongs to that workspace. -/
theorem C105_inside (n n' : String) (names : List String) {root : DocPath} (h : workspaceRoot fs identifier true (n :: names) = .ok root)
    (hr : Readable fs ⟨true, n' :: names⟩) (hn : ¬ Has fs ⟨true, n' :: names⟩ identifier) (m : String) :
    workspaceRoot fs identifier true (m :: n' :: names) = .ok root := by
  obtain ⟨before, after, he, hh, hb⟩ := (C105_root _ _).1 h
  refine (C105_root _ _).2 ⟨⟨true, n' :: names⟩ :: before, after, ?_, hh, ?_⟩
  · rw [above_cons, above_cons, ← above_cons true n names, he]
    rfl
  · intro f hm
    rcases List.mem_cons.1 hm with rfl | hm
    · exact ⟨hr, hn⟩
    · exact hb f hm

theorem takeWhile_dot {l : List Char} : '.' ∉ l → ∀ rest, (l ++ '.' :: rest).takeWhile (· ≠ '.') = l := by
  intro h rest
  rw [List.takeWhile_append_of_pos]
  · simp
  · intro a ha
    simp only [decide_eq_true_eq]
    rintro rfl
    exact h ha

theorem stemExt_iff (name : String) (ext : List Char) : (Config.stemExt name.toList).2 = some ext ↔ HasExtension name ext := by
  have hdots : name.toList = ['.', '.'] ↔ name = ".." := by
    constructor
    · intro h
      exact String.toList_inj.1 h
    · rintro rfl
      rfl
  constructor
  · intro h
    simp only [Config.stemExt] at h
    have hd := List.takeWhile_append_dropWhile (p := (· ≠ '.')) (l := name.toList.reverse)
    have ht : ∀ a ∈ name.toList.reverse.takeWhile (· ≠ '.'), a ≠ '.' := by
      intro a ha
      have := List.all_takeWhile (p := (· ≠ '.')) (l := name.toList.reverse)
      simpa using (List.all_eq_true.1 this) a ha
    split at h
    · cases h
    · rename_i hnd
      split at h
      · cases h
      · rename_i hlen
        split at h
        · cases h
        · rename_i hstem
          cases h
          refine ⟨fun c => hnd (hdots.2 c), name.toList.take (name.toList.length - (name.toList.reverse.takeWhile (· ≠ '.')).reverse.length - 1), hstem, ?_, ?_⟩
          · cases hdrop : name.toList.reverse.dropWhile (· ≠ '.') with
            | nil =>
              rw [hdrop, List.append_nil] at hd
              exact absurd (by rw [List.length_reverse, hd, List.length_reverse]) hlen
            | cons b rest =>
              have hb : b = '.' := by
                have := List.head?_dropWhile_not (· ≠ '.') name.toList.reverse
                rw [hdrop] at this
                simpa using this
              subst hb
              rw [hdrop] at hd
              have hname : name.toList = rest.reverse ++ '.' :: (name.toList.reverse.takeWhile (· ≠ '.')).reverse := by
                have := congrArg List.reverse hd
                rw [List.reverse_reverse] at this
                refine this.symm.trans ?_
                rw [List.reverse_append, List.reverse_cons, List.append_assoc, List.singleton_append]
              have hl := congrArg List.length hname
              simp only [List.length_append, List.length_cons] at hl
              have hk : name.toList.length - (name.toList.reverse.takeWhile (· ≠ '.')).reverse.length - 1 = rest.reverse.length := by omega
              rw [hk]
              have : name.toList.take rest.reverse.length = rest.reverse := (congrArg (List.take _) hname).trans List.take_left
              rw [this]
              exact hname
          · intro hm
            exact ht '.' (List.mem_reverse.1 hm) rfl
  · rintro ⟨hn, stem, hs, he, hx⟩
    have h1 : (name.toList.reverse.takeWhile (· ≠ '.')).reverse = ext := by
      rw [he, List.reverse_append, List.reverse_cons, List.append_assoc, List.singleton_append,
        takeWhile_dot (by simpa using hx), List.reverse_reverse]
    have h2 : name.toList.length = stem.length + 1 + ext.length := by
      rw [he, List.length_append, List.length_cons]
      omega
    have h3 : name.toList.take (name.toList.length - ext.length - 1) = stem := by
      rw [show name.toList.length - ext.length - 1 = stem.length by omega, he, List.take_left']
      rfl
    simp only [Config.stemExt, h1, h3]
    rw [if_neg (fun c => hn (hdots.1 c)), if_neg (by omega), if_neg hs]

/-- **C105.**  The language of a document is one that has its extension; if no language has it, or there is no extension, there is none. -/
theorem C105_language (a : Bool) (name : String) (names : List String) :
    (∀ l, languageFor config ⟨a, name :: names⟩ = some l → l ∈ config ∧ ∃ ext, HasExtension name ext ∧ ext ∈ l.extensions) ∧
    (languageFor config ⟨a, name :: names⟩ = none ↔ ∀ l ∈ config, ∀ ext ∈ l.extensions, ¬ HasExtension name ext) := by
  simp only [languageFor]
  cases hx : (Config.stemExt name.toList).2 with
  | none =>
    refine ⟨by simp, by simp only [true_iff]; intro l _ ext _ he; rw [(stemExt_iff name ext).2 he] at hx; cases hx⟩
  | some ext =>
    have he := (stemExt_iff name ext).1 hx
    refine ⟨fun l hl => ?_, ?_⟩
    · refine ⟨List.mem_of_find?_eq_some hl, ext, he, ?_⟩
      simpa using List.find?_some hl
    · simp only [List.find?_eq_none]
      constructor
      · intro h l hl ext' hm he'
        have : ext = ext' := by
          have := (stemExt_iff name ext').2 he'
          rw [hx] at this
          exact Option.some.inj this
        subst this
        exact h l hl (by simpa using hm)
      · intro h l hl hm
        exact h l hl ext (by simpa using hm) he

/-- **C105 (in part).**  If no two languages have the same extension, the language does not depend on the order of the languages. -/
theorem C105_order_partial {config' : List LanguageConfig} (hp : config.Perm config') (hd : ∀ l ∈ config, ∀ l' ∈ config, ∀ ext ∈ l.extensions, ext ∈ l'.extensions → l = l')
    (doc : DocPath) : languageFor config doc = languageFor config' doc := by
  obtain ⟨a, names⟩ := doc
  cases names with
  | nil => rfl
  | cons name names =>
    obtain ⟨h1, h2⟩ := C105_language (config := config) a name names
    obtain ⟨h1', h2'⟩ := C105_language (config := config') a name names
    cases hl : languageFor config ⟨a, name :: names⟩ with
    | none =>
      symm
      rw [h2']
      intro l hm
      exact h2.1 hl l (hp.mem_iff.2 hm)
    | some l =>
      cases hl' : languageFor config' ⟨a, name :: names⟩ with
      | none =>
        have := h2.2 fun l hm => h2'.1 hl' l (hp.mem_iff.1 hm)
        rw [hl] at this
        cases this
      | some l' =>
        obtain ⟨m, ext, he, hx⟩ := h1 l hl
        obtain ⟨m', ext', he', hx'⟩ := h1' l' hl'
        have : ext = ext' := by
          have e := (stemExt_iff name ext).2 he
          rw [(stemExt_iff name ext').2 he'] at e
          exact (Option.some.inj e).symm
        subst this
        rw [hd l m l' (hp.mem_iff.2 m') ext hx hx']

/-- **C105.**  A document with an absolute path never panics.  It has a server exactly if it has a language, and a root or a server for single
files; the server is that of the root if there is one. -/
theorem C105_server (names : List String) : ∃ r, serverFor fs config (some ⟨true, names⟩) = some r ∧
    ∀ id key, r = some (id, key) ↔ ∃ l, languageFor config ⟨true, names⟩ = some l ∧ l.id = id ∧
      ((∃ w root, l.workspace = some w ∧ workspaceRoot fs w true names = .ok root ∧ key = .root root) ∨
        (key = .generic ∧ l.singleFile = true ∧ ∀ w root, l.workspace = some w → workspaceRoot fs w true names ≠ .ok root)) := by
  simp only [serverFor]
  cases hl : languageFor config ⟨true, names⟩ with
  | none => exact ⟨none, rfl, by simp⟩
  | some l =>
    simp only [rootFor]
    cases hw : l.workspace with
    | none =>
      cases hs : l.singleFile with
      | false => exact ⟨none, rfl, by simp_all⟩
      | true => refine ⟨_, rfl, fun id key => ?_⟩; constructor <;> grind
    | some w =>
      cases hr : workspaceRoot fs w true names with
      | ok root =>
        refine ⟨some (l.id, .root root), by simp [hr], fun id key => ?_⟩
        constructor <;> grind
      | error e =>
        cases hs : l.singleFile with
        | false =>
          refine ⟨none, by simp [hr], fun id key => ?_⟩
          constructor <;> grind
        | true =>
          refine ⟨some (l.id, .generic), by simp [hr], fun id key => ?_⟩
          constructor <;> grind

/-- **C105.**  Documents of one language in one folder go to the same server. -/
theorem C105_together (a : Bool) {n n' : String} {names : List String} {l : LanguageConfig} (h : languageFor config ⟨a, n :: names⟩ = some l)
    (h' : languageFor config ⟨a, n' :: names⟩ = some l) : serverFor fs config (some ⟨a, n :: names⟩) = serverFor fs config (some ⟨a, n' :: names⟩) := by
  simp only [serverFor, h, h', rootFor, C105_siblings (fs := fs) a n n' names]

end

/-! ## Cases -/

/-- Rust, with workspaces and single files. -/
def rustConfig : LanguageConfig := ⟨"rust", ["rs".toList], true, some "Cargo.toml"⟩

/-- A workspace in `/p`, with `/p/src`. -/
def twoFolders : Folders := fun d =>
  if d.names = [] then some [some "p"] else if d.names = ["p"] then some [some "Cargo.toml", none, some "src"] else if d.names = ["src", "p"] then some [some "a.rs"] else none

example : serverFor twoFolders [rustConfig] (some ⟨true, ["a.rs", "src", "p"]⟩) = some (some ("rust", .root ⟨true, ["p"]⟩)) := by decide +kernel
example : serverFor twoFolders [rustConfig] (some ⟨true, ["b.rs"]⟩) = some (some ("rust", .generic)) := by decide +kernel
example : HasExtension "a.tar.gz" "gz".toList := ⟨by decide, "a.tar".toList, by decide, by decide, by decide⟩
example : ∀ f ∈ above ⟨true, ["a.rs", "src", "p"]⟩, twoFolders f ≠ none := by decide +kernel

/-- **C105, refuted.**  A folder on the way that cannot be read hides the workspace. -/
theorem C105_unreadable_refuted : ∃ fs : Folders, Has fs ⟨true, ["p"]⟩ "Cargo.toml" ∧
    serverFor fs [rustConfig] (some ⟨true, ["a.rs", "src", "p"]⟩) = some (some ("rust", .generic)) :=
  ⟨fun d => if d.names = ["src", "p"] then none else twoFolders d, ⟨[some "Cargo.toml", none, some "src"], by decide +kernel, by decide⟩, by decide +kernel⟩

/-- **C105, refuted.**  If two languages have the same extension, the order of the `HashMap` decides. -/
theorem C105_order_refuted : ∃ c c' : LanguageConfig, (languageFor [c, c'] ⟨true, ["a.h"]⟩).map (·.id) = some "c" ∧ (languageFor [c', c] ⟨true, ["a.h"]⟩).map (·.id) = some "cpp" :=
  ⟨⟨"c", ["h".toList], true, none⟩, ⟨"cpp", ["h".toList], true, none⟩, by decide +kernel, by decide +kernel⟩

/-- **C105, refuted.**  A document whose path is relative makes the plugin panic. -/
theorem C105_relative_refuted : serverFor twoFolders [rustConfig] (some ⟨false, ["a.rs"]⟩) = none := by decide +kernel

/-- **C105, refuted.**  The servers are not kept apart by language: documents of two languages have the same key, and the second
goes to the server of the first (see `C87_language_refuted`). -/
theorem C105_generic_refuted : serverFor twoFolders [rustConfig, ⟨"python", ["py".toList], true, none⟩] (some ⟨true, ["b.rs"]⟩) = some (some ("rust", .generic)) ∧
    serverFor twoFolders [rustConfig, ⟨"python", ["py".toList], true, none⟩] (some ⟨true, ["b.py"]⟩) = some (some ("python", .generic)) := by decide +kernel

end Lsp

end Xi
