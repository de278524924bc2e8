import Verif.Core.Files
import Verif.Rope.Utf8Lemmas

/-!
# C77: files are loaded and saved without loss
-/

namespace Xi

open Config (Map lookup_set lookup_unset)

namespace Files

/-- What a file should contain: the mark of the encoding and the text. -/
def encoded (e : Encoding) (text : List UInt8) : List UInt8 := (if e = .utf8WithBom then [0xEF, 0xBB, 0xBF] else []) ++ text

theorem tmpPath_ne (p : String) : tmpPath p ≠ p := by
  intro h
  have := congrArg String.length h
  simp only [tmpPath, String.length_append] at this
  have h4 : ".swp".length = 4 := by decide
  omega

theorem put_same (d : Disk) (p : String) (f : Option DiskFile) : d.put p f p = f := by simp [Disk.put]

theorem put_other (d : Disk) {p q : String} (f : Option DiskFile) (h : q ≠ p) : d.put p f q = d q := by simp [Disk.put, h]

theorem perform_append (a b : List (Disk → Disk)) (d : Disk) : perform (a ++ b) d = perform b (perform a d) := by simp [perform]

theorem perform_writes (p : String) (time : Nat) : ∀ (l : List (List UInt8)) (d : Disk) (f : DiskFile), d p = some f → f.time = time →
    perform (l.map (write p time)) d p = some { f with bytes := f.bytes ++ l.flatten }
  | [], d, f, h, _ => by simp [perform, h]
  | s :: l, d, f, h, ht => by
    have h1 : write p time s d p = some { f with bytes := f.bytes ++ s } := by
      simp only [write, put_same, h, Option.map_some, ← ht]
    have := perform_writes p time l (write p time s d) _ h1 ht
    simp only [List.map_cons, perform, List.foldl_cons] at this ⊢
    rw [this]
    simp

/-- The steps before the renaming only touch the temporary file. -/
theorem perform_other {p q : String} (hq : q ≠ p) : ∀ (l : List (Disk → Disk)) (d : Disk), (∀ f ∈ l, ∀ d, f d q = d q) → perform l d q = d q
  | [], _, _ => rfl
  | f :: l, d, h => by
    rw [show f :: l = [f] ++ l from rfl, perform_append, perform_other hq l _ (fun g hg => h g (List.mem_cons_of_mem _ hg))]
    exact h f (by simp) d

/-- The steps before the renaming. -/
def before (path : String) (chunks : List (List UInt8)) (encoding : Encoding) (time : Nat) : List (Disk → Disk) :=
  [create (tmpPath path) time] ++ (encoding.mark ++ chunks).map (write (tmpPath path) time)

theorem before_other (path : String) (chunks : List (List UInt8)) (encoding : Encoding) (time : Nat) {q : String} (hq : q ≠ tmpPath path) :
    ∀ f ∈ before path chunks encoding time, ∀ d, f d q = d q := by
  intro f hf d
  simp only [before, List.cons_append, List.nil_append, List.mem_cons, List.mem_map] at hf
  rcases hf with rfl | ⟨s, -, rfl⟩
  · exact put_other _ _ hq
  · exact put_other _ _ hq

theorem mark_flatten (e : Encoding) (chunks : List (List UInt8)) : (e.mark ++ chunks).flatten = encoded e chunks.flatten := by
  cases e <;> simp [Encoding.mark, encoded, bom]

theorem perform_before (d : Disk) (path : String) (chunks : List (List UInt8)) (e : Encoding) (time : Nat) :
    ∃ mode, perform (before path chunks e time) d (tmpPath path) = some ⟨encoded e chunks.flatten, time, mode⟩ := by
  refine ⟨((d (tmpPath path)).map (·.mode)).getD 0o644, ?_⟩
  rw [before, perform_append]
  rw [perform_writes (tmpPath path) time _ (perform [create (tmpPath path) time] d) ⟨[], time, _⟩ (put_same _ _ _) rfl, mark_flatten]
  rfl

/-- C77: a save that fails at some step, or is interrupted there, leaves the file as it was.  Only the temporary file is touched. -/
theorem C77_fail {d d' : Disk} {path : String} {chunks : List (List UInt8)} {e : Encoding} {info : Option Info} {time : Nat} {fault : Option Nat}
    (h : trySave d path chunks e info time fault = (d', false)) : d' path = d path ∧ ∀ q, q ≠ path ++ ".swp" → d' q = d q := by
  have key : ∀ q, q ≠ path ++ ".swp" → d' q = d q := by
    intro q hq
    cases fault with
    | none => simp [trySave] at h
    | some k =>
      simp only [trySave] at h
      split at h
      · rename_i hk
        simp only [Prod.mk.injEq, and_true] at h
        rw [← h]
        have hs : saveSteps path chunks e time = before path chunks e time ++ [rename (tmpPath path) path] := rfl
        have hk' : k ≤ (before path chunks e time).length := by
          rw [hs, List.length_append] at hk
          simp only [List.length_cons, List.length_nil] at hk
          omega
        rw [hs, List.take_append_of_le_length hk']
        exact perform_other hq _ d fun f hf => before_other path chunks e time hq f (List.mem_of_mem_take hf)
      · simp at h
  exact ⟨key path (Ne.symm (tmpPath_ne path)), key⟩

/-- C77: after a save that works the file has the mark and the text, the temporary file is gone, and all other files are as they were. -/
theorem C77_save {d d' : Disk} {path : String} {chunks : List (List UInt8)} {e : Encoding} {info : Option Info} {time : Nat} {fault : Option Nat}
    (h : trySave d path chunks e info time fault = (d', true)) :
    (∃ mode, d' path = some ⟨encoded e chunks.flatten, time, mode⟩ ∧ ∀ i, info = some i → mode = i.permissions.getD 0o644) ∧
      d' (path ++ ".swp") = none ∧ ∀ q, q ≠ path → q ≠ path ++ ".swp" → d' q = d q := by
  have hd : d' = restoreMode path info (perform (saveSteps path chunks e time) d) := by
    cases fault with
    | none => simp only [trySave, Prod.mk.injEq, and_true] at h; exact h.symm
    | some k =>
      simp only [trySave] at h
      split at h
      · simp at h
      · simp only [Prod.mk.injEq, and_true] at h; exact h.symm
  obtain ⟨mode, hm⟩ := perform_before d path chunks e time
  have hs : perform (saveSteps path chunks e time) d = rename (tmpPath path) path (perform (before path chunks e time) d) := by
    rw [show saveSteps path chunks e time = before path chunks e time ++ [rename (tmpPath path) path] from rfl, perform_append]
    rfl
  have hne := tmpPath_ne path
  have h1 : rename (tmpPath path) path (perform (before path chunks e time) d) path = some ⟨encoded e chunks.flatten, time, mode⟩ := by
    rw [rename, put_other _ _ (Ne.symm hne), put_same, hm]
  have h2 : rename (tmpPath path) path (perform (before path chunks e time) d) (tmpPath path) = none := by
    rw [rename, put_same]
  have h3 : ∀ q, q ≠ path → q ≠ tmpPath path → rename (tmpPath path) path (perform (before path chunks e time) d) q = d q := by
    intro q hq hq'
    rw [rename, put_other _ _ hq', put_other _ _ hq]
    exact perform_other hq' _ d (before_other path chunks e time hq')
  rw [hd, hs]
  cases info with
  | none => exact ⟨⟨mode, h1, fun i hi => by cases hi⟩, h2, h3⟩
  | some i =>
    simp only [restoreMode, setMode]
    refine ⟨⟨_, by rw [put_same, h1]; rfl, fun j hj => by cases hj; rfl⟩, ?_, ?_⟩
    · rw [put_other _ _ (show path ++ ".swp" ≠ path from hne)]; exact h2
    · intro q hq hq'
      rw [put_other _ _ hq]; exact h3 q hq hq'

/-- Without a fault a save works. -/
theorem C77_works (d : Disk) (path : String) (chunks : List (List UInt8)) (e : Encoding) (info : Option Info) (time : Nat) : (trySave d path chunks e info time none).2 = true := rfl

theorem valid_iff (s : List UInt8) : (ByteArray.mk s.toArray).validateUTF8 = true ↔ Utf8 s := by
  rw [ByteArray.validateUTF8_eq_true_iff]
  constructor
  · rintro ⟨m, hm⟩
    refine ⟨m, ?_⟩
    have := congrArg (fun b => b.data.toList) hm
    simpa [List.utf8Encode] using this
  · rintro ⟨m, hm⟩
    refine ⟨m, ?_⟩
    apply ByteArray.ext
    rw [List.utf8Encode, List.data_toByteArray, hm]

theorem fromUtf8_some {s t : List UInt8} : fromUtf8 s = some t ↔ Utf8 s ∧ t = s := by
  unfold fromUtf8
  rw [← valid_iff]
  split <;> rename_i h
  · simp [h, eq_comm]
  · simp [h]

theorem bom_prefix (s : List UInt8) : bom.isPrefixOf s = true ↔ ∃ t, s = bom ++ t := by
  rw [List.isPrefixOf_iff_prefix]
  exact ⟨fun ⟨t, h⟩ => ⟨t, h.symm⟩, fun ⟨t, h⟩ => ⟨t, h.symm⟩⟩

/-- C77: what was loaded from a file and is saved without a change is what was in the file. -/
theorem C77_load_save {s text : List UInt8} (h : decode s (Encoding.guess s) = some text) : encoded (Encoding.guess s) text = s := by
  unfold Encoding.guess at h ⊢
  split at h <;> rename_i hb
  · obtain ⟨t, rfl⟩ := (bom_prefix s).1 hb
    simp only [decode, Option.map_eq_some_iff] at h
    obtain ⟨u, hu, rfl⟩ := h
    rw [(fromUtf8_some.1 hu).2]
    simp [encoded, bom]
  · rw [(fromUtf8_some.1 h).2, if_neg hb]
    simp [encoded]

/-- The mark of the encoding is a character. -/
theorem bom_utf8 : Utf8 bom := ⟨['\uFEFF'], by decide +kernel⟩

/-- C77: a text that was saved is loaded again, with its encoding, if it does not begin with the mark. -/
theorem C77_save_load_partial {e : Encoding} {text : List UInt8} (ht : Utf8 text) (hb : e = .utf8 → ¬ [0xEF, 0xBB, 0xBF] <+: text) :
    Encoding.guess (encoded e text) = e ∧ decode (encoded e text) e = some text := by
  cases e with
  | utf8 =>
    have h0 : encoded .utf8 text = text := by simp [encoded]
    rw [h0]
    constructor
    · unfold Encoding.guess
      rw [if_neg]
      rw [List.isPrefixOf_iff_prefix]
      exact hb rfl
    · exact fromUtf8_some.2 ⟨ht, rfl⟩
  | utf8WithBom =>
    have h0 : encoded .utf8WithBom text = bom ++ text := by simp [encoded, bom]
    rw [h0]
    constructor
    · unfold Encoding.guess
      rw [if_pos ((bom_prefix _).2 ⟨text, rfl⟩)]
    · simp only [decode]
      rw [fromUtf8_some.2 ⟨utf8_append bom_utf8 ht, rfl⟩]
      simp

/-- C77: every file that is well formed can be loaded, and no other. -/
theorem C77_loads (s : List UInt8) : (decode s (Encoding.guess s)).isSome = true ↔ Utf8 s := by
  rw [Option.isSome_iff_exists]
  constructor
  · rintro ⟨t, ht⟩
    cases hg : Encoding.guess s <;> rw [hg] at ht
    · exact (fromUtf8_some.1 ht).1
    · simp only [decode, Option.map_eq_some_iff] at ht
      obtain ⟨u, hu, -⟩ := ht
      exact (fromUtf8_some.1 hu).1
  · intro h
    cases Encoding.guess s
    · exact ⟨s, fromUtf8_some.2 ⟨h, rfl⟩⟩
    · exact ⟨s.drop bom.length, by simp only [decode]; rw [fromUtf8_some.2 ⟨h, rfl⟩]; rfl⟩

/-- C77 refuted: a new text that begins with the mark is saved as it is, but when it is loaded the mark is taken away. -/
theorem C77_mark_refuted : decode (encoded .utf8 [0xEF, 0xBB, 0xBF, 0x61]) (Encoding.guess (encoded .utf8 [0xEF, 0xBB, 0xBF, 0x61])) = some [0x61] := by decide +kernel

/-- What happens to the editor and to the files. -/
inductive Op where
  | newView (path : Option String) (id : Nat)
  | edit (id : Nat) (text : List UInt8) (pristine : Bool)
  | save (id : Nat) (path : String) (ending : Option (List UInt8)) (time : Nat) (fault : Option Nat)
  | close (id : Nat)
  | event (path : String)
  | change (path : String) (file : Option DiskFile)

/-- The editor with the files, and what is remembered for the statement only: the paths for whose last change no event has come, the
contents that each buffer last read or wrote, and its text at that time. -/
structure Sys where
  core : Core
  late : String → Bool
  seen : Nat → Option (List UInt8)
  base : Nat → List UInt8

/-- Remembers what is now in the file and the text of a buffer. -/
def Sys.saw (s : Sys) (id : Nat) (path : Option String) : Sys :=
  { s with
    seen := fun j => if j = id then (path.bind s.core.manager.disk).map (·.bytes) else s.seen j
    base := fun j => if j = id then ((s.core.editors.lookup id).map (·.text)).getD [] else s.base j }

/-- A buffer is edited. -/
def Core.edit (c : Core) (id : Nat) (text : List UInt8) (pristine : Bool) : Core :=
  match c.editors.lookup id with
  | none => c
  | some _ => { c with editors := Config.set c.editors id ⟨text, pristine⟩ }

/-- An operation. -/
def Op.run (chunk : List UInt8 → List (List UInt8)) (s : Sys) : Op → Option Sys
  | .newView path id =>
    let r := s.core.newView path id
    let s' := { s with core := r.1 }
    some (if r.2.isSome then s' else s'.saw id path)
  | .edit id text pristine => some { s with core := s.core.edit id text pristine }
  | .save id path ending time fault =>
    let r := s.core.save chunk id path ending time fault
    let s' := { s with core := r.1 }
    some (if r.2.isSome then s' else s'.saw id (some path))
  | .close id => some { s with core := s.core.close id }
  | .event path =>
    (s.core.event path).map fun r =>
      let s' := { s with core := r.1, late := fun p => if p = path then false else s.late p }
      match r.2 with
      | none => s'
      | some id => s'.saw id (some path)
  | .change path file =>
    let m := { s.core.manager with disk := s.core.manager.disk.put path file }
    some { s with core := { s.core with manager := m }, late := fun p => if p = path then true else s.late p }

/-- The paths, buffers and editors belong together. -/
structure Links (c : Core) : Prop where
  info : ∀ p id, c.manager.openFiles.lookup p = some id → ∃ i, c.manager.info.lookup id = some i ∧ i.path = p
  editor : ∀ id i, c.manager.info.lookup id = some i → (c.editors.lookup id).isSome = true

/-- New buffers have new numbers. -/
def Op.Fresh (s : Sys) : Op → Prop
  | .newView _ id => s.core.editors.lookup id = none
  | _ => True

theorem open_cases (m : Manager) (path : String) (id : Nat) :
    (m.disk path = none ∧ m.open path id = .ok (m, [])) ∨ (∃ f, m.disk path = some f ∧ decode f.bytes (Encoding.guess f.bytes) = none ∧ m.open path id = .error .unknownEncoding) ∨
      ∃ f text, m.disk path = some f ∧ decode f.bytes (Encoding.guess f.bytes) = some text ∧
        m.open path id = .ok ({ m with openFiles := Config.set m.openFiles path id, info := Config.set m.info id ⟨Encoding.guess f.bytes, path, some f.time, false, some f.mode⟩ }, text) := by
  unfold Manager.open
  cases hd : m.disk path with
  | none => exact Or.inl ⟨rfl, rfl⟩
  | some f =>
    simp only [load]
    cases ht : decode f.bytes (Encoding.guess f.bytes) with
    | none => exact Or.inr (Or.inl ⟨f, rfl, ht, rfl⟩)
    | some text =>
      refine Or.inr (Or.inr ⟨f, text, rfl, ht, ?_⟩)
      simp [modTime, permissions, hd]

theorem Links.opened {c : Core} (h : Links c) {path : String} {id : Nat} {i : Info} (hi : i.path = path) (ed : Ed) (hp : ∀ j, c.manager.info.lookup id = some j → j.path = path) (d : Disk) :
    Links ⟨⟨Config.set c.manager.openFiles path id, Config.set c.manager.info id i, d⟩, Config.set c.editors id ed⟩ := by
  constructor
  · intro p j hj
    simp only [lookup_set] at hj ⊢
    split at hj <;> rename_i hpp
    · cases hj
      exact ⟨i, by simp, by rw [hi, hpp]⟩
    · obtain ⟨i', h1, h2⟩ := h.info p j hj
      by_cases hid : j = id
      · subst hid
        exact absurd (h2.symm.trans (hp i' h1)) hpp
      · exact ⟨i', by rw [if_neg hid]; exact h1, h2⟩
  · intro j i' hj
    simp only [lookup_set] at hj ⊢
    split
    · rfl
    · rename_i hid
      rw [if_neg hid] at hj
      exact h.editor j i' hj

theorem Links.withEditor {c : Core} (h : Links c) (id : Nat) (ed : Ed) : Links { c with editors := Config.set c.editors id ed } :=
  ⟨h.info, fun j i hj => by
    simp only [lookup_set]
    split
    · rfl
    · exact h.editor j i hj⟩

theorem Links.withInfo {c : Core} (h : Links c) {id : Nat} {i i' : Info} (hi : c.manager.info.lookup id = some i) (hp : i'.path = i.path) (d : Disk) :
    Links { c with manager := { c.manager with info := Config.set c.manager.info id i', disk := d } } := by
  constructor
  · intro p j hj
    obtain ⟨k, h1, h2⟩ := h.info p j hj
    simp only [lookup_set]
    by_cases hid : j = id
    · subst hid
      rw [h1] at hi
      cases hi
      exact ⟨i', by simp, by rw [hp, h2]⟩
    · exact ⟨k, by rw [if_neg hid]; exact h1, h2⟩
  · intro j k hj
    simp only [lookup_set] at hj
    split at hj
    · rename_i hid; rw [hid]; exact h.editor id i hi
    · exact h.editor j k hj

theorem Links.withDisk {c : Core} (h : Links c) (d : Disk) : Links { c with manager := { c.manager with disk := d } } := ⟨h.info, h.editor⟩

theorem newView_links {c : Core} (h : Links c) (path : Option String) {id : Nat} (hf : c.editors.lookup id = none) : Links (c.newView path id).1 := by
  have hn : ∀ j, c.manager.info.lookup id = some j → False := by
    intro j hj
    have := h.editor id j hj
    rw [hf] at this
    cases this
  cases path with
  | none => exact h.withEditor id _
  | some p =>
    rcases open_cases c.manager p id with ⟨-, ho⟩ | ⟨f, -, -, ho⟩ | ⟨f, text, -, -, ho⟩
    · simp only [Core.newView, ho]; exact h.withEditor id _
    · simp only [Core.newView, ho]; exact h
    · simp only [Core.newView, ho]; exact h.opened (path := p) rfl _ (fun j hj => (hn j hj).elim) _

theorem checkFile_eq {m : Manager} {id : Nat} {i : Info} (h : m.info.lookup id = some i) (path : String) :
    m.checkFile path id = ({ m with info := Config.set m.info id (if modTime m.disk path ≠ i.modTime then { i with hasChanged := true } else i) }, (if modTime m.disk path ≠ i.modTime then { i with hasChanged := true } else i).hasChanged) := by
  unfold Manager.checkFile
  rw [h]

/-- What an event does. -/
theorem event_cases {c : Core} (h : Links c) (path : String) : (c.manager.openFiles.lookup path = none ∧ c.event path = some (c, none)) ∨
    ∃ id i i' ed, c.manager.openFiles.lookup path = some id ∧ c.manager.info.lookup id = some i ∧ i.path = path ∧ c.editors.lookup id = some ed ∧
      i' = (if modTime c.manager.disk path ≠ i.modTime then { i with hasChanged := true } else i) ∧
      (((i'.hasChanged = false ∨ ed.pristine = false ∨ ∃ f, c.manager.disk path = some f ∧ decode f.bytes (Encoding.guess f.bytes) = none) ∧
          c.event path = some ({ c with manager := { c.manager with info := Config.set c.manager.info id i' } }, none)) ∨
        (i'.hasChanged = true ∧ ed.pristine = true ∧ c.manager.disk path = none ∧
          c.event path = some (⟨{ c.manager with info := Config.set c.manager.info id i' }, Config.set c.editors id ⟨[], true⟩⟩, some id)) ∨
        (i'.hasChanged = true ∧ ed.pristine = true ∧ ∃ f text, c.manager.disk path = some f ∧ decode f.bytes (Encoding.guess f.bytes) = some text ∧
          c.event path = some (⟨{ c.manager with openFiles := Config.set c.manager.openFiles path id, info := Config.set (Config.set c.manager.info id i') id ⟨Encoding.guess f.bytes, path, some f.time, false, some f.mode⟩ },
            Config.set c.editors id ⟨text, true⟩⟩, some id))) := by
  unfold Core.event Manager.getEditor
  cases ho : c.manager.openFiles.lookup path with
  | none => exact Or.inl ⟨rfl, rfl⟩
  | some id =>
    obtain ⟨i, hi, hp⟩ := h.info path id ho
    obtain ⟨ed, hed⟩ := Option.isSome_iff_exists.1 (h.editor id i hi)
    refine Or.inr ⟨id, i, _, ed, rfl, hi, hp, hed, rfl, ?_⟩
    simp only [hed, checkFile_eq hi path]
    generalize (if modTime c.manager.disk path ≠ i.modTime then { i with hasChanged := true } else i) = i'
    by_cases hc : (i'.hasChanged && ed.pristine) = true
    · rw [if_pos hc]
      rw [Bool.and_eq_true] at hc
      rcases open_cases { c.manager with info := Config.set c.manager.info id i' } path id with ⟨hd, hop⟩ | ⟨f, hd, hx, hop⟩ | ⟨f, text, hd, hx, hop⟩
      · exact Or.inr (Or.inl ⟨hc.1, hc.2, hd, by rw [hop]⟩)
      · exact Or.inl ⟨Or.inr (Or.inr ⟨f, hd, hx⟩), by rw [hop]⟩
      · exact Or.inr (Or.inr ⟨hc.1, hc.2, f, text, hd, hx, by rw [hop]⟩)
    · rw [if_neg hc]
      refine Or.inl ⟨?_, rfl⟩
      revert hc
      cases i'.hasChanged <;> cases ed.pristine <;> simp

theorem changed_path (i : Info) (p : Prop) [Decidable p] : (if p then { i with hasChanged := true } else i).path = i.path := by split <;> rfl

/-- What a save does. -/
theorem save_cases (chunk : List UInt8 → List (List UInt8)) (c : Core) (id : Nat) (path : String) (ending : Option (List UInt8)) (time : Nat) (fault : Option Nat) {ed : Ed} (hed : c.editors.lookup id = some ed) :
    (∃ e d, c.save chunk id path ending time fault = ({ c with manager := { c.manager with disk := d } }, some e) ∧ d path = c.manager.disk path ∧ ∀ q, q ≠ path ++ ".swp" → d q = c.manager.disk q) ∨
    ∃ d i mode enc, d path = some ⟨encoded enc (chunk (textForSave ed.text ending)).flatten, time, mode⟩ ∧ (∀ q, q ≠ path → q ≠ path ++ ".swp" → d q = c.manager.disk q) ∧
      i.encoding = enc ∧ i.path = path ∧ i.modTime = some time ∧ i.hasChanged = false ∧
      ((c.manager.info.lookup id = none ∧ c.save chunk id path ending time fault = (⟨⟨Config.set c.manager.openFiles path id, Config.set c.manager.info id i, d⟩, Config.set c.editors id { ed with pristine := true }⟩, none)) ∨
      ∃ i', c.manager.info.lookup id = some i' ∧
        ((i'.path ≠ path ∧ c.save chunk id path ending time fault = (⟨⟨Config.unset (Config.set c.manager.openFiles path id) i'.path, Config.set c.manager.info id i, d⟩, Config.set c.editors id { ed with pristine := true }⟩, none)) ∨
        (i'.path = path ∧ i'.hasChanged = false ∧ enc = i'.encoding ∧ c.save chunk id path ending time fault = (⟨⟨c.manager.openFiles, Config.set c.manager.info id i, d⟩, Config.set c.editors id { ed with pristine := true }⟩, none)))) := by
  have new : (∃ d, c.manager.saveNew path (chunk (textForSave ed.text ending)) id time fault = ({ c.manager with disk := d }, some .io) ∧ d path = c.manager.disk path ∧ ∀ q, q ≠ path ++ ".swp" → d q = c.manager.disk q) ∨
      ∃ d i mode, d path = some ⟨encoded .utf8 (chunk (textForSave ed.text ending)).flatten, time, mode⟩ ∧ (∀ q, q ≠ path → q ≠ path ++ ".swp" → d q = c.manager.disk q) ∧ i.encoding = .utf8 ∧ i.path = path ∧ i.modTime = some time ∧ i.hasChanged = false ∧
        c.manager.saveNew path (chunk (textForSave ed.text ending)) id time fault = (⟨Config.set c.manager.openFiles path id, Config.set c.manager.info id i, d⟩, none) := by
    unfold Manager.saveNew
    cases hr : trySave c.manager.disk path (chunk (textForSave ed.text ending)) .utf8 (c.manager.info.lookup id) time fault with
    | mk d ok =>
      cases ok with
      | false => exact Or.inl ⟨d, rfl, C77_fail hr⟩
      | true =>
        obtain ⟨⟨mode, h1, -⟩, -, h3⟩ := C77_save hr
        refine Or.inr ⟨d, ⟨.utf8, path, modTime d path, false, permissions d path⟩, mode, h1, h3, rfl, rfl, ?_, rfl, rfl⟩
        simp [modTime, h1]
  unfold Core.save
  simp only [hed]
  unfold Manager.save
  cases hi : c.manager.info.lookup id with
  | none =>
    simp only
    rcases new with ⟨d, h1, h2⟩ | ⟨d, i, mode, h1, h2, h3, h4, h5, h6, h7⟩
    · exact Or.inl ⟨.io, d, by rw [h1]; rfl, h2⟩
    · exact Or.inr ⟨d, i, mode, .utf8, h1, h2, h3, h4, h5, h6, Or.inl ⟨trivial, by rw [h7]; rfl⟩⟩
  | some i' =>
    simp only
    unfold Manager.saveExisting
    by_cases hp : i'.path ≠ path
    · rw [if_pos hp]
      rcases new with ⟨d, h1, h2⟩ | ⟨d, i, mode, h1, h2, h3, h4, h5, h6, h7⟩
      · exact Or.inl ⟨.io, d, by rw [h1]; rfl, h2⟩
      · exact Or.inr ⟨d, i, mode, .utf8, h1, h2, h3, h4, h5, h6, Or.inr ⟨i', rfl, Or.inl ⟨hp, by rw [h7]; rfl⟩⟩⟩
    · rw [if_neg hp]
      have hp : i'.path = path := Decidable.not_not.1 hp
      by_cases hc : i'.hasChanged = true
      · rw [if_pos hc]
        exact Or.inl ⟨.hasChanged, c.manager.disk, rfl, rfl, fun _ _ => rfl⟩
      · rw [if_neg hc]
        cases hr : trySave c.manager.disk path (chunk (textForSave ed.text ending)) i'.encoding (some i') time fault with
        | mk d ok =>
          cases ok with
          | false => exact Or.inl ⟨.io, d, rfl, C77_fail hr⟩
          | true =>
            obtain ⟨⟨mode, h1, -⟩, -, h3⟩ := C77_save hr
            refine Or.inr ⟨d, { i' with modTime := modTime d path }, mode, i'.encoding, h1, h3, rfl, hp, ?_, ?_, Or.inr ⟨i', rfl, Or.inr ⟨hp, ?_, rfl, rfl⟩⟩⟩
            · simp [modTime, h1]
            · simpa using hc
            · simpa using hc

theorem Links.moved {c : Core} (h : Links c) {path : String} {id : Nat} {i i' : Info} (hi : i.path = path) (ed : Ed) (ho : c.manager.info.lookup id = some i') (hne : i'.path ≠ path) (d : Disk) :
    Links ⟨⟨Config.unset (Config.set c.manager.openFiles path id) i'.path, Config.set c.manager.info id i, d⟩, Config.set c.editors id ed⟩ := by
  constructor
  · intro p j hj
    simp only [lookup_set, lookup_unset] at hj ⊢
    split at hj
    · cases hj
    · rename_i hpp
      split at hj <;> rename_i hp'
      · cases hj
        exact ⟨i, by simp, by rw [hi, hp']⟩
      · obtain ⟨k, h1, h2⟩ := h.info p j hj
        by_cases hid : j = id
        · subst hid
          rw [ho] at h1
          cases h1
          exact absurd h2.symm hpp
        · exact ⟨k, by rw [if_neg hid]; exact h1, h2⟩
  · intro j k hj
    simp only [lookup_set] at hj ⊢
    split
    · rfl
    · rename_i hid
      rw [if_neg hid] at hj
      exact h.editor j k hj

theorem save_links (chunk : List UInt8 → List (List UInt8)) {c : Core} (h : Links c) (id : Nat) (path : String) (ending : Option (List UInt8)) (time : Nat) (fault : Option Nat) : Links (c.save chunk id path ending time fault).1 := by
  cases hed : c.editors.lookup id with
  | none => simp only [Core.save, hed]; exact h
  | some ed =>
    rcases save_cases chunk c id path ending time fault hed with ⟨e, d, h1, -⟩ | ⟨d, i, mode, enc, -, -, -, h4, -, -, h7⟩
    · rw [h1]; exact h.withDisk d
    · rcases h7 with ⟨hn, h7⟩ | ⟨i', hi, ⟨hp, h7⟩ | ⟨hp, -, -, h7⟩⟩
      · rw [h7]
        exact h.opened h4 _ (fun j hj => by rw [hn] at hj; cases hj) d
      · rw [h7]
        exact h.moved h4 _ hi hp d
      · rw [h7]
        exact (h.withInfo hi (by rw [h4, hp]) d).withEditor id _

theorem close_links {c : Core} (h : Links c) (id : Nat) : Links (c.close id) := by
  unfold Core.close
  cases hed : c.editors.lookup id with
  | none => exact h
  | some ed =>
    simp only [Manager.close]
    cases hi : c.manager.info.lookup id with
    | none =>
      refine ⟨h.info, ?_⟩
      intro j i hj
      simp only [lookup_unset] at hj ⊢
      rw [if_neg]
      · exact h.editor j i hj
      · rintro rfl; rw [hi] at hj; cases hj
    | some i =>
      constructor
      · intro p j hj
        simp only [lookup_unset] at hj ⊢
        split at hj
        · cases hj
        · rename_i hp
          obtain ⟨k, h1, h2⟩ := h.info p j hj
          refine ⟨k, ?_, h2⟩
          rw [if_neg]
          · exact h1
          · rintro rfl
            rw [hi] at h1
            cases h1
            exact hp h2.symm
      · intro j k hj
        simp only [lookup_unset] at hj ⊢
        split
        · rename_i e; rw [if_pos e] at hj; cases hj
        · rename_i e; rw [if_neg e] at hj; exact h.editor j k hj

/-- No event makes the core panic, and the maps stay linked. -/
theorem event_links {c : Core} (h : Links c) (path : String) : ∃ r, c.event path = some r ∧ Links r.1 := by
  rcases event_cases h path with ⟨-, he⟩ | ⟨id, i, i', ed, ho, hi, hp, hed, hi', hc⟩
  · exact ⟨_, he, h⟩
  · have hpp : i'.path = i.path := by rw [hi']; exact changed_path _ _
    have h1 := h.withInfo hi hpp c.manager.disk
    rcases hc with ⟨-, he⟩ | ⟨-, -, -, he⟩ | ⟨-, -, f, text, -, -, he⟩
    · exact ⟨_, he, h1⟩
    · exact ⟨_, he, h1.withEditor id _⟩
    · refine ⟨_, he, h1.opened (path := path) (i := ⟨Encoding.guess f.bytes, path, some f.time, false, some f.mode⟩) rfl _ (fun j hj => ?_) _⟩
      have hj : (Config.set c.manager.info id i').lookup id = some j := hj
      rw [lookup_set, if_pos rfl] at hj
      cases hj
      rw [hpp, hp]

theorem run_links (chunk : List UInt8 → List (List UInt8)) {s : Sys} (h : Links s.core) (op : Op) (hf : op.Fresh s) : ∃ s', op.run chunk s = some s' ∧ Links s'.core := by
  cases op with
  | newView path id =>
    refine ⟨_, rfl, ?_⟩
    have := newView_links h path hf
    split
    · exact this
    · exact this
  | edit id text pristine =>
    refine ⟨_, rfl, ?_⟩
    show Links (s.core.edit id text pristine)
    unfold Core.edit
    cases s.core.editors.lookup id with
    | none => exact h
    | some ed => exact h.withEditor id _
  | save id path ending time fault =>
    refine ⟨_, rfl, ?_⟩
    have := save_links chunk h id path ending time fault
    split
    · exact this
    · exact this
  | close id => exact ⟨_, rfl, close_links h id⟩
  | event path =>
    obtain ⟨r, he, hl⟩ := event_links h path
    refine ⟨_, by simp only [Op.run, he]; rfl, ?_⟩
    dsimp only
    split
    · exact hl
    · exact hl
  | change path file => exact ⟨_, rfl, h.withDisk _⟩

/-- The editor at the start, with any files. -/
def Sys.start (d : Disk) : Sys := ⟨⟨⟨[], [], d⟩, []⟩, fun _ => false, fun _ => none, fun _ => []⟩

/-- All new buffers have new numbers. -/
def FreshAll (chunk : List UInt8 → List (List UInt8)) : Sys → List Op → Prop
  | _, [] => True
  | s, op :: ops => op.Fresh s ∧ ∀ s', op.run chunk s = some s' → FreshAll chunk s' ops

theorem runAll_links (chunk : List UInt8 → List (List UInt8)) : ∀ (ops : List Op) {s : Sys}, Links s.core → FreshAll chunk s ops → ∃ s', ops.foldlM (Op.run chunk) s = some s' ∧ Links s'.core
  | [], s, h, _ => ⟨s, rfl, h⟩
  | op :: ops, s, h, hf => by
    obtain ⟨s1, h1, h2⟩ := run_links chunk h op hf.1
    obtain ⟨s', h3, h4⟩ := runAll_links chunk ops h2 (hf.2 s1 h1)
    exact ⟨s', by rw [List.foldlM_cons, h1]; exact h3, h4⟩

theorem start_links (d : Disk) : Links (Sys.start d).core := ⟨fun _ _ h => (by cases h), fun _ _ h => (by cases h)⟩

/-- C77: nothing that happens to files and buffers makes the core panic. -/
theorem C77_no_panic (chunk : List UInt8 → List (List UInt8)) (d : Disk) (ops : List Op) (hf : FreshAll chunk (Sys.start d) ops) : (ops.foldlM (Op.run chunk) (Sys.start d)).isSome = true := by
  obtain ⟨s, h, -⟩ := runAll_links chunk ops (start_links d) hf
  rw [h]
  rfl

/-- C77: whatever happened before, an event about a file changes no buffer with edits that were not saved. -/
theorem C77_event_keeps (chunk : List UInt8 → List (List UInt8)) (d : Disk) (ops : List Op) (hf : FreshAll chunk (Sys.start d) ops) {s : Sys} (hs : ops.foldlM (Op.run chunk) (Sys.start d) = some s) {path : String} {c : Core} {r : Option Nat}
    (he : s.core.event path = some (c, r)) {id : Nat} {ed : Ed} (hed : s.core.editors.lookup id = some ed) (hp : ed.pristine = false) : c.editors.lookup id = some ed := by
  obtain ⟨s', h, hl⟩ := runAll_links chunk ops (start_links d) hf
  rw [hs] at h
  cases h
  rcases event_cases hl path with ⟨-, h1⟩ | ⟨j, i, i', e, ho, hi, hpp, he', hi', hc⟩
  · rw [h1] at he; cases he; exact hed
  · have hne : e.pristine = true → id ≠ j := by
      rintro h1 rfl
      rw [hed] at he'
      cases he'
      rw [hp] at h1
      cases h1
    rcases hc with ⟨-, h1⟩ | ⟨-, h2, -, h1⟩ | ⟨-, h2, f, text, -, -, h1⟩
    · rw [h1] at he; cases he; exact hed
    · rw [h1] at he; cases he
      simp only [lookup_set, if_neg (hne h2)]; exact hed
    · rw [h1] at he; cases he
      simp only [lookup_set, if_neg (hne h2)]; exact hed

/-- The conditions under which nothing is lost: a file is open in one buffer only, a file with the name of the temporary one is not open, an
edit that is undone gives the text that was saved, and another program that changes a file gives it another time. -/
def Op.Careful (s : Sys) : Op → Prop
  | .newView path id => s.core.editors.lookup id = none ∧ ∀ p, path = some p → s.core.manager.openFiles.lookup p = none
  | .edit id text pristine => pristine = true → text = s.base id
  | .save id path _ _ _ => (∀ j, s.core.manager.openFiles.lookup path = some j → j = id) ∧ s.core.manager.openFiles.lookup (path ++ ".swp") = none
  | .close _ => True
  | .event _ => True
  | .change path file => ∀ id i f, s.core.manager.info.lookup id = some i → i.path = path → file = some f → some f.time = i.modTime → s.seen id = some f.bytes

/-- What is known of the files that are open. -/
structure Good (s : Sys) : Prop where
  links : Links s.core
  own : ∀ id i, s.core.manager.info.lookup id = some i → s.core.manager.openFiles.lookup i.path = some id
  known : ∀ id i f, s.core.manager.info.lookup id = some i → i.hasChanged = false → s.core.manager.disk i.path = some f → some f.time = i.modTime → s.seen id = some f.bytes
  settled : ∀ id i, s.core.manager.info.lookup id = some i → s.late i.path = false → i.hasChanged = true ∨ s.core.manager.disk i.path = none ∨ modTime s.core.manager.disk i.path = i.modTime
  shown : ∀ id i bytes, s.core.manager.info.lookup id = some i → s.seen id = some bytes → ∃ ending, bytes = encoded i.encoding (textForSave (s.base id) ending)
  pristine : ∀ id ed, s.core.editors.lookup id = some ed → ed.pristine = true → ed.text = s.base id

theorem textForSave_none (t : List UInt8) : textForSave t none = t := rfl

/-- A file was loaded for a buffer. -/
theorem Good.load {s : Sys} (h : Good s) {path : String} {id : Nat} {f : DiskFile} {text : List UInt8} (hl : ∀ j i, s.core.manager.info.lookup j = some i → i.path = path → j = id)
    (hd : s.core.manager.disk path = some f) (ht : decode f.bytes (Encoding.guess f.bytes) = some text) (inf : Map Nat Info) (hinf : ∀ j, inf.lookup j = if j = id then some ⟨Encoding.guess f.bytes, path, some f.time, false, some f.mode⟩ else s.core.manager.info.lookup j)
    (hlinks : Links ⟨{ s.core.manager with openFiles := Config.set s.core.manager.openFiles path id, info := inf }, Config.set s.core.editors id ⟨text, true⟩⟩) (late : String → Bool) (hlate : ∀ p, p ≠ path → late p = s.late p) :
    Good (Sys.saw ⟨⟨{ s.core.manager with openFiles := Config.set s.core.manager.openFiles path id, info := inf }, Config.set s.core.editors id ⟨text, true⟩⟩, late, s.seen, s.base⟩ id (some path)) := by
  refine ⟨hlinks, ?_, ?_, ?_, ?_, ?_⟩
  · intro j i hj
    simp only [Sys.saw, hinf] at hj
    simp only [Sys.saw, lookup_set]
    split at hj
    · rename_i e; cases hj; simp [e]
    · rename_i e
      rw [if_neg (fun hc => e (hl j i hj hc))]
      exact h.own j i hj
  · intro j i g hj hc hg htm
    simp only [Sys.saw, hinf] at hj hg
    simp only [Sys.saw]
    split at hj
    · rename_i e
      cases hj
      rw [if_pos e, Option.bind_some, hd]
      have hg : s.core.manager.disk path = some g := hg
      rw [hd] at hg
      cases hg
      rfl
    · rename_i e
      rw [if_neg e]
      exact h.known j i g hj hc hg htm
  · intro j i hj hlt
    simp only [Sys.saw, hinf] at hj hlt ⊢
    split at hj
    · cases hj
      exact Or.inr (Or.inr (by simp [modTime, hd]))
    · rename_i e
      rw [hlate _ (fun hc => e (hl j i hj hc))] at hlt
      exact h.settled j i hj hlt
  · intro j i bytes hj hb
    simp only [Sys.saw, hinf] at hj hb ⊢
    split at hj
    · rename_i e
      cases hj
      rw [if_pos e, Option.bind_some, hd] at hb
      cases hb
      refine ⟨none, ?_⟩
      simp only [if_pos e, lookup_set, if_true, Option.map_some, Option.getD_some, textForSave_none]
      exact (C77_load_save ht).symm
    · rename_i e
      rw [if_neg e] at hb ⊢
      exact h.shown j i bytes hj hb
  · intro j ed hj hp
    simp only [Sys.saw, lookup_set] at hj ⊢
    split at hj
    · rename_i e
      cases hj
      simp [e]
    · rename_i e
      rw [if_neg e]
      exact h.pristine j ed hj hp

/-- A file was saved for a buffer. -/
theorem Good.saved {s : Sys} (h : Good s) {path : String} {id : Nat} {ed : Ed} {d : Disk} {i : Info} {mode : Nat} {t : List UInt8} {time : Nat} {ending : Option (List UInt8)} (ht : t = textForSave ed.text ending)
    (hd : d path = some ⟨encoded i.encoding t, time, mode⟩) (hdo : ∀ q, q ≠ path → q ≠ path ++ ".swp" → d q = s.core.manager.disk q) (hp : i.path = path) (htm : i.modTime = some time)
    (hown : ∀ j, s.core.manager.openFiles.lookup path = some j → j = id) (hswp : s.core.manager.openFiles.lookup (path ++ ".swp") = none) (files : Map String Nat)
    (hfiles : files.lookup path = some id ∧ ∀ j k, j ≠ id → s.core.manager.info.lookup j = some k → files.lookup k.path = some j)
    (hlinks : Links ⟨⟨files, Config.set s.core.manager.info id i, d⟩, Config.set s.core.editors id { ed with pristine := true }⟩) :
    Good (Sys.saw ⟨⟨⟨files, Config.set s.core.manager.info id i, d⟩, Config.set s.core.editors id { ed with pristine := true }⟩, s.late, s.seen, s.base⟩ id (some path)) := by
  have other : ∀ j k, j ≠ id → s.core.manager.info.lookup j = some k → d k.path = s.core.manager.disk k.path := by
    intro j k hj hk
    refine hdo _ ?_ ?_
    · intro hc
      have := h.own j k hk
      rw [hc] at this
      exact hj (hown j this)
    · intro hc
      have := h.own j k hk
      rw [hc, hswp] at this
      cases this
  refine ⟨hlinks, ?_, ?_, ?_, ?_, ?_⟩
  · intro j k hj
    simp only [Sys.saw, lookup_set] at hj ⊢
    split at hj
    · rename_i e; cases hj; rw [hp, e]; exact hfiles.1
    · rename_i e
      exact hfiles.2 j k e hj
  · intro j k g hj hc hg htm'
    simp only [Sys.saw, lookup_set] at hj hg ⊢
    split at hj
    · rename_i e
      cases hj
      have hg : d i.path = some g := hg
      rw [hp, hd] at hg
      rw [if_pos e, Option.bind_some, hd]
      cases hg
      rfl
    · rename_i e
      rw [if_neg e]
      have hg : d k.path = some g := hg
      rw [other j k e hj] at hg
      exact h.known j k g hj hc hg htm'
  · intro j k hj hlt
    simp only [Sys.saw, lookup_set] at hj hlt ⊢
    split at hj
    · cases hj
      exact Or.inr (Or.inr (by simp [modTime, hp, hd, htm]))
    · rename_i e
      have := h.settled j k hj hlt
      simp only [modTime, other j k e hj]
      exact this
  · intro j k bytes hj hb
    simp only [Sys.saw, lookup_set] at hj hb ⊢
    split at hj
    · rename_i e
      cases hj
      rw [if_pos e, Option.bind_some, hd] at hb
      cases hb
      refine ⟨ending, ?_⟩
      simp only [if_pos e, if_true, Option.map_some, Option.getD_some]
      rw [ht]
    · rename_i e
      rw [if_neg e] at hb ⊢
      exact h.shown j k bytes hj hb
  · intro j ed' hj hpr
    simp only [Sys.saw, lookup_set] at hj ⊢
    split at hj
    · rename_i e
      cases hj
      simp [e]
    · rename_i e
      rw [if_neg e]
      exact h.pristine j ed' hj hpr

/-- The disk changes at other places. -/
theorem Good.elsewhere {s : Sys} (h : Good s) {d : Disk} (hd : ∀ j k, s.core.manager.info.lookup j = some k → d k.path = s.core.manager.disk k.path) :
    Good { s with core := { s.core with manager := { s.core.manager with disk := d } } } := by
  refine ⟨h.links.withDisk d, h.own, ?_, ?_, h.shown, h.pristine⟩
  · intro j k g hj hc hg htm
    have hg : d k.path = some g := hg
    rw [hd j k hj] at hg
    exact h.known j k g hj hc hg htm
  · intro j k hj hlt
    have := h.settled j k hj hlt
    simp only [modTime, hd j k hj]
    exact this

/-- An editor gets a text without the file being looked at. -/
theorem Good.withEditor {s : Sys} (h : Good s) {id : Nat} {ed : Ed} (hp : ed.pristine = true → ed.text = s.base id) :
    Good { s with core := { s.core with editors := Config.set s.core.editors id ed } } := by
  refine ⟨h.links.withEditor id ed, h.own, h.known, h.settled, h.shown, ?_⟩
  intro j e hj hpr
  simp only [lookup_set] at hj
  split at hj
  · rename_i hjd; cases hj; rw [hjd]; exact hp hpr
  · exact h.pristine j e hj hpr

/-- A buffer has no text of a file. -/
theorem Good.nothing {s : Sys} (h : Good s) {id : Nat} (hi : ∀ i, s.core.manager.info.lookup id = some i → i.hasChanged = true) {path : Option String} (hd : path.bind s.core.manager.disk = none ∨ s.core.manager.info.lookup id = none) (ed : Ed) :
    Good (Sys.saw { s with core := { s.core with editors := Config.set s.core.editors id ed } } id path) := by
  refine ⟨h.links.withEditor id ed, h.own, ?_, h.settled, ?_, ?_⟩
  · intro j k g hj hc hg htm
    simp only [Sys.saw]
    rw [if_neg]
    · exact h.known j k g hj hc hg htm
    · rintro rfl
      have := hi k hj
      rw [hc] at this
      cases this
  · intro j k bytes hj hb
    simp only [Sys.saw] at hb ⊢
    have hj : s.core.manager.info.lookup j = some k := hj
    split at hb
    · rename_i e
      rcases hd with hd | hd
      · rw [hd] at hb; cases hb
      · rw [e, hd] at hj; cases hj
    · rename_i e
      rw [if_neg e]
      exact h.shown j k bytes hj hb
  · intro j e hj hpr
    simp only [Sys.saw, lookup_set] at hj ⊢
    split at hj
    · rename_i hjd; cases hj; simp [hjd]
    · rename_i hjd
      rw [if_neg hjd]
      exact h.pristine j e hj hpr

/-- A buffer that is not there is remembered. -/
theorem Good.absent {s : Sys} (h : Good s) {id : Nat} (hed : s.core.editors.lookup id = none) (path : Option String) : Good (s.saw id path) := by
  have hn : ∀ i, s.core.manager.info.lookup id ≠ some i := by
    intro i hi
    have := h.links.editor id i hi
    rw [hed] at this
    cases this
  refine ⟨h.links, h.own, ?_, h.settled, ?_, ?_⟩
  · intro j k g hj hc hg htm
    simp only [Sys.saw]
    rw [if_neg]
    · exact h.known j k g hj hc hg htm
    · rintro rfl; exact hn k hj
  · intro j k bytes hj hb
    simp only [Sys.saw] at hb ⊢
    have e : j ≠ id := by rintro rfl; exact hn k hj
    rw [if_neg e] at hb ⊢
    exact h.shown j k bytes hj hb
  · intro j ed hj hpr
    simp only [Sys.saw]
    rw [if_neg]
    · exact h.pristine j ed hj hpr
    · rintro rfl
      have hj : s.core.editors.lookup j = some ed := hj
      rw [hed] at hj
      cases hj

/-- A file was checked after an event. -/
theorem Good.checked {s : Sys} (h : Good s) {path : String} {id : Nat} {i i' : Info} (ho : s.core.manager.openFiles.lookup path = some id) (hi : s.core.manager.info.lookup id = some i) (hp : i.path = path)
    (hi' : i' = if modTime s.core.manager.disk path ≠ i.modTime then { i with hasChanged := true } else i) :
    Good { s with core := { s.core with manager := { s.core.manager with info := Config.set s.core.manager.info id i' } }, late := fun p => if p = path then false else s.late p } := by
  have hpp : i'.path = i.path := by rw [hi']; exact changed_path _ _
  have henc : i'.encoding = i.encoding := by rw [hi']; split <;> rfl
  have hsame : i'.hasChanged = false → i' = i ∧ modTime s.core.manager.disk path = i.modTime := by
    rw [hi']
    split
    · intro hc; cases hc
    · rename_i hne; intro _; exact ⟨rfl, Decidable.not_not.1 hne⟩
  refine ⟨h.links.withInfo hi hpp _, ?_, ?_, ?_, ?_, h.pristine⟩
  · intro j k hj
    simp only [lookup_set] at hj ⊢
    split at hj
    · rename_i e; cases hj; rw [hpp, hp, e]; exact ho
    · exact h.own j k hj
  · intro j k g hj hc hg htm
    simp only [lookup_set] at hj
    split at hj
    · rename_i e
      cases hj
      rw [(hsame hc).1] at hg htm hc
      rw [e]
      exact h.known id i g hi hc hg htm
    · exact h.known j k g hj hc hg htm
  · intro j k hj hlt
    simp only [lookup_set] at hj hlt ⊢
    split at hj
    · cases hj
      cases hcc : i'.hasChanged with
      | true => exact Or.inl rfl
      | false =>
        obtain ⟨h1, h2⟩ := hsame hcc
        rw [h1, hp]
        exact Or.inr (Or.inr h2)
    · rename_i e
      rw [if_neg] at hlt
      · exact h.settled j k hj hlt
      · intro hcc
        have := h.own j k hj
        rw [hcc, ho] at this
        exact e (Option.some.inj this).symm
  · intro j k bytes hj hb
    simp only [lookup_set] at hj
    split at hj
    · rename_i e
      cases hj
      rw [henc]
      rw [e] at hb ⊢
      exact h.shown id i bytes hi hb
    · exact h.shown j k bytes hj hb

theorem good_step (chunk : List UInt8 → List (List UInt8)) (hchunk : ∀ t, (chunk t).flatten = t) {s : Sys} (h : Good s) (op : Op) (hc : op.Careful s) : ∃ s', op.run chunk s = some s' ∧ Good s' := by
  cases op with
  | newView path id =>
    refine ⟨_, rfl, ?_⟩
    have hn : s.core.manager.info.lookup id = none := by
      cases hi : s.core.manager.info.lookup id with
      | none => rfl
      | some i =>
        have := h.links.editor id i hi
        rw [hc.1] at this
        cases this
    cases path with
    | none => exact h.nothing (fun i hi => by rw [hn] at hi; cases hi) (Or.inr hn) _
    | some p =>
      have hlinks := newView_links h.links (some p) hc.1
      rcases open_cases s.core.manager p id with ⟨hd, ho⟩ | ⟨f, -, -, ho⟩ | ⟨f, text, hd, ht, ho⟩
      · simp only [Core.newView, ho]
        exact h.nothing (fun i hi => by rw [hn] at hi; cases hi) (Or.inr hn) _
      · simp only [Core.newView, ho]
        exact h
      · simp only [Core.newView, ho] at hlinks ⊢
        refine h.load ?_ hd ht _ (fun j => lookup_set _ _ _ _) hlinks s.late (fun _ _ => rfl)
        intro j i hj hp
        have := h.own j i hj
        rw [hp, hc.2 p rfl] at this
        cases this
  | edit id text pristine =>
    refine ⟨_, rfl, ?_⟩
    show Good { s with core := s.core.edit id text pristine }
    unfold Core.edit
    cases s.core.editors.lookup id with
    | none => exact h
    | some ed => exact h.withEditor hc
  | save id path ending time fault =>
    refine ⟨_, rfl, ?_⟩
    have hlinks := save_links chunk h.links id path ending time fault
    cases hed : s.core.editors.lookup id with
    | none =>
      simp only [Core.save, hed]
      exact h.absent hed _
    | some ed =>
      rcases save_cases chunk s.core id path ending time fault hed with ⟨e, d, h1, -, h2⟩ | ⟨d, i, mode, enc, h1, h2, h3, h4, h5, h6, h7⟩
      · rw [h1]
        refine h.elsewhere fun j k hj => h2 _ ?_
        intro hcc
        have := h.own j k hj
        rw [hcc, hc.2] at this
        cases this
      · rw [hchunk, ← h3] at h1
        have key := fun files a b => h.saved (ed := ed) (ending := ending) rfl h1 h2 h4 h5 hc.1 hc.2 files a b
        rcases h7 with ⟨hn, h7⟩ | ⟨i', hi, ⟨hp, h7⟩ | ⟨hp, -, -, h7⟩⟩
        · rw [h7] at hlinks ⊢
          refine key _ ⟨by simp [lookup_set], ?_⟩ hlinks
          intro j k hj hk
          have := h.own j k hk
          rw [lookup_set, if_neg]
          · exact this
          · intro hcc; rw [hcc] at this; exact hj (hc.1 j this)
        · rw [h7] at hlinks ⊢
          refine key _ ⟨by rw [lookup_unset, if_neg (Ne.symm hp), lookup_set, if_pos rfl], ?_⟩ hlinks
          intro j k hj hk
          have := h.own j k hk
          rw [lookup_unset, if_neg, lookup_set, if_neg]
          · exact this
          · intro hcc; rw [hcc] at this; exact hj (hc.1 j this)
          · intro hcc
            have h8 := h.own id i' hi
            rw [← hcc, this] at h8
            exact hj (Option.some.inj h8)
        · rw [h7] at hlinks ⊢
          refine key _ ⟨?_, fun j k _ hk => h.own j k hk⟩ hlinks
          rw [← hp]
          exact h.own id i' hi
  | close id =>
    refine ⟨_, rfl, ?_⟩
    have hlinks := close_links h.links id
    show Good { s with core := s.core.close id }
    unfold Core.close at hlinks ⊢
    cases hed : s.core.editors.lookup id with
    | none => exact h
    | some ed =>
      simp only [hed, Manager.close] at hlinks ⊢
      cases hi : s.core.manager.info.lookup id with
      | none =>
        simp only [hi] at hlinks ⊢
        refine ⟨hlinks, h.own, h.known, h.settled, h.shown, ?_⟩
        intro j e hj hpr
        simp only [lookup_unset] at hj
        split at hj
        · cases hj
        · exact h.pristine j e hj hpr
      | some i =>
        simp only [hi] at hlinks ⊢
        have old : ∀ j k, (Config.unset s.core.manager.info id).lookup j = some k → j ≠ id ∧ s.core.manager.info.lookup j = some k := by
          intro j k hj
          rw [lookup_unset] at hj
          split at hj
          · cases hj
          · rename_i e; exact ⟨e, hj⟩
        refine ⟨hlinks, ?_, ?_, ?_, ?_, ?_⟩
        · intro j k hj
          obtain ⟨h1, h2⟩ := old j k hj
          have := h.own j k h2
          show (Config.unset s.core.manager.openFiles i.path).lookup k.path = some j
          rw [lookup_unset, if_neg]
          · exact this
          · intro hcc
            have h8 := h.own id i hi
            rw [← hcc, this] at h8
            exact h1 (Option.some.inj h8)
        · intro j k g hj; exact h.known j k g (old j k hj).2
        · intro j k hj; exact h.settled j k (old j k hj).2
        · intro j k bytes hj; exact h.shown j k bytes (old j k hj).2
        · intro j e hj hpr
          simp only [lookup_unset] at hj
          split at hj
          · cases hj
          · exact h.pristine j e hj hpr
  | event path =>
    obtain ⟨r, he, hlinks⟩ := event_links h.links path
    refine ⟨_, by simp only [Op.run, he]; rfl, ?_⟩
    rcases event_cases h.links path with ⟨ho, h1⟩ | ⟨id, i, i', ed, ho, hi, hp, hed, hi', hcase⟩
    · rw [h1] at he
      cases he
      refine ⟨h.links, h.own, h.known, ?_, h.shown, h.pristine⟩
      intro j k hj hlt
      refine h.settled j k hj ?_
      have hlt : (if k.path = path then false else s.late k.path) = false := hlt
      rw [if_neg] at hlt
      · exact hlt
      · intro hcc
        have := h.own j k hj
        rw [hcc, ho] at this
        cases this
    · have hg := h.checked ho hi hp hi'
      rcases hcase with ⟨-, h1⟩ | ⟨h2, -, hd, h1⟩ | ⟨-, -, f, text, hd, ht, h1⟩
      · rw [h1] at he
        cases he
        exact hg
      · rw [h1] at he
        cases he
        refine hg.nothing (path := some path) (ed := ⟨[], true⟩) ?_ (Or.inl hd)
        intro k hk
        simp only [lookup_set, if_true] at hk
        cases hk
        exact h2
      · rw [h1] at he
        cases he
        refine hg.load (path := path) (id := id) ?_ hd ht _ (fun j => lookup_set _ _ _ _) hlinks _ (fun p hne => rfl)
        intro j k hj hkp
        have := hg.own j k hj
        rw [hkp] at this
        have this : s.core.manager.openFiles.lookup path = some j := this
        rw [ho] at this
        exact (Option.some.inj this).symm
  | change path file =>
    refine ⟨_, rfl, h.links.withDisk _, h.own, ?_, ?_, h.shown, h.pristine⟩
    · intro j k g hj hch hg htm
      have hj : s.core.manager.info.lookup j = some k := hj
      have hg : s.core.manager.disk.put path file k.path = some g := hg
      by_cases e : k.path = path
      · rw [e, put_same] at hg
        exact hc j k g hj e hg htm
      · rw [put_other _ _ e] at hg
        exact h.known j k g hj hch hg htm
    · intro j k hj hlt
      have hlt : (if k.path = path then true else s.late k.path) = false := hlt
      split at hlt
      · cases hlt
      · rename_i e
        have := h.settled j k hj hlt
        show _ ∨ s.core.manager.disk.put path file k.path = none ∨ modTime (s.core.manager.disk.put path file) k.path = _
        simp only [modTime, put_other _ _ e]
        exact this

/-- All operations are careful when it is their turn. -/
def CarefulAll (chunk : List UInt8 → List (List UInt8)) : Sys → List Op → Prop
  | _, [] => True
  | s, op :: ops => op.Careful s ∧ ∀ s', op.run chunk s = some s' → CarefulAll chunk s' ops

theorem good_run (chunk : List UInt8 → List (List UInt8)) (hchunk : ∀ t, (chunk t).flatten = t) : ∀ (ops : List Op) {s : Sys}, Good s → CarefulAll chunk s ops → ∃ s', ops.foldlM (Op.run chunk) s = some s' ∧ Good s'
  | [], s, h, _ => ⟨s, rfl, h⟩
  | op :: ops, s, h, hf => by
    obtain ⟨s1, h1, h2⟩ := good_step chunk hchunk h op hf.1
    obtain ⟨s', h3, h4⟩ := good_run chunk hchunk ops h2 (hf.2 s1 h1)
    exact ⟨s', by rw [List.foldlM_cons, h1]; exact h3, h4⟩

theorem start_good (d : Disk) : Good (Sys.start d) :=
  ⟨start_links d, fun _ _ h => (by cases h), fun _ _ _ h => (by cases h), fun _ _ h => (by cases h), fun _ _ _ h => (by cases h), fun _ _ h => (by cases h)⟩

/-- C77, in part: after careful operations, if the event for the last change of a file has come, then a buffer of this file is saved to it in
one of these ways: there is an error, and the file is as it was; or what is overwritten, if anything, is what this buffer last read or wrote, and the
file has the encoding it had and the text of the buffer, with the line ending if it must end with one. -/
theorem C77_overwrite_partial (chunk : List UInt8 → List (List UInt8)) (hchunk : ∀ t, (chunk t).flatten = t) (d : Disk) (ops : List Op) (hc : CarefulAll chunk (Sys.start d) ops) :
    ∃ s, ops.foldlM (Op.run chunk) (Sys.start d) = some s ∧ ∀ id path ending time fault i ed c err, s.core.manager.info.lookup id = some i → i.path = path → s.late path = false → s.core.editors.lookup id = some ed →
      s.core.save chunk id path ending time fault = (c, err) →
        (err.isSome = true ∧ c.manager.disk path = s.core.manager.disk path ∧ c.editors.lookup id = some ed) ∨
        (err = none ∧ (∀ f, s.core.manager.disk path = some f → s.seen id = some f.bytes) ∧
          (c.manager.disk path).map (·.bytes) = some (encoded i.encoding (textForSave ed.text ending)) ∧ c.editors.lookup id = some ⟨ed.text, true⟩) := by
  obtain ⟨s, hs, h⟩ := good_run chunk hchunk ops (start_good d) hc
  refine ⟨s, hs, ?_⟩
  intro id path ending time fault i ed c err hi hp hlate hed hsave
  rcases save_cases chunk s.core id path ending time fault hed with ⟨e, d, h1, h2, -⟩ | ⟨d, i', mode, enc, h1, h2, h3, h4, h5, h6, h7⟩
  · rw [h1] at hsave
    cases hsave
    exact Or.inl ⟨rfl, h2, hed⟩
  · rcases h7 with ⟨hn, -⟩ | ⟨i2, hi2, ⟨hp2, -⟩ | ⟨hp2, hch, henc, h7⟩⟩
    · rw [hi] at hn; cases hn
    · rw [hi] at hi2; cases hi2; exact absurd hp hp2
    · rw [hi] at hi2
      cases hi2
      rw [h7] at hsave
      cases hsave
      refine Or.inr ⟨rfl, ?_, ?_, ?_⟩
      · intro f hf
        have hf : s.core.manager.disk i.path = some f := by rw [hp]; exact hf
        refine h.known id i f hi hch hf ?_
        rcases h.settled id i hi (by rw [hp]; exact hlate) with h8 | h8 | h8
        · rw [hch] at h8; cases h8
        · rw [hf] at h8; cases h8
        · rw [← h8, modTime, hf]; rfl
      · show (d path).map (·.bytes) = _
        rw [h1, hchunk, henc]
        rfl
      · simp [lookup_set]

/-- C77, in part: after careful operations, a buffer without edits, whose file is there and is known not to have changed, has the text of
the file, but for a line ending at the end of the file. -/
theorem C77_pristine_partial (chunk : List UInt8 → List (List UInt8)) (hchunk : ∀ t, (chunk t).flatten = t) (d : Disk) (ops : List Op) (hc : CarefulAll chunk (Sys.start d) ops) :
    ∃ s, ops.foldlM (Op.run chunk) (Sys.start d) = some s ∧ ∀ id i ed f, s.core.manager.info.lookup id = some i → s.late i.path = false → i.hasChanged = false → s.core.editors.lookup id = some ed → ed.pristine = true →
      s.core.manager.disk i.path = some f → ∃ ending, f.bytes = encoded i.encoding (textForSave ed.text ending) := by
  obtain ⟨s, hs, h⟩ := good_run chunk hchunk ops (start_good d) hc
  refine ⟨s, hs, ?_⟩
  intro id i ed f hi hlate hch hed hpr hd
  have h1 : some f.time = i.modTime := by
    rcases h.settled id i hi hlate with h1 | h1 | h1
    · rw [hch] at h1; cases h1
    · rw [hd] at h1; cases h1
    · rw [← h1, modTime, hd]; rfl
  have h2 := h.known id i f hi hch hd h1
  obtain ⟨ending, h3⟩ := h.shown id i f.bytes hi h2
  exact ⟨ending, by rw [h3, h.pristine id ed hed hpr]⟩

/-- A file of an example. -/
def fileOf (s : String) (time : Nat) : DiskFile := ⟨s.toUTF8.toList, time, 0o644⟩

/-- The text of a string. -/
def bytesOf (s : String) : List UInt8 := s.toUTF8.toList

/-- A file system with two files. -/
def exampleDisk : Disk := fun p => if p = "a" then some (fileOf "one\n" 1) else if p = "a.swp" then some (fileOf "other" 2) else none

/-- What is in a file and in a buffer in the end. -/
def outcome (ops : List Op) (path : String) (id : Nat) : Option (Option (List UInt8) × Option (List UInt8) × Option (List UInt8)) :=
  (ops.foldlM (Op.run fun t => [t]) (Sys.start exampleDisk)).map fun s => ((s.core.manager.disk path).map (·.bytes), (s.core.editors.lookup id).map (·.text), s.seen id)

/-- A run: a file is opened, changed by another program and loaded again, edited and saved, edited while it is changed again; then it cannot be
saved, except under another name, where the first attempt fails. -/
def exampleRun : List Op :=
  [.newView (some "a") 0, .change "a" (some (fileOf "two" 5)), .event "a", .edit 0 (bytesOf "three") false, .save 0 "a" (some (bytesOf "\n")) 6 none, .edit 0 (bytesOf "four") false,
    .change "a" (some (fileOf "five" 7)), .event "a", .save 0 "a" none 8 none, .save 0 "b" (some (bytesOf "\n")) 9 (some 1), .save 0 "b" (some (bytesOf "\n")) 10 none]

/-- The contents of the file after some steps. -/
example : outcome (exampleRun.take 3) "a" 0 = some (some (bytesOf "two"), some (bytesOf "two"), some (bytesOf "two")) ∧
    outcome (exampleRun.take 5) "a" 0 = some (some (bytesOf "three\n"), some (bytesOf "three"), some (bytesOf "three\n")) ∧
    outcome (exampleRun.take 9) "a" 0 = some (some (bytesOf "five"), some (bytesOf "four"), some (bytesOf "three\n")) ∧
    outcome (exampleRun.take 10) "b" 0 = some (none, some (bytesOf "four"), some (bytesOf "three\n")) ∧
    outcome exampleRun "b" 0 = some (some (bytesOf "four\n"), some (bytesOf "four"), some (bytesOf "four\n")) := by
  refine ⟨?_, ?_, ?_, ?_, ?_⟩ <;> decide +kernel

theorem careful_cons {chunk : List UInt8 → List (List UInt8)} {s : Sys} {op : Op} {ops : List Op} (h : op.Careful s) (hr : CarefulAll chunk ((op.run chunk s).getD s) ops) : CarefulAll chunk s (op :: ops) :=
  ⟨h, fun s' hs => by rw [hs] at hr; exact hr⟩

theorem careful_save {s : Sys} {id : Nat} {path : String} {ending : Option (List UInt8)} {time : Nat} {fault : Option Nat} (h : (s.core.manager.openFiles.lookup path).all (· == id) = true) (hs : s.core.manager.openFiles.lookup (path ++ ".swp") = none) :
    (Op.save id path ending time fault).Careful s := ⟨fun j hj => by rw [hj] at h; simpa using h, hs⟩

theorem careful_change {s : Sys} {path : String} {f : DiskFile} (h : s.core.manager.info.all (fun e => e.2.modTime != some f.time) = true) : (Op.change path (some f)).Careful s := by
  intro id i g hi _ hf htm
  cases hf
  rw [List.all_eq_true] at h
  have hm : (id, i) ∈ s.core.manager.info := by
    generalize s.core.manager.info = l at hi
    induction l with
    | nil => cases hi
    | cons e l ih =>
      obtain ⟨a, b⟩ := e
      rw [Config.lookup_cons_ite] at hi
      split at hi
      · rename_i e; cases hi; rw [e]; simp
      · exact List.mem_cons_of_mem _ (ih hi)
  have := h _ hm
  rw [htm] at this
  simp at this

/-- The run is careful. -/
example : CarefulAll (fun t => [t]) (Sys.start exampleDisk) exampleRun := by
  refine careful_cons ⟨rfl, fun _ _ => rfl⟩ ?_
  refine careful_cons (careful_change (by decide +kernel)) ?_
  refine careful_cons trivial ?_
  refine careful_cons (fun h => by cases h) ?_
  refine careful_cons (careful_save (by decide +kernel) (by decide +kernel)) ?_
  refine careful_cons (fun h => by cases h) ?_
  refine careful_cons (careful_change (by decide +kernel)) ?_
  refine careful_cons trivial ?_
  refine careful_cons (careful_save (by decide +kernel) (by decide +kernel)) ?_
  refine careful_cons (careful_save (by decide +kernel) (by decide +kernel)) ?_
  exact careful_cons (careful_save (by decide +kernel) (by decide +kernel)) trivial

/-- C77 refuted: another program changes the file, and the buffer is saved before the event is handled (or comes: the watcher waits for
100 ms).  The time of the file is not looked at when it is saved: what the other program wrote is lost. -/
theorem C77_race_refuted :
    outcome [.newView (some "a") 0, .edit 0 (bytesOf "mine") false, .change "a" (some (fileOf "theirs" 5))] "a" 0 = some (some (bytesOf "theirs"), some (bytesOf "mine"), some (bytesOf "one\n")) ∧
    outcome [.newView (some "a") 0, .edit 0 (bytesOf "mine") false, .change "a" (some (fileOf "theirs" 5)), .save 0 "a" none 6 none] "a" 0 = some (some (bytesOf "mine"), some (bytesOf "mine"), some (bytesOf "mine")) := by
  refine ⟨?_, ?_⟩ <;> decide +kernel

/-- C77 refuted: a file is opened twice, and the second view is closed.  Then events about the file are ignored for the first one: it
overwrites what another program wrote. -/
theorem C77_twice_refuted :
    outcome [.newView (some "a") 0, .newView (some "a") 1, .close 1, .edit 0 (bytesOf "mine") false, .change "a" (some (fileOf "theirs" 5)), .event "a", .save 0 "a" none 6 none] "a" 0 = some (some (bytesOf "mine"), some (bytesOf "mine"), some (bytesOf "mine")) := by
  decide +kernel

/-- C77 refuted: a view is made for a file that does not exist yet; another program makes it.  The view does not know, and overwrites it. -/
theorem C77_new_refuted :
    outcome [.newView (some "c") 0, .edit 0 (bytesOf "mine") false, .change "c" (some (fileOf "theirs" 5)), .event "c", .save 0 "c" none 6 none] "c" 0 = some (some (bytesOf "mine"), some (bytesOf "mine"), some (bytesOf "mine")) := by
  decide +kernel

/-- C77 refuted: the other program's change has the same time as the file before. -/
theorem C77_time_refuted :
    outcome [.newView (some "a") 0, .edit 0 (bytesOf "mine") false, .change "a" (some (fileOf "theirs" 1)), .event "a", .save 0 "a" none 6 none] "a" 0 = some (some (bytesOf "mine"), some (bytesOf "mine"), some (bytesOf "mine")) := by
  decide +kernel

/-- C77 refuted: saving `a` destroys the file `a.swp`. -/
theorem C77_swap_refuted : outcome [.newView (some "a") 0] "a.swp" 0 = some (some (bytesOf "other"), some (bytesOf "one\n"), some (bytesOf "one\n")) ∧
    outcome [.newView (some "a") 0, .save 0 "a" none 6 none] "a.swp" 0 = some (none, some (bytesOf "one\n"), some (bytesOf "one\n")) := by
  refine ⟨?_, ?_⟩ <;> decide +kernel

/-- C77 refuted: a file is changed and then removed, and the event about the change comes late: the text of the buffer is deleted. -/
theorem C77_removed_refuted : outcome [.newView (some "a") 0, .change "a" (some (fileOf "two" 5)), .change "a" none, .event "a"] "a" 0 = some (none, some [], none) := by decide +kernel

end Files

end Xi
