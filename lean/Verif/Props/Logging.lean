import Verif.Core.Logging
import Verif.Spec.Logging

/-!
# C111: flags of the command line and where the log goes
-/

namespace Xi

namespace Logging

theorem given_cons (a v : Str) (rest : List Str) :
    given (a :: v :: rest) = (if isFlag a && !isFlag v then [(keyOf a, v)] else []) ++ given (v :: rest) := by
  simp only [given, List.drop_succ_cons, List.drop_zero, List.zip_cons_cons, List.filterMap_cons, isFlag, keyOf, Bool.and_eq_true, Bool.not_eq_true',
    decide_eq_true_eq, decide_eq_false_iff_not]
  split <;> rename_i h <;> split at h <;> simp_all

theorem given_value {v : Str} (rest : List Str) (hv : isFlag v = false) : given (v :: rest) = given rest := by
  cases rest with
  | nil => rfl
  | cons w rest => rw [given_cons, hv]; rfl

/-- The map of flags has what is given, with the last at the front. -/
theorem getFlags_eq : ∀ (args : List Str) (flags : List (Str × Option Str)),
    getFlags args flags = ((given args).map fun p => (p.1, some p.2)).reverse ++ flags
  | [], flags => rfl
  | [_], flags => rfl
  | a :: v :: rest, flags => by
    rw [getFlags, given_cons]
    cases ha : isFlag a with
    | false =>
      simp only [Bool.false_eq_true, if_false, Bool.false_and, List.nil_append]
      exact getFlags_eq (v :: rest) flags
    | true =>
      cases hv : isFlag v with
      | true =>
        simp only [if_true, Bool.not_true, Bool.false_eq_true, if_false, Bool.and_false, List.nil_append]
        exact getFlags_eq (v :: rest) flags
      | false =>
        simp only [if_true, Bool.not_false, Bool.and_self]
        rw [getFlags_eq rest, given_value rest hv]
        simp

theorem lookup_reverse (l : List (Str × Str)) (name : Str) :
    ((l.map fun p => (p.1, some p.2)).reverse).lookup name = ((l.filter (·.1 = name)).map (·.2)).getLast?.map some := by
  induction l with
  | nil => rfl
  | cons p l ih =>
    rw [List.map_cons, List.reverse_cons, List.lookup_append, ih, List.filter_cons]
    by_cases h : p.1 = name
    · simp only [h, decide_true, if_true, List.map_cons, List.getLast?_cons]
      cases ((l.filter (·.1 = name)).map (·.2)).getLast? <;> simp
    · have h' : (name == p.1) = false := by simpa using fun e : name = p.1 => h e.symm
      simp only [h, decide_false, Bool.false_eq_true, if_false]
      simp [List.lookup, h']

/-- **C111** (flags): the value of a flag is the last that the command line gives for it. -/
theorem C111_flags (args : List Str) (name : Str) : (getFlags args []).lookup name = (valueOf name args).map some := by
  rw [getFlags_eq, List.append_nil, lookup_reverse]
  rfl

/-- **C111** (order): a setting comes from its flag, and from the environment if the flag is not given. -/
theorem C111_order (args : List Str) (env : Str → Option Str) (envName name : Str) :
    extract (getFlags args []) env envName name = (valueOf name args).or (env envName) := by
  rw [extract, C111_flags]
  cases valueOf name args <;> rfl

/-- **C111** (settings): the names of the flags and of the variables. -/
theorem C111_settings (args : List Str) (env : Str → Option Str) :
    (logfileConfig (getFlags args []) env).directory = ((valueOf "log-dir".toList args).or (env "XI_LOG_DIR".toList)).map .ofStr ∧
      (logfileConfig (getFlags args []) env).file = ((valueOf "log-file".toList args).or (env "XI_LOG_FILE".toList)).map .ofStr := by
  simp only [logfileConfig, C111_order, and_self]

/-- **C111** (file): without settings the log is in `xi-core/xi-core.log` of the place for data; a directory and a file that do not begin at the
root take the place of these names, one that does takes the place of all before it; a blank name is an error. -/
theorem C111_path (data : LogPath) (hd : data.parts ≠ []) (dir file : Option LogPath) :
    (loggingPath (some data) ⟨none, none⟩ = some ⟨data.root, data.parts ++ ["xi-core".toList, "xi-core.log".toList]⟩) ∧
    (∀ f, f.root = true → loggingPath (some data) ⟨dir, some f⟩ = some f) ∧
    (∀ d f, d.root = true → d.parts ≠ [] → f.root = false → f.parts ≠ [] → ['.'] ∉ f.parts →
      loggingPath (some data) ⟨some d, some f⟩ = some ⟨true, d.parts ++ f.parts⟩) ∧
    (∀ d f, d.root = false → f.root = false → f.parts ≠ [] → ['.'] ∉ d.parts → ['.'] ∉ f.parts →
      loggingPath (some data) ⟨some d, some f⟩ = some ⟨data.root, data.parts ++ d.parts ++ f.parts⟩) ∧
    loggingPath (some data) ⟨dir, some (.ofStr [])⟩ = none ∧
    (loggingPath none ⟨dir, file⟩ = none) := by
  have hblank : LogPath.ofStr [] = ⟨false, []⟩ := rfl
  have hne : ∀ p : LogPath, p.parts ≠ [] → p ≠ ⟨false, []⟩ := fun p h e => h (by rw [e])
  have hfil : ∀ l : List Str, ['.'] ∉ l → l.filter (fun x => decide (x ≠ ['.'])) = l := fun l h =>
    List.filter_eq_self.mpr fun x hx => by simpa using fun e : x = ['.'] => h (e ▸ hx)
  refine ⟨?_, ?_, ?_, ?_, ?_, ?_⟩
  · have e1 : LogPath.ofStr "xi-core.log".toList = ⟨false, ["xi-core.log".toList]⟩ := by decide +kernel
    have e2 : LogPath.ofStr "xi-core".toList = ⟨false, ["xi-core".toList]⟩ := by decide +kernel
    simp only [loggingPath, Option.getD_none, hblank, directoryPath, Option.map_some, e1, e2]
    rw [if_neg (by decide)]
    simp only [LogPath.push, Bool.false_eq_true, if_false, if_neg (hne data hd)]
    rw [if_neg (hne _ (by simp))]
    rw [hfil _ (by decide), hfil _ (by decide)]
    simp
  · intro f hf
    have : f ≠ ⟨false, []⟩ := by rintro rfl; cases hf
    simp [loggingPath, hblank, this, directoryPath, LogPath.push, hf]
  · intro d f h1 h2 h3 h4 h5
    simp only [loggingPath, Option.getD_some, hblank, if_neg (hne f h4), directoryPath, Option.map_some, LogPath.push, h1, h3, if_true,
      Bool.false_eq_true, if_false, if_neg (hne d h2), hfil _ h5]
  · intro d f h1 h2 h3 h4 h5
    simp only [loggingPath, Option.getD_some, hblank, if_neg (hne f h3), directoryPath, Option.map_some, LogPath.push, h1, h2,
      Bool.false_eq_true, if_false, if_neg (hne data hd), hfil _ h4, hfil _ h5]
    rw [if_neg (hne _ (by simp [hd]))]
  · simp [loggingPath]
  · simp only [loggingPath, directoryPath]
    split <;> rfl

theorem pieces_ne (s : Str) : pieces s ≠ [] := by
  cases s with
  | nil => simp [pieces]
  | cons c s =>
    simp only [pieces]
    split
    · simp
    · split <;> simp

theorem pieces_join : ∀ (a b : Str), pieces (a ++ '/' :: b) = pieces a ++ pieces b
  | [], b => by simp [pieces]
  | c :: a, b => by
    have ih := pieces_join a b
    simp only [List.cons_append, pieces, ih]
    split
    · rfl
    · cases h : pieces a with
      | nil => exact absurd h (pieces_ne a)
      | cons p ps => rfl

/-- The first piece of a string is empty only if the string is, or begins with a slash. -/
theorem pieces_head {s : Str} {ps : List Str} (h : pieces s = [] :: ps) : s = [] ∨ s.head? = some '/' := by
  cases s with
  | nil => exact .inl rfl
  | cons c s =>
    right
    simp only [pieces] at h
    split at h
    · rename_i hc
      simp [hc]
    · split at h
      · cases h
      · cases h

/-- **C111** (joining): to join two paths is to write a slash between them, if the second does not begin with one and the first is not empty. -/
theorem C111_join (a b : Str) (ha : a ≠ []) (hb : b.head? ≠ some '/') :
    LogPath.ofStr (a ++ '/' :: b) = (LogPath.ofStr a).push (LogPath.ofStr b) := by
  have hhead : (a ++ '/' :: b).head? = a.head? := by
    cases a with
    | nil => exact absurd rfl ha
    | cons c a => rfl
  cases ea : pieces a with
  | nil => exact absurd ea (pieces_ne a)
  | cons p ps =>
    cases eb : pieces b with
    | nil => exact absurd eb (pieces_ne b)
    | cons q qs =>
      have hq : ((LogPath.ofStr b).root = false) ∧
          (LogPath.ofStr b).parts.filter (fun x => decide (x ≠ ['.'])) = (q :: qs).filter fun q => q ≠ [] && q ≠ ['.'] := by
        simp only [LogPath.ofStr, eb]
        by_cases h0 : q = []
        · subst h0
          rcases pieces_head eb with rfl | h
          · simp only [pieces, List.cons.injEq, true_and] at eb
            subst eb
            decide +kernel
          · exact absurd h hb
        · simp only [if_neg h0, true_and]
          rw [List.filter_cons, List.filter_cons, List.filter_filter]
          have e : (fun x : Str => decide (x ≠ ['.']) && (decide (x ≠ []) && decide (x ≠ ['.']))) = fun x => decide (x ≠ []) && decide (x ≠ ['.']) := by
            funext x
            by_cases h : x = ['.'] <;> simp [h]
          rw [e]
          simp [h0]
      have hne : LogPath.ofStr a ≠ ⟨false, []⟩ := by
        simp only [LogPath.ofStr, ea]
        by_cases h0 : p = []
        · subst h0
          rcases pieces_head ea with h | h
          · exact absurd h ha
          · simp [h]
        · simp [h0]
      simp only [LogPath.push, hq.1, Bool.false_eq_true, if_false, if_neg hne, hq.2]
      simp only [LogPath.ofStr, pieces_join, ea, eb, List.cons_append, hhead]
      rw [List.filter_append]
      by_cases h0 : p = []
      · simp only [if_pos h0]
      · simp only [if_neg h0, List.cons_append]

/-- Non-vacuity: what does not count between the slashes. -/
example : LogPath.ofStr "/home//me/./data/".toList = ⟨true, ["home".toList, "me".toList, "data".toList]⟩ ∧
    (LogPath.ofStr "./a".toList).push (.ofStr "./b".toList) = ⟨false, [".".toList, "a".toList, "b".toList]⟩ := by
  decide +kernel

/-- **C111** (log): a log goes to the file that was asked for if there is one, and is never in a file without being on standard error too; without
a path it goes to standard error. -/
theorem C111_log_partial (disk : Disk) (data : Option LogPath) (env : Str → Option Str) (args : List Str) :
    (∀ p, (start disk data env args).file = some p →
      loggingPath data (logfileConfig (getFlags args []) env) = some p ∧ (start disk data env args).stderr = true ∧ disk.openLog p = true) ∧
    (loggingPath data (logfileConfig (getFlags args []) env) = none → start disk data env args = ⟨true, none⟩) ∧
    (∀ p dir, loggingPath data (logfileConfig (getFlags args []) env) = some p → p.parent = some dir → disk.makeDirs dir = true →
      disk.openLog p = true → start disk data env args = ⟨true, some p⟩) := by
  simp only [start]
  generalize loggingPath data (logfileConfig (getFlags args []) env) = q
  refine ⟨fun p h => ?_, fun h => by rw [h]; rfl, fun p dir h1 h2 h3 h4 => ?_⟩
  · cases q with
    | none => cases h
    | some q =>
      simp only [setupLogging] at h ⊢
      split at h
      · rename_i hc
        simp only [Option.some.injEq] at h
        subst h
        simp only [Bool.and_eq_true] at hc
        exact ⟨rfl, by simp [hc], hc.2⟩
      · cases h
  · subst h1
    simp [setupLogging, createLogDirectory, h2, h3, h4]

/-- **C111** (directory): the directory that is made is the one the file is in; a path without a file is an error. -/
theorem C111_directory (disk : Disk) (root : Bool) (parts : List Str) (file : Str) :
    createLogDirectory disk ⟨root, parts ++ [file]⟩ = disk.makeDirs ⟨root, parts⟩ ∧ createLogDirectory disk ⟨root, []⟩ = false := by
  simp [createLogDirectory, LogPath.parent]

/-- If the file cannot be made there is no log at all, not even on standard error. -/
theorem C111_log_refuted (disk : Disk) (data : Option LogPath) (env : Str → Option Str) (args : List Str) (p : LogPath)
    (hp : loggingPath data (logfileConfig (getFlags args []) env) = some p) (hf : disk.openLog p = false) :
    start disk data env args = ⟨false, none⟩ := by
  simp [start, hp, setupLogging, hf]

/-- A file system on which files can be opened by paths from the root. -/
def demoDisk : Disk := ⟨fun _ => true, fun p => p.root⟩

/-- Non-vacuity: the last flag counts, and goes before the environment. -/
example : start demoDisk (some (.ofStr "/home/me/data".toList)) (fun _ => some "env".toList)
    (["xi-core", "--log-file", "one.log", "-v", "--log-file", "./sub//two.log"].map String.toList) =
      ⟨true, some (.ofStr "/home/me/data/env/sub/two.log".toList)⟩ := by
  decide +kernel

/-- A flag with its value after `=` is not understood, and takes the next argument for its value; nor can a value begin with `-`. -/
theorem C111_values_refuted :
    valueOf "log-file".toList (["xi-core", "--log-file=a.log"].map String.toList) = none ∧
      valueOf "log-file".toList (["xi-core", "--log-file", "-a.log"].map String.toList) = none ∧
      (getFlags (["xi-core", "--log-file=a.log", "b"].map String.toList) []).lookup "log-file=a.log".toList = some (some "b".toList) := by
  decide +kernel

/-- **C111** (level): the log has the level asked for, if that is one of three, and otherwise `info`. -/
theorem C111_level_partial (lower : Str → Str) (v : Option Str) :
    (levelOf lower v = .trace ↔ v.map lower = some "trace".toList) ∧ (levelOf lower v = .debug ↔ v.map lower = some "debug".toList) := by
  cases v with
  | none => simp [levelOf]
  | some v =>
    simp only [levelOf, Option.map_some, Option.some.injEq]
    have hne : "trace".toList ≠ "debug".toList := by decide
    by_cases h1 : lower v = "trace".toList
    · simp [h1]
    · by_cases h2 : lower v = "debug".toList
      · simp [h2]
      · rw [if_neg h1, if_neg h2]
        exact ⟨⟨fun h => (nomatch h), fun h => absurd h h1⟩, ⟨fun h => (nomatch h), fun h => absurd h h2⟩⟩

/-- Who asks for errors only, or for no log, gets one with `info`. -/
theorem C111_level_refuted : levelOf id (some "error".toList) = .info ∧ levelOf id (some "off".toList) = .info := by decide +kernel

end Logging

end Xi
