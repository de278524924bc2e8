import Verif.Wire.Codec
import Verif.Spec.Wire

/-!
# C97: what is written for the other side is read there as it was

Each instance is written and read again; what cannot be read back, and what is read although nobody would write
it, is said as well.
-/

namespace Xi

namespace Wire

open Rpc (Json)

/-! ## Ids of views -/

theorem toDigit_digit (d : Nat) (h : d < 10) : toDigit digitList[d] = some d := by
  have : ∀ d : Fin 10, toDigit (digitList[d.val]'(by exact d.isLt)) = some d.val := by decide
  exact this ⟨d, h⟩

theorem toDigit_some {c : Char} {d : Nat} (h : toDigit c = some d) : ∃ hd : d < 10, c = digitList[d]'hd := by
  unfold toDigit at h
  split at h
  · rename_i hc
    have h0 : '0'.toNat = 48 := rfl
    have h9 : '9'.toNat = 57 := rfl
    rw [h0, h9] at hc
    rw [h0] at h
    injection h with h
    have hd : d < 10 := by omega
    refine ⟨hd, ?_⟩
    have key : ∀ d : Fin 10, (digitList[d.val]'(by exact d.isLt)).toNat = 48 + d.val := by decide
    have := key ⟨d, hd⟩
    apply Char.toNat_inj.mp
    rw [this]
    show c.toNat = 48 + d
    omega
  · exact absurd h (by simp)

/-- The value of a run of digits after the number `n`. -/
theorem parseDigits_append (n : Nat) (s : List Char) (c : Char) :
    parseDigits n (s ++ [c]) = (parseDigits n s).bind fun m => parseDigits m [c] := by
  induction s generalizing n with
  | nil => rfl
  | cons a s ih =>
    simp only [List.cons_append, parseDigits]
    cases toDigit a with
    | none => rfl
    | some d =>
      dsimp only
      split
      · exact ih _
      · rfl

theorem parseDigits_one (m d : Nat) (hd : d < 10) (h : 10 * m + d < 2 ^ 64) :
    parseDigits m [digitList[d]] = some (10 * m + d) := by
  simp only [parseDigits, toDigit_digit d hd]
  rw [if_pos ⟨by omega, by omega⟩, Nat.mul_comm]

theorem parseDigits_numeral {s : List Char} {n : Nat} (h : Numeral s n) (hn : n < 2 ^ 64) :
    parseDigits 0 s = some n := by
  induction h with
  | one d h =>
    rw [parseDigits_one 0 d h (by omega)]
    simp
  | more s n hs d h ih =>
    rw [parseDigits_append, ih (by omega)]
    exact parseDigits_one n d h (by omega)

theorem numeral_of_parse {s : List Char} (hs : s ≠ []) {n : Nat} (h : parseDigits 0 s = some n) :
    Numeral s n ∧ n < 2 ^ 64 := by
  obtain ⟨s, c, rfl⟩ : ∃ t c, s = t ++ [c] := ⟨s.dropLast, s.getLast hs, (List.dropLast_concat_getLast hs).symm⟩
  have gen : ∀ (k : Nat) (s : List Char) (c : Char) (n : Nat), s.length = k → parseDigits 0 (s ++ [c]) = some n →
      Numeral (s ++ [c]) n ∧ n < 2 ^ 64 := by
    intro k
    induction k with
    | zero =>
      intro s c n hk h
      obtain rfl : s = [] := List.eq_nil_of_length_eq_zero hk
      simp only [List.nil_append, parseDigits] at h ⊢
      cases hc : toDigit c with
      | none => rw [hc] at h; exact absurd h (by simp)
      | some d =>
        rw [hc] at h
        dsimp only at h
        obtain ⟨hd, rfl⟩ := toDigit_some hc
        split at h
        · injection h with h
          obtain rfl : d = n := by omega
          exact ⟨.one d hd, by omega⟩
        · exact absurd h (by simp)
    | succ k ih =>
      intro s c n hk h
      obtain ⟨t, b, rfl⟩ : ∃ t b, s = t ++ [b] := by
        have : s ≠ [] := by intro e; simp [e] at hk
        exact ⟨s.dropLast, s.getLast this, (List.dropLast_concat_getLast this).symm⟩
      rw [parseDigits_append] at h
      cases hm : parseDigits 0 (t ++ [b]) with
      | none => rw [hm] at h; exact absurd h (by simp)
      | some m =>
        rw [hm] at h
        simp only [Option.bind_some, parseDigits] at h
        have hk' : t.length = k := by simpa using hk
        obtain ⟨h1, h2⟩ := ih t b m hk' hm
        cases hc : toDigit c with
        | none => rw [hc] at h; exact absurd h (by simp)
        | some d =>
          rw [hc] at h
          dsimp only at h
          obtain ⟨hd, rfl⟩ := toDigit_some hc
          split at h
          · injection h with h
            obtain rfl : 10 * m + d = n := by omega
            exact ⟨.more _ _ h1 d hd, by omega⟩
          · exact absurd h (by simp)
  exact gen s.length s c n rfl h

theorem numeral_digits {s : List Char} {n : Nat} (h : Numeral s n) : s ≠ [] ∧ ∀ c ∈ s, c ∈ digitList := by
  induction h with
  | one d h => exact ⟨by simp, fun c hc => by rw [List.mem_singleton] at hc; subst hc; exact List.getElem_mem _⟩
  | more s n hs d h ih =>
    refine ⟨by simp, fun c hc => ?_⟩
    rcases List.mem_append.mp hc with hc | hc
    · exact ih.2 c hc
    · rw [List.mem_singleton] at hc; subst hc; exact List.getElem_mem _

theorem numeral_toDigits (n : Nat) : Numeral (Nat.toDigits 10 n) n := by
  have hd : ∀ d : Fin 10, d.val.digitChar = digitList[d.val]'(by exact d.isLt) := by decide
  induction n using Nat.strongRecOn with
  | _ n ih =>
    rw [Nat.toDigits_eq_if (by omega)]
    split
    · rename_i h
      rw [hd ⟨n, h⟩]
      exact .one n h
    · rename_i h
      have h10 : n % 10 < 10 := Nat.mod_lt _ (by omega)
      rw [hd ⟨n % 10, h10⟩]
      have := Numeral.more _ _ (ih (n / 10) (by omega)) (n % 10) h10
      rwa [Nat.div_add_mod] at this

theorem trimPrefix_prefix (s : List Char) : trimPrefix (idPrefix ++ s) = trimPrefix s := by
  rw [trimPrefix.eq_def, if_pos]
  · exact congrArg trimPrefix (List.drop_left (l₁ := idPrefix) (l₂ := s))
  · exact List.isPrefixOf_iff_prefix.mpr (List.prefix_append _ _)

theorem trimPrefix_other {s : List Char} (h : ¬ idPrefix <+: s) : trimPrefix s = s := by
  rw [trimPrefix.eq_def, if_neg]
  exact fun e => h (List.isPrefixOf_iff_prefix.mp e)

theorem trimPrefix_spec (s : List Char) :
    ∃ k, s = (List.replicate k idPrefix).flatten ++ trimPrefix s := by
  have gen : ∀ (n : Nat) (s : List Char), s.length ≤ n → ∃ k, s = (List.replicate k idPrefix).flatten ++ trimPrefix s := by
    intro n
    induction n with
    | zero =>
      intro s hs
      obtain rfl : s = [] := List.eq_nil_of_length_eq_zero (by omega)
      exact ⟨0, by rw [trimPrefix_other (by decide)]; rfl⟩
    | succ n ih =>
      intro s hs
      by_cases h : idPrefix <+: s
      · obtain ⟨t, rfl⟩ := h
        have hl : idPrefix.length = 8 := rfl
        rw [List.length_append] at hs
        obtain ⟨k, hk⟩ := ih t (by omega)
        refine ⟨k + 1, ?_⟩
        rw [trimPrefix_prefix, List.replicate_succ, List.flatten_cons, List.append_assoc, ← hk]
      · exact ⟨0, by rw [trimPrefix_other h]; rfl⟩
  exact gen s.length s (Nat.le_refl _)

/-- Digits, with or without a plus, do not begin with the prefix. -/
theorem not_prefix {plus : Bool} {ds : List Char} (h : ds ≠ [] ∧ ∀ c ∈ ds, c ∈ digitList) :
    ¬ idPrefix <+: ((if plus then ['+'] else []) ++ ds) := by
  rintro ⟨t, ht⟩
  have hp : idPrefix = 'v' :: "iew-id-".toList := by decide
  rw [hp, List.cons_append] at ht
  cases plus with
  | true =>
    simp only [if_true, List.cons_append, List.nil_append, List.cons.injEq] at ht
    exact absurd ht.1 (by decide)
  | false =>
    cases ds with
    | nil => exact h.1 rfl
    | cons d ds =>
      simp only [Bool.false_eq_true, if_false, List.nil_append, List.cons.injEq] at ht
      have := h.2 d (by simp)
      rw [← ht.1] at this
      exact absurd this (by decide)

theorem trimPrefix_number (k : Nat) {plus : Bool} {ds : List Char} (h : ds ≠ [] ∧ ∀ c ∈ ds, c ∈ digitList) :
    trimPrefix ((List.replicate k idPrefix).flatten ++ ((if plus then ['+'] else []) ++ ds)) =
      (if plus then ['+'] else []) ++ ds := by
  induction k with
  | zero => exact trimPrefix_other (not_prefix h)
  | succ k ih => rw [List.replicate_succ, List.flatten_cons, List.append_assoc, trimPrefix_prefix, ih]

theorem parseUsize_plus {ds : List Char} (h : ds ≠ []) : parseUsize ('+' :: ds) = parseDigits 0 ds := by
  cases ds with
  | nil => exact absurd rfl h
  | cons d ds => rfl

theorem parseUsize_plain {c : Char} {cs : List Char} (h : c ≠ '+') : parseUsize (c :: cs) = parseDigits 0 (c :: cs) := by
  unfold parseUsize
  split
  · rename_i e; exact absurd e (by simp)
  · rename_i e; exact absurd (List.cons.inj e).1 h
  · rename_i e; obtain ⟨rfl, rfl⟩ := List.cons.inj e; decide
  · rename_i e; exact absurd (List.cons.inj e).1 h
  · rfl

/-- **C97** (ids of views, reading): a text is read as an id just if it is a number, perhaps with a plus, after any
number of prefixes, and the number is below `2^64`. -/
theorem C97_view_id_read (s : String) (n : Nat) :
    viewIdOf (.str s) = some n ↔ NamesView s.toList n ∧ n < 2 ^ 64 := by
  constructor
  · intro h
    simp only [viewIdOf] at h
    obtain ⟨k, hk⟩ := trimPrefix_spec s.toList
    cases ht : trimPrefix s.toList with
    | nil => rw [ht] at h; exact absurd h (by simp [parseUsize])
    | cons c cs =>
      rw [ht] at h hk
      by_cases hc : c = '+'
      · subst hc
        cases cs with
        | nil => exact absurd h (by simp [parseUsize])
        | cons d ds =>
          rw [parseUsize_plus (by simp)] at h
          obtain ⟨h1, h2⟩ := numeral_of_parse (by simp) h
          exact ⟨⟨k, true, d :: ds, hk, h1⟩, h2⟩
      · rw [parseUsize_plain hc] at h
        obtain ⟨h1, h2⟩ := numeral_of_parse (by simp) h
        exact ⟨⟨k, false, c :: cs, hk, h1⟩, h2⟩
  · rintro ⟨⟨k, plus, ds, hs, hd⟩, hn⟩
    have hds := numeral_digits hd
    simp only [viewIdOf]
    rw [hs]
    show parseUsize (trimPrefix ((List.replicate k idPrefix).flatten ++ _)) = _
    rw [trimPrefix_number k hds]
    cases plus with
    | true =>
      show parseUsize ('+' :: ds) = _
      rw [parseUsize_plus hds.1]
      exact parseDigits_numeral hd hn
    | false =>
      show parseUsize ds = _
      cases ds with
      | nil => exact absurd rfl hds.1
      | cons c cs =>
        rw [parseUsize_plain]
        · exact parseDigits_numeral hd hn
        · rintro rfl
          exact absurd (hds.2 '+' (by simp)) (by decide)

/-- **C97** (ids of views): an id is written as the prefix and its number, and is read back. -/
theorem C97_view_id (n : Nat) (h : n < 2 ^ 64) :
    (∃ ds, viewIdJson n = .str (String.ofList ("view-id-".toList ++ ds)) ∧ Numeral ds n) ∧ viewIdOf (viewIdJson n) = some n := by
  refine ⟨⟨_, rfl, numeral_toDigits n⟩, ?_⟩
  rw [viewIdJson, C97_view_id_read]
  refine ⟨⟨1, false, Nat.toDigits 10 n, ?_, numeral_toDigits n⟩, h⟩
  rw [String.toList_ofList]
  rfl

example : viewIdJson 17 = .str "view-id-17" ∧ viewIdOf (.str "view-id-17") = some 17 := by
  refine ⟨by rw [viewIdJson]; congr, ?_⟩
  rw [C97_view_id_read]
  exact ⟨⟨1, false, ['1', '7'], by decide, .more ['1'] 1 (.one 1 (by omega)) 7 (by omega)⟩, by omega⟩

/-- Not only what is written for an id is read as the id. -/
theorem C97_view_id_refuted :
    ∃ s t : String, s ≠ t ∧ viewIdOf (.str s) = some 3 ∧ viewIdOf (.str t) = some 3 ∧ viewIdOf (.str "view-id-+3") = some 3 := by
  refine ⟨"view-id-view-id-3", "03", by decide, ?_, ?_, ?_⟩
  · exact (C97_view_id_read _ _).mpr ⟨⟨2, false, ['3'], by decide, .one 3 (by omega)⟩, by omega⟩
  · exact (C97_view_id_read _ _).mpr ⟨⟨0, false, ['0', '3'], by decide, .more ['0'] 0 (.one 0 (by omega)) 3 (by omega)⟩, by omega⟩
  · exact (C97_view_id_read _ _).mpr ⟨⟨1, true, ['3'], by decide, .one 3 (by omega)⟩, by omega⟩

/-! ## Commands for a view -/

theorem lookup_setKey (key k : String) (v : Json) (f : List (String × Json)) :
    (setKey key v f).lookup k = if k = key then some v else f.lookup k := by
  induction f with
  | nil =>
    simp only [setKey, List.lookup_cons, List.lookup_nil]
    by_cases h : k = key
    · simp [h]
    · have hb : (k == key) = false := by simpa using h
      simp only [hb, if_neg h]
  | cons a f ih =>
    obtain ⟨a, w⟩ := a
    simp only [setKey]
    split
    · rename_i e
      subst e
      simp only [List.lookup_cons]
      by_cases h : k = a
      · simp [h]
      · have hb : (k == a) = false := by simpa using h
        simp only [hb, if_neg h]
    · rename_i e
      simp only [List.lookup_cons, ih]
      by_cases h : k = a
      · subst h; simp [e]
      · have hb : (k == a) = false := by simpa using h
        simp only [hb]

/-- **C97** (commands for a view): if a command is read back, and is written as an object whose `params`, if there
are any, are an object or an array, then it is read back together with the id of the view. -/
theorem C97_edit_partial {τ : Type} (write : τ → Json) (read : Json → Option (Option τ)) (hr : ByMethod read)
    (c : EditCommand τ) (hid : c.viewId < 2 ^ 64) (f : List (String × Json)) (hw : write c.cmd = .obj f)
    (hp : ∀ p, f.lookup "params" = some p → (∃ q, p = .obj q) ∨ (∃ q, p = .arr q))
    (hback : read (write c.cmd) = some (some c.cmd)) :
    (editJson write c).map (editOf read) = some (some (some c)) := by
  obtain ⟨id, cmd⟩ := c
  dsimp only at hid hw hback
  rw [hw] at hback
  simp only [editJson, hw, setField, Option.map_some, Option.some.injEq]
  have hread : read (.obj (setKey "view_id" (viewIdJson id) f)) = some (some cmd) := by
    rw [← hback]
    apply hr
    · rw [lookup_setKey, if_neg (by decide)]
    · rw [lookup_setKey, if_neg (by decide)]
  have hinner : innerId (.obj (setKey "view_id" (viewIdJson id) f)) = some id := by
    simp only [innerId, lookup_setKey, if_true, Option.bind_some]
    exact (C97_view_id id hid).2
  have hmust : mustRemove read (.obj (setKey "view_id" (viewIdJson id) f)) = some (some false) := by
    have hget : (Json.obj (setKey "view_id" (viewIdJson id) f)).get "params" = f.lookup "params" := by
      show (setKey _ _ f).lookup "params" = _
      rw [lookup_setKey, if_neg (by decide)]
    unfold mustRemove
    rw [hget]
    cases hl : f.lookup "params" with
    | none => rfl
    | some p =>
      rcases hp p hl with ⟨q, rfl⟩ | ⟨q, rfl⟩
      · dsimp only
        split
        · rw [hread]; rfl
        · rfl
      · dsimp only
        split
        · rw [hread]; rfl
        · rfl
  simp only [editOf, hinner, hmust, Bool.false_eq_true, if_false, hread, Option.map_some]

/-- **C97** (commands for a view, empty parameters): a command that is read without parameters is also read with
empty ones, unless the command with empty parameters is another one. -/
theorem C97_edit_empty {τ : Type} (read : Json → Option (Option τ)) (f : List (String × Json)) (id : Nat)
    (hid : (f.lookup "view_id").bind viewIdOf = some id)
    (hp : f.lookup "params" = some (.obj []) ∨ f.lookup "params" = some (.arr []))
    (cmd : τ) (r : Option τ) (h0 : read (.obj f) = some r)
    (h : read (.obj (f.filter fun x => x.1 ≠ "params")) = some (some cmd)) :
    editOf read (.obj f) = some (some ⟨id, r.getD cmd⟩) := by
  have hmust : mustRemove read (.obj f) = some (some r.isNone) := by
    unfold mustRemove
    show (match f.lookup "params" with
      | some (.obj fields) => _
      | some (.arr xs) => _
      | some _ => _
      | none => _) = _
    rcases hp with hp | hp <;> rw [hp] <;> simp [h0]
  have hinner : innerId (.obj f) = some id := hid
  simp only [editOf, hinner, hmust]
  cases r with
  | none =>
    simp only [Option.isNone_none, if_true, removeParams, h, Option.map_some, Option.getD_none]
  | some x => simp only [Option.isNone_some, Bool.false_eq_true, if_false, h0, Option.map_some, Option.getD_some]

/-- **C97** (commands for a view): nothing is read without an id. -/
theorem C97_edit_no_id {τ : Type} (read : Json → Option (Option τ)) (f : List (String × Json))
    (h : ∀ s, f.lookup "view_id" = some (.str s) → ∀ n, ¬ NamesView s.toList n) : editOf read (.obj f) = some none := by
  have : innerId (.obj f) = none := by
    simp only [innerId]
    cases hl : f.lookup "view_id" with
    | none => rfl
    | some v =>
      rw [Option.bind_some]
      cases v with
      | str s =>
        cases hv : viewIdOf (.str s) with
        | none => rfl
        | some n => exact absurd ((C97_view_id_read s n).mp hv).1 (h s hl n)
      | _ => rfl
  simp only [editOf, this]

/-- **C97** (commands of plugins): if a command is read back, takes its parameters by their names, and is written as
an object with an object of parameters, where `view_id` and `plugin_id` do not count, then it is read back
together with the two ids. -/
theorem C97_plugin_partial {τ : Type} (write : τ → Json) (read : Json → Option (Option τ)) (hr : ByName read)
    (c : PluginCommand τ) (hid : c.viewId < 2 ^ 64) (f p : List (String × Json)) (hw : write c.cmd = .obj f)
    (hp : f.lookup "params" = some (.obj p)) (hback : read (write c.cmd) = some (some c.cmd)) :
    (pluginJson write c).map (pluginOf read) = some (some (some c)) := by
  obtain ⟨id, plugin, cmd⟩ := c
  dsimp only at hid hw hback
  rw [hw] at hback
  have hjson : pluginJson write ⟨id, plugin, cmd⟩ = some (.obj (setKey "params"
      (.obj (setKey "plugin_id" (.nat plugin) (setKey "view_id" (viewIdJson id) p)))
      (setKey "params" (.obj (setKey "view_id" (viewIdJson id) p)) f))) := by
    simp only [pluginJson, hw, setParam, hp, Option.getD_some, setField, Option.map_some, Option.bind_eq_bind,
      Option.bind_some, lookup_setKey, if_true]
  rw [hjson]
  simp only [Option.map_some, Option.some.injEq, pluginOf, idsWrapper, innerIds, lookup_setKey, if_true,
    Option.bind_some, (by decide : ("view_id" : String) ≠ "plugin_id"), if_false, (C97_view_id id hid).2, Json.asU64,
    Option.bind_eq_bind]
  have hread : read (.obj (setKey "params"
      (.obj (setKey "plugin_id" (.nat plugin) (setKey "view_id" (viewIdJson id) p)))
      (setKey "params" (.obj (setKey "view_id" (viewIdJson id) p)) f))) = some (some cmd) := by
    rw [← hback]
    apply hr (q := p)
    · rw [lookup_setKey, if_neg (by decide), lookup_setKey, if_neg (by decide)]
    · rw [lookup_setKey, if_pos rfl]
    · exact hp
    · intro key h1 h2
      rw [lookup_setKey, if_neg h2, lookup_setKey, if_neg h1]
  show (read _).map _ = _
  rw [hread]
  rfl

/-- A command of a plugin whose parameters are an array cannot be written: the writer panics. -/
theorem C97_plugin_array_refuted {τ : Type} (write : τ → Json) (c : PluginCommand τ) (f : List (String × Json))
    (hw : write c.cmd = .obj f) (xs : List Json) (h : f.lookup "params" = some (.arr xs)) : pluginJson write c = none := by
  simp only [pluginJson, hw, setParam, h, Option.getD_some, setField, Option.map_none, Option.bind_eq_bind, Option.bind_none]

/-! ## Places -/

theorem readAll_nat (ns : List Nat) : readAll Json.asU64 (ns.map Json.nat) = some ns := by
  induction ns with
  | nil => rfl
  | cons n ns ih => simp [readAll, Json.asU64, ih]

theorem readAll_nat_some {js : List Json} {ns : List Nat} (h : readAll Json.asU64 js = some ns) : js = ns.map Json.nat := by
  induction js generalizing ns with
  | nil => simp only [readAll, Option.some.injEq] at h; subst h; rfl
  | cons j js ih =>
    simp only [readAll, Option.bind_eq_bind, Option.bind_eq_some_iff] at h
    obtain ⟨n, hn, ms, hm, h⟩ := h
    simp only [Option.pure_def, Option.some.injEq] at h
    subst h
    cases j with
    | nat k =>
      simp only [Json.asU64, Option.some.injEq] at hn
      subst hn
      rw [ih hm]
      rfl
    | _ => exact absurd hn (by simp [Json.asU64])

/-- **C97** (mouse): an action with a number of clicks is read back. -/
theorem C97_mouse_partial (m : MouseAction) (h : m.clickCount ≠ none) : mouseOf (mouseJson m) = some (some m) := by
  obtain ⟨l, c, fl, n⟩ := m
  cases n with
  | none => exact absurd rfl h
  | some n => rfl

/-- An action without a number of clicks is written, but then it cannot be read. -/
theorem C97_mouse_refuted (m : MouseAction) (h : m.clickCount = none) : mouseOf (mouseJson m) = some none := by
  obtain ⟨l, c, fl, n⟩ := m
  dsimp only at h
  subst h
  rfl

/-- **C97** (mouse, reading): what arrays of numbers are read as. -/
theorem C97_mouse_read (l c fl n : Nat) (rest : List Nat) :
    mouseOf (.arr [.nat l, .nat c, .nat fl]) = some (some ⟨l, c, fl, none⟩) ∧
    mouseOf (.arr [.nat l, .nat c, .nat fl, .nat n]) = some (some ⟨l, c, fl, some n⟩) ∧
    (rest ≠ [] → mouseOf (.arr (.nat l :: .nat c :: .nat fl :: .nat n :: rest.map Json.nat)) = some (some ⟨l, c, fl, none⟩)) := by
  refine ⟨rfl, rfl, fun hrest => ?_⟩
  have h := readAll_nat (l :: c :: fl :: n :: rest)
  simp only [List.map_cons] at h
  simp only [mouseOf, h]
  have hl : (l :: c :: fl :: n :: rest).length ≠ 4 := by
    have := List.length_pos_iff.mpr hrest
    simp only [List.length_cons]
    omega
  rw [if_neg hl]
  rfl

/-- Reading an action panics just for arrays of fewer than three numbers. -/
theorem C97_mouse_panic_refuted (v : Json) :
    mouseOf v = none ↔ ∃ ns : List Nat, ns.length < 3 ∧ v = .arr (ns.map Json.nat) := by
  constructor
  · intro h
    cases v with
    | arr js =>
      simp only [mouseOf] at h
      cases hr : readAll Json.asU64 js with
      | none => rw [hr] at h; exact absurd h (by simp)
      | some ns =>
        rw [hr] at h
        refine ⟨ns, ?_, by rw [readAll_nat_some hr]⟩
        match ns, h with
        | [], _ => simp
        | [_], _ => simp
        | [_, _], _ => simp
        | _ :: _ :: _ :: _, h => exact absurd h (by simp)
    | _ => exact absurd h (by simp [mouseOf])
  · rintro ⟨ns, hl, rfl⟩
    simp only [mouseOf, readAll_nat]
    match ns, hl with
    | [], _ => rfl
    | [_], _ => rfl
    | [_, _], _ => rfl
    | _ :: _ :: _ :: _, hl => simp only [List.length_cons] at hl; omega

theorem asI64_ofI64 {i : Int} (h : -(2 ^ 63) ≤ i ∧ i < 2 ^ 63) : (Json.ofI64 i).asI64 = some i := by
  simp only [Json.ofI64]
  split
  · simp only [Json.asI64]
    rw [if_pos (by omega)]
    congr 1
    omega
  · simp only [Json.asI64]
    rw [if_pos (by omega)]
    congr 1
    omega

theorem asI64_some {j : Json} {i : Int} (h : j.asI64 = some i) : j = .ofI64 i ∧ -(2 ^ 63) ≤ i ∧ i < 2 ^ 63 := by
  cases j with
  | nat n =>
    simp only [Json.asI64] at h
    split at h
    · injection h with h
      subst h
      refine ⟨?_, by omega, by omega⟩
      rw [Json.ofI64, if_pos (by omega)]
      rfl
    · exact absurd h (by simp)
  | neg n =>
    simp only [Json.asI64] at h
    split at h
    · injection h with h
      subst h
      refine ⟨?_, by omega, by omega⟩
      rw [Json.ofI64, if_neg (by omega)]
      congr 1
      omega
    · exact absurd h (by simp)
  | _ => exact absurd h (by simp [Json.asI64])

/-- **C97** (ranges of lines): just what is written for a range is read as the range. -/
theorem C97_line_range (v : Json) (r : LineRange) :
    lineRangeOf v = some r ↔
      v = lineRangeJson r ∧ (-(2 ^ 63) ≤ r.first ∧ r.first < 2 ^ 63) ∧ -(2 ^ 63) ≤ r.last ∧ r.last < 2 ^ 63 := by
  obtain ⟨a, b⟩ := r
  constructor
  · intro h
    match v, h with
    | .arr [x, y], h =>
      simp only [lineRangeOf, Option.bind_eq_bind, Option.bind_eq_some_iff, Option.pure_def, Option.some.injEq,
        LineRange.mk.injEq] at h
      obtain ⟨i, hi, k, hk, rfl, rfl⟩ := h
      obtain ⟨rfl, h1⟩ := asI64_some hi
      obtain ⟨rfl, h2⟩ := asI64_some hk
      exact ⟨rfl, h1, h2⟩
    | .null, h | .bool _, h | .nat _, h | .neg _, h | .float, h | .str _, h | .obj _, h => exact absurd h (by simp [lineRangeOf])
    | .arr [], h | .arr [_], h | .arr (_ :: _ :: _ :: _), h => exact absurd h (by simp [lineRangeOf])
  · rintro ⟨rfl, h1, h2⟩
    simp only [lineRangeOf, lineRangeJson, asI64_ofI64 h1, asI64_ofI64 h2]
    rfl

theorem asU64_some {j : Json} {n : Nat} (h : j.asU64 = some n) : j = .nat n := by
  cases j with
  | nat k => simp only [Json.asU64, Option.some.injEq] at h; rw [h]
  | _ => exact absurd h (by simp [Json.asU64])

/-- **C97** (ranges of annotations): just what is written for a range is read as the range. -/
theorem C97_annotation_range (v : Json) (r : AnnotationRange) :
    annotationRangeOf v = some r ↔ v = annotationRangeJson r := by
  obtain ⟨a, b, c, d⟩ := r
  constructor
  · intro h
    match v, h with
    | .arr [x, y, z, w], h =>
      simp only [annotationRangeOf, Option.bind_eq_bind, Option.bind_eq_some_iff, Option.pure_def, Option.some.injEq,
        AnnotationRange.mk.injEq] at h
      obtain ⟨x', hx, y', hy, z', hz, w', hw, rfl, rfl, rfl, rfl⟩ := h
      rw [asU64_some hx, asU64_some hy, asU64_some hz, asU64_some hw]
      rfl
    | .null, h | .bool _, h | .nat _, h | .neg _, h | .float, h | .str _, h | .obj _, h => exact absurd h (by simp [annotationRangeOf])
    | .arr [], h | .arr [_], h | .arr [_, _], h | .arr [_, _, _], h | .arr (_ :: _ :: _ :: _ :: _ :: _), h =>
      exact absurd h (by simp [annotationRangeOf])
  · rintro rfl
    rfl

/-! ## Notifications -/

theorem byMethod_notification : ByMethod notificationOf := by
  intro f g h1 h2
  simp only [notificationOf, h1, h2]

/-- **C97** (notifications): a command for a view is read back, if the mouse has a number of clicks. -/
theorem C97_notification_partial (c : EditCommand EditNotification) (hid : c.viewId < 2 ^ 64)
    (hr : ∀ r, c.cmd = .scroll r → (-(2 ^ 63) ≤ r.first ∧ r.first < 2 ^ 63) ∧ -(2 ^ 63) ≤ r.last ∧ r.last < 2 ^ 63)
    (hm : ∀ m, c.cmd = .click m → m.clickCount ≠ none) :
    (editJson notificationJson c).map (editOf notificationOf) = some (some (some c)) := by
  obtain ⟨id, cmd⟩ := c
  cases cmd with
  | undo =>
    refine C97_edit_partial _ _ byMethod_notification _ hid _ rfl (fun p h => by cases h) rfl
  | scroll r =>
    refine C97_edit_partial _ _ byMethod_notification _ hid _ rfl
      (fun p h => .inr ⟨_, (Option.some.inj h).symm⟩) ?_
    have := (C97_line_range _ r).mpr ⟨rfl, hr r rfl⟩
    show some (((some (lineRangeJson r)).bind lineRangeOf).map _) = _
    rw [Option.bind_some, this]
    rfl
  | gotoLine n =>
    exact C97_edit_partial _ _ byMethod_notification _ hid _ rfl (fun p h => .inl ⟨_, (Option.some.inj h).symm⟩) rfl
  | click m =>
    refine C97_edit_partial _ _ byMethod_notification _ hid _ rfl
      (fun p h => .inr ⟨_, (Option.some.inj h).symm⟩) ?_
    show (mouseOf (mouseJson m)).map _ = _
    rw [C97_mouse_partial m (hm m rfl)]
    rfl

example : (editJson notificationJson ⟨3, .click ⟨10, 2, 0, some 1⟩⟩).map (editOf notificationOf) =
    some (some (some ⟨3, .click ⟨10, 2, 0, some 1⟩⟩)) :=
  C97_notification_partial _ (by decide) (fun r h => by cases h) (fun m h => by cases h; simp)

/-- **C97** (notifications): one without parameters may come with empty ones. -/
theorem C97_undo_empty (id : Nat) (hid : id < 2 ^ 64) (p : Json) (hp : p = .obj [] ∨ p = .arr []) :
    editOf notificationOf (.obj [("method", .str "undo"), ("view_id", viewIdJson id), ("params", p)]) =
      some (some ⟨id, .undo⟩) := by
  refine C97_edit_empty notificationOf _ id ?_ ?_ .undo none ?_ rfl
  · exact (C97_view_id id hid).2
  · rcases hp with rfl | rfl
    · exact .inl rfl
    · exact .inr rfl
  · rcases hp with rfl | rfl <;> rfl

/-- A click with fewer than three numbers ends the core. -/
theorem C97_click_refuted (id : Nat) (hid : id < 2 ^ 64) (ns : List Nat) (h : ns.length < 3) :
    editOf notificationOf (.obj [("method", .str "click"), ("view_id", viewIdJson id), ("params", .arr (ns.map Json.nat))]) =
      none := by
  have hin : innerId (.obj [("method", .str "click"), ("view_id", viewIdJson id), ("params", .arr (ns.map Json.nat))]) = some id :=
    (C97_view_id id hid).2
  have hread : notificationOf (.obj [("method", .str "click"), ("view_id", viewIdJson id), ("params", .arr (ns.map Json.nat))]) =
      none := by
    show (mouseOf (.arr (ns.map Json.nat))).map _ = none
    rw [(C97_mouse_panic_refuted _).mpr ⟨ns, h, rfl⟩]
    rfl
  unfold editOf
  rw [hin]
  dsimp only
  cases hm : mustRemove notificationOf
      (.obj [("method", .str "click"), ("view_id", viewIdJson id), ("params", .arr (ns.map Json.nat))]) with
  | none => rfl
  | some b =>
    have : (Json.obj [("method", .str "click"), ("view_id", viewIdJson id), ("params", .arr (ns.map Json.nat))]).get "params" =
        some (.arr (ns.map Json.nat)) := rfl
    unfold mustRemove at hm
    rw [this] at hm
    dsimp only at hm
    split at hm
    · rw [hread] at hm; exact absurd hm (by simp)
    · injection hm with hm
      subst hm
      simp only [Bool.false_eq_true, if_false, hread]
      rfl

/-- A command of a plugin: the text of a view from some offset, as `PluginRequest::GetData` with two of its fields,
plugins/rpc.rs:180.  An example for the hypotheses of `C97_plugin_partial`. -/
def dataRead : Json → Option (Option (Nat × Nat))
  | .obj fields =>
    if (fields.lookup "method").bind Json.asStr = some "get_data" then
      match fields.lookup "params" with
      | some (.obj p) => some do
        let start ← (p.lookup "start").bind Json.asU64
        let size ← (p.lookup "max_size").bind Json.asU64
        return (start, size)
      | _ => some none
    else some none
  | _ => some none

example : (pluginJson (fun x : Nat × Nat => .obj [("method", .str "get_data"), ("params", .obj [("start", .nat x.1), ("max_size", .nat x.2)])])
    ⟨3, 7, (10, 20)⟩).map (pluginOf dataRead) = some (some (some ⟨3, 7, (10, 20)⟩)) := by
  refine C97_plugin_partial _ _ ?_ _ (by decide) _ [("start", .nat 10), ("max_size", .nat 20)] rfl rfl rfl
  intro f g p q h1 h2 h3 h4
  simp only [dataRead, h1, h2, h3, h4 "start" (by decide) (by decide), h4 "max_size" (by decide) (by decide)]

/-! ## Edits -/

theorem elementOf_json (e : DeltaElement Char) : elementOf (elementJson e) = some e := by
  cases e with
  | copy b e => rfl
  | insert s =>
    simp only [elementJson, elementOf]
    rw [if_neg (by decide), if_pos trivial]
    simp only [Json.asStr, Option.map_some, String.toList_ofList]

/-- **C97** (edits): an edit is read back. -/
theorem C97_delta (d : Delta Char) : deltaOf (deltaJson d) = some d := by
  obtain ⟨els, n⟩ := d
  have h : readAll elementOf (els.map elementJson) = some els := by
    induction els with
    | nil => rfl
    | cons e els ih => simp [readAll, elementOf_json, ih]
  have h1 : ∀ a b : Json, List.lookup "els" [("els", a), ("base_len", b)] = some a := fun _ _ => rfl
  have h2 : ∀ a b : Json, List.lookup "base_len" [("els", a), ("base_len", b)] = some b := fun _ _ => rfl
  simp only [deltaJson, deltaOf, h1, h2, Option.bind_some, elementsOf, h, Json.asU64]
  rfl

example : deltaOf (deltaJson ⟨[.copy 0 3, .insert ['x', 'é'], .copy 5 9], 9⟩) =
    some ⟨[.copy 0 3, .insert ['x', 'é'], .copy 5 9], 9⟩ := C97_delta _

/-- What is read need not be an edit of anything: there are texts of the right length it cannot be applied to. -/
theorem C97_delta_refuted :
    ∃ v d, deltaOf v = some d ∧ ∀ s : List Char, s.length = d.baseLen → d.apply s = none := by
  refine ⟨deltaJson ⟨[.copy 0 7], 4⟩, _, C97_delta _, fun s hs => ?_⟩
  dsimp only at hs
  have h : slice s 0 7 = none := by
    unfold slice
    rw [if_neg (by omega)]
  simp only [Delta.apply, List.foldlM_cons, Delta.applyEl, Option.bind_eq_bind, h, Option.bind_none]

/-! ## Samples of the tracer -/

theorem splitCommas_ne (s : List Char) : splitCommas s ≠ [] := by
  cases s with
  | nil => simp [splitCommas]
  | cons c s =>
    simp only [splitCommas]
    split
    · simp
    · split <;> simp

theorem splitCommas_commas (s : List Char) : ∀ w ∈ splitCommas s, ',' ∉ w := by
  induction s with
  | nil => simp [splitCommas]
  | cons c s ih =>
    simp only [splitCommas]
    split
    · intro w hw
      rcases List.mem_cons.mp hw with rfl | hw
      · simp
      · exact ih w hw
    · rename_i hc
      cases hs : splitCommas s with
      | nil => exact absurd hs (splitCommas_ne s)
      | cons v vs =>
        rw [hs] at ih
        intro w hw
        rcases List.mem_cons.mp hw with rfl | hw
        · intro h
          rcases List.mem_cons.mp h with h | h
          · exact hc h.symm
          · exact ih v (by simp) h
        · exact ih w (by simp [hw])

theorem splitCommas_word {w : List Char} (h : ',' ∉ w) : splitCommas w = [w] := by
  induction w with
  | nil => rfl
  | cons c w ih =>
    rw [List.mem_cons, not_or] at h
    simp only [splitCommas]
    rw [if_neg (fun e => h.1 e.symm), ih h.2]

theorem splitCommas_cons {w : List Char} (h : ',' ∉ w) (s : List Char) :
    splitCommas (w ++ ',' :: s) = w :: splitCommas s := by
  induction w with
  | nil => simp [splitCommas]
  | cons c w ih =>
    rw [List.mem_cons, not_or] at h
    simp only [List.cons_append, splitCommas]
    rw [if_neg (fun e => h.1 e.symm), ih h.2]

theorem splitCommas_join {cs : List (List Char)} (hne : cs ≠ []) (h : ∀ c ∈ cs, ',' ∉ c) :
    splitCommas (joinCommas cs) = cs := by
  induction cs with
  | nil => exact absurd rfl hne
  | cons c cs ih =>
    cases cs with
    | nil => exact splitCommas_word (h c (by simp))
    | cons d cs =>
      show splitCommas (c ++ ',' :: joinCommas (d :: cs)) = _
      rw [splitCommas_cons (h c (by simp)), ih (by simp) (fun x hx => h x (by simp [hx]))]

/-- **C97** (categories): categories are read back just if there are any and none has a comma. -/
theorem C97_categories_refuted (cs : List (List Char)) :
    categoriesOf (categoriesJson cs) = some cs ↔ cs ≠ [] ∧ ∀ c ∈ cs, ',' ∉ c := by
  simp only [categoriesOf, categoriesJson, String.toList_ofList, Option.some.injEq]
  constructor
  · intro h
    exact ⟨by rw [← h]; exact splitCommas_ne _, by rw [← h]; exact splitCommas_commas _⟩
  · exact fun h => splitCommas_join h.1 h.2

example : categoriesOf (categoriesJson ["rpc".toList, "core".toList]) = some ["rpc".toList, "core".toList] :=
  (C97_categories_refuted _).mpr (by decide)
example : categoriesOf (categoriesJson []) ≠ some [] := fun h => ((C97_categories_refuted _).mp h).1 rfl

/-- **C97** (types of events): each is read back; reading another character panics, and another text is an error. -/
theorem C97_event_type (e : EventType) : eventTypeOf (.str (String.ofList [e.chromeId])) = some (some e) := by
  simp only [eventTypeOf, String.toList_ofList]
  cases e <;> rfl

theorem C97_event_type_refuted (c : Char) (h : ∀ e : EventType, e.chromeId ≠ c) :
    eventTypeOf (.str (String.ofList [c])) = none := by
  simp only [eventTypeOf, String.toList_ofList, Option.map_eq_none_iff]
  have h1 : ∀ e : EventType, ¬ c = e.chromeId := fun e he => h e he.symm
  unfold EventType.ofChromeId
  rw [if_neg (show ¬ c = 'B' from h1 .durationBegin),
    if_neg (show ¬ c = 'E' from h1 .durationEnd),
    if_neg (show ¬ c = 'X' from h1 .completeDuration),
    if_neg (show ¬ c = 'i' from h1 .instant),
    if_neg (show ¬ c = 'b' from h1 .asyncStart),
    if_neg (show ¬ c = 'n' from h1 .asyncInstant),
    if_neg (show ¬ c = 'e' from h1 .asyncEnd),
    if_neg (show ¬ c = 's' from h1 .flowStart),
    if_neg (show ¬ c = 't' from h1 .flowInstant),
    if_neg (show ¬ c = 'f' from h1 .flowEnd),
    if_neg (show ¬ c = 'N' from h1 .objectCreated),
    if_neg (show ¬ c = 'O' from h1 .objectSnapshot),
    if_neg (show ¬ c = 'D' from h1 .objectDestroyed),
    if_neg (show ¬ c = 'M' from h1 .metadata)]

example : eventTypeOf (.str (String.ofList ['I'])) = none := C97_event_type_refuted 'I' (fun e => by cases e <;> decide)

theorem readOption_none {α : Type} (read : Json → Option α) : readOption read none = some none := rfl
theorem readOption_str {α : Type} (read : Json → Option α) (s : String) :
    readOption read (some (.str s)) = (read (.str s)).map some := rfl
theorem readOption_nat {α : Type} (read : Json → Option α) (n : Nat) :
    readOption read (some (.nat n)) = (read (.nat n)).map some := rfl

theorem argsOf_json (a : SampleArgs) (h : ∀ i, a.sortIndex = some i → -(2 ^ 31) ≤ i ∧ i < 2 ^ 31) :
    argsOf (argsJson a) = some a := by
  obtain ⟨p, n, i⟩ := a
  have hi : ∀ k, i = some k → asI32 (Json.ofI64 k) = some k := by
    intro k hk
    have := h k hk
    simp only [asI32, asI64_ofI64 (i := k) (by omega)]
    rw [if_pos this]
  have hnull : ∀ k : Int, Json.ofI64 k ≠ .null := by
    intro k
    simp only [Json.ofI64]
    split <;> simp
  have hro : ∀ k, i = some k → readOption asI32 (some (Json.ofI64 k)) = some (some k) := by
    intro k hk
    rw [readOption, hi k hk]
    · rfl
    · exact hnull k
  cases p <;> cases n <;> cases i <;>
    simp [argsJson, optionalField, argsOf, List.lookup_cons, readOption_none, readOption_str, Json.asStr, hro]

/-- **C97** (samples): a sample is read back without the name of its thread, if its categories are. -/
theorem C97_sample_partial (s : Sample) (hc : ∀ cs, s.categories = some cs → cs ≠ [] ∧ ∀ c ∈ cs, ',' ∉ c)
    (ha : ∀ a i, s.args = some a → a.sortIndex = some i → -(2 ^ 31) ≤ i ∧ i < 2 ^ 31) :
    sampleOf (sampleJson s) = some (some { s with threadName := none }) := by
  obtain ⟨name, cats, ts, ph, dur, pid, tid, th, args⟩ := s
  have hcats : ∀ cs, cats = some cs → readOption categoriesOf (some (categoriesJson cs)) = some (some cs) := by
    intro cs e
    rw [readOption, (C97_categories_refuted cs).mpr (hc cs e)]
    · rfl
    · simp [categoriesJson]
  have hargs : ∀ a, args = some a → readOption argsOf (some (argsJson a)) = some (some a) := by
    intro a e
    rw [readOption, argsOf_json a (fun i => ha a i e)]
    · rfl
    · simp [argsJson]
  have hph : eventTypeOf (.str (String.singleton ph.chromeId)) = some (some ph) := by
    simpa using C97_event_type ph
  cases cats <;> cases dur <;> cases args <;>
    simp [sampleJson, optionalField, sampleOf, List.lookup_cons, hph, hcats, hargs, Json.asStr, Json.asU64, readOption_none, readOption_nat]

/-- The name of the thread is lost. -/
theorem C97_sample_refuted (s : Sample) (h : s.threadName ≠ none)
    (hc : ∀ cs, s.categories = some cs → cs ≠ [] ∧ ∀ c ∈ cs, ',' ∉ c)
    (ha : ∀ a i, s.args = some a → a.sortIndex = some i → -(2 ^ 31) ≤ i ∧ i < 2 ^ 31) :
    sampleOf (sampleJson s) ≠ some (some s) := by
  rw [C97_sample_partial s hc ha]
  intro e
  injection e with e
  injection e with e
  exact h (congrArg Sample.threadName e).symm

end Wire

end Xi
