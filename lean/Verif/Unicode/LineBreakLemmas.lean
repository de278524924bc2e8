import Verif.Unicode.LineBreak
import Verif.Rope.FindLemmas

/-!
# Lemmas on the line breaking tables
-/

namespace Xi

namespace Unicode

open Find

/-- The entries of a row have the property; `i` is the index of the first, `k` counts down. -/
def rowAll (width : Nat) (p : Nat → Nat → Bool) (row : Nat) (i : Nat) : Nat → Bool
  | 0 => true
  | k + 1 => p (i + k) ((row >>> (8 * (width - 1 - k))) % 256) && rowAll width p row i k

/-- All entries of a table have the property. -/
def rowsAll (width : Nat) (p : Nat → Nat → Bool) : List Nat → Nat → Bool
  | [], _ => true
  | row :: rows, i => rowAll width p row i width && rowsAll width p rows (i + width)

/-- What `rowAll` says. -/
theorem rowAll_spec {width : Nat} {p : Nat → Nat → Bool} {row i : Nat} : ∀ {n k : Nat}, rowAll width p row i n = true → k < n →
    p (i + k) ((row >>> (8 * (width - 1 - k))) % 256) = true := by
  intro n
  induction n with
  | zero => intro k _ h; omega
  | succ n ih =>
    intro k h hk
    simp only [rowAll, Bool.and_eq_true] at h
    by_cases e : k = n
    · subst e; exact h.1
    · exact ih h.2 (by omega)

/-- What `rowsAll` says. -/
theorem rowsAll_spec {width : Nat} {p : Nat → Nat → Bool} : ∀ {rows : List Nat} {i r k row : Nat}, rowsAll width p rows i = true →
    rows[r]? = some row → k < width → p (i + r * width + k) ((row >>> (8 * (width - 1 - k))) % 256) = true := by
  intro rows
  induction rows with
  | nil => intro i r k row _ h; simp at h
  | cons x rows ih =>
    intro i r k row h hr hk
    simp only [rowsAll, Bool.and_eq_true] at h
    cases r with
    | zero => simp at hr; subst hr; simpa using rowAll_spec h.1 hk
    | succ r =>
      have := ih h.2 (by simpa using hr) hk
      rw [show i + (r + 1) * width + k = i + width + r * width + k by rw [Nat.add_mul]; omega]
      exact this

/-- What `rowsAll` says of reading. -/
theorem tableGet_of_all {width : Nat} (hw : 0 < width) {p : Nat → Nat → Bool} {rows : List Nat} (h : rowsAll width p rows 0 = true) {i v : Nat}
    (hv : tableGet width rows i = some v) : p i v = true := by
  unfold tableGet at hv
  rw [Option.map_eq_some_iff] at hv
  obtain ⟨row, hr, rfl⟩ := hv
  have := rowsAll_spec h hr (Nat.mod_lt i hw)
  rw [Nat.zero_add, Nat.mul_comm, Nat.div_add_mod] at this
  exact this

/-- Reading inside of the table succeeds. -/
theorem tableGet_isSome {width : Nat} (hw : 0 < width) {rows : List Nat} {i : Nat} (h : i < width * rows.length) :
    ∃ v, tableGet width rows i = some v := by
  unfold tableGet
  have : i / width < rows.length := Nat.div_lt_of_lt_mul h
  rw [List.getElem?_eq_getElem this]
  exact ⟨_, rfl⟩

/-- Reading with a property of all entries. -/
theorem tableGet_all {width : Nat} (hw : 0 < width) {p : Nat → Nat → Bool} {rows : List Nat} (h : rowsAll width p rows 0 = true) {i : Nat}
    (hi : i < width * rows.length) : ∃ v, tableGet width rows i = some v ∧ p i v = true := by
  obtain ⟨v, hv⟩ := tableGet_isSome hw hi
  exact ⟨v, hv, tableGet_of_all hw h hv⟩

theorem lb12_all : rowsAll 64 (fun _ v => Nat.blt v 43) lb12 0 = true := by decide +kernel

theorem lb3Root_all : rowsAll 64 (fun i v => Nat.blt i 32 || Nat.blt v 183) lb3Root 0 = true := by decide +kernel

theorem lb3Child_all : rowsAll 64 (fun _ v => Nat.blt v 43) lb3Child 0 = true := by decide +kernel

theorem lb4Root_all : rowsAll 16 (fun i v => Nat.blt i 16 || Nat.blt v 15) lb4Root 0 = true := by decide +kernel

theorem lb4Mid_all : rowsAll 64 (fun _ v => Nat.blt v 147) lb4Mid 0 = true := by decide +kernel

theorem lb4Leaves_all : rowsAll 64 (fun _ v => Nat.blt v 43) lb4Leaves 0 = true := by decide +kernel

/-- What the state machine does in a step: `none` if there is no break before the character,
otherwise whether the break is hard; and the state after. -/
theorem machine_all : rowsAll 43 (fun _ v => (Nat.blt v 89) || (Nat.ble 128 v && Nat.blt (v &&& 0x3f) 43)) lbStateMachine 0 = true := by
  decide +kernel

/-- Every character has a line breaking property. -/
theorem lbProperty_some (c : Char) : ∃ p, lbProperty c = some p ∧ p < 43 := by
  have hc : c.toNat < 0x110000 := char_bound c
  unfold lbProperty
  simp only
  split
  · rename_i h
    obtain ⟨v, hv, hp⟩ := tableGet_all (by decide) lb12_all (i := c.toNat) (by rw [show lb12.length = 32 from rfl]; omega)
    exact ⟨v, hv, Nat.blt_eq ▸ hp⟩
  · split
    · rename_i h1 h2
      have e1 : c.toNat >>> 6 = c.toNat / 64 := Nat.shiftRight_eq_div_pow _ 6
      have e2 : c.toNat &&& 0x3f = c.toNat % 64 := Nat.and_two_pow_sub_one_eq_mod c.toNat 6
      rw [e1, e2]
      obtain ⟨v, hv, hp⟩ := tableGet_all (by decide) lb3Root_all (i := c.toNat / 64) (by rw [show lb3Root.length = 16 from rfl]; omega)
      have hp' : v < 183 := by
        simp only [Bool.or_eq_true, Nat.blt_eq] at hp
        omega
      rw [hv]
      obtain ⟨w, hw, hp⟩ := tableGet_all (by decide) lb3Child_all (i := v * 0x40 + c.toNat % 64) (by rw [show lb3Child.length = 183 from rfl]; omega)
      exact ⟨w, hw, Nat.blt_eq ▸ hp⟩
    · rename_i h1 h2
      have e1 : c.toNat >>> 6 = c.toNat / 64 := Nat.shiftRight_eq_div_pow _ 6
      have e2 : ∀ x : Nat, x &&& 0x3f = x % 64 := fun x => Nat.and_two_pow_sub_one_eq_mod x 6
      have e3 : c.toNat >>> 12 = c.toNat / 4096 := Nat.shiftRight_eq_div_pow _ 12
      rw [e1, e2, e2, e3]
      obtain ⟨v, hv, hp⟩ := tableGet_all (by decide) lb4Root_all (i := c.toNat / 4096) (by rw [show lb4Root.length = 17 from rfl]; omega)
      have hp' : v < 15 := by
        simp only [Bool.or_eq_true, Nat.blt_eq] at hp
        omega
      rw [hv]
      obtain ⟨w, hw, hp⟩ := tableGet_all (by decide) lb4Mid_all (i := v * 0x40 + c.toNat / 64 % 64) (by rw [show lb4Mid.length = 15 from rfl]; omega)
      have hp' : w < 147 := Nat.blt_eq ▸ hp
      simp only [Option.bind_eq_bind, Option.bind_some]
      rw [hw]
      obtain ⟨x, hx, hp⟩ := tableGet_all (by decide) lb4Leaves_all (i := w * 0x40 + c.toNat % 64) (by rw [show lb4Leaves.length = 147 from rfl]; omega)
      exact ⟨x, hx, Nat.blt_eq ▸ hp⟩

/-- A byte of the text, by its place behind a known part. -/
theorem byteIx_append (a b : List UInt8) (k : Nat) : byteIx (a ++ b) (a.length + k) = byteIx b k := by
  unfold byteIx
  rw [List.getElem?_append_right (by omega)]
  congr 2; omega

/-- The subtraction does not underflow. -/
theorem subUsize_eq {a b c : Nat} (h : b ≤ a) (e : a - b = c) : subUsize a b = some c := by
  unfold subUsize; rw [if_pos h, e]

/-- Looking up the property in the text is looking it up for the character that stands there. -/
theorem lbPropertyStr_spec (a t : List UInt8) (c : Char) :
    lbPropertyStr (a ++ (String.utf8EncodeChar c ++ t)) a.length = (lbProperty c).map (fun p => (p, (String.utf8EncodeChar c).length)) := by
  have hc : c.toNat < 0x110000 := char_bound c
  have hb : ∀ k, byteIx (a ++ (String.utf8EncodeChar c ++ t)) (a.length + k) = byteIx (String.utf8EncodeChar c ++ t) k :=
    fun k => byteIx_append _ _ k
  have hb0 := hb 0
  rw [Nat.add_zero] at hb0
  have e1 : c.toNat >>> 6 = c.toNat / 64 := Nat.shiftRight_eq_div_pow _ 6
  have e2 : ∀ x : Nat, x &&& 0x3f = x % 64 := fun x => Nat.and_two_pow_sub_one_eq_mod x 6
  have e3 : c.toNat >>> 12 = c.toNat / 4096 := Nat.shiftRight_eq_div_pow _ 12
  have e4 : ∀ x : Nat, x <<< 6 = x * 64 := fun x => Nat.shiftLeft_eq x 6
  unfold lbPropertyStr lbProperty
  rw [hb0, hb 1, hb 2, hb 3]
  simp only [e1, e2, e3, e4]
  unfold String.utf8EncodeChar
  have hv : c.val.toNat = c.toNat := rfl
  rw [hv]
  by_cases h1 : c.toNat ≤ 127
  · have n1 : (UInt8.ofNat c.toNat).toNat = c.toNat := by rw [UInt8.toNat_ofNat']; omega
    simp only [h1, if_true, List.cons_append, List.nil_append, byteIx, List.getElem?_cons_zero, Option.map_some, n1,
      Option.bind_eq_bind, Option.bind_some, List.length_cons, List.length_nil]
    rw [if_pos (by omega), if_pos (by omega)]
    cases tableGet 64 lb12 c.toNat <;> rfl
  · by_cases h2 : c.toNat ≤ 2047
    · have n1 : (UInt8.ofNat (c.toNat / 64 % 32 + 192)).toNat = c.toNat / 64 % 32 + 192 := by rw [UInt8.toNat_ofNat']; omega
      have n2 : (UInt8.ofNat (c.toNat % 64 + 128)).toNat = c.toNat % 64 + 128 := by rw [UInt8.toNat_ofNat']; omega
      simp only [h1, h2, if_true, if_false, List.cons_append, List.nil_append, byteIx, List.getElem?_cons_zero, List.getElem?_cons_succ,
        Option.map_some, n1, n2, Option.bind_eq_bind, Option.bind_some, List.length_cons, List.length_nil]
      rw [if_neg (by omega), if_pos (by omega), if_pos (by omega)]
      have e : subUsize ((c.toNat / 64 % 32 + 192) * 64 + (c.toNat % 64 + 128)) 12416 = some c.toNat := subUsize_eq (by omega) (by omega)
      rw [e]
      simp only [Option.bind_some]
      cases tableGet 64 lb12 c.toNat <;> rfl
    · by_cases h3 : c.toNat ≤ 65535
      · have n1 : (UInt8.ofNat (c.toNat / 4096 % 16 + 224)).toNat = c.toNat / 4096 % 16 + 224 := by rw [UInt8.toNat_ofNat']; omega
        have n2 : (UInt8.ofNat (c.toNat / 64 % 64 + 128)).toNat = c.toNat / 64 % 64 + 128 := by rw [UInt8.toNat_ofNat']; omega
        have n3 : (UInt8.ofNat (c.toNat % 64 + 128)).toNat = c.toNat % 64 + 128 := by rw [UInt8.toNat_ofNat']; omega
        simp only [h1, h2, h3, if_true, if_false, List.cons_append, List.nil_append, byteIx, List.getElem?_cons_zero, List.getElem?_cons_succ,
          Option.map_some, n1, n2, n3, Option.bind_eq_bind, Option.bind_some, List.length_cons, List.length_nil]
        rw [if_neg (by omega), if_neg (by omega), if_pos (by omega), if_neg (by omega), if_pos (by omega)]
        have e : subUsize ((c.toNat / 4096 % 16 + 224) * 64 + (c.toNat / 64 % 64 + 128)) 14464 = some (c.toNat / 64) := subUsize_eq (by omega) (by omega)
        rw [e]
        simp only [Option.bind_some]
        cases tableGet 64 lb3Root (c.toNat / 64) with
        | none => rfl
        | some v =>
          simp only [Option.bind_some]
          have e : subUsize (v * 64 + (c.toNat % 64 + 128)) 128 = some (v * 64 + c.toNat % 64) := subUsize_eq (by omega) (by omega)
          rw [e]
          simp only [Option.bind_some]
          cases tableGet 64 lb3Child (v * 64 + c.toNat % 64) <;> rfl
      · have n1 : (UInt8.ofNat (c.toNat / 262144 % 8 + 240)).toNat = c.toNat / 262144 % 8 + 240 := by rw [UInt8.toNat_ofNat']; omega
        have n2 : (UInt8.ofNat (c.toNat / 4096 % 64 + 128)).toNat = c.toNat / 4096 % 64 + 128 := by rw [UInt8.toNat_ofNat']; omega
        have n3 : (UInt8.ofNat (c.toNat / 64 % 64 + 128)).toNat = c.toNat / 64 % 64 + 128 := by rw [UInt8.toNat_ofNat']; omega
        have n4 : (UInt8.ofNat (c.toNat % 64 + 128)).toNat = c.toNat % 64 + 128 := by rw [UInt8.toNat_ofNat']; omega
        simp only [h1, h2, h3, if_false, List.cons_append, List.nil_append, byteIx, List.getElem?_cons_zero, List.getElem?_cons_succ,
          Option.map_some, n1, n2, n3, n4, Option.bind_eq_bind, Option.bind_some, List.length_cons, List.length_nil]
        rw [if_neg (by omega), if_neg (by omega), if_neg (by omega), if_neg (by omega), if_neg (by omega)]
        have e : subUsize ((c.toNat / 262144 % 8 + 240) * 64 + (c.toNat / 4096 % 64 + 128)) 15488 = some (c.toNat / 4096) := subUsize_eq (by omega) (by omega)
        rw [e]
        simp only [Option.bind_some]
        cases tableGet 16 lb4Root (c.toNat / 4096) with
        | none => rfl
        | some v =>
          simp only [Option.bind_some]
          have e : subUsize (v * 64 + (c.toNat / 64 % 64 + 128)) 128 = some (v * 64 + c.toNat / 64 % 64) := subUsize_eq (by omega) (by omega)
          rw [e]
          simp only [Option.bind_some]
          cases tableGet 64 lb4Mid (v * 64 + c.toNat / 64 % 64) with
          | none => rfl
          | some w =>
            simp only [Option.bind_some]
            have e : subUsize (w * 64 + (c.toNat % 64 + 128)) 128 = some (w * 64 + c.toNat % 64) := subUsize_eq (by omega) (by omega)
            rw [e]
            simp only [Option.bind_some]
            cases tableGet 64 lb4Leaves (w * 64 + c.toNat % 64) <;> rfl

end Unicode

end Xi
