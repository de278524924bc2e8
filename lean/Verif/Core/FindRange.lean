import Verif.Core.FindLoop

/-!
# Lemmas on `update_find` and `do_find`
-/

namespace Xi

open Find Cursor Selection

variable {lower : CaseTable} {cm : CaseMatching} {pat : List Char}

namespace FindState

theorem atOrPrev_some {r : Rope} (hr : r.Balanced) {off : Nat} (h : off ≤ r.text.length) :
    ∃ res, r.atOrPrevCodepointBoundary off = some res ∧ res.getD 0 ≤ off ∧ CharBoundary r.text (res.getD 0) := by
  obtain ⟨p, h1, h2⟩ := C52_at_or_prev_codepoint r off hr h
  refine ⟨p, h1, ?_⟩
  cases p with
  | none =>
    have hu := Rope.text_utf8 hr
    exact ⟨Nat.zero_le _, by rw [← boundary_iff_spec hu]; simp [isCharBoundary]⟩
  | some q =>
    obtain ⟨g1, g2, -⟩ := h2
    exact ⟨by simp; omega, g2⟩

/-- What `update_find` searches. -/
theorem range_spec {text : Rope} (ht : text.Balanced) {start stop : Nat} (h1 : start ≤ stop) (h2 : start ≤ text.text.length) (slop : Bool) :
    ∃ from' to toC toC' x sub c, searchRange text pat start stop slop = some (from', to) ∧ Cursor.new text to = some toC ∧
      toC.nextLeaf = some (toC', x) ∧ text.subseq ⟨0, toC'.position⟩ = some sub ∧ Cursor.new sub from' = some c ∧
      CharBoundary text.text toC'.position ∧ sub.text = text.text.take toC'.position ∧ Ready sub c from' ∧
      from' ≤ start ∧ min stop text.text.length ≤ toC'.position := by
  have hu := Rope.text_utf8 ht
  have hlen : text.len = text.text.length := by
    obtain ⟨n, hw⟩ := ht
    exact hw.len_eq
  generalize hsl : (if slop then (pat.flatMap String.utf8EncodeChar).length * 2 else 0) = sl
  obtain ⟨a, a1, a2, a3⟩ := atOrPrev_some ht (off := max start sl - sl) (by omega)
  obtain ⟨b, b1, b2⟩ := atOrNext_some ht (off := min (stop + sl) text.text.length) (by omega)
  obtain ⟨toC, toC', x, c1, c2, c3, c4⟩ := leafEnd ht (b.getD text.text.length)
  have hz : CharBoundary text.text 0 := by rw [← boundary_iff_spec hu]; simp [isCharBoundary]
  obtain ⟨sub, d1, d2, d3⟩ := Diff.subseq_piece ht hz c3 (Nat.zero_le _)
  rw [List.drop_zero] at d2
  have hE := Find.boundary_le c3
  have hfrom : a.getD 0 ≤ toC'.position := by omega
  have hb : CharBoundary sub.text (a.getD 0) := by
    rw [d2]
    exact boundary_take c3 a3 hfrom
  obtain ⟨c, pre, l, post, e1, -⟩ := new_spec d3 (Find.boundary_le hb)
  refine ⟨a.getD 0, b.getD text.text.length, toC, toC', x, sub, c, ?_, c1, c2, d1, e1, c3, d2, ready_new d3 hb e1, by omega, by omega⟩
  simp only [searchRange, hsl, hlen, a1, b1, Option.bind_eq_bind, Option.bind_some]
  rfl

variable {text : Rope} {h : FindState}

/-- `update_find` keeps the highlights sound. -/
theorem updateFind_sound (hl : lower.Ok) (ht : text.Balanced) (hsize : text.text.length < 2 ^ 64 - 1) (hp : h.searchString = some pat)
    (hreg : Regular lower h.caseMatching pat) (hw : h.wholeWords = false) (ho : Sound lower text.text h.caseMatching pat h.occurrences)
    {start stop : Nat} (h1 : start ≤ stop) (h2 : start ≤ text.text.length) (slop : Bool) :
    ∃ occ, updateFind lower false h text start stop slop = some { h with occurrences := occ, hlsDirty := true } ∧
      Sound lower text.text h.caseMatching pat occ := by
  obtain ⟨from', to, toC, toC', x, sub, c, g1, g2, g3, g4, g5, g6, g7, g8, -⟩ := range_spec (pat := pat) ht h1 h2 slop
  have hlen : text.len = text.text.length := by
    obtain ⟨n, hw⟩ := ht
    exact hw.len_eq
  obtain ⟨occ, k1, k2⟩ := loop_sound hl hreg (Rope.text_utf8 ht) (text := text) (to := to) g7 hsize g6 (text.len + 1) ho g8 (by omega)
  refine ⟨occ, ?_, k2⟩
  simp only [updateFind, hp, g1, g2, g3, g4, g5, hw, k1, Option.bind_eq_bind, Option.bind_some, linesRaw]
  rfl

/-- `update_find` on the whole text makes them exact. -/
theorem updateFind_exact (hl : lower.Ok) (ht : text.Balanced) (hsize : text.text.length < 2 ^ 64 - 1) (hp : h.searchString = some pat)
    (hreg : Regular lower h.caseMatching pat) (hw : h.wholeWords = false) (ho : Sound lower text.text h.caseMatching pat h.occurrences)
    (slop : Bool) :
    ∃ occ, updateFind lower false h text 0 text.text.length slop = some { h with occurrences := occ, hlsDirty := true } ∧
      Sound lower text.text h.caseMatching pat occ ∧ Exact lower text.text h.caseMatching pat occ := by
  obtain ⟨from', to, toC, toC', x, sub, c, g1, g2, g3, g4, g5, g6, g7, g8, g9, g10⟩ := range_spec (pat := pat) ht (Nat.zero_le text.text.length) (Nat.zero_le _) slop
  have hlen : text.len = text.text.length := by
    obtain ⟨n, hw⟩ := ht
    exact hw.len_eq
  have hE : sub.text = text.text := by rw [g7, List.take_of_length_le (by omega)]
  have : from' = 0 := by omega
  subst this
  obtain ⟨occ, k1, k2, k3⟩ := loop_exact hl hreg (Rope.text_utf8 ht) (text := text) (to := to) (L := []) (R := h.occurrences) hE hsize (text.len + 1) ho g8 (by simp)
    (fun _ _ => Nat.zero_le _) (by omega)
  simp only [List.nil_append] at k1 k2
  refine ⟨occ, ?_, k2, k3⟩
  simp only [updateFind, hp, g1, g2, g3, g4, g5, hw, k1, Option.bind_eq_bind, Option.bind_some, linesRaw]
  rfl

/-- A query whose highlights are sound. -/
def Good (lower : CaseTable) (s : List UInt8) (h : FindState) : Prop :=
  ∀ pat, h.searchString = some pat → Regular lower h.caseMatching pat ∧ h.wholeWords = false ∧ Sound lower s h.caseMatching pat h.occurrences

/-- A query whose highlights are exact. -/
def Done (lower : CaseTable) (s : List UInt8) (h : FindState) : Prop :=
  ∀ pat, h.searchString = some pat → Exact lower s h.caseMatching pat h.occurrences

/-- Two states of one query. -/
def SameQuery (h h' : FindState) : Prop := h.searchString = h'.searchString ∧ h.caseMatching = h'.caseMatching ∧ h.wholeWords = h'.wholeWords

theorem updateFind_good (hl : lower.Ok) (ht : text.Balanced) (hsize : text.text.length < 2 ^ 64 - 1) (hg : Good lower text.text h)
    {start stop : Nat} (h1 : start ≤ stop) (h2 : start ≤ text.text.length) (slop : Bool) :
    ∃ h', updateFind lower false h text start stop slop = some h' ∧ Good lower text.text h' ∧ SameQuery h h' := by
  cases hp : h.searchString with
  | none => exact ⟨h, by simp [updateFind, hp], hg, rfl, rfl, rfl⟩
  | some pat =>
    obtain ⟨a, b, c⟩ := hg pat hp
    obtain ⟨occ, k1, k2⟩ := updateFind_sound hl ht hsize hp a b c h1 h2 slop
    refine ⟨_, k1, ?_, rfl, rfl, rfl⟩
    intro pat' hp'
    have : h.searchString = some pat' := hp'
    rw [hp, Option.some.injEq] at this
    subst this
    exact ⟨a, b, k2⟩

theorem updateFind_done (hl : lower.Ok) (ht : text.Balanced) (hsize : text.text.length < 2 ^ 64 - 1) (hg : Good lower text.text h) (slop : Bool) :
    ∃ h', updateFind lower false h text 0 text.text.length slop = some h' ∧ Good lower text.text h' ∧ SameQuery h h' ∧ Done lower text.text h' := by
  cases hp : h.searchString with
  | none => exact ⟨h, by simp [updateFind, hp], hg, ⟨rfl, rfl, rfl⟩, by intro pat hp'; rw [hp] at hp'; cases hp'⟩
  | some pat =>
    obtain ⟨a, b, c⟩ := hg pat hp
    obtain ⟨occ, k1, k2, k3⟩ := updateFind_exact hl ht hsize hp a b c slop
    refine ⟨_, k1, ?_, ⟨rfl, rfl, rfl⟩, ?_⟩
    · intro pat' hp'
      have : h.searchString = some pat' := hp'
      rw [hp, Option.some.injEq] at this
      subst this
      exact ⟨a, b, k2⟩
    · intro pat' hp'
      have : h.searchString = some pat' := hp'
      rw [hp, Option.some.injEq] at this
      subst this
      exact k3

/-- Element by element. -/
inductive Each {α β : Type} (R : α → β → Prop) : List α → List β → Prop
  | nil : Each R [] []
  | cons {a b l m} : R a b → Each R l m → Each R (a :: l) (b :: m)

theorem mapM_each {α β : Type} {R : α → β → Prop} {f : α → Option β} : ∀ {l : List α}, (∀ a ∈ l, ∃ b, f a = some b ∧ R a b) → ∃ m, l.mapM f = some m ∧ Each R l m
  | [], _ => ⟨[], rfl, .nil⟩
  | a :: l, h => by
    obtain ⟨b, h1, h2⟩ := h a (by simp)
    obtain ⟨m, h3, h4⟩ := mapM_each (l := l) fun x hx => h x (by simp [hx])
    exact ⟨b :: m, by simp [List.mapM_cons, h1, h3], .cons h2 h4⟩

theorem Each.imp {α β : Type} {R S : α → β → Prop} (h : ∀ a b, R a b → S a b) {l : List α} {m : List β} (hr : Each R l m) : Each S l m := by
  induction hr with
  | nil => exact .nil
  | cons h1 _ ih => exact .cons (h _ _ h1) ih

theorem Each.right {α β : Type} {R : α → β → Prop} {P : β → Prop} (h : ∀ a b, R a b → P b) {l : List α} {m : List β} (hr : Each R l m) : ∀ b ∈ m, P b := by
  induction hr with
  | nil => simp
  | cons h1 _ ih => simpa using ⟨h _ _ h1, ih⟩

theorem Each.trans {α : Type} {R : α → α → Prop} (h : ∀ a b c, R a b → R b c → R a c) : ∀ {l m n : List α}, Each R l m → Each R m n → Each R l n
  | _, _, _, .nil, .nil => .nil
  | _, _, _, .cons h1 h2, .cons g1 g2 => .cons (h _ _ _ h1 g1) (Each.trans h h2 g2)

theorem Each.refl {α : Type} {R : α → α → Prop} (h : ∀ a, R a a) : ∀ (l : List α), Each R l l
  | [] => .nil
  | a :: l => .cons (h a) (Each.refl h l)

theorem sameQuery_trans {a b c : FindState} (h : SameQuery a b) (h' : SameQuery b c) : SameQuery a c :=
  ⟨h.1.trans h'.1, h.2.1.trans h'.2.1, h.2.2.trans h'.2.2⟩

end FindState

namespace FindProgress

open FindState

variable {text : Rope}

/-- The part that has been searched begins in the text. -/
def Inside (len : Nat) : FindProgress → Prop
  | .inProgress start _ => start ≤ len
  | _ => True

/-- How much there is to be searched. -/
def togo (len : Nat) : FindProgress → Nat
  | .ready => 0
  | .started => 2 * len + 2
  | .inProgress start stop => start + (len - stop) + 1

theorem next_spec {len visible : Nat} (hv : visible ≤ len) {p : FindProgress} (hp : p.Inside len) (hne : p ≠ .ready) :
    ∃ p' start stop, nextRange visible len p = (p', some (start, stop)) ∧ start ≤ stop ∧ start ≤ len ∧ p'.Inside len ∧ p'.togo len < p.togo len ∧
      (p' = .ready → start = 0 ∧ stop = len) := by
  cases p with
  | ready => exact absurd rfl hne
  | started =>
    refine ⟨_, _, _, rfl, ?_, hv, hv, ?_, by simp⟩
    · omega
    · simp only [togo]; omega
  | inProgress start stop =>
    have hp : start ≤ len := hp
    simp only [nextRange]
    split
    · rename_i h
      exact ⟨_, _, _, rfl, Nat.zero_le _, Nat.zero_le _, trivial, by simp only [togo]; omega, by simp⟩
    · rename_i h
      split
      · rename_i h'
        refine ⟨_, _, _, rfl, by omega, by omega, by simp only [Inside]; omega, ?_, by simp⟩
        simp only [togo, batchSize]
        omega
      · rw [if_pos (by omega)]
        refine ⟨_, _, _, rfl, by omega, by omega, hp, ?_, by simp⟩
        simp only [togo, batchSize]
        omega

/-- One call of `do_find`. -/
theorem doFind_spec (hl : lower.Ok) (ht : text.Balanced) (hsize : text.text.length < 2 ^ 64 - 1) {visible : Nat} (hv : visible ≤ text.text.length)
    {p : FindProgress} (hp : p.Inside text.text.length) (hne : p ≠ .ready) {qs : List FindState} (hq : ∀ q ∈ qs, Good lower text.text q) :
    ∃ p' qs', doFind lower false text visible p qs = some (p', qs') ∧ p'.Inside text.text.length ∧ p'.togo text.text.length < p.togo text.text.length ∧
      Each SameQuery qs qs' ∧ (∀ q ∈ qs', Good lower text.text q) ∧ (p' = .ready → ∀ q ∈ qs', Done lower text.text q) := by
  have hlen : text.len = text.text.length := by
    obtain ⟨n, hw⟩ := ht
    exact hw.len_eq
  obtain ⟨p', start, stop, h1, h2, h3, h4, h5, h6⟩ := next_spec hv hp hne
  by_cases hr : p' = .ready
  · obtain ⟨rfl, rfl⟩ := h6 hr
    obtain ⟨qs', k1, k2⟩ := mapM_each (l := qs) (f := fun q => q.updateFind lower false text 0 text.text.length true)
      (R := fun h h' => Good lower text.text h' ∧ SameQuery h h' ∧ Done lower text.text h') (fun q hq' => by
        exact updateFind_done hl ht hsize (hq q hq') true)
    refine ⟨p', qs', ?_, h4, h5, k2.imp fun _ _ h => h.2.1, k2.right fun _ _ h => h.1, fun _ => k2.right fun _ _ h => h.2.2⟩
    simp only [doFind, hlen, h1, k1]
    rfl
  · obtain ⟨qs', k1, k2⟩ := mapM_each (l := qs) (f := fun q => q.updateFind lower false text start stop true)
      (R := fun h h' => Good lower text.text h' ∧ SameQuery h h') (fun q hq' => by
        exact updateFind_good hl ht hsize (hq q hq') h2 h3 true)
    refine ⟨p', qs', ?_, h4, h5, k2.imp fun _ _ h => h.2, k2.right fun _ _ h => h.1, fun h => absurd h hr⟩
    simp only [doFind, hlen, h1, k1]
    rfl

end FindProgress

end Xi
