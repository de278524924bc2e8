import Verif.Core.Recorder

/-!
# Recordings: property C39
-/

namespace Xi

open Recorder

/-! ## What undo and redo do to a list of events -/

/-- What has become of a recorded event. -/
inductive Fate where
  | live
  | undone
  | gone
  deriving DecidableEq

/-- Undo takes back the newest live edit; the list has the newest first. -/
def undoLast : List (RecEvent × Fate) → List (RecEvent × Fate)
  | [] => []
  | (.view k, f) :: s => (.view k, f) :: undoLast s
  | (e, .live) :: s => (e, .undone) :: s
  | (e, f) :: s => (e, f) :: undoLast s

/-- Redo brings back what was undone last, which is the oldest of the undone edits. -/
def redoLast : List (RecEvent × Fate) → List (RecEvent × Fate)
  | [] => []
  | (e, f) :: s =>
    if f = .undone ∧ ∀ p ∈ s, p.2 ≠ .undone then (e, .live) :: s else (e, f) :: redoLast s

/-- What was undone can no longer be brought back. -/
def forget (s : List (RecEvent × Fate)) : List (RecEvent × Fate) :=
  s.map fun p => (p.1, if p.2 = .undone then .gone else p.2)

/-- One more event. -/
def happen (s : List (RecEvent × Fate)) : RecEvent → List (RecEvent × Fate)
  | .undo => undoLast s
  | .redo => redoLast s
  | .view k => (.view k, .live) :: s
  | e => (e, .live) :: forget s

/-- The events that are live in the end, newest first. -/
def alive (s : List (RecEvent × Fate)) : List RecEvent := (s.filter fun p => p.2 = .live).map (·.1)

/-- The events that are in effect after the whole list, in order. -/
def inEffect (l : List RecEvent) : List RecEvent := (alive (l.foldl happen [])).reverse

/-! ## Where the filter is right -/

/-- The undo and redo events between two edits are undo, redo, undo, … in turn; the
argument says what has become of the edit before.  A redo with nothing to bring back is
allowed too, if no undo comes before the next edit. -/
def inTurn : Fate → List RecEvent → Prop
  | _, [] => True
  | f, .view _ :: l => inTurn f l
  | f, .undo :: l => f = .live ∧ inTurn .undone l
  | f, .redo :: l => if f = .undone then inTurn .live l else inTurn .gone l
  | _, .insert _ :: l => inTurn .live l
  | _, .buffer _ :: l => inTurn .live l

instance : ∀ (f : Fate) (l : List RecEvent), Decidable (inTurn f l)
  | _, [] => .isTrue trivial
  | f, .view _ :: l => by unfold inTurn; exact instDecidableInTurn f l
  | f, .undo :: l => by unfold inTurn; exact @instDecidableAnd _ _ _ (instDecidableInTurn .undone l)
  | .undone, .redo :: l => by unfold inTurn; exact instDecidableInTurn .live l
  | .live, .redo :: l => by unfold inTurn; exact instDecidableInTurn .gone l
  | .gone, .redo :: l => by unfold inTurn; exact instDecidableInTurn .gone l
  | _, .insert _ :: l => by unfold inTurn; exact instDecidableInTurn .live l
  | _, .buffer _ :: l => by unfold inTurn; exact instDecidableInTurn .live l

/-- The newest edit has that fate, and no other edit can be brought back. -/
def Newest : Fate → List (RecEvent × Fate) → Prop
  | _, [] => False
  | f, (.view _, g) :: s => g = .live ∧ Newest f s
  | f, (_, g) :: s => g = f ∧ ∀ p ∈ s, p.2 ≠ .undone

theorem forget_none (s : List (RecEvent × Fate)) : ∀ p ∈ forget s, p.2 ≠ .undone := by
  intro p hp
  simp only [forget, List.mem_map] at hp
  obtain ⟨q, _, rfl⟩ := hp
  simp only
  split <;> simp_all

theorem alive_forget (s : List (RecEvent × Fate)) : alive (forget s) = alive s := by
  induction s with
  | nil => rfl
  | cons p s ih =>
    obtain ⟨e, f⟩ := p
    cases f <;> simp_all [alive, forget]

theorem redo_none : ∀ (s : List (RecEvent × Fate)), (∀ p ∈ s, p.2 ≠ .undone) → redoLast s = s
  | [], _ => rfl
  | (e, f) :: s, h => by
    have hf : f ≠ .undone := h (e, f) (by simp)
    simp [redoLast, hf, redo_none s (fun p hp => h p (by simp [hp]))]

theorem Newest.has_undone : ∀ {s : List (RecEvent × Fate)}, Newest .undone s → ∃ p ∈ s, p.2 = .undone
  | [], h => h.elim
  | (.view k, g) :: s, h => by
    obtain ⟨p, hp, e⟩ := Newest.has_undone (s := s) h.2
    exact ⟨p, by simp [hp], e⟩
  | (.insert c, g) :: s, h => ⟨(.insert c, g), by simp, h.1⟩
  | (.buffer c, g) :: s, h => ⟨(.buffer c, g), by simp, h.1⟩
  | (.undo, g) :: s, h => ⟨(.undo, g), by simp, h.1⟩
  | (.redo, g) :: s, h => ⟨(.redo, g), by simp, h.1⟩

theorem redo_undo : ∀ {s : List (RecEvent × Fate)}, Newest .live s →
    Newest .undone (undoLast s) ∧ redoLast (undoLast s) = s
  | [], h => h.elim
  | (.view k, g) :: s, h => by
    obtain ⟨h1, h2⟩ := redo_undo (s := s) h.2
    obtain ⟨p, hp, e⟩ := h1.has_undone
    have hg : g = .live := h.1
    subst hg
    refine ⟨⟨rfl, h1⟩, ?_⟩
    simp [undoLast, redoLast, h2]
  | (.insert c, g) :: s, h => by
    obtain ⟨rfl, h2⟩ := h
    refine ⟨⟨rfl, h2⟩, ?_⟩
    simp only [undoLast, redoLast]
    rw [if_pos ⟨trivial, h2⟩]
  | (.buffer c, g) :: s, h => by
    obtain ⟨rfl, h2⟩ := h
    refine ⟨⟨rfl, h2⟩, ?_⟩
    simp only [undoLast, redoLast]
    rw [if_pos ⟨trivial, h2⟩]
  | (.undo, g) :: s, h => by
    obtain ⟨rfl, h2⟩ := h
    refine ⟨⟨rfl, h2⟩, ?_⟩
    simp only [undoLast, redoLast]
    rw [if_pos ⟨trivial, h2⟩]
  | (.redo, g) :: s, h => by
    obtain ⟨rfl, h2⟩ := h
    refine ⟨⟨rfl, h2⟩, ?_⟩
    simp only [undoLast, redoLast]
    rw [if_pos ⟨trivial, h2⟩]

theorem undo_redo : ∀ {s : List (RecEvent × Fate)}, Newest .undone s →
    Newest .live (redoLast s) ∧ undoLast (redoLast s) = s
  | [], h => h.elim
  | (.view k, g) :: s, h => by
    obtain ⟨h1, h2⟩ := undo_redo (s := s) h.2
    have hg : g = .live := h.1
    subst hg
    have e : redoLast ((.view k, .live) :: s) = (.view k, .live) :: redoLast s := by
      simp [redoLast]
    rw [e]
    exact ⟨⟨rfl, h1⟩, by simp [undoLast, h2]⟩
  | (.insert c, g) :: s, h => by
    obtain ⟨rfl, h2⟩ := h
    have e : redoLast ((.insert c, .undone) :: s) = (.insert c, .live) :: s := by
      simp only [redoLast]; rw [if_pos ⟨trivial, h2⟩]
    rw [e]
    exact ⟨⟨rfl, h2⟩, rfl⟩
  | (.buffer c, g) :: s, h => by
    obtain ⟨rfl, h2⟩ := h
    have e : redoLast ((.buffer c, .undone) :: s) = (.buffer c, .live) :: s := by
      simp only [redoLast]; rw [if_pos ⟨trivial, h2⟩]
    rw [e]
    exact ⟨⟨rfl, h2⟩, rfl⟩
  | (.undo, g) :: s, h => by
    obtain ⟨rfl, h2⟩ := h
    have e : redoLast ((.undo, .undone) :: s) = (.undo, .live) :: s := by
      simp only [redoLast]; rw [if_pos ⟨trivial, h2⟩]
    rw [e]
    exact ⟨⟨rfl, h2⟩, rfl⟩
  | (.redo, g) :: s, h => by
    obtain ⟨rfl, h2⟩ := h
    have e : redoLast ((.redo, .undone) :: s) = (.redo, .live) :: s := by
      simp only [redoLast]; rw [if_pos ⟨trivial, h2⟩]
    rw [e]
    exact ⟨⟨rfl, h2⟩, rfl⟩

/-- What holds of the events so far, newest first, whose outcome is `s`: the filter, from
any state it can come in, gives what is in effect. -/
structure Right (r : List RecEvent) (s : List (RecEvent × Fate)) (f : Fate) : Prop where
  shape : f ≠ .gone → Newest f s
  plain : filterRev false false r = alive s
  undo : f = .live → filterRev true false r = alive (undoLast s)
  redo : f = .undone → filterRev false true r = alive (redoLast s)
  idle : f ≠ .undone → filterRev false true r = alive s ∧ ∀ p ∈ s, p.2 ≠ .undone

theorem Newest.no_undone : ∀ {s : List (RecEvent × Fate)}, Newest .live s → ∀ p ∈ s, p.2 ≠ .undone
  | [], h => h.elim
  | (.view k, g) :: s, h => by
    have hg : g = .live := h.1
    intro p hp
    rcases List.mem_cons.mp hp with rfl | hp
    · simp [hg]
    · exact Newest.no_undone h.2 p hp
  | (.insert c, g) :: s, h => by
    intro p hp
    rcases List.mem_cons.mp hp with rfl | hp
    · simp [h.1]
    · exact h.2 p hp
  | (.buffer c, g) :: s, h => by
    intro p hp
    rcases List.mem_cons.mp hp with rfl | hp
    · simp [h.1]
    · exact h.2 p hp
  | (.undo, g) :: s, h => by
    intro p hp
    rcases List.mem_cons.mp hp with rfl | hp
    · simp [h.1]
    · exact h.2 p hp
  | (.redo, g) :: s, h => by
    intro p hp
    rcases List.mem_cons.mp hp with rfl | hp
    · simp [h.1]
    · exact h.2 p hp

theorem alive_view (k : Nat) (s : List (RecEvent × Fate)) : alive ((.view k, .live) :: s) = .view k :: alive s := by
  simp [alive]

theorem right_all : ∀ (l : List RecEvent) (r : List RecEvent) (s : List (RecEvent × Fate)) (f : Fate),
    Right r s f → inTurn f l → ∃ g, Right (l.reverse ++ r) (l.foldl happen s) g
  | [], r, s, f, h, _ => ⟨f, by simpa using h⟩
  | e :: l, r, s, f, h, ht => by
    have step : ∃ g, Right (e :: r) (happen s e) g ∧ inTurn g l := by
      cases e with
      | view k =>
        refine ⟨f, ⟨fun hf => ⟨rfl, h.shape hf⟩, ?_, ?_, ?_, ?_⟩, ht⟩
        · simp [filterRev, keep, happen, alive_view, h.plain]
        · intro hf; simp [filterRev, keep, happen, alive_view, h.undo hf, undoLast]
        · intro hf; simp [filterRev, keep, happen, alive_view, h.redo hf, redoLast]
        · intro hf
          obtain ⟨h1, h2⟩ := h.idle hf
          refine ⟨by simp [filterRev, keep, happen, alive_view, h1], ?_⟩
          intro p hp
          rcases List.mem_cons.mp hp with rfl | hp
          · simp
          · exact h2 p hp
      | insert c =>
        refine ⟨.live, ⟨fun _ => ⟨rfl, forget_none s⟩, ?_, fun _ => ?_, fun hf => by simp at hf, fun _ => ⟨?_, ?_⟩⟩, ht⟩
        · have := alive_forget s
          simp [filterRev, keep, happen, h.plain, alive] at this ⊢; exact this.symm
        · have := alive_forget s
          simp [filterRev, keep, happen, h.plain, alive, undoLast] at this ⊢; exact this.symm
        · have := alive_forget s
          simp [filterRev, keep, happen, h.plain, alive] at this ⊢; exact this.symm
        · intro p hp
          rcases List.mem_cons.mp hp with rfl | hp
          · simp
          · exact forget_none s p hp
      | buffer c =>
        refine ⟨.live, ⟨fun _ => ⟨rfl, forget_none s⟩, ?_, fun _ => ?_, fun hf => by simp at hf, fun _ => ⟨?_, ?_⟩⟩, ht⟩
        · have := alive_forget s
          simp [filterRev, keep, happen, h.plain, alive] at this ⊢; exact this.symm
        · have := alive_forget s
          simp [filterRev, keep, happen, h.plain, alive, undoLast] at this ⊢; exact this.symm
        · have := alive_forget s
          simp [filterRev, keep, happen, h.plain, alive] at this ⊢; exact this.symm
        · intro p hp
          rcases List.mem_cons.mp hp with rfl | hp
          · simp
          · exact forget_none s p hp
      | undo =>
        obtain ⟨rfl, ht⟩ := ht
        obtain ⟨h1, h2⟩ := redo_undo (h.shape (by simp))
        refine ⟨.undone, ⟨fun _ => h1, ?_, fun hf => by simp at hf, fun _ => ?_, fun hf => by simp at hf⟩, ht⟩
        · simp [filterRev, keep, happen, h.undo rfl]
        · simp [filterRev, keep, happen, h2, h.plain]
      | redo =>
        by_cases hf : f = .undone
        · subst hf
          simp only [inTurn, if_true] at ht
          obtain ⟨h1, h2⟩ := undo_redo (h.shape (by simp))
          refine ⟨.live, ⟨fun _ => h1, ?_, fun _ => ?_, fun hf => by simp at hf, fun _ => ⟨?_, h1.no_undone⟩⟩, ht⟩
          · simp [filterRev, keep, happen, h.redo rfl]
          · simp [filterRev, keep, happen, h2, h.plain]
          · simp [filterRev, keep, happen, h.redo rfl]
        · simp only [inTurn, if_neg hf] at ht
          obtain ⟨h1, h2⟩ := h.idle hf
          have hs : happen s .redo = s := redo_none s h2
          rw [hs]
          refine ⟨.gone, ⟨fun hf => absurd rfl hf, ?_, fun hf => by simp at hf, fun hf => by simp at hf, fun _ => ⟨?_, h2⟩⟩, ht⟩
          · simp [filterRev, keep, h1]
          · simp [filterRev, keep, h1]
    obtain ⟨g, hr, hg⟩ := step
    obtain ⟨g', h'⟩ := right_all l (e :: r) (happen s e) g hr hg
    exact ⟨g', by simpa using h'⟩

/-- **C39, in part.** If between any two edits undo and redo come in turn, starting with
undo, or there are only redos, the recording is exactly the list of events that are in effect.  Missing: several
undos in a row, for which the claim is false (`C39_undo_refuted`). -/
theorem C39_net_partial (l : List RecEvent) (h : inTurn .gone l) : clean l = inEffect l := by
  obtain ⟨g, hr⟩ := right_all l [] [] .gone ⟨by simp, rfl, by simp, by simp, fun _ => ⟨rfl, by simp⟩⟩ h
  simp only [List.append_nil] at hr
  simp only [clean, inEffect, hr.plain]

/-- **C39, refuted.** Two undos in a row take back two edits, but only one is left out of
the recording; two redos after them bring both back, but one is left out; and an undo
after a redo which did nothing is ignored. -/
theorem C39_undo_refuted :
    (inEffect [.buffer 1, .buffer 2, .undo, .undo] = [] ∧ clean [.buffer 1, .buffer 2, .undo, .undo] = [.buffer 1]) ∧
    (inEffect [.buffer 1, .buffer 2, .undo, .undo, .redo, .redo] = [.buffer 1, .buffer 2] ∧
      clean [.buffer 1, .buffer 2, .undo, .undo, .redo, .redo] = [.buffer 1]) ∧
    (inEffect [.buffer 1, .redo, .undo] = [] ∧ clean [.buffer 1, .redo, .undo] = [.buffer 1]) := by decide

/-- **C39.** Whatever was recorded, the recording has no undo or redo in it, keeps the
order, keeps all view events and, if there was no undo, everything but the redos. -/
theorem C39_clean (l : List RecEvent) :
    (∀ e ∈ clean l, e ≠ .undo ∧ e ≠ .redo) ∧ (clean l).Sublist l ∧
    (∀ k, (clean l).count (.view k) = l.count (.view k)) ∧
    (.undo ∉ l → clean l = l.filter (· ≠ .redo)) := by
  have h1 : ∀ (r : List RecEvent) (u d : Bool), (∀ e ∈ filterRev u d r, e ≠ .undo ∧ e ≠ .redo) ∧
      (filterRev u d r).Sublist r ∧ (∀ k, (filterRev u d r).count (.view k) = r.count (.view k)) ∧
      (.undo ∉ r → u = false → filterRev u d r = r.filter (· ≠ .redo)) := by
    intro r
    induction r with
    | nil => intro u d; simp [filterRev]
    | cons e r ih =>
      intro u d
      obtain ⟨a, b, c, x⟩ := ih (keep u d e).2.1 (keep u d e).2.2
      unfold filterRev
      simp only
      by_cases hk : (keep u d e).1 = true
      · simp only [hk, if_true]
        refine ⟨?_, b.cons_cons _, ?_, ?_⟩
        · intro e' he'
          rcases List.mem_cons.mp he' with rfl | he'
          · cases e' <;> simp_all [keep]
          · exact a e' he'
        · intro k; simp [List.count_cons, c k]
        · intro hu h0
          subst h0
          have := x (by simp_all)
          cases e <;> simp_all [keep]
      · simp only [hk]
        refine ⟨a, b.cons _, ?_, ?_⟩
        · intro k
          have : e ≠ .view k := by intro he; subst he; simp [keep] at hk
          simp [c k, List.count_cons, this]
        · intro hu h0
          subst h0
          have := x (by simp_all)
          cases e <;> simp_all [keep]
  obtain ⟨a, b, c, x⟩ := h1 l.reverse false false
  refine ⟨fun e he => a e (by simpa [clean] using he), ?_, ?_, ?_⟩
  · have := b.reverse
    simpa [clean] using this
  · intro k; simpa [clean] using c k
  · intro hu
    rw [clean, x (by simpa using hu) rfl, List.filter_reverse, List.reverse_reverse]

/-! ## Merging of insertions -/

/-- A list of events with every insertion spelled out. -/
def spell (l : List RecEvent) : List (Char ⊕ RecEvent) :=
  l.flatMap fun | .insert s => s.toList.map .inl | e => [.inr e]

/-- No two insertions are next to each other. -/
def merged : List RecEvent → Prop
  | .insert _ :: .insert _ :: _ => False
  | _ :: l => merged l
  | [] => True

theorem merged_snoc : ∀ (l : List RecEvent) (e : RecEvent), merged l →
    (∀ a, l.getLast? = some (.insert a) → ∀ b, e ≠ .insert b) → merged (l ++ [e])
  | [], e, _, _ => by cases e <;> simp [merged]
  | [x], e, _, h => by
    cases x <;> cases e <;> simp_all [merged]
  | x :: y :: l, e, hm, h => by
    have hm' : merged (y :: l) := by cases x <;> cases y <;> simp_all [merged]
    have := merged_snoc (y :: l) e hm' (by intro a ha; exact h a (by simpa using ha))
    cases x <;> cases y <;> simp_all [merged]

theorem merged_last (l : List RecEvent) (a b : String) (h : merged (l ++ [.insert a])) : merged (l ++ [.insert b]) := by
  match l with
  | [] => simp [merged]
  | [x] => cases x <;> simp_all [merged]
  | x :: y :: l =>
    have hm' : merged ((y :: l) ++ [.insert a]) := by cases x <;> cases y <;> simp_all [merged]
    have := merged_last (y :: l) a b hm'
    cases x <;> cases y <;> simp_all [merged]

theorem push_spec (l : List RecEvent) (e : RecEvent) (hm : merged l) :
    merged (push l e) ∧ spell (push l e) = spell (l ++ [e]) := by
  unfold push
  split
  · rename_i old new hl
    obtain ⟨p, rfl⟩ := List.getLast?_eq_some_iff.mp hl
    simp only [List.dropLast_concat]
    exact ⟨merged_last p old _ hm, by simp [spell, String.toList_append]⟩
  · rename_i e' hne
    refine ⟨merged_snoc l _ hm ?_, rfl⟩
    intro a ha b hb
    exact hne a b ha hb

theorem spell_append (a b : List RecEvent) : spell (a ++ b) = spell a ++ spell b := by simp [spell]

/-- **C39.** The buffer has the recorded events, with insertions merged: no two are next
to each other, and spelled out the buffer is the same as the events. -/
theorem C39_merge (l : List RecEvent) : merged (l.foldl push []) ∧ spell (l.foldl push []) = spell l := by
  have : ∀ (l b done : List RecEvent), merged b → spell b = spell done →
      merged (l.foldl push b) ∧ spell (l.foldl push b) = spell (done ++ l) := by
    intro l
    induction l with
    | nil => intro b done h1 h2; exact ⟨h1, by simpa using h2⟩
    | cons e l ih =>
      intro b done h1 h2
      obtain ⟨a, b'⟩ := push_spec b e h1
      have := ih (push b e) (done ++ [e]) a (by rw [b', spell_append, h2, spell_append])
      simpa using this
  simpa using this l [] [] trivial rfl

/-! ## Starting, stopping and switching -/

/-- What the recorder should know: the recording that is being made, with its events,
and the finished recordings, with their events. -/
structure Tape where
  now : Option (String × List RecEvent)
  done : String → Option (List RecEvent)

/-- The documented behaviour, recorder.rs:44-56 (and 133 for clearing). -/
def Tape.step (t : Tape) : Cmd → Tape
  | .toggle none => match t.now with
    | some (n, l) => ⟨none, fun m => if m = n then some l else t.done m⟩
    | none => t
  | .toggle (some n) => match t.now with
    | some (n', l) => if n = n' then ⟨none, fun m => if m = n then some l else t.done m⟩ else ⟨some (n, []), t.done⟩
    | none => ⟨some (n, []), t.done⟩
  | .clear n => ⟨t.now, fun m => if m = n then none else t.done m⟩
  | .special => t
  | .event e => ⟨t.now.map fun (n, l) => (n, l ++ [e]), t.done⟩

/-- The recorder knows what it should. -/
structure Recorder.Knows (r : Recorder) (t : Tape) : Prop where
  active : r.active = t.now.map (·.1)
  buffer : r.buffer = ((t.now.map (·.2)).getD []).foldl push []
  recordings : ∀ n, r.recordings n = (t.done n).map fun l => clean (l.foldl push [])

theorem knows_step (r : Recorder) (t : Tape) (h : r.Knows t) (c : Cmd) : ∃ r', r.step c = some r' ∧ r'.Knows (t.step c) := by
  obtain ⟨ra, rb, rr⟩ := r
  obtain ⟨now, done⟩ := t
  obtain ⟨h1, h2, h3⟩ := h
  simp only at h1 h2 h3
  subst h1 h2
  cases c with
  | clear n =>
    refine ⟨_, rfl, rfl, rfl, ?_⟩
    intro m
    simp only [Recorder.clear, Tape.step]
    split <;> simp [h3]
  | special => exact ⟨_, rfl, rfl, rfl, h3⟩
  | event e =>
    cases now with
    | none => exact ⟨_, rfl, rfl, rfl, h3⟩
    | some nl =>
      refine ⟨_, rfl, rfl, ?_, h3⟩
      simp [Tape.step]
  | toggle name =>
    cases now with
    | none =>
      cases name with
      | none => exact ⟨_, rfl, rfl, rfl, h3⟩
      | some n => exact ⟨_, rfl, rfl, rfl, h3⟩
    | some nl =>
      obtain ⟨n', l⟩ := nl
      cases name with
      | none =>
        refine ⟨_, rfl, rfl, rfl, ?_⟩
        intro m
        simp only [Recorder.toggle, saveBuffer, Tape.step, Option.map_some, Option.getD_some]
        split <;> simp [h3]
      | some n =>
        refine ⟨_, rfl, ?_⟩
        by_cases hn : n = n'
        · subst hn
          refine ⟨by simp [Recorder.toggle, saveBuffer, Tape.step], by simp [Recorder.toggle, saveBuffer, Tape.step], ?_⟩
          intro m
          simp only [Recorder.toggle, saveBuffer, Tape.step, Option.map_some, Option.getD_some, ne_eq, not_true_eq_false, if_false, if_true]
          split <;> simp [h3]
        · have hn' : n' ≠ n := fun h => hn h.symm
          refine ⟨by simp [Recorder.toggle, Tape.step, hn, hn'], by simp [Recorder.toggle, Tape.step, hn, hn'], ?_⟩
          intro m
          simp [Recorder.toggle, Tape.step, hn, hn', h3]

/-- **C39.** Whatever commands come, nothing panics, and what is played for a name is the
cleaned recording of exactly the events between the start of that recording and its end;
an abandoned recording leaves nothing behind. -/
theorem C39_history (cmds : List Cmd) :
    ∃ r, cmds.foldlM Recorder.step Recorder.new = some r ∧
      ∀ t, t = cmds.foldl Tape.step ⟨none, fun _ => none⟩ →
      r.Knows t ∧ ∀ n, r.play n = if t.now.map (·.1) = some n then [] else
        ((t.done n).map fun l => clean (l.foldl push [])).getD [] := by
  have key : ∀ (cmds : List Cmd) (r : Recorder) (t : Tape), r.Knows t →
      ∃ r', cmds.foldlM Recorder.step r = some r' ∧ r'.Knows (cmds.foldl Tape.step t) := by
    intro cmds
    induction cmds with
    | nil => intro r t h; exact ⟨r, rfl, h⟩
    | cons c cmds ih =>
      intro r t h
      obtain ⟨r1, e1, h1⟩ := knows_step r t h c
      obtain ⟨r2, e2, h2⟩ := ih r1 _ h1
      exact ⟨r2, by simp [List.foldlM_cons, e1, e2], h2⟩
  obtain ⟨r, e, h⟩ := key cmds Recorder.new ⟨none, fun _ => none⟩ ⟨rfl, rfl, fun _ => rfl⟩
  refine ⟨r, e, ?_⟩
  rintro t rfl
  refine ⟨h, ?_⟩
  intro n
  simp only [Recorder.play, h.active, h.recordings]

/-- Undo, redo, undo, with a caret movement between them. -/
example : inTurn .gone [.buffer 1, .view 7, .insert "ab", .undo, .view 8, .redo, .undo, .buffer 2, .undo, .redo] ∧
    clean [.buffer 1, .view 7, .insert "ab", .undo, .view 8, .redo, .undo, .buffer 2, .undo, .redo] =
      [.buffer 1, .view 7, .view 8, .buffer 2] := by decide

/-- A redo that does nothing after an edit. -/
example : inTurn .gone [.redo, .buffer 1, .undo, .buffer 2, .redo, .redo] ∧
    clean [.redo, .buffer 1, .undo, .buffer 2, .redo, .redo] = [.buffer 2] := by decide

/-- A recording is given up for another one, which is then played. -/
example : (([.toggle (some "a"), .event (.insert "x"), .toggle (some "b"), .event (.insert "y"), .event (.insert "z"),
    .event (.view 1), .event (.insert "w"), .event .undo, .toggle none, .event (.insert "v")] : List Cmd).foldlM Recorder.step Recorder.new).map
    (fun r => (r.play "a", r.play "b")) = some ([], [.insert "yz", .view 1]) := by decide

end Xi
