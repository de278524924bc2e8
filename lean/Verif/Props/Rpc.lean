import Verif.Rpc.LoopLemmas

/-!
# C47: every RPC answer reaches exactly the caller that asked

The threads of `RpcLoop` are a transition system (`Step`).  The theorems are about every state that the threads can reach
from the start, whatever the peer sends, whenever a thread runs and whatever the handlers do.
-/

namespace Xi

open Rpc

variable {N R H : Type} {parseN : Json → Option N} {parseR : Json → Option R}

/-- Every request gets a number of its own: the requests are numbered 0, 1, 2, ... (until the 64-bit counter wraps around). -/
theorem C47_fresh {s : State N R H} (h : Steps parseN parseR .start s) (hc : s.counter ≤ 2 ^ 64) :
    s.asked.map (·.1) = List.range s.counter ∧ (s.asked.map (·.1)).Nodup :=
  have := ledger_start.steps h hc
  ⟨this.numbers, this.nodup⟩

/-- A request is in exactly one place: on its way to the table, in the table, with the reader that is about to deliver its
answer, or answered.  None is lost and none is doubled. -/
theorem C47_accounted {s : State N R H} (h : Steps parseN parseR .start s) (hc : s.counter ≤ 2 ^ 64) :
    s.asked.Perm (numberedOnly s.sending ++ s.pending ++ s.reader.delivering ++ s.answers.map (fun x => (x.1, x.2.1))) :=
  (ledger_start.steps h hc).places

/-- A request is answered at most once, and through the handler that was registered for it. -/
theorem C47_once {s : State N R H} (h : Steps parseN parseR .start s) (hc : s.counter ≤ 2 ^ 64) :
    (s.answers.map (·.1)).Nodup ∧ ∀ x ∈ s.answers, (x.1, x.2.1) ∈ s.asked := by
  have hl := ledger_start.steps h hc
  refine ⟨?_, ?_⟩
  · have := (hl.places.map (·.1)).nodup_iff.1 hl.nodup
    rw [List.map_append, List.nodup_append] at this
    have := this.2.1
    rwa [List.map_map] at this
  · intro x hx
    exact hl.places.mem_iff.2 (List.mem_append_right _ (List.mem_map.2 ⟨x, hx, rfl⟩))

/-- Every request is written once, or could not be written, or is still to be written. -/
theorem C47_written {s : State N R H} (h : Steps parseN parseR .start s) (hc : s.counter ≤ 2 ^ 64) :
    (List.range s.counter).Perm (requestsOf s.sent ++ s.unsent ++ unwritten s.sending) := by
  have := Written.steps (s := (State.start : State N R H)) ⟨rfl, .refl _⟩ h hc
  rw [← this.numbers]
  exact this.places

/-- Every answer has its reason: a response with the number of the request was read, the request could not be written, or the
connection has ended. -/
theorem C47_truthful {s : State N R H} (h : Steps parseN parseR .start s) : ∀ x ∈ s.answers, Reason s x.1 x.2.2 :=
  (steps_induction (P := Truthful) (fun _ _ hs h => hs.step h) truthful_start h).answers

/-- A response to a registered request goes to the handler of that request, which leaves the table. -/
theorem C47_response {s s' : State N R H} (h : Steps parseN parseR .start s) (hc : s.counter ≤ 2 ^ 64) {id : Nat} {a : Answer} {k : H}
    (hr : s.reader = .answering id a) (hp : (id % 2 ^ 64, k) ∈ s.pending) (hs : Step parseN parseR s s') (hm : s'.reader ≠ s.reader) :
    s'.reader = .invoking (id % 2 ^ 64) k a ∧ ∀ x, x ∈ s.pending ↔ x = (id % 2 ^ 64, k) ∨ x ∈ s'.pending ∧ x.1 ≠ id % 2 ^ 64 := by
  have hl := ledger_start.steps h hc
  have hnd : (s.pending.map (·.1)).Nodup := by
    have := (hl.places.map (·.1)).nodup_iff.1 hl.nodup
    simp only [List.map_append, List.append_assoc] at this
    rw [List.nodup_append] at this
    have := this.2.1
    rw [List.nodup_append] at this
    exact this.1
  have hlook : s.pending.lookup (id % 2 ^ 64) = some k := by
    cases hlo : s.pending.lookup (id % 2 ^ 64) with
    | none => exact absurd rfl (lookup_none hlo _ hp)
    | some k' =>
      have hperm := lookup_perm hlo
      have h1 := (hperm.map (·.1)).nodup_iff.1 hnd
      rw [List.map_cons, List.nodup_cons] at h1
      rcases List.mem_cons.1 (hperm.mem_iff.1 hp) with h2 | h2
      · cases h2; rfl
      · exact absurd (List.mem_map.2 ⟨_, h2, rfl⟩) h1.1
  have hperm := lookup_perm hlook
  cases hs with
  | lookUp h1 =>
    rw [hr] at h1
    cases h1
    rw [State.lookUp, hlook]
    refine ⟨rfl, ?_⟩
    intro x
    have h1 := (hperm.map (·.1)).nodup_iff.1 hnd
    rw [List.map_cons, List.nodup_cons] at h1
    rw [hperm.mem_iff, List.mem_cons]
    constructor
    · rintro (h2 | h2)
      · exact .inl h2
      · exact .inr ⟨h2, fun he => h1.1 (List.mem_map.2 ⟨x, h2, he⟩)⟩
    · rintro (h2 | h2)
      · exact .inl h2
      · exact .inr h2.1
  | readerTop h1 | read _ h1 | readFailed h1 | readerClose h1 | readerFlag h1 | put h1 | invoke h1 => rw [hr] at h1; cases h1
  | giveUp h1 => exact absurd (giveUp_reader _ _) hm
  | _ => exact absurd rfl hm

/-- A response that no request waits for changes nothing. -/
theorem C47_unmatched {s s' : State N R H} {id : Nat} {a : Answer} (hr : s.reader = .answering id a) (hp : ∀ x ∈ s.pending, x.1 ≠ id % 2 ^ 64)
    (hs : Step parseN parseR s s') (hm : s'.reader ≠ s.reader) : s' = { s with reader := .top } := by
  have hlook : s.pending.lookup (id % 2 ^ 64) = none := by
    cases hlo : s.pending.lookup (id % 2 ^ 64) with
    | none => rfl
    | some k => exact absurd rfl (hp _ ((lookup_perm hlo).mem_iff.2 List.mem_cons_self))
  cases hs with
  | lookUp h1 =>
    rw [hr] at h1
    cases h1
    rw [State.lookUp, hlook]
  | readerTop h1 | read _ h1 | readFailed h1 | readerClose h1 | readerFlag h1 | put h1 | invoke h1 => rw [hr] at h1; cases h1
  | giveUp h1 => exact absurd (giveUp_reader _ _) hm
  | _ => exact absurd rfl hm

/-- What was read as a response is answered as such: the reader takes the message to the handler, and to nothing else. -/
theorem C47_reader {s s' : State N R H} {id : Nat} {k : H} {a : Answer} (hr : s.reader = .invoking id k a) (hs : Step parseN parseR s s')
    (hm : s'.reader ≠ s.reader) : s'.answers = s.answers ++ [(id, k, a)] ∧ s'.pending = s.pending := by
  cases hs with
  | invoke h1 => rw [hr] at h1; cases h1; exact ⟨rfl, rfl⟩
  | readerTop h1 | read _ h1 | readFailed h1 | readerClose h1 | readerFlag h1 | put h1 | lookUp h1 => rw [hr] at h1; cases h1
  | giveUp h1 => exact absurd (giveUp_reader _ _) hm
  | _ => exact absurd rfl hm

/-- When the loop ends, all requests in the table are answered with an error, and stay answered. -/
theorem C47_disconnect {s s1 s2 : State N R H} {o : Outcome} (hm : s.main = .closing o) (hs : Step parseN parseR s s1) (hne : s1.main ≠ s.main)
    (h2 : Steps parseN parseR s1 s2) : s1.pending = [] ∧ ∀ x ∈ s.pending, (x.1, x.2, .disconnected) ∈ s2.answers := by
  cases hs with
  | close h1 =>
    refine ⟨rfl, fun x hx => (steps_grows h2).answers.subset ?_⟩
    exact List.mem_append_right _ (List.mem_map.2 ⟨x, hx, rfl⟩)
  | take h1 => rw [hm] at h1; rcases h1 with h1 | h1 <;> cases h1
  | nothing h | timer h | noTimer h | idle h | noIdle h | timeout h | lastIdle h | noLastIdle h | handle h | done _ h | panic h | ask h | askNumber _ h | resume h | reply h | replyFails h | replyPanics h | flag h =>
    rw [hm] at h; cases h
  | giveUp h1 => exact absurd (giveUp_main _ _) hne
  | lookUp h1 => exact absurd (lookUp_main _ _ _) hne
  | _ => exact absurd rfl hne

/-- When the stream fails while the handler waits for the answer to a request in the table, the reader can answer it: the next
two steps of the reader do. Part of "no caller waits for ever"; see `C47_stuck_refuted`. -/
theorem C47_awaiting_partial {s s1 s2 : State N R H} {e : ReadError} {w : Work N R} {id : Nat} {k : H} (h : Steps parseN parseR .start s)
    (hm : s.main = .awaiting w id) (hp : (id, k) ∈ s.pending) (hr : s.reader = .failed e)
    (h1 : s1 = { s with reader := if s.isBlocked then .closing e else .putting (.error e) }) (h2 : Step parseN parseR s1 s2) (hne : s2.reader ≠ s1.reader) :
    Step parseN parseR s s1 ∧ (id, k, .disconnected) ∈ s2.answers := by
  have hb : s.isBlocked = true :=
    steps_induction (P := Flagged) (fun _ _ hs h => hs.step h) (fun w hw => by rcases hw with hw | ⟨_, hw⟩ <;> cases hw) h w (.inr ⟨id, hm⟩)
  have hr1 : s1.reader = .closing e := by rw [h1]; simp [hb]
  have hp1 : (id, k) ∈ s1.pending := by rw [h1]; exact hp
  refine ⟨by rw [h1]; exact .readFailed hr, ?_⟩
  cases h2 with
  | readerClose h3 => exact List.mem_append_right _ (List.mem_map.2 ⟨_, hp1, rfl⟩)
  | readerTop h3 | read _ h3 | readFailed h3 | readerFlag h3 | put h3 | lookUp h3 | invoke h3 => rw [hr1] at h3; cases h3
  | giveUp h3 => exact absurd (giveUp_reader _ _) hne
  | _ => exact absurd rfl hne

/-- The messages that are not responses, and the error at the end, are handled in the order in which they came, each once. -/
theorem C47_order {s : State N R H} (h : Steps parseN parseR .start s) :
    s.heard.filter forMain = s.taken ++ s.main.received ++ s.rxQueue ++ s.reader.held :=
  steps_induction (P := InOrder) (fun _ _ hs h => hs.step h) (show InOrder .start from rfl) h

/-- The requests of the peer are answered in the order in which they came, each once; while the loop runs, only the request in
the handler is unanswered. -/
theorem C47_replies {s : State N R H} (h : Steps parseN parseR .start s) :
    (∃ rest, s.taken.filterMap requestId = s.replied.map (·.1) ++ rest ∧ ∀ l, s.main.owed = some l → rest = l) ∧
    (repliesOf s.sent).Sublist s.replied :=
  ⟨steps_induction (P := Owes) (fun _ _ hs h => hs.step h) ⟨[], rfl, fun l hl => by cases hl; rfl⟩ h,
    steps_induction (P := fun s => (repliesOf s.sent).Sublist s.replied) (fun _ _ hs h => replied_step h hs) (.refl _) h⟩

/-- A message with a number and a method is a request, one with a method only is a notification, one with an id only is a
response. -/
theorem C47_classified (j : Json) :
    (isResponse j = true ↔ (j.get "id").isSome = true ∧ j.get "method" = none) ∧
    (∀ n, j.get "id" = some (.nat n) → intoRpc parseN parseR j = some (match parseR j with | some r => .request n r | none => .invalidRequest n)) ∧
    (j.get "id" = none → intoRpc parseN parseR j = (parseN j).map .notification) := by
  refine ⟨?_, ?_, ?_⟩
  · rw [isResponse_iff, Option.isSome_iff_exists]
  · intro n hn
    rw [intoRpc, (getId_iff j n).2 hn]
    cases parseR j <;> rfl
  · intro hn
    have : getId j = none := by rw [getId, hn]; rfl
    rw [intoRpc, this]
    cases parseN j <;> rfl

/-- Only objects get through the reader; anything else on the stream ends the loop with an error. -/
theorem C47_lines (l : Line) :
    match l.read with
    | .ok j => l = .value j ∧ ∃ fields, j = .obj fields
    | .error e => (∀ fields, l ≠ .value (.obj fields)) ∧ (afterRead (.error e) : Reader H) = .failed e := by
  cases l with
  | value j => cases j <;> simp [Line.read, Json.isObject, afterRead]
  | _ => simp [Line.read, afterRead]

/-- A response is understood as such, or is an error; `into_response` never crashes. -/
theorem C47_into_response {j : Json} {n : Nat} (h : j.get "id" = some (.nat n)) (hm : j.get "method" = none) :
    ∃ x, intoResponse j = some x ∧ Responds (.ok j) (n % 2 ^ 64) x := intoResponse_spec h hm

/-- The reader crashes only on a message with an id, without a method, whose id is not a natural number.  Part of "malformed
messages never crash the loop"; see `C47_crash_refuted`. -/
theorem C47_reader_crash_partial {s : State N R H} (h : Steps parseN parseR .start s)
    (hid : ∀ j v, .ok j ∈ s.heard → j.get "method" = none → j.get "id" = some v → v.asU64 ≠ none) : s.reader ≠ .crashed := by
  intro hc
  obtain ⟨j, v, h1, h2, h3, h4⟩ := steps_induction (P := fun s : State N R H => s.reader = .crashed → ∃ j v, .ok j ∈ s.heard ∧ j.get "method" = none ∧ j.get "id" = some v ∧ v.asU64 = none)
    (fun _ _ hs h => crashed_step h hs) (fun h => by cases h) h hc
  exact hid j v h1 h2 h3 h4

/-- The main loop itself does not panic on a message, if the types of the handler are found by the method. -/
theorem C47_main_crash_partial (hN : ∀ j n, parseN j = some n → (getMethod j).isSome) (hR : ∀ j r, parseR j = some r → (getMethod j).isSome) (j : Json) :
    afterTake parseN parseR j ≠ .closing .panic := by
  unfold afterTake intoRpc
  cases getId j with
  | none =>
    simp only
    cases hn : parseN j with
    | none => simp
    | some n => simp [hN j n hn]
  | some id =>
    simp only
    cases hr : parseR j with
    | none => simp
    | some r => simp [hR j r hr]

/-- An error ends the loop: it is the last thing that is taken, and after it there is at most one piece of idle work. -/
theorem C47_end {s : State N R H} (h : Steps parseN parseR .start s) :
    s.taken.all isMessage = true ∨ (s.main.ending = true ∧ ∃ pre e, s.taken = pre ++ [.error e] ∧ pre.all isMessage = true) :=
  steps_induction (P := ErrorLast) (fun _ _ hs h => hs.step h) (show ErrorLast .start from .inl rfl) h

/-- When the main loop has ended, the reader takes at most one more message. -/
theorem C47_exit {s s' : State N R H} {o : Outcome} (h : Steps parseN parseR .start s) (hm : s.main = .finished o) (h' : Steps parseN parseR s s') :
    s'.needsExit = true ∧ s'.heard.length ≤ s.heard.length + 1 := by
  have hn : s.needsExit = true := steps_induction (P := Told) (fun _ _ hs h => hs.step h) (fun ⟨_, hm⟩ => by cases hm) h ⟨o, hm⟩
  have := steps_induction (P := fun t : State N R H => t.needsExit = true ∧ hearing t ≤ hearing s)
    (fun _ _ hs h => ⟨step_needsExit h hs.1, Nat.le_trans (hearing_step h hs.1) hs.2⟩) ⟨hn, Nat.le_refl _⟩ h'
  refine ⟨this.1, ?_⟩
  have h1 := this.2
  unfold hearing at h1
  have h2 := reads_le s.reader
  omega

/-- A timer fires when it is due, not before; one that is due first is taken, and the others stay. -/
theorem C47_timers (now : Nat) (ts : List Timer) :
    match checkTimers now ts with
    | some (token, rest) => ∃ t, t.token = token ∧ t.fireAfter ≤ now ∧ (∀ u ∈ ts, t.fireAfter ≤ u.fireAfter) ∧ ts.Perm (t :: rest)
    | none => ∀ u ∈ ts, now < u.fireAfter := by
  rw [checkTimers]
  cases hf : firstTimer ts with
  | none => rw [firstTimer_none hf]; simp
  | some t =>
    obtain ⟨h1, h2⟩ := firstTimer_spec hf
    simp only
    by_cases h3 : t.fireAfter > now
    · rw [if_pos h3]
      intro u hu
      have := h2 u hu
      omega
    · rw [if_neg h3]
      exact ⟨t, rfl, by omega, h2, List.perm_cons_erase h1⟩

/-- Timers and idle work wait for the messages: the loop turns to them only when no message is there. -/
theorem C47_messages_first {s s' : State N R H} (h : Step parseN parseR s s') (hne : s.main ≠ .timers) (hm : s'.main = .timers) : s.rxQueue = [] := by
  cases h with
  | nothing h h1 => exact h1
  | giveUp h => rw [giveUp_main] at hm; exact absurd hm hne
  | lookUp h => rw [lookUp_main] at hm; exact absurd hm hne
  | handle h =>
    have hm : afterTake parseN parseR _ = .timers := hm
    unfold afterTake at hm
    repeat' split at hm
    all_goals cases hm
  | done r h =>
    rename_i w
    have hm : afterWork r w = .timers := hm
    cases w <;> cases hm
  | take h | timer h | noTimer h | idle h | noIdle h | timeout h | lastIdle h | noLastIdle h | panic h | ask h | askNumber _ h | resume h | reply h | replyFails h | replyPanics h | close h | flag h => cases hm
  | _ => exact absurd hm hne

/-- Idle work is done only after the timers were looked at. -/
theorem C47_timers_first {s s' : State N R H} (h : Step parseN parseR s s') (hne : s.main ≠ .idle) (hm : s'.main = .idle) :
    s.main = .timers ∧ ∀ u ∈ s.timers, s.now < u.fireAfter := by
  cases h with
  | noTimer h h1 =>
    have := C47_timers s.now s.timers
    rw [h1] at this
    exact ⟨h, this⟩
  | giveUp h => rw [giveUp_main] at hm; exact absurd hm hne
  | lookUp h => rw [lookUp_main] at hm; exact absurd hm hne
  | handle h =>
    have hm : afterTake parseN parseR _ = .idle := hm
    unfold afterTake at hm
    repeat' split at hm
    all_goals cases hm
  | done r h =>
    rename_i w
    have hm : afterWork r w = .idle := hm
    cases w <;> cases hm
  | take h | timer h | nothing h | idle h | noIdle h | timeout h | lastIdle h | noLastIdle h | panic h | ask h | askNumber _ h | resume h | reply h | replyFails h | replyPanics h | close h | flag h => cases hm
  | _ => exact absurd hm hne

/-- The error object of an RPC error is read back as that error: for an error that can be written at all, with a code of an
`i64` other than that of an invalid request, and with data other than `null`. -/
theorem C47_error_roundtrip_partial {e : RemoteError} {v : Json} (h : e.toJson = some v)
    (hc : ∀ c m d, e = .custom c m d → c ≠ -32600 ∧ -(2 ^ 63) ≤ c ∧ c < 2 ^ 63) (hd : ∀ d, (e = .invalidRequest d ∨ ∃ c m, e = .custom c m d) → d ≠ some .null) :
    RemoteError.ofJson v = e := by
  have key : ∀ (c : Int) (m : String) (d : Option Json), -(2 ^ 63) ≤ c → c < 2 ^ 63 → d ≠ some .null → errorHelper (errorObject c m d) = some (c, m, d) := by
    intro c m d h1 h2 h3
    have hcode : (Json.ofI64 c).asI64 = some c := by
      rw [Json.ofI64]
      split
      · have : c.toNat < 2 ^ 63 := by omega
        simp only [Json.asI64, if_pos this]
        congr 1; omega
      · have : (-c - 1).toNat < 2 ^ 63 := by omega
        simp only [Json.asI64, if_pos this]
        congr 1; omega
    cases d with
    | none => simp [errorObject, errorHelper, List.lookup, hcode, Json.asStr, optionalData]
    | some x =>
      have : optionalData (some x) = some x := by cases x <;> first | rfl | exact absurd rfl h3
      simp [errorObject, errorHelper, List.lookup, hcode, Json.asStr, this]
  cases e with
  | unknown v => cases h
  | invalidRequest d =>
    cases h
    rw [RemoteError.ofJson, key _ _ _ (by decide) (by decide) (hd d (.inl rfl))]
    rfl
  | custom c m d =>
    cases h
    obtain ⟨h1, h2, h3⟩ := hc c m d rfl
    rw [RemoteError.ofJson, key _ _ _ h2 h3 (hd d (.inr ⟨c, m, rfl⟩))]
    simp only [if_neg h1]

/-! ## Runs -/

namespace RpcRun

/-- Handlers that take every message with a method. -/
def parse (j : Json) : Option Unit := if (getMethod j).isSome then some () else none

/-- A notification. -/
def note : Json := .obj [("method", .str "edit")]

/-- A request with number 7. -/
def request : Json := .obj [("id", .nat 7), ("method", .str "get")]

/-- A response to request 0. -/
def response : Json := .obj [("id", .nat 0), ("result", .bool true)]

/-- An id that is not a number. -/
def badId : Json := .obj [("id", .str "x"), ("result", .null)]

/-- The state in which the main loop handles the first message. -/
def handling (m : Json) (w : Main Unit Unit) : State Unit Unit Unit :=
  { (State.start : State Unit Unit Unit) with heard := [.ok m], taken := [.ok m], main := w }

theorem run_note : Steps parse parse .start (handling note (.working (.notification ()))) := by
  have r := Steps.step (parseN := parse) (parseR := parse) (s := (State.start : State Unit Unit Unit)) .refl (.readerTop rfl)
  have r := r.step (.read (.value note) rfl)
  have r := r.step (.put (m := .ok note) rfl)
  have r := r.step (.take (.inl rfl) rfl)
  have r := r.step (.handle rfl)
  exact r

theorem run_request : Steps parse parse .start (handling request (.working (.request 7 ()))) := by
  have r := Steps.step (parseN := parse) (parseR := parse) (s := (State.start : State Unit Unit Unit)) .refl (.readerTop rfl)
  have r := r.step (.read (.value request) rfl)
  have r := r.step (.put (m := .ok request) rfl)
  have r := r.step (.take (.inl rfl) rfl)
  have r := r.step (.handle rfl)
  exact r

theorem resume_of {s : State Unit Unit Unit} {w : Work Unit Unit} {id : Nat} {h : Unit} {a : Answer} (h1 : s.main = .awaiting w id) (h2 : s.sending = [])
    (h3 : s.answers = [(id, h, a)]) : Step parse parse s { s with main := .working w } :=
  .resume h1 (by rw [h2]; simp) ⟨h, a, by rw [h3]; simp⟩

theorem lost_of {s : State Unit Unit Unit} {w : Work Unit Unit} {id : Nat} {h : Unit} (h1 : s.main = .awaiting w id) (h2 : s.reader = .stopped ∨ s.reader = .crashed)
    (h3 : s.sending = []) (h4 : s.pending = [(id, h)]) (h5 : s.answers = []) (h6 : id < s.counter) :
    Lost s w id ∧ ∀ s', Steps parse parse s s' → s'.counter ≤ 2 ^ 64 → s'.main = .awaiting w id :=
  have hl : Lost s w id := ⟨h1, h2, by rw [h3]; simp, ⟨h, by rw [h4]; simp⟩, by rw [h5]; simp, h6⟩
  ⟨hl, fun _ h hc => (hl.steps h hc).main⟩

/-- A run with a request in the handler, that asks the peer and gets its answer before it replies. -/
theorem run_answered : ∃ s : State Unit Unit Unit, Steps parse parse .start s ∧ s.counter = 1 ∧ s.answers = [(0, (), .response (.result (.bool true)))] ∧
    s.sent = [.request 0, .reply 7 (.result .null)] ∧ s.replied = [(7, .result .null)] ∧ s.main = .top := by
  have r := run_request
  have r := r.step (.ask rfl)
  have r := r.step (.askNumber () rfl)
  have r := r.step (.register (pre := []) rfl)
  have r := r.step (.write (pre := []) rfl)
  have r := r.step (.readerTop rfl)
  have r := r.step (.read (.value response) rfl)
  have r := r.step (.lookUp (id := 0) (a := .response (.result (.bool true))) rfl)
  have r := r.step (.invoke (id := 0) (h := ()) (a := .response (.result (.bool true))) rfl)
  have r := r.step (resume_of (w := .request 7 ()) (id := 0) (h := ()) (a := .response (.result (.bool true))) rfl rfl rfl)
  have r := r.step (.done (.result .null) rfl)
  have r := r.step (.reply (id := 7) (r := .result .null) rfl rfl)
  exact ⟨_, r, rfl, rfl, rfl, rfl, rfl⟩

end RpcRun

open RpcRun

/-- The theorems about runs apply: a request of the peer is handled while a request to the peer is answered. -/
example : ∃ s : State Unit Unit Unit, Steps parse parse .start s ∧ s.counter ≤ 2 ^ 64 ∧ s.asked.map (·.1) = [0] ∧
    Reason s 0 (.response (.result (.bool true))) ∧ s.replied.map (·.1) = s.taken.filterMap requestId := by
  obtain ⟨s, h, h1, h2, -, -, h3⟩ := run_answered
  have hc : s.counter ≤ 2 ^ 64 := by omega
  refine ⟨s, h, hc, by rw [(C47_fresh h hc).1, h1]; rfl, C47_truthful h (0, (), .response (.result (.bool true))) (by rw [h2]; simp), ?_⟩
  obtain ⟨rest, h4, h5⟩ := (C47_replies h).1
  rw [h3] at h5
  rw [h4, h5 [] rfl, List.append_nil]

/-- The stream ends while the handler waits for request 0: the hypotheses of `C47_awaiting_partial`. -/
example : ∃ s : State Unit Unit Unit, Steps parse parse .start s ∧ s.main = .awaiting (.notification ()) 0 ∧ s.pending = [(0, ())] ∧ s.reader = .failed .disconnect := by
  have r := run_note
  have r := r.step (.ask rfl)
  have r := r.step (.askNumber () rfl)
  have r := r.step (.register (pre := []) rfl)
  have r := r.step (.write (pre := []) rfl)
  have r := r.step (.readerTop rfl)
  have r := r.step (.read .closed rfl)
  exact ⟨_, r, rfl, rfl, rfl⟩

/-- The loop ends while the request of another thread is in the table: the hypotheses of `C47_disconnect`. -/
example : ∃ s : State Unit Unit Unit, Steps parse parse .start s ∧ s.main = .closing .panic ∧ s.pending = [(0, ())] ∧ s.sent = [.request 0] := by
  have r := run_note
  have r := r.step (.number ())
  have r := r.step (.register (pre := []) rfl)
  have r := r.step (.write (pre := []) rfl)
  have r := r.step (.panic rfl)
  exact ⟨_, r, rfl, rfl, rfl⟩

/-- A response is about to be delivered to request 0, and one to request 1 that nobody sent: the hypotheses of `C47_response` and
`C47_unmatched`. -/
example (n : Nat) : ∃ s : State Unit Unit Unit, Steps parse parse .start s ∧ s.reader = .answering n (.response (.result .null)) ∧ s.pending = [(0, ())] := by
  have r := run_note
  have r := r.step (.number ())
  have r := r.step (.register (pre := []) rfl)
  have r := r.step (.write (pre := []) rfl)
  have r := r.step (.readerTop rfl)
  have r := r.step (.read (.value (.obj [("id", .nat n), ("result", .null)])) rfl)
  exact ⟨_, r, rfl, rfl⟩

/-- Error objects that are read back. -/
example : (RemoteError.custom (-5) "m" (some (.nat 1))).toJson.map RemoteError.ofJson = some (.custom (-5) "m" (some (.nat 1))) := rfl

/-- The parse functions of `C47_main_crash_partial` exist. -/
example : ∀ j n, parse j = some n → (getMethod j).isSome := by
  intro j n h
  unfold parse at h
  split at h
  · assumption
  · cases h

/-- Timers that are not in order. -/
example : checkTimers 5 [⟨9, 1⟩, ⟨3, 2⟩, ⟨4, 3⟩] = some (2, [⟨9, 1⟩, ⟨4, 3⟩]) ∧ checkTimers 2 [⟨9, 1⟩, ⟨3, 2⟩] = none := by decide

/-- The claim that malformed messages never crash the loop is false: a message with an id that is not a number, and without a
method, crashes the reader thread (lib.rs:284).  A handler that waits for an answer then waits for ever, and so does the main
loop. -/
theorem C47_crash_refuted : ∃ s : State Unit Unit Unit, Steps parse parse .start s ∧ s.reader = .crashed ∧ s.heard = [.ok note, .ok badId] ∧
    s.sent = [.request 0] ∧ Lost s (.notification ()) 0 ∧ ∀ s', Steps parse parse s s' → s'.counter ≤ 2 ^ 64 → s'.main = .awaiting (.notification ()) 0 := by
  have r := run_note
  have r := r.step (.ask rfl)
  have r := r.step (.askNumber () rfl)
  have r := r.step (.register (pre := []) rfl)
  have r := r.step (.write (pre := []) rfl)
  have r := r.step (.readerTop rfl)
  have r := r.step (.read (.value badId) rfl)
  exact ⟨_, r, rfl, rfl, rfl, lost_of (h := ()) rfl (.inr rfl) rfl rfl rfl (show 0 < 1 by decide)⟩

/-- The claim that a disconnect fails all outstanding requests is false: when the stream ends before the handler asks for the
first time, the reader does not look at the table any more (lib.rs:275), the request is still written, and the handler waits for
ever.  The main loop never sees the end of the stream. -/
theorem C47_stuck_refuted : ∃ s : State Unit Unit Unit, Steps parse parse .start s ∧ s.reader = .stopped ∧ s.heard = [.ok note, .error .disconnect] ∧
    s.sent = [.request 0] ∧ Lost s (.notification ()) 0 ∧ ∀ s', Steps parse parse s s' → s'.counter ≤ 2 ^ 64 → s'.main = .awaiting (.notification ()) 0 := by
  have r := run_note
  have r := r.step (.readerTop rfl)
  have r := r.step (.read .closed rfl)
  have r := r.step (.readFailed rfl)
  have r := r.step (.put (m := .error .disconnect) rfl)
  have r := r.step (.ask rfl)
  have r := r.step (.askNumber () rfl)
  have r := r.step (.register (pre := []) rfl)
  have r := r.step (.write (pre := []) rfl)
  exact ⟨_, r, rfl, rfl, rfl, lost_of (h := ()) rfl (.inl rfl) rfl rfl rfl (show 0 < 1 by decide)⟩

/-- The flag `is_blocked` does not prevent this: the table may be emptied between the moment the flag is set and the moment
the request enters the table (lib.rs:426 and 470). -/
theorem C47_race_refuted : ∃ s : State Unit Unit Unit, Steps parse parse .start s ∧ s.isBlocked = true ∧ s.needsExit = true ∧ s.reader = .stopped ∧
    Lost s (.notification ()) 0 ∧ ∀ s', Steps parse parse s s' → s'.counter ≤ 2 ^ 64 → s'.main = .awaiting (.notification ()) 0 := by
  have r := run_note
  have r := r.step (.ask rfl)
  have r := r.step (.readerTop rfl)
  have r := r.step (.read .closed rfl)
  have r := r.step (.readFailed rfl)
  have r := r.step (.readerClose (e := .disconnect) rfl)
  have r := r.step (.readerFlag (e := .disconnect) rfl)
  have r := r.step (.put (m := .error .disconnect) rfl)
  have r := r.step (.askNumber () rfl)
  have r := r.step (.register (pre := []) rfl)
  have r := r.step (.write (pre := []) rfl)
  exact ⟨_, r, rfl, rfl, rfl, lost_of (h := ()) rfl (.inl rfl) rfl rfl rfl (show 0 < 1 by decide)⟩

/-- A message with a method and an id that is not a natural number is taken for a notification: the peer never gets an answer. -/
theorem C47_request_id_refuted : isResponse (.obj [("id", .str "x"), ("method", .str "get")]) = false ∧
    intoRpc parse parse (.obj [("id", .str "x"), ("method", .str "get")]) = some (.notification ()) := by
  exact ⟨rfl, rfl⟩

/-- Errors are not always read back as they were written: a custom error with the code of an invalid request, and `null` as data;
and an error of an unknown kind cannot be written at all (the process panics). -/
theorem C47_error_roundtrip_refuted :
    (RemoteError.custom (-32600) "m" none).toJson.map RemoteError.ofJson = some (.invalidRequest none) ∧
    (RemoteError.custom 1 "m" (some .null)).toJson.map RemoteError.ofJson = some (.custom 1 "m" none) ∧
    (RemoteError.unknown .null).toJson.isNone = true := by
  exact ⟨rfl, rfl, rfl⟩

end Xi
