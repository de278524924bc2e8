import Verif.Props.LspMessage
import Verif.Spec.Requests

/-!
# Requests to a language server and its messages (lsp-lib/src/language_server_client.rs): C106
-/

namespace Xi

namespace Lsp

variable {CB R E : Type}

/-- **C106.**  The number of a request survives the way to the server and back, as a number and, below 2^63, in digits. -/
theorem C106_number {n : Nat} (h : n < 2 ^ 64) : numberFromId (.num (toI64 n)) = some n ∧ numberFromId (.str (Nat.toDigits 10 n)) = some n := by
  refine ⟨?_, radix_digits h⟩
  simp only [numberFromId, toI64, toU64, Option.some.injEq]
  split <;> split <;> omega

theorem sameId_number {n : Nat} (h : n < 2 ^ 64) {id' : MsgId} (hs : SameId (.num (toI64 n)) id') : numberFromId id' = some n := by
  generalize hid : MsgId.num (toI64 n) = id at hs
  cases hs with
  | num => rw [← hid]; exact (C106_number h).1
  | @digits m hm =>
    have e : toI64 n = m := MsgId.num.inj hid
    have : n = m := by
      simp only [toI64] at e
      split at e <;> omega
    subst this
    exact (C106_number h).2

theorem toI64_inj {m n : Nat} (hm : m < 2 ^ 64) (hn : n < 2 ^ 64) (h : toI64 m = toI64 n) : m = n := by
  have := (C106_number hm).1
  rw [h, (C106_number hn).1] at this
  exact (Option.some.inj this).symm

/-- What is always so. -/
structure RequestInv (s : RequestWorld CB R E) : Prop where
  small : s.client.nextId < 2 ^ 64
  sent : ∀ id cb, (id, cb) ∈ s.record.sent → ∃ n, n < s.client.nextId ∧ id = .num (toI64 n)
  once : (s.record.sent.map Prod.fst).Nodup
  pending : ∀ n cb, n < 2 ^ 64 → (s.client.pending.lookup n = some cb ↔ (.num (toI64 n), cb) ∈ s.record.sent ∧ .num (toI64 n) ∉ s.answered)
  answered : s.answered.Nodup
  called : s.record.called.map (fun e => e.2.1) = s.answered
  right : ∀ cb id r, (cb, id, r) ∈ s.record.called → (id, cb) ∈ s.record.sent

theorem lookup_filter (l : List (Nat × CB)) (k n : Nat) : (l.filter fun e => e.1 ≠ k).lookup n = if n = k then none else l.lookup n := by
  induction l with
  | nil => simp
  | cons e l ih =>
    obtain ⟨a, b⟩ := e
    by_cases hn : n = a
    · subst hn
      by_cases h : n = k
      · rw [List.filter_cons_of_neg (by simpa using h), ih, if_pos h, if_pos h]
      · rw [List.filter_cons_of_pos (by simpa using h), List.lookup_cons, List.lookup_cons, if_neg h]
        simp
    · have hb : (n == a) = false := by simpa using hn
      by_cases h : a = k
      · rw [List.filter_cons_of_neg (by simpa using h), ih, List.lookup_cons, hb]
      · rw [List.filter_cons_of_pos (by simpa using h), List.lookup_cons, List.lookup_cons, hb, ih]

/-- What a message with an answer does. -/
theorem message_answer {c : Requests CB} {m : Incoming R E} {id' : MsgId} {r : Except E R} (hm : m.answer = some (id', r)) {n : Nat} (hn : numberFromId id' = some n) :
    c.message m = c.respond n r := by
  cases m with
  | request => cases hm
  | notification => cases hm
  | bad => cases hm
  | success id result =>
    obtain ⟨rfl, rfl⟩ := Prod.mk.inj (Option.some.inj hm)
    simp [Requests.message, hn]
  | error id e =>
    obtain ⟨rfl, rfl⟩ := Prod.mk.inj (Option.some.inj hm)
    simp [Requests.message, hn]

theorem RequestInv.step {s s' : RequestWorld CB R E} (h : RequestInv s) (hs : RequestStep s s') : RequestInv s' := by
  obtain ⟨hsm, hse, hon, hpe, han, hca, hri⟩ := h
  cases hs with
  | @send cb id client hc =>
    simp only [Requests.send] at hc
    split at hc
    · rename_i hb
      cases hc
      have hnew : ∀ n, n < s.client.nextId → toI64 n ≠ toI64 s.client.nextId := fun n hn he => by
        have := toI64_inj (by omega) hsm he
        omega
      have hfresh : ∀ cb', (MsgId.num (toI64 s.client.nextId), cb') ∉ s.record.sent := by
        intro cb' hm
        obtain ⟨n, hn, he⟩ := hse _ _ hm
        exact hnew n hn (MsgId.num.inj he).symm
      have hfa : MsgId.num (toI64 s.client.nextId) ∉ s.answered := by
        rw [← hca]
        intro hm
        obtain ⟨⟨cb', id, r⟩, h1, h2⟩ := List.mem_map.1 hm
        have h2 : id = _ := h2
        subst h2
        exact hfresh cb' (hri _ _ _ h1)
      refine ⟨hb, ?_, ?_, ?_, han, hca, ?_⟩
      · intro id cb' hm
        rcases List.mem_append.1 hm with hm | hm
        · obtain ⟨n, hn, he⟩ := hse _ _ hm
          exact ⟨n, Nat.lt_succ_of_lt hn, he⟩
        · obtain ⟨rfl, rfl⟩ := Prod.mk.inj (List.mem_singleton.1 hm)
          exact ⟨_, Nat.lt_succ_self _, rfl⟩
      · show ((s.record.sent ++ [_]).map Prod.fst).Nodup
        rw [List.map_append, List.nodup_append]
        refine ⟨hon, by simp, ?_⟩
        intro a ha b hb' he
        subst he
        have hb' : a = _ := List.mem_singleton.1 hb'
        subst hb'
        obtain ⟨⟨id, cb'⟩, h1, h2⟩ := List.mem_map.1 ha
        have h2 : id = _ := h2
        subst h2
        exact hfresh cb' h1
      · intro n cb' hn
        show ((s.client.nextId, cb) :: s.client.pending.filter _).lookup n = some cb' ↔ (_, cb') ∈ s.record.sent ++ [(_, cb)] ∧ _
        rw [List.lookup_cons, lookup_filter]
        by_cases he : n = s.client.nextId
        · subst he
          simp only [beq_self_eq_true]
          constructor
          · intro e
            cases e
            exact ⟨by simp, hfa⟩
          · rintro ⟨hm, -⟩
            rcases List.mem_append.1 hm with hm | hm
            · exact absurd hm (hfresh cb')
            · rw [(Prod.mk.inj (List.mem_singleton.1 hm)).2]
        · have hb2 : (n == s.client.nextId) = false := by simpa using he
          simp only [hb2, he, if_false]
          rw [hpe n cb' hn]
          constructor
          · rintro ⟨h1, h2⟩
            exact ⟨List.mem_append_left _ h1, h2⟩
          · rintro ⟨h1, h2⟩
            refine ⟨?_, h2⟩
            rcases List.mem_append.1 h1 with h1 | h1
            · exact h1
            · have := MsgId.num.inj (Prod.mk.inj (List.mem_singleton.1 h1)).1
              exact absurd (toI64_inj hn hsm this) he
      · intro cb' id r hm
        exact List.mem_append_left _ (hri _ _ _ hm)
    · cases hc
  | @answer m id id' r cb cb' r' client hm hsent hsame hna hc =>
    obtain ⟨n, hn, rfl⟩ := hse _ _ hsent
    have hn64 : n < 2 ^ 64 := by omega
    rw [message_answer hm (sameId_number hn64 hsame)] at hc
    have hl : s.client.pending.lookup n = some cb := (hpe n cb hn64).2 ⟨hsent, hna⟩
    simp only [Requests.respond, hl] at hc
    cases hc
    refine ⟨hsm, hse, hon, ?_, ?_, ?_, ?_⟩
    · intro k cb'' hk
      show (s.client.pending.filter _).lookup k = some cb'' ↔ _ ∧ _ ∉ s.answered ++ [_]
      rw [lookup_filter]
      by_cases he : k = n
      · subst he
        simp
      · have : toI64 k ≠ toI64 n := fun c => he (toI64_inj hk hn64 c)
        rw [if_neg he, hpe k cb'' hk]
        simp [this]
    · show (s.answered ++ [_]).Nodup
      rw [List.nodup_append]
      refine ⟨han, by simp, ?_⟩
      intro a ha b hb he
      subst he
      rw [List.mem_singleton.1 hb] at ha
      exact hna ha
    · show (s.record.called ++ [_]).map _ = s.answered ++ [_]
      rw [List.map_append, hca]
      rfl
    · intro c i x hx
      rcases List.mem_append.1 hx with hx | hx
      · exact hri _ _ _ hx
      · cases List.mem_singleton.1 hx
        exact hsent
  | @other m client hm hc =>
    have : client = s.client := by
      cases m with
      | request => cases hc; rfl
      | notification => cases hc; rfl
      | bad => cases hc; rfl
      | success id r => cases hm
      | error id e => cases hm
    subst this
    exact ⟨hsm, hse, hon, hpe, han, hca, hri⟩

theorem RequestReach.inv {s : RequestWorld CB R E} (h : RequestReach s) : RequestInv s := by
  induction h with
  | start => exact ⟨show 1 < 2 ^ 64 by decide, by simp, by simp, by simp, by simp, rfl, by simp⟩
  | step _ hs ih => exact ih.step hs

/-- **C106 (in part).**  An answer to a request that was sent and has not been answered never panics, however its number is written; it calls the
callback of that request with the answer. -/
theorem C106_answer_partial {s : RequestWorld CB R E} (h : RequestReach s) {id id' : MsgId} {cb : CB} (hs : (id, cb) ∈ s.record.sent) (hn : id ∉ s.answered)
    (hi : SameId id id') {m : Incoming R E} {r : Except E R} (hm : m.answer = some (id', r)) : ∃ client, s.client.message m = some (client, some (cb, r)) := by
  obtain ⟨n, hlt, rfl⟩ := h.inv.sent _ _ hs
  have hsm := h.inv.small
  rw [message_answer hm (sameId_number (by omega) hi), Requests.respond, (h.inv.pending n cb (by omega)).2 ⟨hs, hn⟩]
  exact ⟨_, rfl⟩

/-- **C106.**  No two requests have the same id, and each callback is called at most once, for its own request, if the server answers each
request at most once. -/
theorem C106_once {s : RequestWorld CB R E} (h : RequestReach s) : (s.record.sent.map Prod.fst).Nodup ∧ (s.record.called.map fun e => e.2.1).Nodup ∧
    ∀ cb id r, (cb, id, r) ∈ s.record.called → (id, cb) ∈ s.record.sent :=
  ⟨h.inv.once, h.inv.called ▸ h.inv.answered, h.inv.right⟩

/-- **C106.**  Anything but an answer leaves the requests alone and does not panic: a text that is no message, too. -/
theorem C106_others (c : Requests CB) {m : Incoming R E} (h : m.answer = none) : c.message m = some (c, none) := by
  cases m with
  | request => rfl
  | notification => rfl
  | bad => rfl
  | success id r => cases h
  | error id e => cases h

/-- **C106.**  The client has a callback for exactly the requests that are not answered. -/
theorem C106_pending {s : RequestWorld CB R E} (h : RequestReach s) {n : Nat} (hn : n < 2 ^ 64) (cb : CB) :
    s.client.pending.lookup n = some cb ↔ (.num (toI64 n), cb) ∈ s.record.sent ∧ .num (toI64 n) ∉ s.answered := h.inv.pending n cb hn

/-! ## Cases -/

/-- Two requests. -/
def twoRequests : Requests String := ⟨[(2, "hover"), (1, "init")], 3⟩

example : (({} : Requests String).send "init").bind (fun r => r.2.send "hover") = some (.num 2, twoRequests) := rfl
example : (twoRequests.message (.success (.str ['1']) 7 : Incoming Nat Unit)) = some (⟨[(2, "hover")], 3⟩, some ("init", .ok 7)) := rfl
example : SameId (.num 12) (.str ['1', '2']) := .digits (n := 12) (by decide)

/-- **C106, refuted.**  Answers make the plugin panic: an error without an id (as JSON-RPC has it for requests that could not be read), a word for
an id, and a second answer to a request. -/
theorem C106_id_refuted : (twoRequests.message (.error .none () : Incoming Nat Unit)).isNone ∧ (twoRequests.message (.success (.str "one".toList) 7 : Incoming Nat Unit)).isNone ∧
    ((twoRequests.message (.success (.num 1) 7 : Incoming Nat Unit)).bind fun r => r.1.message (.success (.num 1) 7 : Incoming Nat Unit)).isNone := ⟨rfl, rfl, rfl⟩

/-- **C106, refuted.**  After such an answer the mutex of the client is poisoned: answers to other requests are lost, and the next request panics. -/
theorem C106_poisoned_refuted : (lockedMessage (some twoRequests) (.error .none () : Incoming Nat Unit)).1 = none ∧
    (∀ m : Incoming Nat Unit, lockedMessage (none : Option (Requests String)) m = (none, none)) ∧ lockedSend (none : Option (Requests String)) "hover" = none :=
  ⟨rfl, fun _ => rfl, rfl⟩

/-- **C106, refuted.**  A request of the server is not answered: nothing is sent, and nothing is kept of it. -/
theorem C106_request_refuted (c : Requests CB) : c.message (.request : Incoming R E) = some (c, none) := rfl

end Lsp

end Xi
