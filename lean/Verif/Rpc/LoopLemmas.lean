import Verif.Spec.Rpc

/-!
# Invariants of the RPC loop
-/

namespace Xi

namespace Rpc

variable {N R H : Type}

theorem perm_insertPending (id : Nat) (h : H) : ∀ (p : List (Nat × H)), (∀ x ∈ p, x.1 ≠ id) → (insertPending id h p).Perm ((id, h) :: p)
  | [], _ => .refl _
  | (k, v) :: rest, hp => by
    rw [insertPending]
    split
    · exact .refl _
    · split
      · rename_i hk
        exact absurd hk.symm (hp (k, v) (by simp))
      · exact ((perm_insertPending id h rest (fun x hx => hp x (by simp [hx]))).cons _).trans (.swap _ _ _)

theorem mem_insertPending {id k : Nat} {h v : H} : ∀ {p : List (Nat × H)}, k ≠ id → (k, v) ∈ p → (k, v) ∈ insertPending id h p
  | [], _, hm => by simp at hm
  | (a, b) :: rest, hne, hm => by
    rw [insertPending]
    split
    · simp only [List.mem_cons] at hm ⊢; exact .inr hm
    · split
      · rename_i hk
        simp only [List.mem_cons, Prod.mk.injEq] at hm ⊢
        rcases hm with ⟨h1, -⟩ | hm
        · exact absurd (h1.trans hk.symm) hne
        · exact .inr hm
      · simp only [List.mem_cons] at hm ⊢
        rcases hm with hm | hm
        · exact .inl hm
        · exact .inr (mem_insertPending hne hm)

theorem lookup_perm {id : Nat} {h : H} : ∀ {p : List (Nat × H)}, p.lookup id = some h → p.Perm ((id, h) :: removePending id p)
  | [], hl => by simp at hl
  | (k, v) :: rest, hl => by
    rw [List.lookup_cons] at hl
    rw [removePending, List.eraseP_cons]
    by_cases hk : id = k
    · subst hk
      simp at hl
      simp [hl]
    · rw [beq_false_of_ne hk] at hl
      rw [beq_false_of_ne (Ne.symm hk)]
      simp only [cond_false] at *
      exact ((lookup_perm hl).cons _).trans (.swap _ _ _)

theorem mem_removePending {id k : Nat} {v : H} {p : List (Nat × H)} (hne : k ≠ id) : (k, v) ∈ removePending id p ↔ (k, v) ∈ p :=
  List.mem_eraseP_of_neg (by simpa using hne)

theorem lookup_none {id : Nat} : ∀ {p : List (Nat × H)}, p.lookup id = none → ∀ x ∈ p, x.1 ≠ id
  | [], _, x, hx => by simp at hx
  | (k, v) :: rest, hl, x, hx => by
    rw [List.lookup_cons] at hl
    split at hl
    · simp at hl
    · rename_i hk
      rcases List.mem_cons.1 hx with rfl | hx
      · intro h; exact absurd h.symm (by simpa using hk)
      · exact lookup_none hl x hx

theorem numberedOnly_append (a b : List (Sending H)) : numberedOnly (a ++ b) = numberedOnly a ++ numberedOnly b := List.filterMap_append

theorem numberedOnly_numbered (id : Nat) (h : H) (l : List (Sending H)) : numberedOnly (⟨id, h, .numbered⟩ :: l) = (id, h) :: numberedOnly l := by
  simp [numberedOnly]

theorem numberedOnly_other {x : Sending H} (hx : x.stage ≠ .numbered) (l : List (Sending H)) : numberedOnly (x :: l) = numberedOnly l := by
  simp [numberedOnly, hx]

theorem Ledger.nodup {s : State N R H} (hs : Ledger s) : (s.asked.map (·.1)).Nodup := by
  rw [hs.numbers]; exact List.nodup_range

theorem afterRead_delivering (m : Except ReadError Json) : (afterRead m : Reader H).delivering = [] := by
  unfold afterRead
  repeat' split
  all_goals rfl

theorem afterPut_delivering (m : Except ReadError Json) : (afterPut m : Reader H).delivering = [] := by
  cases m <;> rfl

/-- Compares two lists by counting. -/
macro "perm_count" : tactic => `(tactic| (classical rw [List.perm_iff_count]; intro a; simp only [List.count_append, List.count_cons, List.count_nil]; omega))

theorem map_disconnected (p : List (Nat × H)) (d : Answer) : (p.map (fun x => (x.1, x.2, d))).map (fun x => (x.1, x.2.1)) = p := by
  simp [Function.comp_def]

/-- The places after a step that only moves requests. -/
theorem Ledger.move {s s' : State N R H} (hs : Ledger s) (h1 : s'.asked = s.asked) (h2 : s'.counter = s.counter)
    (h3 : (numberedOnly s.sending ++ s.pending ++ s.reader.delivering ++ s.answers.map (fun x => (x.1, x.2.1))).Perm
      (numberedOnly s'.sending ++ s'.pending ++ s'.reader.delivering ++ s'.answers.map (fun x => (x.1, x.2.1)))) : Ledger s' :=
  ⟨by rw [h1, h2]; exact hs.numbers, by rw [h1]; exact hs.places.trans h3⟩

theorem Ledger.number {s : State N R H} (hs : Ledger s) (hc : s.counter + 1 ≤ 2 ^ 64) (h : H) : Ledger (s.number h) := by
  have hf : s.freshId = s.counter := by rw [State.freshId]; exact Nat.mod_eq_of_lt (by omega)
  refine ⟨?_, ?_⟩
  · show (s.asked ++ [(s.freshId, h)]).map (·.1) = List.range (s.counter + 1)
    rw [List.map_append, hs.numbers, List.range_succ, hf]
    rfl
  · show (s.asked ++ [(s.freshId, h)]).Perm (numberedOnly (s.sending ++ [⟨s.freshId, h, .numbered⟩]) ++ s.pending ++ s.reader.delivering ++ _)
    rw [numberedOnly_append, numberedOnly_numbered]
    show (s.asked ++ [(s.freshId, h)]).Perm (numberedOnly s.sending ++ [(s.freshId, h)] ++ s.pending ++ s.reader.delivering ++ s.answers.map (fun x => (x.1, x.2.1)))
    refine (List.perm_append_comm.trans ?_).trans ((hs.places.append_left [(s.freshId, h)]).trans ?_)
    · exact .refl _
    · simp only [List.append_assoc]
      exact (List.perm_append_comm_assoc _ _ _)

theorem step_counter {parseN : Json → Option N} {parseR : Json → Option R} {s s' : State N R H} (h : Step parseN parseR s s') : s.counter ≤ s'.counter := by
  cases h with
  | number h => exact Nat.le_succ _
  | askNumber h _ => exact Nat.le_succ _
  | giveUp h => rw [State.giveUp]; split <;> exact Nat.le_refl _
  | lookUp h => rw [State.lookUp]; split <;> exact Nat.le_refl _
  | _ => exact Nat.le_refl _

theorem Ledger.step {parseN : Json → Option N} {parseR : Json → Option R} {s s' : State N R H} (hs : Ledger s) (h : Step parseN parseR s s') (hc : s'.counter ≤ 2 ^ 64) : Ledger s' := by
  cases h with
  | number h => exact hs.number hc h
  | askNumber h h1 =>
    have := hs.number hc h
    exact ⟨this.numbers, this.places⟩
  | register h =>
    rename_i pre post id h1
    refine hs.move rfl rfl ?_
    rw [h]
    simp only [numberedOnly_append, numberedOnly_numbered, numberedOnly_other (x := ⟨id, h1, .registered⟩) (by simp)]
    have hnd := hs.nodup
    have hp := (hs.places.map (·.1)).nodup_iff.1 hnd
    rw [h, numberedOnly_append, numberedOnly_numbered] at hp
    have hfresh : ∀ x ∈ s.pending, x.1 ≠ id := by
      intro x hx he
      simp only [List.map_append, List.map_cons, List.append_assoc] at hp
      rw [List.nodup_append] at hp
      have h2 := hp.2.1
      rw [List.cons_append, List.nodup_cons] at h2
      exact h2.1 (by simp only [List.mem_append, List.mem_map]; exact .inr (.inl ⟨x, hx, he⟩))
    refine List.Perm.append_right _ (List.Perm.append_right _ ?_)
    refine List.Perm.trans ?_ (List.Perm.append_left _ (perm_insertPending id h1 s.pending hfresh).symm)
    simp only [List.append_assoc, List.cons_append]
    exact List.Perm.append_left _ (List.perm_middle (l₁ := numberedOnly post)).symm
  | write h =>
    rename_i pre post id h1
    refine hs.move rfl rfl ?_
    rw [h]
    simp only [numberedOnly_append, numberedOnly_other (x := ⟨id, h1, .registered⟩) (by simp)]
    exact .refl _
  | writeFails h =>
    rename_i pre post id h1
    refine hs.move rfl rfl ?_
    rw [h]
    simp only [numberedOnly_append, numberedOnly_other (x := ⟨id, h1, .registered⟩) (by simp), numberedOnly_other (x := ⟨id, h1, .failed⟩) (by simp)]
    exact .refl _
  | giveUp h =>
    rename_i pre post id h1
    rw [State.giveUp]
    split
    · rename_i h2 hl
      refine hs.move rfl rfl ?_
      rw [h]
      simp only [numberedOnly_append, numberedOnly_other (x := ⟨id, h1, .failed⟩) (by simp), List.map_append, List.map_cons, List.map_nil]
      have := lookup_perm hl
      simp only at this
      refine ((((this.append_left _).append_right _).append_right _)).trans ?_
      perm_count
    · refine hs.move rfl rfl ?_
      rw [h]
      simp only [numberedOnly_append, numberedOnly_other (x := ⟨id, h1, .failed⟩) (by simp)]
      exact .refl _
  | read l h =>
    refine hs.move rfl rfl ?_
    show (_ ++ s.reader.delivering ++ _).Perm (_ ++ (afterRead l.read : Reader H).delivering ++ _)
    rw [afterRead_delivering, h]
    exact .refl _
  | put h =>
    rename_i m
    refine hs.move rfl rfl ?_
    show (_ ++ s.reader.delivering ++ _).Perm (_ ++ (afterPut m : Reader H).delivering ++ _)
    rw [afterPut_delivering, h]
    exact .refl _
  | readerTop h =>
    refine hs.move rfl rfl ?_
    simp only [h]
    split <;> exact .refl _
  | readFailed h =>
    refine hs.move rfl rfl ?_
    simp only [h]
    split <;> exact .refl _
  | readerClose h =>
    refine hs.move rfl rfl ?_
    simp only [h, State.drain, Reader.delivering, List.append_nil, List.map_append, map_disconnected]
    perm_count
  | close h =>
    refine hs.move rfl rfl ?_
    simp only [State.drain, List.append_nil, List.map_append, map_disconnected]
    perm_count
  | readerFlag h =>
    refine hs.move rfl rfl ?_
    simp only [h, Reader.delivering]
    exact .refl _
  | lookUp h =>
    rename_i id a
    rw [State.lookUp]
    split
    · rename_i h2 hl
      refine hs.move rfl rfl ?_
      simp only [h, Reader.delivering]
      have := lookup_perm hl
      refine ((((this.append_left _).append_right _).append_right _)).trans ?_
      perm_count
    · refine hs.move rfl rfl ?_
      simp only [h, Reader.delivering]
      exact .refl _
  | invoke h =>
    refine hs.move rfl rfl ?_
    simp only [h, Reader.delivering, List.map_append, List.map_cons, List.map_nil, List.append_nil]
    perm_count
  | _ => exact ⟨hs.numbers, hs.places⟩

/-- The counter has not wrapped around. -/
theorem Ledger.steps {parseN : Json → Option N} {parseR : Json → Option R} {s s' : State N R H} (hs : Ledger s) (h : Steps parseN parseR s s') (hc : s'.counter ≤ 2 ^ 64) : Ledger s' := by
  induction h with
  | refl => exact hs
  | step h1 h2 ih => exact (ih (Nat.le_trans (step_counter h2) hc)).step h2 hc

theorem ledger_start : Ledger (State.start : State N R H) := ⟨rfl, .refl _⟩

theorem steps_trans {parseN : Json → Option N} {parseR : Json → Option R} {s s' s'' : State N R H} (h : Steps parseN parseR s s') (h' : Steps parseN parseR s' s'') : Steps parseN parseR s s'' := by
  induction h' with
  | refl => exact h
  | step _ h2 ih => exact .step ih h2

/-- Invariants go along the steps. -/
theorem steps_induction {parseN : Json → Option N} {parseR : Json → Option R} {P : State N R H → Prop} (hstep : ∀ s s', P s → Step parseN parseR s s' → P s')
    {s s' : State N R H} (hs : P s) (h : Steps parseN parseR s s') : P s' := by
  induction h with
  | refl => exact hs
  | step _ h2 ih => exact hstep _ _ ih h2

/-- Records only grow. -/
structure Grows (s s' : State N R H) : Prop where
  asked : s.asked <+: s'.asked
  answers : s.answers <+: s'.answers
  sent : s.sent <+: s'.sent
  unsent : s.unsent <+: s'.unsent
  heard : s.heard <+: s'.heard
  taken : s.taken <+: s'.taken
  replied : s.replied <+: s'.replied

theorem Grows.refl (s : State N R H) : Grows s s := by constructor <;> exact List.prefix_rfl

theorem Grows.trans {s s' s'' : State N R H} (h : Grows s s') (h' : Grows s' s'') : Grows s s'' :=
  ⟨h.1.trans h'.1, h.2.trans h'.2, h.3.trans h'.3, h.4.trans h'.4, h.5.trans h'.5, h.6.trans h'.6, h.7.trans h'.7⟩

theorem step_grows {parseN : Json → Option N} {parseR : Json → Option R} {s s' : State N R H} (h : Step parseN parseR s s') : Grows s s' := by
  cases h with
  | giveUp h => rw [State.giveUp]; split <;> constructor <;> first | exact List.prefix_rfl | exact List.prefix_append _ _
  | lookUp h => rw [State.lookUp]; split <;> constructor <;> first | exact List.prefix_rfl | exact List.prefix_append _ _
  | _ => constructor <;> first | exact List.prefix_rfl | exact List.prefix_append _ _

theorem steps_grows {parseN : Json → Option N} {parseR : Json → Option R} {s s' : State N R H} (h : Steps parseN parseR s s') : Grows s s' := by
  induction h with
  | refl => exact .refl _
  | step _ h2 ih => exact ih.trans (step_grows h2)

theorem afterPut_error (e : ReadError) : (afterPut (.error e) : Reader H) = .stopped := rfl

theorem giveUp_main (s : State N R H) (id : Nat) : (s.giveUp id).main = s.main := by rw [State.giveUp]; split <;> rfl

theorem giveUp_reader (s : State N R H) (id : Nat) : (s.giveUp id).reader = s.reader := by rw [State.giveUp]; split <;> rfl

theorem lookUp_main (s : State N R H) (id : Nat) (a : Answer) : (s.lookUp id a).main = s.main := by rw [State.lookUp]; split <;> rfl

/-- The main thread after a step, when it has ended. -/
theorem step_main_ended {parseN : Json → Option N} {parseR : Json → Option R} {s s' : State N R H} (h : Step parseN parseR s s')
    (he : ∃ o, s.main = .flagging o ∨ s.main = .finished o) : ∃ o, s'.main = .flagging o ∨ s'.main = .finished o := by
  obtain ⟨o, he⟩ := he
  cases h with
  | giveUp h => exact ⟨o, by rw [giveUp_main]; exact he⟩
  | lookUp h => exact ⟨o, by rw [lookUp_main]; exact he⟩
  | flag h => exact ⟨_, .inr rfl⟩
  | take h h1 => rcases he with he | he <;> rcases h with h | h <;> rw [h] at he <;> cases he
  | nothing h | timer h | noTimer h | idle h | noIdle h | timeout h | lastIdle h | noLastIdle h | handle h | done _ h | panic h | ask h | askNumber _ h | resume h | reply h | replyFails h | replyPanics h | close h =>
    rcases he with he | he <;> rw [h] at he <;> cases he
  | _ => exact ⟨o, he⟩

theorem step_reader_ended {parseN : Json → Option N} {parseR : Json → Option R} {s s' : State N R H} (h : Step parseN parseR s s')
    (he : (∃ e, s.reader = .flagging e ∨ s.reader = .putting (.error e)) ∨ s.reader = .stopped) :
    (∃ e, s'.reader = .flagging e ∨ s'.reader = .putting (.error e)) ∨ s'.reader = .stopped := by
  cases h with
  | giveUp h => rw [giveUp_reader]; exact he
  | readerFlag h => exact .inl ⟨_, .inr rfl⟩
  | put h =>
    rename_i m
    rcases he with ⟨e, he | he⟩ | he
    · rw [h] at he; cases he
    · rw [h] at he; cases he; exact .inr rfl
    · rw [h] at he; cases he
  | readerTop h | read _ h | readFailed h | readerClose h | lookUp h | invoke h =>
    rcases he with ⟨e, he | he⟩ | he <;> rw [h] at he <;> cases he
  | _ => exact he

theorem step_ended {parseN : Json → Option N} {parseR : Json → Option R} {s s' : State N R H} (h : Step parseN parseR s s') (he : Ended s) : Ended s' := by
  rcases he with he | he
  · exact .inl (step_main_ended h he)
  · exact .inr (step_reader_ended h he)

theorem Reason.step {parseN : Json → Option N} {parseR : Json → Option R} {s s' : State N R H} (h : Step parseN parseR s s') {id : Nat} {a : Answer}
    (hr : Reason s id a) : Reason s' id a := by
  have hg := step_grows h
  cases a with
  | response r => obtain ⟨m, hm, hr⟩ := hr; exact ⟨m, hg.heard.subset hm, hr⟩
  | invalidResponse => obtain ⟨m, hm, hr⟩ := hr; exact ⟨m, hg.heard.subset hm, hr⟩
  | disconnected => exact step_ended h hr
  | io => exact hg.unsent.subset hr

/-- `is_response` and `get_id`. -/
theorem isResponse_iff (j : Json) : isResponse j = true ↔ (∃ v, j.get "id" = some v) ∧ j.get "method" = none := by
  simp [isResponse, Option.isSome_iff_exists]

theorem getId_iff (j : Json) (id : Nat) : getId j = some id ↔ j.get "id" = some (.nat id) := by
  rw [getId]
  cases h : j.get "id" with
  | none => simp
  | some v => cases v <;> simp [Json.asU64]

theorem intoResponse_spec {j : Json} {id : Nat} (h : j.get "id" = some (.nat id)) (hm : j.get "method" = none) :
    ∃ x, intoResponse j = some x ∧ Responds (.ok j) (id % 2 ^ 64) x := by
  have hid := (getId_iff j id).2 h
  rw [intoResponse, hid]
  simp only [removed]
  cases hr : j.get "result" with
  | none =>
    cases he : j.get "error" with
    | none => exact ⟨none, by simp, j, id, rfl, hm, h, rfl, .inl ⟨hr, he⟩⟩
    | some e => exact ⟨some (.error (.ofJson e)), by simp, j, id, rfl, hm, h, rfl, hr, e, he, rfl⟩
  | some v =>
    cases he : j.get "error" with
    | none => exact ⟨some (.result v), by simp, j, id, rfl, hm, h, rfl, hr, he⟩
    | some e => exact ⟨none, by simp, j, id, rfl, hm, h, rfl, .inr (by simp [hr, he])⟩

theorem afterRead_answering {m : Except ReadError Json} {id : Nat} {a : Answer} (h : (afterRead m : Reader H) = .answering id a) :
    (∃ r, a = .response r ∧ Responds m (id % 2 ^ 64) (some r)) ∨ (a = .invalidResponse ∧ Responds m (id % 2 ^ 64) none) := by
  unfold afterRead at h
  cases m with
  | error e => cases h
  | ok j =>
    simp only at h
    split at h
    · rename_i hr
      rw [isResponse_iff] at hr
      cases hid : getId j with
      | none => rw [hid] at h; cases h
      | some k =>
        rw [hid] at h
        obtain ⟨x, hx, hresp⟩ := intoResponse_spec ((getId_iff j k).1 hid) hr.2
        simp only [hx] at h
        cases x with
        | none => cases h; exact .inr ⟨rfl, hresp⟩
        | some r => cases h; exact .inl ⟨r, rfl, hresp⟩
    · cases h

/-- Every answer has a reason. -/
structure Truthful (s : State N R H) : Prop where
  answers : ∀ x ∈ s.answers, Reason s x.1 x.2.2
  answering : ∀ id a, s.reader = .answering id a → Reason s (id % 2 ^ 64) a
  invoking : ∀ id h a, s.reader = .invoking id h a → Reason s id a
  failed : ∀ x ∈ s.sending, x.stage = .failed → x.id ∈ s.unsent

/-- A step that leaves the answers and the reader. -/
theorem Truthful.keep {parseN : Json → Option N} {parseR : Json → Option R} {s s' : State N R H} (hs : Truthful s) (h : Step parseN parseR s s')
    (h1 : s'.answers = s.answers) (h2 : s'.reader = s.reader) (h3 : ∀ x ∈ s'.sending, x.stage = .failed → x.id ∈ s'.unsent) : Truthful s' :=
  ⟨fun x hx => (hs.answers x (h1 ▸ hx)).step h, fun id a hr => (hs.answering id a (h2 ▸ hr)).step h,
    fun id k a hr => (hs.invoking id k a (h2 ▸ hr)).step h, h3⟩

/-- A step of the reader that answers nothing. -/
theorem Truthful.turn {parseN : Json → Option N} {parseR : Json → Option R} {s s' : State N R H} (hs : Truthful s) (h : Step parseN parseR s s')
    (h1 : s'.answers = s.answers) (h2 : ∀ id a, s'.reader ≠ .answering id a) (h3 : ∀ id k a, s'.reader ≠ .invoking id k a)
    (h4 : s'.sending = s.sending) (h5 : s'.unsent = s.unsent) : Truthful s' :=
  ⟨fun x hx => (hs.answers x (h1 ▸ hx)).step h, fun id a hr => absurd hr (h2 id a),
    fun id k a hr => absurd hr (h3 id k a), by rw [h4, h5]; exact hs.failed⟩

theorem truthful_start : Truthful (State.start : State N R H) := by
  constructor <;> simp [State.start]

theorem Truthful.step {parseN : Json → Option N} {parseR : Json → Option R} {s s' : State N R H} (hs : Truthful s) (h : Step parseN parseR s s') : Truthful s' := by
  have h0 := h
  cases h with
  | number h =>
    refine hs.keep h0 rfl rfl ?_
    intro x hx hf
    rcases List.mem_append.1 hx with hx | hx
    · exact hs.failed x hx hf
    · rw [List.mem_singleton] at hx; subst hx; cases hf
  | askNumber h h1 =>
    refine hs.keep h0 rfl rfl ?_
    intro x hx hf
    rcases List.mem_append.1 hx with hx | hx
    · exact hs.failed x hx hf
    · rw [List.mem_singleton] at hx; subst hx; cases hf
  | register h =>
    refine hs.keep h0 rfl rfl ?_
    intro x hx hf
    have hx : x ∈ _ := hx
    have := hs.failed x (by
      rw [h]
      simp only [List.mem_append, List.mem_cons] at hx ⊢
      rcases hx with hx | hx | hx
      · exact .inl hx
      · subst hx; cases hf
      · exact .inr (.inr hx)) hf
    exact this
  | write h =>
    refine hs.keep h0 rfl rfl ?_
    intro x hx hf
    have hx : x ∈ _ := hx
    refine hs.failed x ?_ hf
    rw [h]
    simp only [List.mem_append, List.mem_cons] at hx ⊢
    rcases hx with hx | hx
    · exact .inl hx
    · exact .inr (.inr hx)
  | writeFails h =>
    refine hs.keep h0 rfl rfl ?_
    intro x hx hf
    have hx : x ∈ _ := hx
    simp only [List.mem_append, List.mem_cons, List.mem_singleton] at hx ⊢
    rcases hx with hx | hx | hx
    · exact .inl (hs.failed x (by rw [h]; simp [hx]) hf)
    · subst hx; exact .inr (.inl rfl)
    · exact .inl (hs.failed x (by rw [h]; simp [hx]) hf)
  | giveUp h =>
    rename_i pre post id h1
    have hf : ∀ x ∈ pre ++ post, x.stage = .failed → x.id ∈ s.unsent := by
      intro x hx hf
      refine hs.failed x ?_ hf
      rw [h]
      simp only [List.mem_append, List.mem_cons] at hx ⊢
      rcases hx with hx | hx
      · exact .inl hx
      · exact .inr (.inr hx)
    have hid : id ∈ s.unsent := hs.failed ⟨id, h1, .failed⟩ (by rw [h]; simp) rfl
    rw [State.giveUp] at h0 ⊢
    split
    · rename_i h2 hl
      simp only at hl
      simp only [hl] at h0
      refine ⟨?_, fun id a hr => (hs.answering id a hr).step h0, fun id k a hr => (hs.invoking id k a hr).step h0, hf⟩
      intro x hx
      rcases List.mem_append.1 hx with hx | hx
      · exact (hs.answers x hx).step h0
      · rw [List.mem_singleton] at hx; subst hx; exact hid
    · rename_i hl
      simp only at hl
      simp only [hl] at h0
      exact hs.keep h0 rfl rfl hf
  | readerTop h =>
    refine hs.turn h0 rfl ?_ ?_ rfl rfl
    · intro id a; dsimp only; split <;> simp
    · intro id k a; dsimp only; split <;> simp
  | readFailed h =>
    refine hs.turn h0 rfl ?_ ?_ rfl rfl
    · intro id a; dsimp only; split <;> simp
    · intro id k a; dsimp only; split <;> simp
  | readerFlag h => exact hs.turn h0 rfl (by simp) (by simp) rfl rfl
  | put h =>
    rename_i m
    exact hs.turn h0 rfl (by cases m <;> simp [afterPut]) (by cases m <;> simp [afterPut]) rfl rfl
  | read l h =>
    refine ⟨fun x hx => (hs.answers x hx).step h0, ?_, ?_, hs.failed⟩
    · intro id a hr
      have hm : l.read ∈ s.heard ++ [l.read] := by simp
      rcases afterRead_answering hr with ⟨r, rfl, h1⟩ | ⟨rfl, h1⟩
      · exact ⟨_, hm, h1⟩
      · exact ⟨_, hm, h1⟩
    · intro id k a hr
      have : (afterRead l.read : Reader H).delivering = [] := afterRead_delivering _
      rw [show (afterRead l.read : Reader H) = _ from hr] at this
      cases this
  | readerClose h =>
    refine ⟨?_, by simp, by simp, hs.failed⟩
    intro x hx
    rcases List.mem_append.1 hx with hx | hx
    · exact (hs.answers x hx).step h0
    · obtain ⟨y, -, rfl⟩ := List.mem_map.1 hx
      exact .inr (.inl ⟨_, .inl rfl⟩)
  | close h =>
    refine ⟨?_, fun id a hr => (hs.answering id a hr).step h0, fun id k a hr => (hs.invoking id k a hr).step h0, hs.failed⟩
    intro x hx
    rcases List.mem_append.1 hx with hx | hx
    · exact (hs.answers x hx).step h0
    · obtain ⟨y, -, rfl⟩ := List.mem_map.1 hx
      exact .inl ⟨_, .inl rfl⟩
  | lookUp h =>
    rename_i id a
    have hr := hs.answering id a h
    rw [State.lookUp] at h0 ⊢
    split
    · rename_i h2 hl
      simp only [hl] at h0
      refine ⟨fun x hx => (hs.answers x hx).step h0, by simp, ?_, hs.failed⟩
      intro id' k a' hr'
      cases hr'
      exact hr.step h0
    · rename_i hl
      simp only [hl] at h0
      exact hs.turn h0 rfl (by simp) (by simp) rfl rfl
  | invoke h =>
    refine ⟨?_, by simp, by simp, hs.failed⟩
    intro x hx
    rcases List.mem_append.1 hx with hx | hx
    · exact (hs.answers x hx).step h0
    · rw [List.mem_singleton] at hx; subst hx
      exact (hs.invoking _ _ _ h).step h0
  | _ => exact hs.keep h0 rfl rfl hs.failed

/-- The messages are handled in the order in which they came. -/
def InOrder (s : State N R H) : Prop :=
  s.heard.filter forMain = s.taken ++ s.main.received ++ s.rxQueue ++ s.reader.held

theorem afterTake_received (parseN : Json → Option N) (parseR : Json → Option R) (j : Json) : (afterTake parseN parseR j).received = [] := by
  unfold afterTake
  repeat' split
  all_goals rfl

theorem afterWork_received (r : Response) (w : Work N R) : (afterWork r w).received = [] := by
  cases w <;> rfl

theorem afterRead_held (m : Except ReadError Json) : (afterRead m : Reader H).held = [m].filter forMain := by
  unfold afterRead
  cases m with
  | error e => rfl
  | ok j =>
    simp only
    split
    · rename_i hr
      have : [(.ok j : Except ReadError Json)].filter forMain = [] := by simp [forMain, hr]
      rw [this]
      repeat' split
      all_goals rfl
    · rename_i hr
      have : [(.ok j : Except ReadError Json)].filter forMain = [.ok j] := by simp [forMain, hr]
      rw [this]
      rfl

theorem giveUp_heard (s : State N R H) (id : Nat) : (s.giveUp id).heard = s.heard ∧ (s.giveUp id).taken = s.taken ∧ (s.giveUp id).rxQueue = s.rxQueue := by
  rw [State.giveUp]; split <;> exact ⟨rfl, rfl, rfl⟩

theorem InOrder.step {parseN : Json → Option N} {parseR : Json → Option R} {s s' : State N R H} (hs : InOrder s) (h : Step parseN parseR s s') : InOrder s' := by
  unfold InOrder at hs ⊢
  cases h with
  | giveUp h =>
    obtain ⟨h1, h2, h3⟩ := giveUp_heard ({ s with sending := _ } : State N R H) _
    rw [h1, h2, h3, giveUp_main, giveUp_reader]
    exact hs
  | lookUp h =>
    rw [h] at hs
    rw [State.lookUp]
    split <;> exact hs
  | readerTop h =>
    rw [h] at hs
    dsimp only
    split <;> exact hs
  | readFailed h =>
    rw [h] at hs
    dsimp only
    split <;> exact hs
  | read l h =>
    rw [h] at hs
    show (s.heard ++ [l.read]).filter forMain = s.taken ++ s.main.received ++ s.rxQueue ++ (afterRead l.read : Reader H).held
    rw [List.filter_append, hs, afterRead_held]
    simp [Reader.held]
  | put h =>
    rename_i m
    rw [h] at hs
    show s.heard.filter forMain = s.taken ++ s.main.received ++ (s.rxQueue ++ [m]) ++ (afterPut m : Reader H).held
    rw [hs]
    cases m <;> simp [afterPut, Reader.held]
  | readerClose h | readerFlag h | invoke h =>
    rw [h] at hs
    exact hs
  | take h h1 =>
    rename_i m rest
    rw [h1] at hs
    show s.heard.filter forMain = s.taken ++ [m] ++ rest ++ s.reader.held
    rcases h with h | h <;> rw [h] at hs <;> rw [hs] <;> simp [Main.received]
  | lastIdle h | noLastIdle h =>
    rw [h] at hs
    show s.heard.filter forMain = s.taken ++ [.error _] ++ [] ++ s.rxQueue ++ s.reader.held
    rw [hs]; simp [Main.received]
  | handle h =>
    rename_i j
    rw [h] at hs
    show s.heard.filter forMain = s.taken ++ [.ok j] ++ (afterTake parseN parseR j).received ++ s.rxQueue ++ s.reader.held
    rw [afterTake_received, hs]; simp [Main.received]
  | done r h =>
    rw [h] at hs
    show s.heard.filter forMain = s.taken ++ (afterWork r _).received ++ s.rxQueue ++ s.reader.held
    rw [afterWork_received, hs]; simp [Main.received]
  | nothing h | timer h | noTimer h | idle h | noIdle h | timeout h | panic h | ask h | askNumber _ h | resume h | reply h | replyFails h | replyPanics h | close h | flag h =>
    rw [h] at hs
    exact hs
  | _ => exact hs

/-- The requests of the peer are answered in order, each once. -/
def Owes (s : State N R H) : Prop :=
  ∃ rest, s.taken.filterMap requestId = s.replied.map (·.1) ++ rest ∧ (∀ l, s.main.owed = some l → rest = l)

theorem afterTake_owed (parseN : Json → Option N) (parseR : Json → Option R) (j : Json) :
    (afterTake parseN parseR j).owed = none ∨ (afterTake parseN parseR j).owed = some (getId j).toList := by
  unfold afterTake intoRpc
  cases getId j with
  | none =>
    simp only
    cases parseN j with
    | none => exact .inl rfl
    | some n => simp only; split <;> first | exact .inl rfl | exact .inr rfl
  | some id =>
    simp only
    cases parseR j with
    | none => exact .inr rfl
    | some n => simp only; split <;> first | exact .inl rfl | exact .inr rfl

theorem Owes.step {parseN : Json → Option N} {parseR : Json → Option R} {s s' : State N R H} (hs : Owes s) (h : Step parseN parseR s s') : Owes s' := by
  obtain ⟨rest, h1, h2⟩ := hs
  cases h with
  | giveUp h =>
    refine ⟨rest, ?_, by rw [giveUp_main]; exact h2⟩
    rw [State.giveUp]; split <;> exact h1
  | lookUp h =>
    refine ⟨rest, ?_, by rw [lookUp_main]; exact h2⟩
    rw [State.lookUp]; split <;> exact h1
  | take h hq =>
    refine ⟨rest, h1, ?_⟩
    rcases h with h | h <;> rw [h] at h2 <;> exact h2
  | lastIdle h | noLastIdle h =>
    refine ⟨rest, ?_, ?_⟩
    · show (s.taken ++ [_]).filterMap requestId = _
      rw [List.filterMap_append, h1]; simp [requestId]
    · rw [h] at h2
      intro l hl
      first | exact h2 l hl | cases hl
  | handle h =>
    rename_i j
    rw [h] at h2
    have := h2 [] rfl
    subst this
    refine ⟨(getId j).toList, ?_, ?_⟩
    · show (s.taken ++ [Except.ok j]).filterMap requestId = s.replied.map (·.1) ++ _
      rw [List.filterMap_append, h1, List.append_nil]
      cases hg : getId j <;> simp [requestId, hg]
    · intro l hl
      rcases afterTake_owed parseN parseR j with h3 | h3
      · rw [show (afterTake parseN parseR j).owed = some l from hl] at h3; cases h3
      · rw [show (afterTake parseN parseR j).owed = some l from hl] at h3; cases h3; rfl
  | done r h =>
    rename_i w
    rw [h] at h2
    refine ⟨rest, h1, ?_⟩
    intro l hl
    have h3 := h2 _ rfl
    subst h3
    cases w <;> cases hl <;> rfl
  | reply h | replyFails h | replyPanics h =>
    rename_i id r _
    rw [h] at h2
    have h3 := h2 _ rfl
    subst h3
    refine ⟨[], ?_, ?_⟩
    · show s.taken.filterMap requestId = (s.replied ++ [(id, r)]).map (·.1) ++ []
      rw [h1]; simp
    · intro l hl; cases hl <;> rfl
  | nothing h | timer h | noTimer h | idle h | noIdle h | timeout h | ask h | askNumber _ h | resume h =>
    rw [h] at h2
    exact ⟨rest, h1, h2⟩
  | panic h | close h | flag h => exact ⟨rest, h1, fun l hl => by cases hl⟩
  | _ => exact ⟨rest, h1, h2⟩

/-- The replies that were written are among those that were given, in order. -/
theorem replied_step {parseN : Json → Option N} {parseR : Json → Option R} {s s' : State N R H} (h : Step parseN parseR s s')
    (hs : (repliesOf s.sent).Sublist s.replied) : (repliesOf s'.sent).Sublist s'.replied := by
  cases h with
  | giveUp h => rw [State.giveUp]; split <;> exact hs
  | lookUp h => rw [State.lookUp]; split <;> exact hs
  | write h =>
    show (repliesOf (s.sent ++ [_])).Sublist s.replied
    rw [repliesOf, List.filterMap_append]
    simp only [List.filterMap_cons, List.filterMap_nil, List.append_nil]
    exact hs
  | reply h h1 =>
    show (repliesOf (s.sent ++ [_])).Sublist (s.replied ++ [_])
    rw [repliesOf, List.filterMap_append]
    exact hs.append (.refl _)
  | replyFails h | replyPanics h => exact hs.trans (List.sublist_append_left _ _)
  | _ => exact hs

theorem Lost.step {parseN : Json → Option N} {parseR : Json → Option R} {s s' : State N R H} {w : Work N R} {id : Nat} (hs : Lost s w id) (h : Step parseN parseR s s')
    (hc : s'.counter ≤ 2 ^ 64) : Lost s' w id := by
  have hm := hs.main
  have hr := hs.reader
  obtain ⟨k, hk⟩ := hs.pending
  cases h with
  | number h =>
    refine ⟨hm, hr, ?_, ⟨k, hk⟩, hs.answers, Nat.lt_succ_of_lt hs.old⟩
    intro x hx
    rcases List.mem_append.1 hx with hx | hx
    · exact hs.sending x hx
    · rw [List.mem_singleton] at hx; subst hx
      have hc : s.counter + 1 ≤ 2 ^ 64 := hc
      have := hs.old
      show s.counter % 2 ^ 64 ≠ id
      rw [Nat.mod_eq_of_lt (by omega)]
      omega
  | register h =>
    have hne := hs.sending _ (by rw [h]; simp; exact .inr (.inl rfl))
    refine ⟨hm, hr, ?_, ⟨k, mem_insertPending (Ne.symm hne) hk⟩, hs.answers, hs.old⟩
    intro x hx
    have hx : x ∈ _ := hx
    simp only [List.mem_append, List.mem_cons] at hx
    rcases hx with hx | hx | hx
    · exact hs.sending x (by rw [h]; simp [hx])
    · subst hx; exact hne
    · exact hs.sending x (by rw [h]; simp [hx])
  | write h =>
    refine ⟨hm, hr, ?_, ⟨k, hk⟩, hs.answers, hs.old⟩
    intro x hx
    have hx : x ∈ _ := hx
    simp only [List.mem_append] at hx
    rcases hx with hx | hx <;> exact hs.sending x (by rw [h]; simp [hx])
  | writeFails h =>
    have hne := hs.sending _ (by rw [h]; simp; exact .inr (.inl rfl))
    refine ⟨hm, hr, ?_, ⟨k, hk⟩, hs.answers, hs.old⟩
    intro x hx
    have hx : x ∈ _ := hx
    simp only [List.mem_append, List.mem_cons] at hx
    rcases hx with hx | hx | hx
    · exact hs.sending x (by rw [h]; simp [hx])
    · subst hx; exact hne
    · exact hs.sending x (by rw [h]; simp [hx])
  | giveUp h =>
    rename_i pre post id' h1
    have hne : id' ≠ id := hs.sending ⟨id', h1, .failed⟩ (by rw [h]; simp)
    have hsend : ∀ x ∈ pre ++ post, x.id ≠ id := by
      intro x hx
      simp only [List.mem_append] at hx
      rcases hx with hx | hx <;> exact hs.sending x (by rw [h]; simp [hx])
    rw [State.giveUp]
    split
    · refine ⟨hm, hr, hsend, ⟨k, (mem_removePending (Ne.symm hne)).2 hk⟩, ?_, hs.old⟩
      intro x hx
      rcases List.mem_append.1 hx with hx | hx
      · exact hs.answers x hx
      · rw [List.mem_singleton] at hx; subst hx; exact hne
    · exact ⟨hm, hr, hsend, ⟨k, hk⟩, hs.answers, hs.old⟩
  | readerTop h | read _ h | readFailed h | readerClose h | readerFlag h | put h | lookUp h | invoke h => rw [h] at hr; rcases hr with hr | hr <;> cases hr
  | take h => rw [hm] at h; rcases h with h | h <;> cases h
  | resume h h1 h2 =>
    rw [hm] at h
    cases h
    obtain ⟨h3, a, h2⟩ := h2
    exact absurd rfl (hs.answers _ h2)
  | nothing h | timer h | noTimer h | idle h | noIdle h | timeout h | lastIdle h | noLastIdle h | handle h | done _ h | panic h | ask h | askNumber _ h | reply h | replyFails h | replyPanics h | close h | flag h =>
    rw [hm] at h; cases h
  | _ => exact ⟨hm, hr, hs.sending, ⟨k, hk⟩, hs.answers, hs.old⟩

theorem Lost.steps {parseN : Json → Option N} {parseR : Json → Option R} {s s' : State N R H} {w : Work N R} {id : Nat} (hs : Lost s w id) (h : Steps parseN parseR s s')
    (hc : s'.counter ≤ 2 ^ 64) : Lost s' w id := by
  induction h with
  | refl => exact hs
  | step h1 h2 ih => exact (ih (Nat.le_trans (step_counter h2) hc)).step h2 hc

/-- The reader crashes only on a response without a proper number. -/
theorem afterRead_crashed {m : Except ReadError Json} (h : (afterRead m : Reader H) = .crashed) :
    ∃ j v, m = .ok j ∧ j.get "method" = none ∧ j.get "id" = some v ∧ v.asU64 = none := by
  unfold afterRead at h
  cases m with
  | error e => cases h
  | ok j =>
    simp only at h
    split at h
    · rename_i hr
      rw [isResponse_iff] at hr
      obtain ⟨⟨v, hv⟩, hm⟩ := hr
      cases hid : getId j with
      | none =>
        refine ⟨j, v, rfl, hm, hv, ?_⟩
        rw [getId, hv] at hid
        exact hid
      | some k =>
        rw [hid] at h
        obtain ⟨x, hx, -⟩ := intoResponse_spec ((getId_iff j k).1 hid) hm
        simp only [hx] at h
        cases x <;> cases h
    · cases h

theorem crashed_step {parseN : Json → Option N} {parseR : Json → Option R} {s s' : State N R H} (h : Step parseN parseR s s')
    (hs : s.reader = .crashed → ∃ j v, .ok j ∈ s.heard ∧ j.get "method" = none ∧ j.get "id" = some v ∧ v.asU64 = none) (hc : s'.reader = .crashed) :
    ∃ j v, .ok j ∈ s'.heard ∧ j.get "method" = none ∧ j.get "id" = some v ∧ v.asU64 = none := by
  have hg := (step_grows h).heard
  have keep : s'.reader = s.reader → ∃ j v, .ok j ∈ s'.heard ∧ j.get "method" = none ∧ j.get "id" = some v ∧ v.asU64 = none := by
    intro he
    obtain ⟨j, v, hj, h1⟩ := hs (he ▸ hc)
    exact ⟨j, v, hg.subset hj, h1⟩
  cases h with
  | read l h =>
    obtain ⟨j, v, hj, h1⟩ := afterRead_crashed hc
    exact ⟨j, v, by show _ ∈ s.heard ++ [l.read]; simp [hj], h1⟩
  | readerTop h => dsimp only at hc; split at hc <;> cases hc
  | readFailed h => dsimp only at hc; split at hc <;> cases hc
  | readerClose h | readerFlag h | invoke h => cases hc
  | put h => rename_i m; cases m <;> cases hc
  | lookUp h => rw [State.lookUp] at hc; split at hc <;> cases hc
  | giveUp h => exact keep (giveUp_reader _ _)
  | _ => exact keep rfl

/-- While a handler waits, `is_blocked` is set. -/
def Flagged (s : State N R H) : Prop := ∀ w, (s.main = .asking w ∨ ∃ id, s.main = .awaiting w id) → s.isBlocked = true

theorem Flagged.step {parseN : Json → Option N} {parseR : Json → Option R} {s s' : State N R H} (hs : Flagged s) (h : Step parseN parseR s s') : Flagged s' := by
  cases h with
  | giveUp h =>
    intro w hw
    rw [giveUp_main] at hw
    have := hs w hw
    rw [State.giveUp]; split <;> exact this
  | lookUp h =>
    intro w hw
    rw [lookUp_main] at hw
    have := hs w hw
    rw [State.lookUp]; split <;> exact this
  | block => exact fun w _ => rfl
  | ask h => exact fun w _ => rfl
  | askNumber k h => exact fun w _ => hs _ (.inl h)
  | handle h =>
    rename_i j
    intro w hw
    have : (afterTake parseN parseR j) = .asking w ∨ ∃ id, (afterTake parseN parseR j) = .awaiting w id := hw
    unfold afterTake at this
    repeat' split at this
    all_goals simp at this
  | done r h =>
    rename_i w'
    intro w hw
    have : (afterWork r w') = .asking w ∨ ∃ id, (afterWork r w') = .awaiting w id := hw
    cases w' <;> simp [afterWork] at this
  | take h | nothing h | timer h | noTimer h | idle h | noIdle h | timeout h | lastIdle h | noLastIdle h | panic h | resume h | reply h | replyFails h | replyPanics h | close h | flag h =>
    intro w hw
    rcases hw with hw | ⟨_, hw⟩ <;> cases hw
  | _ => exact hs

theorem requestsOf_append (a b : List Sent) : requestsOf (a ++ b) = requestsOf a ++ requestsOf b := List.filterMap_append

/-- Every request is written once, or fails, or is still to be written. -/
structure Written (s : State N R H) : Prop where
  numbers : s.asked.map (·.1) = List.range s.counter
  places : (s.asked.map (·.1)).Perm (requestsOf s.sent ++ s.unsent ++ unwritten s.sending)

theorem unwritten_append (a b : List (Sending H)) : unwritten (a ++ b) = unwritten a ++ unwritten b := List.filterMap_append

theorem unwritten_cons {x : Sending H} (hx : x.stage ≠ .failed) (l : List (Sending H)) : unwritten (x :: l) = x.id :: unwritten l := by
  simp [unwritten, hx]

theorem unwritten_failed {x : Sending H} (hx : x.stage = .failed) (l : List (Sending H)) : unwritten (x :: l) = unwritten l := by
  simp [unwritten, hx]

theorem Written.keep {s s' : State N R H} (hs : Written s) (h0 : s'.asked = s.asked) (h1 : s'.counter = s.counter)
    (h2 : (requestsOf s.sent ++ s.unsent ++ unwritten s.sending).Perm (requestsOf s'.sent ++ s'.unsent ++ unwritten s'.sending)) : Written s' :=
  ⟨by rw [h0, h1]; exact hs.numbers, by rw [h0]; exact hs.places.trans h2⟩

theorem Written.number {s : State N R H} (hs : Written s) (hc : s.counter + 1 ≤ 2 ^ 64) (h : H) : Written (s.number h) := by
  have hf : s.freshId = s.counter := by rw [State.freshId]; exact Nat.mod_eq_of_lt (by omega)
  refine ⟨?_, ?_⟩
  · show (s.asked ++ [(s.freshId, h)]).map (·.1) = List.range (s.counter + 1)
    rw [List.map_append, hs.numbers, List.range_succ, hf]
    rfl
  · show ((s.asked ++ [(s.freshId, h)]).map (·.1)).Perm (requestsOf s.sent ++ s.unsent ++ unwritten (s.sending ++ [⟨s.freshId, h, .numbered⟩]))
    rw [List.map_append, unwritten_append, unwritten_cons (by simp), ← List.append_assoc]
    exact hs.places.append_right _

theorem Written.step {parseN : Json → Option N} {parseR : Json → Option R} {s s' : State N R H} (hs : Written s) (h : Step parseN parseR s s') (hc : s'.counter ≤ 2 ^ 64) : Written s' := by
  cases h with
  | number h => exact hs.number hc h
  | askNumber h h1 =>
    have := hs.number hc h
    exact ⟨this.numbers, this.places⟩
  | register h =>
    refine hs.keep rfl rfl ?_
    rw [h]
    simp only [unwritten_append]
    rw [unwritten_cons (by simp), unwritten_cons (by simp)]
  | write h =>
    refine hs.keep rfl rfl ?_
    rw [h]
    simp only [unwritten_append, requestsOf_append]
    rw [unwritten_cons (by simp)]
    show (_ ++ s.unsent ++ _).Perm (requestsOf s.sent ++ [_] ++ s.unsent ++ _)
    perm_count
  | writeFails h =>
    refine hs.keep rfl rfl ?_
    rw [h]
    simp only [unwritten_append]
    rw [unwritten_cons (by simp), unwritten_failed (by simp)]
    perm_count
  | giveUp h =>
    rename_i pre post id k
    have : Written ({ s with sending := pre ++ post } : State N R H) := by
      refine hs.keep rfl rfl ?_
      rw [h]
      simp only [unwritten_append]
      rw [unwritten_failed (by simp)]
    rw [State.giveUp]
    split <;> exact ⟨this.numbers, this.places⟩
  | lookUp h => rw [State.lookUp]; split <;> exact ⟨hs.numbers, hs.places⟩
  | reply h h1 =>
    refine hs.keep rfl rfl ?_
    simp only [requestsOf_append]
    show (_ ++ s.unsent ++ _).Perm (requestsOf s.sent ++ [] ++ s.unsent ++ _)
    rw [List.append_nil]
  | _ => exact ⟨hs.numbers, hs.places⟩

theorem Written.steps {parseN : Json → Option N} {parseR : Json → Option R} {s s' : State N R H} (hs : Written s) (h : Steps parseN parseR s s') (hc : s'.counter ≤ 2 ^ 64) : Written s' := by
  induction h with
  | refl => exact hs
  | step h1 h2 ih => exact (ih (Nat.le_trans (step_counter h2) hc)).step h2 hc

/-- When the main loop has ended, the reader is told to stop. -/
def Told (s : State N R H) : Prop := (∃ o, s.main = .finished o) → s.needsExit = true

theorem step_needsExit {parseN : Json → Option N} {parseR : Json → Option R} {s s' : State N R H} (h : Step parseN parseR s s') (hs : s.needsExit = true) : s'.needsExit = true := by
  cases h with
  | giveUp h => rw [State.giveUp]; split <;> exact hs
  | lookUp h => rw [State.lookUp]; split <;> exact hs
  | readerFlag h | flag h => rfl
  | _ => exact hs

theorem Told.step {parseN : Json → Option N} {parseR : Json → Option R} {s s' : State N R H} (hs : Told s) (h : Step parseN parseR s s') : Told s' := by
  have h0 := h
  cases h with
  | giveUp h =>
    intro hm
    rw [giveUp_main] at hm
    exact step_needsExit h0 (hs hm)
  | lookUp h =>
    intro hm
    rw [lookUp_main] at hm
    exact step_needsExit h0 (hs hm)
  | readerFlag h | flag h => exact fun _ => rfl
  | handle h =>
    rintro ⟨o, hm⟩
    have hm : afterTake parseN parseR _ = .finished o := hm
    unfold afterTake at hm
    repeat' split at hm
    all_goals cases hm
  | done r h =>
    rename_i w
    rintro ⟨o, hm⟩
    have hm : afterWork r w = .finished o := hm
    cases w <;> cases hm
  | take h | nothing h | timer h | noTimer h | idle h | noIdle h | timeout h | lastIdle h | noLastIdle h | panic h | ask h | askNumber _ h | resume h | reply h | replyFails h | replyPanics h | close h =>
    rintro ⟨o, hm⟩
    cases hm
  | _ => exact hs

/-- One if the reader is reading. -/
def Reader.reads : Reader H → Nat
  | .reading => 1
  | _ => 0

theorem reads_le (r : Reader H) : r.reads ≤ 1 := by cases r <;> simp [Reader.reads]

/-- The number of messages that were read or are being read. -/
def hearing (s : State N R H) : Nat := s.heard.length + s.reader.reads

theorem hearing_step {parseN : Json → Option N} {parseR : Json → Option R} {s s' : State N R H} (h : Step parseN parseR s s') (hs : s.needsExit = true) :
    hearing s' ≤ hearing s := by
  unfold hearing
  cases h with
  | giveUp h => rw [giveUp_reader, (giveUp_heard _ _).1]; exact Nat.le_refl _
  | lookUp h => rw [h, State.lookUp]; split <;> exact Nat.le_refl _
  | readerTop h => rw [h]; simp [hs, Reader.reads]
  | read l h =>
    rw [h]
    have hz : (afterRead l.read : Reader H).reads = 0 := by
      unfold afterRead
      repeat' split
      all_goals rfl
    show (s.heard ++ [l.read]).length + (afterRead l.read : Reader H).reads ≤ _
    rw [hz, List.length_append]
    exact Nat.le_refl _
  | readFailed h =>
    rw [h]
    dsimp only
    split <;> exact Nat.le_refl _
  | put h =>
    rename_i m
    rw [h]
    cases m <;> exact Nat.le_refl _
  | readerClose h | readerFlag h | invoke h => rw [h]; exact Nat.le_refl _
  | _ => exact Nat.le_refl _

/-- An error is the last thing that the main loop takes. -/
def ErrorLast (s : State N R H) : Prop :=
  s.taken.all isMessage = true ∨ (s.main.ending = true ∧ ∃ pre e, s.taken = pre ++ [.error e] ∧ pre.all isMessage = true)

theorem ErrorLast.step {parseN : Json → Option N} {parseR : Json → Option R} {s s' : State N R H} (hs : ErrorLast s) (h : Step parseN parseR s s') : ErrorLast s' := by
  rcases hs with hs | ⟨hm, pre, e, hp, ha⟩
  · cases h with
    | giveUp h => exact .inl (by rw [State.giveUp]; split <;> exact hs)
    | lookUp h => exact .inl (by rw [State.lookUp]; split <;> exact hs)
    | lastIdle h => exact .inr ⟨rfl, _, _, rfl, hs⟩
    | noLastIdle h => exact .inr ⟨rfl, _, _, rfl, hs⟩
    | handle h =>
      refine .inl ?_
      show (s.taken ++ [Except.ok _]).all isMessage = true
      rw [List.all_append, hs]; rfl
    | _ => exact .inl hs
  · cases h with
    | giveUp h =>
      refine .inr ⟨by rw [giveUp_main]; exact hm, pre, e, ?_, ha⟩
      rw [State.giveUp]; split <;> exact hp
    | lookUp h =>
      refine .inr ⟨by rw [lookUp_main]; exact hm, pre, e, ?_, ha⟩
      rw [State.lookUp]; split <;> exact hp
    | take h => rcases h with h | h <;> rw [h] at hm <;> cases hm
    | done r h =>
      rename_i w
      rw [h] at hm
      refine .inr ⟨?_, pre, e, hp, ha⟩
      show (afterWork r w).ending = true
      cases w <;> first | rfl | cases hm
    | ask h | askNumber _ h | resume h =>
      rw [h] at hm
      exact .inr ⟨hm, pre, e, hp, ha⟩
    | panic h | close h | flag h => exact .inr ⟨rfl, pre, e, hp, ha⟩
    | nothing h | timer h | noTimer h | idle h | noIdle h | timeout h | lastIdle h | noLastIdle h | handle h | reply h | replyFails h | replyPanics h => rw [h] at hm; cases hm
    | _ => exact .inr ⟨hm, pre, e, hp, ha⟩

/-! ## Timers -/

theorem firstTimer_spec : ∀ {ts : List Timer} {t : Timer}, firstTimer ts = some t → t ∈ ts ∧ ∀ u ∈ ts, t.fireAfter ≤ u.fireAfter
  | [], t, h => by cases h
  | a :: ts, t, h => by
    rw [firstTimer] at h
    cases hf : firstTimer ts with
    | none =>
      rw [hf] at h
      cases h
      cases ts with
      | nil => simp
      | cons b bs =>
        rw [firstTimer] at hf
        split at hf
        · cases hf
        · split at hf <;> cases hf
    | some u =>
      rw [hf] at h
      obtain ⟨h1, h2⟩ := firstTimer_spec hf
      simp only at h
      split at h <;> cases h
      · refine ⟨by simp [h1], ?_⟩
        intro x hx
        rcases List.mem_cons.1 hx with rfl | hx
        · omega
        · exact h2 x hx
      · refine ⟨by simp, ?_⟩
        intro x hx
        rcases List.mem_cons.1 hx with rfl | hx
        · omega
        · have := h2 x hx; omega

theorem firstTimer_none {ts : List Timer} (h : firstTimer ts = none) : ts = [] := by
  cases ts with
  | nil => rfl
  | cons a ts =>
    rw [firstTimer] at h
    split at h
    · cases h
    · split at h <;> cases h

end Rpc

end Xi
