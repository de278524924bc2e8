import Verif.Spec.Agenda

/-!
# C101: what has to be done is on the agenda
-/
namespace Xi
open Agenda

namespace Agenda

theorem render_token {id : Nat} (h : id < 2 ^ 25) : renderMask ||| id = 2 ^ 25 + id := by
  have := Nat.two_pow_add_eq_or_of_lt h 1
  rw [Nat.mul_one] at this
  simp only [renderMask, Nat.one_shiftLeft]
  exact this.symm

theorem rewrap_token {id : Nat} (h : id < 2 ^ 25) : rewrapMask ||| id = 2 ^ 26 + id := by
  have := Nat.two_pow_add_eq_or_of_lt (i := 26) (b := id) (by omega) 1
  rw [Nat.mul_one] at this
  simp only [rewrapMask, Nat.one_shiftLeft]
  exact this.symm

theorem find_token {id : Nat} (h : id < 2 ^ 25) : findMask ||| id = 2 ^ 27 + id := by
  have := Nat.two_pow_add_eq_or_of_lt (i := 27) (b := id) (by omega) 1
  rw [Nat.mul_one] at this
  simp only [findMask, Nat.one_shiftLeft]
  exact this.symm

/-- A bit that is set, and the rest. -/
theorem mask_xor {k id : Nat} (h : id < 2 ^ k) : (2 ^ k + id) ^^^ 2 ^ k = id := by
  have h1 := Nat.two_pow_add_eq_or_of_lt h 1
  rw [Nat.mul_one] at h1
  rw [h1]
  apply Nat.eq_of_testBit_eq
  intro i
  have h2 : id.testBit k = false := Nat.testBit_lt_two_pow h
  simp only [Nat.testBit_xor, Nat.testBit_or, Nat.testBit_two_pow]
  by_cases hi : k = i
  · subst hi; simp [h2]
  · simp [hi]

theorem mask_and {k id : Nat} (h : id < 2 ^ k) : (2 ^ k + id) &&& 2 ^ k ≠ 0 := by
  intro h0
  have h1 := Nat.two_pow_add_eq_or_of_lt h 1
  rw [Nat.mul_one] at h1
  have h2 : ((2 ^ k + id) &&& 2 ^ k).testBit k = true := by rw [h1]; simp [Nat.testBit_two_pow]
  rw [h0] at h2
  simp at h2

theorem mask_and_zero {j k id : Nat} (hjk : j < k) (h : id < 2 ^ j) : (2 ^ k + id) &&& 2 ^ j = 0 := by
  have hk : id < 2 ^ k := Nat.lt_trans h (Nat.pow_lt_pow_right (by omega) hjk)
  have h1 := Nat.two_pow_add_eq_or_of_lt hk 1
  rw [Nat.mul_one] at h1
  rw [h1]
  apply Nat.eq_of_testBit_eq
  intro i
  simp only [Nat.testBit_and, Nat.testBit_or, Nat.testBit_two_pow, Nat.zero_testBit]
  by_cases hi : j = i
  · subst hi
    have h2 : id.testBit j = false := Nat.testBit_lt_two_pow h
    simp [h2]; omega
  · simp [hi]

theorem idle_render (p : Parts S) (c : Core S) {id : Nat} (h : id < 2 ^ 25) : handleIdle p c (2 ^ 25 + id) = some (c.on id (finishDelayedRender p)) := by
  have h1 := mask_and h
  have h2 := mask_xor h
  rw [handleIdle, if_neg (by simp only [newViewToken]; omega), if_neg (by simp only [watchToken]; omega)]
  simp only [renderMask, Nat.one_shiftLeft]
  rw [if_pos h1, h2]

theorem idle_rewrap (p : Parts S) (c : Core S) {id : Nat} (h : id < 2 ^ 25) : handleIdle p c (2 ^ 26 + id) = some (c.on id (doRewrapBatch p id)) := by
  have h0 := mask_and_zero (j := 25) (k := 26) (by omega) h
  have h1 := mask_and (k := 26) (id := id) (by omega)
  have h2 := mask_xor (k := 26) (id := id) (by omega)
  rw [handleIdle, if_neg (by simp only [newViewToken]; omega), if_neg (by simp only [watchToken]; omega)]
  simp only [renderMask, rewrapMask, Nat.one_shiftLeft]
  rw [if_neg (by rw [h0]; decide), if_pos h1, h2]

theorem idle_find (p : Parts S) (c : Core S) {id : Nat} (h : id < 2 ^ 25) : handleIdle p c (2 ^ 27 + id) = some (c.on id (doIncrementalFind p id)) := by
  have h0 := mask_and_zero (j := 25) (k := 27) (by omega) h
  have h0' := mask_and_zero (j := 26) (k := 27) (id := id) (by omega) (by omega)
  have h1 := mask_and (k := 27) (id := id) (by omega)
  have h2 := mask_xor (k := 27) (id := id) (by omega)
  rw [handleIdle, if_neg (by simp only [newViewToken]; omega), if_neg (by simp only [watchToken]; omega)]
  simp only [renderMask, rewrapMask, findMask, Nat.one_shiftLeft]
  rw [if_neg (by rw [h0]; decide), if_neg (by rw [h0']; decide), if_pos h1, h2]

/-- A token of view `id`. -/
def TokenOf (id t : Nat) : Prop := t = 2 ^ 25 + id ∨ t = 2 ^ 26 + id ∨ t = 2 ^ 27 + id

/-- Delayed drawing and searching of a view are on the agenda `a` or among the tokens scheduled now. -/
structure Ok (p : Parts S) (id : Nat) (a : List Nat) (w : W S) : Prop where
  pend : w.1.pendingRender = true → 2 ^ 25 + id ∈ a ++ w.2
  find : p.finding w.1.st = true → 2 ^ 27 + id ∈ a ++ w.2
  own : ∀ t ∈ w.2, TokenOf id t

/-- The same for wrapping. -/
def WOk (p : Parts S) (id : Nat) (a : List Nat) (w : W S) : Prop := p.unwrapped w.1.st = true → 2 ^ 26 + id ∈ a ++ w.2

/-- The front-end knows, or will be told. -/
def Told (news : S → Bool) (w : W S) : Prop := news w.1.st = true → w.1.pendingRender = true

section
variable {p : Parts S} {news : S → Bool} {id : Nat} {a : List Nat} {w : W S}

theorem render_ok (hl : Laws p news) (h : Ok p id a w) : Ok p id a (render p w) :=
  ⟨h.pend, fun hf => h.find (by rw [← hl.render_finding]; exact hf), h.own⟩

theorem render_wok (hl : Laws p news) (h : WOk p id a w) : WOk p id a (render p w) :=
  fun hf => h (by rw [← hl.render_unwrapped]; exact hf)

theorem render_told (hl : Laws p news) : Told news (render p w) := by
  intro h; simp [render, hl.render_news] at h

theorem needed_ok (hl : Laws p news) (h : Ok p id a w) : Ok p id a (renderIfNeeded p w) := by
  simp only [renderIfNeeded]; split
  · exact render_ok hl h
  · exact h

theorem needed_wok (hl : Laws p news) (h : WOk p id a w) : WOk p id a (renderIfNeeded p w) := by
  simp only [renderIfNeeded]; split
  · exact render_wok hl h
  · exact h

theorem needed_told (hl : Laws p news) : Told news (renderIfNeeded p w) := by
  simp only [renderIfNeeded]; split
  · exact render_told hl
  · rename_i h; intro _; simpa using h

theorem within_ok {f : S → S} (hf : SameFind p f) (h : Ok p id a w) : Ok p id a (within f w) :=
  ⟨h.pend, fun h' => h.find (by rw [← hf]; exact h'), h.own⟩

theorem within_wok {f : S → S} (hf : SameWrap p f) (h : WOk p id a w) : WOk p id a (within f w) :=
  fun h' => h (by rw [← hf]; exact h')

theorem rewrap_ok (hl : Laws p news) (h : Ok p id a w) : Ok p id a (rewrap p w) := within_ok hl.rewrap_finding h

theorem rewrap_wok (hl : Laws p news) (h : WOk p id a w) : WOk p id a (rewrap p w) :=
  fun h' => h (hl.rewrap_unwrapped _ h')

theorem sched_rewrap_ok (hid : id < 2 ^ 25) (h : Ok p id a w) : Ok p id a (scheduleRewrap id w) := by
  refine ⟨fun h' => ?_, fun h' => ?_, fun t ht => ?_⟩
  · have := h.pend h'; simp only [scheduleRewrap, List.mem_append] at this ⊢; rcases this with h | h <;> simp [h]
  · have := h.find h'; simp only [scheduleRewrap, List.mem_append] at this ⊢; rcases this with h | h <;> simp [h]
  · simp only [scheduleRewrap, List.mem_append, List.mem_singleton, rewrap_token hid] at ht
    rcases ht with ht | ht
    · exact h.own t ht
    · exact Or.inr (Or.inl ht)

/-- Scheduling what wrapping is needed. -/
theorem more_wrap (hid : id < 2 ^ 25) (h : Ok p id a w) :
    Ok p id a (if p.unwrapped w.1.st then scheduleRewrap id w else w) ∧ WOk p id a (if p.unwrapped w.1.st then scheduleRewrap id w else w) := by
  split
  · refine ⟨sched_rewrap_ok hid h, fun _ => ?_⟩
    simp [scheduleRewrap, rewrap_token hid]
  · rename_i hn; exact ⟨h, fun h' => absurd h' hn⟩

theorem find_ok (hl : Laws p news) (hid : id < 2 ^ 25) (hp : w.1.pendingRender = true → 2 ^ 25 + id ∈ a ++ w.2) (ho : ∀ t ∈ w.2, TokenOf id t) :
    Ok p id a (doIncrementalFind p id w) := by
  simp only [doIncrementalFind]
  apply needed_ok hl
  split
  · refine ⟨fun h' => ?_, fun _ => ?_, fun t ht => ?_⟩
    · have := hp h'; simp only [scheduleFind, within, List.mem_append] at this ⊢; rcases this with h | h <;> simp [h]
    · simp [scheduleFind, find_token hid]
    · simp only [scheduleFind, within, List.mem_append, List.mem_singleton, find_token hid] at ht
      rcases ht with ht | ht
      · exact ho t ht
      · exact Or.inr (Or.inr ht)
  · rename_i hn; exact ⟨hp, fun h' => absurd h' hn, ho⟩

theorem find_wok (hl : Laws p news) (h : WOk p id a w) : WOk p id a (doIncrementalFind p id w) := by
  simp only [doIncrementalFind]
  apply needed_wok hl
  have := within_wok hl.find_unwrapped h
  split
  · intro h'
    have := this h'
    simp only [scheduleFind, List.mem_append] at this ⊢; rcases this with h | h <;> simp [h]
  · exact this

theorem settings_ok (hl : Laws p news) (hid : id < 2 ^ 25) {f : S → S} (hf : SameFind p f) (b : Bool) (h : Ok p id a w) :
    Ok p id a (updateWrapSettings p id f b w) ∧ WOk p id a (updateWrapSettings p id f b w) := by
  simp only [updateWrapSettings]
  apply more_wrap hid
  split
  · exact within_ok hl.setDirty_finding (rewrap_ok hl (within_ok hf h))
  · exact within_ok hf h

theorem after_ok (hl : Laws p news) (hid : id < 2 ^ 25) (plugins : Bool) (h : Ok p id a w) : Ok p id a (afterEdit p plugins id w) := by
  simp only [afterEdit]
  split
  · exact h
  · rename_i st hc
    have h1 : Ok p id a ({ w.1 with st := st }, w.2) := ⟨h.pend, fun h' => h.find (by rw [← hl.commit_finding _ _ hc]; exact h'), h.own⟩
    split
    · split
      · exact h1
      · refine ⟨fun _ => ?_, fun h' => ?_, fun t ht => ?_⟩
        · simp [render_token hid]
        · have := h1.find h'; simp only [List.mem_append] at this ⊢; rcases this with h | h <;> simp [h]
        · simp only [List.mem_append, List.mem_singleton, render_token hid] at ht
          rcases ht with ht | ht
          · exact h.own t ht
          · exact Or.inl ht
    · exact h1

theorem after_wok (hcw : CommitWraps p) (plugins : Bool) (h : WOk p id a w) : WOk p id a (afterEdit p plugins id w) := by
  simp only [afterEdit]
  split
  · exact h
  · rename_i st hc
    have h1 : WOk p id a ({ w.1 with st := st }, w.2) := fun h' => h (hcw _ _ hc h')
    split
    · split
      · exact h1
      · intro h'
        have := h1 h'; simp only [List.mem_append] at this ⊢; rcases this with h | h <;> simp [h]
    · exact h1

theorem dispatch_ok (hl : Laws p news) (hid : id < 2 ^ 25) {c : Cmd S} (hc : c.Tame p) (h : Ok p id a w) : Ok p id a (dispatch p id w c) := by
  cases c with
  | view f =>
    simp only [dispatch]
    have h1 : ∀ w' : W S, w' = (if p.looksUnwrapped (within f w).1.st then rewrap p (within f w) else within f w) →
        w'.1.pendingRender = w.1.pendingRender ∧ w'.2 = w.2 := by
      intro w' e; subst e; split <;> exact ⟨rfl, rfl⟩
    generalize hw : (if p.looksUnwrapped (within f w).1.st then rewrap p (within f w) else within f w) = w'
    obtain ⟨e1, e2⟩ := h1 w' hw.symm
    split
    · exact find_ok hl hid (by rw [e1, e2]; exact h.pend) (by rw [e2]; exact h.own)
    · rename_i hn
      exact ⟨by rw [e1, e2]; exact h.pend, fun h' => absurd h' hn, by rw [e2]; exact h.own⟩
  | buffer f => exact within_ok hc.1 h
  | resize size wrap =>
    obtain ⟨h1, h2, h3⟩ := hc
    cases wrap with
    | none => exact within_ok h1 h
    | some f => exact (settings_ok hl hid (h3 f rfl) false (within_ok h1 h)).1
  | lines f => exact within_ok hc.1 h
  | other => exact h

theorem dispatch_wok (hl : Laws p news) (hid : id < 2 ^ 25) {c : Cmd S} (hc : c.Tame p) (ho : Ok p id a w) (h : WOk p id a w) : WOk p id a (dispatch p id w c) := by
  cases c with
  | view f =>
    simp only [dispatch]
    have h1 : WOk p id a (if p.looksUnwrapped (within f w).1.st then rewrap p (within f w) else within f w) := by
      split
      · exact rewrap_wok hl (within_wok hc h)
      · exact within_wok hc h
    generalize (if p.looksUnwrapped (within f w).1.st then rewrap p (within f w) else within f w) = w' at h1 ⊢
    split
    · exact find_wok hl h1
    · exact h1
  | buffer f => exact within_wok hc.2 h
  | resize size wrap =>
    obtain ⟨h1, h2, h3⟩ := hc
    cases wrap with
    | none => exact within_wok h2 h
    | some f => exact (settings_ok hl hid (h3 f rfl) false (within_ok h1 ho)).2
  | lines f => exact within_wok hc.2 h
  | other => exact h

theorem one_ok (hl : Laws p news) (hid : id < 2 ^ 25) {c : Cmd S} (hc : c.Tame p) (h : Ok p id a w) : Ok p id a (playOne p id w c) := by
  have h1 := dispatch_ok hl hid hc h
  simp only [playOne]
  split
  · exact h1
  · rename_i st e
    exact ⟨h1.pend, fun h' => h1.find (by rw [← hl.commit_finding _ _ e]; exact h'), h1.own⟩

theorem one_wok (hl : Laws p news) (hcw : CommitWraps p) (hid : id < 2 ^ 25) {c : Cmd S} (hc : c.Tame p) (ho : Ok p id a w) (h : WOk p id a w) :
    WOk p id a (playOne p id w c) := by
  have h1 := dispatch_wok hl hid hc ho h
  simp only [playOne]
  split
  · exact h1
  · rename_i st e
    exact fun h' => h1 (hcw _ _ e h')

theorem play_ok (hl : Laws p news) (hid : id < 2 ^ 25) (cs : List (Cmd S)) : ∀ (w : W S), (∀ c ∈ cs, c.Tame p) → Ok p id a w → Ok p id a (cs.foldl (playOne p id) w) := by
  induction cs with
  | nil => intro w _ h; exact h
  | cons c cs ih =>
    intro w hc h
    exact ih _ (fun c' hc' => hc c' (List.mem_cons_of_mem _ hc')) (one_ok hl hid (hc c List.mem_cons_self) h)

theorem play_wok (hl : Laws p news) (hcw : CommitWraps p) (hid : id < 2 ^ 25) (cs : List (Cmd S)) : ∀ (w : W S), (∀ c ∈ cs, c.Tame p) →
    Ok p id a w → WOk p id a w → WOk p id a (cs.foldl (playOne p id) w) := by
  induction cs with
  | nil => intro w _ _ h; exact h
  | cons c cs ih =>
    intro w hc ho h
    exact ih _ (fun c' hc' => hc c' (List.mem_cons_of_mem _ hc')) (one_ok hl hid (hc c List.mem_cons_self) ho) (one_wok hl hcw hid (hc c List.mem_cons_self) ho h)

theorem Ok.mono {b : List Nat} (h : Ok p id a w) (hb : ∀ t, TokenOf id t → t ∈ a → t ∈ b) : Ok p id b w := by
  refine ⟨fun h' => ?_, fun h' => ?_, h.own⟩
  · have := h.pend h'; rw [List.mem_append] at this ⊢; exact this.imp (hb _ (Or.inl rfl)) (fun h => h)
  · have := h.find h'; rw [List.mem_append] at this ⊢; exact this.imp (hb _ (Or.inr (Or.inr rfl))) (fun h => h)

theorem WOk.mono {b : List Nat} (h : WOk p id a w) (hb : ∀ t, TokenOf id t → t ∈ a → t ∈ b) : WOk p id b w := by
  intro h'
  have := h h'; rw [List.mem_append] at this ⊢; exact this.imp (hb _ (Or.inr (Or.inl rfl))) (fun h => h)

/-- The invariant, but for the views of `X`; the views of `late` are still being set up. -/
structure InvG (p : Parts S) (news : S → Bool) (q : Prop) (X late : Nat → Prop) (c : Core S) : Prop where
  nodup : (c.views.map Prod.fst).Nodup
  small : ∀ e ∈ c.views, e.1 < 2 ^ 25
  known : ∀ t ∈ c.agenda, t = 1001 ∨ t = 1002 ∨ ∃ id, id < 2 ^ 25 ∧ TokenOf id t
  ok : ∀ e ∈ c.views, ¬ X e.1 → Ok p e.1 c.agenda (e.2, [])
  told : ∀ e ∈ c.views, ¬ X e.1 → ¬ late e.1 → Told news (e.2, [])
  wrap : q → ∀ e ∈ c.views, ¬ X e.1 → ¬ late e.1 → WOk p e.1 c.agenda (e.2, [])

theorem mem_of_lookup {l : List (Nat × V S)} {v : V S} (h : l.lookup id = some v) : (id, v) ∈ l := by
  induction l with
  | nil => simp at h
  | cons e l ih =>
    obtain ⟨i, u⟩ := e
    rw [List.lookup_cons] at h
    split at h
    · rename_i hb
      simp only [Option.some.injEq] at h
      rw [h, eq_of_beq hb]; exact List.mem_cons_self
    · exact List.mem_cons_of_mem _ (ih h)

theorem not_mem_of_lookup {l : List (Nat × V S)} (h : l.lookup id = none) : ∀ e ∈ l, e.1 ≠ id := by
  intro e he hi
  induction l with
  | nil => simp at he
  | cons e' l ih =>
    obtain ⟨i, u⟩ := e'
    rw [List.lookup_cons] at h
    split at h
    · simp at h
    · rename_i hb
      rcases List.mem_cons.mp he with rfl | he
      · simp at hi; simp [hi] at hb
      · exact ih h he

/-- Doing something with one view. -/
theorem InvG.on {q : Prop} {X late X' late' : Nat → Prop} {c : Core S} {k : W S → W S} (h : InvG p news q X late c)
    (hX : ∀ x, x ≠ id → X x → X' x) (hlate : ∀ x, x ≠ id → late x → late' x)
    (hk : id < 2 ^ 25 → ∀ v, (id, v) ∈ c.views → Ok p id c.agenda (k (v, [])) ∧ (¬ late' id → Told news (k (v, [])) ∧ (q → WOk p id c.agenda (k (v, []))))) :
    InvG p news q X' late' (c.on id k) := by
  simp only [Core.on]
  split
  · rename_i hl
    have hne := not_mem_of_lookup hl
    exact ⟨h.nodup, h.small, h.known, fun e he hx => h.ok e he (fun h' => hx (hX _ (hne e he) h')),
      fun e he hx hl => h.told e he (fun h' => hx (hX _ (hne e he) h')) (fun h' => hl (hlate _ (hne e he) h')),
      fun hq e he hx hl => h.wrap hq e he (fun h' => hx (hX _ (hne e he) h')) (fun h' => hl (hlate _ (hne e he) h'))⟩
  · rename_i v hl
    have hm := mem_of_lookup hl
    have hid : id < 2 ^ 25 := h.small _ hm
    obtain ⟨hok, hrest⟩ := hk hid v hm
    have key : ∀ e ∈ c.views.map (fun e => if e.1 = id then (id, (k (v, [])).1) else e),
        (e = (id, (k (v, [])).1)) ∨ (e ∈ c.views ∧ e.1 ≠ id) := by
      intro e he
      obtain ⟨e', he', rfl⟩ := List.mem_map.mp he
      split
      · exact Or.inl rfl
      · rename_i hn; exact Or.inr ⟨he', hn⟩
    refine ⟨?_, ?_, ?_, ?_, ?_, ?_⟩
    · have : (c.views.map (fun e => if e.1 = id then (id, (k (v, [])).1) else e)).map Prod.fst = c.views.map Prod.fst := by
        rw [List.map_map]
        apply List.map_congr_left
        intro e _
        simp only [Function.comp_apply]
        split
        · rename_i he; exact he.symm
        · rfl
      simpa [this] using h.nodup
    · intro e he
      rcases key e he with rfl | ⟨he, _⟩
      · exact hid
      · exact h.small e he
    · intro t ht
      rcases List.mem_append.mp ht with ht | ht
      · exact h.known t ht
      · exact Or.inr (Or.inr ⟨id, hid, hok.own t ht⟩)
    · intro e he hx
      rcases key e he with rfl | ⟨he, hne⟩
      · exact ⟨fun h' => by simpa using hok.pend h', fun h' => by simpa using hok.find h', by simp⟩
      · exact (h.ok e he (fun h' => hx (hX _ hne h'))).mono (fun t _ ht => List.mem_append_left _ ht)
    · intro e he hx hl
      rcases key e he with rfl | ⟨he, hne⟩
      · exact (hrest hl).1
      · exact h.told e he (fun h' => hx (hX _ hne h')) (fun h' => hl (hlate _ hne h'))
    · intro hq e he hx hl
      rcases key e he with rfl | ⟨he, hne⟩
      · intro h'
        have := (hrest hl).2 hq h'
        simpa using this
      · exact (h.wrap hq e he (fun h' => hx (hX _ hne h')) (fun h' => hl (hlate _ hne h'))).mono (fun t _ ht => List.mem_append_left _ ht)

theorem on_same (c : Core S) (k : W S → W S) : (c.on id k).pending = c.pending := by
  simp only [Core.on]; split <;> rfl

theorem on_keeps (c : Core S) (k : W S → W S) {t : Nat} (h : t ∈ c.agenda) : t ∈ (c.on id k).agenda := by
  simp only [Core.on]; split
  · exact h
  · exact List.mem_append_left _ h

theorem init_ok (hl : Laws p news) (hid : id < 2 ^ 25) (h : Ok p id a w) : Ok p id a (finishInit p id w) ∧ Told news (finishInit p id w) ∧ WOk p id a (finishInit p id w) := by
  have h1 := more_wrap hid (rewrap_ok hl h)
  exact ⟨render_ok hl (within_ok hl.setDirty_finding h1.1), render_told hl, render_wok hl (within_wok hl.setDirty_unwrapped h1.2)⟩

theorem finalize_inv (hl : Laws p news) {q : Prop} (ids : List Nat) : ∀ (c c' : Core S), InvG p news q (fun _ => False) (· ∈ ids) c →
    finalizeLoop p ids c = some c' → InvG p news q (fun _ => False) (fun _ => False) c' ∧ c'.pending = c.pending := by
  induction ids with
  | nil =>
    intro c c' h e
    simp only [finalizeLoop, Option.some.injEq] at e
    subst e
    exact ⟨⟨h.nodup, h.small, h.known, h.ok, fun e he hx _ => h.told e he hx (by simp), fun hq e he hx _ => h.wrap hq e he hx (by simp)⟩, rfl⟩
  | cons i ids ih =>
    intro c c' h e
    rw [finalizeLoop] at e
    split at e
    · simp at e
    · have h1 : InvG p news q (fun _ => False) (· ∈ ids) (c.on i (finishInit p i)) := by
        apply h.on (late' := (· ∈ ids))
        · intro x _ h; exact h
        · intro x hx h; exact (List.mem_cons.mp h).resolve_left hx
        · intro hid v hv
          have := init_ok hl hid (h.ok (i, v) hv (by simp))
          exact ⟨this.1, fun _ => ⟨this.2.1, fun _ => this.2.2⟩⟩
      obtain ⟨h2, h3⟩ := ih _ _ h1 e
      exact ⟨h2, by rw [h3, on_same]⟩

/-- The invariant. -/
structure Inv (p : Parts S) (news : S → Bool) (q : Prop) (c : Core S) : Prop where
  all : InvG p news q (fun _ => False) (· ∈ c.pending) c
  new : c.pending ≠ [] → 1001 ∈ c.agenda

theorem Inv.on {q : Prop} {c : Core S} {k : W S → W S} (h : Inv p news q c)
    (hk : id < 2 ^ 25 → ∀ w : W S, Ok p id c.agenda w → Ok p id c.agenda (k w) ∧ (Told news w → Told news (k w)) ∧ (q → WOk p id c.agenda w → WOk p id c.agenda (k w))) :
    Inv p news q (c.on id k) := by
  refine ⟨?_, ?_⟩
  · rw [on_same]
    apply h.all.on (late' := (· ∈ c.pending))
    · intro x _ h; exact h
    · intro x _ h; exact h
    · intro hid v hv
      have h1 := hk hid (v, []) (h.all.ok _ hv (by simp))
      exact ⟨h1.1, fun hl => ⟨h1.2.1 (h.all.told _ hv (by simp) hl), fun hq => h1.2.2 hq (h.all.wrap hq _ hv (by simp) hl)⟩⟩
  · rw [on_same]; intro hp; exact on_keeps c k (h.new hp)

/-- Taking a token from the agenda: other tokens stay. -/
theorem mem_erase {l : List Nat} {i t u : Nat} (hi : l[i]? = some t) (hu : u ∈ l) (hne : u ≠ t) : u ∈ l.eraseIdx i := by
  rw [List.mem_eraseIdx_iff_getElem?]
  obtain ⟨j, hj⟩ := List.getElem?_of_mem hu
  refine ⟨j, ?_, hj⟩
  intro hji
  subst hji
  rw [hi] at hj
  exact hne (Option.some.inj hj).symm

theorem erase_inv {q : Prop} {c : Core S} (h : Inv p news q c) {i t j : Nat} (hi : c.agenda[i]? = some t) (ht : TokenOf j t) (hj : j < 2 ^ 25) :
    InvG p news q (· = j) (· ∈ c.pending) { c with agenda := c.agenda.eraseIdx i } := by
  have hk : ∀ e ∈ c.views, ¬ e.1 = j → ∀ u, TokenOf e.1 u → u ∈ c.agenda → u ∈ c.agenda.eraseIdx i := by
    intro e he hne u hu hm
    apply mem_erase hi hm
    have := h.all.small e he
    simp only [TokenOf] at ht hu
    omega
  refine ⟨h.all.nodup, h.all.small, fun u hu => h.all.known u (List.mem_of_mem_eraseIdx hu), ?_, ?_, ?_⟩
  · intro e he hne; exact (h.all.ok e he (by simp)).mono (hk e he hne)
  · intro e he _ hl; exact h.all.told e he (by simp) hl
  · intro hq e he hne hl; exact (h.all.wrap hq e he (by simp) hl).mono (hk e he hne)

theorem erase_new {q : Prop} {c : Core S} (h : Inv p news q c) {i t j : Nat} (hi : c.agenda[i]? = some t) (ht : TokenOf j t) (hp : c.pending ≠ []) :
    1001 ∈ c.agenda.eraseIdx i := by
  apply mem_erase hi (h.new hp)
  simp only [TokenOf] at ht
  omega

/-- Tokens of no view may go. -/
theorem erase_other {q : Prop} {c : Core S} (h : Inv p news q c) {i t : Nat} (hi : c.agenda[i]? = some t) (ht : t = 1001 ∨ t = 1002) :
    InvG p news q (fun _ => False) (· ∈ c.pending) { c with agenda := c.agenda.eraseIdx i } := by
  have hk : ∀ e ∈ c.views, ∀ u, TokenOf e.1 u → u ∈ c.agenda → u ∈ c.agenda.eraseIdx i := by
    intro e he u hu hm
    apply mem_erase hi hm
    simp only [TokenOf] at hu
    omega
  refine ⟨h.all.nodup, h.all.small, fun u hu => h.all.known u (List.mem_of_mem_eraseIdx hu), ?_, ?_, ?_⟩
  · intro e he _; exact (h.all.ok e he (by simp)).mono (hk e he)
  · intro e he _ hl; exact h.all.told e he (by simp) hl
  · intro hq e he _ hl; exact (h.all.wrap hq e he (by simp) hl).mono (hk e he)

theorem fire_inv (hl : Laws p news) {q : Prop} {c c' : Core S} (h : Inv p news q c) (i : Nat) (e : step p c (.fire i) = some c') : Inv p news q c' := by
  simp only [step] at e
  split at e
  · simp only [Option.some.injEq] at e; subst e; exact h
  · rename_i t hi
    rcases h.all.known t (List.mem_of_getElem? hi) with ht | ht | ⟨j, hj, ht⟩
    · have h1 := erase_other h hi (Or.inl ht)
      subst ht
      rw [handleIdle, if_pos (by rfl)] at e
      simp only [finalizeNewViews] at e
      have h2 := finalize_inv hl c.pending { views := c.views, pending := [], agenda := c.agenda.eraseIdx i } c'
        ⟨h1.nodup, h1.small, h1.known, h1.ok, h1.told, h1.wrap⟩ e
      have hp : c'.pending = [] := h2.2
      refine ⟨⟨h2.1.nodup, h2.1.small, h2.1.known, h2.1.ok, fun e he hx _ => h2.1.told e he hx (fun h => h), fun hq e he hx _ => h2.1.wrap hq e he hx (fun h => h)⟩, ?_⟩
      intro hne; exact absurd hp hne
    · have h1 := erase_other h hi (Or.inr ht)
      subst ht
      rw [handleIdle, if_neg (by decide), if_pos (by rfl)] at e
      simp only [Option.some.injEq] at e; subst e
      exact ⟨h1, fun hp => mem_erase hi (h.new hp) (by omega)⟩
    · have h1 := erase_inv h hi ht hj
      have h2 := erase_new h hi ht
      have hmem : ∀ v, (j, v) ∈ c.views → Ok p j c.agenda (v, []) := fun v hv => h.all.ok _ hv (by simp)
      have fin : ∀ k : W S → W S, (∀ v, (j, v) ∈ c.views → Ok p j (c.agenda.eraseIdx i) (k (v, [])) ∧ (¬ j ∈ c.pending → Told news (k (v, [])) ∧ (q → WOk p j (c.agenda.eraseIdx i) (k (v, []))))) →
          Inv p news q (Core.on { c with agenda := c.agenda.eraseIdx i } j k) := by
        intro k hk
        refine ⟨?_, ?_⟩
        · rw [on_same]
          exact h1.on (fun x hx h => hx h) (fun x _ h => h) (fun _ v hv => hk v hv)
        · rw [on_same]; intro hp; exact on_keeps _ k (h2 hp)
      rcases ht with ht | ht | ht <;> subst ht
      · rw [idle_render p _ hj, Option.some.injEq] at e
        subst e
        apply fin
        intro v hv
        have hf : ∀ {w : W S}, Told news w → Told news w := fun h => h
        refine ⟨⟨fun h' => by simp [finishDelayedRender] at h', fun h' => ?_, by simp [finishDelayedRender, render]⟩, fun hnl => ⟨?_, fun hq h' => ?_⟩⟩
        · have := (hmem v hv).find (by rw [← hl.render_finding]; exact h')
          simp only [List.append_nil] at this
          simp only [finishDelayedRender, render, List.append_nil]
          exact mem_erase hi this (by omega)
        · intro h'; simp [finishDelayedRender, render, hl.render_news] at h'
        · have := h.all.wrap hq _ hv (by simp) hnl (by rw [← hl.render_unwrapped]; exact h')
          simp only [List.append_nil] at this
          simp only [finishDelayedRender, render, List.append_nil]
          exact mem_erase hi this (by omega)
      · rw [idle_rewrap p _ hj, Option.some.injEq] at e
        subst e
        apply fin
        intro v hv
        have ho : Ok p j (c.agenda.eraseIdx i) (v, []) := by
          have := hmem v hv
          refine ⟨fun h' => ?_, fun h' => ?_, this.own⟩
          · have := this.pend h'; simp only [List.append_nil] at this ⊢; exact mem_erase hi this (by omega)
          · have := this.find h'; simp only [List.append_nil] at this ⊢; exact mem_erase hi this (by omega)
        have hm := more_wrap hj (rewrap_ok hl ho)
        exact ⟨needed_ok hl hm.1, fun _ => ⟨needed_told hl, fun _ => needed_wok hl hm.2⟩⟩
      · rw [idle_find p _ hj, Option.some.injEq] at e
        subst e
        apply fin
        intro v hv
        refine ⟨find_ok hl hj (fun h' => ?_) (by simp), fun hnl => ⟨needed_told hl, fun hq => find_wok hl (fun h' => ?_)⟩⟩
        · have := (hmem v hv).pend h'; simp only [List.append_nil] at this ⊢; exact mem_erase hi this (by omega)
        · have := h.all.wrap hq _ hv (by simp) hnl h'
          simp only [List.append_nil] at this ⊢
          exact mem_erase hi this (by omega)

theorem step_inv (hl : Laws p news) {q : Prop} (hq : q → CommitWraps p) {c c' : Core S} (h : Inv p news q c) {e : Event S} (ht : e.Tame p) (hn : e.NewNumber c)
    (hs : step p c e = some c') : Inv p news q c' := by
  cases e with
  | new i st =>
    simp only [step, Option.some.injEq] at hs
    subst hs
    obtain ⟨hi, hfresh⟩ := hn
    simp only [Event.Tame] at ht
    have hap : ∀ j t, TokenOf j t → t ∈ c.agenda → t ∈ c.agenda ++ [newViewToken] := fun j t _ h => List.mem_append_left _ h
    refine ⟨⟨?_, ?_, ?_, ?_, ?_, ?_⟩, ?_⟩
    · simp only [List.map_append, List.map_cons, List.map_nil]
      rw [List.nodup_append]
      refine ⟨h.all.nodup, by simp, ?_⟩
      intro a ha b hb
      obtain ⟨e, he, rfl⟩ := List.mem_map.mp ha
      simp only [List.mem_singleton] at hb
      subst hb
      exact hfresh e he
    · intro e he
      rcases List.mem_append.mp he with he | he
      · exact h.all.small e he
      · simp only [List.mem_singleton] at he; subst he; exact hi
    · intro t ht
      rcases List.mem_append.mp ht with ht | ht
      · exact h.all.known t ht
      · simp only [List.mem_singleton, newViewToken] at ht; exact Or.inl ht
    · intro e he _
      rcases List.mem_append.mp he with he | he
      · exact (h.all.ok e he (by simp)).mono (hap _)
      · simp only [List.mem_singleton] at he; subst he
        exact ⟨by simp, by simp [ht], by simp⟩
    · intro e he _ hnl
      simp only [List.mem_append, List.mem_singleton, not_or] at hnl
      rcases List.mem_append.mp he with he | he
      · exact h.all.told e he (by simp) hnl.1
      · simp only [List.mem_singleton] at he; subst he; exact absurd rfl hnl.2
    · intro hq e he _ hnl
      simp only [List.mem_append, List.mem_singleton, not_or] at hnl
      rcases List.mem_append.mp he with he | he
      · exact (h.all.wrap hq e he (by simp) hnl.1).mono (hap _)
      · simp only [List.mem_singleton] at he; subst he; exact absurd rfl hnl.2
    · intro _; simp [newViewToken]
  | close i =>
    simp only [step, Option.some.injEq] at hs
    subst hs
    have hm : ∀ e, e ∈ c.views.filter (fun e => e.1 ≠ i) → e ∈ c.views := fun e he => (List.mem_filter.mp he).1
    refine ⟨⟨?_, fun e he => h.all.small e (hm e he), h.all.known, fun e he => h.all.ok e (hm e he), fun e he => h.all.told e (hm e he),
      fun hq e he => h.all.wrap hq e (hm e he)⟩, h.new⟩
    exact (List.filter_sublist.map Prod.fst).nodup h.all.nodup
  | edit i plugins cmd =>
    simp only [step, Option.some.injEq] at hs
    subst hs
    refine h.on fun hid w ho => ⟨needed_ok hl (after_ok hl hid plugins (dispatch_ok hl hid ht ho)), fun _ => needed_told hl,
      fun h1 hw => needed_wok hl (after_wok (hq h1) plugins (dispatch_wok hl hid ht ho hw))⟩
  | play i plugins cmds =>
    simp only [step, Option.some.injEq] at hs
    subst hs
    refine h.on fun hid w ho => ⟨needed_ok hl (after_ok hl hid plugins (play_ok hl hid cmds w ht ho)), fun _ => needed_told hl,
      fun h1 hw => needed_wok hl (after_wok (hq h1) plugins (play_wok hl (hq h1) hid cmds w ht ho hw))⟩
  | plugin i plugins f =>
    simp only [step, Option.some.injEq] at hs
    subst hs
    refine h.on fun hid w ho => ⟨needed_ok hl (after_ok hl hid plugins (within_ok ht.1 ho)), fun _ => needed_told hl,
      fun h1 hw => needed_wok hl (after_wok (hq h1) plugins (within_wok ht.2 hw))⟩
  | saved i f =>
    simp only [step, Option.some.injEq] at hs
    subst hs
    refine h.on fun hid w ho => ⟨render_ok hl (within_ok hl.setDirty_finding (within_ok ht.1 ho)), fun _ => render_told hl,
      fun h1 hw => render_wok hl (within_wok hl.setDirty_unwrapped (within_wok ht.2 hw))⟩
  | config i wrap =>
    simp only [step, Option.some.injEq] at hs
    subst hs
    cases wrap with
    | none => exact h.on fun hid w ho => ⟨render_ok hl ho, fun _ => render_told hl, fun h1 hw => render_wok hl hw⟩
    | some f =>
      refine h.on fun hid w ho => ?_
      have := settings_ok hl hid (ht f rfl) true ho
      exact ⟨render_ok hl this.1, fun _ => render_told hl, fun _ _ => render_wok hl this.2⟩
  | reload i plugins f =>
    simp only [step, Option.some.injEq] at hs
    subst hs
    refine h.on fun hid w ho => ⟨render_ok hl (after_ok hl hid plugins (within_ok ht.1 ho)), fun _ => render_told hl,
      fun h1 hw => render_wok hl (after_wok (hq h1) plugins (within_wok ht.2 hw))⟩
  | stopped i layer =>
    simp only [step, Option.some.injEq] at hs
    subst hs
    cases layer with
    | none => exact h.on fun hid w ho => ⟨ho, fun h => h, fun _ h => h⟩
    | some f =>
      exact h.on fun hid w ho => ⟨render_ok hl (within_ok hl.setDirty_finding (within_ok (ht f rfl).1 ho)), fun _ => render_told hl,
        fun h1 hw => render_wok hl (within_wok hl.setDirty_unwrapped (within_wok (ht f rfl).2 hw))⟩
  | theme i f =>
    simp only [step, Option.some.injEq] at hs
    subst hs
    exact h.on fun hid w ho => ⟨needed_ok hl (within_ok hl.setDirty_finding (within_ok ht.1 ho)), fun _ => needed_told hl,
        fun h1 hw => needed_wok hl (within_wok hl.setDirty_unwrapped (within_wok ht.2 hw))⟩
  | watch =>
    simp only [step, Option.some.injEq] at hs
    subst hs
    have hap : ∀ j t, TokenOf j t → t ∈ c.agenda → t ∈ c.agenda ++ [watchToken] := fun j t _ h => List.mem_append_left _ h
    refine ⟨⟨h.all.nodup, h.all.small, ?_, fun e he hx => (h.all.ok e he hx).mono (hap _), h.all.told, fun hq e he hx hl => (h.all.wrap hq e he hx hl).mono (hap _)⟩,
      fun hp => List.mem_append_left _ (h.new hp)⟩
    intro t ht
    rcases List.mem_append.mp ht with ht | ht
    · exact h.all.known t ht
    · simp only [List.mem_singleton, watchToken] at ht; exact Or.inr (Or.inl ht)
  | fire i => exact fire_inv hl h i hs

theorem start_inv {q : Prop} : Inv p news q (start : Core S) :=
  ⟨⟨by simp [start], by simp [start], by simp [start], by simp [start], by simp [start], by simp [start]⟩, by simp [start]⟩

theorem reaches_inv (hl : Laws p news) {q : Prop} (hq : q → CommitWraps p) {c : Core S} (h : Reaches p start c) : Inv p news q c := by
  induction h with
  | refl => exact start_inv
  | step e _ ht hn hs ih => exact step_inv hl hq ih ht hn hs

end

theorem finalize_panics (p : Parts S) (ids : List Nat) : ∀ (c : Core S), finalizeLoop p ids c = none → ∃ id ∈ ids, ∀ e ∈ c.views, e.1 ≠ id := by
  induction ids with
  | nil => intro c h; simp [finalizeLoop] at h
  | cons i ids ih =>
    intro c h
    rw [finalizeLoop] at h
    split at h
    · rename_i hl; exact ⟨i, List.mem_cons_self, not_mem_of_lookup hl⟩
    · obtain ⟨id, hid, h1⟩ := ih _ h
      refine ⟨id, List.mem_cons_of_mem _ hid, ?_⟩
      intro e he hne
      simp only [Core.on] at h1
      split at h1
      · exact h1 e he hne
      · by_cases hi : e.1 = i
        · refine h1 _ (List.mem_map.mpr ⟨e, he, rfl⟩) ?_
          rw [if_pos hi]; exact hi.symm.trans hne
        · refine h1 _ (List.mem_map.mpr ⟨e, he, rfl⟩) ?_
          rw [if_neg hi]; exact hne

end Agenda

/-- **C101, drawing.** Between events, whatever a view has to tell the front-end has been told, or drawing the view is on the
agenda; so it is for every run of the core, whatever the parts of the views do.  (Views that are still being set up are drawn then;
that is on the agenda too: `C101_new`.) -/
theorem C101_draw {S : Type} (p : Parts S) (news : S → Bool) (hl : Laws p news) (c : Core S) (h : Reaches p start c)
    (id : Nat) (v : V S) (hv : (id, v) ∈ c.views) (hp : id ∉ c.pending) (hn : news v.st = true) : DrawDue c id := by
  have hi := reaches_inv (q := False) hl (fun h => h.elim) h
  have h1 := (hi.all.ok _ hv (fun h => h)).pend (hi.all.told _ hv (fun h => h) hp hn)
  simpa [DrawDue] using h1

/-- **C101, delayed drawing.** A view that waits for its plugins before it is drawn is on the agenda. -/
theorem C101_delayed {S : Type} (p : Parts S) (news : S → Bool) (hl : Laws p news) (c : Core S) (h : Reaches p start c)
    (id : Nat) (v : V S) (hv : (id, v) ∈ c.views) (hd : v.pendingRender = true) : DrawDue c id := by
  have hi := reaches_inv (q := False) hl (fun h => h.elim) h
  simpa [DrawDue] using (hi.all.ok _ hv (fun h => h)).pend hd

/-- **C101, searching.** While a search in a view has not come to its end, going on with it is on the agenda. -/
theorem C101_find {S : Type} (p : Parts S) (news : S → Bool) (hl : Laws p news) (c : Core S) (h : Reaches p start c)
    (id : Nat) (v : V S) (hv : (id, v) ∈ c.views) (hf : p.finding v.st = true) : FindDue c id := by
  have hi := reaches_inv (q := False) hl (fun h => h.elim) h
  simpa [FindDue] using (hi.all.ok _ hv (fun h => h)).find hf

/-- **C101, new views.** While there are views to be set up, doing so is on the agenda. -/
theorem C101_new {S : Type} (p : Parts S) (news : S → Bool) (hl : Laws p news) (c : Core S) (h : Reaches p start c)
    (hp : c.pending ≠ []) : NewDue c :=
  (reaches_inv (q := False) hl (fun h => h.elim) h).new hp

/-- **C101, wrapping**, in part: if no change of the text leaves lines to be wrapped, wrapping the rest is on the agenda whenever there
is a rest.  Without that condition it need not be: `C101_wrap_refuted`. -/
theorem C101_wrap_partial {S : Type} (p : Parts S) (news : S → Bool) (hl : Laws p news) (hc : CommitWraps p) (c : Core S) (h : Reaches p start c)
    (id : Nat) (v : V S) (hv : (id, v) ∈ c.views) (hp : id ∉ c.pending) (hu : p.unwrapped v.st = true) : WrapDue c id := by
  have hi := reaches_inv (q := True) hl (fun _ => hc) h
  simpa [WrapDue] using hi.all.wrap trivial _ hv (fun h => h) hp hu

/-- **C101, nothing forgotten.** When the agenda is empty there are no views to be set up, the front-end knows all, no search is
unfinished, and, if changes of the text leave nothing to be wrapped, no line is. -/
theorem C101_idle_partial {S : Type} (p : Parts S) (news : S → Bool) (hl : Laws p news) (c : Core S) (h : Reaches p start c) (he : c.agenda = []) :
    c.pending = [] ∧ ∀ e ∈ c.views, news e.2.st = false ∧ p.finding e.2.st = false ∧ (CommitWraps p → p.unwrapped e.2.st = false) := by
  have hp : c.pending = [] := Classical.byContradiction fun hp => by
    have := C101_new p news hl c h hp
    simp [NewDue, he] at this
  refine ⟨hp, fun e hv => ⟨?_, ?_, fun hc => ?_⟩⟩
  · apply Bool.eq_false_iff.mpr
    intro hn
    have := C101_draw p news hl c h e.1 e.2 hv (by simp [hp]) hn
    simp [DrawDue, he] at this
  · apply Bool.eq_false_iff.mpr
    intro hn
    have := C101_find p news hl c h e.1 e.2 hv hn
    simp [FindDue, he] at this
  · apply Bool.eq_false_iff.mpr
    intro hn
    have := C101_wrap_partial p news hl hc c h e.1 e.2 hv (by simp [hp]) hn
    simp [WrapDue, he] at this

/-- **C101, the tokens.** A token of a view leads back to that view and to what it was made for. -/
theorem C101_tokens {S : Type} (p : Parts S) (c : Core S) (id : Nat) (h : id < 2 ^ 25) :
    handleIdle p c (renderMask ||| id) = some (c.on id (finishDelayedRender p)) ∧
    handleIdle p c (rewrapMask ||| id) = some (c.on id (doRewrapBatch p id)) ∧
    handleIdle p c (findMask ||| id) = some (c.on id (doIncrementalFind p id)) := by
  rw [render_token h, rewrap_token h, find_token h]
  exact ⟨idle_render p c h, idle_rewrap p c h, idle_find p c h⟩

/-- **C101, when it is done.** When the token for drawing comes back, the view is drawn, and nothing is delayed any more. -/
theorem C101_drawn {S : Type} (p : Parts S) (news : S → Bool) (hl : Laws p news) (c : Core S) (id i : Nat) (v : V S) (h : id < 2 ^ 25)
    (hv : c.views.lookup id = some v) (hi : c.agenda[i]? = some (2 ^ 25 + id)) :
    ∃ c' v', step p c (.fire i) = some c' ∧ (id, v') ∈ c'.views ∧ v'.st = p.render v.st ∧ news v'.st = false ∧ v'.pendingRender = false := by
  refine ⟨_, { st := p.render v.st, pendingRender := false }, by simp only [step, hi]; exact idle_render p _ h, ?_, rfl, hl.render_news _, rfl⟩
  simp only [Core.on, hv]
  exact List.mem_map.mpr ⟨(id, v), mem_of_lookup hv, by simp [finishDelayedRender, render]⟩

/-- **C101, panics.** The only panic: a view is to be set up that has been closed. -/
theorem C101_panic {S : Type} (p : Parts S) (news : S → Bool) (hl : Laws p news) (c : Core S) (h : Reaches p start c) (e : Event S) (hs : step p c e = none) :
    ∃ i, e = .fire i ∧ c.agenda[i]? = some 1001 ∧ ∃ id ∈ c.pending, ∀ v ∈ c.views, v.1 ≠ id := by
  have hinv := reaches_inv (q := False) hl (fun h => h.elim) h
  cases e with
  | fire i =>
    refine ⟨i, rfl, ?_⟩
    simp only [step] at hs
    split at hs
    · simp at hs
    · rename_i t hi
      rcases hinv.all.known t (List.mem_of_getElem? hi) with ht | ht | ⟨j, hj, ht⟩
      · subst ht
        rw [handleIdle, if_pos (by rfl)] at hs
        exact ⟨hi, finalize_panics p c.pending { views := c.views, pending := [], agenda := c.agenda.eraseIdx i } hs⟩
      · subst ht
        rw [handleIdle, if_neg (by decide), if_pos (by rfl)] at hs
        simp at hs
      · rcases ht with ht | ht | ht <;> subst ht
        · rw [idle_render p _ hj] at hs; simp at hs
        · rw [idle_rewrap p _ hj] at hs; simp at hs
        · rw [idle_find p _ hj] at hs; simp at hs
  | _ => simp [step] at hs

namespace Agenda

/-- A view for trying things out: how many lines are to be wrapped, how many lines have been put in and not committed, how many
batches a search has still to do, and whether there is news. -/
structure Demo where
  left : Nat
  typed : Nat
  search : Nat
  news : Bool

/-- Wrapping does 500 lines at a time (`MAX_LINES_PER_BATCH`, linewrap.rs:359), searching one batch; an edit wraps one batch (linewrap.rs:332). -/
def demo : Parts Demo where
  unwrapped s := s.left != 0
  looksUnwrapped _ := false
  finding s := s.search != 0
  rewrap s := { s with left := s.left - 500, news := s.news || s.left != 0 }
  find s := { s with search := s.search - 1, news := true }
  render s := { s with news := false }
  setDirty s := { s with news := true }
  commit s := if s.typed = 0 then none else some { s with left := s.left + s.typed - 500, typed := 0, news := true }

theorem demo_laws : Laws demo Demo.news where
  render_news _ := by simp [demo]
  render_unwrapped _ := by simp [demo]
  render_finding _ := by simp [demo]
  rewrap_finding _ := by simp [demo]
  rewrap_unwrapped s h := by simp only [demo, bne_iff_ne] at h ⊢; omega
  find_unwrapped _ := by simp [demo]
  setDirty_unwrapped _ := by simp [demo]
  setDirty_finding _ := by simp [demo]
  commit_finding s s' h := by
    simp only [demo] at h
    split at h
    · simp at h
    · simp only [Option.some.injEq] at h; subst h; simp [demo]

/-- A run leads to where it leads. -/
theorem reaches_run {p : Parts S} {c0 : Core S} (es : List (Event S)) : ∀ {c : Core S} {c' : Core S}, Reaches p c0 c → (∀ e ∈ es, e.Tame p) →
    (∀ e ∈ es, ∀ id st, e ≠ .new id st) → run p c es = some c' → Reaches p c0 c' := by
  induction es with
  | nil => intro c c' h _ _ hr; simp only [run, Option.some.injEq] at hr; subst hr; exact h
  | cons e es ih =>
    intro c c' h ht hn hr
    simp only [run, Option.bind_eq_some_iff] at hr
    obtain ⟨c1, h1, h2⟩ := hr
    refine ih (Reaches.step e h (ht e List.mem_cons_self) ?_ h1) (fun e' he' => ht e' (List.mem_cons_of_mem _ he')) (fun e' he' => hn e' (List.mem_cons_of_mem _ he')) h2
    cases e with
    | new id st => exact absurd rfl (hn _ List.mem_cons_self id st)
    | _ => trivial

/-- An empty view of a file. -/
def blank : Demo := { left := 0, typed := 0, search := 0, news := true }

/-- The core with one view. -/
def oneView : Core Demo := { views := [(1, { st := blank, pendingRender := false })], pending := [1], agenda := [1001] }

theorem oneView_reached : Reaches demo start oneView :=
  .step (.new 1 blank) (.refl start) rfl ⟨by decide, by simp [start]⟩ rfl

/-- A big paste. -/
def paste (n : Nat) : Event Demo := .edit 1 false (.buffer fun s => { s with typed := n })

theorem paste_tame (n : Nat) : (paste n).Tame demo := ⟨fun _ => rfl, fun _ => rfl⟩

end Agenda

/-- **C101 refuted for wrapping.** The lines of a big paste: one batch is wrapped at once, the rest stays as it is, and nothing is on
the agenda.  (`after_edit`, event_context.rs:271-296, does not look at `needs_more_wrap`; only new settings, a new size and a new view do.) -/
theorem C101_wrap_refuted : ∃ c : Core Demo, Reaches demo start c ∧ c.agenda = [] ∧ c.pending = [] ∧ ∃ v, (1, v) ∈ c.views ∧ demo.unwrapped v.st = true := by
  refine ⟨{ views := [(1, { st := { left := 700, typed := 0, search := 0, news := false }, pendingRender := false })], pending := [], agenda := [] }, ?_, rfl, rfl, _, List.mem_cons_self, rfl⟩
  refine reaches_run [.fire 0, paste 1200] oneView_reached ?_ ?_ ?_
  · intro e he
    simp only [List.mem_cons, List.not_mem_nil, or_false] at he
    rcases he with rfl | rfl
    · trivial
    · exact paste_tame _
  · intro e he id st
    simp only [List.mem_cons, List.not_mem_nil, or_false] at he
    rcases he with rfl | rfl <;> simp [paste]
  · rfl

/-- **C101 refuted for views closed at once.** A view that is closed before it has been set up: the core panics. -/
theorem C101_closed_refuted : run demo oneView [.close 1, .fire 0] = none := by rfl

/-- **C101 refuted for large numbers.** Drawing view number 2 ^ 25 is the token of drawing view 0, and wrapping it that of drawing
view 2 ^ 26. -/
theorem C101_number_refuted {S : Type} (p : Parts S) (c : Core S) :
    handleIdle p c (renderMask ||| 2 ^ 25) = some (c.on 0 (finishDelayedRender p)) ∧
    handleIdle p c (rewrapMask ||| 2 ^ 25) = some (c.on (2 ^ 26) (finishDelayedRender p)) := by
  constructor <;> rfl

/-- Non-trivial case: with plugins about, an edit is not drawn at once; drawing it is on the agenda, and so are a search and the wrapping
of what a narrower window needs. -/
example : (run demo oneView [.fire 0, .edit 1 true (.buffer fun s => { s with typed := 3 }), .edit 1 true (.view fun s => { s with search := 3 }),
      .edit 1 true (.resize id (some fun s => { s with left := 900 }))]).map (fun c => (c.agenda, c.views.map (fun e => (e.2.st.news, e.2.pendingRender)))) =
    some ([2 ^ 25 + 1, 2 ^ 27 + 1, 2 ^ 26 + 1], [(true, true)]) := by rfl

/-- Non-trivial case: all of it done. -/
example : (run demo oneView [.fire 0, .edit 1 true (.buffer fun s => { s with typed := 3 }), .edit 1 true (.view fun s => { s with search := 3 }),
      .edit 1 true (.resize id (some fun s => { s with left := 900 })), .fire 0, .fire 0, .fire 0, .fire 0, .fire 0]).map
      (fun c => (c.agenda, c.views.map (fun e => (e.2.st.news, e.2.st.left, e.2.st.search, e.2.pendingRender)))) =
    some ([], [(false, 0, 0, false)]) := by rfl

end Xi
