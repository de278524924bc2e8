import Verif.Props.Agenda
import Verif.Props.Wrap

/-!
# C101: all of it gets done
-/
namespace Xi
open Agenda

namespace Agenda

/-- What all views have left to do. -/
def total (todo : S → Nat) (l : List (Nat × V S)) : Nat := (l.map (fun e => todo e.2.st)).sum

section
variable {p : Parts S} {news : S → Bool} {todo : S → Nat} {id : Nat} {w : W S}

theorem needed_todo (hg : Progress p todo) : todo (renderIfNeeded p w).1.st ≤ todo w.1.st ∧ (renderIfNeeded p w).2 = w.2 := by
  simp only [renderIfNeeded]; split
  · exact ⟨hg.render_le _, rfl⟩
  · exact ⟨Nat.le_refl _, rfl⟩

/-- A batch of wrapping: less to do, or no new token. -/
theorem batch_todo (hl : Laws p news) (hg : Progress p todo) (v : V S) : todo (doRewrapBatch p id (v, [])).1.st < todo v.st ∨
    (todo (doRewrapBatch p id (v, [])).1.st ≤ todo v.st ∧ (doRewrapBatch p id (v, [])).2 = []) := by
  simp only [doRewrapBatch]
  by_cases h : p.unwrapped v.st = true
  · left
    refine Nat.lt_of_le_of_lt (needed_todo hg).1 (Nat.lt_of_le_of_lt (Nat.le_of_eq ?_) (hg.rewrap_less _ h))
    split <;> rfl
  · right
    have h1 : ¬ p.unwrapped (rewrap p (v, [])).1.st = true := fun h' => h (hl.rewrap_unwrapped _ h')
    rw [if_neg h1]
    have := needed_todo (w := rewrap p (v, [])) hg
    exact ⟨Nat.le_trans this.1 (hg.rewrap_le _), this.2⟩

/-- A batch of searching: less to do, or no new token. -/
theorem search_todo (hg : Progress p todo) (v : V S) : todo (doIncrementalFind p id (v, [])).1.st < todo v.st ∨
    (todo (doIncrementalFind p id (v, [])).1.st ≤ todo v.st ∧ (doIncrementalFind p id (v, [])).2 = []) := by
  simp only [doIncrementalFind]
  by_cases h : p.finding v.st = true
  · left
    refine Nat.lt_of_le_of_lt (needed_todo hg).1 (Nat.lt_of_le_of_lt (Nat.le_of_eq ?_) (hg.find_less _ h))
    split <;> rfl
  · right
    have h1 : ¬ p.finding (within p.find (v, [])).1.st = true := by
      have := hg.find_still v.st (by simpa using h)
      simpa [within] using this
    rw [if_neg h1]
    have := needed_todo (w := within p.find (v, [])) hg
    exact ⟨Nat.le_trans this.1 (hg.find_le _), this.2⟩

theorem init_todo (hg : Progress p todo) (v : V S) : todo (finishInit p id (v, [])).1.st ≤ todo v.st ∧ (finishInit p id (v, [])).2.length ≤ 1 := by
  simp only [finishInit]
  refine ⟨Nat.le_trans (hg.render_le _) (Nat.le_trans (hg.setDirty_le _) (Nat.le_trans (Nat.le_of_eq ?_) (hg.rewrap_le v.st))), ?_⟩
  · split <;> rfl
  · split <;> simp [scheduleRewrap, render, within, rewrap]

theorem total_map {l : List (Nat × V S)} {v u : V S} (hn : (l.map Prod.fst).Nodup) (hv : l.lookup id = some v) :
    total todo (l.map (fun e => if e.1 = id then (id, u) else e)) + todo v.st = total todo l + todo u.st := by
  induction l with
  | nil => simp at hv
  | cons e l ih =>
    obtain ⟨i, x⟩ := e
    simp only [List.map_cons, List.nodup_cons] at hn
    rw [List.lookup_cons] at hv
    by_cases h : i = id
    · subst h
      simp only [beq_self_eq_true, Option.some.injEq] at hv
      subst hv
      have hsame : l.map (fun e => if e.1 = i then (i, u) else e) = l := by
        conv => rhs; rw [← List.map_id l]
        apply List.map_congr_left
        intro e he
        rw [if_neg]
        · rfl
        · intro h'
          exact hn.1 (List.mem_map.mpr ⟨e, he, h'⟩)
      simp only [List.map_cons, if_pos, hsame, total, List.sum_cons]
      omega
    · have hb : (id == i) = false := by simp; exact fun h' => h h'.symm
      rw [hb] at hv
      have := ih hn.2 hv
      simp only [List.map_cons, if_neg h, total, List.sum_cons] at this ⊢
      omega

/-- What is left to do, and how long the agenda is, with a view taken up. -/
theorem on_less {c : Core S} {k : W S → W S} (hn : (c.views.map Prod.fst).Nodup)
    (hk : ∀ v, todo (k (v, [])).1.st < todo v.st ∨ (todo (k (v, [])).1.st ≤ todo v.st ∧ (k (v, [])).2 = [])) :
    total todo (c.on id k).views < total todo c.views ∨ (total todo (c.on id k).views ≤ total todo c.views ∧ (c.on id k).agenda = c.agenda) := by
  simp only [Core.on]
  split
  · exact Or.inr ⟨Nat.le_refl _, rfl⟩
  · rename_i v hv
    have h := total_map (todo := todo) (u := (k (v, [])).1) hn hv
    rcases hk v with h1 | ⟨h1, h2⟩
    · left; dsimp only; omega
    · right; dsimp only; rw [h2, List.append_nil]; exact ⟨by omega, rfl⟩

theorem on_keys (c : Core S) (k : W S → W S) : (c.on id k).views.map Prod.fst = c.views.map Prod.fst := by
  simp only [Core.on]
  split
  · rfl
  · rename_i v hv
    dsimp only
    rw [List.map_map]
    apply List.map_congr_left
    intro e _
    simp only [Function.comp_apply]
    split
    · rename_i he; exact he.symm
    · rfl

theorem finalize_todo (hg : Progress p todo) (ids : List Nat) : ∀ (c c' : Core S), (c.views.map Prod.fst).Nodup → finalizeLoop p ids c = some c' →
    total todo c'.views ≤ total todo c.views ∧ c'.agenda.length ≤ c.agenda.length + ids.length ∧ c'.pending = c.pending := by
  induction ids with
  | nil => intro c c' _ e; simp only [finalizeLoop, Option.some.injEq] at e; subst e; simp
  | cons i ids ih =>
    intro c c' hn e
    rw [finalizeLoop] at e
    split at e
    · simp at e
    · rename_i v hv
      obtain ⟨h1, h2, h3⟩ := ih _ _ (by rw [on_keys]; exact hn) e
      have ht := init_todo (id := i) hg v
      have hm := total_map (todo := todo) (u := (finishInit p i (v, [])).1) hn hv
      rw [on_same] at h3
      simp only [Core.on, hv, List.length_append] at h1 h2
      simp only [List.length_cons]
      exact ⟨by omega, by omega, h3⟩

/-- The measure goes down. -/
theorem idles_less (hl : Laws p news) (hg : Progress p todo) {c c' : Core S} (hn : (c.views.map Prod.fst).Nodup) (h : Idles p c' c) :
    total todo c'.views < total todo c.views ∨
      (total todo c'.views ≤ total todo c.views ∧ c'.agenda.length + 2 * c'.pending.length < c.agenda.length + 2 * c.pending.length) := by
  obtain ⟨i, hi, hs⟩ := h
  have hlen := List.length_eraseIdx_of_lt hi
  simp only [step, List.getElem?_eq_getElem hi] at hs
  rw [handleIdle] at hs
  split at hs
  · obtain ⟨h1, h2, h3⟩ := finalize_todo hg c.pending { views := c.views, pending := [], agenda := c.agenda.eraseIdx i } c' hn hs
    right
    dsimp only at h1 h2 h3
    rw [hlen] at h2
    refine ⟨h1, ?_⟩
    rw [h3]
    simp only [List.length_nil]
    omega
  · split at hs
    · simp only [Option.some.injEq] at hs; subst hs
      right; dsimp only; exact ⟨Nat.le_refl _, by omega⟩
    · have fin : ∀ (j : Nat) (k : W S → W S), (∀ v, todo (k (v, [])).1.st < todo v.st ∨ (todo (k (v, [])).1.st ≤ todo v.st ∧ (k (v, [])).2 = [])) →
          Core.on { c with agenda := c.agenda.eraseIdx i } j k = c' → total todo c'.views < total todo c.views ∨
          (total todo c'.views ≤ total todo c.views ∧ c'.agenda.length + 2 * c'.pending.length < c.agenda.length + 2 * c.pending.length) := by
        intro j k hk e
        subst e
        rw [on_same]
        rcases on_less (id := j) (c := { c with agenda := c.agenda.eraseIdx i }) hn hk with h1 | ⟨h1, h2⟩
        · exact Or.inl h1
        · right
          rw [h2]
          exact ⟨h1, by dsimp only; omega⟩
      split at hs
      · simp only [Option.some.injEq] at hs
        exact fin _ _ (fun v => Or.inr ⟨hg.render_le _, rfl⟩) hs
      · split at hs
        · simp only [Option.some.injEq] at hs
          exact fin _ _ (batch_todo hl hg) hs
        · split at hs
          · simp only [Option.some.injEq] at hs
            exact fin _ _ (search_todo hg) hs
          · simp at hs

theorem acc_idles (hl : Laws p news) (hg : Progress p todo) (n : Nat) : ∀ (m : Nat) (c : Core S), Reaches p start c → total todo c.views ≤ n →
    c.agenda.length + 2 * c.pending.length ≤ m → Acc (Idles p) c := by
  induction n using Nat.strongRecOn with
  | ind n ihn =>
    intro m
    induction m using Nat.strongRecOn with
    | ind m ihm =>
      intro c hr hn hm
      refine Acc.intro c fun c' hc => ?_
      have hinv := reaches_inv (q := False) hl (fun h => h.elim) hr
      have hr' : Reaches p start c' := by
        obtain ⟨i, _, hs⟩ := hc
        exact .step (.fire i) hr trivial trivial hs
      rcases idles_less hl hg hinv.all.nodup hc with h | ⟨h1, h2⟩
      · exact ihn (total todo c'.views) (by omega) _ c' hr' (Nat.le_refl _) (Nat.le_refl _)
      · by_cases he : total todo c'.views < n
        · exact ihn (total todo c'.views) he _ c' hr' (Nat.le_refl _) (Nat.le_refl _)
        · exact ihm (c'.agenda.length + 2 * c'.pending.length) (by omega) c' hr' (by omega) (Nat.le_refl _)

theorem finalize_keys (ids : List Nat) : ∀ (c c' : Core S), finalizeLoop p ids c = some c' → c'.views.map Prod.fst = c.views.map Prod.fst ∧ c'.pending = c.pending := by
  induction ids with
  | nil => intro c c' e; simp only [finalizeLoop, Option.some.injEq] at e; subst e; exact ⟨rfl, rfl⟩
  | cons i ids ih =>
    intro c c' e
    rw [finalizeLoop] at e
    split at e
    · simp at e
    · obtain ⟨h1, h2⟩ := ih _ _ e
      exact ⟨by rw [h1, on_keys], by rw [h2, on_same]⟩

/-- Handing back a token opens and closes no views. -/
theorem fire_keys {c c' : Core S} {i : Nat} (hs : step p c (.fire i) = some c') :
    c'.views.map Prod.fst = c.views.map Prod.fst ∧ (c'.pending = c.pending ∨ c'.pending = []) := by
  simp only [step] at hs
  split at hs
  · simp only [Option.some.injEq] at hs; subst hs; exact ⟨rfl, Or.inl rfl⟩
  · rw [handleIdle] at hs
    split at hs
    · obtain ⟨h1, h2⟩ := finalize_keys _ _ _ hs
      exact ⟨h1, Or.inr h2⟩
    · split at hs
      · simp only [Option.some.injEq] at hs; subst hs; exact ⟨rfl, Or.inl rfl⟩
      · split at hs
        · simp only [Option.some.injEq] at hs; subst hs; exact ⟨on_keys _ _, Or.inl (on_same _ _)⟩
        · split at hs
          · simp only [Option.some.injEq] at hs; subst hs; exact ⟨on_keys _ _, Or.inl (on_same _ _)⟩
          · split at hs
            · simp only [Option.some.injEq] at hs; subst hs; exact ⟨on_keys _ _, Or.inl (on_same _ _)⟩
            · simp at hs

end

/-- The view for trying things out has an end. -/
theorem demo_progress : Progress demo (fun s => s.left + s.search) where
  rewrap_less s h := by simp only [demo, bne_iff_ne] at h ⊢; omega
  find_less s h := by simp only [demo, bne_iff_ne] at h ⊢; omega
  rewrap_le s := by simp only [demo]; omega
  find_le s := by simp only [demo]; omega
  find_still s h := by simp only [demo, bne_eq_false_iff_eq] at h ⊢; omega
  render_le s := by simp [demo]
  setDirty_le s := by simp [demo]

end Agenda

/-- **C101, an end.** If each batch of wrapping and of searching leaves less to do, the work put off comes to an end: left alone, the core
cannot go on handing back tokens for ever, in whatever order they come. -/
theorem C101_ends {S : Type} (p : Parts S) (news : S → Bool) (todo : S → Nat) (hl : Laws p news) (hg : Progress p todo) (c : Core S) (h : Reaches p start c) :
    Acc (Idles p) c :=
  acc_idles hl hg _ _ c h (Nat.le_refl _) (Nat.le_refl _)

/-- **C101, all done**, in part: left alone, the core comes to a state with an empty agenda, where everything has been drawn and searched
(and wrapped, if edits leave nothing to be wrapped), unless a view that is to be set up has been closed. -/
theorem C101_done_partial {S : Type} (p : Parts S) (news : S → Bool) (todo : S → Nat) (hl : Laws p news) (hg : Progress p todo) (c : Core S) (h : Reaches p start c)
    (hp : ∀ id ∈ c.pending, ∃ v, (id, v) ∈ c.views) :
    ∃ (fires : List Nat) (c' : Core S), run p c (fires.map .fire) = some c' ∧ c'.agenda = [] ∧
      ∀ e ∈ c'.views, news e.2.st = false ∧ p.finding e.2.st = false ∧ (CommitWraps p → p.unwrapped e.2.st = false) := by
  have hacc := C101_ends p news todo hl hg c h
  induction hacc with
  | intro c _ ih =>
    by_cases ha : c.agenda = []
    · exact ⟨[], c, rfl, ha, (C101_idle_partial p news hl c h ha).2⟩
    · have h0 : 0 < c.agenda.length := List.length_pos_iff.mpr ha
      cases hs : step p c (.fire 0) with
      | none =>
        obtain ⟨i, -, -, id, hid, hno⟩ := C101_panic p news hl c h (.fire 0) hs
        obtain ⟨v, hv⟩ := hp id hid
        exact absurd rfl (hno _ hv)
      | some c1 =>
        have hp1 : ∀ id ∈ c1.pending, ∃ v, (id, v) ∈ c1.views := by
          intro id hid
          obtain ⟨hk, hpend⟩ := fire_keys hs
          rcases hpend with e | e
          · rw [e] at hid
            obtain ⟨v, hv⟩ := hp id hid
            have : id ∈ c1.views.map Prod.fst := by rw [hk]; exact List.mem_map.mpr ⟨_, hv, rfl⟩
            obtain ⟨e', he', rfl⟩ := List.mem_map.mp this
            exact ⟨e'.2, he'⟩
          · rw [e] at hid; simp at hid
        obtain ⟨fires, c', h1, h2, h3⟩ := ih c1 ⟨0, h0, hs⟩ (.step (.fire 0) h trivial trivial hs) hp1
        exact ⟨0 :: fires, c', by simp only [List.map_cons, run, hs, Option.bind_some]; exact h1, h2, h3⟩

/-- Non-trivial case: a new view of a long file and a search in it. -/
example : ∃ (fires : List Nat) (c' : Core Demo), run demo oneView (fires.map .fire) = some c' ∧ c'.agenda = [] ∧
    ∀ e ∈ c'.views, e.2.st.news = false ∧ demo.finding e.2.st = false ∧ (CommitWraps demo → demo.unwrapped e.2.st = false) :=
  C101_done_partial demo Demo.news _ demo_laws demo_progress oneView oneView_reached (by intro id hid; simp [oneView] at hid; subst hid; exact ⟨_, List.mem_cons_self⟩)

/-- The text before a paste, -/
def nothingYet : Rope := .fromLeaf []

/-- and after it: 510 empty lines. -/
def manyLines : Rope := .fromLeaf (List.replicate 510 newline)

/-- All is wrapped: there is nothing. -/
def nothingToWrap : LinesState := freshLines.setWrapWidth nothingYet true true

/-- **C101 refuted for wrapping, in the model of the lines.** Lines are to be wrapped and all are; then text of 510 lines is put in.
`after_edit` wraps 501 of them and leaves the rest to be wrapped (with no report of which lines have changed), so the hypothesis `CommitWraps` of
`C101_wrap_partial` does not hold of the code. -/
theorem C101_paste_refuted : ∃ (rule : WrapRule) (r r' : Rope) (L L' : LinesState) (ins : List UInt8), WrapRun rule r L ∧ L.wraps = true ∧ L.isConverged = true ∧
    r'.Balanced ∧ r'.text = ins ++ r.text ∧ L.afterEdit rule r' r r'.text ⟨0, 0⟩ ins.length 0 40 = some (L', none) ∧ L'.isConverged = false := by
  have hres : (nothingToWrap.afterEdit exampleRule manyLines nothingYet (List.replicate 510 newline) ⟨0, 0⟩ 510 0 40).map
      (fun x => (x.1.isConverged, x.2)) = some (false, none) := by decide +kernel
  obtain ⟨⟨L', i⟩, e1, e2⟩ := Option.map_eq_some_iff.1 hres
  simp only [Prod.mk.injEq] at e2
  obtain ⟨e2, rfl⟩ := e2
  have ht : manyLines.text = List.replicate 510 newline := Node.text_fromLeaf
  have h0 : nothingYet.text = [] := Node.text_fromLeaf
  refine ⟨exampleRule, nothingYet, manyLines, nothingToWrap, L', List.replicate 510 newline, .start exampleRule_ok ⟨0, Node.wf_fromLeaf ⟨⟨[], rfl⟩, by simp⟩⟩ (by decide +kernel),
    rfl, by decide +kernel, ⟨0, Node.wf_fromLeaf ⟨⟨List.replicate 510 '\n', by decide +kernel⟩, by decide +kernel⟩⟩, by rw [ht, h0, List.append_nil], ?_, e2⟩
  rw [ht, List.length_replicate]
  exact e1

end Xi
