import Verif.Spec.Status

/-!
# Status items of a language server (lsp-lib/src/language_server_client.rs): C104
-/

namespace Xi

namespace Lsp

open Rpc

variable {percent : Json → String}

/-- The notification of the server for a task. -/
inductive Says (percent : Json → String) : List (String × Json) → Task → Prop
  | goesOn {m : List (String × Json)} {id : String} : (m.lookup "done" = none ∨ ∃ b, m.lookup "done" = some (.bool b) ∧ b = false) → m.lookup "id" = some (.str id) →
      Says percent m (.goesOn id (progressText percent m))
  | done {m : List (String × Json)} {id : String} : m.lookup "done" = some (.bool true) → m.lookup "id" = some (.str id) → Says percent m (.done id)

/-- The plugin, the front end and the server. -/
structure StatusWorld where
  client : StatusClient := {}
  bars : Bars := fun _ => []
  tasks : Tasks := {}

/-- What the plugin and the front end do.  A view is opened with an empty status bar. -/
inductive StatusStep (percent : Json → String) : StatusWorld → StatusEvent → StatusWorld → Prop
  | opened {s : StatusWorld} {view : Nat} : view ∉ s.client.opened →
      StatusStep percent s (.opened view) ⟨s.client.didOpen view, fun v => if v = view then [] else s.bars v, s.tasks.step (.opened view)⟩
  | closed {s : StatusWorld} {view : Nat} {client : StatusClient} : s.client.didClose view = some client →
      StatusStep percent s (.closed view) ⟨client, s.bars, s.tasks.step (.closed view)⟩
  | task {s : StatusWorld} {t : Task} {m : List (String × Json)} {client : StatusClient} {msgs : List StatusMsg} : Says percent m t →
      s.client.notification percent true "window/progress" (some (.map m)) = some (client, msgs) →
      StatusStep percent s (.task t) ⟨client, msgs.foldl hear s.bars, s.tasks.step (.task t)⟩

/-- The states there can be. -/
inductive StatusReach (percent : Json → String) : StatusWorld → Prop
  | start : StatusReach percent {}
  | step {s s' : StatusWorld} {e : StatusEvent} : StatusReach percent s → StatusStep percent s e s' → StatusReach percent s'

/-- Messages to each of the views. -/
theorem hear_all {mk : Nat → StatusMsg} {f : List (String × String) → List (String × String)}
    (hmk : ∀ bars v x, hear bars (mk v) x = if x = v then f (bars x) else bars x) :
    ∀ (views : List Nat), views.Nodup → ∀ bars v, ((views.map mk).foldl hear bars) v = if v ∈ views then f (bars v) else bars v
  | [], _, bars, v => rfl
  | w :: views, h, bars, v => by
    obtain ⟨h1, h2⟩ := List.nodup_cons.1 h
    rw [List.map_cons, List.foldl_cons, hear_all hmk views h2, hmk]
    by_cases c : v = w
    · subst c
      simp [h1]
    · simp [c]

/-- What is always so. -/
structure StatusInv (s : StatusWorld) : Prop where
  opened : s.client.opened.Nodup
  items : s.client.items = s.tasks.running.map Prod.fst
  once : (s.tasks.running.map Prod.fst).Nodup
  bars : ∀ v ∈ s.client.opened, s.bars v = s.tasks.running.filter fun e => e.1 ∉ s.tasks.earlier v
  earlier : ∀ v ∈ s.client.opened, ∀ id ∈ s.tasks.earlier v, id ∈ s.tasks.running.map Prod.fst

theorem progress_says {c : StatusClient} {m : List (String × Json)} {t : Task} (h : Says percent m t) :
    c.notification percent true "window/progress" (some (.map m)) = some (match t with
      | .goesOn id text => if id ∈ c.items then c.updateItem id text else c.addItem id text "left"
      | .done id => c.removeItem id) := by
  have e : c.notification percent true "window/progress" (some (.map m)) = c.progress percent (.map m) := by
    simp [StatusClient.notification, StatusClient.rustNotification]
  rw [e]
  cases h with
  | goesOn hd hid =>
    rcases hd with hd | ⟨b, hd, rfl⟩
    all_goals
      simp only [StatusClient.progress, hd, hid, Option.getD_none, Option.getD_some]
      simp only [Bool.false_eq_true, if_false]
      split <;> rfl
  | done hd hid => simp [StatusClient.progress, hd, hid]

theorem map_fst_set (l : List (String × String)) (id text : String) :
    (l.map fun e => if e.1 = id then (id, text) else e).map Prod.fst = l.map Prod.fst := by
  rw [List.map_map]
  apply List.map_congr_left
  intro e _
  by_cases c : e.1 = id <;> simp [c]

theorem filter_set (l : List (String × String)) (id text : String) (p : String → Bool) :
    (l.map fun e => if e.1 = id then (id, text) else e).filter (fun e => p e.1) =
      (l.filter fun e => p e.1).map fun e => if e.1 = id then (id, text) else e := by
  rw [List.filter_map]
  congr 1
  apply List.filter_congr
  intro e _
  by_cases c : e.1 = id <;> simp [c]

theorem map_fst_filter (l : List (String × String)) (id : String) :
    (l.filter fun e => e.1 ≠ id).map Prod.fst = (l.map Prod.fst).filter fun x => x ≠ id := by
  rw [List.filter_map]
  rfl

theorem StatusInv.step {s s' : StatusWorld} {e : StatusEvent} (h : StatusInv s) (hs : StatusStep percent s e s') : StatusInv s' := by
  obtain ⟨ho, hi, hn, hb, he⟩ := h
  cases hs with
  | @opened view hv =>
    have eo : (s.client.didOpen view).opened = s.client.opened ++ [view] := by simp [StatusClient.didOpen, hv]
    refine ⟨?_, hi, hn, ?_, ?_⟩
    · show (s.client.didOpen view).opened.Nodup
      rw [eo, List.nodup_append]
      exact ⟨ho, by simp, by grind⟩
    · intro v hm
      have hm : v ∈ s.client.opened ++ [view] := eo ▸ hm
      show (if v = view then [] else s.bars v) = s.tasks.running.filter fun e => e.1 ∉ (if v = view then s.tasks.running.map Prod.fst else s.tasks.earlier v)
      by_cases c : v = view
      · simp only [c, if_true]
        symm
        rw [List.filter_eq_nil_iff]
        intro a ha
        simp only [decide_eq_true_eq, Classical.not_not]
        exact List.mem_map_of_mem ha
      · simp only [c, if_false]
        exact hb v (by simpa [c] using hm)
    · intro v hm
      have hm : v ∈ s.client.opened ++ [view] := eo ▸ hm
      show ∀ id ∈ (if v = view then s.tasks.running.map Prod.fst else s.tasks.earlier v), id ∈ s.tasks.running.map Prod.fst
      by_cases c : v = view
      · simp only [c, if_true]
        exact fun _ h => h
      · simp only [c, if_false]
        exact he v (by simpa [c] using hm)
  | @closed view client hc =>
    simp only [StatusClient.didClose] at hc
    split at hc
    · cases hc
      refine ⟨ho.filter _, hi, hn, fun v hm => hb v (List.mem_filter.1 hm).1, fun v hm => he v (List.mem_filter.1 hm).1⟩
    · cases hc
  | @task t m client msgs hsays hc =>
    rw [progress_says hsays] at hc
    cases t with
    | done id =>
      cases hc
      have hbars := hear_all (mk := fun v => .remove v id) (f := fun l => l.filter fun e => e.1 ≠ id) (fun _ _ _ => rfl) s.client.opened ho s.bars
      refine ⟨ho, ?_, ?_, ?_, ?_⟩
      · show s.client.items.filter _ = (s.tasks.running.filter _).map Prod.fst
        rw [map_fst_filter, hi]
      · show ((s.tasks.running.filter _).map Prod.fst).Nodup
        rw [map_fst_filter]
        exact hn.filter _
      · intro v hv
        have hv : v ∈ s.client.opened := hv
        refine (hbars v).trans ?_
        rw [if_pos hv, hb v hv]
        show _ = (s.tasks.running.filter fun e => e.1 ≠ id).filter fun e => e.1 ∉ (s.tasks.earlier v).filter fun x => x ≠ id
        rw [List.filter_filter, List.filter_filter]
        apply List.filter_congr
        intro a _
        by_cases c : a.1 = id <;> simp [c]
      · intro v hv x hx
        have hx := List.mem_filter.1 hx
        show x ∈ (s.tasks.running.filter fun e => e.1 ≠ id).map Prod.fst
        rw [map_fst_filter]
        exact List.mem_filter.2 ⟨he v hv x hx.1, hx.2⟩
    | goesOn id text =>
      by_cases c : id ∈ s.client.items
      · simp only [c, if_true] at hc
        cases hc
        have cr : id ∈ s.tasks.running.map Prod.fst := hi ▸ c
        have hbars := hear_all (mk := fun v => .update v id text) (f := fun l => l.map fun e => if e.1 = id then (id, text) else e)
          (fun _ _ _ => rfl) s.client.opened ho s.bars
        have er : (s.tasks.step (.task (.goesOn id text))).running = s.tasks.running.map fun e => if e.1 = id then (id, text) else e := if_pos cr
        refine ⟨ho, ?_, ?_, ?_, ?_⟩
        · show s.client.items = List.map Prod.fst (s.tasks.step _).running
          rw [er, map_fst_set, hi]
        · show (List.map Prod.fst (s.tasks.step _).running).Nodup
          rw [er, map_fst_set]
          exact hn
        · intro v hv
          have hv : v ∈ s.client.opened := hv
          refine (hbars v).trans ?_
          rw [if_pos hv, hb v hv]
          show _ = List.filter _ (s.tasks.step _).running
          rw [er]
          exact (filter_set _ _ _ fun x => decide (x ∉ s.tasks.earlier v)).symm
        · intro v hv x hx
          show x ∈ List.map Prod.fst (s.tasks.step _).running
          rw [er, map_fst_set]
          exact he v hv x hx
      · simp only [c, if_false] at hc
        cases hc
        have cr : id ∉ s.tasks.running.map Prod.fst := hi ▸ c
        have hbars := hear_all (mk := fun v => .add v id text "left") (f := fun l => l ++ [(id, text)])
          (fun _ _ _ => rfl) s.client.opened ho s.bars
        have er : (s.tasks.step (.task (.goesOn id text))).running = s.tasks.running ++ [(id, text)] := if_neg cr
        refine ⟨ho, ?_, ?_, ?_, ?_⟩
        · show (if id ∈ s.client.items then s.client.items else s.client.items ++ [id]) = List.map Prod.fst (s.tasks.step _).running
          rw [er, if_neg c, List.map_append, hi]
          rfl
        · show (List.map Prod.fst (s.tasks.step _).running).Nodup
          rw [er, List.map_append, List.nodup_append]
          exact ⟨hn, by simp, by grind⟩
        · intro v hv
          have hv : v ∈ s.client.opened := hv
          refine (hbars v).trans ?_
          rw [if_pos hv, hb v hv]
          show _ = List.filter (fun e => decide (e.1 ∉ s.tasks.earlier v)) (s.tasks.step _).running
          have : id ∉ s.tasks.earlier v := fun h => cr (he v hv id h)
          rw [er, List.filter_append]
          simp [this]
        · intro v hv x hx
          show x ∈ List.map Prod.fst (s.tasks.step _).running
          rw [er, List.map_append]
          exact List.mem_append_left _ (he v hv x hx)

theorem StatusReach.inv {s : StatusWorld} (h : StatusReach percent s) : StatusInv s := by
  induction h with
  | start => exact ⟨by simp, rfl, by simp, by simp, by simp⟩
  | step _ hs ih => exact ih.step hs

/-- **C104 (in part).**  Each view shows the tasks that have begun since it was opened and go on, each with its last text, in the order
in which they began. -/
theorem C104_bar_partial {s : StatusWorld} (h : StatusReach percent s) {v : Nat} (hv : v ∈ s.client.opened) :
    s.bars v = s.tasks.running.filter fun e => e.1 ∉ s.tasks.earlier v := h.inv.bars v hv

/-- **C104 (in part).**  If nothing was going on when the view was opened, these are all tasks. -/
theorem C104_all_partial {s : StatusWorld} (h : StatusReach percent s) {v : Nat} (hv : v ∈ s.client.opened) (he : s.tasks.earlier v = []) :
    s.bars v = s.tasks.running := by
  rw [h.inv.bars v hv, he]
  simp

/-- **C104.**  The items of the plugin are the tasks that go on, each once. -/
theorem C104_items {s : StatusWorld} (h : StatusReach percent s) :
    s.client.items = s.tasks.running.map Prod.fst ∧ s.client.items.Nodup :=
  ⟨h.inv.items, h.inv.items ▸ h.inv.once⟩

/-- **C104.**  What the server says of a task never panics, and only open views hear of it, each once. -/
theorem C104_heard (c : StatusClient) {m : List (String × Json)} {t : Task} (h : Says percent m t) :
    ∃ c' msgs, c.notification percent true "window/progress" (some (.map m)) = some (c', msgs) ∧ c'.opened = c.opened ∧
      (msgs.map fun
        | .add v _ _ _ => v
        | .update v _ _ => v
        | .remove v _ => v) = c.opened := by
  have hm : ∀ (mk : Nat → StatusMsg) (g : StatusMsg → Nat), (∀ v, g (mk v) = v) → ((c.opened.map mk).map g) = c.opened := by
    intro mk g hg
    rw [List.map_map]
    exact (List.map_congr_left fun v _ => hg v).trans (List.map_id _)
  rw [progress_says h]
  cases t with
  | done id => exact ⟨_, _, rfl, rfl, hm _ _ fun _ => rfl⟩
  | goesOn id text =>
    by_cases ci : id ∈ c.items
    · exact ⟨_, _, congrArg some (if_pos ci), rfl, hm _ _ fun _ => rfl⟩
    · exact ⟨_, _, congrArg some (if_neg ci), rfl, hm _ _ fun _ => rfl⟩

/-- **C104.**  Nothing else that a server says changes the items or the bars: not a server of another language, and not another method. -/
theorem C104_others (c : StatusClient) {rust : Bool} {method : String} (p : Params) (h : rust = false ∨ method ≠ "window/progress") :
    c.notification percent rust method (some p) = some (c, []) := by
  rcases h with rfl | h
  · simp [StatusClient.notification]
  · simp [StatusClient.notification, StatusClient.rustNotification, h]

/-- **C104.**  A closed view hears nothing any more, and the other views stay; an opened one hears from then on. -/
theorem C104_views (c : StatusClient) (view : Nat) :
    (∀ c', c.didClose view = some c' → c'.items = c.items ∧ ∀ v, v ∈ c'.opened ↔ v ∈ c.opened ∧ v ≠ view) ∧
    (view ∈ c.opened → ∃ c', c.didClose view = some c') ∧
    (c.didOpen view).items = c.items ∧ ∀ v, v ∈ (c.didOpen view).opened ↔ v ∈ c.opened ∨ v = view := by
  refine ⟨?_, ?_, rfl, ?_⟩
  · intro c' h
    simp only [StatusClient.didClose] at h
    split at h
    · cases h
      exact ⟨rfl, fun v => by simp⟩
    · cases h
  · intro h
    exact ⟨_, if_pos h⟩
  · intro v
    simp only [StatusClient.didOpen]
    by_cases h : view ∈ c.opened <;> grind

/-- **C104.**  The text of a task is its title, its percentage and its message, as far as they are there. -/
theorem C104_text (m : List (String × Json)) {title message : Option String} {n : Option Nat} (h1 : m.lookup "title" = title.map .str)
    (h2 : m.lookup "percentage" = n.map .nat) (h3 : m.lookup "message" = message.map .str) :
    progressText percent m = String.join ((title.map fun t => [t, " "]).getD [] ++ (n.map fun n => [percent (.nat n), " %"]).getD [] ++ message.toList) := by
  rw [progressText, h1, h2, h3]
  cases title <;> cases n <;> cases message <;> simp [String.join, String.append_assoc]

/-- **C104, refuted.**  A view opened while a task goes on never shows it: it hears of changes to an item that it does not have. -/
theorem C104_late_refuted : ∃ s : StatusWorld, StatusReach (fun _ => "50") s ∧ 1 ∈ s.client.opened ∧
    s.tasks.running = [("index", "Indexing b")] ∧ s.bars 0 = [("index", "Indexing b")] ∧ s.bars 1 = [] := by
  have h1 := StatusReach.step .start (.opened (percent := fun _ => "50") (view := 0) (by simp))
  have h2 := StatusReach.step h1 (.task (m := [("id", .str "index"), ("title", .str "Indexing"), ("message", .str "a")]) (.goesOn (.inl rfl) rfl) (progress_says (.goesOn (.inl rfl) rfl)))
  have h3 := StatusReach.step h2 (.opened (view := 1) (by decide +kernel))
  have h4 := StatusReach.step h3 (.task (m := [("id", .str "index"), ("title", .str "Indexing"), ("message", .str "b")]) (.goesOn (.inl rfl) rfl) (progress_says (.goesOn (.inl rfl) rfl)))
  exact ⟨_, h4, by decide +kernel, by decide +kernel, by decide +kernel, by decide +kernel⟩

/-- **C104, refuted.**  A server can make the plugin panic: with a task without an id, with a number for an id, and with any notification
without parameters. -/
theorem C104_panic_refuted (percent : Json → String) (c : StatusClient) :
    c.notification percent true "window/progress" (some (.map [("title", .str "Indexing")])) = none ∧
    c.notification percent true "window/progress" (some (.map [("id", .nat 3), ("done", .bool true)])) = none ∧
    c.notification percent false "telemetry/event" none = none := ⟨rfl, rfl, rfl⟩

/-- **C104, refuted.**  `percentage` and `message` are not kept apart. -/
theorem C104_text_refuted (percent : Json → String) :
    progressText percent [("title", .str "Indexing"), ("percentage", .float), ("message", .str "core")] = "Indexing " ++ percent .float ++ " %core" := by
  simp [progressText, List.lookup, String.append_assoc]
  rfl

example : (({ items := ["a"], opened := [3, 5] } : StatusClient).notification (fun _ => "50") true "window/progress"
    (some (.map [("id", .str "b"), ("done", .bool false), ("title", .str "Building"), ("percentage", .float)]))) =
    some (⟨["a", "b"], [3, 5]⟩, [.add 3 "b" "Building 50 %" "left", .add 5 "b" "Building 50 %" "left"]) := by decide +kernel

end Lsp

end Xi
