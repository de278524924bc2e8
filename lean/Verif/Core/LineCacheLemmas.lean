import Verif.Core.LineCache

/-!
# Lemmas on the line cache
-/

namespace Xi

/-- What the shadow says of a line: nothing, or where the front end has it and what is valid. -/
def entry (k : Nat) (v : Validity) : Option (Nat × Validity) := if v = .invalid then none else some (k, v)

/-- The lines of a span. -/
def spanLines : Nat → Nat → Validity → List (Option (Nat × Validity))
  | 0, _, _ => []
  | n + 1, k, v => entry k v :: spanLines n (k + 1) v

/-- The lines of a list of spans. -/
def shadowLines (spans : List ShadowSpan) : List (Option (Nat × Validity)) := spans.flatMap fun s => spanLines s.n s.start s.validity

/-- The tactics of the lines of a plan. -/
def planLines (plan : RenderPlan) : List RenderTactic := plan.flatMap fun p => List.replicate p.1 p.2

@[simp] theorem spanLines_length : ∀ (n k : Nat) (v : Validity), (spanLines n k v).length = n
  | 0, _, _ => rfl
  | n + 1, k, v => by simp [spanLines, spanLines_length n]

theorem spanLines_add : ∀ (a b k : Nat) (v : Validity), spanLines (a + b) k v = spanLines a k v ++ spanLines b (k + a) v
  | 0, b, k, v => by simp [spanLines]
  | a + 1, b, k, v => by
    rw [show a + 1 + b = (a + b) + 1 by omega]
    simp only [spanLines, spanLines_add a b, List.cons_append, Nat.add_assoc, Nat.add_comm 1 a]

theorem spanLines_take {n : Nat} {a k : Nat} {v : Validity} (h : a ≤ n) : (spanLines n k v).take a = spanLines a k v := by
  obtain ⟨b, rfl⟩ := Nat.exists_eq_add_of_le h
  rw [spanLines_add, List.take_append_of_le_length (by simp), List.take_of_length_le (by simp)]

theorem spanLines_drop {n : Nat} {a k : Nat} {v : Validity} (h : a ≤ n) : (spanLines n k v).drop a = spanLines (n - a) (k + a) v := by
  obtain ⟨b, rfl⟩ := Nat.exists_eq_add_of_le h
  rw [spanLines_add, List.drop_append_of_le_length (by simp), List.drop_of_length_le (by simp)]
  simp

theorem spanLines_invalid : ∀ (n k : Nat), spanLines n k .invalid = List.replicate n none
  | 0, _ => rfl
  | n + 1, k => by simp [spanLines, spanLines_invalid n, entry, List.replicate_succ]

theorem spanLines_get : ∀ {n i k : Nat} {v : Validity}, i < n → (spanLines n k v)[i]? = some (entry (k + i) v)
  | n + 1, 0, k, v, _ => by simp [spanLines]
  | n + 1, i + 1, k, v, h => by
    rw [spanLines, List.getElem?_cons_succ, spanLines_get (by omega), Nat.add_assoc, Nat.add_comm 1 i]

@[simp] theorem shadowLines_nil : shadowLines [] = [] := rfl

theorem shadowLines_cons (s : ShadowSpan) (spans : List ShadowSpan) : shadowLines (s :: spans) = spanLines s.n s.start s.validity ++ shadowLines spans := by
  simp [shadowLines]

theorem shadowLines_append (a b : List ShadowSpan) : shadowLines (a ++ b) = shadowLines a ++ shadowLines b := by simp [shadowLines]

theorem addSpan_lines (b : List ShadowSpan) (n k : Nat) (v : Validity) : shadowLines (addSpan b n k v) = shadowLines b ++ spanLines n k v := by
  unfold addSpan
  by_cases hn : n > 0
  · rw [if_pos hn]
    cases hl : b.getLast? with
    | none => simp only [shadowLines_append, shadowLines_cons, shadowLines_nil, List.append_nil]
    | some last =>
      simp only
      split
      · rename_i hc
        obtain ⟨h1, h2⟩ := hc
        obtain ⟨b', rfl⟩ := List.getLast?_eq_some_iff.1 hl
        rw [List.dropLast_concat]
        simp only [shadowLines_append, shadowLines_cons, shadowLines_nil, List.append_nil, spanLines_add, List.append_assoc, h1]
        rcases h2 with rfl | h2
        · simp only [spanLines_invalid]
        · rw [h2]
      · simp only [shadowLines_append, shadowLines_cons, shadowLines_nil, List.append_nil]
  · rw [if_neg hn, show n = 0 by omega]
    simp [spanLines]

/-- No empty spans. -/
def NoEmpty (spans : List ShadowSpan) : Prop := ∀ s ∈ spans, 0 < s.n

theorem addSpan_noEmpty {b : List ShadowSpan} (h : NoEmpty b) (n k : Nat) (v : Validity) : NoEmpty (addSpan b n k v) := by
  unfold addSpan
  by_cases hn : n > 0
  · rw [if_pos hn]
    have hnew : NoEmpty (b ++ [⟨n, k, v⟩]) := by
      intro s hs
      rcases List.mem_append.1 hs with hs | hs
      · exact h s hs
      · simp at hs; subst hs; exact hn
    cases hl : b.getLast? with
    | none => exact hnew
    | some last =>
      simp only
      split
      · intro s hs
        rcases List.mem_append.1 hs with hs | hs
        · exact h s (List.dropLast_subset _ hs)
        · simp at hs; subst hs; simp; omega
      · exact hnew
  · rw [if_neg hn]
    exact h

namespace LineCacheShadow

/-- What is known of each line. -/
def lines (s : LineCacheShadow) : List (Option (Nat × Validity)) := shadowLines s.spans

theorem editBefore_spec {start : Nat} : ∀ (spans : List ShadowSpan) (lineNum : Nat) (b : List ShadowSpan), lineNum ≤ start → NoEmpty b →
    ∃ b' rest lineNum' done, editBefore start spans lineNum b = (b', rest, lineNum') ∧ spans = done ++ rest ∧
      lineNum' = lineNum + (shadowLines done).length ∧ lineNum' ≤ start ∧ NoEmpty b' ∧
      shadowLines b' = shadowLines b ++ (shadowLines spans).take (start - lineNum)
  | [], lineNum, b, h, hb => ⟨b, [], lineNum, [], rfl, rfl, by simp, h, hb, by simp⟩
  | span :: rest, lineNum, b, h, hb => by
    simp only [editBefore]
    by_cases hc : lineNum + span.n ≤ start
    · rw [if_pos hc]
      obtain ⟨b', r, l, done, h1, h2, h3, h4, h5, h6⟩ := editBefore_spec rest (lineNum + span.n) (addSpan b span.n span.start span.validity) hc
        (addSpan_noEmpty hb _ _ _)
      refine ⟨b', r, l, span :: done, h1, by rw [h2]; rfl, ?_, h4, h5, ?_⟩
      · rw [h3, shadowLines_cons, List.length_append, spanLines_length, Nat.add_assoc]
      · rw [h6, addSpan_lines, shadowLines_cons, List.take_append, spanLines_length,
          List.take_of_length_le (l := spanLines _ _ _) (by simp; omega), List.append_assoc, Nat.sub_add_eq]
    · rw [if_neg hc]
      refine ⟨_, _, _, [], rfl, rfl, by simp, h, addSpan_noEmpty hb _ _ _, ?_⟩
      rw [addSpan_lines, shadowLines_cons, List.take_append_of_le_length (by simp; omega), spanLines_take (by omega)]

theorem editAfter_spec {stop : Nat} : ∀ (spans : List ShadowSpan) (lineNum : Nat) (b : List ShadowSpan), NoEmpty b →
    NoEmpty (editAfter stop spans lineNum b) ∧
    shadowLines (editAfter stop spans lineNum b) = shadowLines b ++ (shadowLines spans).drop (stop - lineNum)
  | [], lineNum, b, hb => by simp [editAfter, hb]
  | span :: rest, lineNum, b, hb => by
    simp only [editAfter]
    split
    · rename_i hc
      obtain ⟨h1, h2⟩ := editAfter_spec rest (lineNum + span.n) (addSpan b (span.n - (stop - lineNum)) (span.start + (stop - lineNum)) span.validity)
        (addSpan_noEmpty hb _ _ _)
      refine ⟨h1, ?_⟩
      rw [h2, addSpan_lines, shadowLines_cons, List.drop_append_of_le_length (by simp; omega), spanLines_drop (by omega), List.append_assoc,
        show stop - (lineNum + span.n) = 0 by omega, List.drop_zero]
    · rename_i hc
      obtain ⟨h1, h2⟩ := editAfter_spec rest (lineNum + span.n) b hb
      refine ⟨h1, ?_⟩
      rw [h2, shadowLines_cons, List.drop_append, spanLines_length, List.drop_of_length_le (l := spanLines _ _ _) (by simp; omega), List.nil_append,
        Nat.sub_add_eq]

theorem edit_spec (s : LineCacheShadow) {start stop replace : Nat} (h : start ≤ stop) :
    NoEmpty (s.edit start stop replace).spans ∧ (s.edit start stop replace).dirty = true ∧
    (s.edit start stop replace).lines = s.lines.take start ++ List.replicate replace none ++ s.lines.drop stop := by
  obtain ⟨b, rest, lineNum, done, h1, h2, h3, h4, h5, h6⟩ := editBefore_spec (start := start) s.spans 0 [] (Nat.zero_le _) (by simp [NoEmpty])
  obtain ⟨g1, g2⟩ := editAfter_spec (stop := stop) rest lineNum (addSpan b replace 0 .invalid) (addSpan_noEmpty h5 _ _ _)
  simp only [edit, h1]
  refine ⟨g1, trivial, ?_⟩
  show shadowLines _ = _
  rw [g2, addSpan_lines, h6, spanLines_invalid, shadowLines_nil, List.nil_append, Nat.sub_zero]
  congr 1
  unfold lines
  rw [h2, shadowLines_append, List.drop_append, Nat.zero_add] at *
  rw [List.drop_of_length_le (l := shadowLines done) (by omega), List.nil_append, ← h3]

/-- A line after an invalidation. -/
def invalidateLine (invalid : Validity) : Option (Nat × Validity) → Option (Nat × Validity)
  | none => none
  | some (k, v) => entry k (v.minus invalid)

theorem minus_invalid (v : Validity) : Validity.minus .invalid v = .invalid := by
  simp [Validity.minus, Validity.invalid]

theorem spanLines_minus : ∀ (n k : Nat) (v invalid : Validity), (spanLines n k v).map (invalidateLine invalid) = spanLines n k (v.minus invalid)
  | 0, _, _, _ => rfl
  | n + 1, k, v, invalid => by
    simp only [spanLines, List.map_cons, spanLines_minus n]
    congr 1
    unfold entry
    split
    · rename_i h
      subst h
      simp [invalidateLine, minus_invalid]
    · rfl

/-- The lines `ls`, the first of which has the number `o`, after an invalidation. -/
def invalidateFrom (start stop : Nat) (invalid : Validity) : Nat → List (Option (Nat × Validity)) → List (Option (Nat × Validity))
  | _, [] => []
  | o, l :: ls => (if start ≤ o ∧ o < stop then invalidateLine invalid l else l) :: invalidateFrom start stop invalid (o + 1) ls

variable {start stop : Nat} {invalid : Validity}

theorem invalidateFrom_append : ∀ (a b : List (Option (Nat × Validity))) (o : Nat),
    invalidateFrom start stop invalid o (a ++ b) = invalidateFrom start stop invalid o a ++ invalidateFrom start stop invalid (o + a.length) b
  | [], b, o => by simp [invalidateFrom]
  | l :: a, b, o => by
    simp only [List.cons_append, invalidateFrom, invalidateFrom_append a b, List.length_cons]
    rw [show o + 1 + a.length = o + (a.length + 1) by omega]

theorem invalidateFrom_outside : ∀ (a : List (Option (Nat × Validity))) (o : Nat), stop ≤ o ∨ o + a.length ≤ start →
    invalidateFrom start stop invalid o a = a
  | [], _, _ => rfl
  | l :: a, o, h => by
    simp only [List.length_cons] at h
    simp only [invalidateFrom]
    rw [if_neg (by omega), invalidateFrom_outside a (o + 1) (by omega)]

theorem invalidateFrom_inside : ∀ (a : List (Option (Nat × Validity))) (o : Nat), start ≤ o → o + a.length ≤ stop →
    invalidateFrom start stop invalid o a = a.map (invalidateLine invalid)
  | [], _, _, _ => rfl
  | l :: a, o, h1, h2 => by
    simp only [List.length_cons] at h2
    simp only [invalidateFrom, List.map_cons]
    rw [if_pos (by omega), invalidateFrom_inside a (o + 1) (by omega) (by omega)]

theorem invalidateFrom_length : ∀ (a : List (Option (Nat × Validity))) (o : Nat), (invalidateFrom start stop invalid o a).length = a.length
  | [], _ => rfl
  | l :: a, o => by simp [invalidateFrom, invalidateFrom_length a]

theorem invalidateFrom_get : ∀ (a : List (Option (Nat × Validity))) (o i : Nat), (invalidateFrom start stop invalid o a)[i]? =
    a[i]?.map (fun l => if start ≤ o + i ∧ o + i < stop then invalidateLine invalid l else l)
  | [], _, _ => by simp [invalidateFrom]
  | l :: a, o, 0 => by simp [invalidateFrom]
  | l :: a, o, i + 1 => by
    simp only [invalidateFrom, List.getElem?_cons_succ, invalidateFrom_get a]
    rw [show o + 1 + i = o + (i + 1) by omega]

theorem invalidateSpan_spec (h : start ≤ stop) (lineNum : Nat) (span : ShadowSpan) {b : List ShadowSpan} (hb : NoEmpty b) :
    NoEmpty (invalidateAfter stop lineNum span (invalidateInside start stop invalid lineNum span (invalidateBefore start lineNum span b))) ∧
    shadowLines (invalidateAfter stop lineNum span (invalidateInside start stop invalid lineNum span (invalidateBefore start lineNum span b))) =
      shadowLines b ++ invalidateFrom start stop invalid lineNum (spanLines span.n span.start span.validity) := by
  -- the three parts
  have h1 : NoEmpty (invalidateBefore start lineNum span b) ∧ shadowLines (invalidateBefore start lineNum span b) =
      shadowLines b ++ spanLines (min span.n (start - lineNum)) span.start span.validity := by
    unfold invalidateBefore
    split
    · exact ⟨addSpan_noEmpty hb _ _ _, addSpan_lines _ _ _ _⟩
    · rw [show min span.n (start - lineNum) = 0 by omega]
      exact ⟨hb, by simp [spanLines]⟩
  generalize invalidateBefore start lineNum span b = b1 at h1
  obtain ⟨h1, e1⟩ := h1
  have h2 : NoEmpty (invalidateInside start stop invalid lineNum span b1) ∧ shadowLines (invalidateInside start stop invalid lineNum span b1) =
      shadowLines b1 ++ spanLines (min stop (lineNum + span.n) - max start lineNum) (span.start + (max start lineNum - lineNum)) (span.validity.minus invalid) := by
    unfold invalidateInside
    simp only
    split
    · exact ⟨addSpan_noEmpty h1 _ _ _, addSpan_lines _ _ _ _⟩
    · rw [show min stop (lineNum + span.n) - max start lineNum = 0 by omega]
      exact ⟨h1, by simp [spanLines]⟩
  generalize invalidateInside start stop invalid lineNum span b1 = b2 at h2
  obtain ⟨h2, e2⟩ := h2
  have h3 : NoEmpty (invalidateAfter stop lineNum span b2) ∧ shadowLines (invalidateAfter stop lineNum span b2) =
      shadowLines b2 ++ spanLines (span.n - (stop - lineNum)) (span.start + (stop - lineNum)) span.validity := by
    unfold invalidateAfter
    split
    · exact ⟨addSpan_noEmpty h2 _ _ _, addSpan_lines _ _ _ _⟩
    · rw [show span.n - (stop - lineNum) = 0 by omega]
      exact ⟨h2, by simp [spanLines]⟩
  refine ⟨h3.1, ?_⟩
  rw [h3.2, e2, e1]
  simp only [List.append_assoc]
  congr 1
  -- cut the span at the same places
  obtain ⟨a, ha⟩ : ∃ a, a = min span.n (start - lineNum) := ⟨_, rfl⟩
  obtain ⟨m, hm⟩ : ∃ m, m = min stop (lineNum + span.n) - max start lineNum := ⟨_, rfl⟩
  obtain ⟨c, hc⟩ : ∃ c, c = span.n - (stop - lineNum) := ⟨_, rfl⟩
  have hsum : span.n = a + (m + c) := by omega
  rw [← ha, ← hm, ← hc]
  conv => rhs; rw [hsum]
  rw [spanLines_add, spanLines_add, invalidateFrom_append, invalidateFrom_append]
  simp only [spanLines_length]
  congr 1
  · by_cases ha0 : a = 0
    · simp [ha0, spanLines, invalidateFrom]
    · rw [invalidateFrom_outside]
      simp only [spanLines_length]
      omega
  · congr 1
    · by_cases hm0 : m = 0
      · simp [hm0, spanLines, invalidateFrom]
      · rw [invalidateFrom_inside _ _ (by omega) (by simp only [spanLines_length]; omega), spanLines_minus]
        rw [show max start lineNum - lineNum = a by omega]
    · by_cases hc0 : c = 0
      · simp [hc0, spanLines, invalidateFrom]
      · rw [invalidateFrom_outside _ _ (by omega)]
        rw [show span.start + a + m = span.start + (stop - lineNum) by omega]

theorem invalidateLoop_spec (h : start ≤ stop) : ∀ (spans : List ShadowSpan) (lineNum : Nat) {b : List ShadowSpan}, NoEmpty b →
    NoEmpty (invalidateLoop start stop invalid spans lineNum b) ∧
    shadowLines (invalidateLoop start stop invalid spans lineNum b) = shadowLines b ++ invalidateFrom start stop invalid lineNum (shadowLines spans)
  | [], lineNum, b, hb => by simp [invalidateLoop, hb, invalidateFrom]
  | span :: rest, lineNum, b, hb => by
    obtain ⟨h1, h2⟩ := invalidateSpan_spec (invalid := invalid) h lineNum span hb
    obtain ⟨h3, h4⟩ := invalidateLoop_spec h rest (lineNum + span.n) h1
    simp only [invalidateLoop]
    refine ⟨h3, ?_⟩
    rw [h4, h2, shadowLines_cons, invalidateFrom_append, spanLines_length, List.append_assoc]

theorem invalidateLine_clean {k : Nat} {v : Validity} (h : v.meets invalid = false) : invalidateLine invalid (entry k v) = entry k v := by
  unfold entry
  split
  · rfl
  · rename_i hv
    have : v.minus invalid = v := by
      obtain ⟨a, b, c⟩ := v
      obtain ⟨x, y, z⟩ := invalid
      cases a <;> cases b <;> cases c <;> cases x <;> cases y <;> cases z <;> simp_all [Validity.meets, Validity.minus]
    simp [invalidateLine, this, entry, hv]

theorem spanLines_clean {v : Validity} (h : v.meets invalid = false) : ∀ (n k o : Nat),
    invalidateFrom start stop invalid o (spanLines n k v) = spanLines n k v
  | 0, _, _ => rfl
  | n + 1, k, o => by
    simp only [spanLines, invalidateFrom, spanLines_clean h n, invalidateLine_clean h, ite_self]

theorem isClean_spec : ∀ (spans : List ShadowSpan) (lineNum : Nat), isClean start stop invalid spans lineNum = true →
    invalidateFrom start stop invalid lineNum (shadowLines spans) = shadowLines spans
  | [], _, _ => rfl
  | span :: rest, lineNum, h => by
    simp only [isClean] at h
    rw [shadowLines_cons, invalidateFrom_append, spanLines_length]
    split at h
    · simp at h
    · rename_i hc
      rw [isClean_spec rest _ h]
      congr 1
      by_cases hm : span.validity.meets invalid = true
      · by_cases h0 : start < lineNum + span.n
        · refine invalidateFrom_outside _ _ (.inl ?_)
          have : ¬ stop > lineNum := fun h => hc ⟨h0, h, hm⟩
          omega
        · exact invalidateFrom_outside _ _ (.inr (by simp only [spanLines_length]; omega))
      · exact spanLines_clean (by simpa using hm) _ _ _

theorem partialInvalidate_spec (s : LineCacheShadow) (h : start ≤ stop) (hs : NoEmpty s.spans) :
    NoEmpty (s.partialInvalidate start stop invalid).spans ∧
    (s.partialInvalidate start stop invalid).lines = invalidateFrom start stop invalid 0 s.lines ∧
    (s.partialInvalidate start stop invalid = s ∨ (s.partialInvalidate start stop invalid).dirty = true) := by
  unfold partialInvalidate
  split
  · rename_i hc
    exact ⟨hs, (isClean_spec s.spans 0 hc).symm, .inl rfl⟩
  · obtain ⟨h1, h2⟩ := invalidateLoop_spec (invalid := invalid) h s.spans 0 (b := []) (by simp [NoEmpty])
    exact ⟨h1, h2, .inr rfl⟩

end LineCacheShadow

/-! ## Plans -/

@[simp] theorem planLines_nil : planLines [] = [] := rfl

theorem planLines_cons (p : Nat × RenderTactic) (plan : RenderPlan) : planLines (p :: plan) = List.replicate p.1 p.2 ++ planLines plan := by
  simp [planLines]

theorem planLines_append (a b : RenderPlan) : planLines (a ++ b) = planLines a ++ planLines b := by simp [planLines]

/-- The lines of a list of segments. -/
def segLines (segs : List PlanSegment) : List (Option (Nat × Validity) × RenderTactic) :=
  segs.flatMap fun g => (spanLines g.n g.theirs g.validity).map fun e => (e, g.tactic)

/-- The segments follow each other. -/
def SegOrder : Nat → List PlanSegment → Prop
  | _, [] => True
  | o, g :: segs => g.ours = o ∧ SegOrder (o + g.n) segs

theorem zip_cut {α β : Type} {a : List α} {b : List β} {k : Nat} (ha : k ≤ a.length) (hb : k ≤ b.length) :
    a.zip b = (a.take k).zip (b.take k) ++ (a.drop k).zip (b.drop k) := by
  rw [← List.zip_append (by simp; omega), List.take_append_drop, List.take_append_drop]

theorem zip_const_map {α β : Type} (a : List α) (t : β) {k : Nat} (h : a.length = k) : a.zip (List.replicate k t) = a.map (fun e => (e, t)) := by
  subst h
  induction a with
  | nil => rfl
  | cons x a ih => simp [List.replicate_succ, ih]

theorem planSegments_spec : ∀ (fuel : Nat) (spans : List ShadowSpan) (S : Nat) (plan : RenderPlan) (P : Nat), spans.length + plan.length ≤ fuel →
    (∀ s ∈ spans.head?, max S P ≤ S + s.n) → (∀ p ∈ plan.head?, max S P ≤ P + p.1) →
    ∃ segs, planSegments fuel spans S plan P = some segs ∧ SegOrder (max S P) segs ∧
      segLines segs = ((shadowLines spans).drop (max S P - S)).zip ((planLines plan).drop (max S P - P)) ∧
      (NoEmpty spans → (∀ p ∈ plan, 0 < p.1) → (∀ s ∈ spans.head?, max S P < S + s.n) → (∀ p ∈ plan.head?, max S P < P + p.1) → ∀ g ∈ segs, 0 < g.n)
  | fuel, [], S, plan, P, _, _, _ => ⟨[], by cases fuel <;> rfl, trivial, by simp [segLines], by simp⟩
  | fuel, s :: spans, S, [], P, _, _, _ => ⟨[], by cases fuel <;> rfl, trivial, by simp [segLines], by simp⟩
  | 0, s :: spans, S, p :: plan, P, h, _, _ => by simp at h
  | fuel + 1, s :: spans, S, p :: plan, P, h, h1, h2 => by
    have h1 := h1 s rfl
    have h2 := h2 p rfl
    obtain ⟨cur, hcur⟩ : ∃ cur, cur = max S P := ⟨_, rfl⟩
    obtain ⟨stop, hstop⟩ : ∃ stop, stop = min (S + s.n) (P + p.1) := ⟨_, rfl⟩
    simp only [planSegments]
    rw [← hcur] at h1 h2
    rw [← hcur, ← hstop]
    rw [if_neg (by omega)]
    -- the state after the step
    obtain ⟨spans', hspans'⟩ : ∃ x, x = if stop = S + s.n then spans else s :: spans := ⟨_, rfl⟩
    obtain ⟨S', hS'⟩ : ∃ x, x = if stop = S + s.n then stop else S := ⟨_, rfl⟩
    obtain ⟨plan', hplan'⟩ : ∃ x, x = if stop = P + p.1 then plan else p :: plan := ⟨_, rfl⟩
    obtain ⟨P', hP'⟩ : ∃ x, x = if stop = P + p.1 then stop else P := ⟨_, rfl⟩
    have hmax : max S' P' = stop := by
      rw [hS', hP']
      split <;> split <;> omega
    have hlen : spans'.length + plan'.length ≤ fuel := by
      rw [hspans', hplan']
      simp only [List.length_cons] at h
      split <;> split <;> (try simp only [List.length_cons]) <;> omega
    have hd1 : (shadowLines spans').drop (stop - S') = (shadowLines (s :: spans)).drop (stop - S) := by
      rw [hspans', hS', shadowLines_cons]
      split
      · rw [Nat.sub_self, List.drop_zero, List.drop_append, spanLines_length, List.drop_of_length_le (l := spanLines _ _ _) (by simp; omega),
          show stop - S - s.n = 0 by omega, List.drop_zero, List.nil_append]
      · rw [shadowLines_cons]
    have hd2 : (planLines plan').drop (stop - P') = (planLines (p :: plan)).drop (stop - P) := by
      rw [hplan', hP', planLines_cons]
      split
      · rw [Nat.sub_self, List.drop_zero, List.drop_append, List.length_replicate, List.drop_of_length_le (l := List.replicate _ _) (by simp; omega),
          show stop - P - p.1 = 0 by omega, List.drop_zero, List.nil_append]
      · rw [planLines_cons]
    have hh1 : ∀ s' ∈ spans'.head?, stop ≤ S' + s'.n := by
      intro s' hs'
      rw [hS']
      split
      · omega
      · rename_i hc
        rw [hspans', if_neg hc] at hs'
        simp at hs'
        subst hs'
        omega
    have hh2 : ∀ p' ∈ plan'.head?, stop ≤ P' + p'.1 := by
      intro p' hp'
      rw [hP']
      split
      · omega
      · rename_i hc
        rw [hplan', if_neg hc] at hp'
        simp at hp'
        subst hp'
        omega
    obtain ⟨segs, g1, g2, g3, g4⟩ := planSegments_spec fuel spans' S' plan' P' hlen (by rw [hmax]; exact hh1) (by rw [hmax]; exact hh2)
    rw [hmax, hd1, hd2] at g3
    rw [hmax] at g2 g4
    rw [hspans', hS', hplan', hP'] at g1
    refine ⟨⟨cur, s.start + (cur - S), stop - cur, s.validity, p.2⟩ :: segs, by rw [g1]; rfl, ⟨rfl, ?_⟩, ?_, ?_⟩
    · show SegOrder (cur + (stop - cur)) segs
      rwa [show cur + (stop - cur) = stop by omega]
    · have e : segLines (⟨cur, s.start + (cur - S), stop - cur, s.validity, p.2⟩ :: segs) =
          (spanLines (stop - cur) (s.start + (cur - S)) s.validity).map (fun e => (e, p.2)) ++ segLines segs := by simp [segLines]
      rw [e, g3, zip_cut (a := (shadowLines (s :: spans)).drop (cur - S)) (b := (planLines (p :: plan)).drop (cur - P)) (k := stop - cur)
        (by rw [shadowLines_cons]; simp; omega) (by rw [planLines_cons]; simp; omega)]
      congr 1
      · rw [shadowLines_cons, planLines_cons, List.drop_append_of_le_length (by simp; omega), List.drop_append_of_le_length (by simp; omega),
          spanLines_drop (by omega), List.take_append_of_le_length (by simp; omega), List.take_append_of_le_length (by simp; omega),
          spanLines_take (by omega), List.drop_replicate, List.take_replicate, Nat.min_eq_left (by omega), zip_const_map _ _ (by simp)]
      · rw [List.drop_drop, List.drop_drop, show cur - S + (stop - cur) = stop - S by omega, show cur - P + (stop - cur) = stop - P by omega]
    · intro n1 n2 n3 n4 g hg
      have n3 := n3 s rfl
      have n4 := n4 p rfl
      rcases List.mem_cons.1 hg with rfl | hg
      · show 0 < stop - cur
        omega
      · refine g4 ?_ ?_ ?_ ?_ g hg
        · intro s' hs'
          rw [hspans'] at hs'
          split at hs'
          · exact n1 s' (by simp [hs'])
          · exact n1 s' hs'
        · intro p' hp'
          rw [hplan'] at hp'
          split at hp'
          · exact n2 p' (by simp [hp'])
          · exact n2 p' hp'
        · intro s' hs'
          rw [hS']
          split
          · rename_i hc
            rw [hspans', if_pos hc] at hs'
            have := n1 s' (List.mem_cons_of_mem _ (List.mem_of_mem_head? hs'))
            omega
          · rename_i hc
            rw [hspans', if_neg hc] at hs'
            simp at hs'
            subst hs'
            omega
        · intro p' hp'
          rw [hP']
          split
          · rename_i hc
            rw [hplan', if_pos hc] at hp'
            have := n2 p' (List.mem_cons_of_mem _ (List.mem_of_mem_head? hp'))
            omega
          · rename_i hc
            rw [hplan', if_neg hc] at hp'
            simp at hp'
            subst hp'
            omega

theorem segments_spec (s : LineCacheShadow) (plan : RenderPlan) : ∃ segs, s.segments plan = some segs ∧ SegOrder 0 segs ∧
    segLines segs = s.lines.zip (planLines plan) ∧ (NoEmpty s.spans → (∀ p ∈ plan, 0 < p.1) → ∀ g ∈ segs, 0 < g.n) := by
  obtain ⟨segs, h1, h2, h3, h4⟩ := planSegments_spec (s.spans.length + plan.length) s.spans 0 plan 0 (Nat.le_refl _) (by simp) (by simp)
  refine ⟨segs, h1, by simpa using h2, by simpa [LineCacheShadow.lines] using h3, ?_⟩
  intro g1 g2
  refine h4 g1 g2 ?_ ?_
  · intro x hx
    have := g1 x (List.mem_of_mem_head? hx)
    omega
  · intro x hx
    have := g2 x (List.mem_of_mem_head? hx)
    omega

namespace RenderPlan

theorem before_spec (first : Nat) : (before first).2 = first - 2 ∧
    planLines (before first).1 = List.replicate (first - 1000) .discard ++ List.replicate (first - 2 - (first - 1000)) .preserve ∧
    ∀ p ∈ (before first).1, 0 < p.1 := by
  unfold before scrollSlop preserveExtent
  dsimp only
  by_cases h1 : first > 1000
  · rw [if_pos h1, if_pos h1, if_pos (by omega)]
    refine ⟨by dsimp only; omega, by simp [planLines_append, planLines_cons], ?_⟩
    intro p hp
    simp at hp
    rcases hp with rfl | rfl <;> dsimp only <;> omega
  · rw [if_neg h1, if_neg h1]
    by_cases h2 : first > 2
    · rw [if_pos h2]
      refine ⟨by dsimp only; omega, by simp [planLines_cons, show first - 1000 = 0 by omega], ?_⟩
      intro p hp
      simp at hp
      subst hp
      dsimp only; omega
    · rw [if_neg h2]
      refine ⟨by dsimp only; omega, by simp [show first - 2 = 0 by omega, show first - 1000 = 0 by omega], by simp⟩

theorem after_spec (total e last : Nat) (he : e ≤ total) : planLines (after total e last) =
    List.replicate (e - last) .preserve ++ List.replicate (total - max e last) .discard ∧ ∀ p ∈ after total e last, 0 < p.1 := by
  unfold after
  dsimp only
  by_cases h1 : e > last
  · rw [if_pos h1, if_pos h1, Nat.max_eq_left (by omega)]
    split
    · refine ⟨by simp [planLines_append, planLines_cons], ?_⟩
      intro p hp
      simp at hp
      rcases hp with rfl | rfl <;> dsimp only <;> omega
    · refine ⟨by simp [planLines_cons, show total - e = 0 by omega], ?_⟩
      intro p hp
      simp at hp
      subst hp
      dsimp only; omega
  · rw [if_neg h1, if_neg h1, Nat.max_eq_right (by omega)]
    split
    · refine ⟨by simp [planLines_cons, show e - last = 0 by omega], ?_⟩
      intro p hp
      simp at hp
      subst hp
      dsimp only; omega
    · exact ⟨by simp [show e - last = 0 by omega, show total - last = 0 by omega], by simp⟩

theorem create_spec (total firstLine height : Nat) : ∃ plan, create total firstLine height = some plan ∧ (planLines plan).length = total ∧
    (0 < total → ∀ p ∈ plan, 0 < p.1) ∧
    ∀ i, i < total → (planLines plan)[i]? = some (
      if min firstLine total ≤ i + 2 ∧ i < min firstLine total + height + 2 then .render
      else if min firstLine total ≤ i + 1000 ∧ i < min firstLine total + height + 1000 then .preserve else .discard) := by
  obtain ⟨first, hf⟩ : ∃ first, first = min firstLine total := ⟨_, rfl⟩
  have hle : first ≤ total := by omega
  unfold create
  dsimp only
  rw [← hf]
  obtain ⟨b1, b2, b3⟩ := before_spec first
  obtain ⟨spans, last, hb⟩ : ∃ spans last, before first = (spans, last) := ⟨_, _, rfl⟩
  rw [hb] at b1 b2 b3 ⊢
  dsimp only at b1 b2 b3 ⊢
  subst b1
  obtain ⟨re, hre⟩ : ∃ re, re = min (first + height + 2) total := ⟨_, rfl⟩
  obtain ⟨pe, hpe⟩ : ∃ pe, pe = min (first + height + 1000) total := ⟨_, rfl⟩
  obtain ⟨a1, a2⟩ := after_spec total pe re (by omega)
  unfold scrollSlop preserveExtent
  rw [← hre, ← hpe, if_neg (by omega)]
  have hl : planLines (spans ++ [(re - (first - 2), .render)] ++ after total pe re) =
      List.replicate (first - 1000) .discard ++ List.replicate (first - 2 - (first - 1000)) .preserve ++ List.replicate (re - (first - 2)) .render ++
        (List.replicate (pe - re) .preserve ++ List.replicate (total - max pe re) .discard) := by
    rw [planLines_append, planLines_append, b2, a1]
    simp [planLines_cons]
  refine ⟨_, rfl, by rw [hl]; simp; omega, ?_, ?_⟩
  · intro h0 p hp
    simp at hp
    rcases hp with hp | rfl | hp
    · exact b3 p hp
    · dsimp only; omega
    · exact a2 p hp
  · intro i hi
    rw [hl]
    simp only [List.getElem?_append, List.length_append, List.length_replicate, List.getElem?_replicate]
    clear b2 b3 a1 a2 hl hb
    repeat' split
    all_goals first | rfl | (exfalso; omega)

theorem requestBefore_spec (start : Nat) : ∀ (plan : RenderPlan) (line : Nat) (acc : RenderPlan), line ≤ start →
    ∃ spans rest ln, requestBefore start plan line acc = (spans, rest, ln) ∧ planLines spans = planLines acc ++ (planLines plan).take (start - line) ∧
      line ≤ ln ∧ ln ≤ start ∧ planLines rest = (planLines plan).drop (ln - line) ∧
      ((∀ p ∈ acc, 0 < p.1) → (∀ p ∈ plan, 0 < p.1) → (∀ p ∈ spans, 0 < p.1) ∧ ∀ p ∈ rest, 0 < p.1)
  | [], line, acc, h => ⟨acc, [], line, rfl, by simp, Nat.le_refl _, h, by simp, fun g _ => ⟨g, by simp⟩⟩
  | p :: plan, line, acc, h => by
    simp only [requestBefore]
    by_cases hc : line + p.1 ≤ start
    · rw [if_pos hc]
      obtain ⟨spans, rest, ln, g1, g2, g3, g4, g5, g6⟩ := requestBefore_spec start plan (line + p.1) (acc ++ [p]) hc
      refine ⟨spans, rest, ln, g1, ?_, by omega, g4, ?_, ?_⟩
      · rw [g2, planLines_append, planLines_cons, planLines_cons, List.take_append, List.length_replicate,
          List.take_of_length_le (l := List.replicate _ _) (by simp; omega), show start - line - p.1 = start - (line + p.1) by omega]
        simp
      · rw [g5, planLines_cons, List.drop_append, List.length_replicate, List.drop_of_length_le (l := List.replicate _ _) (by simp; omega),
          show ln - line - p.1 = ln - (line + p.1) by omega]
        simp
      · intro a1 a2
        refine g6 ?_ (fun q hq => a2 q (List.mem_cons_of_mem _ hq))
        intro q hq
        rcases List.mem_append.1 hq with hq | hq
        · exact a1 q hq
        · rw [List.mem_singleton.1 hq]
          exact a2 p (by simp)
    · rw [if_neg hc]
      refine ⟨_, _, _, rfl, ?_, Nat.le_refl _, h, by simp, ?_⟩
      · rw [planLines_cons, List.take_append_of_le_length (by simp; omega), List.take_replicate, Nat.min_eq_left (by omega)]
        split
        · simp [planLines_append, planLines_cons]
        · simp [show start - line = 0 by omega]
      · intro a1 a2
        refine ⟨?_, a2⟩
        split
        · intro q hq
          rcases List.mem_append.1 hq with hq | hq
          · exact a1 q hq
          · rw [List.mem_singleton.1 hq]
            dsimp only; omega
        · exact a1

theorem requestAfter_spec (stop : Nat) : ∀ (plan : RenderPlan) (line : Nat) (acc : RenderPlan),
    planLines (requestAfter stop plan line acc) = planLines acc ++ (planLines plan).drop (stop - line) ∧
      ((∀ p ∈ acc, 0 < p.1) → (∀ p ∈ plan, 0 < p.1) → ∀ p ∈ requestAfter stop plan line acc, 0 < p.1)
  | [], line, acc => ⟨by simp [requestAfter], fun g _ => g⟩
  | p :: plan, line, acc => by
    simp only [requestAfter]
    obtain ⟨g1, g2⟩ := requestAfter_spec stop plan (line + p.1) (if line + p.1 > stop then acc ++ [(p.1 - (stop - line), p.2)] else acc)
    refine ⟨?_, ?_⟩
    · rw [g1, planLines_cons, List.drop_append, List.length_replicate, List.drop_replicate, show stop - line - p.1 = stop - (line + p.1) by omega]
      split
      · simp [planLines_append, planLines_cons]
      · simp [show p.1 - (stop - line) = 0 by omega]
    · intro a1 a2
      refine g2 ?_ (fun q hq => a2 q (List.mem_cons_of_mem _ hq))
      split
      · intro q hq
        have := a2 p (by simp)
        rcases List.mem_append.1 hq with hq | hq
        · exact a1 q hq
        · rw [List.mem_singleton.1 hq]
          dsimp only; omega
      · exact a1

theorem requestLines_spec (plan : RenderPlan) {start stop : Nat} (h : start ≤ stop) : ∃ plan', plan.requestLines start stop = some plan' ∧
    planLines plan' = (planLines plan).take start ++ List.replicate (stop - start) .render ++ (planLines plan).drop stop ∧
    ((∀ p ∈ plan, 0 < p.1) → start < stop → ∀ p ∈ plan', 0 < p.1) := by
  unfold requestLines
  rw [if_neg (by omega)]
  obtain ⟨spans, rest, ln, g1, g2, g3, g4, g5, g6⟩ := requestBefore_spec start plan 0 [] (Nat.zero_le _)
  obtain ⟨a1, a2⟩ := requestAfter_spec stop rest ln (spans ++ [(stop - start, .render)])
  rw [g1]
  refine ⟨_, rfl, ?_, ?_⟩
  · rw [a1, planLines_append, g2, g5, List.drop_drop, show ln - 0 + (stop - ln) = stop by omega]
    simp [planLines_cons]
  · intro b1 b2
    obtain ⟨b3, b4⟩ := g6 (by simp) b1
    refine a2 ?_ b4
    intro q hq
    rcases List.mem_append.1 hq with hq | hq
    · exact b3 q hq
    · rw [List.mem_singleton.1 hq]
      dsimp only; omega

end RenderPlan

end Xi
