import Verif.Plugin.StateTextLemmas

/-!
# The places of the cached states
-/

namespace Xi

namespace Plugin

variable {S : Type}

open StateCache

/-! ## Searching -/

theorem split_sorted {es : List (CacheEntry S)} (hs : es.Pairwise (fun a b => a.line < b.line)) (n : Nat) :
    ∃ pre post, es = pre ++ post ∧ (∀ e ∈ pre, e.line ≤ n) ∧ (∀ e ∈ post, n < e.line) := by
  refine ⟨es.takeWhile (fun e => e.line ≤ n), es.dropWhile (fun e => e.line ≤ n), by simp, fun e he => ?_, fun e he => ?_⟩
  · simpa using List.all_eq_true.1 List.all_takeWhile e he
  · cases h : es.dropWhile (fun e => e.line ≤ n) with
    | nil => rw [h] at he; simp at he
    | cons x xs =>
      have h1 : n < x.line := by
        have := List.head_dropWhile_not (fun e : CacheEntry S => decide (e.line ≤ n)) (l := es) (by rw [h]; simp)
        simp only [h, List.head_cons, decide_eq_false_iff_not] at this
        omega
      have h2 : (x :: xs).Pairwise (fun a b : CacheEntry S => a.line < b.line) := by rw [← h]; exact hs.sublist (List.dropWhile_sublist _)
      rw [h] at he
      rcases List.mem_cons.1 he with rfl | he
      · exact h1
      · have := (List.pairwise_cons.1 h2).1 e he
        omega

/-- A split is determined by the lines. -/
theorem split_unique {n : Nat} : ∀ {pre post pre' post' : List (CacheEntry S)}, pre ++ post = pre' ++ post' → (∀ e ∈ pre, e.line ≤ n) → (∀ e ∈ post, n < e.line) →
    (∀ e ∈ pre', e.line ≤ n) → (∀ e ∈ post', n < e.line) → pre = pre' ∧ post = post'
  | [], _, [], _, h, _, _, _, _ => ⟨rfl, h⟩
  | [], post, x :: pre', post', h, _, h2, h3, _ => by
    have := h2 x (by simp only [List.nil_append] at h; rw [h]; simp)
    have := h3 x (by simp)
    omega
  | x :: pre, post, [], post', h, h1, _, _, h4 => by
    have := h4 x (by simp only [List.nil_append] at h; rw [← h]; simp)
    have := h1 x (by simp)
    omega
  | x :: pre, post, y :: pre', post', h, h1, h2, h3, h4 => by
    simp only [List.cons_append, List.cons.injEq] at h
    obtain ⟨rfl, h⟩ := h
    obtain ⟨rfl, rfl⟩ := split_unique h (fun e he => h1 e (by simp [he])) h2 (fun e he => h3 e (by simp [he])) h4
    exact ⟨rfl, rfl⟩

theorem findLine_spec {c : StateCache S} (hs : c.entries.Pairwise (fun a b => a.line < b.line)) (n : Nat) :
    (∃ pre e post, c.entries = pre ++ e :: post ∧ e.line = n ∧ (∀ x ∈ pre, x.line < n) ∧ (∀ x ∈ post, n < x.line) ∧ c.findLine n = .inl pre.length) ∨
    ∃ pre post, c.entries = pre ++ post ∧ (∀ x ∈ pre, x.line < n) ∧ (∀ x ∈ post, n < x.line) ∧ c.findLine n = .inr pre.length := by
  obtain ⟨pre, post, h1, h2, h3⟩ := split_sorted hs n
  rcases List.eq_nil_or_concat pre with rfl | ⟨pre', e, rfl⟩
  · refine .inr ⟨[], post, h1, by simp, h3, ?_⟩
    rw [findLine, h1, List.map_append]
    exact binSearch_inr (by simp) (by simpa using h3)
  · simp only [List.concat_eq_append] at h1 h2
    have hlt : ∀ x ∈ pre', x.line < e.line := by
      rw [h1, List.append_assoc] at hs
      intro x hx
      exact (List.pairwise_append.1 hs).2.2 x hx e (by simp)
    have he := h2 e (by simp)
    rcases Nat.lt_or_ge e.line n with h4 | h4
    · refine .inr ⟨pre' ++ [e], post, h1, ?_, h3, ?_⟩
      · intro x hx
        simp only [List.mem_append, List.mem_singleton] at hx
        rcases hx with hx | rfl
        · have := hlt x hx; omega
        · exact h4
      · rw [findLine, h1, List.map_append]
        rw [binSearch_inr (l := (pre' ++ [e]).map (·.line)) (m := post.map (·.line)) _ (by simpa using h3)]
        · simp
        · intro y hy
          obtain ⟨x, hx, rfl⟩ := List.mem_map.1 hy
          simp only [List.mem_append, List.mem_singleton] at hx
          rcases hx with hx | rfl
          · have := hlt x hx; omega
          · exact h4
    · have e1 : e.line = n := by omega
      refine .inl ⟨pre', e, post, by simpa using h1, e1, by rw [← e1]; exact hlt, h3, ?_⟩
      rw [findLine, h1, List.append_assoc, List.map_append, List.map_append, List.map_singleton, e1]
      rw [show [n] ++ post.map (·.line) = n :: post.map (·.line) from rfl, binSearch_inl]
      · simp
      · intro y hy
        obtain ⟨x, hx, rfl⟩ := List.mem_map.1 hy
        rw [← e1]
        exact hlt x hx

theorem Placed.offset_lt {c : StateCache S} {t : List UInt8} (hp : Placed c t) {x y : CacheEntry S} (hx : x ∈ c.entries) (hy : y ∈ c.entries) (h : x.line < y.line) :
    x.offset < y.offset := by
  rw [hp.offset x hx, hp.offset y hy]
  exact lineBegin_lt h (hp.line y hy)

theorem Placed.offset_le_iff {c : StateCache S} {A B : List UInt8} (hp : Placed c (A ++ B)) {x : CacheEntry S} (hx : x ∈ c.entries) :
    x.offset ≤ A.length ↔ x.line ≤ A.count newline := by
  rw [hp.offset x hx]
  exact lineBegin_le_iff (hp.line x hx)

theorem afterOffset_spec {c : StateCache S} {A B : List UInt8} (hp : Placed c (A ++ B)) :
    ∃ pre post, c.entries = pre ++ post ∧ (∀ e ∈ pre, e.line ≤ A.count newline) ∧ (∀ e ∈ post, A.count newline < e.line) ∧ c.afterOffset A.length = pre.length := by
  obtain ⟨pre, post, h1, h2, h3⟩ := split_sorted hp.sorted (A.count newline)
  refine ⟨pre, post, h1, h2, h3, ?_⟩
  have hpost : ∀ y ∈ post.map (·.offset), A.length < y := by
    intro y hy
    obtain ⟨x, hx, rfl⟩ := List.mem_map.1 hy
    have := hp.offset_le_iff (x := x) (by rw [h1]; simp [hx])
    have := h3 x hx
    omega
  rcases List.eq_nil_or_concat pre with rfl | ⟨pre', e, rfl⟩
  · rw [afterOffset, findOffset, h1, List.map_append, binSearch_inr (by simp) hpost]
    rfl
  · simp only [List.concat_eq_append] at h1 h2 ⊢
    have hlt : ∀ x ∈ pre', x.offset < e.offset := by
      intro x hx
      refine hp.offset_lt (by rw [h1]; simp [hx]) (by rw [h1]; simp) ?_
      have hs := hp.sorted
      rw [h1, List.append_assoc] at hs
      exact (List.pairwise_append.1 hs).2.2 x hx e (by simp)
    have he := (hp.offset_le_iff (x := e) (by rw [h1]; simp)).2 (h2 e (by simp))
    rcases Nat.lt_or_ge e.offset A.length with h4 | h4
    · rw [afterOffset, findOffset, h1, List.map_append, binSearch_inr (l := (pre' ++ [e]).map (·.offset)) _ hpost]
      · simp
      · intro y hy
        obtain ⟨x, hx, rfl⟩ := List.mem_map.1 hy
        simp only [List.mem_append, List.mem_singleton] at hx
        rcases hx with hx | rfl
        · have := hlt x hx; omega
        · exact h4
    · have e1 : e.offset = A.length := by omega
      rw [afterOffset, findOffset, h1, List.append_assoc, List.map_append, List.map_append, List.map_singleton, e1,
        show [A.length] ++ post.map (·.offset) = A.length :: post.map (·.offset) from rfl, binSearch_inl]
      · simp
      · intro y hy
        obtain ⟨x, hx, rfl⟩ := List.mem_map.1 hy
        rw [← e1]
        exact hlt x hx

/-- The line of the last entry. -/
def lastLine (es : List (CacheEntry S)) : Nat := (es.getLast?.map (·.line)).getD 0

theorem lastLine_concat (es : List (CacheEntry S)) (e : CacheEntry S) : lastLine (es ++ [e]) = e.line := by simp [lastLine]

theorem lastLine_ge {es : List (CacheEntry S)} (hs : es.Pairwise (fun a b => a.line < b.line)) {x : CacheEntry S} (hx : x ∈ es) : x.line ≤ lastLine es := by
  rcases List.eq_nil_or_concat es with rfl | ⟨es', e, rfl⟩
  · simp at hx
  · simp only [List.concat_eq_append] at *
    rw [lastLine_concat]
    rcases List.mem_append.1 hx with h | h
    · exact Nat.le_of_lt ((List.pairwise_append.1 hs).2.2 x h e (by simp))
    · simp only [List.mem_singleton] at h; rw [h]; exact Nat.le_refl _

theorem lastLine_le {es : List (CacheEntry S)} {n : Nat} (h : ∀ e ∈ es, e.line ≤ n) : lastLine es ≤ n := by
  rcases List.eq_nil_or_concat es with rfl | ⟨es', e, rfl⟩
  · simp [lastLine]
  · rw [List.concat_eq_append, lastLine_concat]
    exact h e (by simp)

theorem lineBefore_spec {c : StateCache S} {pre post : List (CacheEntry S)} (h : c.entries = pre ++ post) : c.lineBefore pre.length = lastLine pre := by
  rcases List.eq_nil_or_concat pre with rfl | ⟨pre', e, rfl⟩
  · simp [lineBefore, lastLine]
  · rw [List.concat_eq_append] at *
    rw [lineBefore, if_neg (by simp), h, lastLine_concat]
    simp

theorem lastEntry_spec {c : StateCache S} {pre post : List (CacheEntry S)} {n : Nat} (h : c.entries = pre ++ post) (h1 : ∀ e ∈ pre, e.line ≤ n)
    (h2 : ∀ e ∈ post, n < e.line) : lastEntry c n = lastLine pre := by
  rw [lastEntry, lastLine, h, List.filter_append, List.filter_eq_self.2 (by simpa using h1), List.filter_eq_nil_iff.2 (by simpa using h2), List.append_nil]

theorem nextEntry_spec {c : StateCache S} {pre post : List (CacheEntry S)} {n : Nat} (h : c.entries = pre ++ post) (h1 : ∀ e ∈ pre, e.line ≤ n)
    (h2 : ∀ e ∈ post, n < e.line) : nextEntry c n = post.head?.map (·.line) := by
  rw [nextEntry, h, List.find?_append, List.find?_eq_none.2 (by intro x hx; have := h1 x hx; simp; omega)]
  cases post with
  | nil => rfl
  | cons e es =>
    have := h2 e (by simp)
    simp [this]

/-! ## The frontier -/

theorem split_nat {F : List Nat} (hs : F.Pairwise (· < ·)) (n : Nat) :
    ∃ F1 F2, F = F1 ++ F2 ∧ (∀ p ∈ F1, p < n) ∧ (∀ p ∈ F2, n ≤ p) := by
  refine ⟨F.takeWhile (· < n), F.dropWhile (· < n), by simp, fun e he => ?_, fun e he => ?_⟩
  · simpa using List.all_eq_true.1 List.all_takeWhile e he
  · cases h : F.dropWhile (· < n) with
    | nil => rw [h] at he; simp at he
    | cons x xs =>
      have h1 : n ≤ x := by
        have := List.head_dropWhile_not (fun e : Nat => decide (e < n)) (l := F) (by rw [h]; simp)
        simp only [h, List.head_cons, decide_eq_false_iff_not] at this
        omega
      have h2 : (x :: xs).Pairwise (· < ·) := by rw [← h]; exact hs.sublist (List.dropWhile_sublist _)
      rw [h] at he
      rcases List.mem_cons.1 he with rfl | he
      · exact h1
      · have := (List.pairwise_cons.1 h2).1 e he
        omega

theorem truncateFrontier_spec {c : StateCache S} {n : Nat} {F1 F2 : List Nat} (h : c.frontier = F1 ++ F2) (hs : c.frontier.Pairwise (· < ·))
    (h1 : ∀ p ∈ F1, p < n) (h2 : ∀ p ∈ F2, n ≤ p) : c.truncateFrontier n = { c with frontier := F1 ++ [n] } := by
  rw [truncateFrontier]
  cases F2 with
  | nil =>
    rw [h, binSearch_inr h1 (by simp)]
    simp
  | cons p F2 =>
    rw [h, List.pairwise_append] at hs
    have h3 := (List.pairwise_cons.1 hs.2.1).1
    have h4 := h2 p (by simp)
    rcases Nat.lt_or_ge n p with h5 | h5
    · rw [h, binSearch_inr h1 (by
        intro y hy
        rcases List.mem_cons.1 hy with rfl | hy
        · exact h5
        · have := h3 y hy; omega)]
      simp
    · obtain rfl : p = n := by omega
      rw [h, binSearch_inl h1]
      simp only
      rw [show F1 ++ p :: F2 = (F1 ++ [p]) ++ F2 by simp, List.take_left' (by simp)]

theorem truncateFrontier_other (c : StateCache S) (n : Nat) : (c.truncateFrontier n).entries = c.entries ∧ (c.truncateFrontier n).buf = c.buf := by
  rw [truncateFrontier]
  split <;> exact ⟨rfl, rfl⟩

theorem truncateCache_spec {c : StateCache S} {A B : List UInt8} (hp : Placed c (A ++ B)) :
    ∃ pre post, c.entries = pre ++ post ∧ (∀ e ∈ pre, e.line ≤ A.count newline) ∧ (∀ e ∈ post, A.count newline < e.line) ∧
      c.truncateCache A.length = { c.truncateFrontier (lastLine pre) with entries := pre } := by
  obtain ⟨pre, post, h1, h2, h3, h4⟩ := afterOffset_spec hp
  refine ⟨pre, post, h1, h2, h3, ?_⟩
  rw [truncateCache, h4]
  simp only [lineBefore_spec h1]
  rw [h1]
  simp

/-! ## Entries after an edit -/

/-- The entry after an edit before it that adds `ki` lines and `li` bytes and takes `kd` lines and `ld` bytes. -/
def movedEntry (ki kd li ld : Nat) (e : CacheEntry S) : CacheEntry S := { e with line := e.line + ki - kd, offset := e.offset + li - ld }

theorem placed_edit {c : StateCache S} {A D N B : List UInt8} {pre mid post : List (CacheEntry S)} (hp : Placed c (A ++ D ++ B)) (hb : ChunkCache) (F : List Nat)
    (hc : Coherent hb (A ++ N ++ B)) (he : c.entries = pre ++ mid ++ post) (h1 : ∀ e ∈ pre, e.line ≤ A.count newline)
    (h2 : ∀ e ∈ post, (A ++ D).count newline < e.line) :
    Placed ⟨hb, pre ++ post.map (movedEntry (N.count newline) (D.count newline) N.length D.length), F⟩ (A ++ N ++ B) := by
  have hcD : (A ++ D).count newline = A.count newline + D.count newline := List.count_append
  have hcN : (A ++ N).count newline = A.count newline + N.count newline := List.count_append
  have hs := hp.sorted
  rw [he, List.pairwise_append, List.pairwise_append] at hs
  have hpost : ∀ e ∈ post, e ∈ c.entries := fun e h => by rw [he]; simp [h]
  have hpre : ∀ e ∈ pre, e ∈ c.entries := fun e h => by rw [he]; simp [h]
  refine ⟨hc, ?_, ?_, ?_, ?_, ?_⟩
  · show (pre ++ _).Pairwise _
    rw [List.pairwise_append]
    refine ⟨hs.1.1, ?_, ?_⟩
    · rw [List.pairwise_map]
      refine List.Pairwise.imp_of_mem (fun {a b} ha hb hab => ?_) hs.2.1
      have := h2 a ha
      have := h2 b hb
      simp only [movedEntry]
      omega
    · intro a ha b hb
      obtain ⟨x, hx, rfl⟩ := List.mem_map.1 hb
      have := h1 a ha
      have := h2 x hx
      simp only [movedEntry]
      omega
  · intro e hm
    rcases List.mem_append.1 hm with hm | hm
    · have := hp.offset e (hpre e hm)
      rw [List.append_assoc, lineBegin_left_eq (h1 e hm)] at this
      rw [this, List.append_assoc, lineBegin_left_eq (h1 e hm)]
    · obtain ⟨x, hx, rfl⟩ := List.mem_map.1 hm
      have h3 := h2 x hx
      have := hp.offset x (hpost x hx)
      rw [lineBegin_right_eq h3] at this
      show x.offset + N.length - D.length = lineBegin _ (x.line + N.count newline - D.count newline)
      rw [lineBegin_right_eq (by omega), this, List.length_append, List.length_append,
        show x.line + N.count newline - D.count newline - (A ++ N).count newline = x.line - (A ++ D).count newline by omega]
      omega
  · intro e hm
    rcases List.mem_append.1 hm with hm | hm
    · have := h1 e hm
      rw [List.count_append, List.count_append]
      omega
    · obtain ⟨x, hx, rfl⟩ := List.mem_map.1 hm
      have h3 := h2 x hx
      have := hp.line x (hpost x hx)
      have e1 : (A ++ D ++ B).count newline = (A ++ D).count newline + B.count newline := List.count_append
      have e2 : (A ++ N ++ B).count newline = (A ++ N).count newline + B.count newline := List.count_append
      show x.line + N.count newline - D.count newline ≤ _
      omega
  · intro e hm
    rcases List.mem_append.1 hm with hm | hm
    · exact hp.state e (hpre e hm)
    · obtain ⟨x, hx, rfl⟩ := List.mem_map.1 hm
      exact hp.state x (hpost x hx)
  · have := hp.size
    rw [he] at this
    simp only [List.length_append, List.length_map] at this ⊢
    omega

/-- Dropping entries. -/
theorem placed_prefix {c : StateCache S} {A X Y : List UInt8} {pre post : List (CacheEntry S)} (hp : Placed c (A ++ X)) (hb : ChunkCache) (F : List Nat)
    (hc : Coherent hb (A ++ Y)) (he : c.entries = pre ++ post) (h1 : ∀ e ∈ pre, e.line ≤ A.count newline) : Placed ⟨hb, pre, F⟩ (A ++ Y) := by
  have := placed_edit (c := c) (A := A) (D := X) (N := Y) (B := []) (pre := pre) (mid := post) (post := []) (by simpa using hp) hb F (by simpa using hc) (by simpa using he) h1 (by simp)
  simpa using this

theorem Placed.buf {c : StateCache S} {t : List UInt8} (hp : Placed c t) {b : ChunkCache} (hb : Coherent b t) : Placed { c with buf := b } t :=
  ⟨hb, hp.sorted, hp.offset, hp.line, hp.state, hp.size⟩

theorem Placed.frontier {c : StateCache S} {t : List UInt8} (hp : Placed c t) (F : List Nat) : Placed { c with frontier := F } t :=
  ⟨hp.coh, hp.sorted, hp.offset, hp.line, hp.state, hp.size⟩

end Plugin

end Xi
