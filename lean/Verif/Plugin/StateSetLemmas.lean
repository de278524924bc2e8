import Verif.Plugin.StateUpdateLemmas

/-!
# Storing a state
-/

namespace Xi

namespace Plugin

variable {S : Type}

open StateCache

theorem Placed.offset_mono {c : StateCache S} {t : List UInt8} (hp : Placed c t) {i j : Nat} {x y : CacheEntry S} (hx : c.entries[i]? = some x)
    (hy : c.entries[j]? = some y) (h : i < j) : x.offset < y.offset := by
  obtain ⟨h1, rfl⟩ := List.getElem?_eq_some_iff.1 hx
  obtain ⟨h2, rfl⟩ := List.getElem?_eq_some_iff.1 hy
  exact hp.offset_lt (List.getElem_mem _) (List.getElem_mem _) (List.pairwise_iff_getElem.1 hp.sorted i j h1 h2 h)

theorem computeGap_some {c : StateCache S} {t : List UInt8} (hp : Placed c t) (ix : Nat) : ∃ g, c.computeGap ix = some g := by
  have h : (if ix = 0 then 0 else (c.entries[ix - 1]?.map (·.offset)).getD 0) ≤ (c.entries[ix + 1]?.map (·.offset)).getD c.buf.bufSize := by
    split
    · exact Nat.zero_le _
    · cases h1 : c.entries[ix - 1]? with
      | none => exact Nat.zero_le _
      | some x =>
        cases h2 : c.entries[ix + 1]? with
        | none =>
          show x.offset ≤ c.buf.bufSize
          rw [hp.offset x (List.mem_of_getElem? h1), hp.coh.bufSize]
          exact lineBegin_le _ _
        | some y => exact Nat.le_of_lt (hp.offset_mono h1 h2 (by omega))
  exact ⟨_, if_pos h⟩

theorem probe_some {c : StateCache S} {t : List UInt8} (hp : Placed c t) (hne : c.entries ≠ []) (best : Option (Nat × Nat))
    (hb : ∀ x, best = some x → x.2 < c.entries.length) (random : Nat) : ∃ x, c.probe best random = some (some x) ∧ x.2 < c.entries.length := by
  have hlen : 0 < c.entries.length := List.length_pos_iff.2 hne
  have hmod := Nat.mod_lt random hlen
  obtain ⟨g, hg⟩ := computeGap_some hp (random % c.entries.length)
  rw [probe, if_neg (by omega)]
  simp only [hg, Option.bind_eq_bind, Option.bind_some]
  cases best with
  | none => exact ⟨_, rfl, hmod⟩
  | some x =>
    obtain ⟨lg, l⟩ := x
    simp only
    by_cases hlt : g < lg
    · rw [if_pos hlt]; exact ⟨_, rfl, hmod⟩
    · rw [if_neg hlt]; exact ⟨_, rfl, hb _ rfl⟩

theorem probes_some {c : StateCache S} {t : List UInt8} (hp : Placed c t) (hne : c.entries ≠ []) : ∀ (rs : List Nat) (best : Option (Nat × Nat)),
    (∀ x, best = some x → x.2 < c.entries.length) → (rs ≠ [] ∨ best ≠ none) → ∃ x, rs.foldlM c.probe best = some (some x) ∧ x.2 < c.entries.length
  | [], best, hb, h => by
    cases best with
    | none => simp at h
    | some x => exact ⟨x, rfl, hb x rfl⟩
  | r :: rs, best, hb, _ => by
    obtain ⟨x, h1, h2⟩ := probe_some hp hne best hb r
    rw [List.foldlM_cons, h1]
    exact probes_some hp hne rs (some x) (by rintro y ⟨rfl⟩; exact h2) (by simp)

theorem evict_spec {c : StateCache S} {t : List UInt8} (hp : Placed c t) (hne : c.entries ≠ []) (rng : Nat → Nat) :
    ∃ v, v < c.entries.length ∧ c.evict rng = some { c with entries := c.entries.eraseIdx v } := by
  obtain ⟨x, h1, h2⟩ := probes_some hp hne ((List.range numProbes).map rng) none (by simp) (by simp [numProbes])
  refine ⟨x.2, h2, ?_⟩
  rw [evict, chooseVictim, h1]
  rfl

theorem Placed.sublist {c : StateCache S} {t : List UInt8} (hp : Placed c t) {es : List (CacheEntry S)} (h : es.Sublist c.entries) : Placed { c with entries := es } t :=
  ⟨hp.coh, hp.sorted.sublist h, fun e he => hp.offset e (h.subset he), fun e he => hp.line e (h.subset he), fun e he => hp.state e (h.subset he),
    Nat.le_trans h.length_le hp.size⟩

/-- At most one entry is gone. -/
def Evicted (es es' : List (CacheEntry S)) : Prop := es' = es ∨ ∃ v, es' = es.eraseIdx v

theorem Evicted.sublist {es es' : List (CacheEntry S)} (h : Evicted es es') : es'.Sublist es := by
  rcases h with rfl | ⟨v, rfl⟩
  · exact List.Sublist.refl _
  · exact List.eraseIdx_sublist _ _

/-- What storing a state does. -/
def Stored (c c' : StateCache S) (t : List UInt8) (n : Nat) (s : S) : Prop :=
  (∃ pre e post, c.entries = pre ++ e :: post ∧ e.line = n ∧ c'.entries = pre ++ { e with state := some s } :: post) ∨
  (n ≤ t.count newline ∧ (∀ e ∈ c.entries, e.line ≠ n) ∧ ∃ pre post, Evicted c.entries (pre ++ post) ∧ (∀ e ∈ pre, e.line < n) ∧ (∀ e ∈ post, n < e.line) ∧
    c'.entries = pre ++ ⟨n, lineBegin t n, some s⟩ :: post) ∨
  (n = t.count newline + 1 ∧ c'.entries = c.entries)

theorem insertEntry_spec {c : StateCache S} {t : List UInt8} (hp : Placed c t) {n : Nat} (hn : ∀ e ∈ c.entries, e.line ≠ n) (rng : Nat → Nat) (off : Nat) (s : S) :
    ∃ pre post, Evicted c.entries (pre ++ post) ∧ (∀ e ∈ pre, e.line < n) ∧ (∀ e ∈ post, n < e.line) ∧ (pre ++ post).length < cacheSize ∧
      c.insertEntry rng n off s = some { c with entries := pre ++ ⟨n, off, some s⟩ :: post } := by
  have key : ∀ es, Evicted c.entries es → es.length < cacheSize → ∃ pre post, Evicted c.entries (pre ++ post) ∧ (∀ e ∈ pre, e.line < n) ∧
      (∀ e ∈ post, n < e.line) ∧ (pre ++ post).length < cacheSize ∧ (match findLine { c with entries := es } n with
        | .inl _ => (none : Option (StateCache S))
        | .inr ix => some { c with entries := es.take ix ++ (⟨n, off, some s⟩ : CacheEntry S) :: es.drop ix }) = some { c with entries := pre ++ ⟨n, off, some s⟩ :: post } := by
    intro es he hlen
    have hp1 := hp.sublist he.sublist
    rcases findLine_spec hp1.sorted n with ⟨pre, e, post, h1, h2, -⟩ | ⟨pre, post, h1, h2, h3, h4⟩
    · exact absurd h2 (hn e (he.sublist.subset (by simp only at h1; rw [h1]; simp)))
    · simp only at h1
      refine ⟨pre, post, by rw [← h1]; exact he, h2, h3, by rw [← h1]; exact hlen, ?_⟩
      rw [h4]
      simp [h1]
  rw [insertEntry]
  by_cases hfull : c.entries.length ≥ cacheSize
  · have hne : c.entries ≠ [] := by intro h; rw [h] at hfull; simp [cacheSize] at hfull
    obtain ⟨v, hv, h1⟩ := evict_spec hp hne rng
    rw [if_pos hfull, h1]
    have hlen : (c.entries.eraseIdx v).length < cacheSize := by
      rw [List.length_eraseIdx_of_lt hv]
      have := hp.size
      omega
    exact key _ (.inr ⟨v, rfl⟩) hlen
  · rw [if_neg hfull]
    exact key _ (.inl rfl) (by omega)

theorem set_known {source : Source} {size : Nat} {r : Rope} {c : StateCache S} (hp : Placed c r.text) (rng : Nat → Nat) {n : Nat} (hn : n ≤ r.text.count newline + 1) (s : S)
    {b : ChunkCache} (k1 : c.buf.offsetOfLine source size n = some (b, some (lineBegin r.text n))) (k2 : Same c.buf b r.text) :
    ∃ c', c.set source size rng n s = some c' ∧ Placed c' r.text ∧ c'.buf.rev = c.buf.rev ∧ c'.frontier = c.frontier ∧ Stored c c' r.text n s := by
  rw [StateCache.set]
  rcases findLine_spec hp.sorted n with ⟨pre, e, post, h1, h2, h3, h4, h5⟩ | ⟨pre, post, h1, h2, h3, h4⟩
  · rw [h5]
    have hmod : c.entries.modify pre.length (fun e => { e with state := some s }) = pre ++ { e with state := some s } :: post := by
      rw [h1, List.modify_eq_take_cons_drop (by simp)]
      simp
    refine ⟨_, rfl, ⟨hp.coh, ?_, ?_, ?_, ?_, ?_⟩, rfl, rfl, .inl ⟨pre, e, post, h1, h2, hmod⟩⟩
    all_goals simp only [hmod]
    · have := hp.sorted
      rw [h1] at this
      rw [List.pairwise_append, List.pairwise_cons] at this ⊢
      exact ⟨this.1, ⟨this.2.1.1, this.2.1.2⟩, fun a ha b hb => by
        rcases List.mem_cons.1 hb with rfl | hb
        · exact this.2.2 a ha e (by simp)
        · exact this.2.2 a ha b (by simp [hb])⟩
    · intro x hx
      simp only [List.mem_append, List.mem_cons] at hx
      rcases hx with hx | rfl | hx
      · exact hp.offset x (by rw [h1]; simp [hx])
      · exact hp.offset e (by rw [h1]; simp)
      · exact hp.offset x (by rw [h1]; simp [hx])
    · intro x hx
      simp only [List.mem_append, List.mem_cons] at hx
      rcases hx with hx | rfl | hx
      · exact hp.line x (by rw [h1]; simp [hx])
      · exact hp.line e (by rw [h1]; simp)
      · exact hp.line x (by rw [h1]; simp [hx])
    · intro x hx
      simp only [List.mem_append, List.mem_cons] at hx
      rcases hx with hx | rfl | hx
      · exact hp.state x (by rw [h1]; simp [hx])
      · rfl
      · exact hp.state x (by rw [h1]; simp [hx])
    · have := hp.size
      rw [h1] at this
      simpa using this
  · rw [h4]
    simp only
    by_cases hend : n = c.buf.numLines
    · rw [if_pos hend]
      refine ⟨c, rfl, hp, rfl, rfl, .inr (.inr ⟨?_, rfl⟩)⟩
      rw [hend, hp.coh.numLines]
    · rw [if_neg hend]
      have hn' : n ≤ r.text.count newline := by rw [hp.coh.numLines] at hend; omega
      rw [k1]
      simp only
      have hne : ∀ e ∈ c.entries, e.line ≠ n := by
        intro e he heq
        rw [h1] at he
        rcases List.mem_append.1 he with he | he
        · have := h2 e he; omega
        · have := h3 e he; omega
      obtain ⟨pre', post', g1, g2, g3, g4, g5⟩ := insertEntry_spec (hp.buf k2.coh) (n := n) hne rng (lineBegin r.text n) s
      rw [g5]
      have hsub := g1.sublist
      simp only at hsub
      refine ⟨_, rfl, ⟨k2.coh, ?_, ?_, ?_, ?_, ?_⟩, k2.rev, rfl, .inr (.inl ⟨hn', hne, pre', post', g1, g2, g3, rfl⟩)⟩
      · have := hp.sorted.sublist hsub
        show (pre' ++ _ :: post').Pairwise _
        rw [List.pairwise_append] at this ⊢
        rw [List.pairwise_cons]
        exact ⟨this.1, ⟨fun x hx => g3 x hx, this.2.1⟩, fun a ha b hb => by
          rcases List.mem_cons.1 hb with rfl | hb
          · exact g2 a ha
          · exact this.2.2 a ha b hb⟩
      · intro x hx
        simp only [List.mem_append, List.mem_cons] at hx
        rcases hx with hx | rfl | hx
        · exact hp.offset x (hsub.subset (by simp [hx]))
        · rfl
        · exact hp.offset x (hsub.subset (by simp [hx]))
      · intro x hx
        simp only [List.mem_append, List.mem_cons] at hx
        rcases hx with hx | rfl | hx
        · exact hp.line x (hsub.subset (by simp [hx]))
        · exact hn'
        · exact hp.line x (hsub.subset (by simp [hx]))
      · intro x hx
        simp only [List.mem_append, List.mem_cons] at hx
        rcases hx with hx | rfl | hx
        · exact hp.state x (hsub.subset (by simp [hx]))
        · rfl
        · exact hp.state x (hsub.subset (by simp [hx]))
      · simp only [List.length_append, List.length_cons] at g4 ⊢
        omega

theorem set_spec {source : Source} {size : Nat} {r : Rope} {c : StateCache S} (hr : Reading source size r c.buf.rev) (ha : Answers source size c.buf.rev r)
    (hp : Placed c r.text) (rng : Nat → Nat) {n : Nat} (hn : n ≤ r.text.count newline + 1) (s : S) :
    ∃ c', c.set source size rng n s = some c' ∧ Placed c' r.text ∧ c'.buf.rev = c.buf.rev ∧ c'.frontier = c.frontier ∧ Stored c c' r.text n s := by
  obtain ⟨b, x, k1, k2, k3⟩ := offsetOfLine_spec hr hp.coh hn
  obtain rfl : x = some (lineBegin r.text n) := by
    rcases k3 with k3 | ⟨-, k3⟩
    · exact k3
    · exact absurd ha k3
  exact set_known hp rng hn s k1 k2

/-- After a line was read, the start of the next line is known. -/
theorem lineLoop_next {source : Source} {size n : Nat} : ∀ {fuel : Nat} {c c' : ChunkCache} {o : Nat} {x : List UInt8},
    ChunkCache.lineLoop source size n fuel c o = some (c', some x) → ∃ off, c'.cachedOffsetOfLine (n + 1) = some (some off)
  | 0, _, _, _, _, h => by simp [ChunkCache.lineLoop] at h
  | fuel + 1, c, c', o, x, h => by
    rw [ChunkCache.lineLoop] at h
    simp only [Option.bind_eq_bind] at h
    obtain ⟨y, h1, h2⟩ := Option.bind_eq_some_iff.1 h
    cases y with
    | some off =>
      simp only at h2
      obtain ⟨z, h3, h4⟩ := Option.bind_eq_some_iff.1 h2
      obtain ⟨w, h5, h6⟩ := Option.bind_eq_some_iff.1 h4
      cases h6
      exact ⟨off, h1⟩
    | none =>
      simp only at h2
      obtain ⟨z, h3, h4⟩ := Option.bind_eq_some_iff.1 h2
      obtain ⟨⟨w, f⟩, h5, h6⟩ := Option.bind_eq_some_iff.1 h4
      cases f with
      | false => simp at h6
      | true => exact lineLoop_next h6

theorem getLine_next {source : Source} {size n : Nat} {c c' : ChunkCache} {x : List UInt8} (h : c.getLine source size n = some (c', some x)) :
    ∃ off, c'.cachedOffsetOfLine (n + 1) = some (some off) := by
  have from_ : ∀ {c : ChunkCache}, c.lineFrom source size n = some (c', some x) → ∃ off, c'.cachedOffsetOfLine (n + 1) = some (some off) := by
    intro c h
    rw [ChunkCache.lineFrom] at h
    simp only [Option.bind_eq_bind] at h
    obtain ⟨y, h1, h2⟩ := Option.bind_eq_some_iff.1 h
    obtain ⟨z, h3, h4⟩ := Option.bind_eq_some_iff.1 h2
    obtain ⟨w, h5, h6⟩ := Option.bind_eq_some_iff.1 h4
    exact lineLoop_next h6
  rw [ChunkCache.getLine] at h
  split at h
  · simp at h
  · split at h
    · simp only [Option.bind_eq_bind] at h
      obtain ⟨⟨w, f⟩, h1, h2⟩ := Option.bind_eq_some_iff.1 h
      cases f with
      | false => simp at h2
      | true => exact from_ h2
    · exact from_ h

/-- The start of a line that is in the chunk is found without asking. -/
theorem offsetOfLine_known {source : Source} {size n : Nat} {t : List UInt8} {c : ChunkCache} (hc : Coherent c t) (hn : n ≤ t.count newline + 1) {off : Nat}
    (h : c.cachedOffsetOfLine n = some (some off)) : c.offsetOfLine source size n = some (c, some (lineBegin t n)) := by
  obtain ⟨A, B, ht, hh⟩ := hc.held
  rw [ChunkCache.offsetOfLine, ChunkCache.offsetOfLineFrom, hc.numLines, if_neg (by omega)]
  rcases cachedOffset_spec hh n with ⟨_, _, g3⟩ | ⟨_, g2⟩
  · rw [← ht] at g3
    simp only [g3, Option.bind_eq_bind, Option.bind_some]
    rfl
  · rw [g2] at h; simp at h

end Plugin

end Xi
