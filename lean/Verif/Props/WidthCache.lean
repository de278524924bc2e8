import Verif.Core.WidthCache

/-!
# Measured widths: property C40
-/

namespace Xi

namespace WidthBatch

variable {W : Type}

/-- The strings of a request to the front-end, with their styles. -/
def asked (req : List (Nat × List String)) : List WidthKey := req.flatMap fun (id, ss) => ss.map fun s => (id, s)

/-- The keys that are waiting, with their tokens. -/
def waiting : List (Nat × List String) → List (List Nat) → List (WidthKey × Nat)
  | (id, ss) :: req, ts :: toks => ((ss.map fun s => (id, s)).zip ts) ++ waiting req toks
  | _, _ => []

/-- Every string has a token. -/
def Paired : List (Nat × List String) → List (List Nat) → Prop
  | [], [] => True
  | (_, ss) :: req, ts :: toks => ss.length = ts.length ∧ Paired req toks
  | _, _ => False

theorem Paired.length : ∀ {req : List (Nat × List String)} {toks : List (List Nat)}, Paired req toks → req.length = toks.length
  | [], [], _ => rfl
  | _ :: _, _ :: _, h => by simp [Paired.length h.2]

theorem Paired.snoc (id : Nat) : ∀ {req : List (Nat × List String)} {toks : List (List Nat)}, Paired req toks →
    Paired (req ++ [(id, [])]) (toks ++ [[]]) ∧ waiting (req ++ [(id, [])]) (toks ++ [[]]) = waiting req toks
  | [], [], _ => by simp [Paired, waiting]
  | (i, ss) :: req, ts :: toks, h => by
    obtain ⟨h1, h2⟩ := Paired.snoc id h.2
    exact ⟨⟨h.1, h1⟩, by simp [waiting, h2]⟩

theorem Paired.push (id : Nat) (s : String) (t : Nat) : ∀ {req : List (Nat × List String)} {toks : List (List Nat)} {i : Nat},
    Paired req toks → (req[i]?.map (·.1)) = some id →
    Paired (req.modify i fun r => (r.1, r.2 ++ [s])) (toks.modify i (· ++ [t])) ∧
    (waiting (req.modify i fun r => (r.1, r.2 ++ [s])) (toks.modify i (· ++ [t]))).Perm (((id, s), t) :: waiting req toks)
  | (j, ss) :: req, ts :: toks, 0, h, he => by
    simp at he
    subst he
    refine ⟨by simpa [Paired] using h, ?_⟩
    simp only [List.modify_zero_cons, waiting, List.map_append, List.map_cons, List.map_nil]
    rw [List.zip_append (by simpa using h.1)]
    simp only [List.zip_cons_cons, List.zip_nil_right, List.append_assoc, List.singleton_append]
    exact List.perm_middle
  | (j, ss) :: req, ts :: toks, i + 1, h, he => by
    obtain ⟨h1, h2⟩ := Paired.push id s t (req := req) (toks := toks) (i := i) h.2 (by simpa using he)
    refine ⟨by simp only [List.modify_succ_cons]; exact ⟨h.1, h1⟩, ?_⟩
    simp only [List.modify_succ_cons, waiting]
    exact (h2.append_left _).trans List.perm_middle
  | [], [], i, h, he => by simp at he

theorem Paired.asked : ∀ {req : List (Nat × List String)} {toks : List (List Nat)}, Paired req toks →
    (waiting req toks).map (·.1) = asked req
  | [], [], _ => rfl
  | (id, ss) :: req, ts :: toks, h => by
    have := Paired.asked h.2
    simp only [WidthBatch.asked, waiting, List.map_append, List.flatMap_cons] at this ⊢
    rw [this, List.map_fst_zip (by simp [h.1])]

/-- What the front-end answers if it measures with `f`. -/
def answer (f : WidthKey → W) (req : List (Nat × List String)) : List (List W) :=
  req.map fun (id, ss) => ss.map fun s => f (id, s)

theorem answer_zip (f : WidthKey → W) : ∀ (req : List (Nat × List String)) (toks : List (List Nat)),
    (((answer f req).zip toks).flatMap fun (w, t) => w.zip t) = (waiting req toks).map fun p => (f p.1, p.2)
  | [], _ => by simp [answer, waiting]
  | _ :: _, [] => by simp [answer, waiting]
  | (id, ss) :: req, ts :: toks => by
    have := answer_zip f req toks
    simp only [answer, List.map_cons, List.zip_cons_cons, List.flatMap_cons, waiting, List.map_append] at this ⊢
    rw [this]
    congr 1
    rw [show (ss.map fun s => f (id, s)) = (ss.map fun s => (id, s)).map f by simp]
    rw [List.zip_map_left]
    apply List.map_congr_left
    intro p _
    rfl

theorem assign_spec : ∀ (l : List (W × Nat)) (widths : List W), (∀ p ∈ l, p.2 < widths.length) → (l.map (·.2)).Nodup →
    ∃ r, assign widths l = some r ∧ r.length = widths.length ∧ (∀ p ∈ l, r[p.2]? = some p.1) ∧
      ∀ i, (∀ p ∈ l, p.2 ≠ i) → r[i]? = widths[i]?
  | [], widths, _, _ => ⟨widths, rfl, rfl, by simp, by simp⟩
  | (w, t) :: l, widths, hb, hn => by
    have ht : t < widths.length := hb (w, t) (by simp)
    simp only [List.map_cons, List.nodup_cons] at hn
    obtain ⟨r, e, h1, h2, h3⟩ := assign_spec l (widths.set t w) (by
      intro p hp; simpa using hb p (by simp [hp])) hn.2
    have hnot : ∀ p ∈ l, p.2 ≠ t := by
      intro p hp he
      exact hn.1 (by rw [← he]; exact List.mem_map_of_mem hp)
    refine ⟨r, by simp [assign, ht, e], by simpa using h1, ?_, ?_⟩
    · intro p hp
      rcases List.mem_cons.mp hp with rfl | hp
      · rw [h3 _ hnot]; simp [ht]
      · exact h2 p hp
    · intro i hi
      rw [h3 i (fun p hp => hi p (by simp [hp]))]
      have : t ≠ i := hi (w, t) (by simp)
      simp [List.getElem?_set, this]

/-- The state of the cache between batches, if everything was measured with `f`. -/
structure Settled (f : WidthKey → W) (c : WidthCache W) : Prop where
  right : ∀ k t, c.m k = some t → c.widths[t]? = some (f k)

/-- The state in a batch. -/
structure Open (f : WidthKey → W) (b : WidthBatch W) (start : WidthCache W) : Prop where
  widths : b.cache.widths = start.widths
  paired : Paired b.req b.reqToks
  ids : ∀ id i, b.reqIds id = some i → b.req[i]?.map (·.1) = some id
  le : start.widths.length ≤ b.pendingTok
  range : ∀ p ∈ waiting b.req b.reqToks, start.widths.length ≤ p.2 ∧ p.2 < b.pendingTok
  nodup : ((waiting b.req b.reqToks).map (·.2)).Nodup
  keys : ((waiting b.req b.reqToks).map (·.1)).Nodup
  fresh : ∀ p ∈ waiting b.req b.reqToks, start.m p.1 = none
  m : ∀ k t, b.cache.m k = some t ↔ start.m k = some t ∨ (k, t) ∈ waiting b.req b.reqToks
  used : b.pendingTok = start.widths.length + (waiting b.req b.reqToks).length

theorem Open.start (f : WidthKey → W) (c : WidthCache W) : Open f c.batchReq c where
  widths := rfl
  paired := trivial
  ids := by simp [WidthCache.batchReq]
  le := Nat.le_refl _
  range := by simp [WidthCache.batchReq, waiting]
  nodup := by simp [WidthCache.batchReq, waiting]
  keys := by simp [WidthCache.batchReq, waiting]
  fresh := by simp [WidthCache.batchReq, waiting]
  m := by simp [WidthCache.batchReq, waiting]
  used := by simp [WidthCache.batchReq, waiting]

theorem Open.entry {f : WidthKey → W} {b : WidthBatch W} {c : WidthCache W} (h : Open f b c) (id : Nat) :
    Open f (b.entry id).2 c ∧ (b.entry id).2.req[(b.entry id).1]?.map (·.1) = some id ∧
    (b.entry id).2.cache = b.cache ∧ (b.entry id).2.pendingTok = b.pendingTok := by
  unfold WidthBatch.entry
  cases hi : b.reqIds id with
  | some i => exact ⟨h, h.ids id i hi, rfl, rfl⟩
  | none =>
    obtain ⟨hp, hw⟩ := h.paired.snoc id
    refine ⟨⟨h.widths, hp, ?_, h.le, ?_, ?_, ?_, ?_, ?_, ?_⟩, by simp, rfl, rfl⟩
    · intro j i hj
      simp only at hj ⊢
      by_cases hji : j = id
      · rw [if_pos hji] at hj
        cases hj
        simp [hji]
      · rw [if_neg hji] at hj
        have := h.ids j i hj
        have hlt : i < b.req.length := by
          rcases Nat.lt_or_ge i b.req.length with hl | hl
          · exact hl
          · rw [List.getElem?_eq_none hl] at this; simp at this
        rw [List.getElem?_append_left hlt]
        exact this
    · simpa only [hw] using h.range
    · simpa only [hw] using h.nodup
    · simpa only [hw] using h.keys
    · simpa only [hw] using h.fresh
    · simpa only [hw] using h.m
    · simpa only [hw] using h.used

theorem Open.request {f : WidthKey → W} {b : WidthBatch W} {c : WidthCache W} (h : Open f b c) (id : Nat) (s : String) :
    ∃ t b', b.request id s = some (t, b') ∧ Open f b' c ∧ b'.cache.m (id, s) = some t ∧
      ∀ k u, b.cache.m k = some u → b'.cache.m k = some u := by
  unfold WidthBatch.request
  cases hm : b.cache.m (id, s) with
  | some t => exact ⟨t, b, rfl, h, hm, fun k u hu => hu⟩
  | none =>
    obtain ⟨h1, he, hc, hp⟩ := h.entry id
    generalize hb1 : (b.entry id).2 = b1 at *
    generalize hi : (b.entry id).1 = i at *
    rw [show b.entry id = (i, b1) from Prod.ext hi hb1]
    simp only
    have hlt : i < b1.req.length := by
      rcases Nat.lt_or_ge i b1.req.length with hl | hl
      · exact hl
      · rw [List.getElem?_eq_none hl] at he; simp at he
    rw [if_pos ⟨hlt, by rw [← h1.paired.length]; exact hlt⟩]
    obtain ⟨hq, hw⟩ := h1.paired.push id s b1.pendingTok he
    have hmem : ∀ p, p ∈ waiting (b1.req.modify i fun r => (r.1, r.2 ++ [s])) (b1.reqToks.modify i (· ++ [b1.pendingTok])) ↔
        p = ((id, s), b1.pendingTok) ∨ p ∈ waiting b1.req b1.reqToks := by
      intro p; rw [hw.mem_iff]; simp
    have hm1 : b1.cache.m (id, s) = none := by rw [hc]; exact hm
    have hnew : ∀ t, ((id, s), t) ∉ waiting b1.req b1.reqToks := by
      intro t ht
      have := (h1.m (id, s) t).mpr (.inr ht)
      rw [hm1] at this; simp at this
    have hstart : c.m (id, s) = none := by
      cases hs : c.m (id, s) with
      | none => rfl
      | some t =>
        have := (h1.m (id, s) t).mpr (.inl hs)
        rw [hm1] at this; simp at this
    refine ⟨_, _, rfl, ⟨h1.widths, hq, ?_, ?_, ?_, ?_, ?_, ?_, ?_, ?_⟩, by simp, ?_⟩
    · intro j i' hj
      have := h1.ids j i' hj
      simp only [List.getElem?_modify]
      by_cases hii : i = i'
      · subst hii
        cases hr : b1.req[i]? with
        | none => rw [hr] at this; simp at this
        | some r => rw [hr] at this; simpa using this
      · simpa [hii] using this
    · have := h1.le; simp only; omega
    · intro p hp'
      have hle := h1.le
      rcases (hmem p).mp hp' with rfl | hp'
      · simp only; omega
      · have := h1.range p hp'; simp only; omega
    · simp only
      rw [(hw.map (·.2)).nodup_iff, List.map_cons, List.nodup_cons]
      refine ⟨?_, h1.nodup⟩
      intro hin
      obtain ⟨p, hp', he'⟩ := List.mem_map.mp hin
      have := (h1.range p hp').2
      simp only at he'
      omega
    · simp only
      rw [(hw.map (·.1)).nodup_iff, List.map_cons, List.nodup_cons]
      refine ⟨?_, h1.keys⟩
      intro hin
      obtain ⟨p, hp', he'⟩ := List.mem_map.mp hin
      obtain ⟨k, t⟩ := p
      simp only at he'
      subst he'
      exact hnew t hp'
    · intro p hp'
      rcases (hmem p).mp hp' with rfl | hp'
      · exact hstart
      · exact h1.fresh p hp'
    · intro k t
      rw [hmem]
      simp only
      by_cases hk : k = (id, s)
      · subst hk
        rw [if_pos rfl, hstart]
        constructor
        · intro h'; cases h'; simp
        · rintro (h' | h' | h')
          · simp at h'
          · cases h'; rfl
          · exact absurd h' (hnew t)
      · rw [if_neg hk, h1.m]
        simp [hk]
    · simp only
      rw [hw.length_eq, List.length_cons, h1.used]; omega
    · intro k u hu
      simp only
      by_cases hk : k = (id, s)
      · subst hk; rw [hm] at hu; simp at hu
      · rw [if_neg hk, hc]; exact hu

theorem Open.requests {f : WidthKey → W} {c : WidthCache W} : ∀ (ks : List WidthKey) {b : WidthBatch W}, Open f b c →
    ∃ ts b', b.requests ks = some (ts, b') ∧ Open f b' c ∧ ts.map some = ks.map b'.cache.m ∧
      ∀ k u, b.cache.m k = some u → b'.cache.m k = some u
  | [], b, h => ⟨[], b, rfl, h, rfl, fun _ _ hu => hu⟩
  | (id, s) :: ks, b, h => by
    obtain ⟨t, b1, e1, h1, ht, hk1⟩ := h.request id s
    obtain ⟨ts, b2, e2, h2, hts, hk2⟩ := Open.requests ks h1
    refine ⟨t :: ts, b2, by simp [WidthBatch.requests, e1, e2], h2, ?_, fun k u hu => hk2 k u (hk1 k u hu)⟩
    simp [hts, hk2 _ _ ht]

theorem Open.resolve {f : WidthKey → W} {b : WidthBatch W} {c : WidthCache W} (h : Open f b c) (hc : Settled f c) (zero : W) :
    ∃ c', b.resolvePending zero (fun req => some (answer f req)) = some (c', true) ∧ Settled f c' ∧ c'.m = b.cache.m ∧
      (∀ (t : Nat) (w : W), c.widths[t]? = some w → c'.widths[t]? = some w) := by
  unfold resolvePending
  by_cases hp : b.pendingTok > b.cache.widths.length
  · rw [if_pos hp]
    simp only [answer_zip]
    have hlen : (b.cache.widths ++ List.replicate (b.pendingTok - b.cache.widths.length) zero).length = b.pendingTok := by
      simp; omega
    obtain ⟨r, e, h1, h2, h3⟩ := assign_spec ((waiting b.req b.reqToks).map fun p => (f p.1, p.2))
      (b.cache.widths ++ List.replicate (b.pendingTok - b.cache.widths.length) zero) (by
        intro p hp'
        obtain ⟨q, hq, rfl⟩ := List.mem_map.mp hp'
        rw [hlen]
        exact (h.range q hq).2) (by simpa [List.map_map, Function.comp_def] using h.nodup)
    rw [e]
    have hold : ∀ (t : Nat) (w : W), c.widths[t]? = some w → r[t]? = some w := by
      intro t w ht
      have hlt : t < c.widths.length := by
        rcases Nat.lt_or_ge t c.widths.length with hl | hl
        · exact hl
        · rw [List.getElem?_eq_none hl] at ht; simp at ht
      rw [h3 t ?_, List.getElem?_append_left (by rw [h.widths]; exact hlt), h.widths]
      · exact ht
      · intro p hp' he
        obtain ⟨q, hq, rfl⟩ := List.mem_map.mp hp'
        have := (h.range q hq).1
        simp only at he
        omega
    refine ⟨_, rfl, ⟨?_⟩, rfl, hold⟩
    intro k t hk
    rcases (h.m k t).mp hk with hk | hk
    · exact hold t _ (hc.right k t hk)
    · exact h2 (f k, t) (List.mem_map.mpr ⟨(k, t), hk, rfl⟩)
  · rw [if_neg hp]
    have hw := h.widths
    refine ⟨_, rfl, ⟨?_⟩, rfl, by rw [hw]; simp⟩
    intro k t hk
    rw [hw]
    rcases (h.m k t).mp hk with hk | hk
    · exact hc.right k t hk
    · have := h.range _ hk
      rw [hw] at hp
      simp only at this
      omega

end WidthBatch

open WidthBatch

variable {W : Type}

/-- A batch as the line breaker makes it, linewrap.rs:510-522: open, request, resolve.
The result has the tokens, the cache and the request that was sent, if any. -/
def WidthCache.batch (zero : W) (measure : List (Nat × List String) → Option (List (List W))) (c : WidthCache W)
    (ks : List WidthKey) : Option (List Nat × WidthCache W × List WidthKey) := do
  let (ts, b) ← c.batchReq.requests ks
  let (c', ok) ← b.resolvePending zero measure
  if ok then some (ts, c', if b.pendingTok > c.widths.length then asked b.req else []) else none

/-- Many batches: all tokens handed out, the cache, and all the strings the front-end was
asked to measure. -/
def WidthCache.batches (zero : W) (measure : List (Nat × List String) → Option (List (List W))) (c : WidthCache W) :
    List (List WidthKey) → Option (List (List Nat) × WidthCache W × List WidthKey)
  | [] => some ([], c, [])
  | ks :: r => do
    let (ts, c', sent) ← c.batch zero measure ks
    let (tss, c'', sent') ← c'.batches zero measure r
    some (ts :: tss, c'', sent ++ sent')

theorem batch_spec (f : WidthKey → W) (zero : W) {c : WidthCache W} (hc : Settled f c) (ks : List WidthKey) :
    ∃ ts c' sent, c.batch zero (fun req => some (answer f req)) ks = some (ts, c', sent) ∧ Settled f c' ∧
      ts.map c'.resolve = ks.map (fun k => some (f k)) ∧
      (∀ t w, c.resolve t = some w → c'.resolve t = some w) ∧
      sent.Nodup ∧ (∀ k ∈ sent, c.m k = none ∧ (c'.m k).isSome) ∧ (∀ k, (c.m k).isSome → (c'.m k).isSome) := by
  obtain ⟨ts, b, e, h, hts, hk⟩ := (Open.start f c).requests ks
  obtain ⟨c', e', hs, hm, hold⟩ := h.resolve hc zero
  refine ⟨ts, c', if b.pendingTok > c.widths.length then asked b.req else [],
    by simp only [WidthCache.batch, e, e', Option.bind_eq_bind, Option.bind_some, if_true], hs, ?_, hold, ?_, ?_, ?_⟩
  · have h1 : ∀ (ts : List Nat) (ks : List WidthKey), ts.map some = ks.map b.cache.m →
        ts.map c'.resolve = ks.map (fun k => some (f k)) := by
      intro ts
      induction ts with
      | nil => intro ks h; cases ks <;> simp_all
      | cons t ts ih =>
        intro ks h
        cases ks with
        | nil => simp at h
        | cons k ks =>
          simp only [List.map_cons, List.cons.injEq] at h ⊢
          refine ⟨?_, ih ks h.2⟩
          have := hs.right k t (by rw [hm]; exact h.1.symm)
          simpa [WidthCache.resolve] using this
    exact h1 ts ks hts
  · split
    · rw [← h.paired.asked]; exact h.keys
    · simp
  · intro k hk'
    split at hk'
    · rw [← h.paired.asked] at hk'
      obtain ⟨⟨k', t⟩, hp, rfl⟩ := List.mem_map.mp hk'
      refine ⟨h.fresh _ hp, ?_⟩
      rw [hm, (h.m k' t).mpr (.inr hp)]; rfl
    · simp at hk'
  · intro k hk'
    obtain ⟨t, ht⟩ := Option.isSome_iff_exists.mp hk'
    rw [hm, (h.m k t).mpr (.inl ht)]; rfl

theorem batches_spec (f : WidthKey → W) (zero : W) : ∀ (kss : List (List WidthKey)) {c : WidthCache W}, Settled f c →
    ∃ tss c' sent, c.batches zero (fun req => some (answer f req)) kss = some (tss, c', sent) ∧ Settled f c' ∧
      tss.map (·.map c'.resolve) = kss.map (·.map fun k => some (f k)) ∧
      (∀ t w, c.resolve t = some w → c'.resolve t = some w) ∧
      sent.Nodup ∧ (∀ k ∈ sent, c.m k = none)
  | [], c, hc => ⟨[], c, [], rfl, hc, rfl, fun _ _ h => h, by simp, by simp⟩
  | ks :: kss, c, hc => by
    obtain ⟨ts, c1, sent, e1, h1, hr1, ho1, hn1, hs1, hkeep⟩ := batch_spec f zero hc ks
    obtain ⟨tss, c2, sent2, e2, h2, hr2, ho2, hn2, hs2⟩ := batches_spec f zero kss h1
    refine ⟨ts :: tss, c2, sent ++ sent2, by simp [WidthCache.batches, e1, e2], h2, ?_, fun t w h => ho2 t w (ho1 t w h), ?_, ?_⟩
    · simp only [List.map_cons, hr2, List.cons.injEq, and_true]
      rw [← hr1]
      apply List.map_congr_left
      intro t ht
      have : c1.resolve t ∈ ts.map c1.resolve := List.mem_map_of_mem ht
      rw [hr1] at this
      obtain ⟨k, _, hk⟩ := List.mem_map.mp this
      rw [← hk]
      exact ho2 t _ hk.symm
    · rw [List.nodup_append]
      refine ⟨hn1, hn2, ?_⟩
      intro k hk k' hk' he
      subst he
      have ha := (hs1 k hk).2
      rw [hs2 k hk'] at ha
      simp at ha
    · intro k hk
      rcases List.mem_append.mp hk with hk | hk
      · exact (hs1 k hk).1
      · have := hs2 k hk
        cases hck : c.m k with
        | none => rfl
        | some t =>
          have := hkeep k (by simp [hck])
          rw [hs2 k hk] at this
          simp at this

/-- **C40, in part.** If the front-end answers every request with one width for every
string, then whatever is requested in whatever batches, every token resolves, then and
ever after, to the width measured for its style and string.  Missing: front-ends that
answer with an error or with too few widths, see `C40_error_refuted` and
`C40_short_refuted`. -/
theorem C40_widths_partial (f : WidthKey → W) (zero : W) (kss : List (List WidthKey)) :
    ∃ tss c sent, WidthCache.new.batches zero (fun req => some (answer f req)) kss = some (tss, c, sent) ∧
      tss.map (·.map c.resolve) = kss.map (·.map fun k => some (f k)) := by
  obtain ⟨tss, c, sent, e, _, h, _⟩ := batches_spec f zero kss (c := WidthCache.new) ⟨by simp [WidthCache.new]⟩
  exact ⟨tss, c, sent, e, h⟩

/-- **C40, in part.** The front-end is never asked twice for the same string in the same
style. -/
theorem C40_once_partial (f : WidthKey → W) (zero : W) (kss : List (List WidthKey)) :
    ∃ tss c sent, WidthCache.new.batches zero (fun req => some (answer f req)) kss = some (tss, c, sent) ∧ sent.Nodup := by
  obtain ⟨tss, c, sent, e, _, _, _, h, _⟩ := batches_spec f zero kss (c := WidthCache.new) ⟨by simp [WidthCache.new]⟩
  exact ⟨tss, c, sent, e, h⟩

/-- A request of one string, then the answer. -/
def WidthCache.one (c : WidthCache Nat) (measure : List (Nat × List String) → Option (List (List Nat))) (k : WidthKey) :
    Option (Nat × WidthCache Nat × Bool) := do
  let (t, b) ← c.batchReq.request k.1 k.2
  let (c', ok) ← b.resolvePending 0 measure
  some (t, c', ok)

/-- **C40, refuted.** If a measurement fails, `resolve_pending` reports the error but the
strings are in the cache with width 0, and a later request for the same string gets that
width although the front-end would now answer; it is not even asked. -/
theorem C40_error_refuted :
    ((WidthCache.new.one (fun _ => none) (0, "abc")).bind fun (_, c, ok) =>
      (c.one (fun req => some (answer (fun k => k.2.length) req)) (0, "abc")).map fun (t, c', ok') =>
        (ok, ok', c'.resolve t)) = some (false, true, some 0) := by decide

/-- **C40, refuted.** An answer with too few widths is taken without complaint, and the
strings without an answer have width 0 for ever. -/
theorem C40_short_refuted :
    ((WidthCache.new.one (fun _ => some [[]]) (0, "abc")).map fun (t, c, ok) => (ok, c.resolve t)) = some (true, some 0) := by decide

/-- **C40, refuted.** A batch that is given up without being resolved leaves its keys in
the cache, and the next batch hands out the same tokens again: the string of the first
batch then has the width of the string of the second. -/
theorem C40_dropped_refuted :
    ((WidthCache.new.batchReq.request 0 "abc").bind fun (_, b) =>
      (b.cache.one (fun req => some (answer (fun k => k.2.length) req)) (0, "x")).bind fun (_, c, _) =>
        (c.one (fun req => some (answer (fun k => k.2.length) req)) (0, "abc")).map fun (t, c', _) => c'.resolve t) =
      some (some 1) := by decide

/-- Two batches with two styles, with repetitions. -/
example : ((WidthCache.new.batches 0 (fun req => some (answer (fun k => 10 * k.1 + k.2.length) req))
    [[(1, "ab"), (2, "ab"), (1, "xyz"), (1, "ab")], [(2, "q"), (1, "xyz"), (2, "ab")]]).map fun (tss, c, sent) =>
      (tss, tss.map (·.map c.resolve), sent)) =
    some ([[0, 1, 2, 0], [3, 2, 1]], [[some 12, some 22, some 13, some 12], [some 21, some 13, some 22]],
      [(1, "ab"), (1, "xyz"), (2, "ab"), (2, "q")]) := by decide

end Xi
