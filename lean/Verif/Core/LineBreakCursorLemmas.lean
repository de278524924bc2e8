import Verif.Core.LineBreakCursor
import Verif.Unicode.LineBreakIterLemmas
import Verif.Rope.CharCursor
import Verif.Rope.CompareLemmas

/-!
# Lemmas on `LineBreakCursor`
-/

namespace Xi

open Find Unicode Uax14

namespace Unicode

/-- The breaks inside of a text, without that at the end. -/
def innerBreaks (act : List Nat → Nat → Action) : List Nat → Nat → List Char → List (Nat × Bool)
  | _, _, [] => []
  | h, pos, c :: cs =>
    match act h (cls c) with
    | .hard => (pos, true) :: innerBreaks act (cls c :: h) (pos + clen c) cs
    | .soft => (pos, false) :: innerBreaks act (cls c :: h) (pos + clen c) cs
    | .no => innerBreaks act (cls c :: h) (pos + clen c) cs

/-- With the break at the end. -/
theorem breaksBy_inner (act : List Nat → Nat → Action) : ∀ (cs : List Char) (h : List Nat) (pos : Nat), ∃ b,
    breaksBy act h pos cs = innerBreaks act h pos cs ++ [(pos + (enc cs).length, b)] := by
  intro cs
  induction cs with
  | nil => intro h pos; exact ⟨_, by simp [breaksBy, innerBreaks, enc]; rfl⟩
  | cons c cs ih =>
    intro h pos
    obtain ⟨b, hb⟩ := ih (cls c :: h) (pos + clen c)
    have e1 : pos + clen c + (enc cs).length = pos + (enc (c :: cs)).length := by
      rw [enc_cons, List.length_append]; unfold clen; omega
    rw [e1] at hb
    refine ⟨b, ?_⟩
    rw [breaksBy, innerBreaks, hb]
    cases act h (cls c) <;> rfl

/-- Breaks are after the position from which they are sought. -/
theorem innerBreaks_bound {act : List Nat → Nat → Action} : ∀ (cs : List Char) (h : List Nat) (pos : Nat), ∀ b ∈ innerBreaks act h pos cs,
    pos ≤ b.1 ∧ b.1 < pos + (enc cs).length := by
  intro cs
  induction cs with
  | nil => intro h pos b hb; simp [innerBreaks] at hb
  | cons c cs ih =>
    intro h pos b hb
    have e1 : pos + clen c + (enc cs).length = pos + (enc (c :: cs)).length := by
      rw [enc_cons, List.length_append]; unfold clen; omega
    have hc := clen_pos c
    have key : ∀ b ∈ innerBreaks act (cls c :: h) (pos + clen c) cs, pos ≤ b.1 ∧ b.1 < pos + (enc (c :: cs)).length := fun b hb => by
      have := ih _ _ b hb; omega
    rw [innerBreaks] at hb
    split at hb
    · rcases List.mem_cons.1 hb with rfl | hb
      · exact ⟨Nat.le_refl _, by simp only; omega⟩
      · exact key b hb
    · rcases List.mem_cons.1 hb with rfl | hb
      · exact ⟨Nat.le_refl _, by simp only; omega⟩
      · exact key b hb
    · exact key b hb

/-- Breaks are in order. -/
theorem innerBreaks_sorted {act : List Nat → Nat → Action} : ∀ (cs : List Char) (h : List Nat) (pos : Nat),
    (innerBreaks act h pos cs).Pairwise (fun a b => a.1 < b.1) := by
  intro cs
  induction cs with
  | nil => intro h pos; exact .nil
  | cons c cs ih =>
    intro h pos
    have hlt : ∀ b ∈ innerBreaks act (cls c :: h) (pos + clen c) cs, pos < b.1 := fun b hb => by
      have := innerBreaks_bound cs _ _ b hb
      have := clen_pos c
      omega
    rw [innerBreaks]
    split
    · exact List.pairwise_cons.2 ⟨hlt, ih _ _⟩
    · exact List.pairwise_cons.2 ⟨hlt, ih _ _⟩
    · exact ih _ _

/-- Breaks are on character boundaries. -/
theorem innerBreaks_boundary {act : List Nat → Nat → Action} : ∀ (cs A : List Char) (h : List Nat), ∀ b ∈ innerBreaks act h (enc A).length cs,
    ∃ X Y, A ++ cs = X ++ Y ∧ b.1 = (enc X).length := by
  intro cs
  induction cs with
  | nil => intro A h b hb; simp [innerBreaks] at hb
  | cons c cs ih =>
    intro A h b hb
    have key : ∀ b ∈ innerBreaks act (cls c :: h) ((enc A).length + clen c) cs, ∃ X Y, A ++ c :: cs = X ++ Y ∧ b.1 = (enc X).length := by
      intro b hb
      have e : (enc A).length + clen c = (enc (A ++ [c])).length := by rw [enc_append, List.length_append]; simp [enc, clen]
      rw [e] at hb
      obtain ⟨X, Y, h1, h2⟩ := ih _ _ b hb
      exact ⟨X, Y, by rw [← h1]; simp, h2⟩
    rw [innerBreaks] at hb
    split at hb
    · rcases List.mem_cons.1 hb with rfl | hb
      · exact ⟨A, c :: cs, rfl, rfl⟩
      · exact key b hb
    · rcases List.mem_cons.1 hb with rfl | hb
      · exact ⟨A, c :: cs, rfl, rfl⟩
      · exact key b hb
    · exact key b hb

/-- The state of the iterator in the leaf: history `h`, characters `cs` to come. -/
def LeafPending (l : List UInt8) (it : LineBreakLeafIter) (h : List Nat) (cs : List Char) : Prop :=
  it.state = stateAfter h ∧ History h ∧ ∃ A, l = enc A ++ enc cs ∧ it.ix = (enc A).length

/-- One call of the iterator in a leaf that starts at `base`, with the characters `more` after
the leaf. -/
theorem leaf_next {l : List UInt8} {base : Nat} {more : List Char} : ∀ (cs : List Char) (fuel : Nat) {it : LineBreakLeafIter} {h : List Nat},
    LeafPending l it h cs → cs.length < fuel →
    ∃ it' p b, it.next l fuel = some (it', p, b) ∧
      ((p < l.length ∧ ∃ h' cs', LeafPending l it' h' cs' ∧ cs'.length < cs.length ∧
          innerBreaks machineAct h (base + it.ix) (cs ++ more) = (base + p, b) :: innerBreaks machineAct h' (base + it'.ix) (cs' ++ more)) ∨
       (p = l.length ∧ ∃ h', it' = ⟨0, stateAfter h'⟩ ∧ History h' ∧
          innerBreaks machineAct h (base + it.ix) (cs ++ more) = innerBreaks machineAct h' (base + l.length) more)) := by
  intro cs
  induction cs with
  | nil =>
    intro fuel it h hp hf
    obtain ⟨fuel, rfl⟩ : ∃ n, fuel = n + 1 := ⟨fuel - 1, by simp at hf; omega⟩
    obtain ⟨h2, h3, A, h4, h5⟩ := hp
    have hl : it.ix = l.length := by rw [h4, h5]; simp [enc]
    unfold LineBreakLeafIter.next
    rw [if_pos hl]
    exact ⟨_, _, _, rfl, Or.inr ⟨rfl, h, by rw [h2], h3, by rw [hl]; rfl⟩⟩
  | cons c cs ih =>
    intro fuel it h hp hf
    obtain ⟨fuel, rfl⟩ : ∃ n, fuel = n + 1 := ⟨fuel - 1, by simp at hf; omega⟩
    obtain ⟨h2, h3, A, h4, h5⟩ := hp
    have hl : it.ix < l.length := by
      have := enc_pos (a := c :: cs) (by simp)
      rw [h4, h5, List.length_append]; omega
    unfold LineBreakLeafIter.next
    rw [if_neg (by omega), h2, h5, lbPropertyStr_at h4]
    simp only [Option.bind_eq_bind, Option.bind_some]
    obtain ⟨v, hv, ha, hst⟩ := h3.machine (cls_lt c)
    rw [hv]
    simp only [Option.bind_some]
    have hnew : ∀ st, st = stateOf v → LeafPending l ⟨(enc A).length + clen c, st⟩ (cls c :: h) cs := by
      intro st hs
      refine ⟨by rw [hst]; exact hs, h3.cons c, A ++ [c], by rw [h4, enc_append, enc_cons]; simp [enc], ?_⟩
      rw [enc_append, List.length_append]; simp [enc, clen]
    by_cases hb : 0x80 ≤ v
    · rw [if_pos hb]
      refine ⟨_, _, _, rfl, Or.inl ⟨by omega, cls c :: h, cs, hnew _ (by unfold stateOf; rw [if_pos hb]), by simp, ?_⟩⟩
      rw [List.cons_append, innerBreaks, ha]
      unfold actionOf
      by_cases hh : 0xc0 ≤ v
      · simp only [hh, if_true, decide_true, Nat.add_assoc]
      · simp only [hh, hb, if_true, if_false, decide_false, Nat.add_assoc]
    · rw [if_neg hb]
      have hp' := hnew v (by unfold stateOf; rw [if_neg hb])
      obtain ⟨it', p, b, e, hr⟩ := ih fuel hp' (by simp at hf; omega)
      have hbk : innerBreaks machineAct h (base + (enc A).length) ((c :: cs) ++ more) = innerBreaks machineAct (cls c :: h) (base + ((enc A).length + clen c)) (cs ++ more) := by
        rw [List.cons_append, innerBreaks, ha]
        unfold actionOf
        have : ¬ 0xc0 ≤ v := by omega
        simp only [this, hb, if_false, Nat.add_assoc]
      refine ⟨it', p, b, e, ?_⟩
      rw [hbk]
      rcases hr with ⟨h6, h', cs', e1, e2, e3⟩ | hr
      · exact Or.inl ⟨h6, h', cs', e1, by simp; omega, e3⟩
      · exact Or.inr hr

end Unicode

namespace LineBreakCursor

/-- Whether the text ends in a newline. -/
def endsLine (t : List UInt8) : Bool := t.getLast? == some newline

/-- What the cursor will still find in the text of `r`: the breaks `bs`, and then the end. -/
inductive Will (r : Rope) (c : LineBreakCursor) : List (Nat × Bool) → Prop
  | inside {pre post : List (List UInt8)} {l : List UInt8} {h : List Nat} {cs more : List Char}
      (root : c.inner.root = r) (at_ : c.inner.At pre l post) (pos : lenOf pre ≤ c.inner.position)
      (pend : LeafPending l c.lbIter h cs) (rest : post.flatMap (fun s => s) = enc more) (empty : l = [] → c.lastByte = 0) :
      Will r c (innerBreaks machineAct h (lenOf pre + c.lbIter.ix) (cs ++ more))
  | done (root : c.inner.root = r) (leaf : c.inner.leaf = none) (pos : c.inner.position = r.len)
      (last : (c.lastByte == newline) = endsLine r.text) : Will r c []

/-- The end of a text that ends with a leaf. -/
theorem getLast_append (a : List UInt8) {b : List UInt8} (h : b ≠ []) : (a ++ b).getLast? = b.getLast? := by
  rw [List.getLast?_append]
  cases e : b.getLast? with
  | none => exact absurd (List.getLast?_eq_none_iff.1 e) h
  | some x => rfl

/-- At the end of the text. -/
theorem last_flag {c : Cursor (List UInt8) RopeInfo} {pre : List (List UInt8)} {l : List UInt8} {b : UInt8} (hat : c.At pre l []) (hb : l = [] → b = 0) :
    (l.getLast?.getD b == newline) = endsLine c.root.text := by
  have ht : c.root.text = pre.flatMap (fun s => s) ++ (l ++ []) := hat.text
  by_cases hl : l = []
  · have hp : pre = [] := by
      cases pre with
      | nil => rfl
      | cons x y =>
        have := hat.pos (.inl (by simp)) l (by simp)
        rw [hl] at this
        exact absurd this (by decide)
    subst hl
    rw [endsLine, ht, hp, hb rfl]; rfl
  · rw [endsLine, ht, List.append_nil, getLast_append _ hl]
    cases e : l.getLast? with
    | none => exact absurd (List.getLast?_eq_none_iff.1 e) hl
    | some x => rfl

/-- The characters before, in and after the leaf. -/
theorem at_chars {c : Cursor (List UInt8) RopeInfo} {pre post : List (List UInt8)} {l : List UInt8} (h : c.At pre l post) :
    ∃ P M Q, pre.flatMap (fun s => s) = enc P ∧ l = enc M ∧ post.flatMap (fun s => s) = enc Q := by
  have hok : ∀ x ∈ pre ++ l :: post, LeafSpec.ok (L := List UInt8) x := by
    obtain ⟨n, hw⟩ := h.balanced
    rw [← h.leaves]
    exact leaf_ok hw
  obtain ⟨P, hP⟩ := leaves_utf8 (ls := pre) (fun x hx => hok x (by simp [hx]))
  obtain ⟨M, hM⟩ := (hok l (by simp)).1
  obtain ⟨Q, hQ⟩ := leaves_utf8 (ls := post) (fun x hx => hok x (by simp [hx]))
  exact ⟨P, M, Q, hP, hM, hQ⟩

/-- The loop of `next`. -/
theorem nextLoop_spec {r : Rope} : ∀ (n fuel : Nat) {c : LineBreakCursor} {bs : List (Nat × Bool)} {pre post : List (List UInt8)} {l : List UInt8}
    {h : List Nat} {cs more : List Char}, post.length ≤ n → n + 2 ≤ fuel → c.inner.root = r → c.inner.At pre l post → lenOf pre ≤ c.inner.position →
    LeafPending l c.lbIter h cs → post.flatMap (fun s => s) = enc more → (l = [] → c.lastByte = 0) →
    bs = innerBreaks machineAct h (lenOf pre + c.lbIter.ix) (cs ++ more) →
    ∃ c' p b, nextLoop fuel c (some (l, c.inner.position - lenOf pre)) = some (c', p, b) ∧
      ((∃ bs', bs = (p, b) :: bs' ∧ Will r c' bs') ∨ (bs = [] ∧ p = r.len ∧ b = endsLine r.text ∧ Will r c' [])) := by
  intro n
  induction n with
  | zero =>
    intro fuel c bs pre post l h cs more hn hf hroot hat hpos hpend hrest hempty hbs
    obtain ⟨fuel, rfl⟩ : ∃ n, fuel = n + 2 := ⟨fuel - 2, by omega⟩
    have hpost : post = [] := by cases post with | nil => rfl | cons a b => simp at hn
    subst hpost
    have hcs : cs.length < l.length + 1 := by
      obtain ⟨_, _, A, e, _⟩ := hpend
      have := length_le_enc cs
      rw [e, List.length_append]; omega
    obtain ⟨it', p, b, e, hr'⟩ := leaf_next (base := lenOf pre) (more := more) cs (l.length + 1) hpend hcs
    unfold nextLoop
    rw [e]
    simp only [Option.bind_eq_bind, Option.bind_some]
    rcases hr' with ⟨hp, h', cs', e1, e2, e3⟩ | ⟨hp, h', e1, e2, e3⟩
    · rw [if_pos hp, checkedSub, if_pos (by omega)]
      have e0 : c.inner.position - (c.inner.position - lenOf pre) = lenOf pre := by omega
      simp only [Option.bind_some, e0]
      refine ⟨_, _, _, rfl, Or.inl ⟨_, hbs.trans e3, ?_⟩⟩
      exact .inside (c := ⟨c.inner, it', c.lastByte⟩) hroot hat hpos e1 hrest hempty
    · rw [if_neg (by omega)]
      obtain ⟨c', g1, g2, g3, g4, g5⟩ := Cursor.nextLeaf_none hat
      rw [g1]
      simp only [Option.bind_some]
      have hm : more = [] := by
        cases more with
        | nil => rfl
        | cons x y =>
          have := enc_pos (a := x :: y) (by simp)
          rw [← hrest] at this; simp at this
      subst hm
      have hb : bs = [] := by rw [hbs, e3]; rfl
      have hflag := last_flag hat hempty
      rw [hroot] at hflag g4 g5
      unfold nextLoop
      refine ⟨_, _, _, rfl, Or.inr ⟨hb, g5, hflag, ?_⟩⟩
      exact .done g4 g2 g5 hflag
  | succ n ih =>
    intro fuel c bs pre post l h cs more hn hf hroot hat hpos hpend hrest hempty hbs
    cases post with
    | nil => exact ih fuel (by simp) (by omega) hroot hat hpos hpend hrest hempty hbs
    | cons m post =>
    obtain ⟨fuel, rfl⟩ : ∃ n, fuel = n + 1 := ⟨fuel - 1, by omega⟩
    have hcs : cs.length < l.length + 1 := by
      obtain ⟨_, _, A, e, _⟩ := hpend
      have := length_le_enc cs
      rw [e, List.length_append]; omega
    obtain ⟨it', p, b, e, hr'⟩ := leaf_next (base := lenOf pre) (more := more) cs (l.length + 1) hpend hcs
    unfold nextLoop
    rw [e]
    simp only [Option.bind_eq_bind, Option.bind_some]
    rcases hr' with ⟨hp, h', cs', e1, e2, e3⟩ | ⟨hp, h', e1, e2, e3⟩
    · rw [if_pos hp, checkedSub, if_pos (by omega)]
      have e0 : c.inner.position - (c.inner.position - lenOf pre) = lenOf pre := by omega
      simp only [Option.bind_some, e0]
      refine ⟨_, _, _, rfl, Or.inl ⟨_, hbs.trans e3, ?_⟩⟩
      exact .inside (c := ⟨c.inner, it', c.lastByte⟩) hroot hat hpos e1 hrest hempty
    · rw [if_neg (by omega)]
      obtain ⟨c', g1, g2, g3, g4⟩ := Cursor.nextLeaf_some hat
      rw [g1]
      simp only [Option.bind_some]
      have hm0 := hat.pos (.inr (by simp)) m (by simp)
      have hm0 : 0 < m.length := hm0
      obtain ⟨ms, hms⟩ : Utf8 m := g2.ok.1
      have hms : m = enc ms := hms
      have hmore : ∃ more', more = ms ++ more' ∧ post.flatMap (fun s => s) = enc more' := by
        obtain ⟨_, _, more', _, _, hq⟩ := at_chars g2
        refine ⟨more', ?_, hq⟩
        rw [List.flatMap_cons, hms, hq, ← enc_append] at hrest
        exact (enc_inj hrest).symm
      obtain ⟨more', hm1, hm2⟩ := hmore
      have hlen : lenOf (pre ++ [l]) = lenOf pre + l.length := by rw [lenOf_append]; simp [lenOf]; rfl
      have := ih fuel (c := ⟨c', it', l.getLast?.getD c.lastByte⟩) (bs := bs) (pre := pre ++ [l]) (post := post) (l := m) (h := h') (cs := ms) (more := more')
        (by simp at hn; omega) (by omega) (g3.trans hroot) g2 (by rw [g4]; exact Nat.le_refl _)
        ⟨by rw [e1], e2, [], by rw [hms]; simp [enc], by rw [e1]; rfl⟩ hm2 (fun e => by rw [e] at hm0; simp at hm0)
        (by rw [hbs, e3, hm1, e1, hlen]; rfl)
      rw [show c'.position - lenOf (pre ++ [l]) = 0 by omega] at this
      exact this

/-- One call of `next`. -/
theorem next_spec {r : Rope} {c : LineBreakCursor} {bs : List (Nat × Bool)} (h : Will r c bs) :
    ∃ c' p b, c.next = some (c', p, b) ∧
      ((∃ bs', bs = (p, b) :: bs' ∧ Will r c' bs') ∨ (bs = [] ∧ p = r.len ∧ b = endsLine r.text ∧ Will r c' [])) := by
  cases h with
  | @inside pre post l h cs more root at_ pos pend rest empty =>
    unfold next Cursor.getLeaf
    rw [at_.leaf, at_.off]
    simp only [if_pos pos, Option.bind_eq_bind, Option.bind_some]
    refine nextLoop_spec post.length _ (Nat.le_refl _) ?_ root at_ pos pend rest empty rfl
    have hl := at_.rootLen
    have : post.length ≤ lenOf post := by
      cases post with
      | nil => simp
      | cons x y =>
        have hp := at_.pos (.inr (by simp))
        have : ∀ (z : List (List UInt8)), (∀ x ∈ z, 0 < x.length) → z.length ≤ lenOf z := by
          intro z
          induction z with
          | nil => intro _; simp
          | cons a z ih =>
            intro hz
            rw [lenOf_cons]
            have h1 := hz a (by simp)
            have h2 := ih (fun x hx => hz x (by simp [hx]))
            show z.length + 1 ≤ a.length + lenOf z
            omega
        exact this _ (fun x hx => hp x (List.mem_append_right _ (List.mem_cons_of_mem _ hx)))
    omega
  | done root leaf pos last =>
    unfold next Cursor.getLeaf
    rw [leaf]
    simp only [Option.bind_eq_bind, Option.bind_some]
    unfold nextLoop
    exact ⟨_, _, _, rfl, Or.inr ⟨trivial, pos, last, .done root leaf pos last⟩⟩

/-- `new` before a character. -/
theorem new_spec {r : Rope} (hr : r.Balanced) {A B : List Char} {x : Char} (ht : r.text = enc (A ++ x :: B)) :
    ∃ c, new r (enc A).length = some c ∧ Will r c (innerBreaks machineAct [cls x] ((enc A).length + clen x) B) := by
  have hlen : (enc A).length ≤ r.text.length := by rw [ht, enc_append, List.length_append]; omega
  obtain ⟨c, pre, l, post, h1, h2, h3, h4⟩ := Cursor.new_spec hr hlen
  have hat := h2.toAt
  have htext : r.text = pre.flatMap (fun s => s) ++ (l ++ post.flatMap (fun s => s)) := by rw [← h3]; exact hat.text
  have hpos := h2.lo
  have hlt : c.position < lenOf pre + l.length := by
    rcases h2.hi with h | ⟨h, h'⟩
    · exact h
    · have e := congrArg List.length htext
      rw [ht, enc_append, List.length_append, List.length_append, List.length_append, h] at e
      have := enc_pos (a := x :: B) (by simp)
      have e2 : (pre.flatMap (fun s => s)).length = lenOf pre := rfl
      have h' : c.position = lenOf pre + l.length := h'
      rw [e2] at e
      simp only [List.flatMap_nil, List.length_nil] at e
      omega
  obtain ⟨P, M, Q, hP, hM, hQ⟩ := at_chars hat
  have hPl : lenOf pre = (enc P).length := congrArg List.length hP
  rw [ht, hP, hM, hQ, ← enc_append, ← enc_append] at htext
  have htext := enc_inj htext
  -- the position is in the leaf, before `x`
  obtain ⟨K, hK1, hK2⟩ : ∃ K, A = P ++ K ∧ K ++ x :: B = M ++ Q := by
    obtain ⟨K, e1, e2⟩ := cut_prefix (a := P) (b := M ++ Q) (a' := A) (b' := x :: B) (by rw [← enc_append, ← enc_append, htext]) (by omega)
    exact ⟨K, e1, e2.symm⟩
  obtain ⟨R, hR1, hR2⟩ : ∃ R, M = K ++ x :: R ∧ B = R ++ Q := by
    have hk : (enc K).length < (enc M).length := by
      rw [hK1, enc_append, List.length_append] at h4
      rw [hM] at hlt
      omega
    obtain ⟨R, e1, e2⟩ := cut_prefix (a := K) (b := x :: B) (a' := M) (b' := Q) (by rw [← enc_append, ← enc_append, hK2]) (by omega)
    cases R with
    | nil => rw [e1, List.append_nil] at hk; omega
    | cons y R =>
      injection e2 with e2 e3
      subst e2
      exact ⟨R, e1, e3⟩
  have hoff : c.position - lenOf pre = (enc K).length := by
    rw [h4, hK1, enc_append, List.length_append]; omega
  have hpend : LeafPending l ⟨(enc K).length + clen x, cls x⟩ [cls x] R :=
    ⟨rfl, .one x, K ++ [x], by rw [hM, hR1, enc_append, enc_append, enc_cons]; simp [enc], by rw [enc_append, List.length_append]; simp [enc, clen]⟩
  refine ⟨⟨c, ⟨(enc K).length + clen x, cls x⟩, 0⟩, ?_, ?_⟩
  · unfold new
    rw [h1]
    simp only [Option.bind_eq_bind, Option.bind_some, Cursor.getLeaf, hat.leaf, hat.off, if_pos hpos, hoff]
    unfold LineBreakLeafIter.new
    have hne : ¬ (enc K).length = l.length := by
      rw [hM, hR1, enc_append, List.length_append]
      have := enc_pos (a := x :: R) (by simp)
      omega
    rw [if_neg hne, lbPropertyStr_at (A := K) (B := R) (c := x) (by rw [hM, hR1, enc_append])]
    rfl
  · have e : innerBreaks machineAct [cls x] ((enc A).length + clen x) B =
        innerBreaks machineAct [cls x] (lenOf pre + ((enc K).length + clen x)) (R ++ Q) := by
      rw [hR2, hPl, hK1, enc_append, List.length_append, Nat.add_assoc]
    rw [e]
    exact .inside (c := ⟨c, ⟨(enc K).length + clen x, cls x⟩, 0⟩) h3 hat hpos hpend hQ (fun _ => rfl)

/-- All breaks up to the end. -/
theorem collect_spec {r : Rope} : ∀ (bs : List (Nat × Bool)) (fuel : Nat) {c : LineBreakCursor}, Will r c bs → bs.length < fuel → (∀ b ∈ bs, b.1 < r.len) →
    c.collect r.len fuel = some (bs ++ [(r.len, endsLine r.text)]) := by
  intro bs
  induction bs with
  | nil =>
    intro fuel c h hf _
    obtain ⟨fuel, rfl⟩ : ∃ n, fuel = n + 1 := ⟨fuel - 1, by simp at hf; omega⟩
    obtain ⟨c', p, b, e, hr⟩ := next_spec h
    unfold collect
    rw [e]
    simp only [Option.bind_eq_bind, Option.bind_some]
    rcases hr with ⟨bs', e, _⟩ | ⟨_, hp, hb, _⟩
    · cases e
    · rw [if_neg (by omega), hp, hb]; rfl
  | cons x bs ih =>
    intro fuel c h hf hlt
    obtain ⟨fuel, rfl⟩ : ∃ n, fuel = n + 1 := ⟨fuel - 1, by simp at hf; omega⟩
    obtain ⟨c', p, b, e, hr⟩ := next_spec h
    unfold collect
    rw [e]
    simp only [Option.bind_eq_bind, Option.bind_some]
    rcases hr with ⟨bs', e, hw⟩ | ⟨e, _⟩
    · injection e with e1 e2
      subst e1 e2
      rw [if_pos (hlt (p, b) (by simp)), ih fuel hw (by simp at hf; omega) (fun b hb => hlt b (by simp [hb]))]
      rfl
    · cases e

end LineBreakCursor

end Xi

namespace Xi

open Find Unicode Uax14

namespace Unicode

/-- The classes of a text, the latest first. -/
def historyOf (A : List Char) : List Nat := (A.map cls).reverse

/-- What is added at a place by a decision there. -/
def oneBreak (a : Action) (pos : Nat) : List (Nat × Bool) :=
  match a with
  | .hard => [(pos, true)]
  | .soft => [(pos, false)]
  | .no => []

/-- The breaks of a text cut in two. -/
theorem innerBreaks_cut {act : List Nat → Nat → Action} {c : Char} {B : List Char} : ∀ (A : List Char) (h : List Nat) (pos : Nat),
    innerBreaks act h pos (A ++ c :: B) = innerBreaks act h pos A ++ (oneBreak (act (historyOf A ++ h) (cls c)) (pos + (enc A).length) ++
      innerBreaks act (cls c :: (historyOf A ++ h)) (pos + (enc A).length + clen c) B) := by
  intro A
  induction A with
  | nil =>
    intro h pos
    show innerBreaks act h pos (c :: B) = [] ++ (oneBreak (act ([] ++ h) (cls c)) (pos + 0) ++ innerBreaks act (cls c :: ([] ++ h)) (pos + 0 + clen c) B)
    rw [innerBreaks, List.nil_append, List.nil_append, Nat.add_zero]
    cases act h (cls c) <;> rfl
  | cons a A ih =>
    intro h pos
    have e1 : pos + (enc (a :: A)).length = pos + clen a + (enc A).length := by
      rw [enc_cons, List.length_append]; unfold clen; omega
    have e2 : historyOf (a :: A) ++ h = historyOf A ++ cls a :: h := by simp [historyOf]
    rw [List.cons_append, innerBreaks, ih, e1, e2, innerBreaks]
    cases act h (cls a) <;> rfl

/-- States of the machine that decide alike for ever. -/
def Twin (s t : Nat) : Prop := s = t ∨ (s = 2 ∧ t = 9) ∨ (s = 48 ∧ t = 55)

instance (s t : Nat) : Decidable (Twin s t) := by unfold Twin; infer_instance

/-- Twins step together. -/
theorem twin_table : ∀ x : Fin 43, (actionOf ((machine 2 x.val).getD 0) = actionOf ((machine 9 x.val).getD 0) ∧
      Twin (stateOf ((machine 2 x.val).getD 0)) (stateOf ((machine 9 x.val).getD 0))) ∧
    (actionOf ((machine 48 x.val).getD 0) = actionOf ((machine 55 x.val).getD 0) ∧
      Twin (stateOf ((machine 48 x.val).getD 0)) (stateOf ((machine 55 x.val).getD 0))) := by decide +kernel

theorem Twin.step {s t x : Nat} (h : Twin s t) (hx : x < 43) : actionOf ((machine s x).getD 0) = actionOf ((machine t x).getD 0) ∧
    Twin (stateOf ((machine s x).getD 0)) (stateOf ((machine t x).getD 0)) := by
  have := twin_table ⟨x, hx⟩
  rcases h with rfl | ⟨rfl, rfl⟩ | ⟨rfl, rfl⟩
  · exact ⟨rfl, .inl rfl⟩
  · exact this.1
  · exact this.2

/-- From twin states the same breaks are found. -/
theorem innerBreaks_twin : ∀ (cs : List Char) {h h' : List Nat} (pos : Nat), h ≠ [] → h' ≠ [] → Twin (stateAfter h) (stateAfter h') →
    innerBreaks machineAct h pos cs = innerBreaks machineAct h' pos cs := by
  intro cs
  induction cs with
  | nil => intro h h' pos _ _ _; rfl
  | cons c cs ih =>
    intro h h' pos hh hh' ht
    have hs := ht.step (cls_lt c)
    have e : machineAct h (cls c) = machineAct h' (cls c) := hs.1
    have e2 := ih (h := cls c :: h) (h' := cls c :: h') (pos + clen c) (by simp) (by simp)
      (by rw [stateAfter_cons hh, stateAfter_cons hh']; exact hs.2)
    rw [innerBreaks, innerBreaks, e, e2]

/-- After a break the machine is in the state of the next class, but for marks and joiners. -/
theorem machine_break : rowsAll 43 (fun i v => Nat.blt v 0x80 || Nat.beq (stateOf v) (i % 43) ||
    ((Nat.beq (i % 43) CM || Nat.beq (i % 43) ZWJ) && Nat.beq (stateOf v) AL)) lbStateMachine 0 = true := by decide +kernel

/-- After a break the machine goes on as if it started there. -/
theorem resume_twin {h : List Nat} (hh : History h) {x : Nat} (hx : x < 43) (hb : machineAct h x ≠ .no) (hz : x ≠ ZWJ) :
    Twin (stateAfter (x :: h)) (stateAfter [x]) := by
  obtain ⟨v, hv, ha, hs⟩ := hh.machine hx
  rw [hs]
  show Twin (stateOf v) x
  have := tableGet_of_all (by decide) machine_break hv
  have e1 : (stateAfter h * nCategories + x) % 43 = x := by show (stateAfter h * 43 + x) % 43 = x; omega
  simp only [e1, Bool.or_eq_true, Bool.and_eq_true, Nat.blt_eq, Nat.beq_eq] at this
  rw [ha] at hb
  rcases this with (h1 | h1) | ⟨h1 | h1, h2⟩
  · exact absurd (by unfold actionOf; rw [if_neg (by omega), if_neg (by omega)]) hb
  · exact .inl h1
  · exact .inr (.inl ⟨h2, h1⟩)
  · exact absurd h1 hz

theorem historyOf_append (A : List Char) (x : Char) (B : List Char) : historyOf (A ++ x :: B) = historyOf B ++ cls x :: historyOf A := by simp [historyOf]

theorem history_append {h : List Nat} (hh : History h) (A : List Char) : History (historyOf A ++ h) := by
  refine ⟨by simp [hh.1], fun x hx => ?_⟩
  rcases List.mem_append.1 hx with hx | hx
  · simp only [historyOf, List.mem_reverse, List.mem_map] at hx
    obtain ⟨c, _, rfl⟩ := hx
    exact cls_lt c
  · exact hh.2 x hx

/-- The breaks after a break are those found from there. -/
theorem innerBreaks_resume {x c : Char} {A B : List Char} {pos : Nat} {b : Bool} (hz : cls c ≠ ZWJ)
    (hb : (pos + clen x + (enc A).length, b) ∈ innerBreaks machineAct [cls x] (pos + clen x) (A ++ c :: B)) :
    innerBreaks machineAct [cls x] (pos + clen x) (A ++ c :: B) = innerBreaks machineAct [cls x] (pos + clen x) A ++
      (pos + clen x + (enc A).length, b) :: innerBreaks machineAct [cls c] (pos + clen x + (enc A).length + clen c) B := by
  rw [innerBreaks_cut] at hb ⊢
  have h1 : ∀ q ∈ innerBreaks machineAct [cls x] (pos + clen x) A, q.1 < pos + clen x + (enc A).length := fun q hq => (innerBreaks_bound A _ _ q hq).2
  have h2 : ∀ q ∈ innerBreaks machineAct (cls c :: (historyOf A ++ [cls x])) (pos + clen x + (enc A).length + clen c) B, pos + clen x + (enc A).length < q.1 :=
    fun q hq => by
      have := (innerBreaks_bound B _ _ q hq).1
      have := clen_pos c
      omega
  have hmem : (pos + clen x + (enc A).length, b) ∈ oneBreak (machineAct (historyOf A ++ [cls x]) (cls c)) (pos + clen x + (enc A).length) := by
    rcases List.mem_append.1 hb with hb | hb
    · exact absurd (h1 _ hb) (by simp)
    · rcases List.mem_append.1 hb with hb | hb
      · exact hb
      · exact absurd (h2 _ hb) (by simp)
  have hne : machineAct (historyOf A ++ [cls x]) (cls c) ≠ .no := by
    intro e; rw [e] at hmem; simp [oneBreak] at hmem
  have e : oneBreak (machineAct (historyOf A ++ [cls x]) (cls c)) (pos + clen x + (enc A).length) = [(pos + clen x + (enc A).length, b)] := by
    revert hmem
    cases machineAct (historyOf A ++ [cls x]) (cls c) <;> simp [oneBreak]
  rw [e, innerBreaks_twin B _ (by simp) (by simp) (resume_twin (history_append (.one x) A) (cls_lt c) hne hz)]
  rfl

end Unicode

namespace LineBreakCursor

/-- `new` at the end of the text. -/
theorem new_end {r : Rope} (hr : r.Balanced) : ∃ c, new r r.text.length = some c ∧ Will r c [] := by
  obtain ⟨c, pre, l, post, h1, h2, h3, h4⟩ := Cursor.new_spec hr (Nat.le_refl _)
  have hat := h2.toAt
  have hpos := h2.lo
  have hlen : r.len = r.text.length := by obtain ⟨n, hw⟩ := hr; exact hw.len_eq
  have hrl : r.len = lenOf pre + (l.length + lenOf post) := by have := hat.rootLen; rw [h3] at this; exact this
  have hpost : post = [] ∧ c.position = lenOf pre + l.length := by
    rcases h2.hi with h | h
    · have h : c.position < lenOf pre + l.length := h
      omega
    · exact h
  obtain ⟨rfl, hp⟩ := hpost
  obtain ⟨P, M, Q, hP, hM, hQ⟩ := at_chars hat
  refine ⟨⟨c, ⟨l.length, 0⟩, 0⟩, ?_, ?_⟩
  · unfold new
    rw [h1]
    simp only [Option.bind_eq_bind, Option.bind_some, Cursor.getLeaf, hat.leaf, hat.off, if_pos hpos]
    unfold LineBreakLeafIter.new
    rw [if_pos (by omega), show c.position - lenOf pre = l.length by omega]
    rfl
  · have hpend : LeafPending l ⟨l.length, 0⟩ [0] [] := by
      refine ⟨rfl, ⟨by simp, by simp⟩, M, by rw [hM]; simp [enc], by rw [hM]⟩
    exact .inside (c := ⟨c, ⟨l.length, 0⟩, 0⟩) (h := [0]) (cs := []) (more := []) h3 hat hpos hpend rfl (fun _ => rfl)

/-- What a cursor will find from a place on does not depend on the rope. -/
def breaksFrom (A B : List Char) : List (Nat × Bool) :=
  match B with
  | [] => []
  | x :: B => innerBreaks machineAct [cls x] ((enc A).length + clen x) B

/-- `new` anywhere. -/
theorem new_will {r : Rope} (hr : r.Balanced) {A B : List Char} (ht : r.text = enc (A ++ B)) :
    ∃ c, new r (enc A).length = some c ∧ Will r c (breaksFrom A B) := by
  cases B with
  | nil =>
    rw [List.append_nil] at ht
    rw [← ht]
    exact new_end hr
  | cons x B => exact new_spec hr ht

/-- All that a cursor finds. -/
theorem collect_from {r : Rope} (hr : r.Balanced) {A B : List Char} (ht : r.text = enc (A ++ B)) :
    ∃ c, new r (enc A).length = some c ∧ c.collect r.len (r.len + 1) = some (breaksFrom A B ++ [(r.text.length, endsLine r.text)]) := by
  obtain ⟨c, h1, h2⟩ := new_will hr ht
  have hlen : r.len = r.text.length := by obtain ⟨n, hw⟩ := hr; exact hw.len_eq
  have hb : ∀ b ∈ breaksFrom A B, b.1 < r.len := by
    intro b hb
    cases B with
    | nil => simp [breaksFrom] at hb
    | cons x B =>
      have := (innerBreaks_bound B _ _ b hb).2
      rw [hlen, ht, enc_append, List.length_append, enc_cons, List.length_append]
      unfold clen at this
      omega
  have hl : (breaksFrom A B).length ≤ r.len := by
    have h3 : (breaksFrom A B).Pairwise (fun a b => a.1 < b.1) := by
      cases B with
      | nil => exact .nil
      | cons x B => exact innerBreaks_sorted B _ _
    have key : ∀ (l : List (Nat × Bool)) (lo hi : Nat), l.Pairwise (fun a b => a.1 < b.1) → (∀ b ∈ l, lo ≤ b.1 ∧ b.1 < hi) → lo ≤ hi → l.length + lo ≤ hi := by
      intro l
      induction l with
      | nil => intro lo hi _ _ h; simpa using h
      | cons b l ih =>
        intro lo hi hp hb _
        rw [List.pairwise_cons] at hp
        have h1 := hb b (by simp)
        have := ih (b.1 + 1) hi hp.2 (fun q hq => ⟨hp.1 q hq, (hb q (by simp [hq])).2⟩) (by omega)
        simp only [List.length_cons]; omega
    have := key _ 0 r.len h3 (fun b h => ⟨Nat.zero_le _, hb b h⟩) (Nat.zero_le _)
    omega
  refine ⟨c, h1, ?_⟩
  rw [collect_spec _ _ h2 (by omega) hb, hlen]

end LineBreakCursor

end Xi
