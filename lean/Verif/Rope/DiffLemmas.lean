import Verif.Rope.Diff
import Verif.Rope.CompareLemmas
import Verif.Props.Cursor
import Verif.Props.Rope

/-!
# Lemmas on the diff
-/

namespace Xi

namespace Diff

open Find Compare

/-- A copy is right: it says that the same piece, of whole characters, is in the
base and in the target. -/
def OpGood (B T : List UInt8) (op : DiffOp) : Prop :=
  ∃ u x y x' y', T = x ++ (u ++ y) ∧ B = x' ++ (u ++ y') ∧ Utf8 x ∧ Utf8 u ∧ Utf8 x' ∧
    op.targetIdx = x.length ∧ op.baseIdx = x'.length ∧ op.len = u.length

/-- The copies are right and in order in the target, where the last ends at `p`. -/
inductive OpsOk (B T : List UInt8) : List DiffOp → Nat → Prop
  | nil : OpsOk B T [] 0
  | snoc {ops p op} : OpsOk B T ops p → p ≤ op.targetIdx → OpGood B T op → OpsOk B T (ops ++ [op]) (op.targetIdx + op.len)

theorem opGood_append {B T : List UInt8} {t b k l : Nat} (h1 : OpGood B T ⟨t, b, k⟩) (h2 : OpGood B T ⟨t + k, b + k, l⟩) :
    OpGood B T ⟨t, b, k + l⟩ := by
  obtain ⟨u, x, y, x', y', e1, e2, u1, u2, u3, a1, a2, a3⟩ := h1
  obtain ⟨v, z, w, z', w', f1, f2, v1, v2, v3, b1, b2, b3⟩ := h2
  simp only at a1 a2 a3 b1 b2 b3
  subst a1 a2 a3
  have hz : z = x ++ u := by
    rw [e1, ← List.append_assoc] at f1
    exact ((List.append_inj f1 (by simp; omega)).1).symm
  have hz' : z' = x' ++ u := by
    rw [e2, ← List.append_assoc] at f2
    exact ((List.append_inj f2 (by simp; omega)).1).symm
  subst hz hz'
  exact ⟨u ++ v, x, w, x', w', by rw [f1]; simp, by rw [f2]; simp, u1, utf8_append u2 v2, u3, rfl, rfl, by simp [b3]⟩

theorem copy_spec {B T : List UInt8} {ops : List DiffOp} {p b t l : Nat} (h : OpsOk B T ops p) (hp : p ≤ t) (hg : OpGood B T ⟨t, b, l⟩) :
    ∃ ops', copy ops b t l = some ops' ∧ OpsOk B T ops' (t + l) := by
  cases h with
  | nil => exact ⟨_, rfl, OpsOk.snoc (op := ⟨t, b, l⟩) .nil (Nat.zero_le _) hg⟩
  | @snoc ops p op h1 h2 h3 =>
    unfold copy
    rw [List.getLast?_concat]
    simp only
    rw [if_pos hp]
    by_cases hm : op.targetIdx + op.len = t ∧ op.baseIdx + op.len = b
    · rw [if_pos hm, List.dropLast_concat]
      obtain ⟨rfl, rfl⟩ := hm
      refine ⟨_, rfl, ?_⟩
      have := OpsOk.snoc (op := ⟨op.targetIdx, op.baseIdx, op.len + l⟩) h1 h2 (opGood_append h3 hg)
      simp only at this
      rwa [Nat.add_assoc]
    · rw [if_neg hm]
      exact ⟨_, rfl, OpsOk.snoc (op := ⟨t, b, l⟩) (OpsOk.snoc h1 h2 h3) hp hg⟩

theorem OpsOk.boundary {B T : List UInt8} {ops : List DiffOp} {p : Nat} (h : OpsOk B T ops p) (hT : Utf8 T) : CharBoundary T p := by
  cases h with
  | nil => exact (boundary_iff_spec hT).1 boundary_zero
  | snoc h1 h2 h3 =>
    obtain ⟨u, x, y, x', y', e1, e2, u1, u2, u3, a1, a2, a3⟩ := h3
    rw [a1, a3, e1, ← List.append_assoc, ← List.length_append]
    have hy : Utf8 y := utf8_right (utf8_append u1 u2) (by rw [List.append_assoc, ← e1]; exact hT)
    exact charBoundary_ends (utf8_append u1 u2) hy

theorem slice_utf8 {T : List UInt8} (hT : Utf8 T) {p q : Nat} (hp : CharBoundary T p) (hq : CharBoundary T q) (h : p ≤ q) :
    Utf8 ((T.take q).drop p) := by
  rw [← boundary_iff_spec hT, boundary_iff hT] at hp hq
  refine utf8_right (a := T.take p) hp.2.1 ?_
  have : T.take p = (T.take q).take p := by rw [List.take_take, Nat.min_eq_left h]
  rw [this, List.take_append_drop]
  exact hq.2.1

theorem subseq_piece {target : Rope} (ht : target.Balanced) {p q : Nat} (hp : CharBoundary target.text p) (hq : CharBoundary target.text q) (h : p ≤ q) :
    ∃ n, target.subseq ⟨p, q⟩ = some n ∧ n.text = (target.text.take q).drop p ∧ n.Balanced := by
  have hu := Rope.text_utf8 ht
  exact Node.subseq_spec ht (fun _ => ⟨(cut_iff hu).2 hp, (cut_iff hu).2 hq⟩)

/-- What the loop of `to_delta` has when it has come to `p`. -/
def Reached (B T : List UInt8) (els : List (TreeDeltaElement (List UInt8) RopeInfo)) (p : Nat) : Prop :=
  (∀ el ∈ els, el.OkOn B) ∧ (els.map TreeDeltaElement.plain).foldlM (Delta.applyEl B) [] = some (T.take p)

theorem reached_insert {B T : List UInt8} {els : List (TreeDeltaElement (List UInt8) RopeInfo)} {p q : Nat} {n : Rope} (h : Reached B T els p)
    (hpq : p ≤ q) (hn : n.Balanced) (ht : n.text = (T.take q).drop p) : Reached B T (els ++ [.insert n]) q := by
  refine ⟨?_, ?_⟩
  · intro el hel
    rw [List.mem_append, List.mem_singleton] at hel
    rcases hel with hel | rfl
    · exact h.1 el hel
    · exact hn
  · rw [List.map_append, List.foldlM_append, h.2]
    simp only [Option.bind_eq_bind, Option.bind_some, List.map_cons, List.map_nil, List.foldlM_cons, List.foldlM_nil, TreeDeltaElement.plain,
      Delta.applyEl, ht, Option.pure_def, Option.some.injEq]
    conv => rhs; rw [← List.take_append_drop p (T.take q), List.take_take, Nat.min_eq_left hpq]

theorem reached_copy {B T : List UInt8} {els : List (TreeDeltaElement (List UInt8) RopeInfo)} {op : DiffOp} (hB : Utf8 B)
    (h : Reached B T els op.targetIdx) (hg : OpGood B T op) :
    Reached B T (els ++ [.copy op.baseIdx (op.baseIdx + op.len)]) (op.targetIdx + op.len) := by
  obtain ⟨u, x, y, x', y', e1, e2, u1, u2, u3, a1, a2, a3⟩ := hg
  have hy' : Utf8 y' := utf8_right (utf8_append u3 u2) (by rw [List.append_assoc, ← e2]; exact hB)
  refine ⟨?_, ?_⟩
  · intro el hel
    rw [List.mem_append, List.mem_singleton] at hel
    rcases hel with hel | rfl
    · exact h.1 el hel
    · constructor
      · rw [a2, e2]; exact charBoundary_ends u3 (utf8_append u2 hy')
      · rw [a2, a3, e2, ← List.append_assoc, ← List.length_append]
        exact charBoundary_ends (utf8_append u3 u2) hy'
  · rw [List.map_append, List.foldlM_append, h.2]
    simp only [Option.bind_eq_bind, Option.bind_some, List.map_cons, List.map_nil, List.foldlM_cons, List.foldlM_nil, TreeDeltaElement.plain,
      Delta.applyEl, slice]
    rw [if_pos (by rw [a2, a3, e2]; simp)]
    simp only [Option.bind_some, Option.pure_def, Option.some.injEq]
    rw [a1, a2, a3, e1, e2]
    simp [List.take_append]
    rw [List.take_of_length_le (by omega)]

theorem toDelta_loop {base target : Rope} (hb : base.Balanced) (ht : target.Balanced) {ops : List DiffOp} {p : Nat}
    (h : OpsOk base.text target.text ops p) :
    ∃ els, ops.foldlM (toDeltaStep target) ([], 0) = some (els, p) ∧ Reached base.text target.text els p := by
  have hB := Rope.text_utf8 hb
  have hT := Rope.text_utf8 ht
  induction h with
  | nil => exact ⟨[], rfl, by simp, by simp⟩
  | @snoc ops p op h1 h2 h3 ih =>
    obtain ⟨els, e, hr⟩ := ih
    rw [List.foldlM_append, e]
    simp only [Option.bind_eq_bind, Option.bind_some, List.foldlM_cons, List.foldlM_nil, Option.pure_def, Option.bind_fun_some]
    unfold toDeltaStep
    simp only
    by_cases hlt : op.targetIdx > p
    · rw [if_pos hlt]
      have hq : CharBoundary target.text op.targetIdx := by
        obtain ⟨u, x, y, x', y', e1, e2, u1, u2, u3, a1, a2, a3⟩ := h3
        rw [a1, e1]
        exact charBoundary_ends u1 (utf8_right u1 (by rw [← e1]; exact hT))
      obtain ⟨n, g1, g2, g3⟩ := subseq_piece ht (h1.boundary hT) hq h2
      have := reached_copy hB (reached_insert hr h2 g3 g2) h3
      refine ⟨els ++ [.insert n, .copy op.baseIdx (op.baseIdx + op.len)], ?_, by simpa using this⟩
      simp [Interval.new, h2, g1]
    · rw [if_neg hlt]
      have : p = op.targetIdx := by omega
      subst this
      exact ⟨_, rfl, reached_copy hB hr h3⟩

/-- `to_delta` makes a delta from the base to the target. -/
theorem toDelta_spec {base target : Rope} (hb : base.Balanced) (ht : target.Balanced) {ops : List DiffOp} {p : Nat}
    (h : OpsOk base.text target.text ops p) :
    ∃ els, toDelta ops base target = some (els, base.len) ∧ Reached base.text target.text els target.text.length := by
  have hT := Rope.text_utf8 ht
  obtain ⟨els, e, hr⟩ := toDelta_loop hb ht h
  unfold toDelta
  simp only [e, Option.bind_eq_bind, Option.bind_some, Rope.len_eq ht]
  have hp := h.boundary hT
  have hle := ((boundary_iff hT).1 ((boundary_iff_spec hT).2 hp)).1
  by_cases hlt : p < target.text.length
  · rw [if_pos hlt]
    obtain ⟨n, g1, g2, g3⟩ := subseq_piece ht hp (q := target.text.length) ((boundary_iff_spec hT).1 boundary_length) hle
    exact ⟨_, by simp [Interval.new, hle, g1], reached_insert hr hle g3 g2⟩
  · rw [if_neg hlt]
    have : p = target.text.length := by omega
    subst this
    exact ⟨_, rfl, hr⟩

/-! The chosen matches -/

theorem mem_takeWhile_sat {α : Type} {p : α → Bool} {l : List α} {x : α} (h : x ∈ l.takeWhile p) : p x = true := by
  induction l with
  | nil => cases h
  | cons y l ih =>
    rw [List.takeWhile_cons] at h
    split at h
    · rcases List.mem_cons.1 h with rfl | h
      · assumption
      · exact ih h
    · cases h

theorem lookup_mem {hs : LineHashes} {k : List UInt8} {v : Nat} (h : hs.lookup k = some v) : ∃ k', (k', v) ∈ hs := by
  induction hs with
  | nil => cases h
  | cons x hs ih =>
    obtain ⟨k', v'⟩ := x
    rw [List.lookup_cons] at h
    split at h
    · cases h; exact ⟨k', by simp⟩
    · obtain ⟨k'', hk⟩ := ih h; exact ⟨k'', by simp [hk]⟩

/-- What is needed for the indices used by `longest_increasing_region_set` to be in
range. -/
structure LisOk (n : Nat) (st : LisState) : Prop where
  nonempty : st.result ≠ []
  result : ∀ j ∈ st.result, j < n
  length : st.prevChain.length = n
  chain : ∀ j ∈ st.prevChain, j < n

theorem key_some {items : List (Nat × Nat)} {j : Nat} (h : j < items.length) : ∃ k, key items j = some k := by
  simp [key, List.getElem?_eq_getElem h]

theorem mapM_key {items : List (Nat × Nat)} (l : List Nat) (h : ∀ j ∈ l, j < items.length) :
    ∃ ks, l.mapM (key items) = some ks ∧ ks.length = l.length ∧ ∀ i : Nat, ks[i]? = l[i]?.bind (key items) := by
  induction l with
  | nil => exact ⟨[], rfl, rfl, by simp⟩
  | cons x l ih =>
    obtain ⟨ks, e, hl, hg⟩ := ih (fun j hj => h j (by simp [hj]))
    obtain ⟨k, hk⟩ := key_some (h x (by simp))
    refine ⟨k :: ks, by simp [List.mapM_cons, hk, e], by simp [hl], ?_⟩
    intro i
    cases i with
    | zero => simp [hk]
    | succ i => simpa using hg i

theorem mem_set {l : List Nat} {i v x : Nat} (h : x ∈ l.set i v) : x ∈ l ∨ x = v := List.mem_or_eq_of_mem_set h

theorem lisStep_ok {items : List (Nat × Nat)} {st : LisState} {i : Nat} (h : LisOk items.length st) (hi : i < items.length) :
    ∃ st', lisStep items st i = some st' ∧ LisOk items.length st' := by
  obtain ⟨h1, h2, h3, h4⟩ := h
  obtain ⟨last, hlast⟩ : ∃ x, st.result.getLast? = some x := by
    exact ⟨_, List.getLast?_eq_some_getLast h1⟩
  have hlm : last < items.length := h2 _ (List.mem_of_getLast? hlast)
  obtain ⟨kl, hkl⟩ := key_some hlm
  obtain ⟨ki, hki⟩ := key_some hi
  unfold lisStep
  simp only [hlast, hkl, hki, Option.bind_eq_bind, Option.bind_some, Option.pure_def]
  by_cases hlt : kl < ki
  · rw [if_pos hlt]
    refine ⟨_, rfl, by simp, ?_, by simp [h3], ?_⟩
    · intro j hj
      rw [List.mem_append, List.mem_singleton] at hj
      rcases hj with hj | rfl
      · exact h2 j hj
      · exact hi
    · intro j hj
      rcases mem_set hj with hj | rfl
      · exact h4 j hj
      · exact hlm
  · rw [if_neg hlt]
    obtain ⟨ks, e, hl, hg⟩ := mapM_key st.result h2
    unfold lisReplace
    simp only [e, Option.bind_eq_bind, Option.bind_some]
    unfold binarySearch
    by_cases hm : ki ∈ ks
    · rw [if_pos hm]
      exact ⟨st, rfl, h1, h2, h3, h4⟩
    · rw [if_neg hm]
      simp only
      have hlen : (ks.takeWhile (· < ki)).length < st.result.length := by
        rw [← hl]
        apply Nat.lt_of_le_of_ne (List.Sublist.length_le (List.takeWhile_sublist _))
        intro heq
        have hall : ks.takeWhile (· < ki) = ks := (List.takeWhile_sublist _).eq_of_length heq
        have hk : ks.getLast? = some kl := by
          rw [List.getLast?_eq_getElem?, hg, hl, ← List.getLast?_eq_getElem?, hlast]; exact hkl
        have hmem : kl ∈ ks.takeWhile (· < ki) := by rw [hall]; exact List.mem_of_getLast? hk
        have := mem_takeWhile_sat hmem
        exact hlt (by simpa using this)
      generalize (ks.takeWhile (· < ki)).length = nx at hlen
      rw [List.getElem?_eq_getElem hlen]
      simp only [Option.bind_some]
      have hnx : st.result[nx] < items.length := h2 _ (List.getElem_mem hlen)
      obtain ⟨kn, hkn⟩ := key_some hnx
      simp only [hkn, Option.bind_some]
      have hres : ∀ j ∈ st.result.set nx i, j < items.length := by
        intro j hj
        rcases mem_set hj with hj | rfl
        · exact h2 j hj
        · exact hi
      by_cases hlt2 : ki < kn
      · rw [if_pos hlt2]
        by_cases hpos : nx > 0
        · rw [if_pos hpos, List.getElem?_eq_getElem (by omega : nx - 1 < st.result.length)]
          refine ⟨_, rfl, by simpa using h1, hres, by simp [h3], ?_⟩
          intro j hj
          rcases mem_set hj with hj | rfl
          · exact h4 j hj
          · exact h2 _ (List.getElem_mem _)
        · rw [if_neg hpos]
          exact ⟨_, rfl, by simpa using h1, hres, h3, h4⟩
      · rw [if_neg hlt2]
        exact ⟨st, rfl, h1, h2, h3, h4⟩

theorem lisLoop_ok {items : List (Nat × Nat)} (is : List Nat) : ∀ {st : LisState}, LisOk items.length st → (∀ i ∈ is, i < items.length) →
    ∃ st', is.foldlM (lisStep items) st = some st' ∧ LisOk items.length st' := by
  induction is with
  | nil => intro st h _; exact ⟨st, rfl, h⟩
  | cons i is ih =>
    intro st h hi
    obtain ⟨st1, e1, h1⟩ := lisStep_ok h (hi i (by simp))
    obtain ⟨st2, e2, h2⟩ := ih h1 (fun j hj => hi j (by simp [hj]))
    exact ⟨st2, by simp [List.foldlM_cons, e1, e2], h2⟩

theorem lisWalk_ok {n : Nat} {chain : List Nat} (hl : chain.length = n) (hc : ∀ j ∈ chain, j < n) (u : Nat) : ∀ v, v < n →
    ∃ w, lisWalk chain u v = some w ∧ ∀ j ∈ w, j < n := by
  induction u with
  | zero => intro v _; exact ⟨[], rfl, by simp⟩
  | succ u ih =>
    intro v hv
    obtain ⟨w, e, h⟩ := ih chain[v] (hc _ (List.getElem_mem _))
    refine ⟨v :: w, by simp [lisWalk, List.getElem?_eq_getElem (by omega : v < chain.length), e], ?_⟩
    intro j hj
    rcases List.mem_cons.1 hj with rfl | hj
    · exact hv
    · exact h j hj

/-- The chosen matches are some of the matches. -/
theorem longestIncreasing_ok {items : List (Nat × Nat)} (h : items ≠ []) :
    ∃ r, longestIncreasing items = some r ∧ ∀ m ∈ r, m ∈ items := by
  have hpos := List.length_pos_iff.2 h
  obtain ⟨st, e, hs⟩ := lisLoop_ok (items := items) ((List.range items.length).drop 1) (st := ⟨[0], List.replicate items.length 0⟩)
    ⟨by simp, by simpa using hpos, by simp, by intro j hj; rw [List.mem_replicate] at hj; omega⟩
    (by intro i hi; exact List.mem_range.1 (List.mem_of_mem_drop hi))
  obtain ⟨last, hlast⟩ : ∃ x, st.result.getLast? = some x := by
    exact ⟨_, List.getLast?_eq_some_getLast hs.nonempty⟩
  obtain ⟨w, ew, hw⟩ := lisWalk_ok hs.length hs.chain st.result.length last (hs.result _ (List.mem_of_getLast? hlast))
  have : ∀ l : List Nat, (∀ j ∈ l, j < items.length) → ∃ r, l.mapM (fun i => items[i]?) = some r ∧ ∀ m ∈ r, m ∈ items := by
    intro l
    induction l with
    | nil => intro _; exact ⟨[], rfl, by simp⟩
    | cons x l ih =>
      intro hl
      obtain ⟨r, er, hr⟩ := ih (fun j hj => hl j (by simp [hj]))
      have hx := hl x (by simp)
      refine ⟨items[x] :: r, by simp [List.mapM_cons, er, List.getElem?_eq_getElem hx], ?_⟩
      intro m hm
      rcases List.mem_cons.1 hm with rfl | hm
      · exact List.getElem_mem hx
      · exact hr m hm
  obtain ⟨r, er, hr⟩ := this w.reverse (fun j hj => hw j (List.mem_reverse.1 hj))
  refine ⟨r, ?_, hr⟩
  unfold longestIncreasing
  simp only [e, hlast, ew, er, Option.bind_eq_bind, Option.bind_some]

/-! The lines -/

theorem ascii_boundary {s : List UInt8} (hs : Utf8 s) {i : Nat} {b : UInt8} (hb : b.toNat < 128) (hi : s[i]? = some b) :
    isCharBoundary s (i + 1) = true := by
  have h1 : isCharBoundary s i = true := by
    simp only [isCharBoundary, hi]
    simp [isCont]
    right; omega
  obtain ⟨h2, h3, h4⟩ := utf8_split hs h1
  obtain ⟨cs, hcs⟩ := h4
  have hlt : i < s.length := (List.getElem?_eq_some_iff.1 hi).1
  cases cs with
  | nil =>
    have := congrArg List.length hcs
    simp at this; omega
  | cons c cs =>
    obtain ⟨x, r, e1, -, -, l1⟩ := encode_shape c
    have hx : x = b := by
      have := congrArg (fun l => l[0]?) hcs
      simp [e1, hi] at this
      exact this.symm
    have hr : r = [] := by
      rw [hx] at l1
      simp [lenOfFirst, hb] at l1
      exact l1
    subst hr
    rw [boundary_iff hs]
    refine ⟨hlt, ?_, ?_⟩
    · rw [List.take_add_one, hi]
      exact utf8_append h3 ⟨[c], by simp [e1, hx]⟩
    · refine ⟨cs, ?_⟩
      rw [← List.tail_drop, hcs]
      simp [e1]

/-- A line of the text, from `o` on: the offset of its first character that is not
a blank is a character boundary. -/
theorem nonWs_boundary {S : List UInt8} (hS : Utf8 S) {o : Nat} (ho : isCharBoundary S o = true) {line rest : List UInt8}
    (h : S.drop o = line ++ rest) (hn : nonWsOffset line < line.length) :
    isCharBoundary S (o + nonWsOffset line) = true ∧ isCharBoundary line (nonWsOffset line) = true := by
  have hget : ∀ k, k < line.length → S[o + k]? = line[k]? := by
    intro k hk
    have := congrArg (fun l => l[k]?) h
    simpa [List.getElem?_append_left hk] using this
  have h1 : isCharBoundary S (o + nonWsOffset line) = true := by
    cases e : nonWsOffset line with
    | zero => exact ho
    | succ k =>
      have hk : k < (line.takeWhile (fun b => b == 32 || b == 9)).length := by unfold nonWsOffset at e; omega
      have hb := mem_takeWhile_sat (List.getElem_mem hk)
      have hl : line[k]? = some (line.takeWhile (fun b => b == 32 || b == 9))[k] := by
        rw [← List.getElem?_eq_getElem hk]
        conv => lhs; rw [← List.takeWhile_append_dropWhile (p := fun b => b == 32 || b == 9) (l := line), List.getElem?_append_left hk]
      refine ascii_boundary hS (i := o + k) (b := (line.takeWhile (fun b => b == 32 || b == 9))[k]) ?_ (by rw [hget k (by omega), hl])
      simp only [Bool.or_eq_true, beq_iff_eq] at hb
      rcases hb with hb | hb <;> rw [hb] <;> decide
  refine ⟨h1, ?_⟩
  have hlt : o + nonWsOffset line < S.length := by
    have := congrArg List.length h
    simp at this
    omega
  simp only [isCharBoundary, hget _ hn, List.getElem?_eq_getElem hn] at h1 ⊢
  simp only [Bool.or_eq_true, beq_iff_eq] at h1 ⊢
  rcases h1 with (h1 | h1) | h1
  · left; left; omega
  · omega
  · right; exact h1

/-- Going through the lines of the piece of `S` that ends at `e`. -/
structure LinesFrom (S : List UInt8) (e o : Nat) (ls : List (List UInt8)) : Prop where
  text : (S.take e).drop o = ls.flatten
  le : o ≤ e
  boundary : isCharBoundary S o = true
  ended : ∀ l ∈ ls.dropLast, l.getLast? = some newline

theorem LinesFrom.next {S : List UInt8} (hS : Utf8 S) {e o : Nat} (he : isCharBoundary S e = true) {line : List UInt8} {ls : List (List UInt8)}
    (h : LinesFrom S e o (line :: ls)) :
    LinesFrom S e (o + line.length) ls ∧ S.drop o = line ++ S.drop (o + line.length) ∧ o + line.length ≤ e := by
  have hel := ((boundary_iff hS).1 he).1
  have hlen : o + line.length ≤ e := by
    have := congrArg List.length h.text
    simp at this
    have := h.le
    omega
  have hd : S.drop o = line ++ S.drop (o + line.length) := by
    have h1 : line = ((S.take e).drop o).take line.length := by rw [h.text]; simp
    have h2 : ((S.take e).drop o).take line.length = (S.drop o).take line.length := by
      rw [List.drop_take, List.take_take, Nat.min_eq_left (by omega)]
    rw [h2] at h1
    conv => lhs; rw [← List.take_append_drop line.length (S.drop o), ← h1, List.drop_drop]
  refine ⟨⟨?_, hlen, ?_, ?_⟩, hd, hlen⟩
  · rw [← List.drop_drop, h.text]; simp
  · cases ls with
    | nil =>
      have := congrArg List.length h.text
      simp at this
      have := h.le
      rw [show o + line.length = e from by omega]
      exact he
    | cons l2 ls =>
      have hl := h.ended line (by simp)
      have hne : line ≠ [] := by intro e; rw [e] at hl; cases hl
      have hpos := List.length_pos_iff.2 hne
      rw [List.getLast?_eq_getElem?] at hl
      have := congrArg (fun l => l[line.length - 1]?) hd
      simp only [List.getElem?_drop] at this
      rw [List.getElem?_append_left (by omega), hl] at this
      have := newline_boundary hS this
      rwa [show o + (line.length - 1) + 1 = o + line.length from by omega] at this
  · intro l hl
    apply h.ended
    cases ls with
    | nil => cases hl
    | cons l2 ls => simp only [List.dropLast_cons₂]; exact List.mem_cons_of_mem _ hl

theorem lineHashes_loop {B : List UInt8} (hB : Utf8 B) {min : Nat} (hmin : 0 < min) (ls : List (List UInt8)) : ∀ (o : Nat) (hs : LineHashes),
    LinesFrom B B.length o ls → (∀ x ∈ hs, isCharBoundary B x.2 = true) →
    ∃ st, ls.foldlM (lineHashesStep min) (hs, o) = some st ∧ ∀ x ∈ st.1, isCharBoundary B x.2 = true := by
  induction ls with
  | nil => intro o hs _ h; exact ⟨_, rfl, h⟩
  | cons line ls ih =>
    intro o hs h hh
    obtain ⟨h1, h2, h3⟩ := h.next hB boundary_length
    rw [List.foldlM_cons]
    unfold lineHashesStep
    simp only
    by_cases hm : line.length - nonWsOffset line ≥ min
    · rw [if_pos hm]
      obtain ⟨g1, g2⟩ := nonWs_boundary hB h.boundary h2 (by omega)
      rw [strSlice_spec (by omega) g2 boundary_length]
      simp only [Option.bind_eq_bind, Option.bind_some, Option.pure_def]
      apply ih _ _ h1
      intro x hx
      rcases List.mem_cons.1 hx with rfl | hx
      · exact g1
      · exact hh x hx
    · rw [if_neg hm]
      simp only [Option.bind_eq_bind, Option.bind_some]
      exact ih _ _ h1 hh

theorem linesRaw_spec {r : Rope} (hr : r.Balanced) {range : Bounds} (h : range.lo ≤ range.hi r.text.length)
    (hlo : CharBoundary r.text range.lo) (hhi : CharBoundary r.text (range.hi r.text.length)) :
    ∃ ls, r.linesRaw range = some ls ∧ LinesFrom r.text (range.hi r.text.length) range.lo ls := by
  obtain ⟨ls, e, hls⟩ := C06_lines_raw r range hr h hlo hhi
  exact ⟨ls, e, hls.text.symm, h, (boundary_iff_spec (Rope.text_utf8 hr)).2 hlo, hls.ended⟩

theorem makeLineHashes_spec {base : Rope} (hb : base.Balanced) {min : Nat} (hmin : 0 < min) :
    ∃ hs, makeLineHashes base min = some hs ∧ ∀ x ∈ hs, isCharBoundary base.text x.2 = true := by
  have hB := Rope.text_utf8 hb
  obtain ⟨ls, e, hl⟩ := linesRaw_spec hb (range := .full) (Nat.zero_le _) ((boundary_iff_spec hB).1 boundary_zero) ((boundary_iff_spec hB).1 boundary_length)
  obtain ⟨st, e2, h2⟩ := lineHashes_loop hB hmin ls 0 [] hl (by simp)
  exact ⟨st.1, by simp [makeLineHashes, e, e2], h2⟩

/-- A match is between character boundaries, and in the target not beyond `e`. -/
def MatchOk (B T : List UInt8) (e : Nat) (m : Nat × Nat) : Prop :=
  isCharBoundary T m.1 = true ∧ isCharBoundary B m.2 = true ∧ m.1 ≤ e

theorem match_loop {B T : List UInt8} (hT : Utf8 T) {hs : LineHashes} (hh : ∀ x ∈ hs, isCharBoundary B x.2 = true) {e s : Nat}
    (he : isCharBoundary T e = true) (ls : List (List UInt8)) : ∀ st : MatchState, LinesFrom T e (s + st.targLineOffset) ls →
    (∀ m ∈ st.found, MatchOk B T e m) → (st.needsSubseq = true → st.found ≠ []) →
    ∃ st', ls.foldlM (matchStep hs s) st = some st' ∧ (∀ m ∈ st'.found, MatchOk B T e m) ∧ (st'.needsSubseq = true → st'.found ≠ []) := by
  induction ls with
  | nil => intro st _ h1 h2; exact ⟨st, rfl, h1, h2⟩
  | cons line ls ih =>
    intro st h hm hn
    obtain ⟨h1, h2, h3⟩ := h.next hT he
    rw [Nat.add_assoc] at h1
    rw [List.foldlM_cons]
    unfold matchStep
    simp only
    by_cases hl : line.length - nonWsOffset line ≥ minSize
    · rw [if_pos hl]
      obtain ⟨g1, g2⟩ := nonWs_boundary hT h.boundary h2 (by simp only [minSize] at hl; omega)
      rw [strSlice_spec (by simp only [minSize] at hl; omega) g2 boundary_length]
      simp only [Option.bind_eq_bind, Option.bind_some, Option.pure_def]
      cases hlk : hs.lookup ((line.take line.length).drop (nonWsOffset line)) with
      | none =>
        simp only [Option.bind_some]
        exact ih _ h1 hm hn
      | some off =>
        simp only [Option.bind_some]
        apply ih _ h1
        · intro m hmm
          simp only [List.mem_append, List.mem_singleton] at hmm
          rcases hmm with hmm | rfl
          · exact hm m hmm
          · obtain ⟨k', hk⟩ := lookup_mem hlk
            refine ⟨?_, hh _ hk, ?_⟩
            · rw [← Nat.add_assoc]; exact g1
            · simp only [minSize] at hl; simp only; omega
        · simp
    · rw [if_neg hl]
      simp only [Option.bind_eq_bind, Option.bind_some]
      exact ih _ h1 hm hn

theorem chosen_spec {B T : List UInt8} {e : Nat} {st : MatchState} (h : ∀ m ∈ st.found, MatchOk B T e m) (hn : st.needsSubseq = true → st.found ≠ []) :
    ∃ r, chosen st = some r ∧ ∀ m ∈ r, MatchOk B T e m := by
  unfold chosen
  by_cases hs : st.needsSubseq = true
  · rw [if_pos hs]
    obtain ⟨r, er, hr⟩ := longestIncreasing_ok (hn hs)
    exact ⟨r, er, fun m hm => h m (hr m hm)⟩
  · rw [if_neg hs]
    exact ⟨_, rfl, h⟩

/-! Extending a match -/

theorem sameSuffix_mono {a b : List UInt8} {r k : Nat} (h : SameSuffix a b r) (hk : k ≤ r) : SameSuffix a b k := by
  obtain ⟨h1, h2, h3⟩ := h
  refine ⟨by omega, by omega, ?_⟩
  have := congrArg (List.drop (r - k)) h3
  rw [List.drop_drop, List.drop_drop, show a.length - r + (r - k) = a.length - k from by omega, show b.length - r + (r - k) = b.length - k from by omega] at this
  exact this

theorem usizeSub_le {a b : Nat} (h : b ≤ a) : usizeSub a b = some (a - b) := if_pos h

theorem piece_good {B T : List UInt8} (hB : Utf8 B) (hT : Utf8 T) {bo to l r : Nat} (hbo : isCharBoundary B bo = true)
    (hto : isCharBoundary T to = true) (hl : SameSuffix (B.take bo) (T.take to) l) (ul : isCharBoundary T (to - l) = true)
    (hr : r ≤ (B.drop bo).length ∧ r ≤ (T.drop to).length ∧ (B.drop bo).take r = (T.drop to).take r) (ur : isCharBoundary T (to + r) = true) :
    OpGood B T ⟨to - l, bo - l, l + r⟩ := by
  obtain ⟨lb, ub1, ub2⟩ := (boundary_iff hB).1 hbo
  obtain ⟨lt, ut1, ut2⟩ := (boundary_iff hT).1 hto
  obtain ⟨l1, l2, l3⟩ := hl
  rw [List.length_take, Nat.min_eq_left lb] at l1 l3
  rw [List.length_take, Nat.min_eq_left lt] at l2 l3
  have hsl : Utf8 ((T.take to).drop (to - l)) := slice_utf8 hT ((boundary_iff_spec hT).1 ul) ((boundary_iff_spec hT).1 hto) (by omega)
  have hsr : Utf8 ((T.drop to).take r) := by
    have := slice_utf8 hT ((boundary_iff_spec hT).1 hto) ((boundary_iff_spec hT).1 ur) (by omega)
    rwa [List.drop_take, Nat.add_sub_cancel_left] at this
  have cut : ∀ (S : List UInt8) (o : Nat), o ≤ S.length → l ≤ o →
      S = S.take (o - l) ++ (((S.take o).drop (o - l) ++ (S.drop o).take r) ++ S.drop (o + r)) := by
    intro S o ho hlo
    rw [List.append_assoc, ← List.drop_drop, List.take_append_drop, ← List.append_assoc]
    rw [show S.take (o - l) = (S.take o).take (o - l) from by rw [List.take_take, Nat.min_eq_left (by omega)], List.take_append_drop, List.take_append_drop]
  refine ⟨(T.take to).drop (to - l) ++ (T.drop to).take r, T.take (to - l), T.drop (to + r), B.take (bo - l), B.drop (bo + r),
    cut T to lt l2, ?_, ((boundary_iff hT).1 ul).2.1, utf8_append hsl hsr, ?_, ?_, ?_, ?_⟩
  · rw [← l3, ← hr.2.2]
    exact cut B bo lb l1
  · have : B.take bo = B.take (bo - l) ++ (B.take bo).drop (bo - l) := by
      rw [show B.take (bo - l) = (B.take bo).take (bo - l) from by rw [List.take_take, Nat.min_eq_left (by omega)], List.take_append_drop]
    rw [this] at ub1
    rw [l3] at ub1
    exact utf8_left hsl ub1
  · simp; omega
  · simp; omega
  · have := hr.2.1
    simp only [List.length_append, List.length_drop, List.length_take] at this ⊢
    omega

theorem prefix_boundary {T : List UInt8} (hT : Utf8 T) {to r : Nat} (hto : isCharBoundary T to = true) (hr : r ≤ (T.drop to).length)
    (hu : Utf8 ((T.drop to).take r)) : isCharBoundary T (to + r) = true := by
  obtain ⟨lt, ut1, ut2⟩ := (boundary_iff hT).1 hto
  have hu' := utf8_append ut1 hu
  have e : T.take (to + r) = T.take to ++ (T.drop to).take r := by rw [List.take_add]
  rw [← e] at hu'
  refine (boundary_iff hT).2 ⟨by rw [List.length_drop] at hr; omega, hu', utf8_right hu' (by rw [List.take_append_drop]; exact hT)⟩

theorem suffix_boundary {T : List UInt8} (hT : Utf8 T) {to l : Nat} (hto : isCharBoundary T to = true) (hl : l ≤ to)
    (hu : Utf8 ((T.take to).drop (to - l))) : isCharBoundary T (to - l) = true := by
  obtain ⟨lt, ut1, ut2⟩ := (boundary_iff hT).1 hto
  have e : T = T.take (to - l) ++ ((T.take to).drop (to - l) ++ T.drop to) := by
    rw [← List.append_assoc, show T.take (to - l) = (T.take to).take (to - l) from by rw [List.take_take, Nat.min_eq_left (by omega)],
      List.take_append_drop, List.take_append_drop]
  have hu2 := utf8_append hu ut2
  have := boundary_append (a := T.take (to - l)) hu2
  rw [← e, List.length_take, Nat.min_eq_left (by omega)] at this
  exact this

/-- `expand_match`: the extended match is right. -/
theorem expandMatch_spec {base target : Rope} (hb : base.Balanced) (ht : target.Balanced) {bo to prev : Nat}
    (hbo : isCharBoundary base.text bo = true) (hto : isCharBoundary target.text to = true) (hprev : isCharBoundary target.text prev = true) (hlt : prev ≤ to) :
    ∃ l r, expandMatch base target bo to prev = some (l, r) ∧ l ≤ to - prev ∧ SameSuffix (base.text.take bo) (target.text.take to) l ∧
      CommonPrefix (base.text.drop bo) (target.text.drop to) r ∧
      (LastBytesApart base.text target.text → isCharBoundary target.text (to - l) = true) := by
  have hB := Rope.text_utf8 hb
  have hT := Rope.text_utf8 ht
  obtain ⟨s0, e0, a1, a2⟩ := RopeScanner.new_spec hb ht
  obtain ⟨s1, r1, R1, e1, b1, b2, c1, c2, c3⟩ := RopeScanner.findNeCharBack_spec a1 a2 ((boundary_iff_spec hB).1 hbo) ((boundary_iff_spec hT).1 hto) (some (to - prev))
  obtain ⟨s2, r2, R2, e2, -, -, d1, d2⟩ := RopeScanner.findNeChar_spec b1 b2 ((boundary_iff_spec hB).1 hbo) ((boundary_iff_spec hT).1 hto) none
  simp only [RopeScanner.minStop] at c3 d2
  subst d2
  have hle : (target.text.take to).length = to := by
    rw [List.length_take, Nat.min_eq_left ((boundary_iff hT).1 hto).1]
  refine ⟨min r1 (to - prev), r2, by simp [expandMatch, e0, usizeSub_le hlt, e1, e2], by omega, sameSuffix_mono c1 (by omega), d1.1, ?_⟩
  intro hd
  have c2 := (c2 hd).1
  by_cases hm : R1 ≤ to - prev
  · have : min r1 (to - prev) = R1 := by omega
    rw [this]
    have h3 := c2.2
    rw [c2.1.2.2, hle] at h3
    exact suffix_boundary hT hto (by have := c2.1.2.1; omega) h3
  · have : min r1 (to - prev) = to - prev := by omega
    rw [this, show to - (to - prev) = prev from by omega]
    exact hprev

theorem expandStep_spec {base target : Rope} (hb : base.Balanced) (ht : target.Balanced) (hd : LastBytesApart base.text target.text) {e : Nat}
    (he : isCharBoundary target.text e = true) {ops : List DiffOp} {p : Nat} (h : OpsOk base.text target.text ops p) (hp : p ≤ e)
    {m : Nat × Nat} (hm : MatchOk base.text target.text e m) :
    ∃ ops' p', expandStep base target e (ops, p) m = some (ops', p') ∧ OpsOk base.text target.text ops' p' ∧ p' ≤ e := by
  have hB := Rope.text_utf8 hb
  have hT := Rope.text_utf8 ht
  unfold expandStep
  by_cases hlt : m.1 ≤ p
  · rw [if_pos hlt]; exact ⟨ops, p, rfl, h, hp⟩
  · rw [if_neg hlt]
    obtain ⟨m1, m2, m3⟩ := hm
    have hpb := (boundary_iff_spec hT).2 (h.boundary hT)
    obtain ⟨l, r, ex, h1, h2, h3, h4⟩ := expandMatch_spec hb ht m2 m1 hpb (by omega)
    have hlb : l ≤ m.2 := by
      have := h2.1
      rw [List.length_take] at this; omega
    simp only [ex, Option.bind_eq_bind, Option.bind_some, usizeSub_le m3, usizeSub_le (show l ≤ m.1 by omega), usizeSub_le hlb]
    have hr' : min r (e - m.1) ≤ (target.text.drop m.1).length := by have := h3.2.1; omega
    have ur : isCharBoundary target.text (m.1 + min r (e - m.1)) = true := by
      by_cases hre : r ≤ e - m.1
      · rw [Nat.min_eq_left hre]
        refine prefix_boundary hT m1 h3.2.1 ?_
        rw [← h3.2.2.1]; exact h3.2.2.2
      · rw [Nat.min_eq_right (by omega), Nat.add_sub_cancel' m3]; exact he
    have hgood := piece_good hB hT m2 m1 h2 (h4 hd) (r := min r (e - m.1)) ⟨by have := h3.1; omega, hr', by
      have := congrArg (List.take (min r (e - m.1))) h3.2.2.1
      rwa [List.take_take, List.take_take, Nat.min_eq_left (by omega)] at this⟩ ur
    obtain ⟨ops', ec, hc⟩ := copy_spec h (t := m.1 - l) (by omega) hgood
    exact ⟨ops', _, by simp [ec], hc, by omega⟩

theorem expandLoop_spec {base target : Rope} (hb : base.Balanced) (ht : target.Balanced) (hd : LastBytesApart base.text target.text) {e : Nat}
    (he : isCharBoundary target.text e = true) (ms : List (Nat × Nat)) : ∀ {ops : List DiffOp} {p : Nat}, OpsOk base.text target.text ops p → p ≤ e →
    (∀ m ∈ ms, MatchOk base.text target.text e m) →
    ∃ ops' p', ms.foldlM (expandStep base target e) (ops, p) = some (ops', p') ∧ OpsOk base.text target.text ops' p' ∧ p' ≤ e := by
  induction ms with
  | nil => intro ops p h hp _; exact ⟨ops, p, rfl, h, hp⟩
  | cons m ms ih =>
    intro ops p h hp hm
    obtain ⟨o1, p1, e1, h1, g1⟩ := expandStep_spec hb ht hd he h hp (hm m (by simp))
    obtain ⟨o2, p2, e2, h2, g2⟩ := ih h1 g1 (fun x hx => hm x (by simp [hx]))
    exact ⟨o2, p2, by simp [List.foldlM_cons, e1, e2], h2, g2⟩

theorem findMinDiffRange_spec {base target : Rope} (hb : base.Balanced) (ht : target.Balanced) :
    ∃ s start d, RopeScanner.new base target = some s ∧ s.findMinDiffRange = some (start, d) ∧
      IsLargest (CommonPrefix base.text target.text) start ∧ SameSuffix base.text target.text d ∧
      start + d ≤ base.text.length ∧ start + d ≤ target.text.length ∧
      (LastBytesApart base.text target.text → isCharBoundary target.text (target.text.length - d) = true) := by
  have hB := Rope.text_utf8 hb
  have hT := Rope.text_utf8 ht
  obtain ⟨s0, e0, a1, a2⟩ := RopeScanner.new_spec hb ht
  obtain ⟨s1, r1, R1, e1, b1, b2, c1, c2⟩ := RopeScanner.findNeChar_spec a1 a2 ((boundary_iff_spec hB).1 boundary_zero) ((boundary_iff_spec hT).1 boundary_zero) none
  simp only [RopeScanner.minStop] at c2
  subst c2
  rw [List.drop_zero, List.drop_zero] at c1
  obtain ⟨k1, k2, k3, k4⟩ := c1.1
  have hlb := Rope.len_eq hb
  have hlt := Rope.len_eq ht
  have hun : usizeSub (min base.len target.len) r1 = some (min base.len target.len - r1) := usizeSub_le (by omega)
  by_cases h0 : min base.len target.len - r1 = 0
  · refine ⟨s0, r1, 0, e0, ?_, c1, ⟨by omega, by omega, by simp⟩, by omega, by omega, fun _ => boundary_length⟩
    simp [RopeScanner.findMinDiffRange, RopeScanner.findMinDiffEnd, e1, a1.root, a2.root, hun, h0]
  · obtain ⟨s2, r2, R2, e2, -, -, d1, d2, d3⟩ := RopeScanner.findNeCharBack_spec b1 b2 (bo := base.len) (to := target.len)
      (by rw [hlb]; exact (boundary_iff_spec hB).1 boundary_length) (by rw [hlt]; exact (boundary_iff_spec hT).1 boundary_length) (some (min base.len target.len - r1))
    simp only [RopeScanner.minStop] at d3
    rw [hlb, hlt, List.take_length, List.take_length] at d1 d2
    refine ⟨s0, r1, r2, e0, ?_, c1, sameSuffix_mono d1 (by omega), by omega, by omega, ?_⟩
    · simp [RopeScanner.findMinDiffRange, RopeScanner.findMinDiffEnd, e1, a1.root, a2.root, hun, h0, e2]
    · intro hd
      have d2 := (d2 hd).1
      by_cases hm : R2 ≤ min base.len target.len - r1
      · have : r2 = R2 := by omega
        rw [this]
        have h3 := d2.2
        rw [d2.1.2.2] at h3
        have := suffix_boundary hT boundary_length (l := R2) d2.1.2.1 (by rw [List.take_length]; exact h3)
        exact this
      · have hr2 : r2 = min base.len target.len - r1 := by omega
        have hbst : isCharBoundary base.text r1 = true := by
          have := prefix_boundary hB boundary_zero (r := r1) (by simpa using k1) (by simpa using k4)
          simpa using this
        have htst : isCharBoundary target.text r1 = true := by
          have := prefix_boundary hT boundary_zero (r := r1) (by simpa using k2) (by rw [k3] at k4; simpa using k4)
          simpa using this
        rcases Nat.le_total base.len target.len with hle | hle
        · have hs := sameSuffix_mono d1 (k := r2) (by omega)
          have hu : Utf8 (target.text.drop (target.text.length - r2)) := by
            rw [← hs.2.2, show base.text.length - r2 = r1 from by omega]
            exact ((boundary_iff hB).1 hbst).2.2
          exact suffix_boundary hT boundary_length (by omega) (by rw [List.take_length]; exact hu)
        · rw [show target.text.length - r2 = r1 from by omega]
          exact htst

theorem firstCopy_spec {B T : List UInt8} (hB : Utf8 B) (hT : Utf8 T) {s : Nat} (h : CommonPrefix B T s) :
    ∃ ops, firstCopy s = some ops ∧ OpsOk B T ops s := by
  unfold firstCopy
  by_cases hs : s > 0
  · rw [if_pos hs]
    have hg : OpGood B T ⟨0, 0, s⟩ := ⟨B.take s, [], T.drop s, [], B.drop s, by rw [h.2.2.1]; simp, by simp, utf8_nil, h.2.2.2, utf8_nil, rfl, rfl, by
      simp; have := h.1; omega⟩
    obtain ⟨ops, e, ho⟩ := copy_spec OpsOk.nil (Nat.zero_le 0) hg
    exact ⟨ops, e, by simpa using ho⟩
  · rw [if_neg hs]
    have : s = 0 := by omega
    subst this
    exact ⟨[], rfl, .nil⟩

theorem tail_good {B T : List UInt8} (hB : Utf8 B) (hT : Utf8 T) {d : Nat} (h : SameSuffix B T d) (hu : isCharBoundary T (T.length - d) = true) :
    OpGood B T ⟨T.length - d, B.length - d, d⟩ := by
  have := piece_good hB hT (l := d) (r := 0) boundary_length boundary_length (by simpa using h) hu (by simp) boundary_length
  simpa using this

/-- `compute_delta` gives a delta that leads from the base to the target, if no two
different characters of the two end with the same byte. -/
theorem computeDelta_spec {base target : Rope} (hb : base.Balanced) (ht : target.Balanced) (hd : LastBytesApart base.text target.text) :
    ∃ els, computeDelta base target = some (els, base.len) ∧ Reached base.text target.text els target.text.length := by
  have hB := Rope.text_utf8 hb
  have hT := Rope.text_utf8 ht
  obtain ⟨s, start, d, e1, e2, h1, h2, h3, h4, h5⟩ := findMinDiffRange_spec hb ht
  have h5 := h5 hd
  obtain ⟨ops, e3, ho⟩ := firstCopy_spec hB hT h1.1
  have hlb := Rope.len_eq hb
  have hlt := Rope.len_eq ht
  have htail := tail_good hB hT h2 h5
  obtain ⟨k1, k2, k3, k4⟩ := h1.1
  unfold computeDelta
  simp only [e1, e2, e3, Option.bind_eq_bind, Option.bind_some, usizeSub_le (show d ≤ target.len by omega), usizeSub_le (show d ≤ base.len by omega)]
  by_cases c1 : start = base.len ∧ target.len = base.len
  · rw [if_pos c1]; exact toDelta_spec hb ht ho
  · rw [if_neg c1]
    obtain ⟨ops', e4, ho'⟩ := copy_spec ho (t := target.text.length - d) (by omega) htail
    rw [← hlb, ← hlt] at e4
    by_cases c2 : target.len < base.len ∧ start + d = target.len
    · rw [if_pos c2]
      simp only [e4, Option.bind_some]
      exact toDelta_spec hb ht ho'
    · rw [if_neg c2]
      by_cases c3 : target.len > base.len ∧ start + d = base.len
      · rw [if_pos c3]
        simp only [e4, Option.bind_some]
        exact toDelta_spec hb ht ho'
      · rw [if_neg c3]
        unfold slowDelta
        obtain ⟨hs, e5, hh⟩ := makeLineHashes_spec hb (min := minSize) (by decide)
        have hst : CharBoundary target.text start := ho.boundary hT
        obtain ⟨ls, e6, hl⟩ := linesRaw_spec ht (range := .range start (target.len - d)) (by simp only [Bounds.lo, Bounds.hi]; omega) hst
          (by simp only [Bounds.hi]; rw [hlt]; exact (boundary_iff_spec hT).1 h5)
        simp only [Bounds.lo, Bounds.hi] at hl
        rw [← hlt] at h5
        obtain ⟨st, e7, hm, hn⟩ := match_loop hT hh h5 ls (s := start) ⟨[], 0, 0, false⟩ (by simpa using hl) (by simp) (by simp)
        obtain ⟨rs, e8, hr⟩ := chosen_spec hm hn
        obtain ⟨ops2, p2, e9, ho2, hp2⟩ := expandLoop_spec hb ht hd h5 rs ho (by omega) hr
        simp only [e5, e6, e7, e8, e9, Option.bind_eq_bind, Option.bind_some, usizeSub_le (show d ≤ target.len by omega), usizeSub_le (show d ≤ base.len by omega)]
        by_cases hdp : d > 0
        · rw [if_pos hdp]
          obtain ⟨ops3, e10, ho3⟩ := copy_spec ho2 (t := target.text.length - d) (by omega) htail
          rw [← hlb, ← hlt] at e10
          simp only [e10, Option.bind_some]
          exact toDelta_spec hb ht ho3
        · rw [if_neg hdp]
          exact toDelta_spec hb ht ho2

end Diff

end Xi
