import Verif.Rope.Find
import Verif.Rope.RopeCursor
import Verif.Spec.Find

/-!
# Lemmas on searching
-/

namespace Xi

namespace Find

open Cursor

/-- The cursor is on the rope `r`, in whatever state. -/
structure Alive (r : Rope) (c : RopeCursor) : Prop where
  root : c.root = r
  shape : c.Shape
  leaf : c.leaf = none ∨ ∃ pre l post, c.At pre l post

theorem Alive.of_at {c : RopeCursor} {pre post : List (List UInt8)} {l : List UInt8} (h : c.At pre l post) : Alive c.root c :=
  ⟨rfl, h.shape, .inr ⟨pre, l, post, h⟩⟩

/-- The cursor can go on searching from `p`. -/
structure Ready (r : Rope) (c : RopeCursor) (p : Nat) : Prop where
  root : c.root = r
  position : c.position = p
  boundary : CharBoundary r.text p
  le : p ≤ r.text.length
  leaf : (∃ pre l post, c.Valid pre l post) ∨ (c.leaf = none ∧ c.Shape ∧ p = r.text.length)

theorem skipChar_spec {r : Rope} {c : RopeCursor} (ha : Alive r c) {start : Nat} (hs : start < r.text.length) (hb : CharBoundary r.text start) :
    ∃ c' q, skipChar c start = some (c', none) ∧ Ready r c' q ∧ start < q ∧ ∀ k, start < k → k < q → ¬ CharBoundary r.text k := by
  obtain ⟨hr, hsh, hl⟩ := ha
  subst hr
  obtain ⟨c1, pre, l, post, e1, h1, h2, h3⟩ := set_spec hsh hl (p := start) (by omega)
  obtain ⟨c2, q, g1, g2, g3⟩ := next_spec finds_base h1 (fun _ => by rw [h2, h3]; exact hb)
  rw [h2, h3] at g2
  cases q with
  | none =>
    exfalso
    refine g2 c.root.text.length hs (Nat.le_refl _) ?_
    have := charBoundary_ends (Rope.text_utf8 h1.balanced) utf8_nil
    rw [List.append_nil, h2] at this
    exact this
  | some q =>
    obtain ⟨k1, k2⟩ := g3.found q rfl
    refine ⟨c2, q, by simp [skipChar, e1, g1], ⟨by rw [g3.root, h2], k1, g2.2.2.1, g2.2.1, .inl k2⟩, g2.1, g2.2.2.2⟩

/-- What a scanner has to do, for the matches `P` in the text `s`. -/
def ScanOk (s : List UInt8) (P : Nat → Prop) (scanner : List UInt8 → Option (Option Nat)) : Prop :=
  ∀ q leafRest tail, s.drop q = leafRest ++ tail → CharBoundary s q → q ≤ s.length → Utf8 leafRest →
    ∃ res, scanner leafRest = some res ∧
      match res with
      | some off => off < leafRest.length ∧ CharBoundary s (q + off) ∧ ∀ k, k < off → ¬ P (q + k)
      | none => ∀ k, k < leafRest.length → ¬ P (q + k)

/-- What a matcher has to do; `E p e` says that the match at `p` ends at `e`. -/
def MatchOk (r : Rope) (P : Nat → Prop) (E : Nat → Nat → Prop) (matcher : RopeCursor → Option (RopeCursor × Option Nat)) : Prop :=
  ∀ (c : RopeCursor) (p : Nat) pre l post, c.root = r → c.position = p → c.Valid pre l post → p < r.text.length → CharBoundary r.text p →
    ∃ c' res, matcher c = some (c', res) ∧
      match res with
      | some a => a = p ∧ P p ∧ ∃ e, E p e ∧ Ready r c' e
      | none => ¬ P p ∧ ∃ q, Ready r c' q ∧ p < q ∧ ∀ k, p < k → k < q → ¬ CharBoundary r.text k

/-- What one step of the search may return. -/
def StepOk (r : Rope) (P : Nat → Prop) (E : Nat → Nat → Prop) (p : Nat) (c : RopeCursor) : FindResult → Prop
  | .found q => IsFirst P p (some q) ∧ ∃ e, E q e ∧ Ready r c e
  | .notFound => IsFirst P p none
  | .tryAgain => ∃ q, p < q ∧ Ready r c q ∧ ∀ k, p ≤ k → k < q → ¬ P k

theorem findCore_spec {r : Rope} {P : Nat → Prop} {E : Nat → Nat → Prop} {scanner : List UInt8 → Option (Option Nat)}
    {matcher : RopeCursor → Option (RopeCursor × Option Nat)} (hP : ∀ p, P p → p < r.text.length ∧ CharBoundary r.text p)
    (hs : ScanOk r.text P scanner) (hm : MatchOk r P E matcher) {c : RopeCursor} {p : Nat} (h : Ready r c p) :
    ∃ c' res, findCore scanner matcher c = some (c', res) ∧ StepOk r P E p c' res := by
  obtain ⟨rfl, rfl, hb, hle, hl⟩ := h
  have hbal : c.root.Balanced := by
    rcases hl with ⟨_, _, _, h⟩ | ⟨_, h, _⟩
    · exact h.balanced
    · exact h.balanced
  have hlen : c.root.len = c.root.text.length := by
    obtain ⟨n, hw⟩ := hbal
    exact hw.len_eq
  unfold findCore
  simp only [hlen]
  by_cases he : c.position = c.root.text.length
  · rw [if_pos he]
    refine ⟨c, .notFound, rfl, ?_⟩
    intro k hk hPk
    have := (hP k hPk).1
    omega
  · rw [if_neg he]
    obtain ⟨pre, l, post, hv⟩ : ∃ pre l post, c.Valid pre l post := by
      rcases hl with h | ⟨_, _, h⟩
      · exact h
      · exact absurd h he
    have hlo := hv.lo
    have hhi := hv.hi
    have hat := hv.toAt
    have hrl := hat.rootLen
    rw [hlen] at hrl
    change _ = lenOf pre + (l.length + lenOf post) at hrl
    change c.position < lenOf pre + l.length ∨ (post = [] ∧ c.position = lenOf pre + l.length) at hhi
    have hlt : c.position < lenOf pre + l.length := by
      rcases hhi with h | ⟨rfl, h⟩
      · exact h
      · rw [lenOf_nil] at hrl; omega
    have hget : c.getLeaf = some (some (l, c.position - lenOf pre)) := by
      unfold getLeaf
      rw [hat.leaf]
      simp only [hat.off]
      rw [if_pos hlo]
    rw [hget]
    have hlu : Utf8 l := hat.ok.1
    have hb' := hat.boundary (p := c.position) ((boundary_iff_spec (Rope.text_utf8 hbal)).2 hb) (by omega) (by omega)
    obtain ⟨h1, h2, h3⟩ := utf8_split hlu hb'
    have hdrop : c.root.text.drop c.position = l.drop (c.position - lenOf pre) ++ post.flatMap (LeafSpec.content (L := List UInt8)) := by
      rw [hat.text, show LeafSpec.content (L := List UInt8) l = l from rfl]
      conv => lhs; rw [show c.position = (pre.flatMap (LeafSpec.content (L := List UInt8))).length + (c.position - lenOf pre) from by
        show _ = lenOf pre + _; omega]
      rw [List.drop_length_add_append, List.drop_append_of_le_length h1]
    obtain ⟨res, g1, g2⟩ := hs c.position _ _ hdrop hb hle h3
    simp only [Option.bind_eq_bind, Option.bind_some, strSlice_spec h1 hb' boundary_length, List.take_length, g1]
    cases res with
    | some off =>
      simp only at g2 ⊢
      obtain ⟨g2, g3, g4⟩ := g2
      rw [List.length_drop] at g2
      obtain ⟨c1, pre1, l1, post1, k1, k2, k3, k4⟩ := set_spec hat.shape (.inr ⟨pre, l, post, hat⟩) (p := c.position + off) (by omega)
      rw [k1]
      simp only [Option.bind_some]
      obtain ⟨c2, res, m1, m2⟩ := hm c1 _ pre1 l1 post1 k3 k4 k2 (by omega) g3
      rw [m1]
      simp only [Option.bind_some]
      cases res with
      | some a =>
        obtain ⟨rfl, m3, e, m4, m5⟩ := m2
        refine ⟨c2, _, rfl, ⟨by omega, m3, ?_⟩, e, m4, m5⟩
        intro k q1 q2
        have := g4 (k - c.position) (by omega)
        rwa [show c.position + (k - c.position) = k by omega] at this
      | none =>
        obtain ⟨m3, q, m4, m5, m6⟩ := m2
        refine ⟨c2, .tryAgain, rfl, q, by omega, m4, ?_⟩
        intro k q1 q2 hPk
        rcases Nat.lt_trichotomy k (c.position + off) with hk | hk | hk
        · have := g4 (k - c.position) (by omega)
          rw [show c.position + (k - c.position) = k by omega] at this
          exact this hPk
        · exact m3 (hk ▸ hPk)
        · exact m6 k hk q2 (hP k hPk).2
    | none =>
      simp only at g2 ⊢
      rw [List.length_drop] at g2
      have hno : ∀ k, c.position ≤ k → k < lenOf pre + l.length → ¬ P k := by
        intro k q1 q2
        have := g2 (k - c.position) (by omega)
        rwa [show c.position + (k - c.position) = k by omega] at this
      cases post with
      | nil =>
        obtain ⟨c1, k1, k2, k3, k4, k5⟩ := nextLeaf_none hat
        rw [k1]
        simp only [Option.bind_some]
        rw [lenOf_nil] at hrl
        refine ⟨c1, .tryAgain, rfl, c.root.text.length, by omega, ⟨k4, by rw [k5, hlen], ?_, Nat.le_refl _, .inr ⟨k2, k3, rfl⟩⟩, ?_⟩
        · have := charBoundary_ends (Rope.text_utf8 hbal) utf8_nil
          rwa [List.append_nil] at this
        · intro k q1 q2
          exact hno k q1 (by omega)
      | cons m post =>
        obtain ⟨c1, k1, k2, k3, k4⟩ := nextLeaf_some hat
        rw [k1]
        simp only [Option.bind_some]
        have hll : lenOf (pre ++ [l]) = lenOf pre + l.length := by rw [lenOf_append, lenOf_cons, lenOf_nil]; rfl
        have hmpos := hat.pos (.inr (by simp)) m (by simp)
        refine ⟨c1, .tryAgain, rfl, lenOf pre + l.length, by omega, ⟨k3, by omega, ?_, by omega, .inl ⟨_, _, _, k2, by omega, .inl ?_⟩⟩, hno⟩
        · have := hat.globalOf finds_base (k := l.length) (Nat.le_refl _) (by
            have := charBoundary_ends hlu utf8_nil
            rwa [List.append_nil] at this)
          exact this
        · rw [k4]
          omega

/-- The search, in any number of steps. -/
theorem findProgressIter_spec {r : Rope} {P : Nat → Prop} {E : Nat → Nat → Prop} {scanner : List UInt8 → Option (Option Nat)}
    {matcher : RopeCursor → Option (RopeCursor × Option Nat)} (hP : ∀ p, P p → p < r.text.length ∧ CharBoundary r.text p)
    (hs : ScanOk r.text P scanner) (hm : MatchOk r P E matcher) : ∀ (steps : Nat) {c : RopeCursor} {p : Nat}, Ready r c p →
    ∃ c' res, findProgressIter scanner matcher steps c = some (c', res) ∧
      match res with
      | .found q => IsFirst P p (some q) ∧ ∃ e, E q e ∧ Ready r c' e
      | .notFound => IsFirst P p none
      | .tryAgain => ∃ q, p + steps ≤ q ∧ Ready r c' q ∧ ∀ k, p ≤ k → k < q → ¬ P k
  | 0, c, p, h => ⟨c, .tryAgain, rfl, p, Nat.le_refl _, h, fun k h1 h2 => by omega⟩
  | steps + 1, c, p, h => by
    obtain ⟨c1, res, h1, h2⟩ := findCore_spec hP hs hm h
    simp only [findProgressIter, h1, Option.bind_eq_bind, Option.bind_some]
    cases res with
    | found q => exact ⟨c1, .found q, rfl, h2⟩
    | notFound => exact ⟨c1, .notFound, rfl, h2⟩
    | tryAgain =>
      obtain ⟨q, k1, k2, k3⟩ := h2
      obtain ⟨c2, res, g1, g2⟩ := findProgressIter_spec hP hs hm steps k2
      refine ⟨c2, res, g1, ?_⟩
      cases res with
      | found a =>
        obtain ⟨⟨a1, a2, a3⟩, a4⟩ := g2
        refine ⟨⟨by omega, a2, ?_⟩, a4⟩
        intro k q1 q2
        by_cases hk : k < q
        · exact k3 k q1 hk
        · exact a3 k (by omega) q2
      | notFound =>
        intro k q1
        by_cases hk : k < q
        · exact k3 k q1 hk
        · exact g2 k (by omega)
      | tryAgain =>
        obtain ⟨q', a1, a2, a3⟩ := g2
        refine ⟨q', by omega, a2, ?_⟩
        intro k q1 q2
        by_cases hk : k < q
        · exact k3 k q1 hk
        · exact a3 k (by omega) q2

theorem drop_at {c : RopeCursor} {pre post : List (List UInt8)} {l : List UInt8} (h : c.At pre l post) {q : Nat} (h1 : lenOf pre ≤ q)
    (h2 : q ≤ lenOf pre + l.length) : c.root.text.drop q = l.drop (q - lenOf pre) ++ joined post := by
  rw [h.text, show LeafSpec.content (L := List UInt8) l = l from rfl]
  conv => lhs; rw [show q = (pre.flatMap (LeafSpec.content (L := List UInt8))).length + (q - lenOf pre) from by
    show _ = lenOf pre + _; omega]
  rw [List.drop_length_add_append, List.drop_append_of_le_length (by omega)]
  rfl

/-- The comparison of the rest of the pattern with the text from `q` on. -/
theorem compareLoop_spec {r : Rope} {start success : Nat} : ∀ (fuel : Nat) {c : RopeCursor} {pre post : List (List UInt8)} {l pat : List UInt8},
    c.At pre l post → c.root = r → lenOf pre ≤ c.position → c.position ≤ lenOf pre + l.length → Utf8 (l.drop (c.position - lenOf pre)) →
    Utf8 pat → pat ≠ [] → post.length + 2 ≤ fuel →
    ∃ c1, Alive r c1 ∧ ((pat <+: r.text.drop c.position ∧ compareLoop start success fuel c pat = (c1.set success).map (fun c => (c, some start))) ∨
      (¬ pat <+: r.text.drop c.position ∧ compareLoop start success fuel c pat = skipChar c1 start))
  | 0, _, _, _, _, _, _, _, _, _, _, _, _, hf => by omega
  | fuel + 1, c, pre, post, l, pat, hat, hr, hlo, hhi, hlu, hpu, hne, hf => by
    subst hr
    have hget : c.getLeaf = some (some (l, c.position - lenOf pre)) := by
      unfold getLeaf
      rw [hat.leaf]
      simp only [hat.off]
      rw [if_pos hlo]
    have hd := drop_at hat hlo hhi
    rw [hd]
    simp only [compareLoop, hget, Option.bind_eq_bind, Option.bind_some]
    rw [if_neg (by omega)]
    have hrl : (l.drop (c.position - lenOf pre)).length = l.length - (c.position - lenOf pre) := List.length_drop
    rw [← hrl]
    generalize l.drop (c.position - lenOf pre) = rest at hlu hrl hd
    by_cases hle : pat.length ≤ rest.length
    · rw [Nat.min_eq_left hle, List.take_length]
      have hpre : pat <+: rest ++ joined post ↔ rest.take pat.length = pat := by
        rw [List.prefix_iff_eq_take, List.take_append_of_le_length hle]
        exact eq_comm
      by_cases he : rest.take pat.length = pat
      · refine ⟨c, Alive.of_at hat, .inl ⟨hpre.2 he, ?_⟩⟩
        simp only [he, ne_eq, not_true_eq_false, if_false, strSlice_spec (Nat.le_refl _) boundary_length boundary_length, Option.bind_some,
          List.take_length, List.drop_length, List.isEmpty_nil, if_true]
        cases c.set success <;> rfl
      · refine ⟨c, Alive.of_at hat, .inr ⟨fun h => he (hpre.1 h), ?_⟩⟩
        simp only [he, ne_eq, not_false_eq_true, if_true]
    · rw [Nat.min_eq_right (by omega), List.take_length]
      by_cases he : rest = pat.take rest.length
      · obtain ⟨x, rfl⟩ : ∃ x, pat = rest ++ x := by
          refine ⟨pat.drop rest.length, ?_⟩
          conv => rhs; lhs; rw [he]
          exact (List.take_append_drop _ _).symm
        have hxu := utf8_right hlu hpu
        have hxne : x ≠ [] := by
          rintro rfl
          simp at hle
        have hsl : strSlice (rest ++ x) rest.length (rest ++ x).length = some x := by
          rw [strSlice_spec (by simp) (boundary_append hxu) boundary_length, List.take_length, List.drop_left]
        simp only [List.take_left, ne_eq, not_true_eq_false, if_false, hsl, Option.bind_some]
        rw [if_neg (by simpa using hxne)]
        have hpp : rest ++ x <+: rest ++ joined post ↔ x <+: joined post := List.prefix_append_right_inj _
        cases post with
        | nil =>
          obtain ⟨c1, k1, k2, k3, k4, k5⟩ := nextLeaf_none hat
          rw [k1]
          simp only [Option.bind_some]
          obtain ⟨fuel, rfl⟩ : ∃ f, fuel = f + 1 := ⟨fuel - 1, by simp at hf; omega⟩
          have hg : c1.getLeaf = some none := by unfold getLeaf; rw [k2]
          refine ⟨c1, ⟨k4, k3, .inl k2⟩, .inr ⟨?_, ?_⟩⟩
          · rw [hpp, joined_nil, List.prefix_nil]
            exact hxne
          · simp [compareLoop, hg]
        | cons m post =>
          obtain ⟨c1, k1, k2, k3, k4⟩ := nextLeaf_some hat
          rw [k1]
          simp only [Option.bind_some]
          have hmu : Utf8 m := k2.ok.1
          obtain ⟨c2, g1, g2⟩ := compareLoop_spec (r := c.root) (start := start) (success := success) fuel k2 k3 (by omega) (by omega)
            (by rw [k4, Nat.sub_self, List.drop_zero]; exact hmu) hxu hxne (by simp at hf; omega)
          refine ⟨c2, g1, ?_⟩
          have hd1 := drop_at k2 (q := c1.position) (by omega) (by omega)
          rw [k3, k4, Nat.sub_self, List.drop_zero] at hd1
          rw [k4, hd1] at g2
          rw [hpp, joined_cons]
          exact g2
      · refine ⟨c, Alive.of_at hat, .inr ⟨?_, ?_⟩⟩
        · intro h
          apply he
          rw [List.prefix_iff_eq_take] at h
          have := congrArg (List.take rest.length) h
          rw [List.take_take, Nat.min_eq_left (by omega), List.take_left] at this
          exact this.symm
        · simp only [he, ne_eq, not_false_eq_true, if_true]

theorem lenOf_pos : ∀ {ls : List (List UInt8)}, (∀ x ∈ ls, 0 < x.length) → ls.length ≤ lenOf ls
  | [], _ => by simp
  | x :: ls, h => by
    have h1 := h x (by simp)
    have h2 := lenOf_pos (ls := ls) (fun y hy => h y (by simp [hy]))
    rw [lenOf_cons, List.length_cons]
    change _ ≤ x.length + _
    omega

theorem leaves_le {c : RopeCursor} {pre post : List (List UInt8)} {l : List UInt8} (h : c.At pre l post) : post.length ≤ c.root.len := by
  have hr := h.rootLen
  suffices post.length ≤ lenOf post by omega
  by_cases hp : post = []
  · subst hp; simp
  · exact lenOf_pos (fun x hx => h.pos (.inr hp) x (by simp [hx]))

/-! ## Exact search -/

theorem exact_boundary {s pat : List UInt8} (hs : Utf8 s) (hp : Utf8 pat) (hne : pat ≠ []) {p : Nat} (h : pat <+: s.drop p) :
    p < s.length ∧ CharBoundary s p ∧ CharBoundary s (p + pat.length) ∧ p + pat.length ≤ s.length := by
  obtain ⟨t, ht⟩ := h
  have hl := congrArg List.length ht
  rw [List.length_append, List.length_drop] at hl
  have hpos := List.length_pos_iff.2 hne
  have hb : CharBoundary s p := by
    rw [← boundary_iff_spec hs]
    cases pat with
    | nil => exact absurd rfl hne
    | cons b pat =>
      have hg : s[p]? = some b := by
        have := congrArg (fun l => l[0]?) ht
        simpa using this.symm
      simp only [isCharBoundary, hg, utf8_head hp]
      simp
  refine ⟨by omega, hb, ?_, by omega⟩
  obtain ⟨h1, h2, h3⟩ := utf8_split hs ((boundary_iff_spec hs).2 hb)
  rw [← ht] at h3
  have h4 := utf8_right hp h3
  have := charBoundary_ends (utf8_append h2 hp) h4
  rw [List.append_assoc, ht, List.take_append_drop, List.length_append, List.length_take, Nat.min_eq_left h1] at this
  exact this

theorem exact_matcher {r : Rope} {pat : List UInt8} (hp : Utf8 pat) (hne : pat ≠ []) :
    MatchOk r (fun p => pat <+: r.text.drop p) (fun p e => e = p + pat.length) (fun c => compareCursorStr c pat) := by
  rintro c p pre l post rfl rfl hv hlt hb
  have hut := Rope.text_utf8 hv.balanced
  have hlo := hv.lo
  have hhi : c.position ≤ lenOf pre + l.length := by
    rcases hv.hi with h | ⟨-, h⟩
    · exact Nat.le_of_lt h
    · exact Nat.le_of_eq h
  have hlu : Utf8 l := hv.ok.1
  have hb' := hv.boundary (p := c.position) ((boundary_iff_spec hut).2 hb) (by omega) hhi
  obtain ⟨h1, h2, h3⟩ := utf8_split hlu hb'
  have hle := leaves_le hv.toAt
  obtain ⟨c1, ha, hres⟩ := compareLoop_spec (start := c.position) (success := c.position + pat.length) (c.root.len + 2) hv.toAt rfl hlo hhi h3 hp hne
    (by omega)
  simp only [compareCursorStr, List.isEmpty_eq_false_iff.2 hne, Bool.false_eq_true, if_false]
  rcases hres with ⟨g1, g2⟩ | ⟨g1, g2⟩
  · obtain ⟨k1, k2, k3, k4⟩ := exact_boundary hut hp hne g1
    have har := ha.root
    obtain ⟨c2, pre2, l2, post2, e1, e2, e3, e4⟩ := set_spec ha.shape ha.leaf (p := c.position + pat.length) (by rw [har]; exact k4)
    refine ⟨c2, some c.position, by rw [g2, e1]; rfl, rfl, g1, _, rfl, ⟨by rw [e3, har], e4, k3, k4, .inl ⟨_, _, _, e2⟩⟩⟩
  · obtain ⟨c2, q, e1, e2, e3, e4⟩ := skipChar_spec ha hlt hb
    exact ⟨c2, none, by rw [g2, e1], g1, q, e2, e3, e4⟩

theorem memchr_findIdx (b : UInt8) (s : List UInt8) : memchr b s = s.findIdx? (fun x => x == b) := by
  induction s with
  | nil => rfl
  | cons x s ih =>
    simp only [memchr, List.findIdx?_cons, ih, beq_iff_eq]

/-- A scanner for bytes. -/
theorem bytes_scanner {s : List UInt8} (hs : Utf8 s) {P : Nat → Prop} {f : UInt8 → Bool} (hf : ∀ b, f b = true → isCont b = false)
    (hP : ∀ p, P p → ∃ b, s[p]? = some b ∧ f b = true) : ScanOk s P (fun t => some (t.findIdx? f)) := by
  intro q rest tail hd hb hq hu
  refine ⟨_, rfl, ?_⟩
  have hget : ∀ k, k < rest.length → s[q + k]? = rest[k]? := by
    intro k hk
    rw [← List.getElem?_drop, hd, List.getElem?_append_left hk]
  cases hr : rest.findIdx? f with
  | some off =>
    rw [List.findIdx?_eq_some_iff_getElem] at hr
    obtain ⟨h1, h2, h3⟩ := hr
    refine ⟨h1, ?_, ?_⟩
    · rw [← boundary_iff_spec hs]
      have := hget off h1
      rw [List.getElem?_eq_getElem h1] at this
      simp only [isCharBoundary, this, hf _ h2]
      simp
    · intro k hk hPk
      obtain ⟨b, e1, e2⟩ := hP _ hPk
      rw [hget k (by omega), List.getElem?_eq_getElem (by omega)] at e1
      injection e1 with e1
      exact h3 k hk (by rw [e1]; exact e2)
  | none =>
    rw [List.findIdx?_eq_none_iff] at hr
    intro k hk hPk
    obtain ⟨b, e1, e2⟩ := hP _ hPk
    rw [hget k hk] at e1
    have := hr b (List.mem_of_getElem? e1)
    rw [this] at e2
    exact absurd e2 (by simp)

theorem exact_scanner {s pat : List UInt8} {b : UInt8} (hs : Utf8 s) (hp : Utf8 pat) (hb : pat[0]? = some b) :
    ScanOk s (fun p => pat <+: s.drop p) (fun t => some (memchr b t)) := by
  have : (fun t => some (memchr b t)) = (fun t : List UInt8 => some (t.findIdx? (fun x => x == b))) := by
    funext t
    rw [memchr_findIdx]
  rw [this]
  cases pat with
  | nil => simp at hb
  | cons x pat =>
    simp at hb
    subst hb
    refine bytes_scanner hs ?_ ?_
    · intro y hy
      rw [beq_iff_eq] at hy
      rw [hy]
      exact utf8_head hp
    · rintro p ⟨t, ht⟩
      refine ⟨x, ?_, by simp⟩
      have := congrArg (fun l => l[0]?) ht
      simpa using this.symm

/-! ## Search that ignores case -/

theorem enc_inj : ∀ {a b : List Char}, enc a = enc b → a = b
  | [], [], _ => rfl
  | [], c :: b, h => by
    obtain ⟨x, r, e, -⟩ := encode_shape c
    simp [enc, e] at h
  | c :: a, [], h => by
    obtain ⟨x, r, e, -⟩ := encode_shape c
    simp [enc, e] at h
  | c :: a, d :: b, h => by
    simp only [enc, List.flatMap_cons] at h
    have h1 := encode_inj h
    subst h1
    have h2 := (encode_prefix h).2
    rw [enc_inj h2]

theorem enc_append (a b : List Char) : enc (a ++ b) = enc a ++ enc b := by simp [enc]

theorem enc_cons (c : Char) (a : List Char) : enc (c :: a) = String.utf8EncodeChar c ++ enc a := by simp [enc]

theorem enc_pos : ∀ {a : List Char}, a ≠ [] → 0 < (enc a).length
  | [], h => absurd rfl h
  | c :: a, _ => by
    obtain ⟨x, r, e, -⟩ := encode_shape c
    rw [enc_cons, e]
    simp

theorem length_le_enc : ∀ (a : List Char), a.length ≤ (enc a).length
  | [] => by simp
  | c :: a => by
    obtain ⟨x, r, e, -⟩ := encode_shape c
    have := length_le_enc a
    rw [enc_cons, e]
    simp only [List.length_append, List.length_cons]
    omega

/-- Two ways to cut a text: the shorter beginning is a prefix of the longer one. -/
theorem cut_prefix {a b a' b' : List Char} (h : enc a ++ enc b = enc a' ++ enc b') (hl : (enc a).length ≤ (enc a').length) :
    ∃ x, a' = a ++ x ∧ b = x ++ b' := by
  rw [← enc_append, ← enc_append] at h
  have h := enc_inj h
  rcases List.append_eq_append_iff.1 h with ⟨x, h1, h2⟩ | ⟨x, h1, h2⟩
  · exact ⟨x, h1, h2⟩
  · by_cases hx : x = []
    · subst hx
      exact ⟨[], by simpa using h1.symm, by simpa using h2.symm⟩
    · have := enc_pos hx
      rw [h1, enc_append, List.length_append] at hl
      omega

theorem next_char {A B : List Char} {c : Char} : IsNext (CharBoundary (enc A ++ enc (c :: B))) (enc A ++ enc (c :: B)).length (enc A).length
    (some ((enc A).length + (String.utf8EncodeChar c).length)) := by
  have hpos : 0 < (String.utf8EncodeChar c).length := by
    obtain ⟨x, r, e, -⟩ := encode_shape c
    simp [e]
  refine ⟨by omega, by simp [enc], ⟨A ++ [c], B, by simp, by simp⟩, ?_⟩
  rintro k h1 h2 ⟨a, b, e1, rfl⟩
  obtain ⟨x, e2, e3⟩ := cut_prefix e1 (Nat.le_of_lt h1)
  cases x with
  | nil => simp [e2] at h1
  | cons y x =>
    injection e3 with e3 e4
    subst e3
    rw [e2] at h2
    simp at h2
    omega

theorem caseiChars_differs : ∀ {lcs rest : List Char} {c : Char}, caseiChars lcs c rest = .differs → ∀ z, ¬ c :: rest <+: lcs ++ z
  | [], rest, c, h, z => by simp [caseiChars] at h
  | lc :: lcs, rest, c, h, z => by
    simp only [caseiChars] at h
    rw [List.cons_append, List.cons_prefix_cons]
    split at h
    · rename_i hc
      exact fun h => hc h.1
    · cases rest with
      | nil => simp at h
      | cons d rest => exact fun h' => caseiChars_differs h z h'.2

theorem caseiChars_complete : ∀ {lcs rest : List Char} {c : Char}, caseiChars lcs c rest = .complete → c :: rest <+: lcs
  | [], rest, c, h => by simp [caseiChars] at h
  | lc :: lcs, rest, c, h => by
    simp only [caseiChars] at h
    rw [List.cons_prefix_cons]
    split at h
    · simp at h
    · rename_i hc
      refine ⟨by simpa using hc, ?_⟩
      cases rest with
      | nil => simp
      | cons d rest => exact caseiChars_complete h

theorem caseiChars_more : ∀ {lcs rest : List Char} {c c' : Char} {rest' : List Char}, caseiChars lcs c rest = .more c' rest' → c :: rest = lcs ++ c' :: rest'
  | [], rest, c, c', rest', h => by
    simp [caseiChars] at h
    simp [h]
  | lc :: lcs, rest, c, c', rest', h => by
    simp only [caseiChars] at h
    split at h
    · simp at h
    · rename_i hc
      cases rest with
      | nil => simp at h
      | cons d rest =>
        rw [caseiChars_more h, List.cons_append, show c = lc by simpa using hc]

theorem Ready.balanced {r : Rope} {c : RopeCursor} {p : Nat} (h : Ready r c p) : r.Balanced := by
  have hr := h.root
  rcases h.leaf with ⟨_, _, _, h⟩ | ⟨_, h, _⟩
  · exact hr ▸ h.balanced
  · exact hr ▸ h.balanced

/-- Reading the next character. -/
theorem nextCodepoint_some {r : Rope} {c : RopeCursor} {A B : List Char} {x : Char} (ht : r.text = enc A ++ enc (x :: B))
    (h : Ready r c (enc A).length) :
    ∃ c', c.nextCodepoint = some (c', some x) ∧ Ready r c' ((enc A).length + (String.utf8EncodeChar x).length) := by
  have hn := next_char (A := A) (B := B) (c := x)
  rw [← ht] at hn
  have hlt : (enc A).length < r.text.length := by have := hn.1; have := hn.2.1; omega
  obtain ⟨hr, hp, hb, hle, hl⟩ := h
  subst hr
  obtain ⟨pre, l, post, hv⟩ : ∃ pre l post, c.Valid pre l post := by
    rcases hl with h | ⟨_, _, h⟩
    · exact h
    · omega
  rw [← hp] at hb hn
  obtain ⟨ch, e1, e2, e3⟩ := leafChar hv hb
  have : ch = some x := by
    refine charAt_unique e3 (b := some x) ⟨enc B, ?_⟩
    rw [ht, hp, List.drop_left, enc_cons]
  subst this
  obtain ⟨c2, q, g1, g2, g3⟩ := next_spec finds_base hv (fun _ => hb)
  obtain rfl := isNext_unique g2 hn
  obtain ⟨k1, k2⟩ := g3.found _ rfl
  rw [hp] at k1 hn
  refine ⟨c2, by simp [nextCodepoint, e1, g1, e2], ⟨g3.root, k1, hn.2.2.1, hn.2.1, .inl k2⟩⟩

/-- Reading at the end. -/
theorem nextCodepoint_none {r : Rope} {c : RopeCursor} (h : Ready r c r.text.length) :
    ∃ c', c.nextCodepoint = some (c', none) ∧ Alive r c' := by
  obtain ⟨hr, hp, hb, hle, hl⟩ := h
  subst hr
  rcases hl with ⟨pre, l, post, hv⟩ | ⟨h1, h2, -⟩
  · rw [← hp] at hb
    obtain ⟨ch, e1, e2, e3⟩ := leafChar hv hb
    obtain rfl := charAt_unique e3 (b := none) hp
    obtain ⟨c2, q, g1, g2, g3⟩ := next_spec finds_base hv (fun _ => hb)
    cases q with
    | some q => have := g2.1; have := g2.2.1; omega
    | none =>
      obtain ⟨k1, k2⟩ := g3.lost rfl
      exact ⟨c2, by simp [nextCodepoint, e1, g1, e2], ⟨g3.root, k2, .inl k1⟩⟩
  · exact ⟨c, by simp [nextCodepoint, getLeaf, h1], ⟨rfl, h2, .inl h1⟩⟩

theorem Ready.alive {r : Rope} {c : RopeCursor} {p : Nat} (h : Ready r c p) : Alive r c := by
  obtain ⟨rfl, -, -, -, h⟩ := h
  rcases h with ⟨pre, l, post, h⟩ | ⟨h1, h2, -⟩
  · exact Alive.of_at h.toAt
  · exact ⟨rfl, h2, .inl h1⟩

/-- The comparison of the rest of the pattern with the characters from the cursor on. -/
theorem caseiLoop_spec {r : Rope} {lower : CaseTable} {start : Nat} : ∀ (fuel : Nat) {c : RopeCursor} {A B rest : List Char} {x : Char},
    r.text = enc A ++ enc B → Ready r c (enc A).length → B.length + 1 ≤ fuel →
    (∃ c' u v, B = u ++ v ∧ x :: rest <+: u.flatMap lower.char ∧ (∀ w, w <+: u → w ≠ u → ¬ x :: rest <+: w.flatMap lower.char) ∧
      caseiLoop lower start fuel c x rest = some (c', some start) ∧ Ready r c' ((enc A).length + (enc u).length)) ∨
    (¬ x :: rest <+: B.flatMap lower.char ∧ ∃ c', Alive r c' ∧ caseiLoop lower start fuel c x rest = skipChar c' start)
  | 0, _, _, _, _, _, _, _, h => by omega
  | fuel + 1, c, A, [], rest, x, ht, hc, hf => by
    right
    have : (enc A).length = r.text.length := by rw [ht]; simp
    obtain ⟨c', h1, h2⟩ := nextCodepoint_none (this ▸ hc)
    refine ⟨by simp, c', h2, by simp [caseiLoop, h1]⟩
  | fuel + 1, c, A, y :: B, rest, x, ht, hc, hf => by
    obtain ⟨c', h1, h2⟩ := nextCodepoint_some ht hc
    simp only [caseiLoop, h1, Option.bind_eq_bind, Option.bind_some]
    cases hs : caseiChars (lower.char y) x rest with
    | differs =>
      right
      refine ⟨?_, c', h2.alive, rfl⟩
      rw [List.flatMap_cons]
      exact caseiChars_differs hs _
    | complete =>
      left
      refine ⟨c', [y], B, rfl, ?_, ?_, rfl, ?_⟩
      · simpa using caseiChars_complete hs
      · intro w hw hne
        cases w with
        | nil => simp
        | cons z w =>
          rw [List.cons_prefix_cons, List.prefix_nil] at hw
          exact absurd (by rw [hw.1, hw.2]) hne
      · simpa using h2
    | more x' rest' =>
      have hm := caseiChars_more hs
      rw [hm]
      have hA : enc (A ++ [y]) = enc A ++ String.utf8EncodeChar y := by simp
      rcases caseiLoop_spec (r := r) (start := start) (lower := lower) fuel (c := c') (A := A ++ [y]) (B := B) (x := x') (rest := rest')
        (by rw [ht, hA, enc_cons, List.append_assoc]) (by rw [hA, List.length_append]; exact h2) (by simp at hf; omega) with
        ⟨c2, u, v, g1, g2, g3, g4, g5⟩ | ⟨g1, c2, g2, g3⟩
      · left
        refine ⟨c2, y :: u, v, by rw [g1]; rfl, ?_, ?_, g4, ?_⟩
        · rw [List.flatMap_cons]
          exact (List.prefix_append_right_inj _).2 g2
        · intro w hw hne
          cases w with
          | nil => simp
          | cons z w =>
            rw [List.cons_prefix_cons] at hw
            obtain ⟨rfl, hw⟩ := hw
            rw [List.flatMap_cons, List.prefix_append_right_inj]
            exact g3 w hw (fun h => hne (by rw [h]))
        · rw [enc_cons, List.length_append]
          rw [hA, List.length_append] at g5
          rw [← Nat.add_assoc]
          exact g5
      · right
        refine ⟨?_, c2, g2, g3⟩
        rw [List.flatMap_cons, List.prefix_append_right_inj]
        exact g1

theorem casei_matcher {r : Rope} {lower : CaseTable} {low : List Char} (hne : low ≠ []) :
    MatchOk r (CaseAt lower.char r.text low) (CaseEnd lower.char r.text low) (fun c => compareCursorStrCasei lower c low) := by
  rintro c p pre l post rfl rfl hv hlt hb
  cases low with
  | nil => exact absurd rfl hne
  | cons x rest =>
    obtain ⟨A, B, ht, hp⟩ := hb
    change c.root.text = enc A ++ enc B at ht
    change c.position = (enc A).length at hp
    have hlen : c.root.len = c.root.text.length := by
      obtain ⟨n, hw⟩ := hv.balanced
      exact hw.len_eq
    have hB : B.length + 1 ≤ c.root.len + 1 := by
      have := length_le_enc B
      rw [hlen, ht, List.length_append]
      omega
    have hR : Ready c.root c (enc A).length := ⟨rfl, hp, ⟨A, B, ht, rfl⟩, by rw [← hp]; omega, .inl ⟨_, _, _, hv⟩⟩
    simp only [compareCursorStrCasei]
    rcases caseiLoop_spec (lower := lower) (start := c.position) (x := x) (rest := rest) (c.root.len + 1) ht hR hB with
      ⟨c2, u, v, g1, g2, g3, g4, g5⟩ | ⟨g1, c2, g2, g3⟩
    · refine ⟨c2, _, g4, rfl, ⟨A, B, ht, hp, ?_⟩, _, ⟨A, u, v, by rw [ht, g1, enc_append], hp, rfl, g2, g3⟩, g5⟩
      rw [g1, List.flatMap_append]
      exact g2.trans (List.prefix_append _ _)
    · obtain ⟨c3, q, e1, e2, e3, e4⟩ := skipChar_spec g2 hlt ⟨A, B, ht, hp⟩
      refine ⟨c3, none, by rw [g3, e1], ?_, q, e2, e3, e4⟩
      rintro ⟨a, b, k1, k2, k3⟩
      obtain ⟨z, e5, e6⟩ := cut_prefix (a := A) (b := B) (a' := a) (b' := b) (by rw [← k1]; exact ht.symm) (by rw [← k2]; exact Nat.le_of_eq hp.symm)
      have : z = [] := by
        by_cases hz : z = []
        · exact hz
        · have := enc_pos hz
          rw [k2, e5, enc_append, List.length_append] at hp
          have : (enc A).length + (enc z).length = (enc A).length := hp
          omega
      subst this
      rw [e6] at g1
      exact g1 k3

theorem caseAt_lt {lower : Char → List Char} {s : List UInt8} {low : List Char} (hne : low ≠ []) {p : Nat} (h : CaseAt lower s low p) :
    p < s.length ∧ CharBoundary s p := by
  obtain ⟨a, b, h1, h2, h3⟩ := h
  refine ⟨?_, a, b, h1, h2⟩
  have hb : b ≠ [] := by
    rintro rfl
    simp at h3
    exact hne h3
  have := enc_pos hb
  rw [h1, h2, List.length_append]
  omega

theorem charsFuel_enc : ∀ (fuel : Nat) (cs : List Char), cs.length ≤ fuel → charsFuel fuel (enc cs) = cs
  | 0, cs, h => by
    rw [List.length_eq_zero_iff.1 (Nat.le_zero.1 h)]
    rfl
  | fuel + 1, [], _ => by
    simp only [charsFuel]
    rfl
  | fuel + 1, c :: cs, h => by
    simp only [charsFuel, enc_cons, firstChar_encode, List.drop_left]
    rw [charsFuel_enc fuel cs (by simpa using h)]

theorem chars_enc (cs : List Char) : chars (enc cs) = cs := charsFuel_enc _ _ (length_le_enc cs)

theorem scanLowercase_spec {lower : CaseTable} (hne : ∀ c, lower.char c ≠ []) {probe : Char} : ∀ (cs : List Char) (i : Nat),
    ∃ res, scanLowercase lower probe i cs = some res ∧
      match res with
      | some j => ∃ a c b, cs = a ++ c :: b ∧ j = i + (enc a).length ∧ ∀ x ∈ a, (lower.char x)[0]? ≠ some probe
      | none => ∀ x ∈ cs, (lower.char x)[0]? ≠ some probe
  | [], i => ⟨none, rfl, by simp⟩
  | c :: cs, i => by
    obtain ⟨f, t, hf⟩ := List.exists_cons_of_ne_nil (hne c)
    have h0 : (lower.char c)[0]? = some f := by rw [hf]; rfl
    simp only [scanLowercase, h0, Option.bind_eq_bind, Option.bind_some]
    by_cases he : f = probe
    · exact ⟨some i, by rw [if_pos he]; rfl, [], c, cs, rfl, by simp, by simp⟩
    · rw [if_neg he]
      obtain ⟨res, h1, h2⟩ := scanLowercase_spec hne (probe := probe) cs (i + (String.utf8EncodeChar c).length)
      refine ⟨res, h1, ?_⟩
      have hc : (lower.char c)[0]? ≠ some probe := by rw [h0]; simpa using he
      cases res with
      | some j =>
        obtain ⟨a, d, b, e1, e2, e3⟩ := h2
        refine ⟨c :: a, d, b, by rw [e1]; rfl, by rw [e2, enc_cons, List.length_append]; omega, ?_⟩
        intro x hx
        rcases List.mem_cons.1 hx with rfl | hx
        · exact hc
        · exact e3 x hx
      | none =>
        intro x hx
        rcases List.mem_cons.1 hx with rfl | hx
        · exact hc
        · exact h2 x hx

/-- The first character of a match. -/
theorem caseAt_first {lower : CaseTable} (hne : ∀ c, lower.char c ≠ []) {s : List UInt8} {x : Char} {low : List Char} {p : Nat}
    (h : CaseAt lower.char s (x :: low) p) : ∃ a c b, s = enc a ++ enc (c :: b) ∧ p = (enc a).length ∧ (lower.char c)[0]? = some x := by
  obtain ⟨a, b, h1, h2, h3⟩ := h
  cases b with
  | nil => simp at h3
  | cons c b =>
    refine ⟨a, c, b, h1, h2, ?_⟩
    obtain ⟨f, t, hf⟩ := List.exists_cons_of_ne_nil (hne c)
    rw [List.flatMap_cons, hf, List.cons_append, List.cons_prefix_cons] at h3
    rw [hf, h3.1]
    rfl

/-- The scanner that decodes the characters. -/
theorem lower_scanner {s : List UInt8} {lower : CaseTable} (hs : Utf8 s) (hne : ∀ c, lower.char c ≠ []) {x : Char} {low : List Char} :
    ScanOk s (CaseAt lower.char s (x :: low)) (fun t => scanLowercase lower x 0 (chars t)) := by
  rintro q _ tail hd ⟨A, B, ht, hq⟩ hle ⟨cs, rfl⟩
  change s = enc A ++ enc B at ht
  change q = (enc A).length at hq
  change s.drop q = enc cs ++ tail at hd
  rw [ht, hq, List.drop_left] at hd
  obtain ⟨D, rfl⟩ : Utf8 tail := utf8_right (a := enc cs) ⟨cs, rfl⟩ (by rw [← hd]; exact ⟨B, rfl⟩)
  change enc B = enc cs ++ enc D at hd
  rw [← enc_append] at hd
  obtain rfl := enc_inj hd
  simp only [chars_enc]
  obtain ⟨res, h1, h2⟩ := scanLowercase_spec hne (probe := x) cs 0
  refine ⟨res, h1, ?_⟩
  have key : ∀ (a b : List Char), cs = a ++ b → (∀ y ∈ a, (lower.char y)[0]? ≠ some x) → ∀ k, k < (enc a).length →
      ¬ CaseAt lower.char s (x :: low) (q + k) := by
    rintro a b rfl ha k hk hc
    obtain ⟨a', c, b', e1, e2, e3⟩ := caseAt_first hne hc
    rw [ht] at e1
    obtain ⟨z, e4, e5⟩ := cut_prefix e1 (by omega)
    rw [e4, enc_append, List.length_append] at e2
    have hz : (enc z).length ≤ (enc a).length := by omega
    have e5' : enc z ++ enc (c :: b') = enc a ++ enc (b ++ D) := by
      rw [← enc_append, ← enc_append, ← e5, List.append_assoc]
    obtain ⟨w, e6, e7⟩ := cut_prefix e5' hz
    cases w with
    | nil =>
      rw [List.append_nil] at e6
      subst e6
      omega
    | cons w0 w =>
      injection e7 with e7 e8
      subst e7
      exact ha c (by rw [e6]; simp) e3
  cases res with
  | some j =>
    obtain ⟨a, c, b, e1, e2, e3⟩ := h2
    subst e1
    rw [Nat.zero_add] at e2
    subst e2
    refine ⟨?_, ⟨A ++ a, (c :: b) ++ D, ?_, ?_⟩, key a _ rfl e3⟩
    · have := enc_pos (a := c :: b) (by simp)
      change (enc a).length < (enc (a ++ c :: b)).length
      rw [enc_append, List.length_append]
      omega
    · rw [ht]
      simp [enc]
    · rw [hq]
      simp [enc]
  | none => exact key cs [] (by simp) h2

theorem encode_ascii {c : Char} (h : c.toNat < 128) : String.utf8EncodeChar c = [c.toNat.toUInt8] := by
  have hv : c.val.toNat ≤ 127 := Nat.le_of_lt_succ h
  simp only [String.utf8EncodeChar, hv, if_true]
  rfl

theorem encode_wide {c : Char} (h : ¬ c.toNat < 128) : ∃ b t, String.utf8EncodeChar c = b :: t ∧ 128 ≤ b.toNat := by
  have hv := char_bound c
  have h' : ¬ c.val.toNat ≤ 127 := fun h' => h (Nat.lt_succ_of_le h')
  unfold String.utf8EncodeChar
  simp only []
  generalize c.val.toNat = v at hv h'
  rw [if_neg h']
  split
  · exact ⟨_, _, rfl, by simp; omega⟩
  · split
    · exact ⟨_, _, rfl, by simp; omega⟩
    · exact ⟨_, _, rfl, by simp; omega⟩

theorem casei_scanner {s : List UInt8} {lower : CaseTable} (hs : Utf8 s) (hl : lower.Ok) {pat low : List Char} {x : Char} {b : UInt8}
    (hb : (enc (x :: low))[0]? = some b) (hx : x.toNat < 128 ∨ pat[0]? = some x) :
    ScanOk s (CaseAt lower.char s (x :: low)) (caseiScanner lower pat b) := by
  have hbytes : ∀ (f : UInt8 → Bool), (∀ b, f b = true → isCont b = false) →
      (∀ c, (lower.char c)[0]? = some x → ∃ b t, String.utf8EncodeChar c = b :: t ∧ f b = true) →
      ScanOk s (CaseAt lower.char s (x :: low)) (fun t => some (t.findIdx? f)) := by
    intro f h1 h2
    refine bytes_scanner hs h1 ?_
    intro p hp
    obtain ⟨a, c, b', e1, rfl, e3⟩ := caseAt_first hl.char_ne hp
    obtain ⟨b, t, e4, e5⟩ := h2 c e3
    exact ⟨b, by rw [e1, enc_cons, e4]; simp, e5⟩
  by_cases hxa : x.toNat < 128
  · have hbx : b.toNat = x.toNat := by
      rw [enc_cons, encode_ascii hxa] at hb
      simp at hb
      rw [← hb]
      simp
      omega
    have hasc := fun c h => hl.ascii c x h hxa
    have hlow : ∀ c, c = x → ∃ b' t, String.utf8EncodeChar c = b' :: t ∧ b' = b := by
      rintro c rfl
      refine ⟨_, _, encode_ascii hxa, ?_⟩
      apply UInt8.toNat_inj.1
      rw [hbx]
      simp
      omega
    have hup : ∀ c : Char, 97 ≤ x.toNat → x.toNat ≤ 122 → c.toNat + 32 = x.toNat → ∃ b' t, String.utf8EncodeChar c = b' :: t ∧ b' = b - 0x20 := by
      intro c h1 h2 h3
      refine ⟨_, _, encode_ascii (by omega), ?_⟩
      apply UInt8.toNat_inj.1
      rw [UInt8.toNat_sub_of_le _ _ (by rw [UInt8.le_iff_toNat_le, hbx]; simp; omega), hbx]
      simp
      omega
    have hchar : ∀ c d : Char, c.toNat = d.toNat → c = d := fun c d h => Char.toNat_inj.1 h
    have nasc : ∀ y : UInt8, y.toNat < 128 → isCont y = false := by
      intro y hy
      simp only [isCont, Bool.and_eq_false_imp, decide_eq_true_eq]
      omega
    by_cases h1 : b = 105
    · subst h1
      have : caseiScanner lower pat 105 = fun t => some (t.findIdx? (fun x => x == 105 || x == 73 || x == 0xC4)) := by
        funext t; rfl
      rw [this]
      refine hbytes _ ?_ ?_
      · intro y hy
        simp only [Bool.or_eq_true, beq_iff_eq] at hy
        rcases hy with (rfl | rfl) | rfl <;> rfl
      · intro c hc
        rcases hasc c hc with h | ⟨h3, h4, h5⟩ | ⟨-, h⟩ | ⟨h, -⟩
        · obtain ⟨b', t, e1, rfl⟩ := hlow c h
          exact ⟨_, t, e1, rfl⟩
        · obtain ⟨b', t, e1, rfl⟩ := hup c h3 h4 h5
          exact ⟨_, t, e1, rfl⟩
        · obtain rfl := hchar c 'İ' h
          exact ⟨0xC4, _, rfl, rfl⟩
        · subst h
          simp at hbx
    · by_cases h2 : b = 107
      · subst h2
        have : caseiScanner lower pat 107 = fun t => some (t.findIdx? (fun x => x == 107 || x == 75 || x == 0xE2)) := by
          funext t; rfl
        rw [this]
        refine hbytes _ ?_ ?_
        · intro y hy
          simp only [Bool.or_eq_true, beq_iff_eq] at hy
          rcases hy with (rfl | rfl) | rfl <;> rfl
        · intro c hc
          rcases hasc c hc with h | ⟨h3, h4, h5⟩ | ⟨h, -⟩ | ⟨-, h⟩
          · obtain ⟨b', t, e1, rfl⟩ := hlow c h
            exact ⟨_, t, e1, rfl⟩
          · obtain ⟨b', t, e1, rfl⟩ := hup c h3 h4 h5
            exact ⟨_, t, e1, rfl⟩
          · subst h
            simp at hbx
          · obtain rfl := hchar c (Char.ofNat 0x212A) h
            exact ⟨0xE2, _, rfl, rfl⟩
      · have hni : x ≠ 'i' := by
          rintro rfl
          exact h1 (UInt8.toNat_inj.1 hbx)
        have hnk : x ≠ 'k' := by
          rintro rfl
          exact h2 (UInt8.toNat_inj.1 hbx)
        by_cases h3 : b ≥ 97 ∧ b ≤ 122
        · have : caseiScanner lower pat b = fun t => some (t.findIdx? (fun x => x == b || x == b - 0x20)) := by
            funext t
            simp only [caseiScanner, if_neg h1, if_neg h2, if_pos h3]
            rfl
          rw [this]
          have h3a : 97 ≤ b.toNat := h3.1
          refine hbytes _ ?_ ?_
          · intro y hy
            simp only [Bool.or_eq_true, beq_iff_eq] at hy
            rcases hy with rfl | rfl
            · exact nasc _ (by omega)
            · apply nasc
              rw [UInt8.toNat_sub_of_le _ _ (by rw [UInt8.le_iff_toNat_le]; simp; omega)]
              omega
          · intro c hc
            rcases hasc c hc with h | ⟨h3, h4, h5⟩ | ⟨h, -⟩ | ⟨h, -⟩
            · obtain ⟨b', t, e1, rfl⟩ := hlow c h
              exact ⟨_, t, e1, by simp⟩
            · obtain ⟨b', t, e1, rfl⟩ := hup c h3 h4 h5
              exact ⟨_, t, e1, by simp⟩
            · exact absurd h hni
            · exact absurd h hnk
        · have h4 : b < 0x80 := by rw [UInt8.lt_iff_toNat_lt, hbx]; exact hxa
          have : caseiScanner lower pat b = fun t => some (t.findIdx? (fun x => x == b)) := by
            funext t
            simp only [caseiScanner, if_neg h1, if_neg h2, if_neg h3, if_pos h4, memchr_findIdx]
          rw [this]
          refine hbytes _ ?_ ?_
          · intro y hy
            rw [beq_iff_eq] at hy
            subst hy
            exact nasc _ (by omega)
          · intro c hc
            rcases hasc c hc with h | ⟨h5, h6, h7⟩ | ⟨h, -⟩ | ⟨h, -⟩
            · obtain ⟨b', t, e1, rfl⟩ := hlow c h
              exact ⟨_, t, e1, by simp⟩
            · exfalso
              apply h3
              constructor
              · show (97 : UInt8).toNat ≤ b.toNat
                rw [hbx]; exact h5
              · show b.toNat ≤ (122 : UInt8).toNat
                rw [hbx]; exact h6
            · exact absurd h hni
            · exact absurd h hnk
  · obtain ⟨b', t, e1, e2⟩ := encode_wide hxa
    rw [enc_cons, e1] at hb
    simp at hb
    subst hb
    have hpx := hx.resolve_left hxa
    have : caseiScanner lower pat b' = fun t => scanLowercase lower x 0 (chars t) := by
      funext t
      have g1 : b' ≠ 105 := by rintro rfl; simp at e2
      have g2 : b' ≠ 107 := by rintro rfl; simp at e2
      have g3 : ¬ (b' ≥ 97 ∧ b' ≤ 122) := by
        rintro ⟨-, h⟩
        have : b'.toNat ≤ 122 := h
        omega
      have g4 : ¬ b' < 0x80 := by
        intro h
        have : b'.toNat < 128 := h
        omega
      simp only [caseiScanner, if_neg g1, if_neg g2, if_neg g3, if_neg g4, hpx, Option.bind_eq_bind, Option.bind_some]
    rw [this]
    exact lower_scanner hs hl.char_ne

end Find

end Xi
