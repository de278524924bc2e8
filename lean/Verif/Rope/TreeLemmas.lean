import Verif.Spec.Tree

/-!
# Lemmas on trees: concatenation and the builder
-/

namespace Xi

variable {L I α : Type} [TreeLeaf L I] [LeafSpec L I α]

/-- The text of a sequence of nodes. -/
def textList (cs : List (Node L I)) : List α := cs.flatMap Node.text

omit [TreeLeaf L I] [LeafSpec L I α] in
theorem leavesList_eq (cs : List (Node L I)) : Node.leavesList cs = cs.flatMap Node.leaves := by
  induction cs with
  | nil => simp [Node.leavesList]
  | cons c cs ih => simp [Node.leavesList, ih]

theorem text_internal {h len info} {cs : List (Node L I)} : (Node.internal h len info cs).text = textList cs := by
  simp only [Node.text, Node.leaves, leavesList_eq, textList, List.flatMap_assoc]
  rfl

theorem text_leaf {len info} {l : L} : (Node.leaf len info l : Node L I).text = LeafSpec.content l := by
  simp [Node.text, Node.leaves]

@[simp] theorem textList_nil : textList ([] : List (Node L I)) = [] := rfl

@[simp] theorem textList_cons {c : Node L I} {cs} : textList (c :: cs) = c.text ++ textList cs := by
  simp [textList]

@[simp] theorem textList_append {cs ds : List (Node L I)} : textList (cs ++ ds) = textList cs ++ textList ds := by
  simp [textList]

namespace Node

theorem WF.height_eq : ∀ {h : Nat} {n : Node L I}, n.WF h → n.height = h
  | 0, .leaf _ _ _, _ => rfl
  | 0, .internal _ _ _ _, hw => by simp [WF] at hw
  | _ + 1, .leaf _ _ _, hw => by simp [WF] at hw
  | h + 1, .internal _ _ _ _, hw => by simp only [WF] at hw; exact hw.1

theorem WF.len_eq : ∀ {h : Nat} {n : Node L I}, n.WF h → n.len = n.text.length
  | 0, .leaf _ _ _, hw => by
    simp only [WF] at hw
    rw [text_leaf, ← LeafSpec.len_eq hw.1]; exact hw.2.1
  | 0, .internal _ _ _ _, hw => by simp [WF] at hw
  | _ + 1, .leaf _ _ _, hw => by simp [WF] at hw
  | h + 1, .internal _ _ _ cs, hw => by
    simp only [WF] at hw
    obtain ⟨-, -, -, hc, hl, -⟩ := hw
    rw [text_internal, Node.len, hl]
    clear hl
    induction cs with
    | nil => rfl
    | cons c cs ih =>
      have h1 := ((hc c (by simp)).1).len_eq
      have h2 := ih (fun c hx => hc c (by simp [hx]))
      simp [h1, h2]

theorem WF.valid : ∀ {h : Nat} {n : Node L I}, n.WF h → LeafSpec.valid L n.text
  | 0, .leaf _ _ _, hw => by
    simp only [WF] at hw
    rw [text_leaf]; exact LeafSpec.valid_content hw.1
  | 0, .internal _ _ _ _, hw => by simp [WF] at hw
  | _ + 1, .leaf _ _ _, hw => by simp [WF] at hw
  | h + 1, .internal _ _ _ cs, hw => by
    simp only [WF] at hw
    obtain ⟨-, -, -, hc, -, -⟩ := hw
    rw [text_internal]
    induction cs with
    | nil => exact LeafSpec.valid_nil
    | cons c cs ih =>
      have h1 := ((hc c (by simp)).1).valid
      have h2 := ih (fun c hx => hc c (by simp [hx]))
      rw [textList_cons]; exact LeafSpec.valid_append h1 h2

/-- A list of nodes that can be the children of a node. -/
def Kids (h : Nat) (cs : List (Node L I)) : Prop := ∀ c ∈ cs, c.WF h ∧ c.isOkChild = true

theorem Kids.append {h} {cs ds : List (Node L I)} (hc : Kids h cs) (hd : Kids h ds) : Kids h (cs ++ ds) := by
  intro c hx
  rcases List.mem_append.1 hx with hx | hx
  · exact hc c hx
  · exact hd c hx

theorem Kids.sub {h} {cs ds : List (Node L I)} (hc : Kids h cs) (hs : ∀ c ∈ ds, c ∈ cs) : Kids h ds :=
  fun c hx => hc c (hs c hx)

theorem WF.kids {h} {n : Node L I} (hw : n.WF (h + 1)) :
    ∃ len info cs, n = .internal (h + 1) len info cs ∧ 2 ≤ cs.length ∧ cs.length ≤ 8 ∧ Kids h cs := by
  cases n with
  | leaf _ _ _ => simp [WF] at hw
  | internal h' len info cs =>
    simp only [WF] at hw
    obtain ⟨rfl, h2, h3, h4, -, -⟩ := hw
    exact ⟨len, info, cs, rfl, h2, h3, h4⟩

theorem WF.leafNode {n : Node L I} (hw : n.WF 0) :
    ∃ l, n = Node.fromLeaf l ∧ LeafSpec.ok l := by
  cases n with
  | leaf len info l =>
    simp only [WF] at hw
    obtain ⟨h1, rfl, rfl⟩ := hw
    exact ⟨l, rfl, h1⟩
  | internal _ _ _ _ => simp [WF] at hw

theorem wf_fromLeaf {l : L} (h : LeafSpec.ok l) : (Node.fromLeaf l : Node L I).WF 0 := by
  simp [fromLeaf, WF, h]

theorem text_fromLeaf {l : L} : (Node.fromLeaf l : Node L I).text = LeafSpec.content l := text_leaf

/-- `from_nodes` on admissible children. -/
theorem fromNodes_spec {h} {cs : List (Node L I)} (hk : Kids h cs) (h2 : 2 ≤ cs.length) (h8 : cs.length ≤ 8) :
    ∃ len info, fromNodes cs = some (.internal (h + 1) len info cs) ∧
      (Node.internal (h + 1) len info cs).WF (h + 1) := by
  match cs, h2, h8, hk with
  | n :: rest, h2, h8, hk =>
    have hn := hk n (by simp)
    have hh := hn.1.height_eq
    refine ⟨rest.foldl (fun s c => s + c.len) n.len, rest.foldl (fun i c => TreeLeaf.accumulate L i c.info) n.info, ?_, ?_⟩
    · simp only [fromNodes]
      rw [if_pos, hh]
      refine ⟨by omega, by simpa [maxChildren] using h8, hn.2, ?_⟩
      rw [List.all_eq_true]
      intro c hc
      have := hk c (by simp [hc])
      simp [this.2, this.1.height_eq, hh]
    · simp only [WF]
      refine ⟨trivial, h2, h8, hk, ?_, n, rest, rfl, ?_⟩
      · rw [List.map_cons, List.sum_cons]
        generalize n.len = k
        clear hh hn hk h2 h8
        induction rest generalizing k with
        | nil => simp
        | cons c rest ih => simp only [List.foldl_cons, ih, List.map_cons, List.sum_cons]; omega
      · rw [List.foldl_map]

theorem isOkChild_internal {h len info} {cs : List (Node L I)} :
    (Node.internal h len info cs).isOkChild = true ↔ 4 ≤ cs.length := by
  simp [isOkChild, minChildren]

/-- The result of putting trees of height `h` together: of height `h` (and then
not too small, if `big` holds), or of height `h + 1`. -/
def Joined (h : Nat) (big : Prop) (n : Node L I) : Prop :=
  (n.WF h ∧ (big → n.isOkChild = true)) ∨ n.WF (h + 1)

theorem Joined.imp {h} {p q : Prop} {n : Node L I} (hj : Joined h p n) (hpq : q → p) : Joined h q n := by
  rcases hj with hj | hj
  · exact Or.inl ⟨hj.1, fun hq => hj.2 (hpq hq)⟩
  · exact Or.inr hj

theorem mergeNodes_spec {h} {c1 c2 : List (Node L I)} (h1 : Kids h c1) (h2 : Kids h c2)
    (hl : 2 ≤ c1.length + c2.length) (hu : c1.length + c2.length ≤ 16) :
    ∃ n, mergeNodes c1 c2 = some n ∧ n.text = textList c1 ++ textList c2 ∧
      Joined (h + 1) (4 ≤ c1.length + c2.length) n := by
  have hk := h1.append h2
  simp only [mergeNodes]
  split
  · rename_i hle
    simp only [maxChildren] at hle
    obtain ⟨len, info, e, hw⟩ := fromNodes_spec hk (by simpa using hl) (by simpa using hle)
    refine ⟨_, e, ?_, Or.inl ⟨hw, fun h4 => ?_⟩⟩
    · rw [text_internal, textList_append]
    · rw [isOkChild_internal]; simpa using h4
  · rename_i hgt
    simp only [maxChildren] at hgt
    have hm : min maxChildren (c1.length + c2.length - minChildren) = min 8 (c1.length + c2.length - 4) := rfl
    rw [hm]
    generalize hs : min 8 (c1.length + c2.length - 4) = sp
    have k1 : Kids h ((c1 ++ c2).take sp) := hk.sub (fun c hc => List.mem_of_mem_take hc)
    have k2 : Kids h ((c1 ++ c2).drop sp) := hk.sub (fun c hc => List.mem_of_mem_drop hc)
    have l1 : ((c1 ++ c2).take sp).length = sp := by simp; omega
    have l2 : ((c1 ++ c2).drop sp).length = c1.length + c2.length - sp := by simp
    obtain ⟨len1, info1, e1, w1⟩ := fromNodes_spec k1 (by omega) (by omega)
    obtain ⟨len2, info2, e2, w2⟩ := fromNodes_spec k2 (by omega) (by omega)
    have hk' : Kids (h + 1) [Node.internal (h + 1) len1 info1 ((c1 ++ c2).take sp),
        Node.internal (h + 1) len2 info2 ((c1 ++ c2).drop sp)] := by
      intro c hc
      simp only [List.mem_cons, List.not_mem_nil, or_false] at hc
      rcases hc with rfl | rfl
      · exact ⟨w1, isOkChild_internal.2 (by omega)⟩
      · exact ⟨w2, isOkChild_internal.2 (by omega)⟩
    obtain ⟨len, info, e, hw⟩ := fromNodes_spec hk' (by simp) (by simp)
    refine ⟨_, ?_, ?_, Or.inr hw⟩
    · rw [e1, e2]; exact e
    · rw [text_internal, textList_cons, textList_cons, text_internal, text_internal, textList_nil, List.append_nil,
        ← textList_append, List.take_append_drop, textList_append]

theorem mergeLeaves_spec {r1 r2 : Node L I} (h1 : r1.WF 0) (h2 : r2.WF 0) :
    ∃ n, mergeLeaves r1 r2 = some n ∧ n.text = r1.text ++ r2.text ∧
      Joined 0 (r1.isOkChild = true ∨ r2.isOkChild = true) n := by
  obtain ⟨l1, rfl, o1⟩ := h1.leafNode
  obtain ⟨l2, rfl, o2⟩ := h2.leafNode
  simp only [mergeLeaves, fromLeaf, getLeaf, Option.bind_eq_bind, Option.bind_some]
  simp only [← fromLeaf.eq_1]
  split
  · rename_i hb
    simp only [Bool.and_eq_true] at hb
    have hk : Kids 0 [(fromLeaf l1 : Node L I), fromLeaf l2] := by
      intro c hc
      simp only [List.mem_cons, List.not_mem_nil, or_false] at hc
      rcases hc with rfl | rfl
      · exact ⟨wf_fromLeaf o1, hb.1⟩
      · exact ⟨wf_fromLeaf o2, hb.2⟩
    obtain ⟨len, info, e, hw⟩ := fromNodes_spec hk (by simp) (by simp)
    exact ⟨_, e, by simp [text_internal], Or.inr hw⟩
  · rename_i hb
    simp only [Bool.and_eq_true] at hb
    rcases LeafSpec.push_whole o1 o2 hb with ⟨l', e, ok', c', b'⟩ | ⟨l', r, e, ok', okr, c', b', br⟩
    · refine ⟨fromLeaf l', by simp [e], ?_, Or.inl ⟨wf_fromLeaf ok', b'⟩⟩
      rw [text_fromLeaf, c', text_fromLeaf, text_fromLeaf]
    · have hk : Kids 0 [(fromLeaf l' : Node L I), fromLeaf r] := by
        intro c hc
        simp only [List.mem_cons, List.not_mem_nil, or_false] at hc
        rcases hc with rfl | rfl
        · exact ⟨wf_fromLeaf ok', b'⟩
        · exact ⟨wf_fromLeaf okr, br⟩
      obtain ⟨len, info, e', hw⟩ := fromNodes_spec hk (by simp) (by simp)
      refine ⟨_, by rw [e]; exact e', ?_, Or.inr hw⟩
      rw [text_internal, textList_cons, textList_cons, textList_nil, List.append_nil, text_fromLeaf, text_fromLeaf,
        c', text_fromLeaf, text_fromLeaf]

theorem kids_one {h} {n : Node L I} (hw : n.WF h) (ho : n.isOkChild = true) : Kids h [n] := by
  intro c hc
  simp only [List.mem_cons, List.not_mem_nil, or_false] at hc
  subst hc
  exact ⟨hw, ho⟩

theorem concatAux_spec (fuel : Nat) : ∀ {h1 h2 : Nat} {r1 r2 : Node L I}, r1.WF h1 → r2.WF h2 → h1 + h2 < fuel →
    ∃ n, concatAux fuel r1 r2 = some n ∧ n.text = r1.text ++ r2.text ∧
      Joined (max h1 h2) ((h2 ≤ h1 ∧ r1.isOkChild = true) ∨ (h1 ≤ h2 ∧ r2.isOkChild = true)) n := by
  induction fuel with
  | zero => intro h1 h2 r1 r2 _ _ h; omega
  | succ fuel ih =>
    intro h1 h2 r1 r2 w1 w2 hf
    have e1 := w1.height_eq
    have e2 := w2.height_eq
    simp only [concatAux, e1, e2]
    rcases Nat.lt_trichotomy h1 h2 with hlt | heq | hgt
    · rw [if_pos hlt]
      obtain ⟨k, rfl⟩ : ∃ k, h2 = k + 1 := ⟨h2 - 1, by omega⟩
      obtain ⟨len, info, cs, rfl, l2, l8, hk⟩ := w2.kids
      simp only [getChildren, Option.bind_eq_bind, Option.bind_some]
      have hmax : max h1 (k + 1) = k + 1 := by omega
      rw [hmax, text_internal]
      split
      · rename_i hb
        simp at hb
        obtain ⟨hb1, hb2⟩ := hb
        subst hb1
        obtain ⟨n, e, t, j⟩ := mergeNodes_spec (kids_one w1 hb2) hk (by simp; omega) (by simp; omega)
        refine ⟨n, e, by simpa using t, j.imp ?_⟩
        rintro (⟨h, -⟩ | ⟨-, h⟩)
        · omega
        · rw [isOkChild_internal] at h; simp; omega
      · match cs, l2, l8, hk with
        | c :: rest, l2, l8, hk =>
          have hc := hk c (by simp)
          have hr : Kids k rest := hk.sub (fun c hc => by simp [hc])
          simp only [List.length_cons] at l2 l8
          obtain ⟨n, e, t, j⟩ := ih w1 hc.1 (by omega)
          simp only [e, Option.bind_some]
          have hmax' : max h1 k = k := by omega
          rw [hmax'] at j
          rcases j with ⟨j1, j2⟩ | j
          · have j2 := j2 (Or.inr ⟨by omega, hc.2⟩)
            rw [if_pos (by simp [j1.height_eq])]
            obtain ⟨n', e', t', j'⟩ := mergeNodes_spec (kids_one j1 j2) hr (by simp; omega) (by simp; omega)
            refine ⟨n', e', ?_, j'.imp ?_⟩
            · rw [t', textList_cons, textList_cons, textList_nil, t]; simp
            · rintro (⟨h, -⟩ | ⟨-, h⟩)
              · omega
              · rw [isOkChild_internal] at h; simp at h ⊢; omega
          · rw [if_neg (by simp [j.height_eq])]
            obtain ⟨len', info', cs', rfl, m2, m8, hk'⟩ := j.kids
            simp only [Option.bind_some]
            obtain ⟨n', e', t', j'⟩ := mergeNodes_spec hk' hr (by omega) (by omega)
            refine ⟨n', e', ?_, j'.imp ?_⟩
            · rw [text_internal] at t
              rw [t', t, textList_cons]; simp
            · rintro (⟨h, -⟩ | ⟨-, h⟩)
              · omega
              · rw [isOkChild_internal] at h; simp at h; omega
    · subst heq
      rw [if_neg (by omega), if_pos rfl, Nat.max_self]
      split
      · rename_i hb
        simp only [Bool.and_eq_true] at hb
        have hk : Kids h1 [r1, r2] := (kids_one w1 hb.1).append (kids_one w2 hb.2)
        obtain ⟨len, info, e, hw⟩ := fromNodes_spec hk (by simp) (by simp)
        exact ⟨_, e, by simp [text_internal], Or.inr hw⟩
      · split
        · rename_i h0
          simp at h0
          subst h0
          obtain ⟨n, e, t, j⟩ := mergeLeaves_spec w1 w2
          refine ⟨n, e, t, j.imp ?_⟩
          rintro (⟨-, h⟩ | ⟨-, h⟩)
          · exact Or.inl h
          · exact Or.inr h
        · rename_i h0
          simp at h0
          obtain ⟨k, rfl⟩ : ∃ k, h1 = k + 1 := ⟨h1 - 1, by omega⟩
          obtain ⟨len, info, cs, rfl, l2, l8, hk⟩ := w1.kids
          obtain ⟨len', info', cs', rfl, m2, m8, hk'⟩ := w2.kids
          simp only [getChildren, Option.bind_eq_bind, Option.bind_some]
          obtain ⟨n, e, t, j⟩ := mergeNodes_spec hk hk' (by omega) (by omega)
          exact ⟨n, e, by rw [t, text_internal, text_internal], j.imp (fun _ => by omega)⟩
    · rw [if_neg (by omega), if_neg (by omega)]
      obtain ⟨k, rfl⟩ : ∃ k, h1 = k + 1 := ⟨h1 - 1, by omega⟩
      obtain ⟨len, info, cs, rfl, l2, l8, hk⟩ := w1.kids
      simp only [getChildren, Option.bind_eq_bind, Option.bind_some]
      have hmax : max (k + 1) h2 = k + 1 := by omega
      rw [hmax, text_internal]
      split
      · rename_i hb
        simp at hb
        obtain ⟨hb1, hb2⟩ := hb
        subst hb1
        obtain ⟨n, e, t, j⟩ := mergeNodes_spec hk (kids_one w2 hb2) (by simp; omega) (by simp; omega)
        refine ⟨n, e, by simpa using t, j.imp ?_⟩
        rintro (⟨-, h⟩ | ⟨h, -⟩)
        · rw [isOkChild_internal] at h; simp; omega
        · omega
      · rcases List.eq_nil_or_concat cs with rfl | ⟨rest, c, rfl⟩
        · simp at l2
        rw [List.concat_eq_append] at *
        have hc := hk c (by simp)
        have hr : Kids k rest := hk.sub (fun c hc => by simp [hc])
        simp only [List.length_append, List.length_singleton] at l2 l8
        rw [List.getLast?_concat, List.dropLast_concat]
        obtain ⟨n, e, t, j⟩ := ih hc.1 w2 (by omega)
        simp only [e, Option.bind_some]
        have hmax' : max k h2 = k := by omega
        rw [hmax'] at j
        rcases j with ⟨j1, j2⟩ | j
        · have j2 := j2 (Or.inl ⟨by omega, hc.2⟩)
          rw [if_pos (by simp [j1.height_eq])]
          obtain ⟨n', e', t', j'⟩ := mergeNodes_spec hr (kids_one j1 j2) (by simp; omega) (by simp; omega)
          refine ⟨n', e', ?_, j'.imp ?_⟩
          · rw [t', textList_append, textList_cons, textList_cons, textList_nil, t]; simp
          · rintro (⟨-, h⟩ | ⟨h, -⟩)
            · rw [isOkChild_internal] at h; simp at h ⊢; omega
            · omega
        · rw [if_neg (by simp [j.height_eq])]
          obtain ⟨len', info', cs', rfl, m2, m8, hk'⟩ := j.kids
          simp only [Option.bind_some]
          obtain ⟨n', e', t', j'⟩ := mergeNodes_spec hr hk' (by omega) (by omega)
          refine ⟨n', e', ?_, j'.imp ?_⟩
          · rw [text_internal] at t
            rw [t', t, textList_append, textList_cons, textList_nil]; simp
          · rintro (⟨-, h⟩ | ⟨h, -⟩)
            · rw [isOkChild_internal] at h; simp at h; omega
            · omega

theorem concat_spec {h1 h2 : Nat} {r1 r2 : Node L I} (w1 : r1.WF h1) (w2 : r2.WF h2) :
    ∃ n, concat r1 r2 = some n ∧ n.text = r1.text ++ r2.text ∧ (n.WF (max h1 h2) ∨ n.WF (max h1 h2 + 1)) := by
  obtain ⟨n, e, t, j⟩ := concatAux_spec (r1.height + r2.height + 1) w1 w2
    (by rw [w1.height_eq, w2.height_eq]; omega)
  exact ⟨n, e, t, Or.imp And.left id j⟩

end Node

end Xi
