import Verif.Rope.Comb
import Verif.Rope.EngineReach

/-!
# The document two replicas share

`Z` is the labelled document that has the edits of both replicas.  `Cells` says
in which order characters inserted at the same place by different replicas stand.
-/

namespace Xi

variable {α β : Type}

open Chr

/-! ### No `p` directly before a `q` -/

def NoAdj (p q : β → Bool) : List β → Prop
  | x :: y :: v => ¬(p x = true ∧ q y = true) ∧ NoAdj p q (y :: v)
  | _ => True

theorem NoAdj.tail {p q : β → Bool} {x : β} {v : List β} (h : NoAdj p q (x :: v)) : NoAdj p q v := by
  cases v with
  | nil => trivial
  | cons y v => exact h.2

theorem NoAdj.head {p q : β → Bool} {x : β} {v : List β} (h : NoAdj p q (x :: v)) (hx : p x = true) :
    ∀ y ∈ (v.filter (fun y => !p y)).head?, q y = false := by
  induction v generalizing x with
  | nil => simp
  | cons y v ih =>
    by_cases hp : p y = true
    · rw [List.filter_cons, if_neg (by simp [hp])]
      exact ih h.2 hp
    · rw [List.filter_cons, if_pos (by simpa using hp)]
      have := h.1
      simp only [List.head?_cons, Option.mem_def, Option.some.injEq, forall_eq']
      simpa [hx] using this

theorem NoAdj.of_left {p q : β → Bool} {l : List β} (h : ∀ x ∈ l, p x = false) : NoAdj p q l := by
  induction l with
  | nil => trivial
  | cons x l ih =>
    cases l with
    | nil => trivial
    | cons y l => exact ⟨by simp [h x (by simp)], ih (fun z hz => h z (by simp [hz]))⟩

theorem NoAdj.of_right {p q : β → Bool} {l : List β} (h : ∀ x ∈ l, q x = false) : NoAdj p q l := by
  induction l with
  | nil => trivial
  | cons x l ih =>
    cases l with
    | nil => trivial
    | cons y l => exact ⟨by simp [h y (by simp)], ih (fun z hz => h z (by simp [hz]))⟩

theorem noAdj_map {γ : Type} (f : γ → β) (p q : β → Bool) (l : List γ) :
    NoAdj p q (l.map f) ↔ NoAdj (p ∘ f) (q ∘ f) l := by
  induction l with
  | nil => simp [NoAdj]
  | cons x l ih =>
    cases l with
    | nil => simp [NoAdj]
    | cons y l => simp only [List.map_cons, NoAdj, Function.comp] at ih ⊢; rw [ih]

/-- At the same place, `p` stands before `q` if `after`, else `q` before `p`. -/
def Ord (p q : β → Bool) (after : Bool) (zs : List β) : Prop :=
  if after then NoAdj q p zs else NoAdj p q zs

theorem Ord.swap {p q : β → Bool} {after : Bool} {zs : List β} (h : Ord p q after zs) : Ord q p (!after) zs := by
  unfold Ord at h ⊢
  cases after <;> simpa using h

theorem Ord.of_none {p q : β → Bool} (after : Bool) {zs : List β} (h : ∀ x ∈ zs, p x = false) : Ord p q after zs := by
  unfold Ord
  cases after
  · exact NoAdj.of_left h
  · exact NoAdj.of_right h

theorem ord_map {γ : Type} (f : γ → β) (p q : β → Bool) (after : Bool) (l : List γ) :
    Ord p q after (l.map f) ↔ Ord (p ∘ f) (q ∘ f) after l := by
  unfold Ord
  cases after <;> simp [noAdj_map]

theorem Comb.of_ord {p q : β → Bool} {after : Bool} {zs : List β} (hd : ∀ z ∈ zs, p z = true → q z = false)
    (h : Ord p q after zs) :
    Comb p q after (zs.filter (fun z => !q z)) (zs.filter (fun z => !p z)) zs := by
  induction zs with
  | nil => exact .nil
  | cons z zs ih =>
    have ht : Ord p q after zs := by
      unfold Ord at h ⊢
      cases after
      · exact NoAdj.tail (by simpa using h)
      · exact NoAdj.tail (by simpa using h)
    have ih := ih (fun z hz => hd z (by simp [hz])) ht
    by_cases hp : p z = true
    · have hq := hd z (by simp) hp
      rw [List.filter_cons, if_pos (by simp [hq]), List.filter_cons, if_neg (by simp [hp])]
      refine .left z hp hq ?_ ih
      unfold Ord at h
      cases after
      · right; exact NoAdj.head (by simpa using h) hp
      · left; rfl
    · have hp : p z = false := by simpa using hp
      by_cases hq : q z = true
      · rw [List.filter_cons, if_neg (by simp [hq]), List.filter_cons, if_pos (by simp [hp])]
        refine .right z hq hp ?_ ih
        intro ha
        subst ha
        exact NoAdj.head (by simpa [Ord] using h) hq
      · have hq : q z = false := by simpa using hq
        rw [List.filter_cons, if_pos (by simp [hq]), List.filter_cons, if_pos (by simp [hp])]
        exact .both z hp hq ih

theorem Comb.noAdj {p q : β → Bool} {xs ys zs : List β} (h : Comb p q true xs ys zs) : NoAdj q p zs := by
  have cons : ∀ {x : β} {zs : List β}, q x = false → NoAdj q p zs → NoAdj q p (x :: zs) := by
    intro x zs hx h
    cases zs with
    | nil => trivial
    | cons y zs => exact ⟨by simp [hx], h⟩
  induction h with
  | nil => trivial
  | both x _ h2 _ ih => exact cons h2 ih
  | left x _ h2 _ _ ih => exact cons h2 ih
  | right y h1 h2 h3 hc ih =>
    rename_i xs' ys' zs'
    cases zs' with
    | nil => trivial
    | cons z zs' =>
      refine ⟨?_, ih⟩
      rintro ⟨_, hz⟩
      have := h3 rfl
      have hq : q z = false := by
        cases hc with
        | both _ a _ _ => rw [a] at hz; cases hz
        | left _ _ b _ _ => exact b
        | right _ _ b _ _ => rw [b] at hz; cases hz
      rw [← hc.filter_left, List.filter_cons, if_pos (by simp [hq])] at this
      have := this z (by simp)
      rw [hz] at this; cases this

theorem Comb.ord {p q : β → Bool} {after : Bool} {xs ys zs : List β} (h : Comb p q after xs ys zs) :
    Ord p q after zs := by
  unfold Ord
  cases after with
  | true => exact h.noAdj
  | false => exact h.swap.noAdj

/-! ### Restrictions of a labelled document -/

theorem present_congr {S T : List RevId} (h : ∀ x, x ∈ S ↔ x ∈ T) (c : Chr α) : c.present S = c.present T := by
  unfold present
  cases c.insBy with
  | none => rfl
  | some a => simp only; rw [Bool.eq_iff_iff, List.contains_iff_mem, List.contains_iff_mem, h]

theorem present_mono {S T : List RevId} (h : ∀ x ∈ S, x ∈ T) {c : Chr α} (hc : c.present S = true) :
    c.present T = true := by
  unfold present at *
  cases hi : c.insBy with
  | none => rfl
  | some a => rw [hi] at hc; simp only [List.contains_iff_mem] at *; exact h _ hc

theorem unionAt_congr {S T : List RevId} (h : ∀ x, x ∈ S ↔ x ∈ T) (l : List (Chr α)) : unionAt l S = unionAt l T := by
  unfold unionAt
  congr 1
  funext c
  exact present_congr h c

theorem unionAt_unionAt {S T : List RevId} (h : ∀ x ∈ S, x ∈ T) (l : List (Chr α)) :
    unionAt (unionAt l T) S = unionAt l S := by
  unfold unionAt
  rw [List.filter_filter]
  apply List.filter_congr
  intro c _
  by_cases hc : c.present S = true
  · simp [hc, present_mono h hc]
  · simp [hc]

theorem revOk_congr {S T : List RevId} (h : ∀ x, x ∈ S ↔ x ∈ T) {l : List (Chr α)} {r : Revision} (hr : RevOk l S r) :
    RevOk l T r := by
  unfold RevOk at *
  have h1 : unionAt l (T ++ [r.revId]) = unionAt l (S ++ [r.revId]) :=
    unionAt_congr (by intro x; simp [h]) l
  rw [h1, unionAt_congr (S := T) (T := S) (fun x => (h x).symm) l]
  exact hr

/-- A character, with the deletions by edits in `S` only. -/
def Chr.only (S : List RevId) (c : Chr α) : Chr α :=
  { c with delBy := c.delBy.filter (fun d => S.contains d.id) }

@[simp] theorem only_val (S) (c : Chr α) : (c.only S).val = c.val := rfl
@[simp] theorem only_insBy (S) (c : Chr α) : (c.only S).insBy = c.insBy := rfl
@[simp] theorem only_insMark (S id) (c : Chr α) : (c.only S).insMark id = c.insMark id := rfl
@[simp] theorem only_insertedBy (S id) (c : Chr α) : (c.only S).insertedBy id = c.insertedBy id := rfl
@[simp] theorem only_present (S T) (c : Chr α) : (c.only S).present T = c.present T := rfl

theorem only_delMark {S : List RevId} {id : RevId} (h : id ∈ S) (c : Chr α) : (c.only S).delMark id = c.delMark id := by
  unfold delMark deletedBy Chr.only
  congr 2
  rw [List.any_filter, Bool.eq_iff_iff, List.any_eq_true, List.any_eq_true]
  constructor
  · rintro ⟨d, h1, h2⟩; simp at h2; exact ⟨d, h1, by simp [h2.2]⟩
  · rintro ⟨d, h1, h2⟩; simp at h2; exact ⟨d, h1, by simp [h2, h]⟩

theorem only_congr {S T : List RevId} (h : ∀ x, x ∈ S ↔ x ∈ T) (c : Chr α) : c.only S = c.only T := by
  unfold Chr.only
  congr 1
  apply List.filter_congr
  intro d _
  rw [Bool.eq_iff_iff, List.contains_iff_mem, List.contains_iff_mem, h]

/-- The document as a replica that has the edits `S` knows it. -/
def view (S : List RevId) (Z : List (Chr α)) : List (Chr α) := (unionAt Z S).map (Chr.only S)

theorem view_congr {S T : List RevId} (h : ∀ x, x ∈ S ↔ x ∈ T) (Z : List (Chr α)) : view S Z = view T Z := by
  unfold view
  rw [unionAt_congr h]
  apply List.map_congr_left
  intro c _
  exact only_congr h c

theorem unionAt_view {S T : List RevId} (h : ∀ x ∈ T, x ∈ S) (Z : List (Chr α)) :
    unionAt (view S Z) T = (unionAt Z T).map (Chr.only S) := by
  unfold view
  rw [unionAt, List.filter_map]
  have : (present T ∘ Chr.only S : Chr α → Bool) = present T := by funext c; rfl
  rw [this]
  congr 1
  exact unionAt_unionAt h Z

theorem revOk_view {S P : List RevId} {Z : List (Chr α)} {r : Revision} (hP : ∀ x ∈ P, x ∈ S) (hr : r.revId ∈ S) :
    RevOk (view S Z) P r ↔ RevOk Z P r := by
  have hs : ∀ x ∈ P ++ [r.revId], x ∈ S := by
    intro x hx
    simp only [List.mem_append, List.mem_singleton] at hx
    rcases hx with hx | rfl
    · exact hP x hx
    · exact hr
  unfold RevOk
  rw [unionAt_view hs, unionAt_view hP, List.map_map, List.map_map, List.length_map]
  have h1 : (insMark r.revId ∘ Chr.only S : Chr α → Nat) = insMark r.revId := by funext c; rfl
  have h2 : (delMark r.revId ∘ Chr.only S : Chr α → Nat) = delMark r.revId := by
    funext c; exact only_delMark hr c
  rw [h1, h2]

/-! ### The order of concurrent insertions -/

/-- The priority of an edit. -/
def fullPrio (pr : RevId → Nat) (id : RevId) : FullPriority := ⟨pr id, id.sessionId⟩

/-- `X` are the edits both replicas have, `A` those of the first only and `B`
those of the second only, both in the order in which they were made. -/
def Cells (pr : RevId → Nat) (Z : List (Chr α)) (X A B : List RevId) : Prop :=
  ∀ A1 a A2 B1 b B2, A = A1 ++ a :: A2 → B = B1 ++ b :: B2 →
    Ord (insertedBy a) (insertedBy b) ((fullPrio pr b).ge (fullPrio pr a))
      (unionAt Z (X ++ A1 ++ B1 ++ [a, b]))

theorem FullPriority.ge_swap {a b : FullPriority} (h : a.session ≠ b.session) : a.ge b = !b.ge a := by
  unfold FullPriority.ge
  have : a.session.1 ≠ b.session.1 ∨ a.session.2 ≠ b.session.2 := by
    by_cases h1 : a.session.1 = b.session.1
    · right; intro h2; exact h (Prod.ext h1 h2)
    · exact Or.inl h1
  by_cases hp : a.priority = b.priority
  · by_cases h1 : a.session.1 = b.session.1
    · have h2 : a.session.2 ≠ b.session.2 := by simpa [h1] using this
      rw [Bool.eq_iff_iff]; simp [hp, h1]; omega
    · rw [Bool.eq_iff_iff]; simp [hp, h1, Ne.symm h1]; omega
  · rw [Bool.eq_iff_iff]; simp [hp, Ne.symm hp]; omega

theorem Cells.swap {pr : RevId → Nat} {Z : List (Chr α)} {X A B : List RevId} (h : Cells pr Z X A B)
    (hs : ∀ a ∈ A, ∀ b ∈ B, a.sessionId ≠ b.sessionId) : Cells pr Z X B A := by
  intro B1 b B2 A1 a A2 hB hA
  have h1 := (h A1 a A2 B1 b B2 hA hB).swap
  have hne := hs a (by simp [hA]) b (by simp [hB])
  rw [← FullPriority.ge_swap (a := fullPrio pr a) (b := fullPrio pr b) hne] at h1
  rw [unionAt_congr (T := X ++ A1 ++ B1 ++ [a, b])]
  · exact h1
  · intro x; simp only [List.mem_append, List.mem_cons, List.not_mem_nil, or_false]
    constructor <;> (intro h; rcases h with ((h | h) | h) | h | h <;> simp [h])

theorem Cells.congr {pr : RevId → Nat} {Z : List (Chr α)} {X Y A B : List RevId} (h : Cells pr Z X A B)
    (hX : ∀ x, x ∈ X ↔ x ∈ Y) : Cells pr Z Y A B := by
  intro A1 a A2 B1 b B2 hA hB
  rw [unionAt_congr (T := X ++ A1 ++ B1 ++ [a, b])]
  · exact h A1 a A2 B1 b B2 hA hB
  · intro x; simp [hX]

theorem insertedBy_disjoint {a b : RevId} (h : a ≠ b) (c : Chr α) (hc : c.insertedBy a = true) :
    c.insertedBy b = false := by
  unfold insertedBy at *
  cases hi : c.insBy with
  | none => rfl
  | some l =>
    rw [hi] at hc
    simp at hc ⊢
    rw [hc]; exact h

theorem present_append_iff (S T : List RevId) (c : Chr α) :
    c.present (S ++ T) = (c.present S || T.any (fun id => c.insertedBy id)) := by
  unfold present insertedBy
  cases c.insBy with
  | none => simp
  | some a =>
    simp only [List.contains_append, Option.any_some]
    congr 1
    rw [Bool.eq_iff_iff, List.contains_iff_mem, List.any_eq_true]
    constructor
    · intro h; exact ⟨a.id, h, by simp⟩
    · rintro ⟨x, h1, h2⟩; simp at h2; rw [h2]; exact h1

/-- The character was inserted by one of the edits `g`. -/
def insIn (g : List RevId) (c : Chr α) : Bool := g.any (fun id => c.insertedBy id)

theorem insIn_not_present {S g : List RevId} (h : ∀ x ∈ g, x ∉ S) {c : Chr α} (hc : insIn g c = true) :
    c.present S = true → c.insBy = none := by
  unfold insIn at hc
  rw [List.any_eq_true] at hc
  obtain ⟨x, h1, h2⟩ := hc
  unfold insertedBy at h2
  cases hi : c.insBy with
  | none => simp
  | some a =>
    rw [hi] at h2
    simp at h2
    unfold present
    rw [hi]
    simp only [List.contains_iff_mem]
    intro h3
    rw [h2] at h3
    exact absurd h3 (h x h1)

theorem insIn_present {S g : List RevId} (h : ∀ x ∈ g, x ∉ S) {c : Chr α} (hc : insIn g c = true) :
    c.present S = false := by
  by_cases hp : c.present S = true
  · have := insIn_not_present h hc hp
    unfold insIn insertedBy at hc
    rw [this] at hc
    simp at hc
  · simpa using hp

/-- Taking the insertions of `g` out. -/
theorem unionAt_diff {S g : List RevId} (h : ∀ x ∈ g, x ∉ S) (l : List (Chr α)) :
    (unionAt l (S ++ g)).filter (fun c => !insIn g c) = unionAt l S := by
  unfold unionAt
  rw [List.filter_filter]
  apply List.filter_congr
  intro c _
  rw [present_append_iff]
  change ((!insIn g c) && (c.present S || insIn g c)) = c.present S
  by_cases hg : insIn g c = true
  · simp [hg, insIn_present h hg]
  · simp [hg]

/-- A run of edits of the first replica that have the same priority, combined
with one edit of the second. -/
theorem Cells.group {pr : RevId → Nat} {Z : List (Chr α)} {X A B : List RevId} (h : Cells pr Z X A B)
    (hn : (X ++ A ++ B).Nodup) {B1 B2 : List RevId} {b : RevId} (hB : B = B1 ++ b :: B2)
    {π : FullPriority} : ∀ {g P R : List RevId}, A = P ++ g ++ R →
    (∀ a ∈ g, (∀ c ∈ Z, c.insertedBy a = false) ∨ fullPrio pr a = π) →
    Comb (insIn g) (insertedBy b) ((fullPrio pr b).ge π)
      (unionAt Z (X ++ P ++ B1 ++ g)) (unionAt Z (X ++ P ++ B1 ++ [b])) (unionAt Z (X ++ P ++ B1 ++ [b] ++ g)) := by
  intro g
  rcases List.eq_nil_or_concat g with rfl | ⟨g', a, rfl⟩
  case inl =>
    intro P R hA _
    have := Comb.trivial_left (p := insIn []) (q := insertedBy b) ((fullPrio pr b).ge π)
      (unionAt Z (X ++ P ++ B1 ++ [b])) (by intro y _; rfl)
    have e : (unionAt Z (X ++ P ++ B1 ++ [b])).filter (fun y => !insertedBy b y) = unionAt Z (X ++ P ++ B1) := by
      have := unionAt_diff (S := X ++ P ++ B1) (g := [b]) (by
        intro x hx
        simp only [List.mem_singleton] at hx
        subst hx
        subst hB; subst hA
        intro hx
        simp only [List.nodup_append, List.mem_append, List.mem_cons, List.nodup_cons] at hn hx
        rcases hx with (hx | hx) | hx
        · exact hn.2.2 x (Or.inl hx) x (Or.inr (Or.inl rfl)) rfl
        · exact hn.2.2 x (Or.inr (Or.inl (Or.inl hx))) x (Or.inr (Or.inl rfl)) rfl
        · exact hn.2.1.2.2 x hx x (Or.inl rfl) rfl) Z
      rw [← this]
      apply List.filter_congr
      intro c _; simp [insIn]
    rw [e] at this
    simpa using this
  case inr =>
    intro P R hA hg
    rw [List.concat_eq_append] at hA hg ⊢
    have ih := Cells.group h hn hB (g := g') (P := P) (R := [a] ++ R) (π := π) (by simp [hA])
      (fun x hx => hg x (by simp [hx]))
    -- freshness facts
    have hmem : ∀ x, x ∈ X ++ A ++ B ↔ x ∈ X ∨ x ∈ P ∨ x ∈ g' ∨ x = a ∨ x ∈ R ∨ x ∈ B1 ∨ x = b ∨ x ∈ B2 := by
      intro x; rw [hA, hB]; simp only [List.mem_append, List.mem_cons, List.not_mem_nil, or_false]
      constructor <;> (intro h; grind)
    have hn' := hn
    rw [hA, hB] at hn'
    simp only [List.nodup_append, List.mem_append, List.mem_cons, List.nodup_cons, List.not_mem_nil, or_false] at hn'
    have ha1 : a ∉ X ++ P ++ B1 ++ [b] ++ g' := by
      simp only [List.mem_append, List.mem_cons, List.not_mem_nil, or_false]
      grind
    have hb1 : b ∉ X ++ P ++ B1 ++ g' ++ [a] := by
      simp only [List.mem_append, List.mem_cons, List.not_mem_nil, or_false]
      grind
    have hab : a ≠ b := by intro e; apply hb1; simp [e]
    -- the cell of `a`
    have cell := h (P ++ g') a R B1 b B2 (by simp [hA]) hB
    have cell : Ord (insertedBy a) (insertedBy b) ((fullPrio pr b).ge π)
        (unionAt Z (X ++ P ++ B1 ++ [b] ++ (g' ++ [a]))) := by
      rw [unionAt_congr (T := X ++ (P ++ g') ++ B1 ++ [a, b])]
      · rcases hg a (by simp) with hg | hg
        · exact Ord.of_none _ (fun x hx => hg x (RevsOk.mem_of_unionAt hx))
        · rw [← hg]; exact cell
      · intro x; simp only [List.mem_append, List.mem_cons, List.not_mem_nil, or_false]
        constructor <;> (intro h; grind)
    have c2 := Comb.of_ord (fun z _ => insertedBy_disjoint hab z) cell
    have e1 : (unionAt Z (X ++ P ++ B1 ++ [b] ++ (g' ++ [a]))).filter (fun z => !insertedBy b z) =
        unionAt Z (X ++ P ++ B1 ++ (g' ++ [a])) := by
      rw [unionAt_congr (S := X ++ P ++ B1 ++ [b] ++ (g' ++ [a])) (T := X ++ P ++ B1 ++ g' ++ [a] ++ [b])]
      · rw [unionAt_congr (S := X ++ P ++ B1 ++ (g' ++ [a])) (T := X ++ P ++ B1 ++ g' ++ [a]) (by intro x; simp)]
        have := unionAt_diff (S := X ++ P ++ B1 ++ g' ++ [a]) (g := [b]) (by simpa using hb1) Z
        rw [← this]
        apply List.filter_congr
        intro c _; simp [insIn]
      · intro x; simp only [List.mem_append, List.mem_cons, List.not_mem_nil, or_false]
        constructor <;> (intro h; grind)
    have e2 : (unionAt Z (X ++ P ++ B1 ++ [b] ++ (g' ++ [a]))).filter (fun z => !insertedBy a z) =
        unionAt Z (X ++ P ++ B1 ++ [b] ++ g') := by
      rw [← List.append_assoc]
      have := unionAt_diff (S := X ++ P ++ B1 ++ [b] ++ g') (g := [a]) (by simpa using ha1) Z
      rw [← this]
      apply List.filter_congr
      intro c _; simp [insIn]
    rw [e1, e2] at c2
    have e3 : (unionAt Z (X ++ P ++ B1 ++ (g' ++ [a]))).filter (fun z => !insertedBy a z) =
        unionAt Z (X ++ P ++ B1 ++ g') := by
      rw [← List.append_assoc]
      have := unionAt_diff (S := X ++ P ++ B1 ++ g') (g := [a]) (by
        intro x hx hx'
        simp only [List.mem_singleton] at hx
        subst hx
        apply ha1
        simp only [List.mem_append, List.mem_cons, List.not_mem_nil, or_false] at hx' ⊢
        grind) Z
      rw [← this]
      apply List.filter_congr
      intro c _; simp [insIn]
    have := Comb.compose ih c2 e3
    refine this.congr (fun z _ => ?_) (fun z _ => rfl)
    simp [insIn, List.any_append]
termination_by g => g.length
decreasing_by all_goals simp_all

end Xi
