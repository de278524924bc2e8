import Verif.Spec.Highlights

/-!
# Lemmas on matches
-/

namespace Xi

namespace Find

variable {lower : CaseTable} {cm : CaseMatching} {pat : List Char} {s : List UInt8} {p e p' e' : Nat}

/-- The bytes `x` are a match. -/
def Local (lower : CaseTable) : CaseMatching → List Char → List UInt8 → Prop
  | .exact, pat => fun x => x = enc pat
  | .caseInsensitive, pat => fun x => ∃ u, x = enc u ∧ pat.flatMap lower.char <+: u.flatMap lower.char ∧
      ∀ v, v <+: u → v ≠ u → ¬ pat.flatMap lower.char <+: v.flatMap lower.char

theorem local_utf8 (hreg : Regular lower cm pat) {x : List UInt8} (h : Local lower cm pat x) : Utf8 x ∧ x ≠ [] := by
  cases cm with
  | exact =>
    have h : x = enc pat := h
    subst h
    exact ⟨⟨pat, rfl⟩, List.ne_nil_of_length_pos (enc_pos hreg)⟩
  | caseInsensitive =>
    obtain ⟨u, rfl, h1, -⟩ := h
    refine ⟨⟨u, rfl⟩, List.ne_nil_of_length_pos (enc_pos ?_)⟩
    rintro rfl
    obtain ⟨_, _, y, h2, _⟩ := hreg
    have := List.prefix_nil.1 h1
    rw [this] at h2
    simp at h2

theorem match_local (hreg : Regular lower cm pat) (h : Match lower s cm pat p e) :
    ∃ A x B, s = A ++ (x ++ B) ∧ p = A.length ∧ e = p + x.length ∧ Local lower cm pat x := by
  cases cm with
  | exact =>
    obtain ⟨h1, h2⟩ := h
    have h1 : enc pat <+: s.drop p := h1
    have h2 : e = p + (enc pat).length := h2
    obtain ⟨t, ht⟩ := h1
    by_cases hp : p ≤ s.length
    · exact ⟨s.take p, enc pat, t, by rw [ht, List.take_append_drop], by simp; omega, h2, rfl⟩
    · rw [List.drop_eq_nil_of_le (by omega)] at ht
      have h3 := (List.append_eq_nil_iff.1 ht).1
      have := enc_pos hreg
      rw [h3] at this
      simp at this
  | caseInsensitive =>
    obtain ⟨a, u, b, h1, h2, h3, h4, h5⟩ := h.2
    exact ⟨enc a, enc u, enc b, h1, h2, by omega, u, rfl, h4, h5⟩

theorem match_of_local (hreg : Regular lower cm pat) {A x B : List UInt8} (hs : Utf8 (A ++ (x ++ B))) (h : Local lower cm pat x) :
    Match lower (A ++ (x ++ B)) cm pat A.length (A.length + x.length) := by
  obtain ⟨h1, h2⟩ := local_utf8 hreg h
  cases cm with
  | exact =>
    have h : x = enc pat := h
    subst h
    exact ⟨⟨B, by simp⟩, rfl⟩
  | caseInsensitive =>
    have hb := (exact_boundary hs h1 h2 (p := A.length) ⟨B, by simp⟩).2.1
    obtain ⟨_, ⟨a, ha⟩, hc⟩ := (boundary_iff hs).1 ((boundary_iff_spec hs).2 hb)
    rw [List.take_left] at ha
    rw [List.drop_left] at hc
    clear hb
    obtain ⟨b, hb⟩ := utf8_right h1 hc
    obtain ⟨u, rfl, h4, h5⟩ := h
    subst ha hb
    refine ⟨⟨a, u ++ b, by rw [enc_append], rfl, ?_⟩, ⟨a, u, b, rfl, rfl, rfl, h4, h5⟩⟩
    rw [List.flatMap_append]
    exact h4.trans (List.prefix_append _ _)

theorem match_lt (hreg : Regular lower cm pat) (h : Match lower s cm pat p e) : p < e ∧ e ≤ s.length := by
  obtain ⟨A, x, B, rfl, rfl, rfl, h1⟩ := match_local hreg h
  have := List.length_pos_iff.2 (local_utf8 hreg h1).2
  simp
  omega

theorem match_boundary (hreg : Regular lower cm pat) (hs : Utf8 s) (h : Match lower s cm pat p e) : CharBoundary s p ∧ CharBoundary s e := by
  obtain ⟨A, x, B, rfl, rfl, rfl, h1⟩ := match_local hreg h
  obtain ⟨h2, h3⟩ := local_utf8 hreg h1
  have := exact_boundary hs h2 h3 (p := A.length) ⟨B, by simp⟩
  exact ⟨this.2.1, this.2.2.1⟩

theorem prefix_of_enc {a a' : List Char} (h : a <+: a') (hl : (enc a).length = (enc a').length) : a = a' := by
  obtain ⟨t, rfl⟩ := h
  rw [enc_append, List.length_append] at hl
  cases t with
  | nil => simp
  | cons c t =>
    have := enc_pos (a := c :: t) (by simp)
    omega

theorem prefix_total {α : Type} {a b l : List α} (h1 : a <+: l) (h2 : b <+: l) : a <+: b ∨ b <+: a := List.prefix_or_prefix_of_prefix h1 h2

theorem match_unique (h : Match lower s cm pat p e) (h' : Match lower s cm pat p e') : e = e' := by
  cases cm with
  | exact =>
    have h1 : e = p + (enc pat).length := h.2
    have h2 : e' = p + (enc pat).length := h'.2
    omega
  | caseInsensitive =>
    obtain ⟨a, u, b, h1, h2, h3, h4, h5⟩ := h.2
    obtain ⟨a', u', b', g1, g2, g3, g4, g5⟩ := h'.2
    rw [h1] at g1
    have g1 : enc (a ++ (u ++ b)) = enc (a' ++ (u' ++ b')) := by simpa only [enc_append] using g1
    have g1 := enc_inj g1
    have ha : a = a' := by
      rcases prefix_total ⟨u ++ b, g1⟩ (List.prefix_append a' (u' ++ b')) with h | h
      · exact prefix_of_enc h (by omega)
      · exact (prefix_of_enc h (by omega)).symm
    subst ha
    have g1 := List.append_cancel_left g1
    have hu : u = u' := by
      rcases prefix_total ⟨b, g1⟩ (List.prefix_append u' b') with h | h
      · exact Classical.byContradiction fun hn => g5 u h hn h4
      · exact Classical.byContradiction fun hn => h5 u' h (Ne.symm hn) g4
    subst hu
    omega

/-- A match that begins in another one does not end before it. -/
theorem match_mono (h : Match lower s cm pat p e) (h' : Match lower s cm pat p' e') (h1 : p < p') : e ≤ e' := by
  cases cm with
  | exact =>
    have h1 : e = p + (enc pat).length := h.2
    have h2 : e' = p' + (enc pat).length := h'.2
    omega
  | caseInsensitive =>
    obtain ⟨a, u, b, h1, h2, h3, h4, h5⟩ := h.2
    obtain ⟨a', u', b', g1, g2, g3, g4, g5⟩ := h'.2
    rw [h1] at g1
    have g1 : enc (a ++ (u ++ b)) = enc (a' ++ (u' ++ b')) := by simpa only [enc_append] using g1
    have g1 := enc_inj g1
    apply Classical.byContradiction
    intro hn
    have ha : a <+: a' := by
      rcases prefix_total ⟨u ++ b, g1⟩ (List.prefix_append a' (u' ++ b')) with h | h
      · exact h
      · obtain ⟨t, rfl⟩ := h
        rw [enc_append, List.length_append] at h2
        omega
    obtain ⟨w, rfl⟩ := ha
    rw [List.append_assoc] at g1
    have g1 := List.append_cancel_left g1
    rw [← List.append_assoc] at g1
    have hp : w ++ u' <+: u := by
      rcases prefix_total ⟨b, g1⟩ (List.prefix_append (w ++ u') b') with h | h
      · obtain ⟨t, ht⟩ := h
        have h6 := congrArg (fun l => (enc l).length) ht
        simp only [enc_append, List.length_append] at h6 g3
        omega
      · exact h
    refine h5 _ hp ?_ ?_
    · rintro rfl
      simp only [enc_append, List.length_append] at g3 h3
      omega
    · have h6 : (w ++ u').flatMap lower.char <+: u.flatMap lower.char := by
        obtain ⟨t, rfl⟩ := hp
        rw [List.flatMap_append (xs := w ++ u')]
        exact List.prefix_append _ _
      refine List.prefix_of_prefix_length_le h4 h6 ?_
      rw [List.flatMap_append, List.length_append]
      have := g4.length_le
      omega

theorem match_take (hreg : Regular lower cm pat) (hs : Utf8 s) {E : Nat} (h : Match lower (s.take E) cm pat p e) : Match lower s cm pat p e := by
  obtain ⟨A, x, B, h1, rfl, rfl, h2⟩ := match_local hreg h
  have h3 : s = A ++ (x ++ (B ++ s.drop E)) := by
    rw [← List.append_assoc x, ← List.append_assoc A, ← h1, List.take_append_drop]
  rw [h3] at hs ⊢
  exact match_of_local hreg hs h2

/-- The same bytes are a match elsewhere. -/
theorem match_move (hreg : Regular lower cm pat) {s' : List UInt8} (hs' : Utf8 s') (h : Match lower s cm pat p e)
    (heq : (s'.drop p').take (e - p) = (s.drop p).take (e - p)) (hle : p' + (e - p) ≤ s'.length) : Match lower s' cm pat p' (p' + (e - p)) := by
  obtain ⟨A, x, B, h1, rfl, h3, h2⟩ := match_local hreg h
  have hx : e - A.length = x.length := by omega
  rw [hx] at heq hle ⊢
  have h4 : (s.drop A.length).take x.length = x := by rw [h1, List.drop_left, List.take_left]
  rw [h4] at heq
  have h5 : s' = s'.take p' ++ (x ++ s'.drop (p' + x.length)) := by
    have h6 : x ++ s'.drop (p' + x.length) = s'.drop p' := by
      have := List.take_append_drop x.length (s'.drop p')
      rwa [heq, List.drop_drop] at this
    rw [h6, List.take_append_drop]
  have hl : (s'.take p').length = p' := by simp; omega
  have := match_of_local (lower := lower) (cm := cm) (pat := pat) hreg (A := s'.take p') (x := x) (B := s'.drop (p' + x.length)) (h5 ▸ hs') h2
  rw [← h5, hl] at this
  exact this

end Find

end Xi
