import Verif.Layout.BreakEdits

/-!
# Places in front of blocks

A condition on a text under which line breaks can be put in front of blocks and comments. It stays true
if line breaks are added.
-/

namespace Ludtwig.Layout

/-! ## Specification -/

/-- The openTexts of blocks and comments. -/
def openTexts : List Text := ["{%".toList, "{#".toList, "<!--".toList]

/-- A text begins with a block or a comment, possibly behind whitespace. -/
def BlockNext (v : Text) : Prop :=
  ∃ b w r, v = b ++ (w ++ r) ∧ (∀ c ∈ b, blankChar c = true) ∧ w ∈ openTexts

/-- No block or comment comes directly, or only behind whitespace, behind `<` or an operator of two
words. -/
def BlocksClear (s : Text) : Prop :=
  ∀ u v, s = u ++ v → BlockNext v → u.getLast? ≠ some '<' ∧ ¬ EndsTwoWords u

/-! ## Added line breaks -/

/-- `s'` is `s` with line breaks added or replaced. -/
inductive Lined : Text → Text → Prop
  | nil : Lined [] []
  | keep {c s s'} : Lined s s' → Lined (c :: s) (c :: s')
  | insert {b s s'} : IsLineBreaks b → b ≠ [] → Lined s s' → Lined s (b ++ s')
  | replace {a b s s'} : IsLineBreaks a → IsLineBreaks b → b ≠ [] → Lined s s' → Lined (a ++ s) (b ++ s')

theorem Lined.keep_all {s s' : Text} (h : Lined s s') : ∀ w : Text, Lined (w ++ s) (w ++ s')
  | [] => h
  | _ :: w => .keep (h.keep_all w)

/-- A character of a line break. -/
def breakChar (c : Char) : Bool := c == '\n' || c == '\r'

theorem breakChar_of {b : Text} (h : IsLineBreaks b) : ∀ c ∈ b, breakChar c = true := by
  obtain ⟨l, rfl, hl⟩ := h
  intro c hc
  obtain ⟨x, hx, hc⟩ := List.mem_flatten.1 hc
  rcases hl x hx with rfl | rfl
  · simp at hc; subst hc; rfl
  · simp at hc; rcases hc with rfl | rfl <;> rfl

/-- The text can be cut where a character other than that of a line break is next to the cut. -/
theorem Lined.split {s t' : Text} (h : Lined s t') : ∀ {u' v' : Text}, t' = u' ++ v' →
    ((∃ c, u'.getLast? = some c ∧ breakChar c = false) ∨ (∃ c, v'.head? = some c ∧ breakChar c = false)) →
    ∃ u v, s = u ++ v ∧ Lined u u' ∧ Lined v v' := by
  have brk : ∀ {b s' u' v' : Text}, IsLineBreaks b → b ++ s' = u' ++ v' →
      ((∃ c, u'.getLast? = some c ∧ breakChar c = false) ∨ (∃ c, v'.head? = some c ∧ breakChar c = false)) →
      ∃ u'', u' = b ++ u'' ∧ s' = u'' ++ v' ∧
        ((∃ c, u''.getLast? = some c ∧ breakChar c = false) ∨ (∃ c, v'.head? = some c ∧ breakChar c = false)) := by
    intro b s' u' v' hb e hc
    rcases List.append_eq_append_iff.1 e with ⟨x, rfl, rfl⟩ | ⟨x, rfl, rfl⟩
    · refine ⟨x, rfl, rfl, ?_⟩
      rcases hc with ⟨c, h1, h2⟩ | hc
      · rw [List.getLast?_append] at h1
        cases hx : x.getLast? with
        | none =>
          rw [hx, Option.none_or] at h1
          rw [breakChar_of hb c (List.mem_of_getLast? h1)] at h2
          cases h2
        | some d =>
          rw [hx] at h1
          exact .inl ⟨c, h1, h2⟩
      · exact .inr hc
    · cases x with
      | nil => exact ⟨[], by simp, by simp, by
          rcases hc with ⟨c, h1, h2⟩ | hc
          · rw [breakChar_of hb c (by simpa using List.mem_of_getLast? h1)] at h2
            cases h2
          · exact .inr hc⟩
      | cons d x =>
        exfalso
        rcases hc with ⟨c, h1, h2⟩ | ⟨c, h1, h2⟩
        · rw [breakChar_of hb c (by simp [List.mem_of_getLast? h1])] at h2
          cases h2
        · simp at h1
          subst h1
          rw [breakChar_of hb d (by simp)] at h2
          cases h2
  induction h with
  | nil =>
    intro u' v' e hc
    obtain ⟨rfl, rfl⟩ := List.append_eq_nil_iff.1 e.symm
    exact ⟨[], [], rfl, .nil, .nil⟩
  | @keep c s s' h ih =>
    intro u' v' e hc
    cases u' with
    | nil =>
      simp at e
      subst e
      exact ⟨[], c :: s, rfl, .nil, .keep h⟩
    | cons d u' =>
      simp only [List.cons_append, List.cons.injEq] at e
      obtain ⟨rfl, e⟩ := e
      cases u' with
      | nil =>
        simp at e
        subst e
        exact ⟨[c], s, rfl, .keep .nil, h⟩
      | cons d' u' =>
        obtain ⟨u, v, rfl, h1, h2⟩ := ih e (by simpa using hc)
        exact ⟨c :: u, v, rfl, .keep h1, h2⟩
  | @insert b s s' hb hne h ih =>
    intro u' v' e hc
    obtain ⟨u'', rfl, e2, hc⟩ := brk hb e hc
    obtain ⟨u, v, rfl, h1, h2⟩ := ih e2 hc
    exact ⟨u, v, rfl, .insert hb hne h1, h2⟩
  | @replace a b s s' ha hb hne h ih =>
    intro u' v' e hc
    obtain ⟨u'', rfl, e2, hc⟩ := brk hb e hc
    obtain ⟨u, v, rfl, h1, h2⟩ := ih e2 hc
    exact ⟨a ++ u, v, by simp, .replace ha hb hne h1, h2⟩

theorem Lined.kept_head {s t' : Text} (h : Lined s t') {c : Char} {r' : Text} (e : t' = c :: r')
    (hc : breakChar c = false) : ∃ r, s = c :: r ∧ Lined r r' := by
  have brk : ∀ {b s' : Text}, IsLineBreaks b → b ≠ [] → b ++ s' = c :: r' → False := by
    intro b s' hb hne e
    cases b with
    | nil => exact hne rfl
    | cons d b =>
      simp at e
      rw [e.1] at hb
      rw [breakChar_of hb c (by simp)] at hc
      cases hc
  cases h with
  | nil => cases e
  | keep h => cases e; exact ⟨_, rfl, h⟩
  | insert hb hne h => exact (brk hb hne e).elim
  | replace ha hb hne h => exact (brk hb hne e).elim

theorem Lined.kept_all : ∀ {w s r' : Text}, Lined s (w ++ r') → (∀ c ∈ w, breakChar c = false) →
    ∃ r, s = w ++ r ∧ Lined r r'
  | [], s, r', h, _ => ⟨s, rfl, h⟩
  | c :: w, s, r', h, hw => by
    obtain ⟨s, rfl, h1⟩ := h.kept_head (r' := w ++ r') rfl (hw c (by simp))
    obtain ⟨r, rfl, h2⟩ := Lined.kept_all h1 (fun c hc => hw c (by simp [hc]))
    exact ⟨r, rfl, h2⟩

theorem Lined.of_nil {s t' : Text} (h : Lined s t') (e : t' = []) : s = [] := by
  cases h with
  | nil => rfl
  | keep _ => cases e
  | insert _ hne _ => exact absurd (List.append_eq_nil_iff.1 e).1 hne
  | replace _ _ hne _ => exact absurd (List.append_eq_nil_iff.1 e).1 hne

/-- The end of the old text, if the new one ends with `w`. -/
theorem Lined.suffix {u u' w : Text} (h : Lined u u') (hw : w <:+ u') (hne : w ≠ [])
    (hc : ∀ c ∈ w, breakChar c = false) : w <:+ u := by
  obtain ⟨x', rfl⟩ := hw
  obtain ⟨x, y, rfl, _, h2⟩ := h.split rfl (by
    cases w with
    | nil => exact absurd rfl hne
    | cons c w => exact .inr ⟨c, rfl, hc c (by simp)⟩)
  rw [← List.append_nil w] at h2
  obtain ⟨r, rfl, h3⟩ := h2.kept_all hc
  rw [h3.of_nil rfl]
  exact ⟨x, by simp⟩

theorem Lined.blank {s s' : Text} (h : Lined s s') : (∀ c ∈ s', blankChar c = true) →
    ∀ c ∈ s, blankChar c = true := by
  have hbk : ∀ c, breakChar c = true → blankChar c = true := by
    intro c hc
    simp only [breakChar, Bool.or_eq_true, beq_iff_eq] at hc
    rcases hc with rfl | rfl <;> rfl
  induction h with
  | nil => exact fun h => h
  | keep _ ih =>
    intro h c hc
    rcases List.mem_cons.1 hc with rfl | hc
    · exact h _ (by simp)
    · exact ih (fun c hc => h c (by simp [hc])) c hc
  | insert _ _ _ ih => exact fun h => ih (fun c hc => h c (by simp [hc]))
  | replace ha _ _ _ ih =>
    intro h c hc
    rcases List.mem_append.1 hc with hc | hc
    · exact hbk c (breakChar_of ha c hc)
    · exact ih (fun c hc => h c (by simp [hc])) c hc

theorem Lined.blockNext {v v' : Text} (h : Lined v v') (ha : BlockNext v') : BlockNext v := by
  obtain ⟨b', w, r', rfl, hb, hw⟩ := ha
  have hwc : w ≠ [] ∧ ∀ c ∈ w, breakChar c = false :=
    (by decide : ∀ w ∈ openTexts, w ≠ [] ∧ ∀ c ∈ w, breakChar c = false) w hw
  obtain ⟨b, y, rfl, h1, h2⟩ := h.split rfl (by
    cases w with
    | nil => exact absurd rfl hwc.1
    | cons c w => exact .inr ⟨c, rfl, hwc.2 c (by simp)⟩)
  obtain ⟨r, rfl, _⟩ := h2.kept_all hwc.2
  exact ⟨b, w, r, rfl, h1.blank hb, hw⟩

/-- The condition stays true if line breaks are added. -/
theorem blocksClear_lined {s s' : Text} (h : Lined s s') (hs : BlocksClear s) : BlocksClear s' := by
  intro u' v' e ha
  have key : ∀ w : Text, w ≠ [] → (∀ c ∈ w, breakChar c = false) → w <:+ u' →
      ∃ u v, s = u ++ v ∧ BlockNext v ∧ w <:+ u := by
    intro w hne hc hw
    obtain ⟨u, v, e2, h1, h2⟩ := h.split e (by
      obtain ⟨x, rfl⟩ := hw
      obtain ⟨w0, d, rfl⟩ : ∃ w0 d, w = w0 ++ [d] :=
        ⟨w.dropLast, w.getLast hne, (List.dropLast_concat_getLast hne).symm⟩
      exact .inl ⟨d, by simp [List.getLast?_append], hc d (by simp)⟩)
    exact ⟨u, v, e2, h2.blockNext ha, h1.suffix hw hne hc⟩
  refine ⟨fun hl => ?_, ?_⟩
  · obtain ⟨u, v, e2, h2, h3⟩ := key ['<'] (by simp) (by decide) (by
      obtain ⟨x, hx⟩ := List.getLast?_eq_some_iff.1 hl
      exact ⟨x, hx.symm⟩)
    obtain ⟨x, rfl⟩ := h3
    exact (hs _ v e2 h2).1 (by simp [List.getLast?_append])
  · rintro (hw | hw)
    · obtain ⟨u, v, e2, h2, h3⟩ := key _ (by decide) (by decide) hw
      exact (hs _ v e2 h2).2 (.inl h3)
    · obtain ⟨u, v, e2, h2, h3⟩ := key _ (by decide) (by decide) hw
      exact (hs _ v e2 h2).2 (.inr h3)

theorem spaced_lined {u : Text} {ts : List Token} {s' : Text} (h : Spaced u ts s') :
    (∀ t ∈ ts, t.kind = .TK_LINE_BREAK → IsLineBreaks t.text) → Lined (ts.flatMap (·.text)) s' := by
  induction h with
  | nil => exact fun _ => .nil
  | keep _ ih =>
    intro hb
    rw [List.flatMap_cons]
    exact (ih (fun t ht => hb t (by simp [ht]))).keep_all _
  | insert _ h1 h2 _ _ ih =>
    intro hb
    rw [List.flatMap_cons]
    exact .insert h1 h2 ((ih (fun t ht => hb t (by simp [ht]))).keep_all _)
  | replace hk h1 h2 _ _ ih =>
    intro hb
    rw [List.flatMap_cons]
    exact .replace (hb _ (by simp) hk) h1 h2 (ih (fun t ht => hb t (by simp [ht])))

end Ludtwig.Layout
