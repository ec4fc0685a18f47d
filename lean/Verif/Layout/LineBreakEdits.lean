import Verif.Layout.LineBreaks
import Verif.Layout.LineSuggestions

/-!
# Edits at line starts and of line breaks

If only the whitespace at the beginnings of lines is replaced, and CRLF by LF, in terms of the leaves of
the tree, the result is the file in another layout.
-/

namespace Ludtwig.Layout

open Lexer Cli

/-! ### Single line breaks -/

/-- A text of line breaks cut into single ones. -/
def cutBreaks : Text → List Text
  | [] => []
  | '\r' :: '\n' :: s => ['\r', '\n'] :: cutBreaks s
  | c :: s => [c] :: cutBreaks s

/-- Leaves, where leaves of several line breaks are cut into single ones. -/
def splitBreaks (ls : List (SyntaxKind × Text)) : List (SyntaxKind × Text) :=
  ls.flatMap (fun l =>
    if l.1 = .TK_LINE_BREAK then (cutBreaks l.2).map (fun t => (SyntaxKind.TK_LINE_BREAK, t)) else [l])

theorem cutBreaks_flatten : ∀ s : Text, (cutBreaks s).flatten = s := by
  intro s
  induction s using cutBreaks.induct with
  | case1 => rfl
  | case2 s ih => simp [cutBreaks, ih]
  | case3 c s hn ih => rw [cutBreaks.eq_3 _ _ hn, List.flatten_cons, ih]; rfl

theorem cutBreaks_ne {s : Text} : ∀ x ∈ cutBreaks s, x ≠ [] := by
  induction s using cutBreaks.induct with
  | case1 => simp [cutBreaks]
  | case2 s ih => simpa [cutBreaks] using ih
  | case3 c s hn ih => rw [cutBreaks.eq_3 _ _ hn]; simpa using ih

theorem cutBreaks_items {l : List Text} (hl : ∀ x ∈ l, x = ['\n'] ∨ x = ['\r', '\n']) :
    cutBreaks l.flatten = l := by
  induction l with
  | nil => rfl
  | cons x l ih =>
    have := ih (fun y hy => hl y (List.mem_cons_of_mem _ hy))
    rcases hl x List.mem_cons_self with rfl | rfl
    · show cutBreaks ('\n' :: l.flatten) = _
      rw [cutBreaks.eq_3 _ _ (by intro _ h; cases h), this]
    · show cutBreaks ('\r' :: '\n' :: l.flatten) = _
      rw [cutBreaks.eq_2, this]

theorem splitBreaks_append (a b : List (SyntaxKind × Text)) :
    splitBreaks (a ++ b) = splitBreaks a ++ splitBreaks b := by
  simp [splitBreaks]

theorem splitBreaks_other {l : SyntaxKind × Text} (h : l.1 ≠ .TK_LINE_BREAK)
    (ls : List (SyntaxKind × Text)) : splitBreaks (l :: ls) = l :: splitBreaks ls := by
  simp [splitBreaks, h]

theorem splitBreaks_lb (t : Text) (ls : List (SyntaxKind × Text)) :
    splitBreaks ((.TK_LINE_BREAK, t) :: ls) =
      (cutBreaks t).map (fun t => (SyntaxKind.TK_LINE_BREAK, t)) ++ splitBreaks ls := by
  simp [splitBreaks]

theorem splitBreaks_text (ls : List (SyntaxKind × Text)) :
    (splitBreaks ls).flatMap (·.2) = ls.flatMap (·.2) := by
  induction ls with
  | nil => rfl
  | cons l ls ih =>
    by_cases h : l.1 = .TK_LINE_BREAK
    · obtain ⟨k, t⟩ := l
      dsimp only at h
      subst h
      rw [splitBreaks_lb, List.flatMap_append, ih, List.flatMap_cons, List.flatMap_map]
      congr 1
      exact List.flatMap_id'.trans (cutBreaks_flatten t)
    · rw [splitBreaks_other h, List.flatMap_cons, ih, List.flatMap_cons]

theorem splitBreaks_ne {ls : List (SyntaxKind × Text)} (h : ∀ l ∈ ls, l.2 ≠ []) :
    ∀ l ∈ splitBreaks ls, l.2 ≠ [] := by
  intro l hl
  obtain ⟨x, hx, hl⟩ := List.mem_flatMap.mp hl
  split at hl
  · obtain ⟨t, ht, rfl⟩ := List.mem_map.mp hl
    exact cutBreaks_ne t ht
  · simp only [List.mem_singleton] at hl
    subst hl
    exact h l hx

theorem splitBreaks_id {ls : List (SyntaxKind × Text)} (h : ∀ l ∈ ls, l.1 ≠ .TK_LINE_BREAK) :
    splitBreaks ls = ls := by
  induction ls with
  | nil => rfl
  | cons l ls ih =>
    rw [splitBreaks_other (h l List.mem_cons_self), ih (fun x hx => h x (List.mem_cons_of_mem _ hx))]

/-! ### Edits -/

/-- The pieces `ps` of a file with the leaves `ls`, where leaves of several line breaks are cut into
single ones: as in `Edits`, and CRLF may be replaced by LF. If `Q` holds, every CRLF is replaced, and no
new CR appears. -/
inductive LineEdits (Q : Prop) : Bool → List (SyntaxKind × Text) → List Piece → Prop
  | nil {b} : LineEdits Q b [] []
  | keep {b k t ls ps} : (Q → k = .TK_LINE_BREAK → t ≠ ['\r', '\n']) →
      LineEdits Q (k == .TK_LINE_BREAK) ls ps → LineEdits Q b ((k, t) :: ls) (⟨t, none⟩ :: ps)
  | space {t new ls ps} : Blanks new → (Q → '\r' ∉ new) → LineEdits Q false ls ps →
      LineEdits Q true ((.TK_WHITESPACE, t) :: ls) (⟨t, some new⟩ :: ps)
  | insert {k t new ls ps} : k.isTrivia = false → Blanks new → (Q → '\r' ∉ new) → LineEdits Q false ls ps →
      LineEdits Q true ((k, t) :: ls) (⟨[], some new⟩ :: ⟨t, none⟩ :: ps)
  | crlf {b ls ps} : LineEdits Q true ls ps →
      LineEdits Q b ((.TK_LINE_BREAK, ['\r', '\n']) :: ls) (⟨['\r', '\n'], some ['\n']⟩ :: ps)

variable {Q : Prop}

theorem not_lb {k : SyntaxKind} {t : Text} (h : k ≠ .TK_LINE_BREAK) :
    Q → k = .TK_LINE_BREAK → t ≠ ['\r', '\n'] := fun _ h0 => absurd h0 h

theorem solid_not_lb {k : SyntaxKind} (h : k.isTrivia = false) : k ≠ .TK_LINE_BREAK := by
  intro h0; rw [h0] at h; cases h

theorem LineEdits.mono {b : Bool} {ls ps} (h : LineEdits Q false ls ps) : LineEdits Q b ls ps := by
  cases h with
  | nil => exact .nil
  | keep hq h => exact .keep hq h
  | crlf h => exact .crlf h

/-- Line breaks in front. -/
theorem lineEdits_breaks {l : List Text} {ls : List (SyntaxKind × Text)} : ∀ {b ps},
    LineEdits Q b (l.map (fun t => (SyntaxKind.TK_LINE_BREAK, t)) ++ ls) ps →
    ∃ ps1 ps2, ps = ps1 ++ ps2 ∧ LineEdits Q (b || !l.isEmpty) ls ps2 ∧
      ∀ {b' ls' ps'}, LineEdits Q (b' || !l.isEmpty) ls' ps' →
        LineEdits Q b' (l.map (fun t => (SyntaxKind.TK_LINE_BREAK, t)) ++ ls') (ps1 ++ ps') := by
  induction l with
  | nil => intro b ps h; exact ⟨[], ps, rfl, by simpa using h, fun h => by simpa using h⟩
  | cons x l ih =>
    intro b ps h
    rw [List.map_cons, List.cons_append] at h
    cases h with
    | @keep _ k t _ qs hq h =>
      obtain ⟨ps1, ps2, rfl, h1, h2⟩ := ih h
      refine ⟨⟨x, none⟩ :: ps1, ps2, rfl, by simpa using h1, fun h => ?_⟩
      exact .keep hq (h2 (by simpa using h))
    | crlf h =>
      obtain ⟨ps1, ps2, rfl, h1, h2⟩ := ih h
      refine ⟨_ :: ps1, ps2, rfl, by simpa using h1, fun h => ?_⟩
      exact .crlf (h2 (by simpa using h))
    | insert hn => cases hn

theorem after_append (a b : List Piece) : piecesAfter (a ++ b) = piecesAfter a ++ piecesAfter b := by
  simp [piecesAfter]

theorem before_append (a b : List Piece) : piecesBefore (a ++ b) = piecesBefore a ++ piecesBefore b := by
  simp [piecesBefore]

/-- The pieces in terms of the leaves and in terms of the tokens. -/
theorem lineEdits_tokens {ls : List (SyntaxKind × Text)} {ts : List Token} (hc : Covers ls ts)
    (hne : ∀ t ∈ ts, t.text ≠ []) :
    ∀ {b ps}, LineEdits Q b (splitBreaks ls) ps →
      ∃ ps', LineEdits Q b (splitBreaks (ts.map (fun t => (t.kind, t.text)))) ps' ∧
        piecesBefore ps' = piecesBefore ps ∧ piecesAfter ps' = piecesAfter ps := by
  induction hc with
  | nil => intro b ps h; exact ⟨ps, h, rfl, rfl⟩
  | same t _ ih =>
    intro b ps h
    have hne' := fun t ht => hne t (List.mem_cons_of_mem _ ht)
    rw [List.map_cons]
    by_cases hk : t.kind = .TK_LINE_BREAK
    · rw [hk, splitBreaks_lb] at h ⊢
      obtain ⟨ps1, ps2, rfl, h1, h2⟩ := lineEdits_breaks h
      obtain ⟨qs, k1, k2, k3⟩ := ih hne' h1
      exact ⟨ps1 ++ qs, h2 k1, by rw [before_append, before_append, k2],
        by rw [after_append, after_append, k3]⟩
    · rw [splitBreaks_other hk] at h ⊢
      generalize hkk : t.kind = k at h ⊢
      generalize htt : t.text = x at h ⊢
      cases h with
      | keep hq h =>
        obtain ⟨qs, h1, h2, h3⟩ := ih hne' h
        refine ⟨⟨x, none⟩ :: qs, .keep hq h1, ?_, ?_⟩
        · simp_all [piecesBefore]
        · simp_all [piecesAfter]
      | @space _ new _ _ hb hq h =>
        obtain ⟨qs, h1, h2, h3⟩ := ih hne' h
        refine ⟨⟨x, some new⟩ :: qs, .space hb hq h1, ?_, ?_⟩
        · simp_all [piecesBefore]
        · simp_all [piecesAfter]
      | @insert _ _ new _ _ hn hb hq h =>
        obtain ⟨qs, h1, h2, h3⟩ := ih hne' h
        refine ⟨⟨[], some new⟩ :: ⟨x, none⟩ :: qs, .insert hn hb hq h1, ?_, ?_⟩
        · simp_all [piecesBefore]
        · simp_all [piecesAfter]
      | crlf h => exact absurd hkk hk
  | word t ht _ ih =>
    intro b ps h
    have hne' := fun t ht => hne t (List.mem_cons_of_mem _ ht)
    have hk : t.kind ≠ .TK_LINE_BREAK := by intro h0; rw [h0] at ht; cases ht
    rw [splitBreaks_other (by simp)] at h
    rw [List.map_cons, splitBreaks_other hk]
    cases h with
    | keep _ h =>
      obtain ⟨qs, h1, h2, h3⟩ := ih hne' h
      refine ⟨⟨t.text, none⟩ :: qs, .keep (not_lb hk) (by rw [kind_ne_lb ht]; exact h1), ?_, ?_⟩
      · simp_all [piecesBefore]
      · simp_all [piecesAfter]
    | @insert _ _ new _ _ hn hb hq h =>
      obtain ⟨qs, h1, h2, h3⟩ := ih hne' h
      refine ⟨⟨[], some new⟩ :: ⟨t.text, none⟩ :: qs, .insert ht hb hq h1, ?_, ?_⟩
      · simp_all [piecesBefore]
      · simp_all [piecesAfter]
  | merged t u ht hws _ ih =>
    intro b ps h
    have hne' := fun t ht => hne t (List.mem_cons_of_mem _ (List.mem_cons_of_mem _ ht))
    have hn : t.kind.isTrivia = false := by rw [ht]; rfl
    rw [splitBreaks_other (by simp)] at h
    rw [List.map_cons, List.map_cons, splitBreaks_other (by simp [ht])]
    have hu : ∀ {qs ts}, LineEdits Q false (splitBreaks ts) qs →
        ∃ us, piecesBefore us = u.text ∧ piecesAfter us = u.text ∧
          LineEdits Q false (splitBreaks ((u.kind, u.text) :: ts)) (us ++ qs) := by
      intro qs ts h
      by_cases hk : u.kind = .TK_LINE_BREAK
      · rw [hk, splitBreaks_lb]
        have : ∀ (l : List Text) (b : Bool), (∀ x ∈ l, x ≠ ['\r', '\n']) → LineEdits Q b
            (l.map (fun t => (SyntaxKind.TK_LINE_BREAK, t)) ++ splitBreaks ts)
            (l.map (fun t => ⟨t, none⟩) ++ qs) := by
          intro l
          induction l with
          | nil => intro b _; exact LineEdits.mono h
          | cons x l ih =>
            intro b hx
            exact .keep (fun _ _ => hx x List.mem_cons_self) (ih _ (fun y hy => hx y (List.mem_cons_of_mem _ hy)))
        refine ⟨(cutBreaks u.text).map (fun t => ⟨t, none⟩), ?_, ?_, this _ _ (fun x hx h0 => ?_)⟩
        · simp only [piecesBefore, List.flatMap_map]
          exact List.flatMap_id'.trans (cutBreaks_flatten _)
        · simp only [piecesAfter, List.flatMap_map, Option.getD_none]
          exact List.flatMap_id'.trans (cutBreaks_flatten _)
        · subst h0
          have := hws '\n' (by
            rw [← cutBreaks_flatten u.text]
            exact List.mem_flatten.2 ⟨_, hx, by simp⟩)
          revert this; decide
      · rw [splitBreaks_other hk]
        exact ⟨[⟨u.text, none⟩], by simp [piecesBefore], by simp [piecesAfter],
          .keep (not_lb hk) (LineEdits.mono h)⟩
    cases h with
    | keep _ h =>
      obtain ⟨qs, h1, h2, h3⟩ := ih hne' h
      obtain ⟨us, u1, u2, u3⟩ := hu h1
      refine ⟨⟨t.text, none⟩ :: (us ++ qs), .keep (not_lb (solid_not_lb hn)) (LineEdits.mono u3), ?_, ?_⟩
      · simp_all [piecesBefore]
      · simp_all [piecesAfter]
    | @insert _ _ new _ _ _ hb hq h =>
      obtain ⟨qs, h1, h2, h3⟩ := ih hne' h
      obtain ⟨us, u1, u2, u3⟩ := hu h1
      refine ⟨⟨[], some new⟩ :: ⟨t.text, none⟩ :: (us ++ qs), .insert hn hb hq u3, ?_, ?_⟩
      · simp_all [piecesBefore]
      · simp_all [piecesAfter]

theorem lineEdits_before {b : Bool} {ls : List (SyntaxKind × Text)} {ps : List Piece}
    (h : LineEdits Q b ls ps) : piecesBefore ps = ls.flatMap (·.2) := by
  induction h with
  | nil => rfl
  | keep _ _ ih => simp_all [piecesBefore]
  | space _ _ _ ih => simp_all [piecesBefore]
  | insert _ _ _ _ ih => simp_all [piecesBefore]
  | crlf _ ih => simp_all [piecesBefore]

/-! ### Edits of gaps and lines -/

theorem lineEdits_line {ut ts : List (SyntaxKind × Text)} (hu : ∀ p ∈ ut, p.1 ≠ .TK_LINE_BREAK) :
    ∀ {ps}, LineEdits Q false (ut ++ ts) ps → ∃ ps1 ps2, ps = ps1 ++ ps2 ∧
      piecesAfter ps1 = (ut.map (·.2)).flatten ∧ LineEdits Q false ts ps2 := by
  induction ut with
  | nil => intro ps h; exact ⟨[], ps, rfl, rfl, h⟩
  | cons x ut ih =>
    intro ps h
    rw [List.cons_append] at h
    cases h with
    | @keep _ k t _ qs _ h =>
      have hk : (k == SyntaxKind.TK_LINE_BREAK) = false := by
        simpa using hu _ (List.mem_cons_self ..)
      rw [hk] at h
      obtain ⟨ps1, ps2, rfl, h1, h2⟩ := ih (fun p hp => hu p (List.mem_cons_of_mem _ hp)) h
      refine ⟨⟨t, none⟩ :: ps1, ps2, rfl, ?_, h2⟩
      simp_all [piecesAfter]
    | crlf h => exact absurd rfl (hu _ (List.mem_cons_self ..))

theorem lineEdits_gap {gt ts : List (SyntaxKind × Text)}
    (hg : ∀ p ∈ gt, p.1.isTrivia = true ∧ p.2 ≠ [] ∧ Blanks p.2 ∧ (p.1 = .TK_LINE_BREAK ↔ '\n' ∈ p.2))
    (ht : ∀ p ∈ ts.head?, p.1.isTrivia = false) :
    ∀ {b ps}, LineEdits Q b (gt ++ ts) ps → ∃ ps1 ps2, ps = ps1 ++ ps2 ∧ Blanks (piecesAfter ps1) ∧
      ('\n' ∈ (gt.map (·.2)).flatten → '\n' ∈ piecesAfter ps1) ∧
      (b = false → gt ≠ [] → ((gt.map (·.2)).flatten).head? = (piecesAfter ps1).head? ∨
        (((gt.map (·.2)).flatten).head? = some '\r' ∧ (piecesAfter ps1).head? = some '\n')) ∧
      LineEdits Q false ts ps2 ∧
      (Q → (∀ p ∈ gt, '\r' ∈ p.2 → p = (.TK_LINE_BREAK, ['\r', '\n'])) → '\r' ∉ piecesAfter ps1) := by
  induction gt with
  | nil =>
    intro b ps h
    rw [List.nil_append] at h
    cases h with
    | nil => exact ⟨[], [], rfl, blanks_nil, by simp, by simp, .nil, fun _ _ => by simp [piecesAfter]⟩
    | keep hq h =>
      exact ⟨[], _, rfl, blanks_nil, by simp, by simp, .keep hq h, fun _ _ => by simp [piecesAfter]⟩
    | space _ _ h =>
      have := ht _ rfl
      cases this
    | @insert k t new ls qs hn hb hq h =>
      refine ⟨[⟨[], some new⟩], ⟨t, none⟩ :: qs, rfl, by simpa [piecesAfter] using hb, by simp,
        by simp, .keep (not_lb (solid_not_lb hn)) (by rw [kind_ne_lb hn]; exact h),
        fun h0 _ => by simpa [piecesAfter] using hq h0⟩
    | crlf h =>
      have := ht _ rfl
      cases this
  | cons x gt ih =>
    intro b ps h
    have hg' := fun p hp => hg p (List.mem_cons_of_mem _ hp)
    obtain ⟨m1, m2, m3, m4⟩ := hg x (List.mem_cons_self ..)
    rw [List.cons_append] at h
    cases h with
    | @keep _ k t _ qs hq h =>
      obtain ⟨ps1, ps2, rfl, h2, h3, h4, h5, h6⟩ := ih hg' h
      refine ⟨⟨t, none⟩ :: ps1, ps2, rfl, ?_, ?_, ?_, h5, ?_⟩
      · exact blanks_append m3 h2
      · intro hm
        show '\n' ∈ t ++ piecesAfter ps1
        rw [List.map_cons, List.flatten_cons] at hm
        rcases List.mem_append.1 hm with hm | hm
        · exact List.mem_append.2 (.inl hm)
        · exact List.mem_append.2 (.inr (h3 hm))
      · intro _ _
        refine .inl ?_
        show _ = (t ++ piecesAfter ps1).head?
        cases t with
        | nil => exact absurd rfl m2
        | cons c t => simp
      · intro h0 hcr hm
        rcases List.mem_append.1 (show '\r' ∈ t ++ piecesAfter ps1 from hm) with hm | hm
        · have := hcr _ List.mem_cons_self hm
          simp only [Prod.mk.injEq] at this
          exact hq h0 this.1 this.2
        · exact h6 h0 (fun p hp => hcr p (List.mem_cons_of_mem _ hp)) hm
    | @space t new _ qs hb hq h =>
      obtain ⟨ps1, ps2, rfl, h2, h3, h4, h5, h6⟩ := ih hg' h
      refine ⟨⟨t, some new⟩ :: ps1, ps2, rfl, blanks_append hb h2, ?_, by simp, h5, fun h0 hcr hm => ?_⟩
      rotate_left
      · rcases List.mem_append.1 (show '\r' ∈ new ++ piecesAfter ps1 from hm) with hm | hm
        · exact hq h0 hm
        · exact h6 h0 (fun p hp => hcr p (List.mem_cons_of_mem _ hp)) hm
      intro hm
      show '\n' ∈ new ++ piecesAfter ps1
      rw [List.map_cons, List.flatten_cons] at hm
      rcases List.mem_append.1 hm with hm | hm
      · cases m4.2 hm
      · exact List.mem_append.2 (.inr (h3 hm))
    | insert hn => rw [hn] at m1; cases m1
    | crlf h =>
      obtain ⟨ps1, ps2, rfl, h2, h3, h4, h5, h6⟩ := ih hg' h
      refine ⟨_ :: ps1, ps2, rfl, ?_, ?_, ?_, h5, fun h0 hcr hm => ?_⟩
      rotate_left 3
      · rcases List.mem_append.1 (show '\r' ∈ ['\n'] ++ piecesAfter ps1 from hm) with hm | hm
        · revert hm; decide
        · exact h6 h0 (fun p hp => hcr p (List.mem_cons_of_mem _ hp)) hm
      · exact blanks_append (a := ['\n']) ⟨[['\n']], by simp, by simp⟩ h2
      · intro _
        show '\n' ∈ ['\n'] ++ piecesAfter ps1
        simp
      · intro _ _
        exact .inr ⟨rfl, rfl⟩

/-- The leaves of a gap, cut into single line breaks. -/
theorem split_gap {gt : List (SyntaxKind × Text)}
    (hg : ∀ p ∈ gt, p.1.isTrivia = true ∧ p.2 ≠ [] ∧ Blanks p.2 ∧ (p.1 = .TK_LINE_BREAK ↔ '\n' ∈ p.2))
    (hb : ∀ p ∈ gt, p.1 = .TK_LINE_BREAK → IsLineBreaks p.2) :
    ∀ p ∈ splitBreaks gt, p.1.isTrivia = true ∧ p.2 ≠ [] ∧ Blanks p.2 ∧
      (p.1 = .TK_LINE_BREAK ↔ '\n' ∈ p.2) := by
  intro p hp
  obtain ⟨x, hx, hp⟩ := List.mem_flatMap.mp hp
  split at hp
  · rename_i hk
    obtain ⟨t, ht, rfl⟩ := List.mem_map.mp hp
    obtain ⟨l, e, hl⟩ := hb x hx hk
    rw [e, cutBreaks_items hl] at ht
    rcases hl t ht with rfl | rfl
    · exact ⟨rfl, by simp, ⟨[['\n']], by simp, by simp⟩, by simp⟩
    · exact ⟨rfl, by simp, ⟨[['\r', '\n']], by simp, by simp⟩, by simp⟩
  · simp only [List.mem_singleton] at hp
    subst hp
    exact hg p hx

theorem tokenizes_lineBreaks {errLen : Text → Nat} {ts : List (SyntaxKind × Text)} :
    ∀ {s : Text}, Tokenizes errLen s ts → ∀ p ∈ ts, p.1 = .TK_LINE_BREAK → IsLineBreaks p.2 := by
  induction ts with
  | nil => intro s _ p hp; cases hp
  | cons x ts ih =>
    intro s h p hp hk
    have ht : Tokenizes errLen ((ts.map (·.2)).flatten) ts := tokenizes_split (l := [x]) h
    rcases List.mem_cons.1 hp with rfl | hp
    · obtain ⟨k, t⟩ := p
      exact (lineBreak_items ((trivia_rule h).2 hk).1).1
    · exact ih ht p hp hk

theorem split_head {ts : List (SyntaxKind × Text)} (h : ∀ x ∈ ts.head?, x.1.isTrivia = false) :
    ∀ x ∈ (splitBreaks ts).head?, x.1.isTrivia = false := by
  cases ts with
  | nil => simpa [splitBreaks] using h
  | cons x ts =>
    have hx := h x rfl
    rw [splitBreaks_other (by intro h0; rw [h0] at hx; cases hx)]
    simpa using hx

theorem flatten_split (gt : List (SyntaxKind × Text)) :
    ((splitBreaks gt).map (·.2)).flatten = (gt.map (·.2)).flatten := by
  rw [← List.flatMap_def, ← List.flatMap_def, splitBreaks_text]

/-- The CRs in a gap are those of CRLFs. -/
theorem split_cr {gt : List (SyntaxKind × Text)}
    (hg : ∀ p ∈ gt, p.1.isTrivia = true ∧ p.2 ≠ [] ∧ Blanks p.2 ∧ (p.1 = .TK_LINE_BREAK ↔ '\n' ∈ p.2))
    (hb : ∀ p ∈ gt, p.1 = .TK_LINE_BREAK → IsLineBreaks p.2) :
    ∀ p ∈ splitBreaks gt, '\r' ∈ p.2 → p = (.TK_LINE_BREAK, ['\r', '\n']) := by
  intro p hp hcr
  obtain ⟨x, hx, hp⟩ := List.mem_flatMap.mp hp
  split at hp
  · rename_i hk
    obtain ⟨t, ht, rfl⟩ := List.mem_map.mp hp
    obtain ⟨l, e, hl⟩ := hb x hx hk
    rw [e, cutBreaks_items hl] at ht
    rcases hl t ht with rfl | rfl
    · simp at hcr
    · rfl
  · rename_i hk
    simp only [List.mem_singleton] at hp
    subst hp
    obtain ⟨_, _, ⟨l, e, hl⟩, h4⟩ := hg p hx
    exfalso
    rw [e] at hcr
    obtain ⟨y, hy, hcr⟩ := List.mem_flatten.1 hcr
    rcases hl y hy with rfl | rfl | rfl | rfl
    · simp at hcr
    · simp at hcr
    · simp at hcr
    · exact hk (h4.2 (by rw [e]; exact List.mem_flatten.2 ⟨_, hy, by simp⟩))

theorem pair_infix {x y : Char} : ∀ {a b : Text}, [x, y] <:+: a ++ b →
    [x, y] <:+: a ∨ [x, y] <:+: b ∨ (a.getLast? = some x ∧ b.head? = some y)
  | [], b, h => .inr (.inl h)
  | c :: a, b, h => by
    rw [List.cons_append, List.infix_cons_iff] at h
    rcases h with h | h
    · rw [List.cons_prefix_cons] at h
      obtain ⟨rfl, h⟩ := h
      cases a with
      | nil =>
        cases b with
        | nil => simp at h
        | cons d b =>
          rw [List.nil_append, List.cons_prefix_cons] at h
          exact .inr (.inr ⟨rfl, by rw [h.1]; rfl⟩)
      | cons d a =>
        rw [List.cons_append, List.cons_prefix_cons] at h
        obtain ⟨rfl, _⟩ := h
        exact .inl ⟨[], a, rfl⟩
    · rcases pair_infix h with h | h | ⟨h1, h2⟩
      · exact .inl (List.infix_cons_iff.2 (.inr h))
      · exact .inr (.inl h)
      · cases a with
        | nil => cases h1
        | cons d a => exact .inr (.inr ⟨by rw [List.getLast?_cons_cons]; exact h1, h2⟩)

theorem noCrlf_gap {u g s : Text} (hu : '\n' ∉ u) (hst : Stops u g) (hg : '\r' ∉ g) (hs : NoCrlf s)
    (hne : g ≠ []) : NoCrlf (u ++ (g ++ s)) := by
  have hgs : NoCrlf (g ++ s) := by
    intro h
    rcases pair_infix h with h | h | ⟨h, _⟩
    · exact hg (h.subset (by simp))
    · exact hs h
    · exact hg (List.mem_of_getLast? h)
  intro h
  rcases pair_infix h with h | h | ⟨h1, h2⟩
  · exact hu (h.subset (by simp))
  · exact hgs h
  · refine (hst _ h1).2.2 rfl ?_
    cases g with
    | nil => exact absurd rfl hne
    | cons c g => exact h2

theorem edits_relined {errLen : Text → Nat} (he : ErrLenOk errLen) (hl : ErrLineLocal errLen) :
    ∀ (n : Nat) {s : Text} {ts ps}, s.length ≤ n → Tokenizes errLen s ts → Solid s → Convertible s →
      LineEdits Q false (splitBreaks ts) ps → Relined s (piecesAfter ps) ∧ Solid (piecesAfter ps) ∧
        (Q → NoCrlf (piecesAfter ps)) := by
  intro n
  induction n with
  | zero =>
    intro s ts ps hn h hs _ hp
    have : s = [] := List.length_eq_zero_iff.1 (by omega)
    subst this
    rcases tokenizes_step h with ⟨_, rfl⟩ | ⟨pre, post, k, ts1, h0, hne, _⟩
    · cases hp
      exact ⟨.line (by simp), hs, fun _ => by simp [NoCrlf, piecesAfter]⟩
    · exact absurd (List.append_eq_nil_iff.1 h0.symm).1 hne
  | succ n ih =>
    intro s ts ps hn h hs hcon hp
    by_cases hlf : '\n' ∈ s
    · obtain ⟨u, g, s2, rfl, h1, h2, h3, h4, h5⟩ := split_line hlf
      obtain ⟨ut, ts2, rfl, e1, e2, e3⟩ := tokenizes_line hl u.length (Nat.le_refl _) ⟨h2, h1, h3, h4⟩ h
      rw [splitBreaks_append, splitBreaks_id e2] at hp
      obtain ⟨ps1, ps2, rfl, f2, f3⟩ := lineEdits_line e2 hp
      obtain ⟨gt, ts3, rfl, k1, k2, k3⟩ := tokenizes_gap he h3 h5 e3
      have hgt : ∀ p ∈ gt, p.1.isTrivia = true ∧ p.2 ≠ [] ∧ Blanks p.2 ∧
          (p.1 = .TK_LINE_BREAK ↔ '\n' ∈ p.2) := by
        intro p hp
        obtain ⟨n1, n2, _⟩ := tokenizes_trivia e3 p (List.mem_append.2 (.inl hp))
        exact ⟨k2 p hp, n1, n2 (k2 p hp)⟩
      have hgb := fun p hp => tokenizes_lineBreaks e3 p (List.mem_append.2 (.inl hp))
      rw [splitBreaks_append] at f3
      obtain ⟨qs1, qs2, rfl, j2, j3, j4, j5, j6⟩ := lineEdits_gap (split_gap hgt hgb)
        (split_head (tokenizes_solid k3 h5)) f3
      have hgne : g ≠ [] := by intro h0; subst h0; cases h4
      have hune : u ≠ [] := by
        intro h0
        subst h0
        exact hgne (hs g s2 (by simp) h3)
      rw [flatten_split, k1] at j3 j4
      have hgtne : splitBreaks gt ≠ [] := by
        intro h0
        have := flatten_split gt
        rw [h0, k1] at this
        exact hgne this.symm
      have hlen : s2.length ≤ n := by
        have := List.length_pos_iff.2 hgne
        simp only [List.length_append] at hn
        omega
      obtain ⟨r1, r2, r3⟩ := ih hlen k3 h5 hcon.suffix.suffix j5
      rw [e1] at f2
      have hafter : piecesAfter (ps1 ++ (qs1 ++ qs2)) = u ++ (piecesAfter qs1 ++ piecesAfter qs2) := by
        rw [after_append, after_append, f2]
      rw [hafter]
      have hcr : g.head? = some '\r' → ¬ EndsTwoWords u ∧ u.getLast? ≠ some '\r' := by
        intro hh
        obtain ⟨r, rfl⟩ := head_cr h3 hh
        exact hcon u (r ++ s2) (by simp)
      have hstart := j4 rfl hgtne
      have hstops : Stops u (piecesAfter qs1) := by
        rcases hstart with hh | ⟨hh, _⟩
        · exact fun c hc => hh ▸ h2 c hc
        · intro c hc
          refine ⟨(h2 c hc).1, (h2 c hc).2.1, fun h0 => ?_⟩
          subst h0
          exact absurd hc (hcr hh).2
      refine ⟨.gap h1 h2 hstops h3 j2 h4 (j3 h4) ?_ h5 r2 r1, ?_, fun h0 =>
        noCrlf_gap h1 hstops (j6 h0 (split_cr hgt hgb)) (r3 h0) (List.ne_nil_of_mem (j3 h4))⟩
      · exact hstart.imp id (fun ⟨a, b⟩ => ⟨a, b, (hcr a).1⟩)
      · rw [solid_iff, ← startsBlank_take] at hs ⊢
        rcases u with _ | ⟨a, _ | ⟨b, u⟩⟩
        · exact absurd rfl hune
        · cases g with
          | nil => exact absurd rfl hgne
          | cons x g =>
            cases hq : piecesAfter qs1 with
            | nil => rw [hq] at j3; cases j3 h4
            | cons y q =>
              rw [hq] at hstart
              rcases hstart with hh | ⟨hh, hh'⟩
              · simp at hh
                subst hh
                simpa using hs
              · have := (hcr hh).2
                simp at hh hh' this
                subst hh hh'
                have ha := h2 a (by simp)
                simp only [List.cons_append, List.nil_append, List.take_succ_cons, List.take_zero] at hs ⊢
                revert hs
                unfold startsBlank
                split <;> simp_all
        · simpa using hs
    · have hts : ∀ p ∈ ts, p.1 ≠ .TK_LINE_BREAK := by
        intro p hp hk
        have := (tokenizes_trivia h p hp).2.2 hk
        rw [← tokenizes_text h] at hlf
        exact hlf (List.mem_flatten.2 ⟨p.2, List.mem_map.2 ⟨p, hp, rfl⟩, this⟩)
      rw [splitBreaks_id hts] at hp
      obtain ⟨ps1, ps2, rfl, f2, f3⟩ := lineEdits_line (ts := []) hts (by rwa [List.append_nil])
      cases f3
      rw [tokenizes_text h] at f2
      rw [List.append_nil, f2]
      exact ⟨.line hlf, hs, fun _ h => hlf (h.subset (by simp))⟩

/-- If whitespace is only replaced at the beginnings of lines, and CRLF by LF, the result is the file
in another layout; without CRLF, if each is replaced. -/
theorem edits_reset {errLen : Text → Nat} (he : ErrLenOk errLen) (hl : ErrLineLocal errLen)
    {s : Text} {ts ps} (h : Tokenizes errLen s ts) (hcon : Convertible s)
    (hp : LineEdits Q true (splitBreaks ts) ps) :
    Reset s (piecesAfter ps) ∧ (Q → NoCrlf (piecesAfter ps)) := by
  obtain ⟨g, t, rfl, hg, ht⟩ := split_blanks s.length s (Nat.le_refl _)
  obtain ⟨gt, ts2, rfl, k1, k2, k3⟩ := tokenizes_gap he hg ht h
  have hgt : ∀ p ∈ gt, p.1.isTrivia = true ∧ p.2 ≠ [] ∧ Blanks p.2 ∧
      (p.1 = .TK_LINE_BREAK ↔ '\n' ∈ p.2) := by
    intro p hp
    obtain ⟨n1, n2, _⟩ := tokenizes_trivia h p (List.mem_append.2 (.inl hp))
    exact ⟨k2 p hp, n1, n2 (k2 p hp)⟩
  have hgb := fun p hp => tokenizes_lineBreaks h p (List.mem_append.2 (.inl hp))
  rw [splitBreaks_append] at hp
  obtain ⟨qs1, qs2, rfl, j2, j3, j4, j5, j6⟩ := lineEdits_gap (split_gap hgt hgb)
    (split_head (tokenizes_solid k3 ht)) hp
  obtain ⟨r1, r2, r3⟩ := edits_relined he hl t.length (Nat.le_refl _) k3 ht hcon.suffix j5
  refine ⟨⟨g, piecesAfter qs1, t, piecesAfter qs2, rfl, after_append _ _, hg, j2, ht, r2, r1⟩, fun h0 => ?_⟩
  have hcr := j6 h0 (split_cr hgt hgb)
  rw [after_append]
  intro h
  rcases pair_infix h with h | h | ⟨h, _⟩
  · exact hcr (h.subset (by simp))
  · exact r3 h0 h
  · exact hcr (List.mem_of_getLast? h)

/-! ### Suggestions -/

/-- A suggestion for a file with the leaves `ls` (with single line breaks) that begin at byte `pos`: as
in `AtLineStart`, or LF for a CRLF. -/
inductive AtLine : Bool → Nat → List (SyntaxKind × Text) → Suggestion → Prop
  | space {pos t new ls} : Blanks new →
      AtLine true pos ((.TK_WHITESPACE, t) :: ls) ⟨⟨pos, pos + byteLen t⟩, new⟩
  | insert {pos k t new ls} : k.isTrivia = false → Blanks new →
      AtLine true pos ((k, t) :: ls) ⟨⟨pos, pos⟩, new⟩
  | crlf {b pos ls} : AtLine b pos ((.TK_LINE_BREAK, ['\r', '\n']) :: ls) ⟨⟨pos, pos + 2⟩, ['\n']⟩
  | later {b pos k t ls sug} : AtLine (k == .TK_LINE_BREAK) (pos + byteLen t) ls sug →
      AtLine b pos ((k, t) :: ls) sug

theorem AtLine.start_le {b : Bool} {pos : Nat} {ls : List (SyntaxKind × Text)} {sug : Suggestion}
    (h : AtLine b pos ls sug) : pos ≤ sug.range.start ∧ sug.range.start ≤ sug.range.stop := by
  induction h with
  | space _ => exact ⟨Nat.le_refl _, Nat.le_add_right ..⟩
  | insert _ _ => exact ⟨Nat.le_refl _, Nat.le_refl _⟩
  | crlf => exact ⟨Nat.le_refl _, Nat.le_add_right ..⟩
  | later _ ih => exact ⟨by omega, ih.2⟩

theorem byteLen_crlf : byteLen ['\r', '\n'] = 2 := by decide

/-- Two such suggestions are for the same range, or one comes before the other. -/
theorem atLine_ranges {ls : List (SyntaxKind × Text)} : ∀ {b : Bool} {pos : Nat} {x y : Suggestion},
    (∀ l ∈ ls, l.2 ≠ []) → AtLine b pos ls x → AtLine b pos ls y →
    x.range = y.range ∨ Before x.range y.range ∨ Before y.range x.range := by
  induction ls with
  | nil => intro b pos x y _ h; cases h
  | cons l ls ih =>
    intro b pos x y hne hx hy
    obtain ⟨k, t⟩ := l
    have hp : 0 < byteLen t := byteLen_pos (hne _ List.mem_cons_self)
    have hls : ∀ l ∈ ls, l.2 ≠ [] := fun l hl => hne l (List.mem_cons_of_mem _ hl)
    have h2 := byteLen_crlf
    cases hx with
    | space hb =>
      cases hy with
      | space _ => exact .inl rfl
      | insert h _ => cases h
      | later h => have := h.start_le; exact .inr (.inl ⟨by simp only at *; omega, by simp only at *; omega⟩)
    | insert hk hb =>
      cases hy with
      | space _ => cases hk
      | insert h _ => exact .inl rfl
      | crlf => cases hk
      | later h => have := h.start_le; exact .inr (.inl ⟨by simp only at *; omega, by simp only at *; omega⟩)
    | crlf =>
      cases hy with
      | insert h _ => cases h
      | crlf => exact .inl rfl
      | later h =>
        have := h.start_le
        rw [h2] at this
        exact .inr (.inl ⟨by simp only at *; omega, by simp only at *; omega⟩)
    | later hx =>
      cases hy with
      | space _ => have := hx.start_le; exact .inr (.inr ⟨by simp only at *; omega, by simp only at *; omega⟩)
      | insert h _ => have := hx.start_le; exact .inr (.inr ⟨by simp only at *; omega, by simp only at *; omega⟩)
      | crlf =>
        have := hx.start_le
        rw [h2] at this
        exact .inr (.inr ⟨by simp only at *; omega, by simp only at *; omega⟩)
      | later hy => exact ih hls hx hy

theorem keep_lines (ls : List (SyntaxKind × Text)) : ∀ (b : Bool) (pos : Nat),
    (Q → (SyntaxKind.TK_LINE_BREAK, ['\r', '\n']) ∉ ls) →
    ∃ ps, LineEdits Q b ls ps ∧ pieceSuggestions pos ps = [] := by
  induction ls with
  | nil => intro b pos _; exact ⟨[], .nil, rfl⟩
  | cons l ls ih =>
    intro b pos hq
    obtain ⟨ps, h1, h2⟩ := ih (l.1 == .TK_LINE_BREAK) (pos + byteLen l.2)
      (fun h0 h => hq h0 (List.mem_cons_of_mem _ h))
    exact ⟨⟨l.2, none⟩ :: ps, .keep (fun h0 e1 e2 => hq h0 (by rw [← e1, ← e2]; exact List.mem_cons_self)) h1,
      by simp [pieceSuggestions, h2]⟩

/-- Every CRLF among leaves that begin at `pos` has a suggestion. -/
def CrlfsFound (pos : Nat) (ls : List (SyntaxKind × Text)) (sugs : List Suggestion) : Prop :=
  ∀ l1 l2, ls = l1 ++ (.TK_LINE_BREAK, ['\r', '\n']) :: l2 →
    ∃ s ∈ sugs, s.range.start = pos + byteLen (l1.flatMap (·.2))

/-- Suggestions of which each comes before the next one are a cut of the file into pieces. -/
theorem atLine_edits {ls : List (SyntaxKind × Text)} : ∀ {b : Bool} {pos : Nat} {sugs : List Suggestion},
    (∀ l ∈ ls, l.2 ≠ []) → (∀ s ∈ sugs, AtLine b pos ls s) →
    sugs.Pairwise (fun x y => Before x.range y.range) →
    (Q → CrlfsFound pos ls sugs) → (Q → ∀ s ∈ sugs, '\r' ∉ s.replaceWith) →
    ∃ ps, LineEdits Q b ls ps ∧ pieceSuggestions pos ps = sugs := by
  induction ls with
  | nil =>
    intro b pos sugs _ h _ _ _
    cases sugs with
    | nil => exact ⟨[], .nil, rfl⟩
    | cons s sugs => cases h s List.mem_cons_self
  | cons l ls ih =>
    intro b pos sugs hne hall hpair hfound hnocr
    obtain ⟨k, t⟩ := l
    have hp : 0 < byteLen t := byteLen_pos (hne _ List.mem_cons_self)
    have hls : ∀ l ∈ ls, l.2 ≠ [] := fun l hl => hne l (List.mem_cons_of_mem _ hl)
    have hlater : ∀ {s}, AtLine b pos ((k, t) :: ls) s → pos < s.range.start →
        AtLine (k == .TK_LINE_BREAK) (pos + byteLen t) ls s := by
      intro s hs hlt
      cases hs with
      | space _ => simp at hlt
      | insert _ _ => simp at hlt
      | crlf => simp at hlt
      | later h => exact h
    cases sugs with
    | nil =>
      refine keep_lines _ _ _ (fun h0 hm => ?_)
      obtain ⟨l1, l2, hl⟩ := List.append_of_mem hm
      obtain ⟨s, hs, _⟩ := hfound h0 l1 l2 hl
      cases hs
    | cons s sugs =>
      have hs := hall s List.mem_cons_self
      have hrest : ∀ x ∈ sugs, Before s.range x.range := (List.pairwise_cons.mp hpair).1
      have hpos := hs.start_le.1
      have hnocr' : Q → ∀ s ∈ sugs, '\r' ∉ s.replaceWith :=
        fun h0 x hx => hnocr h0 x (List.mem_cons_of_mem _ hx)
      have hfound' : Q → CrlfsFound (pos + byteLen t) ls (s :: sugs) := by
        intro h0 l1 l2 hl
        obtain ⟨x, hx, hst⟩ := hfound h0 ((k, t) :: l1) l2 (by rw [hl]; rfl)
        refine ⟨x, hx, ?_⟩
        rw [hst, List.flatMap_cons, byteLen_append, Nat.add_assoc]
      by_cases hst : s.range.start = pos
      · have hall' : ∀ x ∈ sugs, AtLine (k == .TK_LINE_BREAK) (pos + byteLen t) ls x := by
          intro x hx
          exact hlater (hall x (List.mem_cons_of_mem _ hx)) (by have := (hrest x hx).1; omega)
        have hfound2 : Q → CrlfsFound (pos + byteLen t) ls sugs := by
          intro h0 l1 l2 hl
          obtain ⟨x, hx, hxs⟩ := hfound' h0 l1 l2 hl
          rcases List.mem_cons.1 hx with rfl | hx
          · omega
          · exact ⟨x, hx, hxs⟩
        have hnew := fun h0 => hnocr h0 s List.mem_cons_self
        obtain ⟨ps, h1, h2⟩ := ih hls hall' (List.pairwise_cons.mp hpair).2 hfound2 hnocr'
        cases hs with
        | @space _ _ new _ hb =>
          exact ⟨⟨t, some new⟩ :: ps, .space hb hnew h1, by simp [pieceSuggestions, h2]⟩
        | @insert _ _ _ new _ hk hb =>
          rw [kind_ne_lb hk] at h1
          exact ⟨⟨[], some new⟩ :: ⟨t, none⟩ :: ps, .insert hk hb hnew h1, by simp [pieceSuggestions, h2]⟩
        | crlf =>
          rw [byteLen_crlf] at h2
          exact ⟨⟨['\r', '\n'], some ['\n']⟩ :: ps, .crlf h1, by simp [pieceSuggestions, h2, byteLen_crlf]⟩
        | later h => have := h.start_le.1; omega
      · have hall' : ∀ x ∈ s :: sugs, AtLine (k == .TK_LINE_BREAK) (pos + byteLen t) ls x := by
          intro x hx
          refine hlater (hall x hx) ?_
          rcases List.mem_cons.mp hx with rfl | hx
          · omega
          · have := (hrest x hx).1; omega
        obtain ⟨ps, h1, h2⟩ := ih hls hall' hpair hfound' hnocr
        refine ⟨⟨t, none⟩ :: ps, .keep (fun h0 e1 e2 => ?_) h1, by simp [pieceSuggestions, h2]⟩
        obtain ⟨x, hx, hxs⟩ := hfound h0 [] ls (by rw [e1, e2]; rfl)
        have := (hall' x hx).start_le.1
        simp only [List.flatMap_nil, byteLen_nil] at hxs
        omega

theorem byteLen_flatten (l : List Text) : byteLen l.flatten = (l.map byteLen).sum := by
  induction l with
  | nil => rfl
  | cons x l ih => simp [byteLen_append, ih]

/-- Behind line breaks. -/
theorem atLine_behind {sug : Suggestion} {ls : List (SyntaxKind × Text)} : ∀ (l : List Text) {b pos},
    AtLine (b || !l.isEmpty) (pos + byteLen l.flatten) ls sug →
    AtLine b pos (l.map (fun t => (SyntaxKind.TK_LINE_BREAK, t)) ++ ls) sug
  | [], b, pos, h => by simpa [byteLen] using h
  | x :: l, b, pos, h => by
    rw [List.map_cons, List.cons_append]
    refine .later (atLine_behind l ?_)
    rw [List.flatten_cons, byteLen_append, ← Nat.add_assoc] at h
    simpa using h

/-- A suggestion at a line start, where leaves of several line breaks are cut. -/
theorem atLine_of_start {b : Bool} {pos : Nat} {ls : List (SyntaxKind × Text)} {sug : Suggestion}
    (h : AtLineStart b pos ls sug) (hne : ∀ l ∈ ls, l.2 ≠ []) : AtLine b pos (splitBreaks ls) sug := by
  induction h with
  | space hb => rw [splitBreaks_other (by simp)]; exact .space hb
  | insert hk hb =>
    rw [splitBreaks_other (by intro h0; dsimp only at h0; rw [h0] at hk; cases hk)]
    exact .insert hk hb
  | @later b pos k t ls sug h ih =>
    have ih := ih (fun l hl => hne l (List.mem_cons_of_mem _ hl))
    by_cases hk : k = .TK_LINE_BREAK
    · subst hk
      rw [splitBreaks_lb]
      refine atLine_behind _ ?_
      rw [cutBreaks_flatten]
      have : (cutBreaks t).isEmpty = false := by
        cases hc : cutBreaks t with
        | nil =>
          have := cutBreaks_flatten t
          rw [hc] at this
          exact absurd this.symm (hne _ List.mem_cons_self)
        | cons _ _ => rfl
      rw [this]
      simpa using ih
    · rw [splitBreaks_other hk]
      exact .later ih

/-! ### Sorting and the overlap check -/

/-- What the suggestions of one round have to satisfy. -/
structure LinesTidy (ls : List (SyntaxKind × Text)) (R : List (RuleName × Suggestion)) : Prop where
  allowed : ∀ p ∈ R, AtLine true 0 ls p.2
  apart : R.Pairwise Apart

theorem linesTidy_sorted {ls : List (SyntaxKind × Text)} (hne : ∀ l ∈ ls, l.2 ≠ [])
    {R : List (RuleName × Suggestion)} (h : LinesTidy ls R)
    {sort : List (RuleName × Suggestion) → List (RuleName × Suggestion)} (hsort : SortsRanges sort) :
    (sort R).Perm R ∧ (sort R).Pairwise InOrder := by
  have hsym : ∀ {a b : RuleName × Suggestion}, Apart a b → Apart b a := Apart.symm
  let l' := R.mergeSort (fun a b => decide (a.2.range.start ≤ b.2.range.start))
  have hperm : l'.Perm R := List.mergeSort_perm ..
  have hl' : Arranged l' := by
    have h1 : l'.Pairwise (fun a b => decide (a.2.range.start ≤ b.2.range.start) = true) :=
      List.pairwise_mergeSort (fun a b c => by simp only [decide_eq_true_eq]; omega)
        (fun a b => by simp only [Bool.or_eq_true, decide_eq_true_eq]; omega) R
    have h2 : l'.Pairwise Apart := (List.Perm.pairwise_iff hsym hperm).mpr h.apart
    have h3 := pairwise_both (P := fun p : RuleName × Suggestion => AtLine true 0 ls p.2)
      (fun p hp => h.allowed p (hperm.mem_iff.mp hp)) (h1.and h2)
    refine h3.imp ?_
    rintro a b ⟨ha, hb, hle, hap⟩
    simp only [decide_eq_true_eq] at hle
    rcases atLine_ranges hne ha hb with hr | hr | hr
    · exact .inr ⟨hr, by rw [← hr]; exact same_ordering (hap hr).2⟩
    · exact .inl (before_ordering hr hb.start_le.2)
    · have := hr.1; omega
  obtain ⟨k1, k2⟩ := hsort R l' (fun p hp => (h.allowed p hp).start_le.2) hperm hl'
  refine ⟨k1, ?_⟩
  have k3 : (sort R).Pairwise Apart := (List.Perm.pairwise_iff hsym k1).mpr h.apart
  refine (pairwise_both (P := fun p : RuleName × Suggestion => AtLine true 0 ls p.2)
      (fun p hp => h.allowed p (k1.mem_iff.mp hp)) (k2.and k3)).imp ?_
  rintro a b ⟨ha, hb, hgt, hap⟩
  rcases atLine_ranges hne ha hb with hr | hr | hr
  · exact .inr ⟨hr, hap hr⟩
  · exact .inl hr
  · exact absurd (before_ordering hr ha.start_le.2).2 hgt

/-- The rules that the overlap check finds have suggestions for the range of another rule. -/
theorem overlapping_from : ∀ {l : List (RuleName × Suggestion)} {over : List RuleName} {n : RuleName},
    overlappingRules l = .ok over → n ∈ over → ∃ a ∈ l, ∃ b ∈ l, a.2.range.ordering b.2.range = .eq ∧
      a.1 ≠ b.1 ∧ b.1 = n
  | [], over, n, h, hn => by rw [overlappingRules] at h; cases h; cases hn
  | [_], over, n, h, hn => by rw [overlappingRules] at h; cases h; cases hn
  | a :: b :: rest, over, n, h, hn => by
    have lift : (∃ x ∈ b :: rest, ∃ y ∈ b :: rest, x.2.range.ordering y.2.range = .eq ∧ x.1 ≠ y.1 ∧ y.1 = n) →
        ∃ x ∈ a :: b :: rest, ∃ y ∈ a :: b :: rest, x.2.range.ordering y.2.range = .eq ∧ x.1 ≠ y.1 ∧ y.1 = n :=
      fun ⟨x, hx, y, hy, h⟩ => ⟨x, List.mem_cons_of_mem _ hx, y, List.mem_cons_of_mem _ hy, h⟩
    rw [overlappingRules] at h
    split at h
    · rename_i ho
      split at h
      · cases h
      · rename_i hab
        split at h
        · cases h
        · rename_i rs hrs
          cases h
          rcases List.mem_cons.1 hn with rfl | hn
          · exact ⟨a, by simp, b, by simp, by simpa using ho, by simpa using hab, rfl⟩
          · exact lift (overlapping_from hrs hn)
    · exact lift (overlapping_from h hn)

/-- One round of fixing with such suggestions: the overlap check succeeds and the remaining suggestions
are a cut of the file into pieces. The suggestions of a rule `n` that is alone with its ranges remain. -/
theorem linesTidy_round {ls : List (SyntaxKind × Text)} (hne : ∀ l ∈ ls, l.2 ≠ [])
    {R : List (RuleName × Suggestion)} (h : LinesTidy ls R)
    {sort : List (RuleName × Suggestion) → List (RuleName × Suggestion)} (hsort : SortsRanges sort)
    (n : RuleName) (hcr : Q → ∀ p ∈ R, '\r' ∉ p.2.replaceWith)
    (hn : Q → ∀ a ∈ R, ∀ b ∈ R, b.1 = n → a.2.range = b.2.range → a.1 = n)
    (hfound : Q → CrlfsFound 0 ls ((R.filter (fun p => p.1 == n)).map (·.2))) :
    ∃ over ps, overlappingRules (sort R) = .ok over ∧ LineEdits Q true ls ps ∧
      filterSuggestions over (sort R) = pieceSuggestions 0 ps := by
  obtain ⟨k1, k2⟩ := linesTidy_sorted hne h hsort
  obtain ⟨over, h1, h2⟩ := inOrder_over k2
    (fun p hp => (h.allowed p (k1.mem_iff.mp hp)).start_le.2)
  have h3 : (filterSuggestions over (sort R)).Pairwise (fun x y => Before x.range y.range) := by
    unfold filterSuggestions
    rw [List.pairwise_map, List.pairwise_filter]
    refine (k2.and h2).imp ?_
    rintro a b ⟨hio, hov⟩ _ hb
    rcases hio with hio | ⟨hr, _⟩
    · exact hio
    · have := hov hr
      simp [this] at hb
  obtain ⟨ps, e1, e2⟩ := atLine_edits (b := true) (pos := 0) hne (sugs := filterSuggestions over (sort R))
    (fun s hs => by
      unfold filterSuggestions at hs
      obtain ⟨p, hp, rfl⟩ := List.mem_map.mp hs
      exact h.allowed p (k1.mem_iff.mp (List.mem_filter.mp hp).1)) h3
    (fun h0 l1 l2 hl => by
      obtain ⟨s, hs, hst⟩ := hfound h0 l1 l2 hl
      obtain ⟨p, hp, rfl⟩ := List.mem_map.mp hs
      obtain ⟨hp, hpn⟩ := List.mem_filter.mp hp
      refine ⟨p.2, List.mem_map.mpr ⟨p, List.mem_filter.mpr ⟨k1.mem_iff.mpr hp, ?_⟩, rfl⟩, hst⟩
      have hpn : p.1 = n := by simpa using hpn
      rw [hpn, Bool.not_eq_true', ← Bool.not_eq_true, List.contains_iff_mem]
      intro hover
      obtain ⟨a, ha, b, hb, ho, hab, hbn⟩ := overlapping_from h1 hover
      have ha := k1.mem_iff.mp ha
      have hb := k1.mem_iff.mp hb
      rcases atLine_ranges hne (h.allowed a ha) (h.allowed b hb) with hr | hr | hr
      · exact hab (by rw [hn h0 a ha b hb hbn hr, hbn])
      · have := (before_ordering hr (h.allowed b hb).start_le.2).1
        rw [ho] at this; cases this
      · have := (before_ordering hr (h.allowed a ha).start_le.2).2
        rw [ho] at this; cases this)
    (fun h0 s hs => by
      unfold filterSuggestions at hs
      obtain ⟨p, hp, rfl⟩ := List.mem_map.mp hs
      exact hcr h0 p (k1.mem_iff.mp (List.mem_filter.mp hp).1))
  exact ⟨over, ps, h1, e1, e2.symm⟩

end Ludtwig.Layout
