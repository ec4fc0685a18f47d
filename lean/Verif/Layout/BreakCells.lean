import Verif.Layout.Acts
import Verif.Layout.BreakEdits

/-!
# The leaves after line breaks have been put between them
-/

namespace Ludtwig.Layout

open Lexer Cli

/-- A leaf, and the line breaks that are put before it or in its place. -/
def brokenOne : Cell Unit × Option Text → List (Cell Unit)
  | (c, none) => [c]
  | (c, some b) => ⟨.TK_LINE_BREAK, b, ()⟩ :: (if c.kind = .TK_LINE_BREAK then [] else [c])

/-- Leaves with line breaks put before some of them. -/
def brokenCells (acts : List (Cell Unit × Option Text)) : List (Cell Unit) := acts.flatMap brokenOne

/-- Line breaks are put only behind leaves that are no whitespace. -/
def Fit : Bool → List (Cell Unit × Option Text) → Prop
  | _, [] => True
  | flag, (c, o) :: r => (∀ b, o = some b → flag = true ∧ IsLineBreaks b ∧ b ≠ []) ∧ Fit c.solid r

theorem broken_solid (acts : List (Cell Unit × Option Text)) :
    (brokenCells acts).filter Cell.solid = (acts.map (·.1)).filter Cell.solid := by
  induction acts with
  | nil => rfl
  | cons a acts ih =>
    obtain ⟨c, o⟩ := a
    unfold brokenCells at ih ⊢
    rw [List.flatMap_cons, List.filter_append, ih, List.map_cons]
    cases o with
    | none =>
      rw [brokenOne, List.filter_cons, List.filter_cons]
      cases hc : c.solid <;> simp
    | some b =>
      rw [brokenOne, List.filter_cons_of_neg (by simp [Cell.solid, SyntaxKind.isTrivia])]
      split
      · rename_i hk
        rw [List.filter_cons_of_neg (by simp [Cell.solid, SyntaxKind.isTrivia, hk])]
        rfl
      · rw [List.filter_cons, List.filter_cons]
        cases hc : c.solid <;> simp

theorem unit_mark {c : Cell Unit} {r : List (Cell Unit)} : c.mark = headMark () r := rfl

theorem startsBlank_kept {t r r' : Text} (ht : t ≠ []) (hcr : t.getLast? ≠ some '\r')
    (h : startsBlank (t ++ r) = false) : startsBlank (t ++ r') = false := by
  cases t with
  | nil => exact absurd rfl ht
  | cons a t =>
    cases t with
    | nil =>
      have ha : a ≠ '\r' := by simpa using hcr
      cases hb : startsBlank ([a] ++ r') with
      | false => rfl
      | true =>
        simp only [List.singleton_append] at h hb
        unfold startsBlank at hb
        split at hb <;> first
          | exact absurd hb Bool.false_ne_true
          | (rename_i heq; cases heq; simp_all [startsBlank])
    | cons b t =>
      cases hb : startsBlank (a :: b :: t ++ r') with
      | false => rfl
      | true =>
        simp only [List.cons_append] at h hb
        unfold startsBlank at hb
        split at hb <;> first
          | exact absurd hb Bool.false_ne_true
          | (rename_i heq; cases heq; simp_all [startsBlank])

theorem broken_head {c : Cell Unit} {o : Option Text} {r : List (Cell Unit × Option Text)} (h : Fit false ((c, o) :: r)) :
    brokenCells ((c, o) :: r) = c :: brokenCells r := by
  cases o with
  | none => rfl
  | some b => cases (h.1 b rfl).1

/-- The leaves after the change are as the leaves of a file are. -/
theorem broken_proper : ∀ {acts : List (Cell Unit × Option Text)} {flag : Bool}, Proper () (acts.map (·.1)) →
    (∀ c ∈ acts.map (·.1), c.kind.isTrivia = false → c.text.getLast? ≠ some '\r') → Fit flag acts →
    Proper () (brokenCells acts)
  | [], _, _, _, _ => trivial
  | (c, o) :: r, flag, hp, hcr, hf => by
    rw [List.map_cons] at hp
    have ih : Proper () (brokenCells r) := broken_proper hp.1 (fun d hd => hcr d (by simp only [List.map_cons, List.mem_cons]; exact .inr hd)) hf.2
    -- what is behind whitespace does not change
    have same : c.kind.isTrivia = true → brokenCells r = [] ∧ r = [] ∨
        ∃ d o' r', r = (d, o') :: r' ∧ brokenCells r = d :: brokenCells r' := by
      intro hk
      cases r with
      | nil => exact .inl ⟨rfl, rfl⟩
      | cons a r' =>
        obtain ⟨d, o'⟩ := a
        have h2 := hf.2
        have hs : c.solid = false := by simp [Cell.solid, hk]
        rw [hs] at h2
        exact .inr ⟨d, o', r', rfl, broken_head h2⟩
    have hws : c.kind = .TK_WHITESPACE → startsWs (cellText (brokenCells r)) = false := by
      intro hk
      rcases same (by rw [hk]; rfl) with ⟨h1, _⟩ | ⟨d, o', r', rfl, h1⟩
      · rw [h1]; rfl
      · have h2 := (hp.2.2.1 hk).2
        rw [h1] at ih ⊢
        rw [ih.starts.1]
        rw [List.map_cons] at hp h2
        rw [hp.1.starts.1] at h2
        exact h2
    have hlb : c.kind = .TK_LINE_BREAK → startsLb (cellText (brokenCells r)) = false := by
      intro hk
      rcases same (by rw [hk]; rfl) with ⟨h1, _⟩ | ⟨d, o', r', rfl, h1⟩
      · rw [h1]; rfl
      · have h2 := (hp.2.2.2.1 hk).2
        rw [h1] at ih ⊢
        rw [ih.starts.2]
        rw [List.map_cons] at hp h2
        rw [hp.1.starts.2] at h2
        exact h2
    have keep : Proper () (c :: brokenCells r) := by
      refine ⟨ih, hp.2.1, fun hk => ⟨(hp.2.2.1 hk).1, hws hk⟩, fun hk => ⟨(hp.2.2.2.1 hk).1, hlb hk⟩, ?_,
        fun _ => rfl⟩
      intro hk
      exact startsBlank_kept hp.2.1 (hcr c (by simp) hk) (hp.2.2.2.2.1 hk)
    cases o with
    | none => exact keep
    | some b =>
      obtain ⟨_, hb, hbn⟩ := hf.1 b rfl
      show Proper () (⟨.TK_LINE_BREAK, b, ()⟩ :: (if c.kind = .TK_LINE_BREAK then [] else [c]) ++ brokenCells r)
      split
      · rename_i hk
        exact ⟨ih, hbn, nofun, fun _ => ⟨hb, hlb hk⟩, nofun, fun _ => rfl⟩
      · rename_i hk
        refine ⟨keep, hbn, nofun, fun _ => ⟨hb, ?_⟩, nofun, fun _ => rfl⟩
        show startsLb (cellText (c :: brokenCells r)) = false
        rw [keep.starts.2]
        simpa using hk

/-! ## The suggestions -/

/-- The pieces of the text. -/
def brokenPieces : List (Cell Unit × Option Text) → List Piece
  | [] => []
  | (c, none) :: r => ⟨c.text, none⟩ :: brokenPieces r
  | (c, some b) :: r =>
    (if c.kind = .TK_LINE_BREAK then [⟨c.text, some b⟩] else [⟨[], some b⟩, ⟨c.text, none⟩]) ++ brokenPieces r

theorem broken_before : ∀ acts : List (Cell Unit × Option Text), piecesBefore (brokenPieces acts) = cellText (acts.map (·.1))
  | [] => rfl
  | (c, none) :: r => by
    have := broken_before r
    simp only [piecesBefore, cellText] at this
    simp [brokenPieces, piecesBefore, cellText, this]
  | (c, some b) :: r => by
    have := broken_before r
    simp only [piecesBefore, cellText] at this
    rw [brokenPieces]
    split <;> simp [piecesBefore, cellText, this]

theorem broken_after : ∀ acts : List (Cell Unit × Option Text), piecesAfter (brokenPieces acts) = cellText (brokenCells acts)
  | [] => rfl
  | (c, none) :: r => by
    have := broken_after r
    simp only [piecesAfter, cellText, brokenCells] at this
    simp [brokenPieces, piecesAfter, cellText, brokenCells, brokenOne, this]
  | (c, some b) :: r => by
    have := broken_after r
    simp only [piecesAfter, cellText, brokenCells] at this
    rw [brokenPieces]
    split <;> (rename_i hk; simp [piecesAfter, cellText, brokenCells, brokenOne, this, hk])

/-- Leaves with their places, and what is put there. -/
def actsOf (sugs : List Suggestion) : Nat → List (Cell Unit) → List (Cell Unit × Option Text)
  | _, [] => []
  | pos, c :: cs => (c, actAt sugs pos) :: actsOf sugs (pos + byteLen c.text) cs

theorem acts_fst (sugs : List Suggestion) : ∀ (cs : List (Cell Unit)) (pos : Nat), (actsOf sugs pos cs).map (·.1) = cs
  | [], _ => rfl
  | c :: cs, pos => by rw [actsOf, List.map_cons, acts_fst sugs cs]

theorem acts_split (sugs : List Suggestion) : ∀ (a b : List (Cell Unit)) (pos : Nat),
    actsOf sugs pos (a ++ b) = actsOf sugs pos a ++ actsOf sugs (pos + byteLen (cellText a)) b
  | [], b, pos => by simp [actsOf, cellText]
  | c :: a, b, pos => by
    rw [List.cons_append, actsOf, actsOf, acts_split sugs a b, cellText_cons, byteLen_append, Nat.add_assoc]
    rfl

/-- The suggestion is at a leaf: it replaces line breaks, or puts them before it. -/
def AtCell (pos : Nat) (cs : List (Cell Unit)) (sug : Suggestion) : Prop :=
  ∃ l c r, cs = l ++ c :: r ∧ sug.range = (if c.kind = .TK_LINE_BREAK then
      ⟨pos + byteLen (cellText l), pos + byteLen (cellText l) + byteLen c.text⟩
    else ⟨pos + byteLen (cellText l), pos + byteLen (cellText l)⟩)

theorem atCell_start {pos : Nat} {cs : List (Cell Unit)} {sug : Suggestion} (h : AtCell pos cs sug) :
    pos ≤ sug.range.start := by
  obtain ⟨l, c, r, _, h⟩ := h
  rw [h]
  split <;> exact Nat.le_add_right _ _

theorem atCell_cons {pos : Nat} {c : Cell Unit} {cs : List (Cell Unit)} {sug : Suggestion} (h : AtCell pos (c :: cs) sug) :
    sug.range = (if c.kind = .TK_LINE_BREAK then ⟨pos, pos + byteLen c.text⟩ else ⟨pos, pos⟩) ∨
      AtCell (pos + byteLen c.text) cs sug := by
  obtain ⟨l, d, r, e, h⟩ := h
  cases l with
  | nil =>
    cases e
    left
    rw [h]
    simp [cellText]
  | cons x l =>
    cases e
    right
    refine ⟨l, d, r, rfl, ?_⟩
    rw [h]
    simp [cellText_cons, byteLen_append, Nat.add_assoc]

theorem acts_congr {sugs sugs' : List Suggestion} : ∀ (cs : List (Cell Unit)) (pos : Nat),
    (∀ q, pos ≤ q → actAt sugs q = actAt sugs' q) → actsOf sugs pos cs = actsOf sugs' pos cs
  | [], _, _ => rfl
  | c :: cs, pos, h => by
    rw [actsOf, actsOf, h pos (Nat.le_refl _), acts_congr cs _ (fun q hq => h q (by omega))]

theorem acts_suggestions : ∀ (cs : List (Cell Unit)) (pos : Nat) (sugs : List Suggestion),
    (∀ c ∈ cs, c.text ≠ []) → (∀ x ∈ sugs, AtCell pos cs x) →
    sugs.Pairwise (fun x y => x.range.start < y.range.start) →
    pieceSuggestions pos (brokenPieces (actsOf sugs pos cs)) = sugs
  | [], pos, sugs, _, hx, _ => by
    cases sugs with
    | nil => rfl
    | cons x sugs =>
      obtain ⟨l, c, r, h, _⟩ := hx x (by simp)
      cases l <;> cases h
  | c :: cs, pos, sugs, hne, hx, hp => by
    have hc := byteLen_pos (hne c (by simp))
    have ih := acts_suggestions cs (pos + byteLen c.text)
    have hne' : ∀ c ∈ cs, c.text ≠ [] := fun d hd => hne d (by simp [hd])
    by_cases hz : ∃ x xs, sugs = x :: xs ∧ x.range.start = pos
    · obtain ⟨x, xs, rfl, hxp⟩ := hz
      rw [List.pairwise_cons] at hp
      have hlater : ∀ y ∈ xs, AtCell (pos + byteLen c.text) cs y := by
        intro y hy
        rcases atCell_cons (hx y (by simp [hy])) with h | h
        · have := hp.1 y hy
          rw [h] at this
          split at this <;> (simp only at this; omega)
        · exact h
      have hrange : x.range = (if c.kind = .TK_LINE_BREAK then ⟨pos, pos + byteLen c.text⟩ else ⟨pos, pos⟩) := by
        rcases atCell_cons (hx x (by simp)) with h | h
        · exact h
        · have := atCell_start h
          omega
      have hact : actAt (x :: xs) pos = some x.replaceWith := by
        simp [actAt, hxp]
      have hrest : actsOf (x :: xs) (pos + byteLen c.text) cs = actsOf xs (pos + byteLen c.text) cs := by
        refine acts_congr cs _ (fun q hq => ?_)
        unfold actAt
        rw [List.find?_cons_of_neg (by simp only [beq_iff_eq]; omega)]
      rw [actsOf, hact, hrest, brokenPieces]
      obtain ⟨range, new⟩ := x
      dsimp only at hrange
      subst hrange
      split
      · simp only [List.cons_append, List.nil_append, pieceSuggestions]
        rw [ih xs hne' hlater hp.2]
      · simp only [List.cons_append, List.nil_append, pieceSuggestions, byteLen_nil, Nat.add_zero]
        rw [ih xs hne' hlater hp.2]
    · have hno : ∀ x ∈ sugs, pos < x.range.start := by
        intro x hxs
        have hle := atCell_start (hx x hxs)
        rcases Nat.lt_or_ge pos x.range.start with h | h
        · exact h
        · exfalso
          cases sugs with
          | nil => cases hxs
          | cons y ys =>
            rw [List.pairwise_cons] at hp
            have hy := atCell_start (hx y (by simp))
            rcases List.mem_cons.1 hxs with rfl | hxs
            · exact hz ⟨x, ys, rfl, by omega⟩
            · have := hp.1 x hxs
              omega
      have hact : actAt sugs pos = none := by
        unfold actAt
        rw [Option.map_eq_none_iff, List.find?_eq_none]
        intro x hxs
        have := hno x hxs
        simp only [beq_iff_eq]
        omega
      rw [actsOf, hact, brokenPieces]
      simp only [pieceSuggestions, List.nil_append]
      refine ih sugs hne' (fun x hxs => ?_) hp
      rcases atCell_cons (hx x hxs) with h | h
      · exfalso
        have := hno x hxs
        rw [h] at this
        split at this <;> (simp only at this; omega)
      · exact h

/-! ## Places -/

/-- The last leaf is no whitespace. -/
def SolidEnd (l : List (Cell Unit)) : Prop := ∀ a x, l = a ++ [x] → x.solid = true

theorem solidEnd_broken {acts : List (Cell Unit × Option Text)} (h : SolidEnd (acts.map (·.1))) :
    SolidEnd (brokenCells acts) := by
  rcases List.eq_nil_or_concat acts with rfl | ⟨as, z, rfl⟩
  · intro a x hx
    cases a <;> cases hx
  · obtain ⟨c, o⟩ := z
    have hc : c.solid = true := h (as.map (·.1)) c (by simp)
    intro a x hx
    have : ∃ pre, brokenCells (as.concat (c, o)) = pre ++ [c] := by
      unfold brokenCells
      rw [List.concat_eq_append, List.flatMap_append, List.flatMap_singleton]
      cases o with
      | none => exact ⟨_, rfl⟩
      | some b =>
        have hk : c.kind ≠ .TK_LINE_BREAK := by
          intro hk
          simp [Cell.solid, hk, SyntaxKind.isTrivia] at hc
        refine ⟨as.flatMap brokenOne ++ [⟨.TK_LINE_BREAK, b, ()⟩], ?_⟩
        rw [brokenOne, if_neg hk]
        simp
    obtain ⟨pre, hpre⟩ := this
    rw [hpre] at hx
    have := List.append_inj_right' hx rfl
    cases this
    exact hc

/-- A place behind a leaf that is no whitespace is determined by the leaves before it that are no whitespace. -/
theorem place_unique {a a' r r' : List (Cell Unit)} (h : a ++ r = a' ++ r') (hs : SolidEnd a) (hs' : SolidEnd a')
    (hf : a.filter Cell.solid = a'.filter Cell.solid) : a = a' := by
  have main : ∀ {a c : List (Cell Unit)}, SolidEnd (a ++ c) →
      (a ++ c).filter Cell.solid = a.filter Cell.solid → c = [] := by
    intro a c hs hf
    rcases List.eq_nil_or_concat c with rfl | ⟨c', z, rfl⟩
    · rfl
    · exfalso
      have hz := hs (a ++ c') z (by simp)
      rw [List.filter_append, List.concat_eq_append, List.filter_append, List.filter_cons_of_pos hz] at hf
      have := congrArg List.length hf
      simp only [List.length_append, List.length_cons] at this
      omega
  rcases List.append_eq_append_iff.1 h with ⟨c, h1, _⟩ | ⟨c, h1, _⟩
  · subst h1
    rw [main hs' hf.symm, List.append_nil]
  · subst h1
    rw [main hs hf, List.append_nil]

end Ludtwig.Layout
