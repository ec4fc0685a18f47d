import Verif.Layout.Edits

/-!
# Suggestions at line starts

Suggestions that replace the whitespace at the beginning of a line, what the fix loop makes of them,
and what is assumed about the standard library's sort.
-/

namespace Ludtwig.Layout

open Lexer Cli

/-- A suggestion for a file with the leaves `ls` that begin at byte `pos`: it replaces the whitespace
at the beginning of a line, or puts whitespace before a line without. `b`: see `Edits`. -/
inductive AtLineStart : Bool → Nat → List (SyntaxKind × Text) → Suggestion → Prop
  | space {pos t new ls} : Blanks new →
      AtLineStart true pos ((.TK_WHITESPACE, t) :: ls) ⟨⟨pos, pos + byteLen t⟩, new⟩
  | insert {pos k t new ls} : k.isTrivia = false → Blanks new →
      AtLineStart true pos ((k, t) :: ls) ⟨⟨pos, pos⟩, new⟩
  | later {b pos k t ls sug} : AtLineStart (k == .TK_LINE_BREAK) (pos + byteLen t) ls sug →
      AtLineStart b pos ((k, t) :: ls) sug

theorem byteLen_pos {t : Text} (h : t ≠ []) : 0 < byteLen t := by
  cases t with
  | nil => exact absurd rfl h
  | cons c t =>
    have := Char.utf8Size_pos c
    simp only [byteLen]
    omega

theorem AtLineStart.start_le {b : Bool} {pos : Nat} {ls : List (SyntaxKind × Text)} {sug : Suggestion}
    (h : AtLineStart b pos ls sug) : pos ≤ sug.range.start ∧ sug.range.start ≤ sug.range.stop := by
  induction h with
  | space _ => exact ⟨Nat.le_refl _, Nat.le_add_right ..⟩
  | insert _ _ => exact ⟨Nat.le_refl _, Nat.le_refl _⟩
  | later _ ih => exact ⟨by omega, ih.2⟩

/-- A range comes before another one. -/
def Before (a b : TextRange) : Prop := a.start < b.start ∧ a.stop ≤ b.start

/-- Two such suggestions are for the same range, or one comes before the other. -/
theorem allowed_ranges {ls : List (SyntaxKind × Text)} : ∀ {b : Bool} {pos : Nat} {x y : Suggestion},
    (∀ l ∈ ls, l.2 ≠ []) → AtLineStart b pos ls x → AtLineStart b pos ls y →
    x.range = y.range ∨ Before x.range y.range ∨ Before y.range x.range := by
  induction ls with
  | nil => intro b pos x y _ h; cases h
  | cons l ls ih =>
    intro b pos x y hne hx hy
    obtain ⟨k, t⟩ := l
    have hp : 0 < byteLen t := byteLen_pos (hne _ List.mem_cons_self)
    have hls : ∀ l ∈ ls, l.2 ≠ [] := fun l hl => hne l (List.mem_cons_of_mem _ hl)
    cases hx with
    | space hb =>
      cases hy with
      | space _ => exact .inl rfl
      | insert h _ => cases h
      | later h => have := h.start_le; exact .inr (.inl ⟨by simp only at *; omega, by simp only at *; omega⟩)
    | insert hk hb =>
      cases hy with
      | space _ => cases hk
      | insert h _ => exact .inl rfl
      | later h => have := h.start_le; exact .inr (.inl ⟨by simp only at *; omega, by simp only at *; omega⟩)
    | later hx =>
      cases hy with
      | space _ => have := hx.start_le; exact .inr (.inr ⟨by simp only at *; omega, by simp only at *; omega⟩)
      | insert h _ => have := hx.start_le; exact .inr (.inr ⟨by simp only at *; omega, by simp only at *; omega⟩)
      | later hy => exact ih hls hx hy

theorem keep_all (ls : List (SyntaxKind × Text)) : ∀ (b : Bool) (pos : Nat),
    ∃ ps, Edits b ls ps ∧ pieceSuggestions pos ps = [] := by
  induction ls with
  | nil => intro b pos; exact ⟨[], .nil, rfl⟩
  | cons l ls ih =>
    intro b pos
    obtain ⟨ps, h1, h2⟩ := ih (l.1 == .TK_LINE_BREAK) (pos + byteLen l.2)
    exact ⟨⟨l.2, none⟩ :: ps, .keep h1, by simp [pieceSuggestions, h2]⟩

/-- Suggestions of which each comes before the next one are a cut of the file into pieces. -/
theorem allowed_edits {ls : List (SyntaxKind × Text)} : ∀ {b : Bool} {pos : Nat} {sugs : List Suggestion},
    (∀ l ∈ ls, l.2 ≠ []) → (∀ s ∈ sugs, AtLineStart b pos ls s) →
    sugs.Pairwise (fun x y => Before x.range y.range) →
    ∃ ps, Edits b ls ps ∧ pieceSuggestions pos ps = sugs := by
  induction ls with
  | nil =>
    intro b pos sugs _ h _
    cases sugs with
    | nil => exact ⟨[], .nil, rfl⟩
    | cons s sugs => cases h s List.mem_cons_self
  | cons l ls ih =>
    intro b pos sugs hne hall hpair
    obtain ⟨k, t⟩ := l
    have hp : 0 < byteLen t := byteLen_pos (hne _ List.mem_cons_self)
    have hls : ∀ l ∈ ls, l.2 ≠ [] := fun l hl => hne l (List.mem_cons_of_mem _ hl)
    have hlater : ∀ {s}, AtLineStart b pos ((k, t) :: ls) s → pos < s.range.start →
        AtLineStart (k == .TK_LINE_BREAK) (pos + byteLen t) ls s := by
      intro s hs hlt
      cases hs with
      | space _ => simp at hlt
      | insert _ _ => simp at hlt
      | later h => exact h
    cases sugs with
    | nil => exact keep_all _ _ _
    | cons s sugs =>
      have hs := hall s List.mem_cons_self
      have hrest : ∀ x ∈ sugs, Before s.range x.range := (List.pairwise_cons.mp hpair).1
      have hpos := hs.start_le.1
      by_cases hst : s.range.start = pos
      · have hall' : ∀ x ∈ sugs, AtLineStart (k == .TK_LINE_BREAK) (pos + byteLen t) ls x := by
          intro x hx
          exact hlater (hall x (List.mem_cons_of_mem _ hx)) (by have := (hrest x hx).1; omega)
        obtain ⟨ps, h1, h2⟩ := ih hls hall' (List.pairwise_cons.mp hpair).2
        cases hs with
        | @space _ _ new _ hb =>
          exact ⟨⟨t, some new⟩ :: ps, .space hb h1, by simp [pieceSuggestions, h2]⟩
        | @insert _ _ _ new _ hk hb =>
          rw [kind_ne_lb hk] at h1
          exact ⟨⟨[], some new⟩ :: ⟨t, none⟩ :: ps, .insert hk hb h1, by simp [pieceSuggestions, h2]⟩
        | later h => have := h.start_le.1; omega
      · have hall' : ∀ x ∈ s :: sugs, AtLineStart (k == .TK_LINE_BREAK) (pos + byteLen t) ls x := by
          intro x hx
          refine hlater (hall x hx) ?_
          rcases List.mem_cons.mp hx with rfl | hx
          · omega
          · have := (hrest x hx).1; omega
        obtain ⟨ps, h1, h2⟩ := ih hls hall' hpair
        exact ⟨⟨t, none⟩ :: ps, .keep h1, by simp [pieceSuggestions, h2]⟩

theorem edits_before {b : Bool} {ls : List (SyntaxKind × Text)} {ps : List Piece} (h : Edits b ls ps) :
    piecesBefore ps = ls.flatMap (·.2) := by
  induction h with
  | nil => rfl
  | keep _ ih => simp_all [piecesBefore]
  | space _ _ ih => simp_all [piecesBefore]
  | insert _ _ _ ih => simp_all [piecesBefore]

/-! ### Sorting and the overlap check -/

/-- A list in the order of `TextRange::ordering`, where the comparisons of two of its elements do not
contradict each other: one range comes before the other one, or both are the same and compare equal. -/
def Arranged (l : List (RuleName × Suggestion)) : Prop :=
  l.Pairwise (fun a b =>
    (a.2.range.ordering b.2.range = .lt ∧ b.2.range.ordering a.2.range = .gt) ∨
      (a.2.range = b.2.range ∧ a.2.range.ordering b.2.range = .eq))

/-- What is assumed of `sort_by` with `TextRange::ordering`: it reorders, and if the suggestions can be
put in order without a contradiction, it puts them in order. -/
def SortsRanges (sort : List (RuleName × Suggestion) → List (RuleName × Suggestion)) : Prop :=
  ∀ l l', (∀ p ∈ l, p.2.range.start ≤ p.2.range.stop) → l'.Perm l → Arranged l' →
    (sort l).Perm l ∧ (sort l).Pairwise (fun a b => a.2.range.ordering b.2.range ≠ .gt)

theorem before_ordering {a b : TextRange} (h : Before a b) (hb : b.start ≤ b.stop) :
    a.ordering b = .lt ∧ b.ordering a = .gt := by
  obtain ⟨h1, h2⟩ := h
  unfold TextRange.ordering
  refine ⟨?_, ?_⟩
  · rw [if_pos h2]
  · rw [if_neg (by omega), if_pos h2]

theorem same_ordering {a : TextRange} (h : a.start < a.stop) : a.ordering a = .eq := by
  unfold TextRange.ordering
  rw [if_neg (by omega), if_neg (by omega)]

/-- Two suggestions of a rule are not for the same range, and of two suggestions for the same range
none is empty. -/
def Apart (a b : RuleName × Suggestion) : Prop :=
  a.2.range = b.2.range → a.1 ≠ b.1 ∧ a.2.range.start < a.2.range.stop

theorem Apart.symm {a b : RuleName × Suggestion} (h : Apart a b) : Apart b a := fun hr =>
  have := h hr.symm
  ⟨Ne.symm this.1, by rw [hr]; exact this.2⟩

/-- What the suggestions of one round have to satisfy. -/
structure Tidy (ls : List (SyntaxKind × Text)) (R : List (RuleName × Suggestion)) : Prop where
  allowed : ∀ p ∈ R, AtLineStart true 0 ls p.2
  apart : R.Pairwise Apart

theorem pairwise_both {α : Type} {P : α → Prop} {S : α → α → Prop} {l : List α} (h : ∀ x ∈ l, P x)
    (hs : l.Pairwise S) : l.Pairwise (fun a b => P a ∧ P b ∧ S a b) := by
  induction l with
  | nil => exact .nil
  | cons x l ih =>
    rw [List.pairwise_cons] at hs ⊢
    exact ⟨fun y hy => ⟨h x List.mem_cons_self, h y (List.mem_cons_of_mem _ hy), hs.1 y hy⟩,
      ih (fun y hy => h y (List.mem_cons_of_mem _ hy)) hs.2⟩

/-- In order: a suggestion comes before another one, or both are for the same range and belong to
different rules. -/
def InOrder (a b : RuleName × Suggestion) : Prop :=
  Before a.2.range b.2.range ∨ (a.2.range = b.2.range ∧ a.1 ≠ b.1 ∧ a.2.range.start < a.2.range.stop)

theorem tidy_sorted {ls : List (SyntaxKind × Text)} (hne : ∀ l ∈ ls, l.2 ≠ [])
    {R : List (RuleName × Suggestion)} (h : Tidy ls R)
    {sort : List (RuleName × Suggestion) → List (RuleName × Suggestion)} (hsort : SortsRanges sort) :
    (sort R).Perm R ∧ (sort R).Pairwise InOrder := by
  have hsym : ∀ {a b : RuleName × Suggestion}, Apart a b → Apart b a := Apart.symm
  let l' := R.mergeSort (fun a b => decide (a.2.range.start ≤ b.2.range.start))
  have hperm : l'.Perm R := List.mergeSort_perm ..
  have hl' : Arranged l' := by
    have h1 : l'.Pairwise (fun a b => decide (a.2.range.start ≤ b.2.range.start) = true) :=
      List.pairwise_mergeSort (fun a b c => by simp only [decide_eq_true_eq]; omega)
        (fun a b => by simp only [Bool.or_eq_true, decide_eq_true_eq]; omega) R
    have h2 : l'.Pairwise Apart := (List.Perm.pairwise_iff hsym hperm).mpr h.apart
    have h3 := pairwise_both (P := fun p : RuleName × Suggestion => AtLineStart true 0 ls p.2)
      (fun p hp => h.allowed p (hperm.mem_iff.mp hp)) (h1.and h2)
    refine h3.imp ?_
    rintro a b ⟨ha, hb, hle, hap⟩
    simp only [decide_eq_true_eq] at hle
    rcases allowed_ranges hne ha hb with hr | hr | hr
    · exact .inr ⟨hr, by rw [← hr]; exact same_ordering (hap hr).2⟩
    · exact .inl (before_ordering hr hb.start_le.2)
    · have := hr.1; omega
  obtain ⟨k1, k2⟩ := hsort R l' (fun p hp => (h.allowed p hp).start_le.2) hperm hl'
  refine ⟨k1, ?_⟩
  have k3 : (sort R).Pairwise Apart := (List.Perm.pairwise_iff hsym k1).mpr h.apart
  refine (pairwise_both (P := fun p : RuleName × Suggestion => AtLineStart true 0 ls p.2)
      (fun p hp => h.allowed p (k1.mem_iff.mp hp)) (k2.and k3)).imp ?_
  rintro a b ⟨ha, hb, hgt, hap⟩
  rcases allowed_ranges hne ha hb with hr | hr | hr
  · exact .inr ⟨hr, hap hr⟩
  · exact .inl hr
  · exact absurd (before_ordering hr ha.start_le.2).2 hgt

/-- The overlap check succeeds, and of two suggestions for the same range it leaves out the rule of
the second one. -/
theorem inOrder_over : ∀ {l : List (RuleName × Suggestion)}, l.Pairwise InOrder →
    (∀ p ∈ l, p.2.range.start ≤ p.2.range.stop) →
    ∃ over, overlappingRules l = .ok over ∧
      l.Pairwise (fun a b => a.2.range = b.2.range → b.1 ∈ over)
  | [], _, _ => ⟨[], rfl, .nil⟩
  | [a], _, _ => ⟨[], rfl, by simp⟩
  | a :: b :: rest, hp, hle => by
    have hp' := (List.pairwise_cons.mp hp).2
    have hab := (List.pairwise_cons.mp hp).1
    obtain ⟨over, h1, h2⟩ := inOrder_over hp' (fun p h => hle p (List.mem_cons_of_mem _ h))
    rw [overlappingRules]
    have hrest : a.2.range = b.2.range → ∀ c ∈ rest, a.2.range = c.2.range → c.1 ∈ over := by
      intro hr c hc hr'
      exact (List.pairwise_cons.mp h2).1 c hc (by rw [← hr, hr'])
    rcases hab b List.mem_cons_self with hb | ⟨hr, hn, hlt⟩
    · have ho := (before_ordering hb (hle b (by simp))).1
      rw [ho]
      refine ⟨over, by simpa using h1, ?_⟩
      rw [List.pairwise_cons]
      refine ⟨fun c hc hr => ?_, h2⟩
      exfalso
      rcases List.mem_cons.mp hc with rfl | hc
      · rw [hr] at hb; exact Nat.lt_irrefl _ hb.1
      · have hb1 := hb.1
        have hs : a.2.range.start = c.2.range.start := by rw [hr]
        rcases (List.pairwise_cons.mp hp').1 c hc with h | ⟨h, _⟩
        · have := h.1; omega
        · have : b.2.range.start = c.2.range.start := by rw [h]
          omega
    · have ho : a.2.range.ordering b.2.range = .eq := by rw [← hr]; exact same_ordering hlt
      rw [ho]
      simp only [beq_self_eq_true, if_true, beq_iff_eq, if_neg hn, h1]
      refine ⟨_, rfl, ?_⟩
      rw [List.pairwise_cons]
      refine ⟨fun c hc hr' => ?_, h2.imp (fun h hr => List.mem_cons_of_mem _ (h hr))⟩
      rcases List.mem_cons.mp hc with rfl | hc
      · exact List.mem_cons_self
      · exact List.mem_cons_of_mem _ (hrest hr c hc hr')

/-- One round of fixing with such suggestions: the overlap check succeeds and the remaining suggestions
are a cut of the file into pieces. -/
theorem tidy_round {ls : List (SyntaxKind × Text)} (hne : ∀ l ∈ ls, l.2 ≠ [])
    {R : List (RuleName × Suggestion)} (h : Tidy ls R)
    {sort : List (RuleName × Suggestion) → List (RuleName × Suggestion)} (hsort : SortsRanges sort) :
    ∃ over ps, overlappingRules (sort R) = .ok over ∧ Edits true ls ps ∧
      filterSuggestions over (sort R) = pieceSuggestions 0 ps := by
  obtain ⟨k1, k2⟩ := tidy_sorted hne h hsort
  obtain ⟨over, h1, h2⟩ := inOrder_over k2
    (fun p hp => (h.allowed p (k1.mem_iff.mp hp)).start_le.2)
  have h3 : (filterSuggestions over (sort R)).Pairwise (fun x y => Before x.range y.range) := by
    unfold filterSuggestions
    rw [List.pairwise_map, List.pairwise_filter]
    refine (k2.and h2).imp ?_
    rintro a b ⟨hio, hov⟩ _ hb
    rcases hio with hio | ⟨hr, _⟩
    · exact hio
    · have := hov hr
      simp [this] at hb
  obtain ⟨ps, e1, e2⟩ := allowed_edits (b := true) (pos := 0) hne (sugs := filterSuggestions over (sort R))
    (fun s hs => by
      unfold filterSuggestions at hs
      obtain ⟨p, hp, rfl⟩ := List.mem_map.mp hs
      exact h.allowed p (k1.mem_iff.mp (List.mem_filter.mp hp).1)) h3
  exact ⟨over, ps, h1, e1, e2.symm⟩

/-! ### The assumption on the sort can be met -/

/-- Sorting by start and end. -/
def sortByPlace (l : List (RuleName × Suggestion)) : List (RuleName × Suggestion) :=
  l.mergeSort (fun a b => decide (a.2.range.start < b.2.range.start ∨
    (a.2.range.start = b.2.range.start ∧ a.2.range.stop ≤ b.2.range.stop)))

theorem sortByPlace_sorts : SortsRanges sortByPlace := by
  intro l l' hle hperm harr
  have hp : (sortByPlace l).Perm l := List.mergeSort_perm ..
  refine ⟨hp, ?_⟩
  have h1 : (sortByPlace l).Pairwise (fun a b => decide (a.2.range.start < b.2.range.start ∨
      (a.2.range.start = b.2.range.start ∧ a.2.range.stop ≤ b.2.range.stop)) = true) :=
    List.pairwise_mergeSort (fun a b c => by simp only [decide_eq_true_eq]; omega)
      (fun a b => by simp only [Bool.or_eq_true, decide_eq_true_eq]; omega) l
  refine (pairwise_both (P := fun p : RuleName × Suggestion => p.2.range.start ≤ p.2.range.stop)
    (fun p h => hle p (hp.mem_iff.mp h)) h1).imp ?_
  rintro a b ⟨ha, hb, hk⟩
  simp only [decide_eq_true_eq] at hk
  unfold TextRange.ordering
  split
  · simp
  · rw [if_neg (by omega)]; simp

/-- The place of one range compared with that of another one. -/
def Lower (a b : TextRange) : Prop := a.start < b.start ∨ (a.start = b.start ∧ a.stop < b.stop)

/-- Two ranges whose comparisons do not contradict each other. -/
def Agree (a b : TextRange) : Prop :=
  (a.ordering b = .lt ∧ b.ordering a = .gt) ∨ (a.ordering b = .gt ∧ b.ordering a = .lt) ∨
    (a = b ∧ a.ordering b = .eq)

theorem Agree.symm {a b : TextRange} (h : Agree a b) : Agree b a := by
  rcases h with h | h | ⟨rfl, h⟩
  · exact .inr (.inl ⟨h.2, h.1⟩)
  · exact .inl ⟨h.2, h.1⟩
  · exact .inr (.inr ⟨rfl, h⟩)

theorem ordering_lt {a b : TextRange} (h : a.ordering b = .lt) : a.stop ≤ b.start := by
  unfold TextRange.ordering at h
  split at h
  · assumption
  · split at h <;> cases h

theorem ordering_gt {a b : TextRange} (h : a.ordering b = .gt) : b.stop ≤ a.start ∧ ¬ a.stop ≤ b.start := by
  unfold TextRange.ordering at h
  split at h
  · cases h
  · rename_i h1
    split at h
    · rename_i h2; exact ⟨h2, h1⟩
    · cases h

theorem agree_lower {a b : TextRange} (h : Agree a b) (ha : a.start ≤ a.stop) (hb : b.start ≤ b.stop) :
    (a.ordering b = .lt ↔ Lower a b) ∧ (a.ordering b = .gt ↔ Lower b a) := by
  unfold Lower
  rcases h with ⟨h1, h2⟩ | ⟨h1, h2⟩ | ⟨rfl, h1⟩
  · have := ordering_lt h1
    have := ordering_gt h2
    refine ⟨⟨fun _ => by omega, fun _ => h1⟩, ⟨fun h => (by rw [h1] at h; cases h), fun h => by omega⟩⟩
  · have := ordering_lt h2
    have := ordering_gt h1
    refine ⟨⟨fun h => (by rw [h1] at h; cases h), fun h => by omega⟩, ⟨fun _ => by omega, fun _ => h1⟩⟩
  · refine ⟨⟨fun h => (by rw [h1] at h; cases h), fun h => by omega⟩,
      ⟨fun h => (by rw [h1] at h; cases h), fun h => by omega⟩⟩

/-- One step of the insertion sort. -/
def insertStep (revSorted : List (RuleName × Suggestion)) (x : RuleName × Suggestion) :
    List (RuleName × Suggestion) :=
  let moved := revSorted.takeWhile (fun p => x.2.range.ordering p.2.range == .lt)
  moved ++ x :: revSorted.drop moved.length

theorem insertStep_eq (rev : List (RuleName × Suggestion)) (x : RuleName × Suggestion) :
    insertStep rev x = rev.takeWhile (fun p => x.2.range.ordering p.2.range == .lt) ++
      x :: rev.dropWhile (fun p => x.2.range.ordering p.2.range == .lt) := by
  have h := List.takeWhile_append_dropWhile (p := fun p : RuleName × Suggestion =>
    x.2.range.ordering p.2.range == .lt) (l := rev)
  unfold insertStep
  dsimp only
  congr 2
  conv => lhs; rw [← h]
  have : (rev.takeWhile (fun p => x.2.range.ordering p.2.range == .lt) ++
    rev.dropWhile (fun p => x.2.range.ordering p.2.range == .lt)).takeWhile
      (fun p => x.2.range.ordering p.2.range == .lt) =
    rev.takeWhile (fun p => x.2.range.ordering p.2.range == .lt) := by rw [h]
  rw [List.drop_left']
  rw [this]

theorem insertStep_perm (rev : List (RuleName × Suggestion)) (x : RuleName × Suggestion) :
    (insertStep rev x).Perm (x :: rev) := by
  rw [insertStep_eq]
  refine List.perm_middle.trans (.cons x ?_)
  rw [List.takeWhile_append_dropWhile]

theorem insertStep_sorted {rev : List (RuleName × Suggestion)} {x : RuleName × Suggestion}
    (hx : x.2.range.start ≤ x.2.range.stop) (hle : ∀ p ∈ rev, p.2.range.start ≤ p.2.range.stop)
    (ha : ∀ p ∈ rev, Agree x.2.range p.2.range) (hs : rev.Pairwise (fun a b => ¬ Lower a.2.range b.2.range)) :
    (insertStep rev x).Pairwise (fun a b => ¬ Lower a.2.range b.2.range) := by
  rw [insertStep_eq]
  have hsplit := List.takeWhile_append_dropWhile (p := fun p : RuleName × Suggestion =>
    x.2.range.ordering p.2.range == .lt) (l := rev)
  have hall := List.all_takeWhile (p := fun p : RuleName × Suggestion =>
    x.2.range.ordering p.2.range == .lt) (l := rev)
  have hhead := List.head?_dropWhile_not (fun p : RuleName × Suggestion =>
    x.2.range.ordering p.2.range == .lt) rev
  generalize rev.takeWhile (fun p : RuleName × Suggestion => x.2.range.ordering p.2.range == .lt) = A at *
  generalize rev.dropWhile (fun p : RuleName × Suggestion => x.2.range.ordering p.2.range == .lt) = B at *
  subst hsplit
  rw [List.pairwise_append] at hs
  obtain ⟨h1, h2, h3⟩ := hs
  have hA : ∀ p ∈ A, Lower x.2.range p.2.range := by
    intro p hp
    have := List.all_eq_true.mp hall p hp
    exact (agree_lower (ha p (by simp [hp])) hx (hle p (by simp [hp]))).1.mp (by simpa using this)
  have hB : ∀ p ∈ B, ¬ Lower x.2.range p.2.range := by
    intro p hp
    cases B with
    | nil => cases hp
    | cons b B =>
      simp only [List.head?_cons] at hhead
      have hb : ¬ Lower x.2.range b.2.range := by
        intro h
        rw [(agree_lower (ha b (by simp)) hx (hle b (by simp))).1.mpr h] at hhead
        simp at hhead
      rcases List.mem_cons.mp hp with rfl | hp
      · exact hb
      · have := (List.pairwise_cons.mp h2).1 p hp
        unfold Lower at *
        omega
  rw [List.pairwise_append, List.pairwise_cons]
  refine ⟨h1, ⟨hB, h2⟩, ?_⟩
  intro a haA b hb
  have := hA a haA
  rcases List.mem_cons.mp hb with rfl | hb
  · unfold Lower at *; omega
  · have := hB b hb
    unfold Lower at *; omega

theorem foldl_insert {l : List (RuleName × Suggestion)} : ∀ {rev : List (RuleName × Suggestion)},
    (∀ p ∈ rev ++ l, p.2.range.start ≤ p.2.range.stop) →
    (l ++ rev).Pairwise (fun a b => Agree a.2.range b.2.range) →
    rev.Pairwise (fun a b => ¬ Lower a.2.range b.2.range) →
    (l.foldl insertStep rev).Perm (l ++ rev) ∧
      (l.foldl insertStep rev).Pairwise (fun a b => ¬ Lower a.2.range b.2.range) := by
  induction l with
  | nil => intro rev _ _ h; exact ⟨.refl _, h⟩
  | cons x l ih =>
    intro rev hle hag hs
    rw [List.foldl_cons]
    have hp := insertStep_perm rev x
    have hperm : (l ++ insertStep rev x).Perm (x :: l ++ rev) :=
      (List.Perm.append_left l hp).trans List.perm_middle
    have hx : ∀ p ∈ rev, Agree x.2.range p.2.range := by
      intro p hp
      exact (List.pairwise_cons.mp hag).1 p (by simp [hp])
    obtain ⟨g1, g2⟩ := ih (rev := insertStep rev x)
      (fun p h => by
        have : p ∈ x :: l ++ rev := by
          rcases List.mem_append.mp h with h | h
          · have := hp.mem_iff.mp h
            rcases List.mem_cons.mp this with h | h <;> simp [h]
          · simp [h]
        refine hle p ?_
        simp only [List.cons_append, List.mem_cons, List.mem_append] at this ⊢
        rcases this with h | h | h <;> simp [h])
      ((List.Perm.pairwise_iff (fun h => Agree.symm h) hperm).mpr hag)
      (insertStep_sorted (hle x (by simp)) (fun p h => hle p (by simp [h])) hx hs)
    exact ⟨g1.trans hperm, g2⟩

/-- The standard library's sort for at most twenty suggestions satisfies the assumption. -/
theorem insertionSort_sorts : SortsRanges insertionSort := by
  intro l l' hle hperm harr
  have hag : l.Pairwise (fun a b => Agree a.2.range b.2.range) := by
    refine (List.Perm.pairwise_iff (fun h => Agree.symm h) hperm).mp (harr.imp ?_)
    intro a b h
    rcases h with h | h
    · exact .inl h
    · exact .inr (.inr h)
  obtain ⟨g1, g2⟩ := foldl_insert (l := l) (rev := []) (by simpa using hle) (by simpa using hag) .nil
  have he : insertionSort l = (l.foldl insertStep []).reverse := rfl
  rw [List.append_nil] at g1
  have hp : (insertionSort l).Perm l := by rw [he]; exact (List.reverse_perm _).trans g1
  refine ⟨hp, ?_⟩
  have h1 : (insertionSort l).Pairwise (fun a b => ¬ Lower b.2.range a.2.range) := by
    rw [he, List.pairwise_reverse]; exact g2
  have h2 : (insertionSort l).Pairwise (fun a b => Agree a.2.range b.2.range) :=
    (List.Perm.pairwise_iff (fun h => Agree.symm h) hp).mpr hag
  refine (pairwise_both (P := fun p : RuleName × Suggestion => p.2.range.start ≤ p.2.range.stop)
    (fun p h => hle p (hp.mem_iff.mp h)) (h1.and h2)).imp ?_
  rintro a b ⟨ha, hb, hl, hag⟩ hgt
  exact hl ((agree_lower hag ha hb).2.mp hgt)

end Ludtwig.Layout
