import Verif.Layout.LineSuggestions

/-!
# Suggestions of two rules at line starts

If two rules suggest something for the same range, a stable sort decides which rule has to wait for the
next round of fixing: the one whose findings come later.
-/

namespace Ludtwig.Layout

open Lexer Cli

/-- What is assumed of `sort_by` with `TextRange::ordering`: `SortsRanges`, and suggestions for the same
range stay in their order. -/
def SortsStably (sort : List (RuleName × Suggestion) → List (RuleName × Suggestion)) : Prop :=
  SortsRanges sort ∧
  ∀ l l', (∀ p ∈ l, p.2.range.start ≤ p.2.range.stop) → l'.Perm l → Arranged l' →
    ∀ r : TextRange, (sort l).filter (fun p => p.2.range = r) = l.filter (fun p => p.2.range = r)

theorem agree_ne {a b : TextRange} (h : Agree a b) (hlt : a.ordering b = .lt) : a ≠ b := by
  rintro rfl
  rcases h with ⟨_, h⟩ | ⟨h, _⟩ | ⟨_, h⟩ <;> rw [hlt] at h <;> cases h

theorem insertStep_filter {rev : List (RuleName × Suggestion)} {x : RuleName × Suggestion}
    (ha : ∀ p ∈ rev, Agree x.2.range p.2.range) (r : TextRange) :
    (insertStep rev x).filter (fun p => p.2.range = r) = (x :: rev).filter (fun p => p.2.range = r) := by
  rw [insertStep_eq]
  have hsplit := List.takeWhile_append_dropWhile (p := fun p : RuleName × Suggestion =>
    x.2.range.ordering p.2.range == .lt) (l := rev)
  have hall := List.all_takeWhile (p := fun p : RuleName × Suggestion =>
    x.2.range.ordering p.2.range == .lt) (l := rev)
  generalize rev.takeWhile (fun p : RuleName × Suggestion => x.2.range.ordering p.2.range == .lt) = A at *
  generalize rev.dropWhile (fun p : RuleName × Suggestion => x.2.range.ordering p.2.range == .lt) = B at *
  subst hsplit
  by_cases hr : x.2.range = r
  · have hA : A.filter (fun p => p.2.range = r) = [] := by
      rw [List.filter_eq_nil_iff]
      intro p hp
      have := List.all_eq_true.mp hall p hp
      have := agree_ne (ha p (by simp [hp])) (by simpa using this)
      simp only [decide_eq_true_eq]
      rw [← hr]
      exact fun h => this h.symm
    simp [List.filter_append, hA, hr]
  · simp [List.filter_append, hr]

theorem foldl_insert_filter {l : List (RuleName × Suggestion)} (r : TextRange) :
    ∀ {rev : List (RuleName × Suggestion)}, (l ++ rev).Pairwise (fun a b => Agree a.2.range b.2.range) →
    (l.foldl insertStep rev).filter (fun p => p.2.range = r) =
      (l.filter (fun p => p.2.range = r)).reverse ++ rev.filter (fun p => p.2.range = r) := by
  induction l with
  | nil => intro rev _; rfl
  | cons x l ih =>
    intro rev hag
    rw [List.foldl_cons]
    have hp := insertStep_perm rev x
    have hperm : (l ++ insertStep rev x).Perm (x :: l ++ rev) :=
      (List.Perm.append_left l hp).trans List.perm_middle
    rw [ih ((List.Perm.pairwise_iff (fun h => Agree.symm h) hperm).mpr hag), insertStep_filter
      (fun p hp => (List.pairwise_cons.mp hag).1 p (by simp [hp]))]
    by_cases hr : x.2.range = r <;> simp [hr]

/-- The standard library's sort for at most twenty suggestions satisfies the assumption. -/
theorem insertionSort_stable : SortsStably insertionSort := by
  refine ⟨insertionSort_sorts, ?_⟩
  intro l l' hle hperm harr r
  have hag : l.Pairwise (fun a b => Agree a.2.range b.2.range) := by
    refine (List.Perm.pairwise_iff (fun h => Agree.symm h) hperm).mp (harr.imp ?_)
    intro a b h
    rcases h with h | h
    · exact .inl h
    · exact .inr (.inr h)
  have he : insertionSort l = (l.foldl insertStep []).reverse := rfl
  rw [he, List.filter_reverse, foldl_insert_filter r (by simpa using hag)]
  simp

theorem over_from : ∀ {l : List (RuleName × Suggestion)} {over : List RuleName},
    overlappingRules l = .ok over → ∀ n ∈ over, ∃ a b, [a, b].Sublist l ∧
      a.2.range.ordering b.2.range = .eq ∧ n = b.1
  | [], over, h, n, hn => by cases h; cases hn
  | [a], over, h, n, hn => by cases h; cases hn
  | a :: b :: rest, over, h, n, hn => by
    rw [overlappingRules] at h
    have later : ∀ {over}, overlappingRules (b :: rest) = .ok over → n ∈ over →
        ∃ x y, [x, y].Sublist (a :: b :: rest) ∧ x.2.range.ordering y.2.range = .eq ∧ n = y.1 := by
      intro over h hn
      obtain ⟨x, y, h1, h2⟩ := over_from h n hn
      exact ⟨x, y, .cons a h1, h2⟩
    split at h
    · rename_i heq
      split at h
      · cases h
      · split at h
        · cases h
        · rename_i rs hrs
          cases h
          rcases List.mem_cons.mp hn with rfl | hn
          · exact ⟨a, b, .cons_cons a (.cons_cons b (List.nil_sublist _)), by simpa using heq, rfl⟩
          · exact later hrs hn
    · exact later h hn

/-- The suggestions that are left after the overlap check are some of the suggestions. -/
theorem mem_filtered {over : List RuleName} {l : List (RuleName × Suggestion)} {s : Suggestion} :
    s ∈ filterSuggestions over l ↔ ∃ p ∈ l, p.1 ∉ over ∧ p.2 = s := by
  unfold filterSuggestions
  simp [and_assoc]

/-- One round of fixing with the suggestions of two rules: all of the first rule are applied, and all of
the second one if the first one has none. -/
theorem stable_round {ls : List (SyntaxKind × Text)} (hne : ∀ l ∈ ls, l.2 ≠ [])
    {A B : List (RuleName × Suggestion)} {n1 n2 : RuleName} (h : Tidy ls (A ++ B))
    (hA : ∀ p ∈ A, p.1 = n1) (hB : ∀ p ∈ B, p.1 = n2) (hn : n1 ≠ n2)
    {sort : List (RuleName × Suggestion) → List (RuleName × Suggestion)} (hsort : SortsStably sort) :
    ∃ over ps, overlappingRules (sort (A ++ B)) = .ok over ∧ Edits true ls ps ∧
      filterSuggestions over (sort (A ++ B)) = pieceSuggestions 0 ps ∧
      (∀ s ∈ pieceSuggestions 0 ps, ∃ p ∈ A ++ B, p.2 = s) ∧
      (∀ p ∈ A, p.2 ∈ pieceSuggestions 0 ps) ∧
      (A = [] → ∀ p ∈ B, p.2 ∈ pieceSuggestions 0 ps) ∧
      (pieceSuggestions 0 ps).Pairwise (fun x y => Before x.range y.range) := by
  obtain ⟨over, ps, h1, h2, h3⟩ := tidy_round hne h hsort.1
  obtain ⟨k1, k2⟩ := tidy_sorted hne h hsort.1
  refine ⟨over, ps, h1, h2, h3, ?_⟩
  rw [← h3]
  -- what is in `over`
  have hl' : ∃ l', l'.Perm (A ++ B) ∧ Arranged l' := by
    refine ⟨sort (A ++ B), k1, ?_⟩
    refine (pairwise_both (P := fun p : RuleName × Suggestion => p.2.range.start ≤ p.2.range.stop)
      (fun p hp => (h.allowed p (k1.mem_iff.mp hp)).start_le.2) k2).imp ?_
    rintro a b ⟨ha, hb, hio⟩
    rcases hio with hio | ⟨hr, _, hlt⟩
    · exact .inl (before_ordering hio hb)
    · exact .inr ⟨hr, by rw [← hr]; exact same_ordering hlt⟩
  obtain ⟨l', p1, p2⟩ := hl'
  have hst := hsort.2 _ l' (fun p hp => (h.allowed p hp).start_le.2) p1 p2
  have hover : ∀ n ∈ over, n = n2 ∧ A ≠ [] := by
    intro n hmem
    obtain ⟨a, b, hsub, heq, rfl⟩ := over_from h1 n hmem
    have hio := (k2.sublist hsub)
    simp only [List.pairwise_cons, List.mem_singleton, forall_eq] at hio
    obtain ⟨hio, _⟩ := hio
    have hr : a.2.range = b.2.range ∧ a.1 ≠ b.1 := by
      rcases hio with hio | hio
      · have hb : b ∈ sort (A ++ B) := hsub.subset (by simp)
        rw [(before_ordering hio (h.allowed b (k1.mem_iff.mp hb)).start_le.2).1] at heq
        cases heq
      · exact ⟨hio.1, hio.2.1⟩
    have hsub' : [a, b].Sublist (A ++ B) := by
      have := hsub.filter (fun p => p.2.range = a.2.range)
      rw [hst] at this
      simp only [List.filter_cons, decide_true, if_true, hr.1, List.filter_nil] at this
      exact this.trans List.filter_sublist
    obtain ⟨x, y, hxy, hx, hy⟩ := List.sublist_append_iff.1 hsub'
    have name : ∀ {l : List (RuleName × Suggestion)} {m : RuleName} (_ : ∀ p ∈ l, p.1 = m),
        ¬ [a, b].Sublist l := fun hl hs =>
      hr.2 ((hl a (hs.subset (by simp))).trans (hl b (hs.subset (by simp))).symm)
    rcases x with _ | ⟨c, _ | ⟨d, x⟩⟩
    · rw [List.nil_append] at hxy; rw [← hxy] at hy; exact absurd hy (name hB)
    · simp only [List.cons_append, List.nil_append, List.cons.injEq] at hxy
      obtain ⟨rfl, rfl⟩ := hxy
      exact ⟨hB b (hy.subset (by simp)), by rintro rfl; cases hx⟩
    · simp only [List.cons_append, List.cons.injEq] at hxy
      obtain ⟨rfl, rfl, h0⟩ := hxy
      have h0 := List.append_eq_nil_iff.1 h0.symm
      rw [h0.1] at hx
      exact absurd hx (name hA)
  refine ⟨?_, ?_, ?_, ?_⟩
  · intro s hs
    obtain ⟨p, hp, _, rfl⟩ := mem_filtered.1 hs
    exact ⟨p, k1.mem_iff.mp hp, rfl⟩
  · intro p hp
    refine mem_filtered.2 ⟨p, k1.mem_iff.mpr (List.mem_append_left _ hp), fun hov => ?_, rfl⟩
    exact hn ((hA p hp).symm.trans (hover _ hov).1)
  · intro he p hp
    refine mem_filtered.2 ⟨p, k1.mem_iff.mpr (List.mem_append_right _ hp), fun hov => ?_, rfl⟩
    exact (hover _ hov).2 he
  · obtain ⟨over', g1, g2⟩ := inOrder_over k2
      (fun p hp => (h.allowed p (k1.mem_iff.mp hp)).start_le.2)
    rw [h1] at g1
    cases g1
    unfold filterSuggestions
    rw [List.pairwise_map, List.pairwise_filter]
    refine (k2.and g2).imp ?_
    rintro a b ⟨hio, hov⟩ _ hb
    rcases hio with hio | ⟨hr, _⟩
    · exact hio
    · have := hov hr
      simp [this] at hb

end Ludtwig.Layout
