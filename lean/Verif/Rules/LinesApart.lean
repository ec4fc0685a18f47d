import Verif.Rules.OnlyBlanks
import Verif.Rules.OnlyBreaks

/-!
# Fixing layout and line breaks joins no lines: property C98
-/

namespace Ludtwig.Rules

open Cli Lexer Layout Shape

/-- Wherever the first text has an LF behind some visible character, the second one has an LF too: with the same
visible characters before it and behind it. So two visible characters on different lines stay on different
lines. -/
def KeptApart (s s' : Text) : Prop :=
  ∀ a d, s = a ++ '\n' :: d → visible a ≠ [] →
    ∃ a' d', s' = a' ++ '\n' :: d' ∧ visible a' = visible a ∧ visible d' = visible d

theorem KeptApart.refl (s : Text) : KeptApart s s := fun a d h _ => ⟨a, d, h, rfl, rfl⟩

theorem KeptApart.trans {s s' s'' : Text} (h : KeptApart s s') (h' : KeptApart s' s'') : KeptApart s s'' := by
  intro a d hs hv
  obtain ⟨a', d', hs', ha, hd⟩ := h a d hs hv
  obtain ⟨a'', d'', hs'', ha', hd'⟩ := h' a' d' hs' (by rw [ha]; exact hv)
  exact ⟨a'', d'', hs'', ha'.trans ha, hd'.trans hd⟩

theorem visible_unbroken (s : Text) : visible (unbroken s) = visible s := by
  unfold visible unbroken
  rw [List.filter_filter]
  refine List.filter_congr (fun c _ => ?_)
  cases c == ' ' <;> cases c == '\t' <;> cases c == '\n' <;> cases c == '\r' <;> rfl

theorem LinesKept.apart {s s' : Text} (h : LinesKept s s') : KeptApart s s' := by
  intro a d hs _
  obtain ⟨a', d', hs', ha, hd⟩ := h a d hs
  exact ⟨a', d', hs', by rw [← visible_unbroken a', ha, visible_unbroken],
    by rw [← visible_unbroken d', hd, visible_unbroken]⟩

theorem visible_blanks {w : Text} (h : Blanks w) : visible w = [] := by
  obtain ⟨l, rfl, hl⟩ := h
  refine List.filter_eq_nil_iff.2 (fun c hc => ?_)
  obtain ⟨x, hx, hc⟩ := List.mem_flatten.1 hc
  rcases hl x hx with rfl | rfl | rfl | rfl <;>
    simp only [List.mem_cons, List.not_mem_nil, or_false] at hc
  · subst hc; decide
  · subst hc; decide
  · subst hc; decide
  · rcases hc with rfl | rfl <;> decide

theorem shifted_visible {b : Bool} {s s' : Text} (h : Shifted b s s') : visible s' = visible s := by
  induction h with
  | nil => rfl
  | @char b c s s' _ _ ih =>
    rw [show c :: s' = [c] ++ s' from rfl, show c :: s = [c] ++ s from rfl, visible_append, visible_append, ih]
  | newline _ ih => exact ih
  | blanks hw hw' _ ih => rw [visible_append, visible_append, visible_blanks hw, visible_blanks hw', ih]

/-- Other whitespace at the beginnings of lines keeps the lines apart, but for empty lines at the beginning of
the file. -/
theorem shifted_apart {b : Bool} {s s' : Text} (h : Shifted b s s') : ∀ a d, s = a ++ '\n' :: d →
    (∃ a' d', s' = a' ++ '\n' :: d' ∧ visible a' = visible a ∧ visible d' = visible d) ∨
      (b = true ∧ visible a = []) := by
  induction h with
  | nil => intro a d h; cases a <;> cases h
  | @char b c s s' hc _ ih =>
    intro a d h
    cases a with
    | nil => cases h; exact absurd rfl hc
    | cons x a =>
      rw [List.cons_append] at h
      injection h with h1 h2
      subst h1
      rcases ih a d h2 with ⟨a', d', rfl, ha, hd⟩ | ⟨h, _⟩
      · refine .inl ⟨c :: a', d', rfl, ?_, hd⟩
        rw [show c :: a' = [c] ++ a' from rfl, show c :: a = [c] ++ a from rfl, visible_append, visible_append, ha]
      · cases h
  | @newline b s s' hs ih =>
    intro a d h
    cases a with
    | nil => cases h; exact .inl ⟨[], s', rfl, rfl, shifted_visible hs⟩
    | cons x a =>
      rw [List.cons_append] at h
      injection h with h1 h2
      subst h1
      rcases ih a d h2 with ⟨a', d', rfl, ha, hd⟩ | ⟨_, ha⟩
      · exact .inl ⟨'\n' :: a', d', rfl, ha, hd⟩
      · refine .inl ⟨[], s', rfl, ha.symm, ?_⟩
        rw [shifted_visible hs, h2, visible_append, ha]
        rfl
  | @blanks w w' s s' hw hw' _ ih =>
    intro a d h
    rcases text_split h with ⟨a2, rfl, h2⟩ | ⟨d1, h1, rfl⟩
    · rcases ih a2 d h2 with ⟨a', d', rfl, ha, hd⟩ | ⟨h, _⟩
      · exact .inl ⟨w' ++ a', d', by simp,
          by rw [visible_append, visible_append, visible_blanks hw, visible_blanks hw', ha], hd⟩
      · cases h
    · have := visible_blanks hw
      rw [h1, visible_append] at this
      exact .inr ⟨rfl, (List.append_eq_nil_iff.1 this).1⟩

/-- C98: processing a file as in C92, that is with any of `twig-block-line-breaks`, `indentation`,
`whitespace-between-line-breaks` and the rules without suggestions, joins no lines: in every text that is parsed
or written, and in the file afterwards, there is a line break wherever the original has one, with the same
visible characters before and behind it (other than before the first visible character). -/
theorem C98_line_fix_joins_no_lines {errLen : Text → Nat} (he : ErrLenOk errLen) (hlo : ErrLineLocal errLen)
    (hE : ErrBeforeBreak errLen) (config : Config) (active : List RuleName) (hactive : ∀ n ∈ active, n ∈ rowRules)
    {sort : List (RuleName × Suggestion) → List (RuleName × Suggestion)} (hsort : SortsRanges sort)
    (flags : Flags) (writeOk : Bool) {original : Text} {p : Parse} (hp : parse errLen original = .ok p)
    (herr : p.errors = []) (hb : BlocksClear original) (hcr : NoCr p.tree) (hraw : ¬ RawBlock p.tree) :
    let run := runAnalysis (realEngine errLen config active sort) flags writeOk original
    (∀ t ∈ run.parsed ++ run.writes, KeptApart original t) ∧ KeptApart original (contentAfter original run) := by
  intro run
  have facts : ∀ {t : Text}, SameParse (parse errLen original) (parse errLen t) →
      ∃ q, parse errLen t = .ok q ∧ q.errors = [] ∧ bare q.tree = bare p.tree := by
    intro t ht
    obtain ⟨q, hq, hqe⟩ := sameParse_ok hp herr ht
    rw [hp, hq] at ht
    exact ⟨q, hq, hqe, ht.1.symm⟩
  have hall : ∀ t ∈ run.parsed ++ run.writes, KeptApart original t := by
    obtain ⟨_, g2⟩ := kept_run (I := fun t => BlocksClear t ∧ SameParse (parse errLen original) (parse errLen t) ∧
        KeptApart original t)
      (fun t ht => by
        obtain ⟨⟨tree, errs⟩, hq, hqe, _⟩ := facts ht.2.1
        dsimp only at hqe
        subst hqe
        exact ⟨tree, hq⟩) config active hactive
      (fun t q rules results ht hq hs hn hr => by
        obtain ⟨q', hq', hqe, hbare⟩ := facts ht.2.1
        rw [hq] at hq'
        cases hq'
        obtain ⟨over, s', k1, k2, k3, k4, s1, k5, k6⟩ := row_round_text he hlo hE hq hqe ht.1 (noCr_bare hbare hcr)
          (fun h => hraw (by rw [← rawBlock_bare, ← hbare, rawBlock_bare]; exact h)) config hs hn hsort hr
        have h1 := (spaced_linesKept k5 (fun u hu => (C13_trivia_shape he t hu).2)).apart
        rw [List.flatMap_def, (C02_lex_partition he t).2.1] at h1
        refine ⟨over, s', k1, k2, k3, ht.2.1.trans k4, (ht.2.2.trans h1).trans ?_⟩
        intro a d had hv
        rcases shifted_apart k6 a d had with h | ⟨_, h⟩
        · exact h
        · exact absurd h hv) flags writeOk
      ⟨hb, by rw [hp]; exact ⟨rfl, rfl⟩, .refl _⟩
    exact fun t ht => (g2 t ht).2.2
  refine ⟨hall, ?_⟩
  unfold contentAfter
  cases hw : run.writes.getLast? with
  | none => exact .refl _
  | some t => exact hall t (List.mem_append_right _ (List.mem_of_getLast? hw))

/-- A file in which lines are split and indented. -/
example :
    let s := "<p>{% block a %}{% endblock %}\n b</p>".toList
    let run := runAnalysis (realEngine (fun _ => 1) defaultConfig rowRules insertionSort) ⟨true, false⟩ true s
    SortsRanges insertionSort ∧ ErrLenOk (fun _ => 1) ∧ ErrLineLocal (fun _ => 1) ∧ ErrBeforeBreak (fun _ => 1) ∧
    BlocksClear s ∧
    Returns (parse (fun _ => 1) s) (fun r => r.errors.isEmpty && noRaw r.tree &&
      r.tree.leaves.all (fun l => l.2.getLast? != some '\r')) = true ∧
    contentAfter s run = "<p>\n    {% block a %}{% endblock %}\n\n    b</p>".toList :=
  ⟨insertionSort_sorts, errLenOk_one, fun _ _ _ h _ _ _ => ⟨List.length_pos_iff.2 h, fun _ => rfl⟩,
    fun _ _ _ _ _ _ _ _ _ => rfl,
    blocksClear_check (by decide +kernel), by decide +kernel, by decide +kernel⟩

end Ludtwig.Rules
