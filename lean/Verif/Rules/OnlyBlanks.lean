import Verif.Rules.BreakLayout
import Verif.Rules.LineEndingFix

/-!
# Fixing the layout changes whitespace only: property C94
-/

namespace Ludtwig.Rules

open Cli Lexer Layout Shape

/-- The characters of a text other than spaces, tabs and line breaks, in their order. -/
def visible (s : Text) : Text := s.filter (fun c => !(c == ' ' || c == '\t' || c == '\n' || c == '\r'))

theorem visible_append (s t : Text) : visible (s ++ t) = visible s ++ visible t := List.filter_append ..

theorem visible_breaks {t : Text} (h : IsLineBreaks t) : visible t = [] := by
  obtain ⟨l, rfl, hl⟩ := h
  refine List.filter_eq_nil_iff.2 (fun c hc => ?_)
  obtain ⟨x, hx, hc⟩ := List.mem_flatten.1 hc
  rcases hl x hx with rfl | rfl
  · simp only [List.mem_cons, List.not_mem_nil, or_false] at hc
    subst hc; decide
  · simp only [List.mem_cons, List.not_mem_nil, or_false] at hc
    rcases hc with rfl | rfl <;> decide

theorem visible_trivia {errLen : Text → Nat} (he : ErrLenOk errLen) {s : Text} {t : Token} (ht : t ∈ lex errLen s)
    (hk : t.kind.isTrivia = true) : visible t.text = [] := by
  obtain ⟨h1, h2⟩ := C13_trivia_shape he s ht
  unfold SyntaxKind.isTrivia at hk
  rcases Bool.or_eq_true_iff.1 hk with hk | hk
  · refine List.filter_eq_nil_iff.2 (fun c hc => ?_)
    rcases h1 (by simpa using hk) c hc with rfl | rfl <;> decide
  · exact visible_breaks (h2 (by simpa using hk))

/-- What is visible of a text is what is visible of its tokens other than whitespace and line breaks. -/
theorem visible_leaves {ls : List (SyntaxKind × Text)} {ts : List Token} (h : Covers ls ts)
    (ht : ∀ t ∈ ts, t.kind.isTrivia = true → visible t.text = []) :
    visible (ls.map (·.2)).flatten = visible ((ls.filter (fun l => !l.1.isTrivia)).map (·.2)).flatten := by
  induction h with
  | nil => rfl
  | same t _ ih =>
    have ih := ih (fun u hu => ht u (List.mem_cons_of_mem _ hu))
    rw [List.map_cons, List.flatten_cons, visible_append, ih]
    cases hk : t.kind.isTrivia with
    | true => rw [List.filter_cons_of_neg (by simp [hk]), ht t List.mem_cons_self hk, List.nil_append]
    | false => rw [List.filter_cons_of_pos (by simp [hk]), List.map_cons, List.flatten_cons, visible_append]
  | word t _ _ ih =>
    have ih := ih (fun u hu => ht u (List.mem_cons_of_mem _ hu))
    rw [List.filter_cons_of_pos rfl, List.map_cons, List.flatten_cons, List.map_cons, List.flatten_cons,
      visible_append, visible_append, ih]
  | merged t u _ _ _ ih =>
    have ih := ih (fun v hv => ht v (List.mem_cons_of_mem _ (List.mem_cons_of_mem _ hv)))
    rw [List.filter_cons_of_pos rfl, List.map_cons, List.flatten_cons, List.map_cons, List.flatten_cons,
      visible_append (t.text ++ u.text), ih]
    exact (visible_append (t.text ++ u.text) _).symm

theorem visible_bare {errLen : Text → Nat} (he : ErrLenOk errLen) {s : Text} {p : Parse}
    (h : parse errLen s = .ok p) : visible s = visible ((leavesOf (bare p.tree)).map (·.2)).flatten := by
  obtain ⟨trees, h1, h2⟩ := C05_root_covers errLen s p h
  have h3 := C01_parse_lossless he s p h
  rw [leaves_bare, ← visible_leaves (ts := lex errLen s) (by rw [h1]; exact h2)
    (fun t ht hk => visible_trivia he ht hk), h3]

/-- Two texts with the same structure differ in whitespace only, whether they have parse errors or not. -/
theorem C94_same_structure_same_text {errLen : Text → Nat} (he : ErrLenOk errLen) {s t : Text} {p : Parse}
    (hp : parse errLen s = .ok p) (h : SameParse (parse errLen s) (parse errLen t)) : visible t = visible s := by
  cases hq : parse errLen t with
  | error e => rw [hp, hq] at h; exact h.elim
  | ok q =>
    rw [hp, hq] at h
    rw [visible_bare he hq, visible_bare he hp, h.1]

/-- C94: processing a file as in C92, that is with any of `twig-block-line-breaks`, `indentation`,
`whitespace-between-line-breaks` and the rules without suggestions, changes nothing but spaces, tabs and line
breaks: what is parsed, what is written and what is in the file afterwards has the characters of the original,
none lost, none added, none moved. -/
theorem C94_fix_changes_whitespace_only {errLen : Text → Nat} (he : ErrLenOk errLen) (hlo : ErrLineLocal errLen)
    (hE : ErrBeforeBreak errLen) (config : Config) (active : List RuleName) (hactive : ∀ n ∈ active, n ∈ rowRules)
    {sort : List (RuleName × Suggestion) → List (RuleName × Suggestion)} (hsort : SortsRanges sort)
    (flags : Flags) (writeOk : Bool) {original : Text} {p : Parse} (hp : parse errLen original = .ok p)
    (herr : p.errors = []) (hb : BlocksClear original) (hcr : NoCr p.tree) (hraw : ¬ RawBlock p.tree) :
    let run := runAnalysis (realEngine errLen config active sort) flags writeOk original
    (∀ t ∈ run.parsed ++ run.writes, visible t = visible original) ∧
      visible (contentAfter original run) = visible original := by
  intro run
  have hall : ∀ t ∈ run.parsed ++ run.writes, visible t = visible original := fun t ht =>
    C94_same_structure_same_text he hp ((C92_line_fix_keeps_structure he hlo hE config active hactive hsort flags
      writeOk hp herr hb hcr hraw).2 t ht)
  refine ⟨hall, ?_⟩
  unfold contentAfter
  cases hw : run.writes.getLast? with
  | none => rfl
  | some t => exact hall t (List.mem_append_right _ (List.mem_of_getLast? hw))

/-- C94: the same for `line-ending` with the rules for layout, as in C84. -/
theorem C94_line_endings_change_whitespace_only {errLen : Text → Nat} (he : ErrLenOk errLen)
    (hl : ErrLineLocal errLen) (hb : ErrBreakLocal errLen) (config : Config)
    (hc : config.lineEnding = .unixLF) (active : List RuleName) (hactive : ∀ n ∈ active, n ∈ lineRules)
    {sort : List (RuleName × Suggestion) → List (RuleName × Suggestion)} (hsort : SortsRanges sort)
    (flags : Flags) (writeOk : Bool) {original : Text} {p : Parse} (hp : parse errLen original = .ok p)
    (herr : p.errors = []) (hcon : Convertible original) :
    let run := runAnalysis (realEngine errLen config active sort) flags writeOk original
    (∀ t ∈ run.parsed ++ run.writes, visible t = visible original) ∧
      visible (contentAfter original run) = visible original := by
  intro run
  have hall : ∀ t ∈ run.parsed ++ run.writes, visible t = visible original := fun t ht =>
    C94_same_structure_same_text he hp ((C84_line_endings_keep_structure he hl hb config hc active hactive hsort flags
      writeOk hp herr hcon).2 t ht)
  refine ⟨hall, ?_⟩
  unfold contentAfter
  cases hw : run.writes.getLast? with
  | none => rfl
  | some t => exact hall t (List.mem_append_right _ (List.mem_of_getLast? hw))

/-- Two texts with a parse error and the same structure. -/
example : ErrLenOk (fun _ => 1) ∧
    Returns (parse (fun _ => 1) "<p>\n {{ a b".toList) (fun p => !p.errors.isEmpty &&
      match parse (fun _ => 1) "<p>{{  a b".toList with
      | .ok q => (Tree.node .ROOT (bare p.tree)).eqb (.node .ROOT (bare q.tree)) &&
          p.errors.map ParseError.says == q.errors.map ParseError.says
      | .error _ => false) = true ∧
    visible "<p>\n {{ a b".toList = "<p>{{ab".toList ∧ visible "<p>{{  a b".toList = "<p>{{ab".toList :=
  ⟨errLenOk_one, by decide +kernel, by decide +kernel, by decide +kernel⟩

/-- A file that gets line breaks and indentation. -/
example :
    let s := "<p>{% block a %}{% endblock %}\n b</p>".toList
    let run := runAnalysis (realEngine (fun _ => 1) defaultConfig rowRules insertionSort) ⟨true, false⟩ true s
    SortsRanges insertionSort ∧ ErrLineLocal (fun _ => 1) ∧ ErrBeforeBreak (fun _ => 1) ∧ BlocksClear s ∧
    Returns (parse (fun _ => 1) s) (fun r => r.errors.isEmpty && noRaw r.tree &&
      r.tree.leaves.all (fun l => l.2.getLast? != some '\r')) = true ∧
    contentAfter s run = "<p>\n    {% block a %}{% endblock %}\n\n    b</p>".toList ∧
    visible s = "<p>{%blocka%}{%endblock%}b</p>".toList :=
  ⟨insertionSort_sorts, fun _ _ _ h _ _ _ => ⟨List.length_pos_iff.2 h, fun _ => rfl⟩,
    fun _ _ _ _ _ _ _ _ _ => rfl,
    blocksClear_check (by decide +kernel), by decide +kernel, by decide +kernel, by decide +kernel⟩

/-- A file that loses its CRs and a blank. -/
example :
    let s := "<p>\r\n  \r\n\r\n<b></b>\r\n\n</p>".toList
    let run := runAnalysis (realEngine (fun _ => 1) defaultConfig lineRules insertionSort) ⟨true, false⟩ true s
    SortsRanges insertionSort ∧ defaultConfig.lineEnding = .unixLF ∧ ErrLineLocal (fun _ => 1) ∧
    ErrBreakLocal (fun _ => 1) ∧ Convertible s ∧
    Returns (parse (fun _ => 1) s) (fun r => r.errors.isEmpty) = true ∧
    contentAfter s run = "<p>\n\n\n    <b></b>\n\n</p>".toList ∧ visible s = "<p><b></b></p>".toList :=
  ⟨insertionSort_sorts, rfl, errLineLocal_one, fun _ _ _ _ _ _ => rfl,
    convertibleGo_sound (by decide), by decide +kernel, by decide +kernel, by decide +kernel⟩

end Ludtwig.Rules
