import Verif.Rules.LayoutFix
import Verif.Rules.LineEndingProps

/-!
# What fixing makes of files without parse errors: property C74

The claim: if a file has no parse error and `--fix` is run with one rule, the file has no parse error
afterwards either. It holds for the rules of C70 and is false for ten of the others.
-/

namespace Ludtwig.Rules

open Cli Lexer Layout

/-! ## Specification -/

/-- The file parses without an error. -/
def ErrorFree (errLen : Text → Nat) (s : Text) : Prop := ∃ p, parse errLen s = .ok p ∧ p.errors = []

/-- The content of a file after `ludtwig --fix` with the given active rules. -/
def afterFix (errLen : Text → Nat) (config : Config)
    (sort : List (RuleName × Suggestion) → List (RuleName × Suggestion)) (active : List RuleName)
    (s : Text) : Text :=
  contentAfter s (processFile (realEngine errLen config active sort) ⟨true, false⟩ true (some s))

/-- Fixing with the rule can put a parse error into a file without one. -/
def CanBreak (rule : RuleName) : Prop :=
  ∃ config s, ErrorFree (fun _ => 1) s ∧
    ¬ ErrorFree (fun _ => 1) (afterFix (fun _ => 1) config insertionSort [rule] s)

/-! ## Rules that keep files without errors -/

/-- C74 for the rules of C70 (any set of them): a file without parse errors has none after `--fix`. -/
theorem C74_layout_rules {errLen : Text → Nat} (he : ErrLenOk errLen)
    (hl : ErrLineLocal errLen) (config : Config) (active : List RuleName)
    (hactive : ∀ n ∈ active, n ∈ layoutRules)
    {sort : List (RuleName × Suggestion) → List (RuleName × Suggestion)} (hsort : SortsRanges sort)
    {s : Text} (hs : ErrorFree errLen s) : ErrorFree errLen (afterFix errLen config sort active s) := by
  obtain ⟨p, hp, herr⟩ := hs
  obtain ⟨-, h⟩ := C70_layout_fix_keeps_structure he hl config active hactive hsort ⟨true, false⟩ true hp
    herr
  unfold afterFix contentAfter processFile
  dsimp only
  generalize runAnalysis (realEngine errLen config active sort) ⟨true, false⟩ true s = run at h
  cases hw : run.writes.getLast? with
  | none => exact ⟨p, hp, herr⟩
  | some t =>
    have := h t (by simp [List.mem_of_getLast? hw])
    exact sameParse_ok hp herr this

example : Returns (parse (fun _ => 1) "<b>\n{{ a }}  \n</b>".toList) (fun p => p.errors.isEmpty) = true ∧
    afterFix (fun _ => 1) defaultConfig insertionSort ["indentation".toList]
      "<b>\n{{ a }}  \n</b>".toList = "<b>\n    {{ a }}  \n</b>".toList := by
  decide +kernel

/-! ## Rules that do not -/

/-- The computation behind a counterexample. -/
def fixBreaks (config : Config) (rule : RuleName) (s s' : Text) : Bool :=
  Returns (parse (fun _ => 1) s) (fun p => p.errors.isEmpty) &&
    afterFix (fun _ => 1) config insertionSort [rule] s == s' &&
    Returns (parse (fun _ => 1) s') (fun p => !p.errors.isEmpty)

theorem canBreak {config : Config} {rule : RuleName} {s s' : Text} (h : fixBreaks config rule s s' = true) :
    CanBreak rule := by
  unfold fixBreaks Returns at h
  simp only [Bool.and_eq_true, beq_iff_eq] at h
  obtain ⟨⟨h1, rfl⟩, h2⟩ := h
  refine ⟨config, s, ?_, ?_⟩
  · split at h1
    · rename_i p hp; exact ⟨p, hp, List.isEmpty_iff.1 h1⟩
    · cases h1
  · rintro ⟨p, hp, he⟩
    rw [hp] at h2
    simp [he] at h2

/-- A named `endblock` keeps the old name. -/
theorem breaks_blockName : fixBreaks defaultConfig "twig-block-name-snake-case".toList
    "{% block aB %}{% endblock aB %}".toList "{% block a_b %}{% endblock aB %}".toList = true := by
  decide +kernel
/-- The suggested name is a keyword. -/
theorem breaks_blockKeyword : fixBreaks defaultConfig "twig-block-name-snake-case".toList
    "{% block If %}{% endblock %}".toList "{% block if %}{% endblock %}".toList = true := by
  decide +kernel
/-- A minus sign is put behind the `#`. -/
theorem breaks_attributeName : fixBreaks defaultConfig "html-attribute-name-kebab-case".toList
    "<p #Ab></p>".toList "<p #-ab></p>".toList = true := by
  decide +kernel

theorem breaks_and : fixBreaks defaultConfig "twig-logic-and".toList
    "{{ a &&b }}".toList "{{ a andb }}".toList = true := by
  decide +kernel

theorem breaks_or : fixBreaks defaultConfig "twig-logic-or".toList
    "{{ a ||b }}".toList "{{ a orb }}".toList = true := by
  decide +kernel

theorem breaks_sameAs : fixBreaks defaultConfig "twig-use-is-same-as".toList
    "{{ a===b }}".toList "{{ ais same as(b) }}".toList = true := by
  decide +kernel

theorem breaks_notSameAs : fixBreaks defaultConfig "twig-use-is-not-same-as".toList
    "{{ a!==b }}".toList "{{ ais not same as(b) }}".toList = true := by
  decide +kernel
/-- `twig:a` is the name of a component. -/
theorem breaks_hashKey : fixBreaks defaultConfig "twig-hash-key-no-quotes".toList
    "{{ {'twig':a} }}".toList "{{ {twig:a} }}".toList = true := by
  decide +kernel
/-- `sw_extends` takes no expressions. -/
theorem breaks_extends : fixBreaks defaultConfig "twig-prefer-shopware-extends".toList
    "{% extends a ? 'b' : 'c' %}".toList "{% sw_extends a ? 'b' : 'c' %}".toList = true := by
  decide +kernel
/-- `<` is text before `{%`, but not before a line break. -/
theorem breaks_lineBreaks : fixBreaks defaultConfig "twig-block-line-breaks".toList
    "<b></b><{% block a %}{% endblock %}".toList "<b></b><\n{% block a %}{% endblock %}".toList = true := by
  decide +kernel
/-- `not in` is no operator before CR. -/
theorem breaks_lineEnding : fixBreaks { defaultConfig with lineEnding := .windowsCRLF } "line-ending".toList
    "{{ a not in\nb }}".toList "{{ a not in\r\nb }}".toList = true := by
  decide +kernel

/-- The other way round, in the default style: `not in` is two words before CR and one operator before
LF. -/
theorem breaks_lineEnding_unix : fixBreaks defaultConfig "line-ending".toList
    "<p not in\r\n></p>".toList "<p not in\n></p>".toList = true := by
  decide +kernel

/-- A second list of arguments follows. -/
theorem breaks_escapeJs : fixBreaks defaultConfig "twig-json-encode-escape-js".toList
    "{{ a|json_encode|raw() }}".toList "{{ a|json_encode|escape('js')() }}".toList = true := by
  decide +kernel

/-- C74, counterexamples: fixing with one of these rules can break a file. -/
theorem C74_can_break : ∀ rule ∈ ["line-ending".toList, "twig-block-line-breaks".toList,
    "twig-block-name-snake-case".toList, "html-attribute-name-kebab-case".toList, "twig-logic-and".toList,
    "twig-logic-or".toList, "twig-hash-key-no-quotes".toList, "twig-prefer-shopware-extends".toList,
    "twig-use-is-same-as".toList, "twig-use-is-not-same-as".toList, "twig-json-encode-escape-js".toList], CanBreak rule := by
  intro rule h
  simp only [List.mem_cons, List.not_mem_nil, or_false] at h
  rcases h with rfl | rfl | rfl | rfl | rfl | rfl | rfl | rfl | rfl | rfl | rfl
  · exact canBreak breaks_lineEnding
  · exact canBreak breaks_lineBreaks
  · exact canBreak breaks_blockName
  · exact canBreak breaks_attributeName
  · exact canBreak breaks_and
  · exact canBreak breaks_or
  · exact canBreak breaks_hashKey
  · exact canBreak breaks_extends
  · exact canBreak breaks_sameAs
  · exact canBreak breaks_notSameAs
  · exact canBreak breaks_escapeJs

end Ludtwig.Rules
