import Verif.Template.Props
import Verif.Parser.ParseProps

/-!
# Templates (examples for C73)
-/

namespace Ludtwig.Template

open Lexer

/-- A token of ASCII characters at an offset. -/
def tk (k : SyntaxKind) (text : String) (n : Nat) : Token := ⟨k, text.toList, ⟨n, n + text.length⟩⟩

/-! An element with a quoted value with a variable in it, a name of two tokens, an `if` with `not`, and
text with a `<`. -/

def sample : Text := "<p class=\"a{{ b + 1 * d }}\" :x>\n  {% if not c %}x < 1{% endif %}</p>".toList

namespace Sample

def l1 := tk T!"<" "<" 0
def p1 := tk T!"word" "p" 1
def cls := tk T!"word" "class" 3
def eq1 := tk T!"=" "=" 8
def q1 := tk T!"\"" "\"" 9
def a := tk T!"word" "a" 10
def o1 := tk T!"{{" "{{" 11
def b := tk T!"word" "b" 14
def plus := tk T!"+" "+" 16
def one := tk T!"number" "1" 18
def star := tk T!"*" "*" 20
def d := tk T!"word" "d" 22
def c1 := tk T!"}}" "}}" 24
def q2 := tk T!"\"" "\"" 26
def colon := tk T!":" ":" 28
def x := tk T!"word" "x" 29
def g1 := tk T!">" ">" 30
def o2 := tk T!"{%" "{%" 34
def if_ := tk T!"if" "if" 37
def not_ := tk T!"not" "not" 40
def c := tk T!"word" "c" 44
def c2 := tk T!"%}" "%}" 46
def x2 := tk T!"word" "x" 48
def l2 := tk T!"<" "<" 50
def one2 := tk T!"number" "1" 52
def o3 := tk T!"{%" "{%" 53
def endif_ := tk T!"endif" "endif" 56
def c3 := tk T!"%}" "%}" 62
def l3 := tk T!"</" "</" 64
def p2 := tk T!"word" "p" 66
def g2 := tk T!">" ">" 67

theorem significant_eq : (lex (fun _ => 1) sample).filter (fun t => !t.kind.isTrivia) =
    [l1, p1, cls, eq1, q1, a, o1, b, plus, one, star, d, c1, q2, colon, x, g1, o2, if_, not_, c, c2, x2, l2, one2, o3,
      endif_, c3, l3, p2, g2] := by decide +kernel

/-- The tree without trivia. -/
def tree : Tree :=
  .node .ROOT [.node .HTML_TAG [
    .node .HTML_STARTING_TAG [l1.tree, p1.tree, .node .HTML_ATTRIBUTE_LIST [
        .node .HTML_ATTRIBUTE [cls.tree, eq1.tree, .node .HTML_STRING [q1.tree, .node .HTML_STRING_INNER [a.tree,
          .node .TWIG_VAR [o1.tree, .node .TWIG_EXPRESSION [.node .TWIG_BINARY_EXPRESSION [
            .node .TWIG_EXPRESSION [.node .TWIG_LITERAL_NAME [b.tree]], plus.tree,
            .node .TWIG_EXPRESSION [.node .TWIG_BINARY_EXPRESSION [
              .node .TWIG_EXPRESSION [.node .TWIG_LITERAL_NUMBER [one.tree]], star.tree,
              .node .TWIG_EXPRESSION [.node .TWIG_LITERAL_NAME [d.tree]]]]]], c1.tree]], q2.tree]],
        .node .HTML_ATTRIBUTE [.token T!"word" ":x".toList]], g1.tree],
    .node .BODY [.node .TWIG_IF [
      .node .TWIG_IF_BLOCK [o2.tree, if_.tree, .node .TWIG_EXPRESSION [.node .TWIG_UNARY_EXPRESSION [not_.tree,
        .node .TWIG_EXPRESSION [.node .TWIG_LITERAL_NAME [c.tree]]]], c2.tree],
      .node .BODY [.node .HTML_TEXT [x2.tree, l2.tree, one2.tree]],
      .node .TWIG_ENDIF_BLOCK [o3.tree, endif_.tree, c3.tree]]],
    .node .HTML_ENDING_TAG [l3.tree, p2.tree, g2.tree]]]

variable {B : Nat → Prop}

/-- A name as an operand. -/
theorem nameOperand {t : Token} (h : IsVariable t) : T B (.operand .all) [t] [nameTree t] := .postfixed (.name h) .done

/-- One operand. -/
theorem single {e : Tail} {u : List Token} {y : Tree} (i : Bool) (h : T B (.operand e) u [y]) :
    T B (.terms i e) u [.node .TWIG_EXPRESSION [y]] := by
  have := T.terms (blank := B) (tight := i) (first := ⟨e, u, y⟩) (rest := []) (g := .operand u y) h (by simp) (by simp) (by simp) trivial
    (.operand _ _) rfl
  simpa [flatOf, Flat.tokens, restTokens, lastTail, Grouping.expr] using this

theorem variables : IsVariable b ∧ IsVariable d ∧ IsVariable c := by
  refine ⟨⟨⟨?_, twigName_iff.2 ?_⟩, ?_⟩, ⟨⟨?_, twigName_iff.2 ?_⟩, ?_⟩, ⟨⟨?_, twigName_iff.2 ?_⟩, ?_⟩⟩ <;> decide +kernel

theorem sum : T B .expr [b, plus, one, star, d] [.node .TWIG_EXPRESSION [.node .TWIG_BINARY_EXPRESSION [
    .node .TWIG_EXPRESSION [.node .TWIG_LITERAL_NAME [b.tree]], plus.tree,
    .node .TWIG_EXPRESSION [.node .TWIG_BINARY_EXPRESSION [
      .node .TWIG_EXPRESSION [.node .TWIG_LITERAL_NUMBER [one.tree]], star.tree,
      .node .TWIG_EXPRESSION [.node .TWIG_LITERAL_NAME [d.tree]]]]]]] := by
  refine .anyExpr (.expr (e := .all) ?_)
  have := T.terms (blank := B) (tight := false) (first := ⟨.all, [b], nameTree b⟩)
    (rest := [(plus, ⟨.all, [one], .node .TWIG_LITERAL_NUMBER [one.tree]⟩), (star, ⟨.all, [d], nameTree d⟩)])
    (g := .binary (.operand [b] (nameTree b)) plus (.binary (.operand [one] (.node .TWIG_LITERAL_NUMBER [one.tree])) star
      (.operand [d] (nameTree d))))
    (nameOperand variables.1) ?_ ?_ ?_ ?_ ?_ rfl
  · exact this
  · intro r hr
    simp only [List.mem_cons, List.not_mem_nil, or_false] at hr
    rcases hr with rfl | rfl
    · exact .postfixed (.number rfl) .done
    · exact nameOperand variables.2.1
  · decide +kernel
  · simp
  · exact ⟨trivial, trivial, trivial⟩
  · refine .binary (.operand _ _) (.binary (.operand _ _) (.operand _ _) (by decide) (by simp [Grouping.top?]) (by simp [Grouping.top?])) (by decide)
      (by simp [Grouping.top?]) ?_
    intro k hk
    cases hk
    exact ⟨_, _, _, _, rfl, rfl, .inl (by decide)⟩

/-- The file is a template with this tree. -/
theorem isTemplate : IsTemplate (lex (fun _ => 1) sample) tree := by
  unfold IsTemplate
  rw [significant_eq]
  refine ⟨_, ?_, rfl⟩
  refine .bodyHtml (u := [l1, p1, cls, eq1, q1, a, o1, b, plus, one, star, d, c1, q2, colon, x, g1, o2, if_, not_, c, c2, x2, l2, one2, o3,
      endif_, c3, l3, p2, g2]) (w := []) ?_ .bodyEnd
  refine .element (t := p1) (a := [cls, eq1, q1, a, o1, b, plus, one, star, d, c1, q2, colon, x]) (b := [o2, if_, not_, c, c2, x2, l2, one2, o3, endif_, c3])
    rfl (.inr ⟨?_, elementName_iff.2 ?_⟩) rfl ?_ ?_ ?_ rfl ?_ rfl rfl rfl rfl
  · decide +kernel
  · decide +kernel
  · unfold IsVoid; decide +kernel
  · unfold IsRaw; decide +kernel
  · refine .bodyAttr (u := [cls, eq1, q1, a, o1, b, plus, one, star, d, c1, q2]) (w := [colon, x]) ?_ (.bodyAttr (u := [colon, x]) (w := []) ?_ .bodyEnd)
    · refine .attrValued (u := [cls]) (.plainName ?_ (attributeName_iff.2 ?_)) rfl (.doubleQuoted (u := [a, o1, b, plus, one, star, d, c1]) rfl (.partToken ?_ ?_) rfl)
      · decide +kernel
      · decide +kernel
      · show _ ∉ _
        decide +kernel
      · exact .partVar (u := [o1, b, plus, one, star, d, c1]) (w := []) (.var (u := [b, plus, one, star, d]) (by decide) sum (by decide)) .noPart
    · exact .attrPlain (.colonName rfl (by decide +kernel) (attributeName_iff.2 (by decide +kernel)) rfl)
  · refine .bodyTag (u := [o2, if_, not_, c, c2, x2, l2, one2, o3, endif_, c3]) (w := []) ?_ .bodyEnd
    refine .ifTag (u := [not_, c]) (b := [x2, l2, one2]) (w := []) (by decide) rfl ?_ (by decide) ?_ .noBranch (by decide) rfl (by decide)
    · exact .anyExpr (.expr (e := .loose) (single false (.not (e := .all) rfl (single true (nameOperand variables.2.2)))))
    · refine .bodyText (t := x2) (ts := [l2, one2]) (w := []) (by decide) ⟨.inl (by decide +kernel), .inr ⟨rfl, .inl ?_⟩, .inl (by decide +kernel), trivial⟩
        (fun _ _ h => (by cases h)) .bodyEnd
      unfold BlankAt
      decide +kernel

end Sample

/-- The hypothesis of C73 for a file, and what follows from it. -/
example : ∃ t, parse (fun _ => 1) sample = .ok ⟨t, []⟩ ∧ t.strip = [Sample.tree] :=
  C73_template_accepted (fun s hs => ⟨Nat.le_refl _, List.length_pos_iff.2 hs⟩) sample Sample.isTemplate

/-! Why the grammar excludes these: the parser reports errors for a `<` before a line break, for `<` and `>` in
quoted values, and for components in quoted values and in raw text. -/

example : Returns (parse (fun _ => 1) "a <\nb".toList) (fun r => !r.errors.isEmpty) = true := by decide +kernel
example : Returns (parse (fun _ => 1) "<p a=\"x>y\">b</p>".toList) (fun r => !r.errors.isEmpty) = true := by decide +kernel
example : Returns (parse (fun _ => 1) "<p a=\"x<y\">b</p>".toList) (fun r => !r.errors.isEmpty) = true := by decide +kernel
example : Returns (parse (fun _ => 1) "<p a=\"{% component A %}b{% endcomponent %}\"></p>".toList) (fun r => !r.errors.isEmpty) = true := by
  decide +kernel
example : Returns (parse (fun _ => 1) "<script>{% component A %}b{% endcomponent %}</script>".toList) (fun r => !r.errors.isEmpty) = true := by
  decide +kernel

end Ludtwig.Template
