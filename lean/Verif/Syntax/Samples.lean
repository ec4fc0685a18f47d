import Verif.Parser.Parse

/-!
# Sample trees

Comparison of trees by computation, and trees of source texts written out. Only used for examples and
witnesses.
-/

namespace Ludtwig

mutual
/-- Equality of trees as a computation. -/
def Tree.eqb : Tree → Tree → Bool
  | .token k t, .token k' t' => decide (k = k') && decide (t = t')
  | .node k cs, .node k' cs' => decide (k = k') && Tree.eqbs cs cs'
  | _, _ => false
/-- Equality of lists of trees as a computation. -/
def Tree.eqbs : List Tree → List Tree → Bool
  | [], [] => true
  | t :: ts, t' :: ts' => t.eqb t' && Tree.eqbs ts ts'
  | _, _ => false
end

mutual
theorem Tree.eq_of_eqb : ∀ (a b : Tree), a.eqb b = true → a = b
  | .token k t, .token k' t', h => by
    simp only [Tree.eqb, Bool.and_eq_true, decide_eq_true_eq] at h
    rw [h.1, h.2]
  | .node k cs, .node k' cs', h => by
    simp only [Tree.eqb, Bool.and_eq_true, decide_eq_true_eq] at h
    rw [h.1, Tree.eq_of_eqbs cs cs' h.2]
  | .token _ _, .node _ _, h => by simp [Tree.eqb] at h
  | .node _ _, .token _ _, h => by simp [Tree.eqb] at h
theorem Tree.eq_of_eqbs : ∀ (as bs : List Tree), Tree.eqbs as bs = true → as = bs
  | [], [], _ => rfl
  | a :: as, b :: bs, h => by
    simp only [Tree.eqbs, Bool.and_eq_true] at h
    rw [Tree.eq_of_eqb a b h.1, Tree.eq_of_eqbs as bs h.2]
  | [], _ :: _, h => by simp [Tree.eqbs] at h
  | _ :: _, [], h => by simp [Tree.eqbs] at h
end

/-- A source text is parsed to a tree, as a computation. -/
def parsesTo (s : Text) (t : Tree) : Bool :=
  match parse (fun _ => 1) s with
  | .ok r => r.tree.eqb t
  | .error _ => false

theorem parse_of_parsesTo {s : Text} {t : Tree} (h : parsesTo s t = true) :
    ∃ r, parse (fun _ => 1) s = .ok r ∧ r.tree = t := by
  unfold parsesTo at h
  split at h
  · rename_i r hr
    exact ⟨r, hr, Tree.eq_of_eqb _ _ h⟩
  · cases h

/-- The tree of `{{- a ~}} {%~ set b = 1 -%}`. -/
def wsSample : Tree :=
  .node .ROOT [
    .node .TWIG_VAR [
      .token .TK_OPEN_CURLY_CURLY_MINUS ['{', '{', '-'],
      .node .TWIG_EXPRESSION [
        .node .TWIG_LITERAL_NAME [
          .token .TK_WHITESPACE [' '],
          .token .TK_WORD ['a']]],
      .token .TK_WHITESPACE [' '],
      .token .TK_TILDE_CLOSE_CURLY_CURLY ['~', '}', '}']],
    .node .TWIG_SET [
      .node .TWIG_SET_BLOCK [
        .token .TK_WHITESPACE [' '],
        .token .TK_CURLY_PERCENT_TILDE ['{', '%', '~'],
        .token .TK_WHITESPACE [' '],
        .token .TK_SET ['s', 'e', 't'],
        .node .TWIG_ASSIGNMENT [
          .node .TWIG_LITERAL_NAME [
            .token .TK_WHITESPACE [' '],
            .token .TK_WORD ['b']],
          .token .TK_WHITESPACE [' '],
          .token .TK_EQUAL ['='],
          .node .TWIG_EXPRESSION [
            .node .TWIG_LITERAL_NUMBER [
              .token .TK_WHITESPACE [' '],
              .token .TK_NUMBER ['1']]]],
        .token .TK_WHITESPACE [' '],
        .token .TK_MINUS_PERCENT_CURLY ['-', '%', '}']]]]

theorem wsSample_parsed : parsesTo "{{- a ~}} {%~ set b = 1 -%}".toList wsSample = true := by
  decide +kernel

end Ludtwig
