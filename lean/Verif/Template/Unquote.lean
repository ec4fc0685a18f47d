import Verif.Template.Spec

/-!
# Trees up to quotes (specification for C76)
-/

namespace Ludtwig.Template

/-- A quote. -/
def isQuoteLeaf : Tree → Bool
  | .token k _ => k == T!"\"" || k == T!"'"
  | .node _ _ => false

mutual
/-- The tree without the quotes around its strings. -/
def unquote : Tree → Tree
  | .token k s => .token k s
  | .node k cs =>
    .node k (if k = .TWIG_LITERAL_STRING ∨ k = .HTML_STRING then (unquoteAll cs).filter (fun x => !isQuoteLeaf x) else unquoteAll cs)
/-- The trees without the quotes around their strings. -/
def unquoteAll : List Tree → List Tree
  | [] => []
  | x :: xs => unquote x :: unquoteAll xs
end

/-! ## Lemmas -/

theorem unquoteAll_nil : unquoteAll [] = [] := by simp [unquoteAll]

theorem unquoteAll_cons {x : Tree} {xs : List Tree} : unquoteAll (x :: xs) = unquote x :: unquoteAll xs := by simp [unquoteAll]

theorem unquoteAll_append {xs ys : List Tree} : unquoteAll (xs ++ ys) = unquoteAll xs ++ unquoteAll ys := by
  induction xs with
  | nil => simp [unquoteAll]
  | cons x xs ih => simp [unquoteAll, ih]

theorem unquote_node {k : SyntaxKind} {cs : List Tree} : unquote (.node k cs) =
    .node k (if k = .TWIG_LITERAL_STRING ∨ k = .HTML_STRING then (unquoteAll cs).filter (fun x => !isQuoteLeaf x) else unquoteAll cs) := by
  simp [unquote]

theorem unquote_token {k : SyntaxKind} {s : Text} : unquote (.token k s) = .token k s := by simp [unquote]

end Ludtwig.Template
