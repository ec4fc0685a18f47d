import Verif.Template.Unquote
import Verif.Template.Cells
import Verif.Rules.RunSpec

/-!
# Changing the quotes of a tree (proof device for C77)

`turn` changes the quotes of a tree without trivia the way one round of fixing does. After two rounds
nothing is left to change.
-/

namespace Ludtwig.Template

open Cli Rules

/-- The quotes that the rules want for strings of Twig and for attribute values; `none` if the rule is
switched off. -/
structure Wish where
  twig : Option Char
  html : Option Char

/-- The rule names of a directive. -/
def directive : Option Tree → Option (List RuleName)
  | some (.node .LUDTWIG_DIRECTIVE_IGNORE cs) => some (directiveNames cs)
  | _ => none

/-- Without the rules that a directive switches off. -/
def Wish.without (w : Wish) : Option (List RuleName) → Wish
  | none => w
  | some [] => ⟨none, none⟩
  | some ns => ⟨if ns.contains "twig-string-quotation".toList then none else w.twig,
      if ns.contains "html-string-quotation".toList then none else w.html⟩

/-- What is wanted inside of a node behind a sibling. -/
def Wish.at (w : Wish) (prev : Option Tree) (k : SyntaxKind) : Wish :=
  if k = .ERROR then ⟨none, none⟩ else w.without (directive prev)

/-- What is wanted for a kind of strings. -/
def Wish.of (w : Wish) (k : SyntaxKind) : Option Char :=
  if k = .TWIG_LITERAL_STRING then w.twig else if k = .HTML_STRING then w.html else none

/-- A quote. -/
def quoteLeaf (q : Char) : Tree := .token (quoteKind q) [q]

/-- The string has these quotes. -/
def quotedBy (q : Char) (cs : List Tree) : Bool := (cs.filter isQuoteLeaf).map (·.text) == [[q], [q]]

/-- The part of a string has interpolations. -/
def hasParts : Tree → Bool
  | .token _ _ => false
  | .node _ ds => ds.any (nodeOf .TWIG_LITERAL_STRING_INTERPOLATION)

/-- What is inside of the quotes. -/
def inside (cs : List Tree) : Text := ((cs.filter (fun x => !isQuoteLeaf x)).map (·.text)).flatten

/-- The new quote of a string. -/
def want (w : Wish) (k : SyntaxKind) (cs : List Tree) : Option Char :=
  match w.of k with
  | none => none
  | some q =>
    if quotedBy q cs = true ∨ (k = .TWIG_LITERAL_STRING ∧ q = '\'' ∧ cs.any hasParts = true) ∨ q ∈ inside cs then none
    else some q

/-- The parts of a string with new quotes. -/
def requote (q : Option Char) (cs : List Tree) : List Tree :=
  match q with
  | none => cs
  | some q => quoteLeaf q :: (cs.filter (fun x => !isQuoteLeaf x) ++ [quoteLeaf q])

mutual
/-- The tree with new quotes, behind a sibling. -/
def turn (w : Wish) (prev : Option Tree) : Tree → Tree
  | .token k s => .token k s
  | .node k cs => .node k (requote (want (w.at prev k) k cs) (turnAll (w.at prev k) none cs))
/-- The trees with new quotes. -/
def turnAll (w : Wish) (prev : Option Tree) : List Tree → List Tree
  | [] => []
  | x :: xs => turn w prev x :: turnAll w (some x) xs
end

mutual
/-- No string of these kinds is changed. -/
def Calm (ks : SyntaxKind → Bool) (w : Wish) (prev : Option Tree) : Tree → Prop
  | .token _ _ => True
  | .node k cs => (ks k = true → want (w.at prev k) k cs = none) ∧ CalmAll ks (w.at prev k) none cs
/-- No string of these kinds is changed. -/
def CalmAll (ks : SyntaxKind → Bool) (w : Wish) (prev : Option Tree) : List Tree → Prop
  | [] => True
  | x :: xs => Calm ks w prev x ∧ CalmAll ks w (some x) xs
end

mutual
/-- Strings only get this quote. -/
def Only (q : Char) (w : Wish) (prev : Option Tree) : Tree → Prop
  | .token _ _ => True
  | .node k cs => (∀ c, want (w.at prev k) k cs = some c → c = q) ∧ OnlyAll q (w.at prev k) none cs
/-- Strings only get this quote. -/
def OnlyAll (q : Char) (w : Wish) (prev : Option Tree) : List Tree → Prop
  | [] => True
  | x :: xs => Only q w prev x ∧ OnlyAll q w (some x) xs
end

mutual
/-- No attribute values. -/
def NoHtml : Tree → Prop
  | .token _ _ => True
  | .node k cs => k ≠ .HTML_STRING ∧ NoHtmlAll cs
/-- No attribute values. -/
def NoHtmlAll : List Tree → Prop
  | [] => True
  | x :: xs => NoHtml x ∧ NoHtmlAll xs
end

/-- The parts of a string: one node, without or with quotes. -/
def StringShape (cs : List Tree) : Prop :=
  ∃ ki is, ki ≠ .LUDTWIG_DIRECTIVE_IGNORE ∧
    (cs = [.node ki is] ∨ ∃ a b, QuoteChar a ∧ QuoteChar b ∧ cs = [quoteLeaf a, .node ki is, quoteLeaf b])

mutual
/-- All strings have their parts, and strings of Twig have no attribute values inside. -/
def Intact : Tree → Prop
  | .token _ _ => True
  | .node k cs => (k = .TWIG_LITERAL_STRING ∨ k = .HTML_STRING → StringShape cs) ∧
      (k = .TWIG_LITERAL_STRING → NoHtmlAll cs) ∧ IntactAll cs
/-- All strings have their parts, and strings of Twig have no attribute values inside. -/
def IntactAll : List Tree → Prop
  | [] => True
  | x :: xs => Intact x ∧ IntactAll xs
end

/-- Only two quotes are wanted. -/
def Wish.Of (t h : Char) (w : Wish) : Prop := (∀ q, w.twig = some q → q = t) ∧ (∀ q, w.html = some q → q = h)

/-! ## Basic facts -/

variable {w : Wish} {prev prev' : Option Tree} {k : SyntaxKind} {cs xs : List Tree} {x : Tree} {q t h : Char} {s : Text} {ks : SyntaxKind → Bool}

theorem turn_token : turn w prev (.token k s) = .token k s := by simp [turn]
theorem turn_node : turn w prev (.node k cs) = .node k (requote (want (w.at prev k) k cs) (turnAll (w.at prev k) none cs)) := by simp [turn]
theorem turnAll_nil : turnAll w prev [] = [] := by simp [turnAll]
theorem turnAll_cons : turnAll w prev (x :: xs) = turn w prev x :: turnAll w (some x) xs := by simp [turnAll]
theorem calm_node : Calm ks w prev (.node k cs) ↔ (ks k = true → want (w.at prev k) k cs = none) ∧ CalmAll ks (w.at prev k) none cs := by
  simp [Calm]
theorem calmAll_nil : CalmAll ks w prev [] := by simp [CalmAll]
theorem calmAll_cons : CalmAll ks w prev (x :: xs) ↔ Calm ks w prev x ∧ CalmAll ks w (some x) xs := by simp [CalmAll]
theorem only_node : Only q w prev (.node k cs) ↔ (∀ c, want (w.at prev k) k cs = some c → c = q) ∧ OnlyAll q (w.at prev k) none cs := by
  simp [Only]
theorem onlyAll_nil : OnlyAll q w prev [] := by simp [OnlyAll]
theorem onlyAll_cons : OnlyAll q w prev (x :: xs) ↔ Only q w prev x ∧ OnlyAll q w (some x) xs := by simp [OnlyAll]

theorem of_other (h1 : k ≠ .TWIG_LITERAL_STRING) (h2 : k ≠ .HTML_STRING) : w.of k = none := by
  unfold Wish.of; rw [if_neg h1, if_neg h2]

theorem want_other (h1 : k ≠ .TWIG_LITERAL_STRING) (h2 : k ≠ .HTML_STRING) : want w k cs = none := by
  unfold want; rw [of_other h1 h2]

theorem want_of (hq : want w k cs = some q) : w.of k = some q := by
  unfold want at hq
  split at hq
  · cases hq
  · rename_i h
    split at hq
    · cases hq
    · cases hq; exact h

theorem quoteKind_leaf (hq : QuoteChar q) : isQuoteLeaf (quoteLeaf q) = true := by
  rcases hq with rfl | rfl <;> decide

theorem turn_isQuote : isQuoteLeaf (turn w prev x) = isQuoteLeaf x := by
  cases x with
  | token => rw [turn_token]
  | node => rw [turn_node]; rfl

theorem turn_nodeOf : nodeOf k (turn w prev x) = nodeOf k x := by
  cases x with
  | token => rw [turn_token]
  | node => rw [turn_node]; rfl

theorem turnAll_nodeOf : (turnAll w prev cs).any (nodeOf k) = cs.any (nodeOf k) := by
  induction cs generalizing prev with
  | nil => rw [turnAll_nil]
  | cons x cs ih => rw [turnAll_cons, List.any_cons, List.any_cons, turn_nodeOf, ih]

theorem requote_nodeOf {c : Option Char} : (requote c cs).any (nodeOf k) = cs.any (nodeOf k) := by
  cases c with
  | none => rfl
  | some q =>
    unfold requote
    dsimp only
    rw [List.any_cons, List.any_append]
    have h1 : nodeOf k (quoteLeaf q) = false := rfl
    rw [List.any_cons, h1, List.any_nil, Bool.false_or, Bool.or_false, Bool.or_false]
    induction cs with
    | nil => rfl
    | cons x cs ih =>
      rw [List.filter_cons]
      cases x with
      | token k' s' =>
        split
        · rw [List.any_cons, List.any_cons, ih]
        · rw [List.any_cons, ih]; rfl
      | node k' cs' => rw [if_pos (by rfl), List.any_cons, List.any_cons, ih]

theorem turn_hasParts : hasParts (turn w prev x) = hasParts x := by
  cases x with
  | token => rw [turn_token]
  | node k cs =>
    rw [turn_node]
    show List.any _ _ = List.any _ _
    rw [requote_nodeOf, turnAll_nodeOf]

theorem turnAll_hasParts : (turnAll w prev cs).any hasParts = cs.any hasParts := by
  induction cs generalizing prev with
  | nil => rw [turnAll_nil]
  | cons x cs ih => rw [turnAll_cons, List.any_cons, List.any_cons, turn_hasParts, ih]

theorem leaf_token (hx : isQuoteLeaf x = true) : ∃ k s, x = .token k s := by
  cases x with
  | token k s => exact ⟨k, s, rfl⟩
  | node => cases hx

theorem turnAll_quotes : (turnAll w prev cs).filter isQuoteLeaf = cs.filter isQuoteLeaf := by
  induction cs generalizing prev with
  | nil => rw [turnAll_nil]
  | cons x cs ih =>
    rw [turnAll_cons, List.filter_cons, List.filter_cons, turn_isQuote, ih]
    split
    · rename_i hx
      obtain ⟨k, s, rfl⟩ := leaf_token hx
      rw [turn_token]
    · rfl

theorem turnAll_quotedBy : quotedBy q (turnAll w prev cs) = quotedBy q cs := by
  unfold quotedBy
  rw [turnAll_quotes]

theorem turnAll_words {ks : List SyntaxKind} : (turnAll w prev cs).filter (tokenOf ks) = cs.filter (tokenOf ks) := by
  induction cs generalizing prev with
  | nil => rw [turnAll_nil]
  | cons x cs ih =>
    rw [turnAll_cons, List.filter_cons, List.filter_cons, ih]
    cases x with
    | token k s => rw [turn_token]
    | node k cs => rw [turn_node]; rfl

theorem turnAll_names : directiveNames (turnAll w prev cs) = directiveNames cs := by
  unfold directiveNames
  induction cs generalizing prev with
  | nil => rw [turnAll_nil]
  | cons x cs ih =>
    rw [turnAll_cons, List.find?_cons, List.find?_cons, turn_nodeOf]
    cases hx : nodeOf .LUDTWIG_DIRECTIVE_RULE_LIST x with
    | false => exact ih
    | true =>
      cases x with
      | token => cases hx
      | node k ws =>
        have hk : k = .LUDTWIG_DIRECTIVE_RULE_LIST := by simpa [nodeOf] using hx
        subst hk
        dsimp only
        rw [turn_node, want_other (by decide) (by decide)]
        dsimp only [requote]
        rw [turnAll_words]

theorem turn_directive : directive (some (turn w prev x)) = directive (some x) := by
  cases x with
  | token => rw [turn_token]
  | node k cs =>
    rw [turn_node]
    by_cases hk : k = .LUDTWIG_DIRECTIVE_IGNORE
    · subst hk
      rw [want_other (by decide) (by decide)]
      show some (directiveNames (turnAll _ _ _)) = some (directiveNames _)
      rw [turnAll_names]
    · have : ∀ ds, directive (some (.node k ds)) = none := by
        intro ds
        unfold directive
        split
        · rename_i h; cases h; exact absurd rfl hk
        · rfl
      rw [this, this]

theorem at_eq (hp : directive prev = directive prev') : w.at prev k = w.at prev' k := by
  unfold Wish.at; rw [hp]

theorem calm_prev (hp : directive prev = directive prev') : Calm ks w prev x ↔ Calm ks w prev' x := by
  cases x with
  | token => simp [Calm]
  | node k cs => rw [calm_node, calm_node, at_eq hp]

theorem turn_prev (hp : directive prev = directive prev') : turn w prev x = turn w prev' x := by
  cases x with
  | token => rw [turn_token, turn_token]
  | node k cs => rw [turn_node, turn_node, at_eq hp]

theorem of_at (hw : w.Of t h) : (w.at prev k).Of t h := by
  unfold Wish.at
  split
  · exact ⟨fun q h => (by cases h), fun q h => (by cases h)⟩
  · unfold Wish.without
    split
    · exact hw
    · exact ⟨fun q h => (by cases h), fun q h => (by cases h)⟩
    · refine ⟨fun q hq => ?_, fun q hq => ?_⟩
      · dsimp only at hq
        split at hq
        · cases hq
        · exact hw.1 q hq
      · dsimp only at hq
        split at hq
        · cases hq
        · exact hw.2 q hq

/-! ## Quotes that stay -/

theorem text_node : (Tree.node k cs).text = (cs.map (·.text)).flatten := by
  show textOf cs = _
  induction cs with
  | nil => rfl
  | cons x cs ih => rw [List.map_cons, List.flatten_cons, ← ih]; rfl

mutual
theorem stays {q : Char} : ∀ {x : Tree} {w : Wish} {prev : Option Tree}, Only q w prev x → q ∈ x.text → q ∈ (turn w prev x).text
  | .token k s, w, prev, ho, hq => by rwa [turn_token]
  | .node k cs, w, prev, ho, hq => by
    rw [only_node] at ho
    rw [turn_node]
    rw [text_node] at hq ⊢
    have ih := staysAll ho.2 hq
    cases hc : want (w.at prev k) k cs with
    | none => exact ih
    | some c =>
      cases ho.1 c hc
      exact List.mem_flatten.2 ⟨[q], List.mem_map.2 ⟨quoteLeaf q, by simp [requote], by simp [quoteLeaf, Tree.text]⟩, by simp⟩
theorem staysAll {q : Char} : ∀ {cs : List Tree} {w : Wish} {prev : Option Tree}, OnlyAll q w prev cs → q ∈ (cs.map (·.text)).flatten →
    q ∈ ((turnAll w prev cs).map (·.text)).flatten
  | [], w, prev, ho, hq => by cases hq
  | x :: xs, w, prev, ho, hq => by
    rw [onlyAll_cons] at ho
    rw [turnAll_cons]
    rw [List.map_cons, List.flatten_cons, List.mem_append] at hq ⊢
    exact hq.imp (stays ho.1) (staysAll ho.2)
end

theorem stays_inside (ho : OnlyAll q w prev cs) (hq : q ∈ inside cs) : q ∈ inside (turnAll w prev cs) := by
  unfold inside at hq ⊢
  induction cs generalizing prev with
  | nil => cases hq
  | cons x cs ih =>
    rw [onlyAll_cons] at ho
    rw [turnAll_cons, List.filter_cons, turn_isQuote]
    rw [List.filter_cons] at hq
    split at hq
    · rename_i hx
      rw [if_pos hx]
      rw [List.map_cons, List.flatten_cons, List.mem_append] at hq ⊢
      exact hq.imp (stays ho.1) (ih ho.2)
    · rename_i hx
      rw [if_neg hx]
      exact ih ho.2 hq

/-- A string is fine after its change. -/
theorem want_turned (hw : ∀ q, w.of k = some q → QuoteChar q ∧ OnlyAll q w none cs) :
    want w k (requote (want w k cs) (turnAll w none cs)) = none := by
  cases hk : w.of k with
  | none => unfold want; rw [hk]
  | some q =>
    obtain ⟨hqc, ho⟩ := hw q hk
    cases hc : want w k cs with
    | some c =>
      have : w.of k = some c := want_of hc
      rw [hk] at this
      cases this
      unfold want
      rw [hk]
      refine if_pos (.inl ?_)
      unfold quotedBy requote
      dsimp only
      rw [List.filter_cons_of_pos (quoteKind_leaf hqc), List.filter_append, List.filter_filter,
        List.filter_cons_of_pos (quoteKind_leaf hqc)]
      have : ∀ l : List Tree, l.filter (fun x => isQuoteLeaf x && !isQuoteLeaf x) = [] := by
        intro l
        rw [List.filter_eq_nil_iff]
        intro a _
        simp
      rw [this]
      simp [quoteLeaf, Tree.text]
    | none =>
      dsimp only [requote]
      unfold want at hc ⊢
      rw [hk] at hc ⊢
      dsimp only at hc ⊢
      split at hc
      · rename_i hr
        refine if_pos ?_
        rw [turnAll_quotedBy, turnAll_hasParts]
        exact hr.imp id (Or.imp id (stays_inside ho))
      · cases hc

/-! ## Two rounds -/

theorem directive_leaf : directive (some (quoteLeaf q)) = none := rfl

theorem directive_other {is : List Tree} (hk : k ≠ .LUDTWIG_DIRECTIVE_IGNORE) : directive (some (.node k is)) = none := by
  unfold directive
  split
  · rename_i h; cases h; exact absurd rfl hk
  · rfl

theorem calm_leaf : Calm ks w prev (quoteLeaf q) := by simp [Calm, quoteLeaf]

mutual
theorem only_noHtml {t h : Char} : ∀ {x : Tree} {w : Wish} {prev : Option Tree}, w.Of t h → NoHtml x → Only t w prev x
  | .token _ _, w, prev, hw, hn => by simp [Only]
  | .node k cs, w, prev, hw, hn => by
    simp only [NoHtml] at hn
    rw [only_node]
    refine ⟨fun c hc => ?_, onlyAll_noHtml (of_at hw) hn.2⟩
    have h1 := want_of hc
    unfold Wish.of at h1
    split at h1
    · exact (of_at hw).1 c h1
    · rw [if_neg hn.1] at h1; cases h1
theorem onlyAll_noHtml {t h : Char} : ∀ {cs : List Tree} {w : Wish} {prev : Option Tree}, w.Of t h → NoHtmlAll cs → OnlyAll t w prev cs
  | [], w, prev, hw, hn => onlyAll_nil
  | x :: xs, w, prev, hw, hn => by
    simp only [NoHtmlAll] at hn
    exact onlyAll_cons.2 ⟨only_noHtml hw hn.1, onlyAll_noHtml hw hn.2⟩
end

/-- Strings of Twig. -/
def twigKind (k : SyntaxKind) : Bool := k == .TWIG_LITERAL_STRING

mutual
theorem only_calm {t h : Char} : ∀ {x : Tree} {w : Wish} {prev : Option Tree}, w.Of t h → Calm twigKind w prev x → Only h w prev x
  | .token _ _, w, prev, hw, hn => by simp [Only]
  | .node k cs, w, prev, hw, hn => by
    rw [calm_node] at hn
    rw [only_node]
    refine ⟨fun c hc => ?_, onlyAll_calm (of_at hw) hn.2⟩
    have h1 := want_of hc
    unfold Wish.of at h1
    split at h1
    · rename_i hk
      rw [hn.1 (by simp [twigKind, hk])] at hc
      cases hc
    · split at h1
      · exact (of_at hw).2 c h1
      · cases h1
theorem onlyAll_calm {t h : Char} : ∀ {cs : List Tree} {w : Wish} {prev : Option Tree}, w.Of t h → CalmAll twigKind w prev cs → OnlyAll h w prev cs
  | [], w, prev, hw, hn => onlyAll_nil
  | x :: xs, w, prev, hw, hn => by
    rw [calmAll_cons] at hn
    exact onlyAll_cons.2 ⟨only_calm hw hn.1, onlyAll_calm hw hn.2⟩
end

theorem calm_string {c : Option Char} (hs : StringShape cs) (hc : CalmAll ks w none (turnAll w none cs)) :
    CalmAll ks w none (requote c (turnAll w none cs)) := by
  cases c with
  | none => exact hc
  | some q =>
    obtain ⟨ki, is, hki, rfl | ⟨a, b, ha, hb, rfl⟩⟩ := hs
    · rw [turnAll_cons, turnAll_nil] at hc ⊢
      have hf : isQuoteLeaf (turn w none (.node ki is)) = false := by rw [turn_isQuote]; rfl
      unfold requote
      dsimp only
      rw [List.filter_cons_of_pos (by rw [hf]; rfl)]
      refine calmAll_cons.2 ⟨calm_leaf, calmAll_cons.2 ⟨?_, calmAll_cons.2 ⟨calm_leaf, calmAll_nil⟩⟩⟩
      exact (calm_prev rfl).1 (calmAll_cons.1 hc).1
    · have ha' : turn w none (quoteLeaf a) = quoteLeaf a := turn_token
      rw [turnAll_cons, turnAll_cons, turnAll_cons, turnAll_nil, ha'] at hc ⊢
      have hb' : turn w (some (.node ki is)) (quoteLeaf b) = quoteLeaf b := turn_token
      rw [hb']
      have hf : isQuoteLeaf (turn w (some (quoteLeaf a)) (.node ki is)) = false := by rw [turn_isQuote]; rfl
      unfold requote
      dsimp only
      rw [List.filter_cons_of_neg (by simp [quoteKind_leaf ha]), List.filter_cons_of_pos (by rw [hf]; rfl),
        List.filter_cons_of_neg (by simp [quoteKind_leaf hb])]
      refine calmAll_cons.2 ⟨calm_leaf, calmAll_cons.2 ⟨?_, calmAll_cons.2 ⟨calm_leaf, calmAll_nil⟩⟩⟩
      exact (calm_prev rfl).1 (calmAll_cons.1 (calmAll_cons.1 hc).2).1

mutual
/-- Strings of Twig are fine after one round. -/
theorem calm_once {t h : Char} (ht : QuoteChar t) : ∀ {x : Tree} {w : Wish} {prev : Option Tree}, w.Of t h → Intact x →
    Calm twigKind w prev (turn w prev x)
  | .token _ _, w, prev, hw, hg => by rw [turn_token]; simp [Calm]
  | .node k cs, w, prev, hw, hg => by
    simp only [Intact] at hg
    rw [turn_node, calm_node]
    have ih := calmAll_once (prev := none) ht (of_at (k := k) (prev := prev) hw) hg.2.2
    refine ⟨fun hk => ?_, ?_⟩
    · have hk : k = .TWIG_LITERAL_STRING := by simpa [twigKind] using hk
      subst hk
      refine want_turned (fun q hq => ?_)
      have : q = t := (of_at hw).1 q hq
      subst this
      exact ⟨ht, onlyAll_noHtml (of_at hw) (hg.2.1 rfl)⟩
    · by_cases hk : k = .TWIG_LITERAL_STRING ∨ k = .HTML_STRING
      · exact calm_string (hg.1 hk) ih
      · rw [want_other (fun h => hk (.inl h)) (fun h => hk (.inr h))]
        exact ih
theorem calmAll_once {t h : Char} (ht : QuoteChar t) : ∀ {cs : List Tree} {w : Wish} {prev : Option Tree}, w.Of t h → IntactAll cs →
    CalmAll twigKind w prev (turnAll w prev cs)
  | [], w, prev, hw, hg => by rw [turnAll_nil]; exact calmAll_nil
  | x :: xs, w, prev, hw, hg => by
    simp only [IntactAll] at hg
    rw [turnAll_cons]
    refine calmAll_cons.2 ⟨calm_once ht hw hg.1, ?_⟩
    have := calmAll_once (prev := some x) ht hw hg.2
    cases xs with
    | nil => rw [turnAll_nil]; exact calmAll_nil
    | cons y ys =>
      rw [turnAll_cons] at this ⊢
      refine calmAll_cons.2 ⟨(calm_prev turn_directive).2 (calmAll_cons.1 this).1, (calmAll_cons.1 this).2⟩
end

mutual
/-- All strings are fine after another round. -/
theorem calm_twice {t h : Char} (ht : QuoteChar t) (hh : QuoteChar h) : ∀ {x : Tree} {w : Wish} {prev : Option Tree}, w.Of t h → Intact x →
    Calm twigKind w prev x → Calm (fun _ => true) w prev (turn w prev x)
  | .token _ _, w, prev, hw, hg, hc => by rw [turn_token]; simp [Calm]
  | .node k cs, w, prev, hw, hg, hc => by
    simp only [Intact] at hg
    rw [calm_node] at hc
    rw [turn_node, calm_node]
    have ih := calmAll_twice ht hh (of_at (k := k) (prev := prev) hw) hg.2.2 hc.2
    refine ⟨fun _ => ?_, ?_⟩
    · refine want_turned (fun q hq => ?_)
      unfold Wish.of at hq
      split at hq
      · rename_i hk
        have : q = t := (of_at hw).1 q hq
        subst this
        exact ⟨ht, onlyAll_noHtml (of_at hw) (hg.2.1 hk)⟩
      · split at hq
        · have : q = h := (of_at hw).2 q hq
          subst this
          exact ⟨hh, onlyAll_calm (of_at hw) hc.2⟩
        · cases hq
    · by_cases hk : k = .TWIG_LITERAL_STRING ∨ k = .HTML_STRING
      · exact calm_string (hg.1 hk) ih
      · rw [want_other (fun h => hk (.inl h)) (fun h => hk (.inr h))]
        exact ih
theorem calmAll_twice {t h : Char} (ht : QuoteChar t) (hh : QuoteChar h) : ∀ {cs : List Tree} {w : Wish} {prev : Option Tree}, w.Of t h →
    IntactAll cs → CalmAll twigKind w prev cs → CalmAll (fun _ => true) w prev (turnAll w prev cs)
  | [], w, prev, hw, hg, hc => by rw [turnAll_nil]; exact calmAll_nil
  | x :: xs, w, prev, hw, hg, hc => by
    simp only [IntactAll] at hg
    rw [calmAll_cons] at hc
    rw [turnAll_cons]
    refine calmAll_cons.2 ⟨calm_twice ht hh hw hg.1 hc.1, ?_⟩
    have := calmAll_twice ht hh hw hg.2 hc.2
    cases xs with
    | nil => rw [turnAll_nil]; exact calmAll_nil
    | cons y ys =>
      rw [turnAll_cons] at this ⊢
      refine calmAll_cons.2 ⟨(calm_prev turn_directive).2 (calmAll_cons.1 this).1, (calmAll_cons.1 this).2⟩
end

end Ludtwig.Template
