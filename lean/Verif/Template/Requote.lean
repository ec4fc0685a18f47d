import Verif.Template.Spec

/-!
# Changing quotes in a template (proof device for C75)

Every token of a template has an image: itself at its new place, another quote, or itself with quotes
around it. `Fits` says that the quotes are changed only where strings have theirs. Then the images are a
template again.
-/

namespace Ludtwig.Template

/-- What happens to the tokens of a file: the new places and the images. -/
structure Change where
  place : Token → TextRange
  image : Token → List Token

/-- The token at its new place. -/
def Change.moved (C : Change) (t : Token) : Token := { t with range := C.place t }

/-- The token stays what it is. -/
def Change.Plain (C : Change) (t : Token) : Prop := C.image t = [C.moved t]

/-- A new quote. -/
def IsQuote (t : Token) : Prop := t.kind ∈ quotes ∧ (t.text = ['"'] ∨ t.text = ['\''])

/-- The possible images. -/
inductive Image (C : Change) (t : Token) : Prop
  | plain : C.Plain t → Image C t
  | swapped {q} : t.kind ∈ quotes → IsQuote q → C.image t = [q] → Image C t
  | word {a b} : t.kind = T!"word" → IsQuote a → IsQuote b → C.image t = [a, C.moved t, b] → Image C t
  | opened {a} : t.kind ∈ varOpens → IsQuote a → C.image t = [a, C.moved t] → Image C t
  | closed {b} : t.kind ∈ varCloses → IsQuote b → C.image t = [C.moved t, b] → Image C t

/-- What is needed of a change of a file whose blanks start where `blank` says; afterwards they start
where `blank'` says. -/
structure Change.Ok (C : Change) (blank blank' : Nat → Prop) : Prop where
  images : ∀ t, Image C t
  adjacent : ∀ {a b s}, a.kind = T!"<" ∨ a.kind = T!":" → C.Plain a → C.image b = C.moved b :: s →
    (Adjacent (C.moved a) (C.moved b) ↔ Adjacent a b)
  blanks : ∀ {t}, t.kind = T!"<" → C.Plain t → (blank' (C.moved t).range.stop ↔ blank t.range.stop)

/-- The tokens afterwards. -/
def Change.all (C : Change) (u : List Token) : List Token := u.flatMap C.image

/-- A single token. -/
def IsLeaf : Tree → Prop
  | .token _ _ => True
  | .node _ _ => False

/-- The quotes of a string with the inner tokens `v`. -/
def Change.Quotes (C : Change) (l : Token) (v : List Token) (r : Token) (xs : List Tree) (twig : Bool) : Prop :=
  (C.Plain l ∧ C.Plain r) ∨ ∃ l' r', C.image l = [l'] ∧ C.image r = [r'] ∧ l'.kind ∈ quotes ∧ r'.kind = l'.kind ∧
    (∀ t ∈ v, t.kind ≠ l'.kind) ∧ (twig = true → l'.kind = T!"'" → ∀ x ∈ xs, IsLeaf x)

/-- The change respects the trees of the tokens. -/
inductive Fits (C : Change) : List Token → List Tree → Prop
  | nil : Fits C [] []
  | tok {t k u xs} : C.Plain t → t.text ≠ [] → Fits C u xs → Fits C (t :: u) (.token k t.text :: xs)
  | two {c t k u xs} : C.Plain c → C.Plain t → c.text ≠ [] → t.text ≠ [] → Fits C u xs →
      Fits C (c :: t :: u) (.token k (c.text ++ t.text) :: xs)
  | node {k cs u xs} : k ≠ .TWIG_LITERAL_STRING → k ≠ .HTML_STRING → Fits C u (cs ++ xs) → Fits C u (.node k cs :: xs)
  | twig {l v r u k k' is xs} : C.Quotes l v r is true → l.text ≠ [] → r.text ≠ [] → Fits C v is → Fits C u xs →
      Fits C (l :: (v ++ r :: u)) (.node .TWIG_LITERAL_STRING [.token k l.text, .node .TWIG_LITERAL_STRING_INNER is, .token k' r.text] :: xs)
  | html {l v r u k k' is xs} : C.Quotes l v r is false → l.text ≠ [] → r.text ≠ [] → Fits C v is → Fits C u xs →
      Fits C (l :: (v ++ r :: u)) (.node .HTML_STRING [.token k l.text, .node .HTML_STRING_INNER is, .token k' r.text] :: xs)
  | word {t k u xs} : t.text ≠ [] → (C.Plain t ∨ ∃ a b, a.kind ∈ quotes ∧ b.kind = a.kind ∧ C.image t = [a, C.moved t, b]) →
      Fits C u xs → Fits C (t :: u) (.node .HTML_STRING [.node .HTML_STRING_INNER [.token k t.text]] :: xs)
  | var {o v c k k' u is xs} : o.text ≠ [] → c.text ≠ [] →
      ((C.Plain o ∧ C.Plain c) ∨ ∃ a b, a.kind ∈ quotes ∧ b.kind = a.kind ∧ C.image o = [a, C.moved o] ∧ C.image c = [C.moved c, b]) →
      Fits C v is → Fits C u xs →
      Fits C (o :: (v ++ c :: u)) (.node .HTML_STRING [.node .HTML_STRING_INNER
        [.node .TWIG_VAR (.token k o.text :: (is ++ [.token k' c.text]))]] :: xs)

/-! ## Images -/

variable {C : Change} {blank blank' : Nat → Prop} {t : Token} {u v w : List Token} {x : Tree} {xs zs : List Tree}

/-- The token stays what it is, and it is not empty. -/
def Change.Stays (C : Change) (t : Token) : Prop := C.Plain t ∧ t.text ≠ []

theorem all_nil : C.all [] = [] := rfl

theorem all_append : C.all (u ++ v) = C.all u ++ C.all v := List.flatMap_append

theorem all_stays (h : C.Stays t) : C.all (t :: u) = C.moved t :: C.all u := by
  show C.image t ++ _ = _
  rw [h.1]
  rfl

theorem all_cons : C.all (t :: u) = C.image t ++ C.all u := rfl

theorem all_tokens (h : ∀ t ∈ u, C.Stays t) : C.all u = u.map C.moved := by
  induction u with
  | nil => rfl
  | cons t u ih =>
    rw [all_stays (h t (by simp)), ih (fun t ht => h t (List.mem_cons_of_mem _ ht))]
    rfl

/-! ## Fitting trees -/

theorem fits_node {k : SyntaxKind} {cs : List Tree} (h1 : k ≠ .TWIG_LITERAL_STRING) (h2 : k ≠ .HTML_STRING) :
    Fits C u (.node k cs :: xs) ↔ Fits C u (cs ++ xs) := by
  constructor
  · intro h
    cases h with
    | node _ _ h => exact h
    | twig => exact absurd rfl h1
    | html => exact absurd rfl h2
    | word => exact absurd rfl h2
    | var => exact absurd rfl h2
  · exact .node h1 h2

theorem fits_leaf {k : SyntaxKind} : Fits C (t :: u) (.token k t.text :: xs) ↔ C.Stays t ∧ Fits C u xs := by
  constructor
  · intro h
    generalize ht : t.text = tx at h
    cases h with
    | tok h1 h2 h3 => exact ⟨⟨h1, h2⟩, h3⟩
    | two h1 h2 h3 h4 h5 =>
      have := congrArg List.length ht
      simp only [List.length_append] at this
      cases h' : Token.text _ with
      | nil => exact absurd h' h4
      | cons a b => rw [h'] at this; simp at this
  · intro ⟨⟨h1, h2⟩, h3⟩
    exact .tok h1 h2 h3

theorem fits_tree : Fits C (t :: u) (t.tree :: xs) ↔ C.Stays t ∧ Fits C u xs := fits_leaf

theorem fits_word : Fits C (t :: u) (wordTree t :: xs) ↔ C.Stays t ∧ Fits C u xs := fits_leaf

theorem fits_tagName : Fits C (t :: u) (tagNameTree t :: xs) ↔ C.Stays t ∧ Fits C u xs := by
  unfold tagNameTree
  split
  · exact fits_tree
  · exact fits_word

theorem fits_two {c : Token} {k : SyntaxKind} (ht : t.text ≠ []) (h : Fits C (c :: t :: u) (.token k (c.text ++ t.text) :: xs)) :
    C.Stays c ∧ C.Stays t ∧ Fits C u xs := by
  generalize htx : c.text ++ t.text = tx at h
  generalize hU : t :: u = U at h
  cases h with
  | tok h1 h2 h3 =>
    have := congrArg List.length htx
    simp only [List.length_append] at this
    cases h' : t.text with
    | nil => exact absurd h' ht
    | cons a b => rw [h'] at this; simp at this
  | two h1 h2 h3 h4 h5 =>
    cases hU
    exact ⟨⟨h1, h3⟩, ⟨h2, h4⟩, h5⟩

theorem fits_tokens {ts : List Token} (h : Fits C (ts ++ u) (ts.map Token.tree ++ xs)) : (∀ t ∈ ts, C.Stays t) ∧ Fits C u xs := by
  induction ts with
  | nil => exact ⟨by simp, h⟩
  | cons t ts ih =>
    obtain ⟨h1, h2⟩ := fits_tree.1 h
    obtain ⟨h3, h4⟩ := ih h2
    exact ⟨List.forall_mem_cons.2 ⟨h1, h3⟩, h4⟩

/-! ## Lengths -/

/-- The number of characters of the tokens. -/
def wlen (u : List Token) : Nat := (u.map (·.text.length)).sum

mutual
/-- The number of characters of a tree. -/
def tlen : Tree → Nat
  | .token _ s => s.length
  | .node _ cs => tlens cs
/-- The number of characters of trees. -/
def tlens : List Tree → Nat
  | [] => 0
  | t :: ts => tlen t + tlens ts
end

theorem wlen_nil : wlen [] = 0 := rfl
theorem wlen_cons : wlen (t :: u) = t.text.length + wlen u := by simp [wlen]
theorem wlen_append : wlen (u ++ v) = wlen u + wlen v := by simp [wlen]
theorem tlens_nil : tlens [] = 0 := by simp [tlens]
theorem tlens_cons : tlens (x :: xs) = tlen x + tlens xs := by simp [tlens]
theorem tlens_append : tlens (xs ++ zs) = tlens xs + tlens zs := by
  induction xs with
  | nil => simp [tlens]
  | cons x xs ih => simp [tlens, ih, Nat.add_assoc]
theorem tlen_node {k : SyntaxKind} : tlen (.node k xs) = tlens xs := by simp [tlen]
theorem tlen_tree : tlen t.tree = t.text.length := by simp [tlen, Token.tree]
theorem tlen_word : tlen (wordTree t) = t.text.length := by simp [tlen, wordTree]
theorem tlen_tagName : tlen (tagNameTree t) = t.text.length := by
  unfold tagNameTree
  split
  · exact tlen_tree
  · exact tlen_word
theorem tlens_tokens : tlens (u.map Token.tree) = wlen u := by
  induction u with
  | nil => rfl
  | cons t u ih => rw [List.map_cons, tlens_cons, tlen_tree, ih, wlen_cons]

theorem fits_length (h : Fits C u xs) : wlen u = tlens xs := by
  induction h with
  | nil => rfl
  | tok _ _ _ ih => simp only [wlen_cons, tlens_cons, tlen, ih]
  | two _ _ _ _ _ ih => simp only [wlen_cons, tlens_cons, tlen, ih, List.length_append]; omega
  | node _ _ _ ih => simp only [tlens_cons, tlen, ih, tlens_append]
  | twig _ _ _ _ _ ih1 ih2 => simp only [wlen_cons, wlen_append, tlens_cons, tlen, tlens_nil, ih1, ih2]; omega
  | html _ _ _ _ _ ih1 ih2 => simp only [wlen_cons, wlen_append, tlens_cons, tlen, tlens_nil, ih1, ih2]; omega
  | word _ _ _ ih => simp only [wlen_cons, tlens_cons, tlen, tlens_nil, ih]; omega
  | var _ _ _ _ _ ih1 ih2 => simp only [wlen_cons, wlen_append, tlens_cons, tlens_append, tlen, tlens_nil, ih1, ih2]; omega

theorem fits_nonempty (h : Fits C u xs) : ∀ t ∈ u, t.text ≠ [] := by
  induction h with
  | nil => simp
  | tok _ h _ ih => simp_all
  | two _ _ h h' _ ih => simp_all
  | node _ _ _ ih => exact ih
  | twig _ h1 h2 _ _ ih1 ih2 => simp only [List.forall_mem_cons, List.forall_mem_append]; exact ⟨h1, ih1, h2, ih2⟩
  | html _ h1 h2 _ _ ih1 ih2 => simp only [List.forall_mem_cons, List.forall_mem_append]; exact ⟨h1, ih1, h2, ih2⟩
  | word h _ _ ih => simp_all
  | var h1 h2 _ _ _ ih1 ih2 => simp only [List.forall_mem_cons, List.forall_mem_append]; exact ⟨h1, ih1, h2, ih2⟩

/-- What the lengths of the trees are. -/
def Long : Nt → List Token → List Tree → Prop
  | .postfixes x, u, xs => tlen x + wlen u = tlens xs
  | .applied ys, u, xs => tlens ys + wlen u = tlens xs
  | _, u, xs => wlen u = tlens xs

/-- The trees of the operands and operators. -/
def leaves (is : List Item) : List Tree := is.map fun
  | .operand _ x => x
  | .op t => t.tree

theorem leaves_append {is js : List Item} : leaves (is ++ js) = leaves is ++ leaves js := List.map_append

theorem leaves_flat {first : Operand} {rest : List (Token × Operand)} :
    leaves (flatOf first rest).items = first.tree :: rest.flatMap (fun r => [r.1.tree, r.2.tree]) := by
  have : ∀ rest : List (Token × Operand), leaves ((rest.map (fun r => (r.1, r.2.toks, r.2.tree))).flatMap (fun r => [.op r.1, .operand r.2.1 r.2.2]))
      = rest.flatMap (fun r => [r.1.tree, r.2.tree]) := by
    intro rest
    induction rest with
    | nil => rfl
    | cons r rest ih =>
      simp only [List.map_cons, List.flatMap_cons, leaves_append, ih]
      rfl
  show _ :: leaves _ = _
  rw [← this]
  rfl

theorem grouping_length (g : Grouping) : tlen g.tree = tlens (leaves g.items) ∧ tlen g.expr = tlens (leaves g.items) := by
  induction g with
  | operand u x => simp [Grouping.tree, Grouping.expr, Grouping.items, leaves, tlen, tlens]
  | binary l op r ih1 ih2 =>
    have : tlens (leaves (Item.op op :: r.items)) = tlen op.tree + tlens (leaves r.items) := tlens_cons
    simp only [Grouping.tree, Grouping.expr, Grouping.items, leaves_append, tlens_append, tlen, tlens, ih1.1, ih2.2, this]
    omega

theorem rest_length {rest : List (Token × Operand)} (h : ∀ r ∈ rest, wlen r.2.toks = tlen r.2.tree) :
    wlen (restTokens (rest.map (fun r => (r.1, r.2.toks, r.2.tree)))) = tlens (rest.flatMap (fun r => [r.1.tree, r.2.tree])) := by
  induction rest with
  | nil => rfl
  | cons r rest ih =>
    have h1 := ih (fun r hr => h r (List.mem_cons_of_mem _ hr))
    have h2 := h r (by simp)
    unfold restTokens at *
    simp only [List.map_cons, List.flatMap_cons, wlen_append, wlen_cons, tlens_append, tlens_cons, tlens_nil, tlen_tree] at *
    omega

macro "lens" : tactic => `(tactic| (
  simp only [Long, wlen_nil, wlen_cons, wlen_append, tlens_nil, tlens_cons, tlens_append, tlen_node, tlen_tree, tlen_word, nameTree, tlen_tagName, tlens_tokens] at *
  try omega))

theorem long {n : Nt} (h : T blank n u xs) : Long n u xs := by
  induction h with
  | terms _ _ _ _ _ _ h ih1 ih2 =>
    show wlen (_ ++ _) = tlen _ + 0
    rw [(grouping_length _).2, h, leaves_flat, wlen_append, tlens_cons]
    have h1 : wlen _ = tlen _ + 0 := ih1
    have h2 := rest_length (fun r hr => (ih2 r hr : wlen _ = tlen _ + 0))
    unfold flatOf
    dsimp only
    omega
  | colonName => simp only [Long, wlen_cons, tlens_cons, tlen, List.length_append, wlen_nil, tlens_nil]; omega
  | _ => lens

end Ludtwig.Template
