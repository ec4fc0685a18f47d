import Verif.Rules.QuoteFix
import Verif.Template.Tidy
import Verif.Layout.Acts

/-!
# Fixing the quotes of a file settles: property C77
-/

namespace Ludtwig.Rules

open Cli Lexer Template
open Layout hiding Tidy
open Shape hiding directive

/-! ## Where the rules for quotes run -/

/-- A rule with this name runs on an element. -/
def runs (rules : List Rule) (n : RuleName) (e : Elem) : Bool := !hidden e && !switchedOff n e && rules.any (fun r => r.name == n)

/-- The quotes that are wanted on an element. -/
def wishAt (config : Config) (rules : List Rule) (e : Elem) : Wish :=
  ⟨if runs rules "twig-string-quotation".toList e then some config.twigQuotation.char else none,
    if runs rules "html-string-quotation".toList e then some config.htmlQuotation.char else none⟩

/-- The quotes that are wanted in a file. -/
def wishIn (config : Config) (rules : List Rule) : Wish :=
  ⟨if rules.any (fun r => r.name == "twig-string-quotation".toList) then some config.twigQuotation.char else none,
    if rules.any (fun r => r.name == "html-string-quotation".toList) then some config.htmlQuotation.char else none⟩

variable {config : Config} {rules : List Rule} {e : Elem} {k : SyntaxKind} {cs : List Tree}

theorem preceding_directive {t : Tree} {pos : Nat} {f : Frame} {fs : List Frame} :
    precedingDirective ⟨t, pos, f :: fs⟩ = directive f.before.getLast? := by
  unfold precedingDirective directive
  dsimp only
  cases f.before.getLast? with
  | none => rfl
  | some x =>
    cases x with
    | token => rfl
    | node k cs => cases k <;> rfl

theorem runs_child {n : RuleName} {pos : Nat} {f : Frame} {fs : List Frame} :
    runs rules n ⟨.node k cs, pos, f :: fs⟩ =
      (!(k == .ERROR) && !(directive f.before.getLast? == some []) && !((directive f.before.getLast?).getD []).contains n &&
        runs rules n ⟨.node f.kind (f.before ++ .node k cs :: f.after), f.start, fs⟩) := by
  have h1 : hidden ⟨.node k cs, pos, f :: fs⟩ = (closed ⟨.node k cs, pos, f :: fs⟩ ||
      hidden ⟨.node f.kind (f.before ++ .node k cs :: f.after), f.start, fs⟩) := rfl
  have h2 : switchedOff n ⟨.node k cs, pos, f :: fs⟩ = (((precedingDirective ⟨.node k cs, pos, f :: fs⟩).getD []).contains n ||
      switchedOff n ⟨.node f.kind (f.before ++ .node k cs :: f.after), f.start, fs⟩) := rfl
  have h3 : closed ⟨.node k cs, pos, f :: fs⟩ = ((k == .ERROR) || precedingDirective ⟨.node k cs, pos, f :: fs⟩ == some []) := rfl
  unfold runs
  rw [h1, h2, h3, preceding_directive]
  generalize (k == .ERROR) = b1
  generalize (directive f.before.getLast? == some []) = b2
  generalize ((directive f.before.getLast?).getD []).contains n = b3
  generalize hidden _ = b4
  generalize switchedOff n _ = b5
  generalize rules.any _ = b6
  revert b1 b2 b3 b4 b5 b6
  decide

theorem wish_child {pos : Nat} {f : Frame} {fs : List Frame} :
    wishAt config rules ⟨.node k cs, pos, f :: fs⟩ =
      (wishAt config rules ⟨.node f.kind (f.before ++ .node k cs :: f.after), f.start, fs⟩).at f.before.getLast? k := by
  unfold wishAt Wish.at
  rw [runs_child, runs_child]
  generalize runs rules "twig-string-quotation".toList _ = b1
  generalize runs rules "html-string-quotation".toList _ = b2
  by_cases hk : k = .ERROR
  · subst hk
    rfl
  · rw [if_neg hk, show (k == .ERROR) = false by simpa using hk]
    cases directive f.before.getLast? with
    | none => rfl
    | some ns =>
      cases ns with
      | nil => rfl
      | cons n ns =>
        unfold Wish.without
        have : ((some (n :: ns) : Option (List RuleName)) == some []) = false := rfl
        rw [this]
        simp only [Bool.not_false, Bool.true_and, Option.getD_some, Wish.mk.injEq]
        constructor
        · cases (n :: ns).contains "twig-string-quotation".toList <;> rfl
        · cases (n :: ns).contains "html-string-quotation".toList <;> rfl

theorem wish_root : wishAt config rules (Elem.root (.node k cs)) = (wishIn config rules).at none k := by
  have : ∀ n, runs rules n (Elem.root (.node k cs)) = (!(k == .ERROR) && rules.any (fun r => r.name == n)) := by
    intro n
    show (!((k == .ERROR || false) || false) && !(false || false) && _) = _
    cases (k == SyntaxKind.ERROR) <;> simp
  unfold wishAt Wish.at wishIn
  rw [this, this]
  by_cases hk : k = .ERROR
  · subst hk; rfl
  · rw [if_neg hk, show (k == .ERROR) = false by simpa using hk]; rfl

/-! ## What the rules want for a string -/

theorem findSome_if {α β : Type} {p : α → Bool} {c : Prop} [Decidable c] {b : β} (l : List α) :
    l.findSome? (fun a => if p a = true ∧ c then some b else none) = if l.any p = true ∧ c then some b else none := by
  induction l with
  | nil => simp
  | cons a l ih =>
    rw [List.findSome?_cons, ih, List.any_cons]
    by_cases hp : p a = true <;> by_cases hc : c <;> simp [hp, hc]

theorem any_filter_names {n : RuleName} : (rules.filter (fun r => !switchedOff r.name e)).any (fun r => r.name == n) =
    (!switchedOff n e && rules.any (fun r => r.name == n)) := by
  induction rules with
  | nil => simp
  | cons r rs ih =>
    rw [List.filter_cons, List.any_cons]
    by_cases hn : r.name = n
    · subst hn
      cases h : switchedOff r.name e with
      | false => simp
      | true => simp only [Bool.not_true, Bool.false_eq_true, if_false, Bool.false_and, ih, h]
    · have : (r.name == n) = false := by simpa using hn
      split
      · rw [List.any_cons, this, ih]; simp
      · rw [this, ih]; simp

theorem wants_twig (he : e.tree = .node .TWIG_LITERAL_STRING cs) :
    wants config rules e = if runs rules "twig-string-quotation".toList e = true ∧ unfit config.twigQuotation.char e = true ∧
      ¬ (config.twigQuotation = .single ∧ interpolated e = true) then some config.twigQuotation.char else none := by
  have ha : ∀ r, asks config r e = if (r.name == "twig-string-quotation".toList) = true ∧ (unfit config.twigQuotation.char e = true ∧
      ¬ (config.twigQuotation = .single ∧ interpolated e = true)) then some config.twigQuotation.char else none := by
    intro r
    unfold asks
    have h1 : e.isNode = true := node_isNode he
    have h2 : e.kind = .TWIG_LITERAL_STRING := node_kind he
    rw [h1, h2]
    simp only [true_and, beq_iff_eq, reduceCtorEq, false_and, and_false, if_false]
  unfold wants runs
  simp only [ha]
  rw [findSome_if, any_filter_names]
  cases hidden e <;> simp

theorem wants_html (he : e.tree = .node .HTML_STRING cs) :
    wants config rules e = if runs rules "html-string-quotation".toList e = true ∧ unfit config.htmlQuotation.char e = true
      then some config.htmlQuotation.char else none := by
  have ha : ∀ r, asks config r e = if (r.name == "html-string-quotation".toList) = true ∧ unfit config.htmlQuotation.char e = true
      then some config.htmlQuotation.char else none := by
    intro r
    unfold asks
    have h1 : e.isNode = true := node_isNode he
    have h2 : e.kind = .HTML_STRING := node_kind he
    rw [h1, h2]
    simp only [true_and, beq_iff_eq, reduceCtorEq, false_and, and_false, if_false]
  unfold wants runs
  simp only [ha]
  rw [findSome_if, any_filter_names]
  cases hidden e <;> simp

/-! ## The parts of a string, with and without trivia -/

theorem text_token {k : SyntaxKind} {t : Text} : (Tree.token k t).text = t := rfl

mutual
theorem quote_in_text {q : Char} (hq : QuoteChar q) : ∀ {x : Tree}, Tidy x → (q ∈ (x.strip.map (·.text)).flatten ↔ q ∈ x.text)
  | .token k t, h => by
    rw [Tidy] at h
    unfold Tree.strip
    split
    · rename_i hk
      have := h hk q hq
      simp [text_token, this]
    · simp [text_token]
  | .node k cs, h => by
    rw [Tidy] at h
    simp only [Tree.strip, List.map_cons, List.map_nil, List.flatten_cons, List.flatten_nil, List.append_nil]
    rw [text_node, text_node]
    exact quote_in_texts hq h.2.2
theorem quote_in_texts {q : Char} (hq : QuoteChar q) : ∀ {xs : List Tree}, TidyAll xs →
    (q ∈ ((stripAll xs).map (·.text)).flatten ↔ q ∈ (xs.map (·.text)).flatten)
  | [], h => by simp [stripAll]
  | x :: xs, h => by
    rw [TidyAll] at h
    rw [stripAll, List.map_append, List.flatten_append, List.map_cons, List.flatten_cons, List.mem_append, List.mem_append,
      quote_in_text hq h.1, quote_in_texts hq h.2]
end

theorem tidyAll_mem {xs : List Tree} (h : TidyAll xs) : ∀ x ∈ xs, Tidy x := by
  induction xs with
  | nil => intro x hx; cases hx
  | cons y xs ih =>
    rw [TidyAll] at h
    intro x hx
    rcases List.mem_cons.1 hx with rfl | hx
    · exact h.1
    · exact ih h.2 x hx

theorem leaf_nontrivia {q : Char} (hq : QuoteChar q) : (quoteKind q).isTrivia = false := by
  rcases hq with rfl | rfl <;> rfl

theorem string_facts {ki : SyntaxKind} {is : List Tree} (he : e.tree = .node k cs) 
    (h : stripAll cs = [.node ki is] ∨ ∃ a b, QuoteChar a ∧ QuoteChar b ∧ stripAll cs = [quoteLeaf a, .node ki is, quoteLeaf b]) :
    ∃ eI ti, e.child ki = some eI ∧ eI.tree = .node ki ti ∧ stripAll ti = is ∧ .node ki ti ∈ cs ∧
      ∀ q, unfit q e = !quotedBy q (stripAll cs) := by
  have hks := kids_strip he
  have hmem : ∀ x : Elem, x ∈ e.childrenWithTokens → x.tree ∈ cs := by
    intro x hx
    rw [← (kids he).1]
    exact List.mem_map.2 ⟨x, hx, rfl⟩
  rcases h with h | ⟨a, b, ha, hb, h⟩
  · rw [h] at hks ⊢
    obtain ⟨tA, eI, tD, hc1, hA, hI, hf2⟩ := strip_cons hks
    have hD := strip_nil hf2
    obtain ⟨ti, hI, hti⟩ := strip_node hI
    obtain ⟨h1, h2, h3⟩ := unquoted_parts hc1 hA hD hI
    refine ⟨eI, ti, h1, hI, hti, by rw [← hI]; exact hmem eI (by rw [hc1]; simp), fun q => ?_⟩
    unfold unfit
    rw [h2, h3]
    rfl
  · rw [h] at hks ⊢
    obtain ⟨tA, eL, f1, hc1, hA, hL, hf1⟩ := strip_cons hks
    obtain ⟨tB, eI, f2, rfl, hB, hI, hf2⟩ := strip_cons hf1
    obtain ⟨tC, eR, tD, rfl, hC, hR, hf3⟩ := strip_cons hf2
    obtain ⟨hL, hkl⟩ := strip_token hL
    obtain ⟨hR, hkr⟩ := strip_token hR
    obtain ⟨ti, hI, hti⟩ := strip_node hI
    obtain ⟨h1, h2, h3⟩ := quoted_parts hc1 hA hB hC hL hkl hI hR hkr
    refine ⟨eI, ti, h1, hI, hti, by rw [← hI]; exact hmem eI (by rw [hc1]; simp), fun q => ?_⟩
    unfold unfit quoteIsFine
    rw [h2, h3]
    dsimp only
    have t1 : eL.text = [a] := by unfold Elem.text; rw [hL]; rfl
    have t2 : eR.text = [b] := by unfold Elem.text; rw [hR]; rfl
    rw [t1, t2]
    unfold quotedBy
    rw [List.filter_cons_of_pos (quoteKind_leaf ha), List.filter_cons_of_neg (by simp [isQuoteLeaf]), List.filter_cons_of_pos (quoteKind_leaf hb)]
    show _ = !([[a], [b]] == [[q], [q]])
    by_cases e1 : a = q <;> by_cases e2 : b = q <;> simp [e1, e2]

theorem childrenOf_strip {i : Elem} {ki K : SyntaxKind} {ti : List Tree} (hi : i.tree = .node ki ti) :
    (!(i.childrenOf K).isEmpty) = (stripAll ti).any (nodeOf K) := by
  have h1 : i.childrenWithTokens.map (·.tree) = ti := (kids hi).1
  have h2 : (!(i.childrenOf K).isEmpty) = ti.any (nodeOf K) := by
    rw [← h1]
    unfold Elem.childrenOf Elem.children
    generalize i.childrenWithTokens = es
    induction es with
    | nil => rfl
    | cons x es ih =>
      rw [List.map_cons, List.any_cons]
      cases hx : x.tree with
      | token K' t =>
        rw [List.filter_cons_of_neg (by simp [token_isNode hx])]
        simpa [nodeOf] using ih
      | node K' ds =>
        rw [List.filter_cons_of_pos (node_isNode hx), List.filter_cons]
        by_cases hK : K' = K
        · simp [node_kind hx, hK, nodeOf]
        · have : (K' == K) = false := by simpa using hK
          simpa [node_kind hx, hK, nodeOf, this] using ih
  rw [h2]
  clear h1 h2 hi
  induction ti with
  | nil => rfl
  | cons x xs ih =>
    rw [stripAll, List.any_cons, List.any_append, ih]
    congr 1
    cases x with
    | token K' t => unfold Tree.strip; split <;> simp [nodeOf]
    | node K' ds => simp [Tree.strip, nodeOf]

theorem char_single (q : Quotation) : q.char = '\'' ↔ q = .single := by cases q <;> decide

/-- What the rules want for a node is what its tree without trivia says. -/
theorem newQuote_want (he : e.tree = .node k cs) (hs : k = .TWIG_LITERAL_STRING ∨ k = .HTML_STRING → StringParts k (stripAll cs))
    (ht : TidyAll cs) : newQuote (wants config rules) e = want (wishAt config rules e) k (stripAll cs) := by
  by_cases hk : k = .TWIG_LITERAL_STRING ∨ k = .HTML_STRING
  · obtain ⟨ki, is, hkk, hshape⟩ := hs hk
    obtain ⟨eI, ti, h1, h2, h3, h4, h5⟩ := string_facts he hshape
    have hin : innerPart e = some eI := by rw [innerPart_child hkk he, h1]
    have htext : ∀ q, QuoteChar q → (eI.text.contains q = true ↔ q ∈ inside (stripAll cs)) := by
      intro q hq
      have h6 := quote_in_text hq (tidyAll_mem ht _ h4)
      have h7 : inside (stripAll cs) = (Tree.node ki is).text := by
        rcases hshape with h | ⟨a, b, ha, hb, h⟩
        · rw [h]; simp [inside, isQuoteLeaf]
        · rw [h]
          unfold inside
          rw [List.filter_cons_of_neg (by simp [quoteKind_leaf ha]), List.filter_cons_of_pos (by rfl), List.filter_cons_of_neg (by simp [quoteKind_leaf hb])]
          simp
      have h8 : eI.text = (Tree.node ki ti).text := by unfold Elem.text; rw [h2]
      rw [h7, h8, List.contains_iff_mem, ← h6]
      simp only [Tree.strip, h3, List.map_cons, List.map_nil, List.flatten_cons, List.flatten_nil, List.append_nil]
    rcases hk with rfl | rfl
    · have hki : ki = .TWIG_LITERAL_STRING_INNER := by
        rcases hkk with ⟨_, h⟩ | ⟨h, _⟩
        · exact h
        · cases h
      subst hki
      have hint : interpolated e = (stripAll cs).any hasParts := by
        unfold interpolated Elem.twigStringInner
        rw [h1]
        dsimp only
        rw [childrenOf_strip h2, h3]
        rcases hshape with h | ⟨a, b, ha, hb, h⟩ <;> rw [h] <;> simp [hasParts, quoteLeaf]
      unfold newQuote want
      rw [wants_twig he, hin]
      have hof : (wishAt config rules e).of .TWIG_LITERAL_STRING = if runs rules "twig-string-quotation".toList e then some config.twigQuotation.char else none := rfl
      rw [hof]
      cases hr : runs rules "twig-string-quotation".toList e with
      | false => rw [if_neg (by simp), if_neg (by simp)]
      | true =>
        rw [if_pos (show true = true from rfl)]
        dsimp only
        rw [h5, hint]
        have hx := htext _ (char_quote config.twigQuotation)
        have hsg := char_single config.twigQuotation
        by_cases c1 : quotedBy config.twigQuotation.char (stripAll cs) = true
        · rw [if_neg (by simp [c1]), if_pos (.inl c1)]
        · by_cases c2 : config.twigQuotation = .single ∧ (stripAll cs).any hasParts = true
          · rw [if_neg (fun h => h.2.2 c2), if_pos (.inr (.inl ⟨rfl, hsg.2 c2.1, c2.2⟩))]
          · rw [if_pos ⟨rfl, by simpa using c1, c2⟩]
            dsimp only
            by_cases c3 : config.twigQuotation.char ∈ inside (stripAll cs)
            · rw [if_pos (hx.2 c3), if_pos (.inr (.inr c3))]
            · rw [if_neg (fun h => c3 (hx.1 h)), if_neg]
              rintro (h | h | h)
              · exact c1 h
              · exact c2 ⟨hsg.1 h.2.1, h.2.2⟩
              · exact c3 h
    · unfold newQuote want
      rw [wants_html he, hin]
      have hof : (wishAt config rules e).of .HTML_STRING = if runs rules "html-string-quotation".toList e then some config.htmlQuotation.char else none := rfl
      rw [hof]
      cases hr : runs rules "html-string-quotation".toList e with
      | false => rw [if_neg (by simp), if_neg (by simp)]
      | true =>
        rw [if_pos (show true = true from rfl)]
        dsimp only
        rw [h5]
        have hx := htext _ (char_quote config.htmlQuotation)
        by_cases c1 : quotedBy config.htmlQuotation.char (stripAll cs) = true
        · rw [if_neg (by simp [c1]), if_pos (.inl c1)]
        · rw [if_pos ⟨rfl, by simpa using c1⟩]
          dsimp only
          by_cases c3 : config.htmlQuotation.char ∈ inside (stripAll cs)
          · rw [if_pos (hx.2 c3), if_pos (.inr (.inr c3))]
          · rw [if_neg (fun h => c3 (hx.1 h)), if_neg]
            rintro (h | h | h)
            · exact c1 h
            · cases h.1
            · exact c3 h
  · have h1 : k ≠ .TWIG_LITERAL_STRING := fun h => hk (.inl h)
    have h2 : k ≠ .HTML_STRING := fun h => hk (.inr h)
    rw [newQuote_other (wants_ok config rules) he h1 h2, want_other h1 h2]

/-! ## One round of fixing -/

mutual
theorem turnAt_turn : ∀ (x : Tree) (pos : Nat) (path : List Frame) (w : Wish) (prev : Option Tree), Tidy x →
    (∀ k cs, x = .node k cs → wishAt config rules ⟨x, pos, path⟩ = w.at prev k) →
    turnAt (wants config rules) x pos path = x.strip.map (turn w prev)
  | .token k t, pos, path, w, prev, ht, hw => by
    unfold turnAt Tree.strip
    split
    · rfl
    · rw [List.map_cons, List.map_nil, turn_token]
  | .node k cs, pos, path, w, prev, ht, hw => by
    rw [Tidy] at ht
    have hw := hw k cs rfl
    rw [turnAt, Tree.strip, List.map_cons, List.map_nil, turn_node, newQuote_want (e := ⟨.node k cs, pos, path⟩) rfl ht.2.1 ht.2.2, hw,
      turnIn_turn cs k pos [] pos path ht.2.2 ht.1, List.nil_append, hw]
    rfl
theorem turnIn_turn : ∀ (xs : List Tree) (k : SyntaxKind) (start : Nat) (before : List Tree) (pos : Nat) (path : List Frame), TidyAll xs →
    (∀ l k' ds r, before ++ xs = l ++ .node k' ds :: r → directive l.getLast? = directive (stripAll l).getLast?) →
    turnIn (wants config rules) xs k start before pos path =
      turnAll (wishAt config rules ⟨.node k (before ++ xs), start, path⟩) (stripAll before).getLast? (stripAll xs)
  | [], k, start, before, pos, path, _, _ => by rw [turnIn, stripAll, turnAll_nil]
  | x :: xs, k, start, before, pos, path, ht, hd => by
    rw [TidyAll] at ht
    have hassoc : before ++ [x] ++ xs = before ++ x :: xs := by simp
    rw [turnIn, turnAt_turn x pos _ (wishAt config rules ⟨.node k (before ++ x :: xs), start, path⟩) (stripAll before).getLast? ht.1 ?_,
      turnIn_turn xs k start (before ++ [x]) _ path ht.2 (by rw [hassoc]; exact hd), hassoc, stripAll]
    · rcases strip_cases x with ⟨h1, _⟩ | ⟨y, hy⟩
      · rw [h1, stripAll_skip before h1]; rfl
      · rw [hy, stripAll_last before hy, List.map_cons, List.map_nil, List.singleton_append, List.singleton_append, turnAll_cons]
    · intro k' ds e
      subst e
      rw [wish_child]
      exact at_eq (hd before k' ds xs rfl)
end

mutual
theorem calmAt_nothing : ∀ (x : Tree) (pos : Nat) (path : List Frame) (w : Wish) (prev : Option Tree), Tidy x →
    (∀ k cs, x = .node k cs → wishAt config rules ⟨x, pos, path⟩ = w.at prev k) →
    (∀ y ∈ x.strip, Calm (fun _ => true) w prev y) → (elemsAt x pos path).flatMap (own (wants config rules)) = []
  | .token k t, pos, path, w, prev, ht, hw, hc => by
    rw [elemsAt, List.flatMap_cons, own_token (wants_ok config rules) (e := ⟨.token k t, pos, path⟩) rfl]
    rfl
  | .node k cs, pos, path, w, prev, ht, hw, hc => by
    rw [Tidy] at ht
    have hw := hw k cs rfl
    have hc := calm_node.1 (hc (.node k (stripAll cs)) (by simp [Tree.strip]))
    rw [elemsAt, List.flatMap_cons, newQuote_own, List.nil_append]
    · refine calmIn_nothing cs k pos [] pos path ht.2.2 ht.1 ?_
      rw [List.nil_append, hw]
      exact hc.2
    · rw [newQuote_want (e := ⟨.node k cs, pos, path⟩) rfl ht.2.1 ht.2.2, hw]
      exact hc.1 rfl
theorem calmIn_nothing : ∀ (xs : List Tree) (k : SyntaxKind) (start : Nat) (before : List Tree) (pos : Nat) (path : List Frame), TidyAll xs →
    (∀ l k' ds r, before ++ xs = l ++ .node k' ds :: r → directive l.getLast? = directive (stripAll l).getLast?) →
    CalmAll (fun _ => true) (wishAt config rules ⟨.node k (before ++ xs), start, path⟩) (stripAll before).getLast? (stripAll xs) →
    (elemsIn xs k start before pos path).flatMap (own (wants config rules)) = []
  | [], k, start, before, pos, path, _, _, _ => by rw [elemsIn]; rfl
  | x :: xs, k, start, before, pos, path, ht, hd, hc => by
    rw [TidyAll] at ht
    have hassoc : before ++ [x] ++ xs = before ++ x :: xs := by simp
    rw [stripAll] at hc
    have hsplit : (∀ y ∈ x.strip, Calm (fun _ => true) (wishAt config rules ⟨.node k (before ++ x :: xs), start, path⟩) (stripAll before).getLast? y) ∧
        CalmAll (fun _ => true) (wishAt config rules ⟨.node k (before ++ x :: xs), start, path⟩) (stripAll (before ++ [x])).getLast? (stripAll xs) := by
      rcases strip_cases x with ⟨h1, _⟩ | ⟨y, hy⟩
      · rw [h1] at hc ⊢
        rw [stripAll_skip before h1]
        exact ⟨by simp, hc⟩
      · rw [hy, List.singleton_append, calmAll_cons] at hc
        rw [hy, stripAll_last before hy]
        exact ⟨by simpa using hc.1, hc.2⟩
    rw [elemsIn, List.flatMap_append, calmAt_nothing x pos _ _ _ ht.1 ?_ hsplit.1,
      calmIn_nothing xs k start (before ++ [x]) _ path ht.2 (by rw [hassoc]; exact hd) (by rw [hassoc]; exact hsplit.2)]
    · rfl
    · intro k' ds e
      subst e
      rw [wish_child]
      exact at_eq (hd before k' ds xs rfl)
end

/-! ## The trees of templates -/

theorem proper_mem {ls : List (SyntaxKind × Text)} (h : ProperLeaves ls) : ∀ p ∈ ls, p.1.isTrivia = true → ∀ q, QuoteChar q → q ∉ p.2 := by
  induction ls with
  | nil => intro p hp; cases hp
  | cons a ls ih =>
    obtain ⟨k, t⟩ := a
    obtain ⟨h1, _, h2, h3, _⟩ := h
    intro p hp hk q hq hm
    rcases List.mem_cons.1 hp with rfl | hp
    · rcases trivia_cases hk with hk | hk
      · have := (h2 hk).1 q hm
        rcases hq with rfl | rfl <;> exact absurd this (by decide)
      · obtain ⟨l, rfl, hl⟩ := (h3 hk).1
        obtain ⟨x, hx, hm⟩ := List.mem_flatten.1 hm
        rcases hl x hx with rfl | rfl <;> rcases hq with rfl | rfl <;> exact absurd hm (by decide)
    · exact ih h1 p hp hk q hq hm

theorem template_tidy {errLen : Text → Nat} (he : ErrLenOk errLen) {s : Text} {x tree : Tree} (ht : IsTemplate (lex errLen s) x)
    (hp : parse errLen s = .ok ⟨tree, []⟩) (hx : tree.strip = [x]) : Tidy tree ∧ Intact x ∧ ∃ xs, x = .node .ROOT xs := by
  obtain ⟨xs, ht, rfl⟩ := ht
  have hparted : PartedAll tree.strip := by
    have := strs_parted (sound ht) (fun t ht q hq hk =>
      tokenized_quote (C49_lex_tokenizes he s) (t.kind, t.text) (List.mem_map.2 ⟨t, (List.mem_filter.1 ht).1, rfl⟩) q hq hk)
    rw [hx]
    simp [PartedAll, Parted, this]
  have hc : Conforms production tree := C62_error_free_tree hp rfl
  have ha : Attached tree := C69_whitespace_attached hp
  have hl : ∀ p ∈ tree.leaves, p.1.isTrivia = true → ∀ q, QuoteChar q → q ∉ p.2 := by
    obtain ⟨trees, h1, h2⟩ := C05_root_covers errLen s _ hp
    refine proper_mem (covers_proper he ?_ (C49_lex_tokenizes he s))
    have h1 : tree = _ := h1
    rw [h1]
    exact h2
  have hi := intact_of hc hparted
  rw [hx] at hi
  simp only [IntactAll, and_true] at hi
  exact ⟨tidy_of ha hc hparted hl, hi, xs, rfl⟩

theorem wishIn_of : (wishIn config rules).Of config.twigQuotation.char config.htmlQuotation.char := by
  refine ⟨fun q h => ?_, fun q h => ?_⟩
  · unfold wishIn at h
    dsimp only at h
    split at h
    · cases h; rfl
    · cases h
  · unfold wishIn at h
    dsimp only at h
    split at h
    · cases h; rfl
    · cases h

theorem root_wish {tree : Tree} : ∀ k cs, tree = .node k cs → wishAt config rules ⟨tree, 0, []⟩ = (wishIn config rules).at none k := by
  intro k cs e
  subst e
  exact wish_root

theorem round_turn {x tree : Tree} (ht : Tidy tree) (hx : tree.strip = [x]) :
    turnElems (wants config rules) [Elem.root tree] = [turn (wishIn config rules) none x] := by
  show turnAt _ tree 0 [] ++ [] = _
  rw [turnAt_turn tree 0 [] (wishIn config rules) none ht root_wish, hx]
  rfl

theorem calm_nothing {x tree : Tree} (ht : Tidy tree) (hx : tree.strip = [x]) (hc : Calm (fun _ => true) (wishIn config rules) none x) :
    elemSugs (wants config rules) [Elem.root tree] = [] := by
  show (elemsAt tree 0 []).flatMap _ ++ [] = _
  rw [calmAt_nothing tree 0 [] (wishIn config rules) none ht root_wish (by rw [hx]; simpa using hc)]
  rfl

/-! ## The directives of the file -/

/-- The rule names of the directives for the file. -/
def fileNames (ys : List Tree) : List (List RuleName) :=
  (ys.filter (nodeOf .LUDTWIG_DIRECTIVE_FILE_IGNORE)).map (fun y => directiveNames y.subtrees)

theorem top_elems {es : List Elem} : ((es.filter (fun e => e.isNode)).filter (fun c => c.kind == .LUDTWIG_DIRECTIVE_FILE_IGNORE)).map (·.directiveRules) =
    fileNames (es.map (·.tree)) := by
  unfold fileNames
  induction es with
  | nil => rfl
  | cons x es ih =>
    rw [List.map_cons, List.filter_cons, List.filter_cons]
    cases hx : x.tree with
    | token K t => rw [if_neg (by simp [token_isNode hx]), if_neg (by simp [nodeOf])]; exact ih
    | node K ds =>
      rw [if_pos (node_isNode hx), List.filter_cons, node_kind hx]
      by_cases hK : (K == .LUDTWIG_DIRECTIVE_FILE_IGNORE) = true
      · rw [if_pos hK, if_pos (show nodeOf .LUDTWIG_DIRECTIVE_FILE_IGNORE (.node K ds) = true from hK), List.map_cons, List.map_cons, ih,
          directiveRules_eq, hx]
      · rw [if_neg hK, if_neg (show ¬ nodeOf .LUDTWIG_DIRECTIVE_FILE_IGNORE (.node K ds) = true from hK)]
        exact ih

theorem top_strip (cs : List Tree) : fileNames (stripAll cs) = fileNames cs := by
  unfold fileNames
  induction cs with
  | nil => rfl
  | cons x cs ih =>
    rw [stripAll, List.filter_append, List.map_append, ih, List.filter_cons]
    cases x with
    | token K t => unfold Tree.strip; split <;> simp [nodeOf]
    | node K ds =>
      by_cases hK : (K == .LUDTWIG_DIRECTIVE_FILE_IGNORE) = true
      · rw [if_pos (show nodeOf .LUDTWIG_DIRECTIVE_FILE_IGNORE (.node K ds) = true from hK)]
        simp only [Tree.strip, List.filter_cons]
        rw [if_pos (show nodeOf .LUDTWIG_DIRECTIVE_FILE_IGNORE (.node K _) = true from hK)]
        show directiveNames (stripAll ds) :: _ = directiveNames ds :: _
        rw [names_strip]
        rfl
      · rw [if_neg (show ¬ nodeOf .LUDTWIG_DIRECTIVE_FILE_IGNORE (.node K ds) = true from hK)]
        simp only [Tree.strip, List.filter_cons]
        rw [if_neg (show ¬ nodeOf .LUDTWIG_DIRECTIVE_FILE_IGNORE (.node K _) = true from hK)]
        rfl

theorem top_turn {w : Wish} {xs : List Tree} : ∀ {prev : Option Tree}, fileNames (turnAll w prev xs) = fileNames xs := by
  unfold fileNames
  induction xs with
  | nil => intro prev; rw [turnAll_nil]
  | cons x xs ih =>
    intro prev
    rw [turnAll_cons, List.filter_cons, List.filter_cons, turn_nodeOf]
    cases x with
    | token K t => rw [if_neg (by simp [nodeOf]), if_neg (by simp [nodeOf])]; exact ih
    | node K ds =>
      by_cases hK : nodeOf .LUDTWIG_DIRECTIVE_FILE_IGNORE (.node K ds) = true
      · rw [if_pos hK, if_pos hK, List.map_cons, List.map_cons, ih]
        have : K = .LUDTWIG_DIRECTIVE_FILE_IGNORE := by simpa [nodeOf] using hK
        subst this
        rw [turn_node, want_other (by decide) (by decide)]
        show directiveNames (turnAll _ _ _) :: _ = directiveNames ds :: _
        rw [turnAll_names]
      · rw [if_neg hK, if_neg hK]; exact ih

theorem fileDirectives_top {tree : Tree} {xs : List Tree} (hx : tree.strip = [.node k xs]) : fileDirectives tree = fileNames xs := by
  obtain ⟨cs, rfl, rfl⟩ := strip_node hx
  rw [top_strip]
  have h := (kids (e := Elem.root (.node k cs)) rfl).1
  have h2 := top_elems (es := (Elem.root (.node k cs)).childrenWithTokens)
  rw [h] at h2
  exact h2

/-- Trees with the same directives for the file. -/
theorem fileRules_turn {tree tree' : Tree} {xs : List Tree} {w : Wish} (hx : tree.strip = [.node .ROOT xs])
    (hx' : tree'.strip = [turn w none (.node .ROOT xs)]) (ds : List Rule) : fileRules tree' ds = fileRules tree ds := by
  rw [turn_node, want_other (by decide) (by decide)] at hx'
  have : fileDirectives tree' = fileDirectives tree := by
    rw [fileDirectives_top hx, fileDirectives_top hx']
    exact top_turn
  unfold fileRules
  rw [this]

/-! ## The fix loop -/

/-- What is already done before a round of fixing. -/
def Done (w : Wish) (x : Tree) : Nat → Prop
  | 0 => True
  | 1 => Calm twigKind w none x
  | _ => Calm (fun _ => true) w none x

/-- A text with its tree: the tree with and without trivia. -/
structure Read (errLen : Text → Nat) (s : Text) (tree x : Tree) : Prop where
  isTemplate : IsTemplate (lex errLen s) x
  parsed : parse errLen s = .ok ⟨tree, []⟩
  strip : tree.strip = [x]

/-- A read text has a tree. -/
theorem template_read {errLen : Text → Nat} (he : ErrLenOk errLen) {s : Text} {x : Tree} (h : IsTemplate (lex errLen s) x) :
    ∃ tree, Read errLen s tree x := by
  obtain ⟨tree, h1, h2⟩ := C73_template_accepted he s h
  exact ⟨tree, h, h1, h2⟩

/-- What the fix loop ends with. -/
structure Settled (errLen : Text → Nat) (config : Config) (names : List RuleName) (tree0 : Tree) (s : Text) (results : List CheckResult) : Prop where
  nothing : getRuleContextSuggestions results = []
  read : ∃ tree x, Read errLen s tree x ∧ runRules config (rulesNamed names) tree = .ok results ∧
    ∀ ds, fileRules tree ds = fileRules tree0 ds

theorem settle_loop {errLen : Text → Nat} (he : ErrLenOk errLen) (ha : ErrAhead errLen) (config : Config) (active : List RuleName)
    {sort : List (RuleName × Suggestion) → List (RuleName × Suggestion)} (hsort : SortsRanges sort)
    (names : List RuleName) (hnames : ∀ n ∈ names, n ∈ quoteRules) (tree0 : Tree) : ∀ (n m it : Nat)
    (ctx : FileContext Tree) (results : List CheckResult) (dirty : Bool) (tree x : Tree), 2 < n + m →
    0 < n → ctx.fileRules = names → ctx.parseErrors = 0 → Read errLen ctx.sourceCode tree x → (∀ ds, fileRules tree ds = fileRules tree0 ds) →
    Done (wishIn config (rulesNamed names)) x m →
    runRules config (rulesNamed names) tree = .ok results →
    ∃ ctx' results' it' ts, fixLoop (realEngine errLen config active sort) n it ctx results dirty = (.ok ctx' results' (dirty || !ts.isEmpty) it', ts) ∧
      m + ts.length ≤ max m 2 ∧ (ctx.sourceCode :: ts).getLast? = some ctx'.sourceCode ∧ ctx'.parseErrors = 0 ∧
      Settled errLen config names tree0 ctx'.sourceCode results' := by
  intro n
  induction n with
  | zero => intro m it ctx results dirty tree x _ h; cases h
  | succ n ih =>
    intro m it ctx results dirty tree x hn _ hc herr hread hfile hdone hr
    have hmem : ∀ r ∈ rulesNamed names, r.name ∈ quoteRules := by
      intro r hr
      have := (List.mem_filter.mp hr).2
      exact hnames _ (by simpa using this)
    obtain ⟨htidy, hintact, xs, rfl⟩ := template_tidy he hread.isTemplate hread.parsed hread.strip
    by_cases hemp : getRuleContextSuggestions results = []
    · refine ⟨ctx, results, it, [], ?_, by simp; omega, rfl, herr, hemp, tree, _, hread, hr, hfile⟩
      rw [fixLoop_nothing _ n it ctx results dirty hemp]
      simp
    · have hm : m = 0 ∨ m = 1 := by
        match m, hdone with
        | 0, _ => exact .inl rfl
        | 1, _ => exact .inr rfl
        | m + 2, hdone =>
          refine absurd ?_ hemp
          have := quote_results config (rulesNamed_sublist names) hmem hr
          rw [calm_nothing htidy hread.strip hdone] at this
          exact List.map_eq_nil_iff.1 this
      obtain ⟨s', h1, h2, x', h3, h4, h5⟩ := quote_round he ha hread.isTemplate hread.parsed config (rulesNamed_sublist names) hmem hsort hr
      rw [round_turn htidy hread.strip] at h5
      cases h5
      obtain ⟨tree', hread'⟩ := template_read he h3
      obtain ⟨results', hr'⟩ := C66_rules_never_panic hread'.parsed config (rulesNamed names)
        (fun r hr => (rulesNamed_sublist names).subset hr)
      have hfile' : ∀ ds, fileRules tree' ds = fileRules tree0 ds := fun ds => by
        rw [fileRules_turn hread.strip hread'.strip, hfile]
      have hdone' : Done (wishIn config (rulesNamed names)) (turn (wishIn config (rulesNamed names)) none (.node .ROOT xs)) (m + 1) := by
        rcases hm with rfl | rfl
        · exact calm_once (char_quote _) wishIn_of hintact
        · exact calm_twice (char_quote _) (char_quote _) wishIn_of hintact hdone
      obtain ⟨ctx', res, it', ts, g1, g2, g3, g4⟩ := ih (m + 1) (it + 1) ⟨tree', s', 0, ctx.fileRules⟩ results' true tree' _ (by omega) (by omega) hc rfl
        hread' hfile' hdone' hr'
      refine ⟨ctx', res, it', s' :: ts, ?_, by simp only [List.length_cons]; omega, ?_, g4⟩
      · rw [fixLoop_next (realEngine errLen config active sort) n it ctx results dirty [] s' tree'
          0 results' hemp h1 h2 ((realEngine_parse ..).mpr ⟨_, hread'.parsed, rfl, rfl⟩)
          (by rw [hc]; exact (realEngine_run ..).mpr hr')]
        rw [show (⟨tree', s', 0, ctx.fileRules⟩ : FileContext Tree) = { ctx with sourceCode := s', tree := tree', parseErrors := 0 } from rfl] at g1
        rw [g1]
        simp
      · rw [List.getLast?_cons_cons]
        exact g3

/-! ## Processing a template -/

/-- What processing a file with `--fix` comes to, if the fix loop settles. -/
theorem run_of_loop {errLen : Text → Nat} {config : Config} {active : List RuleName}
    {sort : List (RuleName × Suggestion) → List (RuleName × Suggestion)}
    {original : Text} {tree x : Tree} (hread : Read errLen original tree x) {N : Nat}
    (hloop : ∀ results, runRules config (rulesNamed ((fileRules tree (rulesNamed active)).map (·.name))) tree = .ok results →
      ∃ ctx' results' it' ts, fixLoop (realEngine errLen config active sort) 10 0 ⟨tree, original, 0, (fileRules tree (rulesNamed active)).map (·.name)⟩
          results false = (.ok ctx' results' (false || !ts.isEmpty) it', ts) ∧
        0 + ts.length ≤ max 0 N ∧ (original :: ts).getLast? = some ctx'.sourceCode ∧ ctx'.parseErrors = 0 ∧
        Settled errLen config ((fileRules tree (rulesNamed active)).map (·.name)) tree ctx'.sourceCode results')
    (inspect writeOk : Bool) :
    ∃ t results ts, Settled errLen config ((fileRules tree (rulesNamed active)).map (·.name)) tree t results ∧
      ts.length ≤ N ∧ (original :: ts).getLast? = some t ∧
      runAnalysis (realEngine errLen config active sort) ⟨true, inspect⟩ writeOk original =
        if ts ≠ [] ∧ writeOk = false then ⟨[t], [], .err .fileWrite, original :: ts⟩
        else ⟨if ts = [] then [] else [t], produceDiagnostics inspect 0 results ++ [.outputStderrMessage], .ok, original :: ts⟩ := by
  obtain ⟨results, hr⟩ := C66_rules_never_panic hread.parsed config
    (rulesNamed ((realEngine errLen config active sort).fileRules tree))
    (fun r hr => (rulesNamed_sublist _).subset hr)
  have hp' : (realEngine errLen config active sort).parse original = some (tree, 0) :=
    (realEngine_parse ..).mpr ⟨_, hread.parsed, rfl, rfl⟩
  have hr' : (realEngine errLen config active sort).runRules
      ((realEngine errLen config active sort).fileRules tree) tree = some results :=
    (realEngine_run ..).mpr hr
  obtain ⟨ctx', results', it', ts, g1, g2, g3, g4, g5⟩ := hloop results hr
  refine ⟨ctx'.sourceCode, results', ts, g5, by omega, g3, ?_⟩
  unfold runAnalysis
  rw [hp']
  dsimp only
  rw [hr']
  dsimp only
  unfold iterativelyApplySuggestions
  rw [if_pos rfl, show (realEngine errLen config active sort).fileRules tree = (fileRules tree (rulesNamed active)).map (·.name) from rfl, g1]
  dsimp only
  rw [g4]
  cases ts <;> cases writeOk <;> rfl

/-- The names of the rules for a file are among the active ones. -/
theorem fileRules_active {active allowed : List RuleName} (hactive : ∀ n ∈ active, n ∈ allowed) (tree : Tree) :
    ∀ n ∈ (fileRules tree (rulesNamed active)).map (·.name), n ∈ allowed := by
  intro n hn
  obtain ⟨r, hr, rfl⟩ := List.mem_map.mp hn
  have h1 := (List.mem_filter.mp ((fileRules_sublist _ _).subset hr)).2
  exact hactive _ (by simpa using h1)

/-- What is known of a processed template, with `--fix`. -/
theorem settle_run {errLen : Text → Nat} (he : ErrLenOk errLen) (ha : ErrAhead errLen)
    (config : Config) (active : List RuleName) (hactive : ∀ n ∈ active, n ∈ quoteRules)
    {sort : List (RuleName × Suggestion) → List (RuleName × Suggestion)} (hsort : SortsRanges sort)
    (inspect writeOk : Bool) {original : Text} {tree x : Tree} (hread : Read errLen original tree x) :
    ∃ t results ts, Settled errLen config ((fileRules tree (rulesNamed active)).map (·.name)) tree t results ∧
      ts.length ≤ 2 ∧ (original :: ts).getLast? = some t ∧
      runAnalysis (realEngine errLen config active sort) ⟨true, inspect⟩ writeOk original =
        if ts ≠ [] ∧ writeOk = false then ⟨[t], [], .err .fileWrite, original :: ts⟩
        else ⟨if ts = [] then [] else [t], produceDiagnostics inspect 0 results ++ [.outputStderrMessage], .ok, original :: ts⟩ :=
  run_of_loop hread (fun results hr => settle_loop he ha config active hsort _ (fileRules_active hactive tree) tree 10 0 0
    ⟨tree, original, 0, _⟩ results false tree x (by omega) (by omega) rfl rfl hread (fun _ => rfl) trivial hr) inspect writeOk

/-- Nothing is done to a settled text. -/
theorem settled_run {errLen : Text → Nat} {config : Config} {active : List RuleName}
    {sort : List (RuleName × Suggestion) → List (RuleName × Suggestion)} {tree0 : Tree} {t : Text} {results : List CheckResult}
    (h : Settled errLen config ((fileRules tree0 (rulesNamed active)).map (·.name)) tree0 t results) (flags : Flags) (writeOk : Bool) :
    runAnalysis (realEngine errLen config active sort) flags writeOk t =
      ⟨[], produceDiagnostics flags.inspect 0 results ++ [.outputStderrMessage], .ok, [t]⟩ := by
  obtain ⟨h1, tree, x, h2, h3, h4⟩ := h
  have hp' : (realEngine errLen config active sort).parse t = some (tree, 0) :=
    (realEngine_parse ..).mpr ⟨_, h2.parsed, rfl, rfl⟩
  have hf : (realEngine errLen config active sort).fileRules tree = (fileRules tree0 (rulesNamed active)).map (·.name) := by
    show (fileRules tree (rulesNamed active)).map (·.name) = _
    rw [h4]
  have hr' : (realEngine errLen config active sort).runRules ((fileRules tree0 (rulesNamed active)).map (·.name)) tree = some results :=
    (realEngine_run ..).mpr h3
  unfold runAnalysis
  rw [hp']
  dsimp only
  rw [hf, hr']
  dsimp only
  unfold iterativelyApplySuggestions
  rw [fixLoop_nothing _ _ _ _ _ _ h1]
  split <;> rfl

/-- What is known of a processed file, if its fixing settles. -/
theorem settled_claims {errLen : Text → Nat} {config : Config} {active : List RuleName}
    {sort : List (RuleName × Suggestion) → List (RuleName × Suggestion)} {original : Text} {tree x : Tree}
    (hread : Read errLen original tree x) {N : Nat} (flags : Flags) (writeOk : Bool)
    (h : ∀ inspect, ∃ t results ts, Settled errLen config ((fileRules tree (rulesNamed active)).map (·.name)) tree t results ∧
      ts.length ≤ N ∧ (original :: ts).getLast? = some t ∧
      runAnalysis (realEngine errLen config active sort) ⟨true, inspect⟩ writeOk original =
        if ts ≠ [] ∧ writeOk = false then ⟨[t], [], .err .fileWrite, original :: ts⟩
        else ⟨if ts = [] then [] else [t], produceDiagnostics inspect 0 results ++ [.outputStderrMessage], .ok, original :: ts⟩) :
    let run := runAnalysis (realEngine errLen config active sort) flags writeOk original
    (run.outcome = .ok ∨ (flags.fix = true ∧ writeOk = false ∧ run.outcome = .err .fileWrite)) ∧
    run.parsed.length ≤ N + 1 ∧
    ∀ t ∈ run.writes, ∀ flags' writeOk',
      let again := runAnalysis (realEngine errLen config active sort) flags' writeOk' t
      again.outcome = .ok ∧ again.parsed = [t] ∧ again.writes = [] ∧
        (run.outcome = .ok → flags'.inspect = flags.inspect → again.events = run.events) := by
  obtain ⟨fix, inspect⟩ := flags
  cases fix with
  | false =>
    obtain ⟨results, hr⟩ := C66_rules_never_panic hread.parsed config
      (rulesNamed ((realEngine errLen config active sort).fileRules tree))
      (fun r hr => (rulesNamed_sublist _).subset hr)
    have hp' : (realEngine errLen config active sort).parse original = some (tree, 0) :=
      (realEngine_parse ..).mpr ⟨_, hread.parsed, rfl, rfl⟩
    have hr' : (realEngine errLen config active sort).runRules
        ((realEngine errLen config active sort).fileRules tree) tree = some results :=
      (realEngine_run ..).mpr hr
    intro run
    have hrun : run = runAnalysis (realEngine errLen config active sort) ⟨false, inspect⟩ writeOk original := rfl
    clear_value run
    unfold runAnalysis at hrun
    rw [hp'] at hrun
    dsimp only at hrun
    rw [hr'] at hrun
    dsimp only at hrun
    rw [if_neg (by simp)] at hrun
    subst hrun
    exact ⟨.inl rfl, by simp, by simp⟩
  | true =>
    obtain ⟨t, results, ts, h1, h2, h3, h4⟩ := h inspect
    intro run
    have hrun : run = runAnalysis (realEngine errLen config active sort) ⟨true, inspect⟩ writeOk original := rfl
    clear_value run
    rw [h4] at hrun
    subst hrun
    have hw : ∀ s ∈ (if ts ≠ [] ∧ writeOk = false then (⟨[t], [], .err .fileWrite, original :: ts⟩ : FileRun)
        else ⟨if ts = [] then [] else [t], produceDiagnostics inspect 0 results ++ [.outputStderrMessage], .ok, original :: ts⟩).writes, s = t := by
      intro s hs
      split at hs
      · simpa using hs
      · dsimp only at hs
        split at hs
        · cases hs
        · simpa using hs
    refine ⟨?_, ?_, ?_⟩
    · split
      · rename_i h; exact .inr ⟨rfl, h.2, rfl⟩
      · exact .inl rfl
    · split <;> simp <;> omega
    · intro s hs flags' writeOk'
      obtain rfl := hw s hs
      intro again
      have hagain : again = runAnalysis (realEngine errLen config active sort) flags' writeOk' s := rfl
      clear_value again
      rw [settled_run h1] at hagain
      subst hagain
      refine ⟨rfl, rfl, rfl, fun ho hi => ?_⟩
      split
      · rename_i h; rw [if_pos h] at ho; cases ho
      · dsimp only; rw [hi]

/-- C77: fixing the quotes of a template takes at most two rounds, so that at most three texts are parsed and the
limit of rounds is never reached. A file that was written stays as it is when it is processed again: nothing is
left to fix, and the same is reported. -/
theorem C77_quote_fix_settles {errLen : Text → Nat} (he : ErrLenOk errLen) (ha : ErrAhead errLen)
    (config : Config) (active : List RuleName) (hactive : ∀ n ∈ active, n ∈ quoteRules)
    {sort : List (RuleName × Suggestion) → List (RuleName × Suggestion)} (hsort : SortsRanges sort)
    (flags : Flags) (writeOk : Bool) {original : Text} (ht : TemplateText errLen original) :
    let run := runAnalysis (realEngine errLen config active sort) flags writeOk original
    (run.outcome = .ok ∨ (flags.fix = true ∧ writeOk = false ∧ run.outcome = .err .fileWrite)) ∧
    run.parsed.length ≤ 3 ∧
    ∀ t ∈ run.writes, ∀ flags' writeOk',
      let again := runAnalysis (realEngine errLen config active sort) flags' writeOk' t
      again.outcome = .ok ∧ again.parsed = [t] ∧ again.writes = [] ∧
        (run.outcome = .ok → flags'.inspect = flags.inspect → again.events = run.events) := by
  obtain ⟨x, hx⟩ := ht
  obtain ⟨tree, hread⟩ := template_read he hx
  exact settled_claims hread flags writeOk (fun inspect => settle_run he ha config active hactive hsort inspect writeOk hread)

/-! ## The quotes at the end -/

/-- A rule is active for the file, and no directive switches it off on the element. -/
def Applies (active : List RuleName) (root : Tree) (n : RuleName) (e : Elem) : Prop :=
  n ∈ active ∧ [] ∉ topDirectives root ∧ (∀ d ∈ topDirectives root, n ∉ d) ∧ hidden e = false ∧ switchedOff n e = false

/-- The parts of a string: apart from trivia, one node between two quotes `q`. -/
def BetweenQuotes (q : Char) (cs : List Tree) : Prop :=
  ∃ k is, stripAll cs = [.token (quoteKind q) [q], .node k is, .token (quoteKind q) [q]]

/-- One of the parts, which is not a token, contains the character. -/
def Contains (q : Char) (cs : List Tree) : Prop := ∃ k is, .node k is ∈ cs ∧ q ∈ (Tree.node k is).text

/-- One of the parts has an interpolation. -/
def Interpolates (cs : List Tree) : Prop := ∃ k is ds, .node k is ∈ cs ∧ .node .TWIG_LITERAL_STRING_INTERPOLATION ds ∈ is

mutual
theorem tidy_elem : ∀ {x : Tree} {pos : Nat} {path : List Frame}, Tidy x → ∀ e ∈ elemsAt x pos path, Tidy e.tree
  | .token k t, pos, path, h, e, he => by
    rw [elemsAt] at he
    obtain rfl := List.mem_singleton.1 he
    exact h
  | .node k cs, pos, path, h, e, he => by
    rw [elemsAt] at he
    rcases List.mem_cons.1 he with rfl | he
    · exact h
    · rw [Tidy] at h
      exact tidy_elems h.2.2 e he
theorem tidy_elems : ∀ {xs : List Tree} {k : SyntaxKind} {start : Nat} {before : List Tree} {pos : Nat} {path : List Frame}, TidyAll xs →
    ∀ e ∈ elemsIn xs k start before pos path, Tidy e.tree
  | [], k, start, before, pos, path, h, e, he => by rw [elemsIn] at he; cases he
  | x :: xs, k, start, before, pos, path, h, e, he => by
    rw [elemsIn] at he
    rw [TidyAll] at h
    rcases List.mem_append.1 he with he | he
    · exact tidy_elem h.1 e he
    · exact tidy_elems h.2 e he
end

theorem own_newQuote {dec : Elem → Option Char} (h : own dec e = []) : newQuote dec e = none := by
  unfold own at h
  unfold newQuote
  cases hd : dec e with
  | none => rfl
  | some q =>
    rw [hd] at h
    dsimp only at h ⊢
    unfold quoteSugs at h
    cases hi : innerPart e with
    | none => rfl
    | some i =>
      rw [hi] at h
      dsimp only at h ⊢
      split at h
      · rename_i hc; rw [if_pos hc]
      · cases h

theorem strip_mem_nodes {xs is : List Tree} {k : SyntaxKind} (h : .node k is ∈ stripAll xs) : ∃ ds, .node k ds ∈ xs ∧ stripAll ds = is := by
  induction xs with
  | nil => simp [stripAll] at h
  | cons x xs ih =>
    rw [stripAll] at h
    rcases List.mem_append.1 h with h | h
    · cases x with
      | token K t => unfold Tree.strip at h; split at h <;> simp at h
      | node K ds =>
        simp only [Tree.strip, List.mem_singleton, Tree.node.injEq] at h
        obtain ⟨rfl, rfl⟩ := h
        exact ⟨ds, List.mem_cons_self, rfl⟩
    · obtain ⟨ds, h1, h2⟩ := ih h
      exact ⟨ds, List.mem_cons_of_mem _ h1, h2⟩

/-- What it means that nothing is wanted for a string. -/
theorem want_none {w : Wish} {q : Char} (hq : QuoteChar q) (hk : w.of k = some q) (ht : TidyAll cs) (hs : StringParts k (stripAll cs)) (h : want w k (stripAll cs) = none) :
    BetweenQuotes q cs ∨ (k = .TWIG_LITERAL_STRING ∧ q = '\'' ∧ Interpolates cs) ∨ Contains q cs := by
  unfold want at h
  rw [hk] at h
  dsimp only at h
  split at h
  · rename_i hc
    obtain ⟨ki, is, hkk, hshape⟩ := hs
    have hmem : .node ki is ∈ stripAll cs := by rcases hshape with h | ⟨a, b, _, _, h⟩ <;> rw [h] <;> simp
    obtain ⟨ds, hds, rfl⟩ := strip_mem_nodes hmem
    rcases hc with hc | ⟨h1, h2, hc⟩ | hc
    · refine .inl ⟨ki, stripAll ds, ?_⟩
      rcases hshape with h | ⟨a, b, ha, hb, h⟩
      · rw [h] at hc
        simp [quotedBy, isQuoteLeaf] at hc
      · rw [h] at hc ⊢
        unfold quotedBy at hc
        rw [List.filter_cons_of_pos (by simp [quoteKind_leaf ha]), List.filter_cons_of_neg (by simp [isQuoteLeaf]), List.filter_cons_of_pos (by simp [quoteKind_leaf hb])] at hc
        simp [quoteLeaf, Tree.text] at hc
        obtain ⟨rfl, rfl⟩ := hc
        rfl
    · refine .inr (.inl ⟨h1, h2, ?_⟩)
      have : (stripAll ds).any (nodeOf .TWIG_LITERAL_STRING_INTERPOLATION) = true := by
        rcases hshape with h | ⟨a, b, _, _, h⟩ <;> rw [h] at hc <;> simpa [hasParts, quoteLeaf] using hc
      obtain ⟨y, hy, hn⟩ := List.any_eq_true.1 this
      cases y with
      | token => simp [nodeOf] at hn
      | node K zs =>
        have : K = .TWIG_LITERAL_STRING_INTERPOLATION := by simpa [nodeOf] using hn
        subst this
        obtain ⟨es, h3, _⟩ := strip_mem_nodes hy
        exact ⟨ki, ds, es, hds, h3⟩
    · refine .inr (.inr ⟨ki, ds, hds, ?_⟩)
      have h6 := quote_in_text hq (tidyAll_mem ht _ hds)
      have h7 : inside (stripAll cs) = (Tree.node ki (stripAll ds)).text := by
        rcases hshape with h | ⟨a, b, ha, hb, h⟩
        · rw [h]; simp [inside, isQuoteLeaf]
        · rw [h]
          unfold inside
          rw [List.filter_cons_of_neg (by simp [quoteKind_leaf ha]), List.filter_cons_of_pos (by rfl), List.filter_cons_of_neg (by simp [quoteKind_leaf hb])]
          simp
      rw [h7] at hc
      apply h6.1
      simpa [Tree.strip] using hc
  · cases h

theorem applies_runs {active : List RuleName} {tree : Tree} {n : RuleName} (hn : n ∈ definitions.map (·.name)) (h : Applies active tree n e) :
    runs (rulesNamed ((fileRules tree (rulesNamed active)).map (·.name))) n e = true := by
  obtain ⟨h1, h2, h3, h4, h5⟩ := h
  unfold runs
  rw [h4, h5]
  obtain ⟨r, hr, rfl⟩ := List.mem_map.1 hn
  simp only [Bool.not_false, Bool.true_and, List.any_eq_true]
  refine ⟨r, List.mem_filter.2 ⟨hr, ?_⟩, by simp⟩
  rw [List.contains_iff_mem]
  refine List.mem_map.2 ⟨r, ?_, rfl⟩
  rw [C17_file_rules, if_neg h2]
  refine List.mem_filter.2 ⟨List.mem_filter.2 ⟨hr, by simpa using h1⟩, by simpa using h3⟩

/-- What is known of the strings of a tree on which the rules want nothing. -/
theorem quotes_wanted {config : Config} {rules : List Rule} {tree : Tree} (htidy : Tidy tree)
    (hnone : elemSugs (wants config rules) [Elem.root tree] = []) : ∀ e ∈ tree.elems,
      (∀ cs, e.tree = .node .HTML_STRING cs → runs rules "html-string-quotation".toList e = true →
        BetweenQuotes config.htmlQuotation.char cs ∨ Contains config.htmlQuotation.char cs) ∧
      (∀ cs, e.tree = .node .TWIG_LITERAL_STRING cs → runs rules "twig-string-quotation".toList e = true →
        BetweenQuotes config.twigQuotation.char cs ∨ Contains config.twigQuotation.char cs ∨
          (config.twigQuotation = .single ∧ Interpolates cs)) := by
  have hown : ∀ e ∈ tree.elems, own (wants config rules) e = [] := by
    intro e he
    have h5 := hnone
    simp only [elemSugs, List.flatMap_cons, List.flatMap_nil, List.append_nil, List.flatMap_eq_nil_iff] at h5
    exact h5 e he
  intro e hel
  have htd := tidy_elem htidy e hel
  have hnq := own_newQuote (hown e hel)
  refine ⟨fun cs hcs happ => ?_, fun cs hcs happ => ?_⟩
  · rw [hcs, Tidy] at htd
    rw [newQuote_want hcs htd.2.1 htd.2.2] at hnq
    have hof : (wishAt config rules e).of .HTML_STRING = some config.htmlQuotation.char := by
      show (if runs _ _ e = true then _ else _) = _
      rw [if_pos happ]
    rcases want_none (char_quote _) hof htd.2.2 (htd.2.1 (.inr rfl)) hnq with h | ⟨h, _⟩ | h
    · exact .inl h
    · cases h
    · exact .inr h
  · rw [hcs, Tidy] at htd
    rw [newQuote_want hcs htd.2.1 htd.2.2] at hnq
    have hof : (wishAt config rules e).of .TWIG_LITERAL_STRING = some config.twigQuotation.char := by
      show (if runs _ _ e = true then _ else _) = _
      rw [if_pos happ]
    rcases want_none (char_quote _) hof htd.2.2 (htd.2.1 (.inl rfl)) hnq with h | ⟨_, h, hi⟩ | h
    · exact .inl h
    · exact .inr (.inr ⟨(char_single _).1 h, hi⟩)
    · exact .inr (.inl h)

/-- C78: after a template was processed with `--fix`, every attribute value and every string of Twig on which its rule
for quotes is active is between the quotes of the config, unless the text inside contains that quote, or it is a
string of Twig with interpolations and the config wants single quotes. -/
theorem C78_quotes_after_fix {errLen : Text → Nat} (he : ErrLenOk errLen) (ha : ErrAhead errLen)
    (config : Config) (active : List RuleName) (hactive : ∀ n ∈ active, n ∈ quoteRules)
    {sort : List (RuleName × Suggestion) → List (RuleName × Suggestion)} (hsort : SortsRanges sort)
    (inspect writeOk : Bool) {original : Text} (ht : TemplateText errLen original) :
    let run := runAnalysis (realEngine errLen config active sort) ⟨true, inspect⟩ writeOk original
    ∃ t tree, (run.writes = [t] ∨ run.writes = [] ∧ t = original) ∧ parse errLen t = .ok ⟨tree, []⟩ ∧
      ∀ e ∈ tree.elems,
        (∀ cs, e.tree = .node .HTML_STRING cs → Applies active tree "html-string-quotation".toList e →
          BetweenQuotes config.htmlQuotation.char cs ∨ Contains config.htmlQuotation.char cs) ∧
        (∀ cs, e.tree = .node .TWIG_LITERAL_STRING cs → Applies active tree "twig-string-quotation".toList e →
          BetweenQuotes config.twigQuotation.char cs ∨ Contains config.twigQuotation.char cs ∨
            (config.twigQuotation = .single ∧ Interpolates cs)) := by
  obtain ⟨x, hx⟩ := ht
  obtain ⟨tree0, hread0⟩ := template_read he hx
  obtain ⟨t, results, ts, h1, h2, h3, h4⟩ := settle_run he ha config active hactive hsort inspect writeOk hread0
  intro run
  have hrun : run = runAnalysis (realEngine errLen config active sort) ⟨true, inspect⟩ writeOk original := rfl
  clear_value run
  rw [h4] at hrun
  obtain ⟨k1, tree, x', k2, k3, k4⟩ := h1
  refine ⟨t, tree, ?_, k2.parsed, ?_⟩
  · subst hrun
    cases ts with
    | nil => exact .inr ⟨by simp, by simpa using h3.symm⟩
    | cons a ts => left; split <;> simp
  · rw [← k4] at k3
    have hmem : ∀ r ∈ rulesNamed ((fileRules tree (rulesNamed active)).map (·.name)), r.name ∈ quoteRules := by
      intro r hr
      have := (List.mem_filter.mp hr).2
      rw [List.contains_iff_mem] at this
      obtain ⟨r', hr', e'⟩ := List.mem_map.mp this
      have h1 := (List.mem_filter.mp ((fileRules_sublist _ _).subset hr')).2
      rw [← e']
      exact hactive _ (by simpa using h1)
    obtain ⟨htidy, _⟩ := template_tidy he k2.isTemplate k2.parsed k2.strip
    have hnone := quote_results config (rulesNamed_sublist _) hmem k3
    rw [k1] at hnone
    intro e hel
    obtain ⟨g1, g2⟩ := quotes_wanted htidy hnone.symm e hel
    exact ⟨fun cs hcs happ => g1 cs hcs (applies_runs (by decide) happ), fun cs hcs happ => g2 cs hcs (applies_runs (by decide) happ)⟩

/-- The hypotheses of C77 and C78 for the file of C75, which takes two rounds; the file that is written is left alone. -/
example : (∀ n ∈ quoteRules, n ∈ quoteRules) ∧ SortsRanges insertionSort ∧ ErrAhead (fun _ => 1) ∧ TemplateText (fun _ => 1) quotedSample ∧
    (runAnalysis (realEngine (fun _ => 1) defaultConfig quoteRules insertionSort) ⟨true, false⟩ true quotedSample).parsed.length = 3 ∧
    (runAnalysis (realEngine (fun _ => 1) defaultConfig quoteRules insertionSort) ⟨true, false⟩ true
      "<p a=\"b\" c=\"{{ d }}\" e=\"{{ 'f' }}\"></p>".toList).writes = [] :=
  ⟨fun _ h => h, insertionSort_sorts, errAhead_one, QuoteSample.isTemplate, by decide +kernel, by decide +kernel⟩

/-- The strings of a text with the quotes that the config wants, as in C78: the rule applies, and the value is quoted or
contains the quote. -/
example : Gives (parse (fun _ => 1) "<p a=\"b\" c='\"'></p>".toList) (fun p =>
    let es := p.tree.elems.filter (fun e => e.isNode && e.kind == .HTML_STRING)
    es.length == 2 && es.all (fun e => quoteRules.contains "html-string-quotation".toList && (topDirectives p.tree).isEmpty && !hidden e &&
      !switchedOff "html-string-quotation".toList e)) = true := by decide +kernel

end Ludtwig.Rules
