import Verif.Template.Requote
import Verif.Template.Unquote

/-!
# Changing quotes in a template: lemmas (proof device for C75)
-/

namespace Ludtwig.Template

variable {C : Change} {blank blank' : Nat → Prop} {t : Token} {u v w : List Token} {x : Tree} {xs zs : List Tree} {c c' : Ctx}

/-! ## Heads -/

theorem quote_kind {t : Token} (h : IsQuote t) : t.kind ∈ quotes := h.1

theorem quote_name {t : Token} (h : IsQuote t) : ¬ TwigName t.text := by
  rintro ⟨a, as, e, h1, _⟩
  rcases h.2 with h | h <;> rw [h] at e <;> cases e <;> revert h1 <;> unfold TwigLetter Letter <;> decide

theorem image_head (h : Image C t) : ∃ t' s, C.image t = t' :: s ∧ (t' = C.moved t ∨ IsQuote t') := by
  cases h with
  | plain h => exact ⟨_, _, h, .inl rfl⟩
  | swapped _ h2 h3 => exact ⟨_, _, h3, .inr h2⟩
  | word _ h1 _ h => exact ⟨_, _, h, .inr h1⟩
  | opened _ h1 h => exact ⟨_, _, h, .inr h1⟩
  | closed _ _ h => exact ⟨_, _, h, .inl rfl⟩

theorem all_head (ok : C.Ok blank blank') {t' : Token} (h : t' ∈ (C.all u).head?) :
    (∃ t s, t ∈ u.head? ∧ t' = C.moved t ∧ C.image t = C.moved t :: s) ∨ IsQuote t' := by
  cases u with
  | nil => cases h
  | cons t u =>
    obtain ⟨q, s, h1, h2⟩ := image_head (ok.images t)
    rw [all_cons, h1] at h
    cases h
    rcases h2 with h2 | h2
    · subst h2
      exact .inl ⟨t, s, rfl, rfl, h1⟩
    · exact .inr h2

theorem all_head_kind (ok : C.Ok blank blank') {ks : List SyntaxKind} (hk : ∀ k ∈ quotes, k ∉ ks) (h : ∀ t ∈ u.head?, t.kind ∉ ks) :
    ∀ t ∈ (C.all u).head?, t.kind ∉ ks := by
  intro t' ht'
  rcases all_head ok ht' with ⟨t, _, ht, rfl, _⟩ | hq
  · exact h t ht
  · exact hk _ hq.1

theorem no_argument_name (ok : C.Ok blank blank') (h : NoArgumentName u) : NoArgumentName (C.all u) := by
  intro t' e' w' hu ht' he'
  have hq : ∀ {q k}, IsQuote q → q.kind = k → k ∈ quotes := fun hq e => e ▸ hq.1
  cases u with
  | nil => cases hu
  | cons t u =>
    rw [all_cons] at hu
    cases ok.images t with
    | plain h1 =>
      rw [h1] at hu
      obtain ⟨rfl, h2⟩ := List.cons.inj hu
      rcases all_head ok (u := u) (t' := e') (by rw [show C.all u = e' :: w' from h2]; rfl) with ⟨e, _, he, rfl, _⟩ | h3
      · cases u with
        | nil => cases he
        | cons e1 u =>
          cases he
          exact h _ _ _ rfl ht' he'
      · have := hq h3 he'
        revert this
        decide
    | swapped _ h1 h2 =>
      rw [h2] at hu
      obtain ⟨rfl, -⟩ := List.cons.inj hu
      have := hq h1 ht'
      revert this
      decide
    | word _ h1 _ h2 =>
      rw [h2] at hu
      obtain ⟨rfl, -⟩ := List.cons.inj hu
      have := hq h1 ht'
      revert this
      decide
    | opened _ h1 h2 =>
      rw [h2] at hu
      obtain ⟨rfl, -⟩ := List.cons.inj hu
      have := hq h1 ht'
      revert this
      decide
    | closed _ h1 h2 =>
      rw [h2] at hu
      simp only [List.cons_append, List.cons.injEq] at hu
      obtain ⟨-, rfl, -⟩ := hu
      have := hq h1 he'
      revert this
      decide

theorem all_ne (ok : C.Ok blank blank') (h : C.all u = []) : u = [] := by
  cases u with
  | nil => rfl
  | cons t u =>
    obtain ⟨q, s, h1, _⟩ := image_head (ok.images t)
    rw [all_cons, h1] at h
    cases h

theorem paren_start (ok : C.Ok blank blank') (h : ParenStart u) : ParenStart (C.all u) := by
  cases u with
  | nil => exact h
  | cons t u =>
    obtain ⟨h1, h2⟩ := h
    have hq : ∀ q s, IsQuote q → ParenStart (q :: s) := fun q s hq =>
      ⟨fun h => by have := hq.1; revert this h; generalize q.kind = k; revert k; decide, fun h => absurd h (quote_name hq)⟩
    have hm : ∀ s, (∀ t' ∈ s.head?, (∃ t ∈ u.head?, t'.kind = t.kind) ∨ t'.kind ∈ quotes) → ParenStart (C.moved t :: s) := by
      intro s hs
      refine ⟨h1, fun h => (h2 h).imp id fun ⟨h3, h4⟩ => ⟨h3, fun t' ht' => ?_⟩⟩
      rcases hs t' ht' with ⟨t0, h5, h6⟩ | h5
      · rw [h6]; exact h4 _ h5
      · revert h5; generalize t'.kind = k; revert k; decide
    rw [all_cons]
    cases ok.images t with
    | plain h3 =>
      rw [h3]
      refine hm _ fun t' ht' => ?_
      rcases all_head ok ht' with ⟨t, _, ht, rfl, _⟩ | h'
      · exact .inl ⟨t, ht, rfl⟩
      · exact .inr h'.1
    | swapped _ h3 h4 => rw [h4]; exact hq _ _ h3
    | word _ h3 _ h4 => rw [h4]; exact hq _ _ h3
    | opened _ h3 h4 => rw [h4]; exact hq _ _ h3
    | closed _ h3 h4 =>
      rw [h4]
      refine hm _ fun t' ht' => ?_
      cases ht'
      exact .inr h3.1

/-! ## Strings -/

theorem align {r r' : Token} {u' : List Token} (h : v ++ r' :: u' = u ++ r :: w) (hl : wlen v = wlen u) (hv : ∀ t ∈ v, t.text ≠ [])
    (hr' : r'.text ≠ []) : v = u ∧ r' = r ∧ u' = w := by
  have pos : ∀ {s : Text}, s ≠ [] → 0 < s.length := fun h => List.length_pos_iff.2 h
  rcases List.append_eq_append_iff.1 h with ⟨a, h1, h2⟩ | ⟨a, h1, h2⟩
  · cases a with
    | nil => cases h2; exact ⟨by simpa using h1.symm, rfl, rfl⟩
    | cons b a =>
      cases h2
      rw [h1, wlen_append, wlen_cons] at hl
      have := pos hr'
      omega
  · cases a with
    | nil => cases h2; exact ⟨by simpa using h1, rfl, rfl⟩
    | cons b a =>
      cases h2
      rw [h1, wlen_append, wlen_cons] at hl
      have := pos (hv r (by rw [h1]; simp))
      omega

theorem fits_string {l r : Token} (hu : wlen u = tlens xs)
    (h : Fits C (l :: (u ++ r :: w)) (.node .TWIG_LITERAL_STRING [l.tree, .node .TWIG_LITERAL_STRING_INNER xs, r.tree] :: zs)) :
    C.Quotes l u r xs true ∧ Fits C u xs ∧ Fits C w zs := by
  generalize hU : u ++ r :: w = U at h
  generalize hlt : l.tree = lt at h
  generalize hrt : r.tree = rt at h
  cases h with
  | node h => exact absurd rfl h
  | twig h1 h2 h3 h4 h5 =>
    obtain ⟨rfl, rfl, rfl⟩ := align hU.symm (by rw [hu]; exact fits_length h4) (fits_nonempty h4) h3
    exact ⟨h1, h4, h5⟩

theorem fits_html {l r : Token} (hu : wlen u = tlens xs)
    (h : Fits C (l :: (u ++ r :: w)) (.node .HTML_STRING [l.tree, .node .HTML_STRING_INNER xs, r.tree] :: zs)) :
    C.Quotes l u r xs false ∧ Fits C u xs ∧ Fits C w zs := by
  generalize hU : u ++ r :: w = U at h
  generalize hlt : l.tree = lt at h
  generalize hrt : r.tree = rt at h
  cases h with
  | node _ h => exact absurd rfl h
  | html h1 h2 h3 h4 h5 =>
    obtain ⟨rfl, rfl, rfl⟩ := align hU.symm (by rw [hu]; exact fits_length h4) (fits_nonempty h4) h3
    exact ⟨h1, h4, h5⟩

theorem fits_unquoted (h : Fits C (t :: u) (.node .HTML_STRING [.node .HTML_STRING_INNER [t.tree]] :: zs)) :
    (C.Plain t ∨ ∃ a b, a.kind ∈ quotes ∧ b.kind = a.kind ∧ C.image t = [a, C.moved t, b]) ∧ Fits C u zs := by
  generalize hlt : t.tree = lt at h
  cases h with
  | node _ h => exact absurd rfl h
  | word _ h1 h2 => exact ⟨h1, h2⟩
  | var => cases hlt

theorem fits_unquotedVar {o d : Token} (hv : wlen v = tlen x)
    (h : Fits C (o :: (v ++ d :: u)) (.node .HTML_STRING [.node .HTML_STRING_INNER [.node .TWIG_VAR [o.tree, x, d.tree]]] :: zs)) :
    ((C.Plain o ∧ C.Plain d) ∨ ∃ a b, a.kind ∈ quotes ∧ b.kind = a.kind ∧ C.image o = [a, C.moved o] ∧ C.image d = [C.moved d, b]) ∧
      Fits C v [x] ∧ Fits C u zs := by
  generalize hU : v ++ d :: u = U at h
  generalize hot : o.tree = ot at h
  generalize hX : [Tree.node .TWIG_VAR [ot, x, d.tree]] = X at h
  cases h with
  | node _ h => exact absurd rfl h
  | word => cases hX
  | @var _ v' d' k k' _ is _ h1 h2 h3 h4 h5 =>
    injection hX with hX _
    injection hX with _ hX
    injection hX with _ hX
    have : is = [x] := by
      have := congrArg List.dropLast hX
      simpa using this.symm
    subst this
    obtain ⟨rfl, rfl, rfl⟩ := align hU.symm (by rw [hv, fits_length h4, tlens_cons, tlens_nil]; rfl) (fits_nonempty h4) h2
    exact ⟨h3, h4, h5⟩

/-- The quotes afterwards. -/
theorem quotes_after {l r : Token} {twig : Bool} (h : C.Quotes l u r xs twig) (hl : l.kind ∈ quotes) (hr : r.kind = l.kind) :
    ∃ l' r', C.image l = [l'] ∧ C.image r = [r'] ∧ l'.kind ∈ quotes ∧ r'.kind = l'.kind ∧ (l'.kind = l.kind ∨ (l'.kind ≠ l.kind ∧
      (∀ t ∈ u, t.kind ≠ l'.kind) ∧ (twig = true → l'.kind = T!"'" → ∀ x ∈ xs, IsLeaf x))) := by
  rcases h with ⟨h1, h2⟩ | ⟨l', r', h1, h2, h3, h4, h5, h6⟩
  · exact ⟨_, _, h1, h2, hl, hr, .inl rfl⟩
  · refine ⟨_, _, h1, h2, h3, h4, ?_⟩
    by_cases e : l'.kind = l.kind
    · exact .inl e
    · exact .inr ⟨e, h5, h6⟩

/-! ## Contexts -/

/-- The context may change with the quotes if there are no such quotes inside. -/
def CtxOk (c c' : Ctx) (u : List Token) : Prop :=
  c' = c ∨ ((c = .double ∨ c = .single) ∧ ((c' = .double ∧ ∀ t ∈ u, t.kind ≠ T!"\"") ∨ (c' = .single ∧ ∀ t ∈ u, t.kind ≠ T!"'")))

theorem CtxOk.mono (h : CtxOk c c' u) (hv : ∀ t ∈ v, t ∈ u) : CtxOk c c' v :=
  h.imp id fun ⟨h1, h2⟩ => ⟨h1, h2.imp (fun ⟨a, b⟩ => ⟨a, fun t ht => b t (hv t ht)⟩) (fun ⟨a, b⟩ => ⟨a, fun t ht => b t (hv t ht)⟩)⟩

theorem CtxOk.element (h : CtxOk .element c u) : c = .element := by
  rcases h with h | ⟨h | h, _⟩
  · exact h
  all_goals cases h

theorem CtxOk.attribute (h : CtxOk .attribute c u) : c = .attribute := by
  rcases h with h | ⟨h | h, _⟩
  · exact h
  all_goals cases h

theorem CtxOk.raw (h : CtxOk .raw c u) : c = .raw := by
  rcases h with h | ⟨h | h, _⟩
  · exact h
  all_goals cases h

theorem CtxOk.quoted (h : CtxOk c c' u) (hc : c = .double ∨ c = .single) : c' = .double ∨ c' = .single := by
  rcases h with h | ⟨_, ⟨h, _⟩ | ⟨h, _⟩⟩
  · rwa [h]
  · exact .inl h
  · exact .inr h

theorem CtxOk.part (h : CtxOk c c' (t :: u)) (hp : IsPart c t.kind) : IsPart c' t.kind := by
  rcases h with rfl | ⟨h | h, ⟨h', hq⟩ | ⟨h', hq⟩⟩
  · exact hp
  all_goals
    subst h h'
    have := hq t (by simp)
    simp only [IsPart, List.mem_cons, not_or] at hp ⊢
    exact ⟨this, hp.2⟩

/-! ## Text -/

theorem isText_iff (ok : C.Ok blank blank') (ht : C.Plain t) (hu : ∀ n ∈ u.head?, C.Plain n) (h : IsText blank t u) :
    IsText blank' (C.moved t) (C.all u) := by
  rcases h with h | ⟨h1, h2⟩
  · exact .inl h
  · refine .inr ⟨h1, h2.imp (ok.blanks h1 ht).2 ?_⟩
    rintro ⟨n, h3, h4, h5⟩
    cases u with
    | nil => cases h3
    | cons m u =>
      cases h3
      have hm := hu _ rfl
      refine ⟨C.moved n, ?_, (ok.adjacent (.inl h1) ht hm).2 h4, h5⟩
      rw [all_cons, hm]
      rfl

theorem isText_back (ok : C.Ok blank blank') (ht : C.Plain t) (h : IsText blank' (C.moved t) (C.all u)) : IsText blank t u := by
  rcases h with h | ⟨h1, h2⟩
  · exact .inl h
  · refine .inr ⟨h1, h2.imp (ok.blanks (t := t) h1 ht).1 ?_⟩
    rintro ⟨n, h3, h4, h5⟩
    rcases all_head ok h3 with ⟨m, s, h6, rfl, h7⟩ | h6
    · exact ⟨m, h6, (ok.adjacent (a := t) (.inl h1) ht h7).1 h4, h5⟩
    · exfalso
      have := h6.1
      revert h5 this
      generalize n.kind = k
      revert k
      decide

theorem head_append {P : Token → Prop} (hu : ∀ t ∈ u.head?, P t) (hv : ∀ t ∈ v.head?, P t) : ∀ t ∈ (u ++ v).head?, P t := by
  cases u with
  | nil => exact hv
  | cons a u => exact hu

theorem allText_after (ok : C.Ok blank blank') (hu : ∀ t ∈ u, C.Stays t) (hw : ∀ n ∈ w.head?, C.Plain n) (h : AllText blank u w) :
    AllText blank' (u.map C.moved) (C.all w) := by
  induction u with
  | nil => trivial
  | cons t u ih =>
    obtain ⟨h1, h2⟩ := h
    have hu' : ∀ t ∈ u, C.Stays t := fun t ht => hu t (List.mem_cons_of_mem _ ht)
    refine ⟨?_, ih hu' h2⟩
    rw [← all_tokens hu', ← all_append]
    exact isText_iff ok (hu t (by simp)).1 (head_append (fun t ht => (hu' t (List.mem_of_mem_head? ht)).1) hw) h1

theorem image_plain (h : Image C t) {t' : Token} (ht : t' ∈ C.image t) (hk : t'.kind ∉ T!"word" :: (quotes ++ varOpens ++ varCloses)) :
    C.Plain t ∧ t' = C.moved t := by
  have hq : ∀ {q : Token}, IsQuote q → q.kind ∈ T!"word" :: (quotes ++ varOpens ++ varCloses) := fun h => by
    have := h.1
    simp [this]
  have no : ∀ {q : Token}, t' = q → q.kind ∈ T!"word" :: (quotes ++ varOpens ++ varCloses) → C.Plain t ∧ t' = C.moved t := by
    intro q h1 h2
    rw [h1] at hk
    exact absurd h2 hk
  have hm : ∀ {k}, k = t.kind → k ∈ T!"word" :: (quotes ++ varOpens ++ varCloses) →
      (C.moved t).kind ∈ T!"word" :: (quotes ++ varOpens ++ varCloses) := fun h1 h2 => h1 ▸ h2
  cases h with
  | plain h =>
    rw [h] at ht
    exact ⟨h, by simpa using ht⟩
  | swapped _ h1 h2 =>
    rw [h2] at ht
    exact no (by simpa using ht) (hq h1)
  | word h1 h2 h3 h4 =>
    rw [h4] at ht
    simp only [List.mem_cons, List.not_mem_nil, or_false] at ht
    rcases ht with ht | ht | ht
    · exact no ht (hq h2)
    · exact no ht (hm rfl (by simp [h1]))
    · exact no ht (hq h3)
  | opened h1 h2 h3 =>
    rw [h3] at ht
    simp only [List.mem_cons, List.not_mem_nil, or_false] at ht
    rcases ht with ht | ht
    · exact no ht (hq h2)
    · exact no ht (hm rfl (by simp [h1]))
  | closed h1 h2 h3 =>
    rw [h3] at ht
    simp only [List.mem_cons, List.not_mem_nil, or_false] at ht
    rcases ht with ht | ht
    · exact no ht (hm rfl (by simp [h1]))
    · exact no ht (hq h2)

theorem image_moved (h : Image C t) {s} (hs : C.image t = C.moved t :: s) (hk : t.kind ∉ quotes ++ varOpens ++ varCloses) : C.Plain t := by
  have no : ∀ {q : Token}, IsQuote q → q = C.moved t → C.Plain t := fun h1 h2 => by
    rw [h2] at h1
    have : t.kind ∈ quotes := h1.1
    exact absurd (by simp [this]) hk
  cases h with
  | plain h => exact h
  | swapped h => exact absurd (by simp [h]) hk
  | word _ h1 _ h2 => rw [h2] at hs; injection hs with h3 _; exact no h1 h3
  | opened h => exact absurd (by simp [h]) hk
  | closed h => exact absurd (by simp [h]) hk

theorem pairs_before (ok : C.Ok blank blank') {pre l e post} (h : C.all u = pre ++ l :: e :: post) (hl : l.kind = T!"</")
    (he : e.kind ∉ quotes ++ varOpens ++ varCloses) : ∃ pre0 l0 e0 post0, u = pre0 ++ l0 :: e0 :: post0 ∧ l0.kind = l.kind ∧ e = C.moved e0 ∧
      post = C.all post0 := by
  induction u generalizing pre with
  | nil => cases pre <;> cases h
  | cons a u ih =>
    rw [all_cons] at h
    rcases List.append_eq_append_iff.1 h with ⟨b, h1, h2⟩ | ⟨b, h1, h2⟩
    · obtain ⟨pre0, l0, e0, post0, rfl, h3⟩ := ih h2
      exact ⟨a :: pre0, l0, e0, post0, rfl, h3⟩
    · cases b with
      | nil =>
        obtain ⟨pre0, l0, e0, post0, rfl, h3⟩ := ih (pre := []) (by simpa using h2.symm)
        exact ⟨a :: pre0, l0, e0, post0, rfl, h3⟩
      | cons l' b =>
        injection h2 with h2 h2'
        subst h2
        obtain ⟨h3, h4⟩ := image_plain (ok.images a) (t' := l) (by rw [h1]; simp) (by rw [hl]; decide)
        have hb : b = [] := by
          rw [h3] at h1
          cases pre with
          | nil => injection h1 with _ h1; exact h1.symm
          | cons p pre =>
            have := congrArg List.length h1
            simp at this
        subst hb
        replace h2' : e :: post = C.all u := h2'
        have hh : e ∈ (C.all u).head? := by rw [← h2']; rfl
        rcases all_head ok hh with ⟨t, s, h5, h6, h7⟩ | h5
        · cases u with
          | nil => cases h5
          | cons t' u =>
            cases h5
            refine ⟨[], a, t, u, rfl, by rw [h4]; rfl, h6, ?_⟩
            have hp := image_moved (ok.images t) h7 (by rw [h6] at he; exact he)
            rw [all_cons, hp] at h2'
            injection h2'
        · exact absurd (by simp [h5.1]) he

theorem firstEnd_after (ok : C.Ok blank blank') {l e : Token} (hl : l.kind = T!"</") (he : IsTagName e) (hls : C.Stays l) (hes : C.Stays e)
    (h : FirstEnd u l e) : FirstEnd (C.all u) (C.moved l) (C.moved e) := by
  intro pre l' e' post h1 h2 h3 h4
  have h5 : C.all (u ++ [l, e]) = pre ++ l' :: e' :: post := by
    rw [all_append, all_stays hls, all_stays hes]
    exact h1
  obtain ⟨pre0, l0, e0, post0, h6, h7, rfl, rfl⟩ := pairs_before ok h5 (h2.trans hl) (by
    rw [h3]
    show e.kind ∉ _
    rcases he with h' | h'
    · rw [h']; decide
    · have := h'.1
      revert this
      generalize e.kind = k
      revert k
      decide)
  rw [h pre0 l0 e0 post0 h6 (h7.trans h2) h3 h4]
  rfl

/-! ## What is shown for every nonterminal -/

/-- All heads stay. -/
def HeadPlain (C : Change) (u : List Token) : Prop := ∀ t ∈ u.head?, C.Plain t

/-- The images are derived with one tree, the same up to quotes. -/
def SomeTree (C : Change) (blank' : Nat → Prop) (n : Nt) (u : List Token) : List Tree → Prop
  | [x] => ∃ x', T blank' n (C.all u) [x'] ∧ unquote x' = unquote x
  | _ => False

/-- The images are derived with the same trees up to quotes. -/
def SomeTrees (C : Change) (blank' : Nat → Prop) (n : Nt) (u : List Token) (xs : List Tree) : Prop :=
  ∃ xs', T blank' n (C.all u) xs' ∧ unquoteAll xs' = unquoteAll xs

/-- The quote and the kind of a string may change if there are no such quotes and no interpolations inside. -/
def QuoteOk (q : SyntaxKind) (i : Bool) (q' : SyntaxKind) (i' : Bool) (u : List Token) (xs : List Tree) : Prop :=
  (q' = q ∧ i' = i) ∨ (q ∈ quotes ∧ (i = false ∨ ∀ x ∈ xs, IsLeaf x) ∧ ∀ t ∈ u, t.kind ≠ q')

/-- The images of the tokens are derived. -/
def Res (C : Change) (blank' : Nat → Prop) : Nt → List Token → List Tree → Prop
  | .expr, u, xs => SomeTree C blank' .expr u xs
  | .exprOf d, u, xs => SomeTree C blank' (.exprOf d) u xs
  | .terms i e, u, xs => SomeTree C blank' (.terms i e) u xs
  | .operand e, u, xs => SomeTree C blank' (.operand e) u xs
  | .primary, u, xs => SomeTree C blank' .primary u xs
  | .postfixes x, u, xs => ∀ x', unquote x' = unquote x → SomeTree C blank' (.postfixes x') u xs
  | .filterName, u, xs => SomeTrees C blank' .filterName u xs
  | .params, u, xs => SomeTrees C blank' .params u xs
  | .string i, u, xs => SomeTree C blank' (.string i) u xs
  | .stringParts q i, u, xs => (∀ q' i', QuoteOk q i q' i' u xs → SomeTrees C blank' (.stringParts q' i') u xs) ∧ HeadPlain C u
  | .hash, u, xs => SomeTree C blank' .hash u xs
  | .hashKey, u, xs => SomeTree C blank' .hashKey u xs
  | .list o n, u, xs => SomeTrees C blank' (.list o n) u xs
  | .elem o, u, xs => SomeTree C blank' (.elem o) u xs
  | .arguments, u, xs => SomeTree C blank' .arguments u xs
  | .optToken k, u, xs => SomeTrees C blank' (.optToken k) u xs ∧ ∀ t ∈ u, C.Stays t
  | .optValue k n, u, xs => SomeTrees C blank' (.optValue k n) u xs
  | .optCall k n, u, xs => SomeTrees C blank' (.optCall k n) u xs
  | .optExpr cl, u, xs => ∃ xs', T blank' (.optExpr cl) (C.all u) xs' ∧ unquoteAll xs' = unquoteAll xs ∧ (xs ≠ [] → xs' ≠ [])
  | .applied ys, u, xs => ∀ ys', unquoteAll ys' = unquoteAll ys → SomeTrees C blank' (.applied ys') u xs
  | .strategy, u, xs => SomeTrees C blank' .strategy u xs
  | .withHash, u, xs => SomeTrees C blank' .withHash u xs
  | .forNames, u, xs => SomeTrees C blank' .forNames u xs
  | .forElse c, u, xs => ∀ c', CtxOk c c' u → SomeTrees C blank' (.forElse c') u xs
  | .var, u, xs => SomeTree C blank' .var u xs ∧ HeadPlain C u
  | .comment, u, xs => SomeTree C blank' .comment u xs ∧ HeadPlain C u
  | .rules, u, xs => SomeTrees C blank' .rules u xs
  | .tag c, u, xs => (∀ c', CtxOk c c' u → SomeTree C blank' (.tag c') u xs) ∧ HeadPlain C u
  | .branches c, u, xs => ∀ c', CtxOk c c' u → SomeTrees C blank' (.branches c') u xs
  | .body c, u, xs => (∀ c', CtxOk c c' u → SomeTrees C blank' (.body c') u xs) ∧ (c = .element → HeadPlain C u)
  | .parts c, u, xs => ∀ c', CtxOk c c' u → SomeTrees C blank' (.parts c') u xs
  | .attrName, u, xs => SomeTree C blank' .attrName u xs
  | .attrValue, u, xs => SomeTree C blank' .attrValue u xs
  | .attr, u, xs => SomeTree C blank' .attr u xs
  | .html, u, xs => SomeTree C blank' .html u xs ∧ HeadPlain C u

/-- The nodes that are not looked through. -/
def PlainNode (k : SyntaxKind) : Prop := k ≠ .TWIG_LITERAL_STRING ∧ k ≠ .HTML_STRING

/-- The images of fitting tokens are derived, and what follows them fits. -/
def Goes (C : Change) (blank' : Nat → Prop) : Nt → List Token → List Tree → Prop
  | .postfixes x, u, xs => ∃ y tail, xs = [y] ∧ (∀ U zs, Fits C U (y :: zs) → Fits C U (x :: (tail ++ zs))) ∧
      ∀ w zs, Fits C (u ++ w) (tail ++ zs) → Res C blank' (.postfixes x) u xs ∧ Fits C w zs
  | .applied ys, u, xs => ∃ tail, (∀ U zs, Fits C U (xs ++ zs) → Fits C U (ys ++ (tail ++ zs))) ∧
      ∀ w zs, Fits C (u ++ w) (tail ++ zs) → Res C blank' (.applied ys) u xs ∧ Fits C w zs
  | .var, u, xs => ∃ o v d y, u = o :: (v ++ [d]) ∧ xs = [.node .TWIG_VAR [o.tree, y, d.tree]] ∧ o.kind ∈ varOpens ∧ d.kind ∈ varCloses ∧
      wlen v = tlen y ∧ ∀ w zs, Fits C (v ++ w) ([y] ++ zs) → Res C blank' .expr v [y] ∧ Fits C w zs
  | .optValue k n, u, xs => PlainNode n → ∀ w zs, Fits C (u ++ w) (xs ++ zs) → Res C blank' (.optValue k n) u xs ∧ Fits C w zs
  | .optCall k n, u, xs => PlainNode n → ∀ w zs, Fits C (u ++ w) (xs ++ zs) → Res C blank' (.optCall k n) u xs ∧ Fits C w zs
  | n, u, xs => ∀ w zs, Fits C (u ++ w) (xs ++ zs) → Res C blank' n u xs ∧ Fits C w zs

/-! ## Operators -/

theorem fits_prefix {ys ys' : List Tree} (hy : ∀ U, Fits C U ys → Fits C U ys') (h : Fits C u (xs ++ ys)) : Fits C u (xs ++ ys') := by
  generalize hz : xs ++ ys = zs at h
  induction h generalizing xs with
  | nil =>
    rw [List.append_eq_nil_iff] at hz
    obtain ⟨rfl, rfl⟩ := hz
    exact hy _ .nil
  | tok h1 h2 h3 ih =>
    cases xs with
    | nil => cases hz; exact hy _ (.tok h1 h2 h3)
    | cons x xs => injection hz with hx hz; subst hx; exact .tok h1 h2 (ih hz)
  | two h1 h2 h3 h4 h5 ih =>
    cases xs with
    | nil => cases hz; exact hy _ (.two h1 h2 h3 h4 h5)
    | cons x xs => injection hz with hx hz; subst hx; exact .two h1 h2 h3 h4 (ih hz)
  | node h1 h2 h3 ih =>
    cases xs with
    | nil => cases hz; exact hy _ (.node h1 h2 h3)
    | cons x xs =>
      injection hz with hx hz
      subst hx hz
      refine .node h1 h2 ?_
      show Fits C _ (_ ++ (xs ++ ys'))
      rw [← List.append_assoc]
      exact ih (List.append_assoc _ _ _)
  | twig h1 h2 h3 h4 h5 _ ih =>
    cases xs with
    | nil => cases hz; exact hy _ (.twig h1 h2 h3 h4 h5)
    | cons x xs => injection hz with hx hz; subst hx; exact .twig h1 h2 h3 h4 (ih hz)
  | html h1 h2 h3 h4 h5 _ ih =>
    cases xs with
    | nil => cases hz; exact hy _ (.html h1 h2 h3 h4 h5)
    | cons x xs => injection hz with hx hz; subst hx; exact .html h1 h2 h3 h4 (ih hz)
  | word h1 h2 h3 ih =>
    cases xs with
    | nil => cases hz; exact hy _ (.word h1 h2 h3)
    | cons x xs => injection hz with hx hz; subst hx; exact .word h1 h2 (ih hz)
  | var h1 h2 h3 h4 h5 _ ih =>
    cases xs with
    | nil => cases hz; exact hy _ (.var h1 h2 h3 h4 h5)
    | cons x xs => injection hz with hx hz; subst hx; exact .var h1 h2 h3 h4 (ih hz)

theorem fits_grouping (g : Grouping) : (∀ {u zs}, Fits C u (g.tree :: zs) → Fits C u (leaves g.items ++ zs)) ∧
    ∀ {u zs}, Fits C u (g.expr :: zs) → Fits C u (leaves g.items ++ zs) := by
  induction g with
  | operand v x =>
    constructor <;> intro u zs h
    · rw [Grouping.tree, fits_node (by decide) (by decide)] at h
      exact h
    · rw [Grouping.expr, fits_node (by decide) (by decide)] at h
      exact h
  | binary l op r ih1 ih2 =>
    have key : ∀ {u zs}, Fits C u (l.tree :: op.tree :: r.expr :: zs) → Fits C u (leaves (Grouping.binary l op r).items ++ zs) := by
      intro u zs h
      have h1 := ih1.1 h
      rw [Grouping.items, leaves_append, List.append_assoc]
      show Fits C u (leaves l.items ++ op.tree :: (leaves r.items ++ zs))
      have h2 : Fits C u ((leaves l.items ++ [op.tree]) ++ (leaves r.items ++ zs)) :=
        fits_prefix (fun U hU => ih2.2 hU) (by simpa using h1)
      simpa using h2
    constructor <;> intro u zs h
    · rw [Grouping.tree, fits_node (by decide) (by decide)] at h
      exact key h
    · rw [Grouping.expr, fits_node (by decide) (by decide), List.cons_append, fits_node (by decide) (by decide)] at h
      exact key h

/-- Items with the same operators, and the same operands up to quotes. -/
inductive ItemsAlike : List Item → List Item → Prop
  | nil : ItemsAlike [] []
  | operand {v x v' x' is js} : unquote x' = unquote x → ItemsAlike is js → ItemsAlike (.operand v x :: is) (.operand v' x' :: js)
  | op {t t' is js} : t'.tree = t.tree → ItemsAlike is js → ItemsAlike (.op t :: is) (.op t' :: js)

theorem tree_kind {t t' : Token} (h : t'.tree = t.tree) : t'.kind = t.kind := by
  unfold Token.tree at h
  injection h

theorem ItemsAlike.split {is is' js : List Item} (h : ItemsAlike (is ++ is') js) :
    ∃ ks ks', js = ks ++ ks' ∧ ItemsAlike is ks ∧ ItemsAlike is' ks' := by
  induction is generalizing js with
  | nil => exact ⟨[], js, rfl, .nil, h⟩
  | cons i is ih =>
    cases h with
    | operand hx h =>
      obtain ⟨ks, ks', rfl, h1, h2⟩ := ih h
      exact ⟨_ :: ks, ks', rfl, .operand hx h1, h2⟩
    | op ht h =>
      obtain ⟨ks, ks', rfl, h1, h2⟩ := ih h
      exact ⟨_ :: ks, ks', rfl, .op ht h1, h2⟩

theorem regroup {g : Grouping} (hg : WellGrouped g) {js : List Item} (h : ItemsAlike g.items js) :
    ∃ g', WellGrouped g' ∧ g'.items = js ∧ g'.top? = g.top? ∧ unquote g'.tree = unquote g.tree ∧ unquote g'.expr = unquote g.expr := by
  induction hg generalizing js with
  | operand =>
    cases h with
    | operand hx h =>
      cases h
      exact ⟨_, .operand _ _, rfl, rfl, by simp only [Grouping.tree, unquote_node, unquoteAll_cons, unquoteAll_nil, hx],
        by simp only [Grouping.expr, unquote_node, unquoteAll_cons, unquoteAll_nil, hx]⟩
  | @binary l op r _ _ h1 h2 h3 ih1 ih2 =>
    obtain ⟨ks, ks', rfl, h4, h5⟩ := ItemsAlike.split h
    cases h5 with
    | @op _ op' _ _ hop' h5 =>
      have hop := tree_kind hop'
      obtain ⟨l', g1, rfl, g2, b1, b2⟩ := ih1 h4
      obtain ⟨r', g3, rfl, g4, b3, b4⟩ := ih2 h5
      exact ⟨.binary l' op' r', .binary g1 g3 (by rw [hop]; exact h1) (by rw [g2, hop]; exact h2) (by rw [g4, hop]; exact h3), rfl,
        by simp only [Grouping.top?, hop], by simp only [Grouping.tree, unquote_node, unquoteAll_cons, unquoteAll_nil, b1, b4, hop'],
        by simp only [Grouping.expr, unquote_node, unquoteAll_cons, unquoteAll_nil, b1, b4, hop']⟩

/-- Operands with the same operators and tails, and the same trees up to quotes. -/
inductive RestAlike : List (Token × Operand) → List (Token × Operand) → Prop
  | nil : RestAlike [] []
  | cons {r r' rs rs'} : r'.1.tree = r.1.tree → r'.2.tail = r.2.tail → unquote r'.2.tree = unquote r.2.tree → RestAlike rs rs' →
      RestAlike (r :: rs) (r' :: rs')

theorem RestAlike.joins {rs rs' e} (h : RestAlike rs rs') (hj : Joins e rs) : Joins e rs' := by
  induction h generalizing e with
  | nil => trivial
  | cons h1 h2 _ _ ih => exact ⟨by rw [tree_kind h1]; exact hj.1, by rw [h2]; exact ih hj.2⟩

theorem RestAlike.last {rs rs' e} (h : RestAlike rs rs') : lastTail e rs' = lastTail e rs := by
  induction h generalizing e with
  | nil => rfl
  | cons _ h2 _ _ ih => rw [lastTail, lastTail, h2, ih]

theorem RestAlike.kinds {rs rs'} (h : RestAlike rs rs') {P : SyntaxKind → Prop} (hp : ∀ r ∈ rs, P r.1.kind) : ∀ r ∈ rs', P r.1.kind := by
  induction h with
  | nil => simp
  | cons h1 _ _ _ ih =>
    rw [List.forall_mem_cons] at hp ⊢
    exact ⟨by rw [tree_kind h1]; exact hp.1, ih hp.2⟩

theorem RestAlike.items {rs rs'} (h : RestAlike rs rs') {first first' : Operand} (hf : unquote first'.tree = unquote first.tree) :
    ItemsAlike (flatOf first rs).items (flatOf first' rs').items := by
  refine .operand hf ?_
  induction h with
  | nil => exact .nil
  | cons h1 _ h2 _ ih => exact .op h1 (.operand h2 ih)

theorem rest_goes {rest : List (Token × Operand)} (h : ∀ r ∈ rest, ∀ w zs, Fits C (r.2.toks ++ w) ([r.2.tree] ++ zs) →
      SomeTree C blank' (.operand r.2.tail) r.2.toks [r.2.tree] ∧ Fits C w zs)
    (hf : Fits C (restTokens (rest.map (fun r => (r.1, r.2.toks, r.2.tree))) ++ w) (rest.flatMap (fun r => [r.1.tree, r.2.tree]) ++ zs)) :
    ∃ rest', restTokens (rest'.map (fun r : Token × Operand => (r.1, r.2.toks, r.2.tree))) =
        C.all (restTokens (rest.map (fun r => (r.1, r.2.toks, r.2.tree)))) ∧ RestAlike rest rest' ∧
      (∀ r ∈ rest', T blank' (.operand r.2.tail) r.2.toks [r.2.tree]) ∧ Fits C w zs := by
  induction rest with
  | nil => exact ⟨[], rfl, .nil, by simp, hf⟩
  | cons r rest ih =>
    rw [List.forall_mem_cons] at h
    simp only [restTokens, List.map_cons, List.flatMap_cons, List.cons_append, List.append_assoc, List.nil_append, fits_tree] at hf
    obtain ⟨h1, hf⟩ := hf
    obtain ⟨⟨x, h2, hx⟩, hf⟩ := h.1 _ _ hf
    obtain ⟨rest', h3, h4, h5, h6⟩ := ih h.2 hf
    refine ⟨(C.moved r.1, ⟨r.2.tail, C.all r.2.toks, x⟩) :: rest', ?_, .cons rfl rfl hx h4, ?_, h6⟩
    · simp only [restTokens, List.map_cons, List.flatMap_cons, List.cons_append, all_stays h1, all_append] at h3 ⊢
      rw [h3]
    · rw [List.forall_mem_cons]
      exact ⟨h2, h5⟩

end Ludtwig.Template
