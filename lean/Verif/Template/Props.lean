import Verif.Template.Derivation
import Verif.Parser.LexerProps

/-!
# The parser accepts the template language: property C73
-/

namespace Ludtwig.Template

open Lexer

variable {toks : List Token} {s : PState} {u : List Token} {x : Tree} {xs : List Tree}

/-! ## Lexed files -/

theorem byteLen_ne {t : Text} (h : t ≠ []) : 0 < byteLen t := by
  cases t with
  | nil => exact absurd rfl h
  | cons c t => have := Char.utf8Size_pos c; simp only [byteLen]; omega

theorem contiguous_suffix {a b : Nat} {ts : List Token} (h : Contiguous a ts b) : ∀ {t : Token} {r : List Token},
    (t :: r) <:+ ts → Contiguous t.range.stop r b := by
  induction h with
  | nil => intro t r h; have := h.length_le; simp at this
  | @cons a b t' ts h1 h2 h3 ih =>
    intro t r h
    rcases List.suffix_cons_iff.1 h with h | h
    · cases h
      exact h3
    · exact ih h

theorem dropTrivia_split (r : List Token) : ∃ pre, r = pre ++ dropTrivia r := ⟨r.takeWhile (·.kind.isTrivia), by
  unfold dropTrivia
  rw [List.takeWhile_append_dropWhile]⟩

theorem lexed_tight {errLen : Text → Nat} (he : ErrLenOk errLen) (src : Text) {a b : Token} {r : List Token}
    (hs : (a :: r) <:+ lex errLen src) (hb : (dropTrivia r).head? = some b) (hadj : Adjacent a b) : r.head? = some b := by
  obtain ⟨h1, _, h3⟩ := C02_lex_partition he src
  have hc := contiguous_suffix h1 hs
  obtain ⟨pre, hpre⟩ := dropTrivia_split r
  cases hd : dropTrivia r with
  | nil => rw [hd] at hb; cases hb
  | cons b' post =>
    rw [hd] at hb hpre
    cases hb
    have := (contiguous_split hc hpre).1
    unfold Adjacent at hadj
    cases pre with
    | nil => rw [hpre]; rfl
    | cons t pre =>
      exfalso
      have ht : t ∈ lex errLen src := hs.subset (List.mem_cons_of_mem _ (by rw [hpre]; simp))
      have := byteLen_ne (h3 t ht)
      simp only [List.map_cons, List.flatten_cons, byteLen_append] at *
      omega

/-- Where a blank starts, a blank is the next token. -/
theorem lexed_blank {errLen : Text → Nat} (he : ErrLenOk errLen) (src : Text) {a : Token} {r : List Token}
    (hs : (a :: r) <:+ lex errLen src) (hb : BlankAt (lex errLen src) a.range.stop) : ∃ t r', r = t :: r' ∧ t.kind = T!"ws" := by
  obtain ⟨h1, _, h3⟩ := C02_lex_partition he src
  obtain ⟨t, ht, hk, hst⟩ := hb
  obtain ⟨pre, e⟩ := hs
  have hne : ∀ t ∈ pre ++ a :: r, 0 < byteLen t.text := fun t ht => byteLen_ne (h3 t (e ▸ ht))
  rw [← e] at h1 ht
  obtain ⟨ha, ha'⟩ := contiguous_split h1 rfl
  have hapos := hne a (by simp)
  rcases List.mem_append.1 ht with ht | ht
  · exfalso
    obtain ⟨l, m, rfl⟩ := List.append_of_mem ht
    have := (contiguous_split h1 (l := l) (r := m ++ a :: r) (t := t) (by simp)).1
    simp only [List.map_append, List.flatten_append, byteLen_append] at ha
    omega
  · rcases List.mem_cons.1 ht with rfl | ht
    · exfalso; omega
    · have hc := contiguous_suffix h1 (List.suffix_append pre (a :: r))
      obtain ⟨l, m, rfl⟩ := List.append_of_mem ht
      have := (contiguous_split hc (l := l) (r := m) (t := t) rfl).1
      cases l with
      | nil => exact ⟨t, m, rfl, hk⟩
      | cons b l =>
        exfalso
        have := hne b (by simp)
        simp only [List.map_cons, List.flatten_cons, byteLen_append] at *
        omega

theorem literal_symbols : ∀ l ∈ literals, l.kind ∈ symbols →
    l.ignoreCase = false ∧ isTwigName l.text = false ∧ isHtmlAttributeName l.text = false := by decide +kernel

theorem regex_symbols : ∀ r ∈ regexRules.map (·.2), r ∉ symbols := by decide +kernel

theorem lexed_symbols {errLen : Text → Nat} (he : ErrLenOk errLen) (src : Text) {t : Token}
    (ht : t ∈ lex errLen src) (hk : t.kind ∈ symbols) : isTwigName t.text = false ∧ isHtmlAttributeName t.text = false := by
  obtain ⟨l, r, hlr⟩ := List.append_of_mem ht
  have h := lex_split he hlr
  rw [List.map_cons] at h
  generalize textFrom (t :: r) = z at h
  generalize hk' : t.kind = k at h hk
  generalize ht' : t.text = tx at h ⊢
  cases h with
  | rule hm =>
    rcases hm.rule with ⟨l, h1, h2, h3⟩ | ⟨r, h1, h2⟩
    · rw [← h2] at hk
      obtain ⟨h4, h5⟩ := literal_symbols l h1 hk
      unfold Literal.Matches at h3
      rw [h4, if_neg (by simp)] at h3
      rw [h3]
      exact h5
    · exact absurd hk (regex_symbols _ (List.mem_map.2 ⟨_, h1, rfl⟩))
  | notIn => exact absurd hk (by decide)
  | isNot => exact absurd hk (by decide)
  | unknown => exact absurd hk (by decide)

theorem lexed_good {errLen : Text → Nat} (he : ErrLenOk errLen) (src : Text) : Good (lex errLen src) :=
  ⟨fun h1 h2 h3 => lexed_tight he src h1 h2 h3, fun h1 h2 => lexed_symbols he src h1 h2,
    fun h1 h2 => lexed_blank he src h1 h2⟩

/-! ## The root -/

theorem root_run (G : Good toks) (h : T (BlankAt toks) (.body .element) (significant toks) xs) :
    ∃ tree, parseLexed toks = .ok ⟨tree, []⟩ ∧ tree.strip = [.node .ROOT xs] := by
  obtain ⟨s0, hs0⟩ : ∃ s0 : PState, s0 = { rest := toks, lastRange := toks.getLast?.map (·.range), events := [], openMarkers := [], errors := [] } := ⟨_, rfl⟩
  have h0 : At toks s0 [] (significant toks) := by
    subst hs0
    exact ⟨⟨[], 0, toks, Built.empty, .nil, rfl⟩, List.suffix_refl _, rfl, rfl⟩
  have hl : LoopOk toks .element (significant toks) xs := holds G h
  have hrun : Run (parseRoot (knot (toks.length + 1))) s0 (fun _ s => s.errors = [] ∧
      ∃ tree, sinkFinish toks s.events = .ok tree ∧ tree.strip = [.node .ROOT xs]) := by
    refine .bind (h0.start fun m s h => .bind (Loops.many ?_))
    refine hl.run toks.length (List.length_filter_le _ _) (v := []) (seesUnit (.pure false)) ?_ (fun _ _ _ _ _ => rfl) (by simpa using h) (.inl rfl) (.inl rfl) fun s h => ?_
    · intro a s Q hr
      refine .bind ((Run.unbind hr).mono fun o s h => ?_)
      obtain ⟨h1, h2⟩ := Run.ofPure h
      cases o with
      | none => cases h1
      | some c => exact .pure h2
    · obtain ⟨frames, next, r, hb, hf, hr⟩ := h.built
      cases hf with
      | cons hf hg _ =>
      cases hf
      obtain ⟨trees, hfill, hstrip⟩ := hg.fill
      have hrest : dropTrivia r = [] := by
        rw [hr]
        rcases dropTrivia_cases s.rest with ⟨_, h'⟩ | ⟨t, v, rest, h', _⟩
        · exact h'
        · rw [h.view] at h'; cases h'
      refine ⟨m, { s with events := s.events.set m (.startNode .ROOT none) ++ [.finishNode], openMarkers := [] }, ?_, h.errs,
        .node .ROOT (trees ++ triviaTrees r), ?_, ?_⟩
      · show Ludtwig.complete m .ROOT s = _
        unfold Ludtwig.complete
        rw [hb.opened]
        simp [hb.hole]
      · refine hb.sink ?_
        rw [fillAll_append, hfill]
        simp [fillAll, Skel.fill, Leaf.fill, hrest]
      · simp only [Tree.strip, strip_append, hstrip, strip_trivia, List.append_nil]
        simp
  obtain ⟨m, s1, h1, h2, tree, h3, h4⟩ := hrun
  refine ⟨tree, ?_, h4⟩
  unfold parseLexed parseTokens
  rw [← hs0, h1]
  dsimp only
  rw [h3, h2]

/-- C73: a file whose tokens are a template is parsed without errors, and the tree without its trivia is the tree of the template. -/
theorem C73_template_accepted {errLen : Text → Nat} (he : ErrLenOk errLen) (src : Text) {x : Tree} (h : IsTemplate (lex errLen src) x) :
    ∃ tree, parse errLen src = .ok ⟨tree, []⟩ ∧ tree.strip = [x] := by
  obtain ⟨xs, h1, rfl⟩ := h
  exact root_run (lexed_good he src) h1

/-- C73: the grammar is unambiguous on files. -/
theorem C73_unambiguous {errLen : Text → Nat} (he : ErrLenOk errLen) (src : Text) {x y : Tree} (hx : IsTemplate (lex errLen src) x)
    (hy : IsTemplate (lex errLen src) y) : x = y := by
  obtain ⟨t1, h1, h2⟩ := C73_template_accepted he src hx
  obtain ⟨t2, h3, h4⟩ := C73_template_accepted he src hy
  rw [h1] at h3
  cases h3
  rw [h2] at h4
  cases h4
  rfl

end Ludtwig.Template
