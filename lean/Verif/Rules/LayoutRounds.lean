import Verif.Rules.BlankMarks
import Verif.Layout.Stable

/-!
# The rounds of fixing the layout

What the rules `indentation` and `whitespace-between-line-breaks` suggest, in terms of tokens with marks,
and what is left to suggest after a round of fixing.
-/

namespace Ludtwig.Rules

open Cli Lexer Layout Shape

/-! ## Lines -/

theorem starts_join : ∀ (x : List Elem) {y : List Elem} {t : Elem} (prev : Option Elem), seen t = true →
    isBreak t = false → (x = [] → afterBreak prev = true) →
    (∀ b ∈ x.getLast?, seen b = true ∧ isBreak b = true) →
    t ∈ (((prev :: ((x ++ t :: y).filter seen).map some).zip ((x ++ t :: y).filter seen)).filter (fun p =>
      !isTokenOf .TK_LINE_BREAK p.2.tree && afterBreak p.1)).map (·.2)
  | [], y, t, prev, hs, hb, h1, _ => by
    rw [List.nil_append, List.filter_cons_of_pos hs, List.map_cons, List.zip_cons_cons,
      List.filter_cons_of_pos]
    · exact List.mem_cons_self
    · dsimp only
      rw [h1 rfl, show isTokenOf .TK_LINE_BREAK t.tree = false from hb]
      rfl
  | e :: x, y, t, prev, hs, hb, _, h2 => by
    have hlast : ∀ b ∈ x.getLast?, seen b = true ∧ isBreak b = true := by
      intro b hx
      refine h2 b ?_
      cases x with
      | nil => cases hx
      | cons a x => rw [List.getLast?_cons_cons]; exact hx
    rw [List.cons_append]
    cases he : seen e with
    | false =>
      rw [List.filter_cons_of_neg (by rw [he]; exact Bool.false_ne_true)]
      refine starts_join x prev hs hb (fun hx => ?_) hlast
      subst hx
      have := (h2 e rfl).1
      rw [he] at this
      cases this
    | true =>
      rw [List.filter_cons_of_pos he, List.map_cons, List.zip_cons_cons, List.filter_cons]
      have := starts_join x (y := y) (some e) hs hb (fun hx => by
        subst hx
        exact (h2 e rfl).2) hlast
      split
      · exact List.mem_cons_of_mem _ this
      · exact this

theorem seen_mark {e : Elem} (h : e.isNode = false) (config : Config) : seen e = (markOf config e).seen := by
  obtain ⟨t, pos, path⟩ := e
  cases t with
  | node k cs => cases h
  | token k x =>
    show ((!skipped ⟨.token k x, pos, path⟩) && _) = _
    rw [show skipped ⟨.token k x, pos, path⟩ = false from rfl]
    rfl

theorem endsBreak_last (a : Bool) (x : List Elem) : endsBreak a x = (x.getLast?.map isBreak).getD a := by
  rcases List.eq_nil_or_concat x with rfl | ⟨l, e, rfl⟩
  · rfl
  · rw [List.concat_eq_append, endsBreak_append, List.getLast?_append, List.getLast?_singleton]
    rfl

/-- A token at the beginning of a line, if it is seen, is among the ones that the rule looks at. -/
theorem lineStarts_join {cs : List Tree} (hn : Neat (.node .ROOT cs)) (hq : Quoted (.node .ROOT cs))
    {x y : List Elem} {t : Elem} (h : (Tree.node .ROOT cs).tokenElems = x ++ t :: y) (hb : isBreak t = false)
    (hx : endsBreak true x = true) (hs : seen t = true) (config : Config) :
    t ∈ lineStarts (visibleTokens (.node .ROOT cs)) := by
  rw [visibleTokens_eq, h]
  refine starts_join x none hs hb (fun _ => rfl) ?_
  intro b hlast
  rw [endsBreak_last, hlast] at hx
  have hbb : isBreak b = true := hx
  refine ⟨?_, hbb⟩
  obtain ⟨x', rfl⟩ : ∃ x', x = x' ++ [b] := by
    rcases List.eq_nil_or_concat x with rfl | ⟨l, e, rfl⟩
    · cases hlast
    · rw [List.concat_eq_append, List.getLast?_append, List.getLast?_singleton] at hlast
      cases hlast
      exact ⟨l, by rw [List.concat_eq_append]⟩
  have hsm := smooth_root hn hq config
  rw [List.append_assoc, List.singleton_append] at h
  rw [h] at hsm
  have hbt : b.isNode = false := tokenElems_token (root := .node .ROOT cs) (by rw [h]; simp)
  have htt : t.isNode = false := tokenElems_token (root := .node .ROOT cs) (by rw [h]; simp)
  have hk : b.kind.isTrivia = true := by
    rw [isBreak_kind hbt] at hbb
    rw [eq_of_beq hbb]; rfl
  have := smooth_split hsm (by rw [solid_kind hbt, hk]; rfl)
  rw [seen_mark hbt config, this]
  show (markOf config t).seen = true
  rw [← seen_mark htt]
  exact hs

/-! ## Suggestions -/

/-- The suggestion of the indentation rule for a line that begins with a token. -/
def indentSug (config : Config) (t : Elem) : RuleName × Suggestion :=
  ("indentation".toList, ⟨⟨t.start, t.start + byteLen (leading t)⟩, expected config t⟩)

theorem line_rcs {config : Config} (hc : 0 < config.indentationCount) {t : Elem} (ht : t.isNode = false)
    (q : RuleName × Suggestion) : q ∈ getRuleContextSuggestions (lineFindings config t) ↔
      indentOff t = false ∧ leading t ≠ expected config t ∧ q = indentSug config t := by
  cases ho : indentOff t with
  | true =>
    have : lineFindings config t = [] := by unfold lineFindings; rw [ho]; rfl
    rw [this]
    exact ⟨fun h => (by cases h), fun h => (by cases h.1)⟩
  | false =>
    rw [lineFindings_eq config hc t ht ho]
    by_cases hl : leading t = expected config t
    · rw [if_pos hl]
      exact ⟨fun h => (by cases h), fun h => absurd hl h.2.1⟩
    · rw [if_neg hl, mem_rcs]
      constructor
      · rintro ⟨z, hz, h1, h2⟩
        obtain rfl := List.mem_singleton.1 hz
        exact ⟨rfl, hl, Prod.ext h1.symm (List.mem_singleton.1 h2)⟩
      · rintro ⟨_, _, rfl⟩
        exact ⟨_, List.mem_singleton.2 rfl, rfl, List.mem_singleton.2 rfl⟩

/-- The suggestion to delete whitespace. -/
def blankSug (ws : Elem) : RuleName × Suggestion :=
  ("whitespace-between-line-breaks".toList, ⟨ws.range, []⟩)

/-- What is suggested in one round. -/
theorem round_rcs {errLen : Text → Nat} {s : Text} {p : Parse}
    (h : parse errLen s = .ok p) {config : Config} (hc : 0 < config.indentationCount)
    {rules : List Rule} (hs : rules.Sublist definitions) (hn : ∀ r ∈ rules, r.name ∈ layoutRules)
    {results : List CheckResult} (hr : runRules config rules p.tree = .ok results) :
    ∃ A B, getRuleContextSuggestions results = A ++ B ∧
      (∀ q, q ∈ A ↔ indentation ∈ rules ∧ ∃ t ∈ lineStarts (visibleTokens p.tree),
        indentOff t = false ∧ leading t ≠ expected config t ∧ q = indentSug config t) ∧
      (∀ q, q ∈ B ↔ whitespaceBetweenLineBreaks ∈ rules ∧ ∃ x lb ws next y,
        p.tree.tokenElems = x ++ lb :: ws :: next :: y ∧ lb.kind = .TK_LINE_BREAK ∧
        ws.kind = .TK_WHITESPACE ∧ next.kind = .TK_LINE_BREAK ∧
        (hidden lb || switchedOff "whitespace-between-line-breaks".toList lb) = false ∧ q = blankSug ws) := by
  have hroot : ∃ x, rootChecks config (Elem.root p.tree) rules = .ok x := by
    unfold runRules at hr
    cases rules with
    | nil => exact ⟨[], rfl⟩
    | cons a rs =>
      simp only [List.isEmpty_cons, Bool.false_eq_true, if_false] at hr
      split at hr
      · cases hr
      · rename_i x hx; exact ⟨x, hx⟩
  obtain ⟨x, hx⟩ := hroot
  obtain ⟨found, hf, _⟩ := rootChecks_inv config _ rules x hx
  rw [C18_scope_of_ignore config rules p.tree found hf] at hr
  cases hr
  refine ⟨_, _, rcs_append .., ?_, ?_⟩
  · intro q
    rw [rcs_flatMap, List.mem_flatMap]
    have hind : indentation ∈ rules →
        found indentation = (lineStarts (visibleTokens p.tree)).flatMap (lineFindings config) := by
      intro hi
      have h1 := hf _ hi
      rw [indentation_findings _ _ (parsed_noBlanket h config), Except.ok.injEq] at h1
      exact h1.symm
    have hline : q ∈ getRuleContextSuggestions
        ((lineStarts (visibleTokens p.tree)).flatMap (lineFindings config)) ↔
        ∃ t ∈ lineStarts (visibleTokens p.tree), indentOff t = false ∧ leading t ≠ expected config t ∧
          q = indentSug config t := by
      rw [rcs_flatMap, List.mem_flatMap]
      have htok : ∀ t ∈ lineStarts (visibleTokens p.tree), t.isNode = false := by
        intro t ht
        have := (lineStarts_sublist _).subset ht
        rw [visibleTokens_eq] at this
        exact tokenElems_token (List.mem_filter.1 this).1
      constructor
      · rintro ⟨t, ht, hq⟩; exact ⟨t, ht, (line_rcs hc (htok t ht) q).1 hq⟩
      · rintro ⟨t, ht, hq⟩; exact ⟨t, ht, (line_rcs hc (htok t ht) q).2 hq⟩
    constructor
    · rintro ⟨r, hr, hq⟩
      rcases layout_cases (hs.subset hr) (hn r hr) with rfl | rfl | hsil
      · rw [hind hr] at hq
        exact ⟨hr, hline.1 hq⟩
      · have h1 := hf _ hr
        have h2 : whitespaceBetweenLineBreaks.checkRoot ⟨config, false⟩ (Elem.root p.tree) = .ok [] := rfl
        rw [h2, Except.ok.injEq] at h1
        rw [← h1] at hq
        cases hq
      · rw [silent_rcs (hsil.2.2 _ _ _ (hf r hr))] at hq
        cases hq
    · rintro ⟨hr, hq⟩
      exact ⟨_, hr, by rw [hind hr]; exact hline.2 hq⟩
  · intro q
    have hB : getRuleContextSuggestions (specResults config rules p.tree) =
        (p.tree.elems.filter (fun e => !hidden e)).flatMap (elemRcs config rules) := by
      unfold specResults
      rw [rcs_flatMap]
      rfl
    rw [hB, List.mem_flatMap]
    have hcheck : ∀ (e : Elem), e.isNode = false → checkElem config whitespaceBetweenLineBreaks e =
        whitespaceBetweenLineBreaks.checkToken ⟨config, told e⟩ e := by
      intro e he
      obtain ⟨t, pos, path⟩ := e
      cases t with
      | node k cs => cases he
      | token k x => rfl
    constructor
    · rintro ⟨e, hin, hq⟩
      obtain ⟨hin, hh⟩ := List.mem_filter.1 hin
      unfold elemRcs at hq
      rw [rcs_flatMap, List.mem_flatMap] at hq
      obtain ⟨r, hr, hq⟩ := hq
      obtain ⟨hr, ho⟩ := List.mem_filter.1 hr
      rcases layout_cases (hs.subset hr) (hn r hr) with rfl | rfl | hsil
      · rw [check_indentation] at hq; cases hq
      · refine ⟨hr, ?_⟩
        cases hnode : e.isNode with
        | true =>
          exfalso
          obtain ⟨t, pos, path⟩ := e
          cases t with
          | token k x => cases hnode
          | node k cs => cases hq
        | false =>
          rw [hcheck e hnode] at hq
          have hm : e ∈ p.tree.tokenElems := List.mem_filter.2 ⟨hin, by simp [hnode]⟩
          obtain ⟨before, after, hsp⟩ := List.append_of_mem hm
          rw [C38_blank_lines h _ hsp] at hq
          cases hen : enclosed e after with
          | none => rw [hen] at hq; cases hq
          | some w =>
            rw [hen] at hq
            unfold enclosed at hen
            split at hen
            · rename_i ws next rest
              split at hen
              · rename_i hk
                cases hen
                refine ⟨before, e, w, next, rest, hsp, hk.1, hk.2.1, hk.2.2, ?_, ?_⟩
                · have ho : switchedOff "whitespace-between-line-breaks".toList e = false := by
                    have ho' : (!switchedOff whitespaceBetweenLineBreaks.name e) = true := ho
                    rw [Bool.not_eq_true'] at ho'
                    exact ho'
                  rw [ho, Bool.or_false]
                  simpa using hh
                · rw [mem_rcs] at hq
                  obtain ⟨z, hz, h1, h2⟩ := hq
                  obtain rfl := List.mem_singleton.1 hz
                  exact Prod.ext h1.symm (List.mem_singleton.1 h2)
              · cases hen
            · cases hen
      · rw [rcs_eq_nil_of_silent config hsil e] at hq
        cases hq
    · rintro ⟨hr, x, lb, ws, next, y, hsp, k1, k2, k3, ho, rfl⟩
      have hm : lb ∈ p.tree.tokenElems := by rw [hsp]; simp
      rw [Bool.or_eq_false_iff] at ho
      refine ⟨lb, List.mem_filter.2 ⟨(List.mem_filter.1 hm).1, by simp [ho.1]⟩, ?_⟩
      unfold elemRcs
      rw [rcs_flatMap, List.mem_flatMap]
      refine ⟨_, List.mem_filter.2 ⟨hr, ?_⟩, ?_⟩
      · have : switchedOff whitespaceBetweenLineBreaks.name lb = false := ho.2
        rw [this]; rfl
      · rw [hcheck lb (tokenElems_token hm), C38_blank_lines h _ hsp]
        have hen : enclosed lb (ws :: next :: y) = some ws := by
          unfold enclosed
          dsimp only
          rw [if_pos ⟨k1, k2, k3⟩]
        rw [hen, mem_rcs]
        exact ⟨_, List.mem_singleton.2 rfl, rfl, List.mem_singleton.2 rfl⟩

/-! ## Lists of cells, place by place -/

section
variable {M : Type}

/-- Is a line break the last of the cells? -/
def lastLb (b : Bool) : List (Cell M) → Bool
  | [] => b
  | c :: l => lastLb (c.kind == .TK_LINE_BREAK) l

/-- Is the last of the cells no whitespace? -/
def lastSolid (q : Bool) : List (Cell M) → Bool
  | [] => q
  | c :: l => lastSolid c.solid l

/-- The state of the rule for blank lines behind some cells. -/
def onAfter (off first : M → Bool) : Bool → Bool → List (Cell M) → Bool
  | on, _, [] => on
  | _, q, c :: l => onAfter off first (c.kind == .TK_LINE_BREAK && !(off c.mark || (q && first c.mark))) c.solid l

theorem indented_split {want : M → Option Text} : ∀ {x : List (Cell M)} {b : Bool} {c : Cell M}
    {y : List (Cell M)}, Indented want b (x ++ c :: y) → lastLb b x = true → c.kind ≠ .TK_LINE_BREAK →
    ∀ e, want c.mark = some e → c.lead = e
  | [], _, _, _, h, hb, hk => h.1 hb hk
  | _ :: x, _, _, _, h, hb, hk => indented_split (x := x) h.2 hb hk

theorem indentEdits_of {want : M → Option Text} : ∀ {l : List (Cell M × Option Text)} {b : Bool},
    (∀ x c a y, l = x ++ (c, a) :: y → lastLb b (x.map (·.1)) = true → c.kind ≠ .TK_LINE_BREAK →
      ∀ e, want c.mark = some e → a = some e ∨ (a = none ∧ c.lead = e) ∨
        (c.kind = .TK_WHITESPACE ∧ a = some [] ∧ ∃ d ∈ y.head?, d.1.kind = .TK_LINE_BREAK)) →
    IndentEdits want b l
  | [], _, _ => trivial
  | (c, a) :: l, b, h =>
    ⟨fun hb hk e he => h [] c a l rfl hb hk e he,
      indentEdits_of (fun x c' a' y hx => h ((c, a) :: x) c' a' y (by rw [hx]; rfl))⟩

theorem blankFixes_of {off first : M → Bool} : ∀ {l : List (Cell M × Option Text)} {on q : Bool},
    (∀ x c a y, l = x ++ (c, a) :: y → a =
      if onAfter off first on q (x.map (·.1)) && c.kind == .TK_WHITESPACE && headLb (y.map (·.1)) then some []
      else none) → BlankFixes off first on q l
  | [], _, _, _ => trivial
  | (c, a) :: l, on, q, h =>
    ⟨h [] c a l rfl, blankFixes_of (fun x c' a' y hx => h ((c, a) :: x) c' a' y (by rw [hx]; rfl))⟩

theorem onAfter_last {off first : M → Bool} : ∀ {x : List (Cell M)} {on q : Bool} {c : Cell M},
    onAfter off first on q (x ++ [c]) =
      (c.kind == .TK_LINE_BREAK && !(off c.mark || (lastSolid q x && first c.mark)))
  | [], _, _, _ => rfl
  | _ :: x, _, _, _ => onAfter_last (x := x)

theorem noBlank_split {off first : M → Bool} : ∀ {x : List (Cell M)} {on q : Bool} {c : Cell M}
    {y : List (Cell M)}, NoBlank off first on q (x ++ c :: y) →
    (onAfter off first on q x && c.kind == .TK_WHITESPACE && headLb y) = false
  | [], _, _, _, _, h => h.1
  | _ :: x, _, _, _, _, h => noBlank_split (x := x) h.2

end

theorem lastLb_cells (config : Config) : ∀ {x : List Elem} {b : Bool}, (∀ e ∈ x, e.isNode = false) →
    lastLb b (x.map (cellOf config)) = endsBreak b x
  | [], _, _ => rfl
  | e :: x, b, h => by
    show lastLb (e.kind == .TK_LINE_BREAK) _ = endsBreak (isBreak e) x
    rw [isBreak_kind (h e List.mem_cons_self)]
    exact lastLb_cells config (fun e he => h e (List.mem_cons_of_mem _ he))

theorem lastSolid_cells (config : Config) : ∀ {x : List Elem} {q : Bool}, (∀ e ∈ x, e.isNode = false) →
    lastSolid q (x.map (cellOf config)) = (x.getLast?.map solid).getD q
  | [], _, _ => rfl
  | e :: x, q, h => by
    show lastSolid (Cell.solid (cellOf config e)) _ = _
    rw [lastSolid_cells config (fun e he => h e (List.mem_cons_of_mem _ he))]
    have hc : Cell.solid (cellOf config e) = solid e := by
      rw [solid_kind (h e List.mem_cons_self)]; rfl
    cases x with
    | nil => exact hc
    | cons a x =>
      rw [List.getLast?_cons_cons]
      cases hl : (a :: x).getLast? with
      | none => simp at hl
      | some z => rfl

theorem lead_cell (config : Config) {e : Elem} (h : e.isNode = false) :
    (cellOf config e).lead = leading e := by
  obtain ⟨t, pos, path⟩ := e
  cases t with
  | node k cs => cases h
  | token k x =>
    unfold Cell.lead leading
    show (if k = .TK_WHITESPACE then x else []) = if isTokenOf .TK_WHITESPACE (.token k x) then x else []
    unfold isTokenOf
    by_cases hk : k = .TK_WHITESPACE <;> simp [hk]

/-! ## What a round does -/

/-- The whitespace that the indentation rule wants at the beginning of a line, if any. `ind`: is the rule
active? -/
def wantOf (ind : Bool) (config : Config) (m : Mark) : Option Text :=
  if ind && m.seen && !m.off then some (expectedIndent config m.level m.align) else none

/-- Is the rule for blank lines off? `ws`: is the rule active? -/
def offOf (ws : Bool) (m : Mark) : Bool := !ws || m.mute

theorem want_mark {ind : Bool} {config : Config} {e : Elem} (ht : e.isNode = false) {n : Text} :
    wantOf ind config (markOf config e) = some n ↔
      ind = true ∧ seen e = true ∧ indentOff e = false ∧ n = expected config e := by
  rw [seen_mark ht config]
  have h1 : (markOf config e).off = indentOff e := rfl
  have h2 : expectedIndent config (markOf config e).level (markOf config e).align = expected config e := rfl
  unfold wantOf
  rw [h1, h2]
  cases ind <;> cases (markOf config e).seen <;> cases indentOff e <;> simp [eq_comm]

theorem expected_chars (config : Config) (t : Elem) : ∀ c ∈ expected config t, isBlank c = true := by
  intro c hc
  unfold expected at hc
  rcases List.mem_append.mp hc with h | h
  · rw [List.eq_of_mem_replicate h]
    cases config.indentationMode <;> rfl
  · rw [List.eq_of_mem_replicate h]; rfl

theorem acted_split {config : Config} {root : Tree} {sugs : List Suggestion}
    {x y : List (Cell Mark × Option Text)} {c : Cell Mark} {a : Option Text}
    (h : acted config root sugs = x ++ (c, a) :: y) : ∃ x' e y', root.tokenElems = x' ++ e :: y' ∧
      c = cellOf config e ∧ a = actAt sugs e.start ∧ x.map (·.1) = x'.map (cellOf config) ∧
      y = y'.map (fun e => (cellOf config e, actAt sugs e.start)) := by
  unfold acted at h
  obtain ⟨x', z, e1, e2, e3⟩ := List.map_eq_append_iff.1 h
  obtain ⟨e, y', rfl, e5, e6⟩ := List.map_eq_cons_iff.1 e3
  simp only [Prod.mk.injEq] at e5
  refine ⟨x', e, y', e1, e5.1.symm, e5.2.symm, ?_, e6.symm⟩
  rw [← e2, List.map_map]
  rfl

/-- The edits of a round. -/
theorem round_acts {errLen : Text → Nat} (he : ErrLenOk errLen) {s : Text} {p : Parse}
    (h : parse errLen s = .ok p) (herr : p.errors = []) {config : Config} {ind ws : Bool}
    {A B : List (RuleName × Suggestion)} {sugs : List Suggestion}
    (hA : ∀ q, q ∈ A ↔ ind = true ∧ ∃ t ∈ lineStarts (visibleTokens p.tree),
        indentOff t = false ∧ leading t ≠ expected config t ∧ q = indentSug config t)
    (hB : ∀ q, q ∈ B ↔ ws = true ∧ ∃ x lb w next y,
        p.tree.tokenElems = x ++ lb :: w :: next :: y ∧ lb.kind = .TK_LINE_BREAK ∧
        w.kind = .TK_WHITESPACE ∧ next.kind = .TK_LINE_BREAK ∧
        (hidden lb || switchedOff "whitespace-between-line-breaks".toList lb) = false ∧ q = blankSug w)
    (h1 : ∀ s ∈ sugs, ∃ q ∈ A ++ B, q.2 = s) (h2 : ∀ q ∈ A, q.2 ∈ sugs)
    (h3 : A = [] → ∀ q ∈ B, q.2 ∈ sugs) (h4 : sugs.Pairwise (fun x y => Before x.range y.range)) :
    (∀ s ∈ sugs, ∀ c ∈ s.replaceWith, isBlank c = true) ∧
    IndentEdits (wantOf ind config) true (acted config p.tree sugs) ∧
    (A = [] → BlankFixes (offOf ws) Mark.own false false (acted config p.tree sugs)) := by
  have hneat := neat_parsed h herr
  have hquot := quoted_parsed h herr
  have hne := parsed_leaves he h
  obtain ⟨cs, hroot, _⟩ := C05_root_covers errLen s p h
  have hpw : sugs.Pairwise (fun x y => x.range.start ≠ y.range.start) :=
    h4.imp (fun h => Nat.ne_of_lt h.1)
  have hls : ∀ t ∈ lineStarts (visibleTokens p.tree), t ∈ p.tree.tokenElems := by
    intro t ht
    have := (lineStarts_sublist _).subset ht
    rw [visibleTokens_eq] at this
    exact (List.mem_filter.1 this).1
  -- where an edit comes from
  have from_ : ∀ {x e y n}, p.tree.tokenElems = x ++ e :: y → actAt sugs e.start = some n →
      (e ∈ lineStarts (visibleTokens p.tree) ∧ indentOff e = false ∧ leading e ≠ expected config e ∧
        n = expected config e ∧ A ≠ []) ∨
      (ws = true ∧ n = [] ∧ e.kind = .TK_WHITESPACE ∧ ∃ x' lb next y', x = x' ++ [lb] ∧ y = next :: y' ∧
        lb.kind = .TK_LINE_BREAK ∧ next.kind = .TK_LINE_BREAK ∧
        (hidden lb || switchedOff "whitespace-between-line-breaks".toList lb) = false) := by
    intro x e y n hsp ha
    obtain ⟨sg, hsg, hst, rfl⟩ := actAt_mem ha
    obtain ⟨q, hq, rfl⟩ := h1 sg hsg
    rcases List.mem_append.1 hq with hq | hq
    · left
      have hA0 : A ≠ [] := fun h0 => by rw [h0] at hq; cases hq
      obtain ⟨_, t, ht, g1, g2, rfl⟩ := (hA q).1 hq
      obtain ⟨x', y', hsp'⟩ := List.append_of_mem (hls t ht)
      obtain ⟨_, rfl, _⟩ := split_unique hne hsp hsp' hst.symm
      exact ⟨ht, g1, g2, rfl, hA0⟩
    · right
      obtain ⟨g0, x', lb, w, next, y', g1, g2, g3, g4, g5, rfl⟩ := (hB q).1 hq
      have g1' : p.tree.tokenElems = (x' ++ [lb]) ++ w :: next :: y' := by rw [g1]; simp
      obtain ⟨rfl, rfl, rfl⟩ := split_unique hne hsp g1' hst.symm
      exact ⟨g0, rfl, g3, x', lb, next, y', rfl, rfl, g2, g4, g5⟩
  refine ⟨?_, ?_, ?_⟩
  · intro sg hsg
    obtain ⟨q, hq, rfl⟩ := h1 sg hsg
    rcases List.mem_append.1 hq with hq | hq
    · obtain ⟨_, t, _, _, _, rfl⟩ := (hA q).1 hq
      exact expected_chars config t
    · obtain ⟨_, _, _, _, _, _, _, _, _, _, _, rfl⟩ := (hB q).1 hq
      intro c hc
      cases hc
  · refine indentEdits_of ?_
    intro x c a y hx hl hk n hw
    obtain ⟨x', e, y', hsp, rfl, rfl, e1, rfl⟩ := acted_split hx
    have hall : ∀ z ∈ x' ++ e :: y', z.isNode = false := fun z hz => tokenElems_token (hsp ▸ hz)
    have het := hall e (by simp)
    obtain ⟨w1, w2, w3, rfl⟩ := (want_mark het).1 hw
    rw [e1, lastLb_cells config (fun z hz => hall z (by simp [hz]))] at hl
    have hbr : isBreak e = false := by
      rw [isBreak_kind het]
      simpa using (show e.kind ≠ .TK_LINE_BREAK from hk)
    have hmem : e ∈ lineStarts (visibleTokens p.tree) := by
      rw [hroot] at hneat hquot hsp ⊢
      exact lineStarts_join hneat hquot hsp hbr hl w2 config
    by_cases hlead : leading e = expected config e
    · right
      cases ha : actAt sugs e.start with
      | none => exact .inl ⟨rfl, by rw [lead_cell config het, hlead]⟩
      | some n =>
        rcases from_ hsp ha with ⟨_, _, g, _⟩ | ⟨_, rfl, g3, x2, lb, next, y2, _, rfl, _, g4, _⟩
        · exact absurd hlead g
        · exact .inr ⟨g3, rfl, _, rfl, g4⟩
    · left
      have := h2 _ ((hA _).2 ⟨w1, e, hmem, w3, hlead, rfl⟩)
      exact actAt_some hpw this
  · intro hA0
    refine blankFixes_of ?_
    intro x c a y hx
    obtain ⟨x', e, y', hsp, rfl, rfl, e1, rfl⟩ := acted_split hx
    have hall : ∀ z ∈ x' ++ e :: y', z.isNode = false := fun z hz => tokenElems_token (hsp ▸ hz)
    have key : ∀ x2 lb, x' = x2 ++ [lb] → lb.kind = .TK_LINE_BREAK →
        onAfter (offOf ws) Mark.own false false (x'.map (cellOf config)) =
          (ws && !(hidden lb || switchedOff "whitespace-between-line-breaks".toList lb)) := by
      rintro x2 lb rfl hlb
      rw [List.map_append, List.map_singleton, onAfter_last,
        lastSolid_cells config (fun z hz => hall z (by simp [hz]))]
      have hsp' : p.tree.tokenElems = x2 ++ lb :: e :: y' := by rw [hsp]; simp
      rw [blank_off hneat hquot hne config hsp' (by rw [hlb]; rfl)]
      have : (cellOf config lb).kind = .TK_LINE_BREAK := hlb
      rw [this]
      show (true && !(offOf ws (markOf config lb) || _)) = _
      unfold offOf
      cases ws <;> simp [cellOf]
    rw [e1]
    cases ha : actAt sugs e.start with
    | some n =>
      rcases from_ hsp ha with ⟨_, _, _, _, g⟩ | ⟨g0, rfl, g3, x2, lb, next, y2, rfl, rfl, g2, g4, g5⟩
      · exact absurd hA0 g
      · rw [key x2 lb rfl g2, g5, g0]
        rw [if_pos]
        show (true && !false && e.kind == .TK_WHITESPACE && next.kind == .TK_LINE_BREAK) = true
        rw [g3, g4]; rfl
    | none =>
      rw [if_neg]
      intro hcond
      rw [Bool.and_eq_true, Bool.and_eq_true] at hcond
      obtain ⟨⟨c1, c2⟩, c3⟩ := hcond
      have hk : e.kind = .TK_WHITESPACE := eq_of_beq c2
      rcases List.eq_nil_or_concat x' with rfl | ⟨x2, lb, rfl⟩
      · cases c1
      · rw [List.concat_eq_append] at *
        have hlb : lb.kind = .TK_LINE_BREAK := by
          rw [List.map_append, List.map_singleton, onAfter_last, Bool.and_eq_true] at c1
          exact eq_of_beq c1.1
        rw [key x2 lb rfl hlb, Bool.and_eq_true, Bool.not_eq_true'] at c1
        cases y' with
        | nil => cases c3
        | cons next y2 =>
          have hnx : next.kind = .TK_LINE_BREAK := eq_of_beq c3
          have := h3 hA0 _ ((hB _).2 ⟨c1.1, x2, lb, e, next, y2, by rw [hsp]; simp, hlb, hk, hnx, c1.2, rfl⟩)
          have := actAt_some hpw this
          rw [show (blankSug e).2.range.start = e.start from rfl, ha] at this
          cases this

/-- If all lines are as wanted, nothing is suggested. -/
theorem round_done {errLen : Text → Nat} (he : ErrLenOk errLen) {s : Text} {p : Parse}
    (h : parse errLen s = .ok p) (herr : p.errors = []) {config : Config} {ind ws : Bool}
    {A B : List (RuleName × Suggestion)}
    (hA : ∀ q, q ∈ A ↔ ind = true ∧ ∃ t ∈ lineStarts (visibleTokens p.tree),
        indentOff t = false ∧ leading t ≠ expected config t ∧ q = indentSug config t)
    (hB : ∀ q, q ∈ B ↔ ws = true ∧ ∃ x lb w next y,
        p.tree.tokenElems = x ++ lb :: w :: next :: y ∧ lb.kind = .TK_LINE_BREAK ∧
        w.kind = .TK_WHITESPACE ∧ next.kind = .TK_LINE_BREAK ∧
        (hidden lb || switchedOff "whitespace-between-line-breaks".toList lb) = false ∧ q = blankSug w) :
    (Indented (wantOf ind config) true (cells config p.tree) → A = []) ∧
    (NoBlank (offOf ws) Mark.own false false (cells config p.tree) → B = []) := by
  have hneat := neat_parsed h herr
  have hquot := quoted_parsed h herr
  have hne := parsed_leaves he h
  refine ⟨fun hi => ?_, fun hb => ?_⟩
  · rw [List.eq_nil_iff_forall_not_mem]
    intro q hq
    obtain ⟨h0, t, ht, g1, g2, _⟩ := (hA q).1 hq
    obtain ⟨x, y, hsp, hbr, hx⟩ := lineStarts_split hneat ht
    have hall : ∀ z ∈ x ++ t :: y, z.isNode = false := fun z hz => tokenElems_token (hsp ▸ hz)
    have htt := hall t (by simp)
    have hseen : seen t = true := by
      have := (lineStarts_sublist _).subset ht
      rw [visibleTokens_eq] at this
      exact (List.mem_filter.1 this).2
    unfold cells at hi
    rw [hsp, List.map_append, List.map_cons] at hi
    rw [isBreak_kind htt] at hbr
    have := indented_split hi (by rw [lastLb_cells config (fun z hz => hall z (by simp [hz]))]; exact hx)
      (show t.kind ≠ .TK_LINE_BREAK by simpa using hbr) _ ((want_mark htt).2 ⟨h0, hseen, g1, rfl⟩)
    rw [lead_cell config htt] at this
    exact g2 this
  · rw [List.eq_nil_iff_forall_not_mem]
    intro q hq
    obtain ⟨h0, x, lb, w, next, y, hsp, k1, k2, k3, ho, _⟩ := (hB q).1 hq
    have hall : ∀ z ∈ x ++ lb :: w :: next :: y, z.isNode = false := fun z hz => tokenElems_token (hsp ▸ hz)
    unfold cells at hb
    have hsp' : p.tree.tokenElems = (x ++ [lb]) ++ w :: next :: y := by rw [hsp]; simp
    rw [hsp', List.map_append, List.map_cons] at hb
    have := noBlank_split hb
    rw [List.map_append, List.map_singleton, onAfter_last,
      lastSolid_cells config (fun z hz => hall z (by simp [hz]))] at this
    rw [blank_off hneat hquot hne config hsp (by rw [k1]; rfl)] at ho
    have e1 : (cellOf config lb).kind = .TK_LINE_BREAK := k1
    have e2 : (cellOf config w).kind = .TK_WHITESPACE := k2
    have e3 : headLb ((next :: y).map (cellOf config)) = true := by
      show (next.kind == .TK_LINE_BREAK) = true
      rw [k3]; rfl
    rw [e1, e2, e3] at this
    have e4 : offOf ws (cellOf config lb).mark = (markOf config lb).mute := by
      unfold offOf
      rw [h0]; rfl
    rw [e4] at this
    have e5 : ((markOf config lb).mute || ((x.getLast?.map solid).getD false && (cellOf config lb).mark.own)) =
      false := ho
    rw [e5] at this
    cases this

end Ludtwig.Rules
