import Verif.Rules.BreakBlind
import Verif.Layout.BreakCells

/-!
# The line breaks around blocks after they have been fixed: property C90

One round of `--fix` is enough for the rule `twig-block-line-breaks`.
-/

namespace Ludtwig.Rules

open Cli Lexer Layout Shape

/-! ## The findings by place -/

theorem place_tokens {config : Config} {root : Tree} (h : Fine root) (hraw : ¬ RawBlock root) {n : Nat}
    {a : List (SyntaxKind × Text)} (hp : Place config root n a) :
    ∃ x y, root.tokenElems = x ++ y ∧ x.map kt = a ∧ EndsSolid a := by
  obtain ⟨e, ending, hin, _, hsur, hcase⟩ := hp
  rcases hcase with ⟨c, hb, _, rfl⟩ | ⟨_, _, rfl⟩
  · obtain ⟨x, y, h1, h2, h3, _⟩ := before_iff h hin hb
    exact ⟨x, y, h1, h2, h2 ▸ h3⟩
  · obtain ⟨x, y, h1, h2, h3, _⟩ := behind_iff h hraw hin hsur
    exact ⟨x, y, h1, h2, h2 ▸ h3⟩

/-- A place has one token. -/
theorem split_same {l x y x' y' : List Elem} (h : l = x ++ y) (h' : l = x' ++ y') (hm : x.map kt = x'.map kt) :
    x = x' ∧ y = y' := by
  rw [h] at h'
  have := congrArg List.length hm
  simp only [List.length_map] at this
  exact List.append_inj h' this

/-- The findings of the rule: at the places where the line breaks are not those wanted. -/
theorem finding_iff {errLen : Text → Nat} {s : Text} {p : Parse} (h : parse errLen s = .ok p) (herr : p.errors = [])
    (hraw : ¬ RawBlock p.tree) {config : Config} {l : List CheckResult}
    (hl : runRules config [twigBlockLineBreaks] p.tree = .ok l) (z : CheckResult) :
    z ∈ l ↔ ∃ n x t y, Place config p.tree n (x.map kt) ∧ p.tree.tokenElems = x ++ t :: y ∧
      BreakFinding config n t z := by
  have hf := fine_parsed h herr
  obtain ⟨l', hl', hx⟩ := C72_block_line_breaks h config
  rw [hl] at hl'
  cases hl'
  rw [hx z]
  constructor
  · rintro ⟨e, ending, hin, v1, v2, v3, hsur, ⟨c, t, hb, hft, hfind⟩ | ⟨hno, t, hb, hfind⟩⟩
    · obtain ⟨x, y, h1, h2, _, h4⟩ := before_iff hf hin hb
      have hy := (h4 t).1 hft
      cases y with
      | nil => cases hy
      | cons t' y =>
        cases hy
        exact ⟨_, x, t, y, ⟨e, ending, hin, ⟨v1, v2, v3⟩, hsur, .inl ⟨c, hb, rfl, h2⟩⟩, h1, hfind⟩
    · obtain ⟨x, y, h1, h2, _, _, h4⟩ := behind_iff hf hraw hin hsur
      have hy := (h4 t).1 hb
      cases y with
      | nil => cases hy
      | cons t' y =>
        cases hy
        exact ⟨_, x, t, y, ⟨e, ending, hin, ⟨v1, v2, v3⟩, hsur, .inr ⟨hno, rfl, h2⟩⟩, h1, hfind⟩
  · rintro ⟨n, x, t, y, ⟨e, ending, hin, ⟨v1, v2, v3⟩, hsur, hcase⟩, hxy, hfind⟩
    refine ⟨e, ending, hin, v1, v2, v3, hsur, ?_⟩
    rcases hcase with ⟨c, hb, rfl, ha⟩ | ⟨hno, rfl, ha⟩
    · obtain ⟨x', y', h1, h2, _, h4⟩ := before_iff hf hin hb
      obtain ⟨rfl, rfl⟩ := split_same hxy h1 (by rw [ha, h2])
      exact .inl ⟨c, t, hb, (h4 t).2 rfl, hfind⟩
    · obtain ⟨x', y', h1, h2, _, _, h4⟩ := behind_iff hf hraw hin hsur
      obtain ⟨rfl, rfl⟩ := split_same hxy h1 (by rw [ha, h2])
      exact .inr ⟨hno, t, (h4 t).2 rfl, hfind⟩

/-- At one place one number of line breaks is wanted. -/
theorem wanted_unique {errLen : Text → Nat} (he : ErrLenOk errLen) {s : Text} {p : Parse} (h : parse errLen s = .ok p)
    (herr : p.errors = []) (hraw : ¬ RawBlock p.tree) {config : Config} {n m : Nat} {x y : List Elem} {t : Elem}
    (h1 : Place config p.tree n (x.map kt)) (h2 : Place config p.tree m (x.map kt))
    (hxy : p.tree.tokenElems = x ++ t :: y) : n = m := by
  have hf := fine_parsed h herr
  have first : ∀ {e c : Elem}, Elem.In p.tree e → Beginning e c → x.map kt = leavesBefore c.path → FirstIn c t := by
    intro e c hin hb ha
    obtain ⟨x', y', h1, h2, _, h4⟩ := before_iff hf hin hb
    obtain ⟨rfl, rfl⟩ := split_same hxy h1 (by rw [ha, h2])
    exact (h4 t).2 rfl
  have next : ∀ {e ending : Elem}, Elem.In p.tree e → Surrounded e ending →
      x.map kt = leavesBefore ending.path ++ ending.tree.leaves → Behind ending t := by
    intro e ending hin hs ha
    obtain ⟨x', y', h1, h2, _, _, h4⟩ := behind_iff hf hraw hin hs
    obtain ⟨rfl, rfl⟩ := split_same hxy h1 (by rw [ha, h2])
    exact (h4 t).2 rfl
  obtain ⟨e, ending, hin, _, hs, hcase⟩ := h1
  obtain ⟨e', ending', hin', _, hs', hcase'⟩ := h2
  have both : ∀ {e ending e' c : Elem}, Elem.In p.tree e → Surrounded e ending →
      (¬ ∃ n, beyondComment (nodesBehind e) = some n ∧ n.kind = .TWIG_BLOCK) → Behind ending t →
      Elem.In p.tree e' → nodeOf .TWIG_BLOCK e'.tree = true → Beginning e' c → FirstIn c t → False :=
    fun a b c d e f g i => hraw (apart hf.shape hf.quoted a b c d e f g i)
  rcases hcase with ⟨c, hb, hn, ha⟩ | ⟨hno, hn, ha⟩ <;> rcases hcase' with ⟨c', hb', hn', ha'⟩ | ⟨hno', hn', ha'⟩
  · obtain ⟨k, cs, ht, hk⟩ := beginning_kind hb
    obtain ⟨k', cs', ht', hk'⟩ := beginning_kind hb'
    have g1 := firstIn_parent (conforms_in hf.shape (In_beginning hin hb)) ht (opens_begin _ hk) (first hin hb ha)
    have g2 := firstIn_parent (conforms_in hf.shape (In_beginning hin' hb')) ht' (opens_begin _ hk')
      (first hin' hb' ha')
    rw [g1] at g2
    cases g2
    cases beginning_unique hin hin' hs.1 hs'.1 hb hb'
    rw [hn, hn']
  · exact (both hin' hs' hno' (next hin' hs' ha') hin hs.1 hb (first hin hb ha)).elim
  · exact (both hin hs hno (next hin hs ha) hin' hs'.1 hb' (first hin' hb' ha')).elim
  · have hi : Elem.In p.tree ending := In_child hin ((child_iff _ _ _).2 hs.2.1)
    have hi' : Elem.In p.tree ending' := In_child hin' ((child_iff _ _ _).2 hs'.2.1)
    obtain ⟨a, last, b, r, hab, hr⟩ := C72_behind_is_next hi (next hin hs ha)
    obtain ⟨a', last', b', r', hab', hr'⟩ := C72_behind_is_next hi' (next hin' hs' ha')
    have e1 : p.tree.tokenElems = (a ++ [last]) ++ t :: b := by rw [hab]; simp
    have e2 : p.tree.tokenElems = (a' ++ [last']) ++ t :: b' := by rw [hab']; simp
    obtain ⟨g, _⟩ := token_unique he h e1 e2 rfl
    have g := List.append_inj_right' g rfl
    cases g
    have g1 := last_parent hf.shape hi (surrounded_ending hs) hr
    rw [last_parent hf.shape hi' (surrounded_ending hs') hr'] at g1
    cases g1
    have g3 := firstChild_parent hs.2.1
    rw [firstChild_parent hs'.2.1] at g3
    cases g3
    rw [hn, hn']

/-! ## The leaves after the change -/

/-- Leaves as cells. -/
def cell (l : SyntaxKind × Text) : Cell Unit := ⟨l.1, l.2, ()⟩

theorem cell_inj {a b : SyntaxKind × Text} (h : cell a = cell b) : a = b := by
  obtain ⟨_, _⟩ := a
  obtain ⟨_, _⟩ := b
  cases h
  rfl

theorem cells_text (l : List (SyntaxKind × Text)) : cellText (l.map cell) = l.flatMap (·.2) := by
  unfold cellText
  rw [List.flatMap_map]
  rfl

theorem cells_solid (l : List (SyntaxKind × Text)) : (l.map cell).filter Cell.solid = (solidLeaves l).map cell := by
  unfold solidLeaves
  rw [List.filter_map]
  rfl

theorem solidEnd_cells {l : List (SyntaxKind × Text)} (h : EndsSolid l) : SolidEnd (l.map cell) := by
  intro a x hx
  obtain ⟨l1, l2, rfl, h1, h2⟩ := List.map_eq_append_iff.1 hx
  obtain ⟨y, ys, rfl, h3, h4⟩ := List.map_eq_cons_iff.1 h2
  rw [List.map_eq_nil_iff] at h4
  subst h4
  have := h l1 y rfl
  rw [← h3]
  simp [cell, Cell.solid, this]

theorem leaves_proper {errLen : Text → Nat} (he : ErrLenOk errLen) {s : Text} {p : Parse}
    (h : parse errLen s = .ok p) : Proper () (p.tree.leaves.map cell) := by
  obtain ⟨trees, h1, h2⟩ := C05_root_covers errLen s p h
  refine proper_cells ?_ (fun _ _ _ _ _ => rfl)
  have : (p.tree.leaves.map cell).map Cell.pair = p.tree.leaves := by
    rw [List.map_map]
    conv => rhs; rw [← List.map_id p.tree.leaves]
    exact List.map_congr_left (fun _ _ => rfl)
  rw [this, h1]
  exact covers_proper he h2 (C49_lex_tokenizes he s)

theorem act_split {sugs : List Suggestion} {c : Cell Unit} {o : Option Text} {r : List (Cell Unit × Option Text)} :
    ∀ {cs : List (Cell Unit)} {pos : Nat} {a : List (Cell Unit × Option Text)},
    actsOf sugs pos cs = a ++ (c, o) :: r → cs = a.map (·.1) ++ c :: r.map (·.1) ∧
      o = actAt sugs (pos + byteLen (cellText (a.map (·.1))))
  | [], _, a, h => by cases a <;> cases h
  | d :: cs, pos, a, h => by
    rw [actsOf] at h
    cases a with
    | nil =>
      simp only [List.nil_append, List.cons.injEq, Prod.mk.injEq] at h
      obtain ⟨⟨rfl, rfl⟩, h⟩ := h
      refine ⟨?_, by simp [cellText]⟩
      rw [← h, acts_fst]
      rfl
    | cons b a =>
      simp only [List.cons_append, List.cons.injEq] at h
      obtain ⟨rfl, h⟩ := h
      obtain ⟨h1, h2⟩ := act_split h
      refine ⟨by rw [h1]; rfl, ?_⟩
      rw [h2, List.map_cons, cellText_cons, byteLen_append, Nat.add_assoc]

theorem fit_of : ∀ {acts : List (Cell Unit × Option Text)} {flag : Bool},
    (∀ a c b r, acts = a ++ (c, some b) :: r → (a = [] → flag = true) ∧ SolidEnd (a.map (·.1)) ∧
      IsLineBreaks b ∧ b ≠ []) → Fit flag acts
  | [], _, _ => trivial
  | (c, o) :: r, flag, h => by
    refine ⟨?_, fit_of ?_⟩
    · rintro b rfl
      obtain ⟨h1, _, h3⟩ := h [] c b r rfl
      exact ⟨h1 rfl, h3⟩
    · intro a d b r' hr
      obtain ⟨_, h2, h3⟩ := h ((c, o) :: a) d b r' (by rw [hr]; rfl)
      refine ⟨?_, ?_, h3⟩
      · rintro rfl
        exact h2 [] c rfl
      · intro l x hx
        exact h2 (c :: l) x (by rw [List.map_cons, hx]; rfl)

theorem breaks_lineBreaks' (ending : LineEnding) (n : Nat) :
    IsLineBreaks (List.replicate n ending.text).flatten := by
  refine ⟨List.replicate n ending.text, rfl, ?_⟩
  intro x hx
  rw [(List.mem_replicate.1 hx).2]
  cases ending
  · exact .inl rfl
  · exact .inr rfl

/-- The suggestions of the rule, as line breaks put between leaves. -/
theorem broken_leaves {errLen : Text → Nat} (he : ErrLenOk errLen) {s s' : Text} {p p' : Parse}
    (h : parse errLen s = .ok p) (herr : p.errors = []) (hraw : ¬ RawBlock p.tree) (hcr : NoCr p.tree)
    {config : Config} {l : List CheckResult} (hl : runRules config [twigBlockLineBreaks] p.tree = .ok l)
    {sugs : List Suggestion} (hmem : ∀ x, x ∈ sugs ↔ ∃ z ∈ l, x ∈ z.suggestions)
    (hlt : sugs.Pairwise (fun a b => a.range.start < b.range.start))
    (hs' : applySuggestionsToText sugs s = some s') (h' : parse errLen s' = .ok p')
    (hbare : bare p'.tree = bare p.tree) :
    p'.tree.leaves.map cell = brokenCells (actsOf sugs 0 (p.tree.leaves.map cell)) ∧
    ∀ x t y, p.tree.tokenElems = x ++ t :: y →
      (∀ b, actAt sugs t.start = some b → ∃ n, Place config p.tree n (x.map kt) ∧
        b = (List.replicate n config.lineEnding.text).flatten) ∧
      (actAt sugs t.start = none → ∀ n, Place config p.tree n (x.map kt) →
        t.kind = .TK_LINE_BREAK ∧ t.text = (List.replicate n config.lineEnding.text).flatten) := by
  have hf := fine_parsed h herr
  have hsug : ∀ sug ∈ sugs, ∃ n x t y, Place config p.tree n (x.map kt) ∧ p.tree.tokenElems = x ++ t :: y ∧
      sug.range = (if t.kind = .TK_LINE_BREAK then t.range else ⟨t.start, t.start⟩) ∧
      sug.replaceWith = (List.replicate n config.lineEnding.text).flatten := by
    intro sug hsug
    obtain ⟨z, hz, hzs⟩ := (hmem sug).1 hsug
    obtain ⟨n, x, t, y, h1, h2, _, range, h4, rfl⟩ := (finding_iff h herr hraw hl z).1 hz
    simp only [List.mem_singleton] at hzs
    subst hzs
    exact ⟨n, x, t, y, h1, h2, h4, rfl⟩
  have key : ∀ x t y, p.tree.tokenElems = x ++ t :: y →
      (∀ b, actAt sugs t.start = some b → ∃ n, Place config p.tree n (x.map kt) ∧
        b = (List.replicate n config.lineEnding.text).flatten) ∧
      (actAt sugs t.start = none → ∀ n, Place config p.tree n (x.map kt) →
        t.kind = .TK_LINE_BREAK ∧ t.text = (List.replicate n config.lineEnding.text).flatten) := by
    intro x t y hxy
    constructor
    · intro b hb
      unfold actAt at hb
      obtain ⟨sug, h1, rfl⟩ := Option.map_eq_some_iff.1 hb
      have h2 := List.find?_some h1
      obtain ⟨n, x', t', y', h3, h4, h5, h6⟩ := hsug sug (List.mem_of_find?_eq_some h1)
      have h7 : t'.start = t.start := by
        have : sug.range.start = t.start := by simpa using h2
        rw [← this, h5]
        split <;> rfl
      obtain ⟨rfl, rfl⟩ := token_unique he h h4 hxy h7
      exact ⟨n, h3, h6⟩
    · intro hno n hp
      refine Classical.byContradiction fun hx => ?_
      have hz := (finding_iff h herr hraw hl _).2 ⟨n, x, t, y, hp, hxy, hx, _, rfl, rfl⟩
      unfold actAt at hno
      rw [Option.map_eq_none_iff, List.find?_eq_none] at hno
      refine hno _ ((hmem _).2 ⟨_, hz, List.mem_singleton.2 rfl⟩) ?_
      dsimp only
      split <;> simp [Elem.range]
  refine ⟨?_, key⟩
  have hlk : p.tree.tokenElems.map kt = p.tree.leaves := tokens_kt p.tree 0 []
  have htext : cellText (p.tree.leaves.map cell) = s := by
    rw [cells_text, leaves_text, C01_root_text he s p h]
  have hpr := leaves_proper he h
  have hne : ∀ c ∈ p.tree.leaves.map cell, c.text ≠ [] := by
    have : ∀ {l : List (Cell Unit)}, Proper () l → ∀ c ∈ l, c.text ≠ [] := by
      intro l
      induction l with
      | nil => intro _ c hc; cases hc
      | cons a l ih =>
        intro h c hc
        rcases List.mem_cons.1 hc with rfl | hc
        · exact h.2.1
        · exact ih h.1 c hc
    exact this hpr
  have hat : ∀ x ∈ sugs, AtCell 0 (p.tree.leaves.map cell) x := by
    intro sug hs
    obtain ⟨n, x, t, y, _, h2, h3, _⟩ := hsug sug hs
    obtain ⟨k1, k2⟩ := token_place h2
    refine ⟨(x.map kt).map cell, cell (kt t), (y.map kt).map cell, by rw [k1]; simp, ?_⟩
    rw [h3, cells_text, ← k2, Nat.zero_add]
    rfl
  have hps := acts_suggestions _ 0 sugs hne hat hlt
  have happ := apply_pieces (brokenPieces (actsOf sugs 0 (p.tree.leaves.map cell))) []
  rw [show byteLen ([] : Text) = 0 from rfl, hps, List.nil_append, List.nil_append, broken_before, broken_after,
    acts_fst, htext, hs', Option.some.injEq] at happ
  refine proper_unique (leaves_proper he h') (broken_proper (flag := true) ?_ ?_ (fit_of ?_)) ?_ ?_
  · rw [acts_fst]; exact hpr
  · rw [acts_fst]
    intro c hc htr
    obtain ⟨lf, hlf, rfl⟩ := List.mem_map.1 hc
    exact hcr lf hlf htr
  · intro a c b r hacts
    obtain ⟨h1, h2⟩ := act_split hacts
    obtain ⟨l1, l2, e1, e2, e3⟩ := List.map_eq_append_iff.1 h1
    obtain ⟨lf, l3, rfl, e4, e5⟩ := List.map_eq_cons_iff.1 e3
    rw [← hlk] at e1
    obtain ⟨x, y0, g1, g2, g3⟩ := List.map_eq_append_iff.1 e1
    obtain ⟨t, y, rfl, g4, g5⟩ := List.map_eq_cons_iff.1 g3
    obtain ⟨k1, k2⟩ := token_place g1
    have hpos : (0 + byteLen (cellText (a.map (·.1)))) = t.start := by
      rw [← e2, cells_text, k2, g2, Nat.zero_add]
    rw [hpos] at h2
    obtain ⟨n, hp, rfl⟩ := (key x t y g1).1 b h2.symm
    obtain ⟨_, _, _, _, hsolid⟩ := place_tokens hf hraw hp
    refine ⟨fun _ => rfl, ?_, breaks_lineBreaks' _ _, ?_⟩
    · rw [← e2, ← g2]
      exact solidEnd_cells hsolid
    · have hn : n ≠ 0 := by
        obtain ⟨e, ending, _, _, _, hcase⟩ := hp
        rcases hcase with ⟨_, _, rfl, _⟩ | ⟨_, rfl, _⟩
        · exact (breaks_ne config e).1
        · exact (breaks_ne config e).2
      obtain ⟨m, rfl⟩ := Nat.exists_eq_succ_of_ne_zero hn
      rw [List.replicate_succ, List.flatten_cons]
      cases config.lineEnding <;> simp [LineEnding.text]
  · rw [cells_text, leaves_text, C01_root_text he s' p' h', happ]
  · rw [broken_solid, acts_fst, cells_solid, cells_solid]
    unfold solidLeaves
    rw [← leaves_bare, ← leaves_bare, hbare]

/-- After the suggestions of the rule have been applied, it finds nothing. -/
theorem settled {errLen : Text → Nat} (he : ErrLenOk errLen) {s s' : Text} {p p' : Parse}
    (h : parse errLen s = .ok p) (herr : p.errors = []) (hraw : ¬ RawBlock p.tree) (hcr : NoCr p.tree)
    {config : Config} {l l' : List CheckResult} (hl : runRules config [twigBlockLineBreaks] p.tree = .ok l)
    {sugs : List Suggestion} (hmem : ∀ x, x ∈ sugs ↔ ∃ z ∈ l, x ∈ z.suggestions)
    (hlt : sugs.Pairwise (fun a b => a.range.start < b.range.start))
    (hs' : applySuggestionsToText sugs s = some s') (h' : parse errLen s' = .ok p') (herr' : p'.errors = [])
    (hbare : bare p'.tree = bare p.tree) (hl' : runRules config [twigBlockLineBreaks] p'.tree = .ok l') : l' = [] := by
  obtain ⟨hleaves, key⟩ := broken_leaves he h herr hraw hcr hl hmem hlt hs' h' hbare
  have hf := fine_parsed h herr
  have hf' := fine_parsed h' herr'
  have hraw' : ¬ RawBlock p'.tree := by
    rw [← rawBlock_bare, hbare, rawBlock_bare]; exact hraw
  rw [List.eq_nil_iff_forall_not_mem]
  intro z hz
  obtain ⟨n, x', t', y', hp', hxy', hfind, _⟩ := (finding_iff h' herr' hraw' hl' z).1 hz
  refine hfind ?_
  obtain ⟨cs, hcs, _⟩ := C05_root_covers errLen s p h
  obtain ⟨cs', hcs', _⟩ := C05_root_covers errLen s' p' h'
  have hbs : bareAll cs = bareAll cs' := by
    rw [hcs, hcs', bare_solid rfl, bare_solid rfl] at hbare
    simp only [bareTree, List.cons.injEq, Tree.node.injEq, and_true, true_and] at hbare
    exact hbare.symm
  obtain ⟨a, hp, hsame⟩ : ∃ a, Place config p.tree n a ∧ solidLeaves a = solidLeaves (x'.map kt) := by
    rw [hcs]
    exact place_same hbs (hcs ▸ hf) (hcs' ▸ hf') (hcs' ▸ hp')
  obtain ⟨_, _, _, hx2, hs2⟩ := place_tokens hf' hraw' hp'
  obtain ⟨x, y, hxy, hx, hs1⟩ := place_tokens hf hraw hp
  subst hx
  have hlk : p.tree.leaves = x.map kt ++ y.map kt := by
    have := tokens_kt p.tree 0 []
    rw [← this, ← List.map_append, ← hxy]
    rfl
  have hlk' := (token_place hxy').1
  rw [hlk, hlk', List.map_append, List.map_append, acts_split] at hleaves
  unfold brokenCells at hleaves
  rw [List.flatMap_append] at hleaves
  have hpl := place_unique hleaves (solidEnd_cells hs2)
    (solidEnd_broken (acts := actsOf sugs 0 ((x.map kt).map cell)) (by rw [acts_fst]; exact solidEnd_cells hs1))
    (by
      rw [cells_solid]
      have := broken_solid (actsOf sugs 0 ((x.map kt).map cell))
      unfold brokenCells at this
      rw [this, acts_fst, cells_solid, hsame])
  unfold brokenCells at hpl
  rw [hpl] at hleaves
  have hrest := List.append_cancel_left hleaves
  cases y with
  | nil => cases hrest
  | cons t y =>
    obtain ⟨k1, k2⟩ := key x t y hxy
    have hpos : 0 + byteLen (cellText ((x.map kt).map cell)) = t.start := by
      rw [cells_text, (token_place hxy).2, Nat.zero_add]
    simp only [hpos, List.map_cons, actsOf, List.flatMap_cons] at hrest
    cases ho : actAt sugs t.start with
    | none =>
      rw [ho, brokenOne] at hrest
      have := cell_inj (List.cons.inj hrest).1
      obtain ⟨g1, g2⟩ := k2 ho n hp
      exact ⟨(congrArg Prod.fst this).trans g1, (congrArg Prod.snd this).trans g2⟩
    | some b =>
      rw [ho, brokenOne] at hrest
      have := (List.cons.inj hrest).1
      obtain ⟨m, g1, rfl⟩ := k1 b ho
      cases wanted_unique he h herr hraw hp g1 hxy
      exact ⟨congrArg Cell.kind this, congrArg Cell.text this⟩

/-! ## Fixing -/

/-- One round: after it, the rule suggests nothing. -/
theorem settled_round {errLen : Text → Nat} (he : ErrLenOk errLen) (hE : ErrBeforeBreak errLen) {s : Text} {p : Parse}
    (h : parse errLen s = .ok p) (herr : p.errors = []) (hb : BlocksClear s) (hcr : NoCr p.tree)
    (hraw : ¬ RawBlock p.tree) (config : Config) {rules : List Rule}
    (hs : rules.Sublist definitions) (hn : ∀ r ∈ rules, r.name ∈ breakRules)
    {sort : List (RuleName × Suggestion) → List (RuleName × Suggestion)} (hsort : SortsRanges sort)
    {results : List CheckResult} (hr : runRules config rules p.tree = .ok results)
    (hne : getRuleContextSuggestions results ≠ []) :
    ∃ s' p', overlappingRules (sort (getRuleContextSuggestions results)) = .ok [] ∧
      applySuggestionsToText (filterSuggestions [] (sort (getRuleContextSuggestions results))) s = some s' ∧
      parse errLen s' = .ok p' ∧ p'.errors = [] ∧ bare p'.tree = bare p.tree ∧
      ∀ l', runRules config [twigBlockLineBreaks] p'.tree = .ok l' → l' = [] := by
  rcases break_alone hs hn hr with h0 | ⟨l, hl, h0⟩
  · exact absurd h0 hne
  rw [h0]
  have hR1 : ∀ q ∈ getRuleContextSuggestions l, BreakAt [] (lex errLen s) q.2 := by
    intro q hq
    obtain ⟨x, hx, _, hq⟩ := mem_rcs.1 hq
    exact break_findings he h herr hb hcr hl x hx _ hq
  have hR2 := C89_breaks_at_different_places he h herr hraw hl
  have hmem : ∀ x, x ∈ (getRuleContextSuggestions l).map (·.2) ↔ ∃ z ∈ l, x ∈ z.suggestions := by
    intro x
    rw [List.mem_map]
    constructor
    · rintro ⟨q, hq, rfl⟩
      obtain ⟨z, hz, _, hx⟩ := mem_rcs.1 hq
      exact ⟨z, hz, hx⟩
    · rintro ⟨z, hz, hx⟩
      exact ⟨(z.rule, x), mem_rcs.2 ⟨z, hz, rfl, hx⟩, rfl⟩
  generalize getRuleContextSuggestions l = R at hR1 hR2 hmem
  have hperm : ((R.map (·.2)).mergeSort (fun a b => decide (a.range.start ≤ b.range.start))).Perm (R.map (·.2)) :=
    List.mergeSort_perm _ _
  have hle := List.pairwise_mergeSort (le := fun a b : Suggestion => decide (a.range.start ≤ b.range.start))
    (fun a b c h1 h2 => by simp only [decide_eq_true_eq] at *; omega)
    (fun a b => by simp only [Bool.or_eq_true, decide_eq_true_eq]; omega) (R.map (·.2))
  generalize (R.map (·.2)).mergeSort (fun a b => decide (a.range.start ≤ b.range.start)) = sugs at hperm hle
  have hat : ∀ x ∈ sugs, BreakAt [] (lex errLen s) x := by
    intro x hx
    obtain ⟨q, hq, rfl⟩ := List.mem_map.1 (hperm.subset hx)
    exact hR1 q hq
  have hne : sugs.Pairwise (fun a b => a.range.start ≠ b.range.start) :=
    (List.Perm.pairwise_iff (fun h => Ne.symm h) hperm).2 (List.pairwise_map.2 hR2)
  have hlt : sugs.Pairwise (fun a b => a.range.start < b.range.start) := by
    refine (hle.and hne).imp ?_
    rintro a b ⟨h1, h2⟩
    have h1 : a.range.start ≤ b.range.start := by simpa using h1
    omega
  have hah : sugs.Pairwise (fun a b => Ahead a.range b.range) :=
    (pairwise_both (P := fun x => x ∈ sugs) (fun x hx => hx) hlt).imp
      (fun ⟨h1, h2, h3⟩ => breakAt_order (hat _ h1) (hat _ h2) h3)
  obtain ⟨k1, k2⟩ := sort_ahead hsort hperm hah (fun x hx => breakAt_le (hat x hx))
  obtain ⟨s', p', g1, g2, g3, g4, g5⟩ := break_suggestions he hE hat hlt h herr
  refine ⟨s', p', k1, by rw [k2]; exact g1, g3, g4, g5, fun l' hl' => ?_⟩
  exact settled he h herr hraw hcr hl (fun x => by rw [hperm.mem_iff]; exact hmem x) hlt g1 g3 g4 g5 hl'

/-- C90: processing a file without parse errors, with or without `--fix`, with only
`twig-block-line-breaks` and rules without suggestions, where no block is in raw text, no block or comment
comes behind `<` or an operator of two words, and no token but line breaks ends with CR. The fix never
gives up: the only error is that the file cannot be written. At most one changed text is parsed. It has the
structure of the original, it is the text that is written, and processing it again, with any flags and any
of these rules, changes and writes nothing. -/
theorem C90_block_break_fix_settles {errLen : Text → Nat} (he : ErrLenOk errLen)
    (hE : ErrBeforeBreak errLen) (config : Config) (active : List RuleName)
    (hactive : ∀ n ∈ active, n ∈ breakRules)
    {sort : List (RuleName × Suggestion) → List (RuleName × Suggestion)} (hsort : SortsRanges sort)
    (flags : Flags) (writeOk : Bool) {original : Text} {p : Parse} (hp : parse errLen original = .ok p)
    (herr : p.errors = []) (hb : BlocksClear original) (hcr : NoCr p.tree) (hraw : ¬ RawBlock p.tree) :
    let run := runAnalysis (realEngine errLen config active sort) flags writeOk original
    (run.outcome = .ok ∨ (flags.fix = true ∧ writeOk = false ∧ run.outcome = .err .fileWrite)) ∧
    ((run.parsed = [original] ∧ run.writes = []) ∨
      (flags.fix = true ∧ ∃ s', run.parsed = [original, s'] ∧ run.writes = [s'] ∧
        SameParse (parse errLen original) (parse errLen s') ∧
        ∀ (active' : List RuleName) (flags' : Flags) (writeOk' : Bool), (∀ n ∈ active', n ∈ breakRules) →
          let again := runAnalysis (realEngine errLen config active' sort) flags' writeOk' s'
          again.outcome = .ok ∧ again.parsed = [s'] ∧ again.writes = [])) := by
  -- a run that finds nothing to fix
  have quiet : ∀ (active : List RuleName) (flags : Flags) (writeOk : Bool) (s : Text) (p : Parse)
      (results : List CheckResult), parse errLen s = .ok p →
      runRules config (rulesNamed ((realEngine errLen config active sort).fileRules p.tree)) p.tree = .ok results →
      (flags.fix = false ∨ getRuleContextSuggestions results = []) →
      (runAnalysis (realEngine errLen config active sort) flags writeOk s).outcome = .ok ∧
      (runAnalysis (realEngine errLen config active sort) flags writeOk s).parsed = [s] ∧
      (runAnalysis (realEngine errLen config active sort) flags writeOk s).writes = [] := by
    intro active flags writeOk s p results hp hr hq
    have hp' : (realEngine errLen config active sort).parse s = some (p.tree, p.errors.length) :=
      (realEngine_parse ..).mpr ⟨p, hp, rfl, rfl⟩
    have hr' : (realEngine errLen config active sort).runRules
        ((realEngine errLen config active sort).fileRules p.tree) p.tree = some results :=
      (realEngine_run ..).mpr hr
    unfold runAnalysis
    rw [hp']
    dsimp only
    rw [hr']
    dsimp only
    rcases hq with hq | hq
    · rw [if_neg (by simp [hq])]
      exact ⟨rfl, rfl, rfl⟩
    · split
      · unfold iterativelyApplySuggestions
        rw [fixLoop_nothing _ 9 0 _ _ _ hq]
        exact ⟨rfl, rfl, rfl⟩
      · exact ⟨rfl, rfl, rfl⟩
  have hbreak : ∀ (active : List RuleName) (t : Tree), (∀ n ∈ active, n ∈ breakRules) →
      ∀ r ∈ rulesNamed ((realEngine errLen config active sort).fileRules t), r.name ∈ breakRules := by
    intro active t hactive r hr
    have h0 := (List.mem_filter.mp hr).2
    have h0 : r.name ∈ (realEngine errLen config active sort).fileRules t := by simpa using h0
    obtain ⟨r', hr', h2⟩ := List.mem_map.mp h0
    have h1 := (List.mem_filter.mp ((fileRules_sublist _ _).subset hr')).2
    rw [← h2]
    exact hactive _ (by simpa using h1)
  obtain ⟨results, hr⟩ := C66_rules_never_panic hp config
    (rulesNamed ((realEngine errLen config active sort).fileRules p.tree))
    (fun r hr => (rulesNamed_sublist _).subset hr)
  intro run
  by_cases hq : flags.fix = false ∨ getRuleContextSuggestions results = []
  · obtain ⟨h1, h2, h3⟩ := quiet active flags writeOk original p results hp hr hq
    exact ⟨.inl h1, .inl ⟨h2, h3⟩⟩
  · rw [not_or, Bool.not_eq_false] at hq
    obtain ⟨hfix, hne⟩ := hq
    obtain ⟨s', p', h1, h2, h3, h4, h5, h6⟩ := settled_round he hE hp herr hb hcr hraw config
      (rulesNamed_sublist _) (hbreak active p.tree hactive) hsort hr hne
    have nothing : ∀ {rules : List Rule} {results' : List CheckResult}, rules.Sublist definitions →
        (∀ r ∈ rules, r.name ∈ breakRules) → runRules config rules p'.tree = .ok results' →
        getRuleContextSuggestions results' = [] := by
      intro rules results' g1 g2 g3
      rcases break_alone g1 g2 g3 with h0 | ⟨l, hl, h0⟩
      · exact h0
      · rw [h0, h6 l hl]
        rfl
    obtain ⟨results', hr'⟩ := C66_rules_never_panic h3 config
      (rulesNamed ((realEngine errLen config active sort).fileRules p.tree))
      (fun r hr => (rulesNamed_sublist _).subset hr)
    have hrun : run = runAnalysis (realEngine errLen config active sort) flags writeOk original := rfl
    clear_value run
    have hpe : (realEngine errLen config active sort).parse original = some (p.tree, p.errors.length) :=
      (realEngine_parse ..).mpr ⟨p, hp, rfl, rfl⟩
    have hre : (realEngine errLen config active sort).runRules
        ((realEngine errLen config active sort).fileRules p.tree) p.tree = some results :=
      (realEngine_run ..).mpr hr
    unfold runAnalysis at hrun
    rw [hpe] at hrun
    dsimp only at hrun
    rw [hre] at hrun
    dsimp only at hrun
    unfold iterativelyApplySuggestions at hrun
    rw [if_pos hfix, fixLoop_next (realEngine errLen config active sort) 9 0
      ⟨p.tree, original, p.errors.length, (realEngine errLen config active sort).fileRules p.tree⟩ results false [] s' p'.tree
      p'.errors.length results' hne h1 h2 ((realEngine_parse ..).mpr ⟨p', h3, rfl, rfl⟩)
      ((realEngine_run ..).mpr hr'),
      fixLoop_nothing _ 8 1 _ _ _ (nothing (rulesNamed_sublist _) (hbreak active p.tree hactive) hr')] at hrun
    dsimp only at hrun
    have hlast : SameParse (parse errLen original) (parse errLen s') ∧
        ∀ (active' : List RuleName) (flags' : Flags) (writeOk' : Bool), (∀ n ∈ active', n ∈ breakRules) →
          let again := runAnalysis (realEngine errLen config active' sort) flags' writeOk' s'
          again.outcome = .ok ∧ again.parsed = [s'] ∧ again.writes = [] := by
      refine ⟨?_, fun active' flags' writeOk' hactive' => ?_⟩
      · rw [hp, h3]
        exact ⟨h5.symm, by rw [herr, h4]⟩
      · obtain ⟨results2, hr2⟩ := C66_rules_never_panic h3 config
          (rulesNamed ((realEngine errLen config active' sort).fileRules p'.tree))
          (fun r hr => (rulesNamed_sublist _).subset hr)
        exact quiet active' flags' writeOk' s' p' results2 h3 hr2
          (.inr (nothing (rulesNamed_sublist _) (hbreak active' p'.tree hactive') hr2))
    cases writeOk with
    | false =>
      rw [if_pos rfl] at hrun
      subst hrun
      exact ⟨.inr ⟨hfix, rfl, rfl⟩, .inr ⟨hfix, s', rfl, rfl, hlast⟩⟩
    | true =>
      rw [if_neg (by simp)] at hrun
      subst hrun
      exact ⟨.inl rfl, .inr ⟨hfix, s', rfl, rfl, hlast⟩⟩

/-- A file with a block in a tag: one round, and nothing in a second run. -/
example :
    let s := "<p>{% block a %}{% endblock %}b</p>".toList
    SortsRanges insertionSort ∧ ErrBeforeBreak (fun _ => 1) ∧ BlocksClear s ∧
    Returns (parse (fun _ => 1) s) (fun r => r.errors.isEmpty && noRaw r.tree &&
      r.tree.leaves.all (fun l => l.2.getLast? != some '\r')) = true ∧
    (runAnalysis (realEngine (fun _ => 1) defaultConfig breakRules insertionSort) ⟨true, false⟩ true s).writes =
      ["<p>\n{% block a %}{% endblock %}\n\nb</p>".toList] ∧
    (runAnalysis (realEngine (fun _ => 1) defaultConfig breakRules insertionSort) ⟨true, false⟩ true
      "<p>\n{% block a %}{% endblock %}\n\nb</p>".toList).writes = [] :=
  ⟨insertionSort_sorts, fun _ _ _ _ _ _ _ _ _ => rfl, blocksClear_check (by decide +kernel),
    by decide +kernel, by decide +kernel, by decide +kernel⟩

end Ludtwig.Rules
