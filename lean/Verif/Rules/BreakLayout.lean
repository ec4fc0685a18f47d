import Verif.Rules.BreakSettled
import Verif.Rules.NeatFix
import Verif.Layout.Shifted

/-!
# Fixing the line breaks around blocks together with the layout: property C92

With `twig-block-line-breaks`, `indentation` and `whitespace-between-line-breaks` together, `--fix` does not
change the structure of a file without parse errors.
-/

namespace Ludtwig.Rules

open Cli Lexer Layout Shape

/-! ## Specification -/

/-- The rules for layout, the rule for line breaks around blocks, and the rules that suggest nothing. -/
def rowRules : List RuleName := layoutRules ++ breakRules

/-! ## The beginning of the file -/

theorem leaves_opened {k : SyntaxKind} {cs : List Tree} (hl : (production k).Lang (Shape.items cs))
    (ho : (production k).opens = true) : ∃ j x ts, cs = .token j x :: ts := by
  obtain ⟨j, v, hv⟩ := lang_opens ho hl
  rcases items_first hv with h | ⟨h, _⟩
  · exact h
  · cases h

/-- What a node beside a block begins with. -/
theorem beside_first {k : SyntaxKind} {cs : List Tree} (hl : (production k).Lang (Shape.items cs)) (hk : k ∈ besideKinds) :
    (∃ j x ts, cs = .token j x :: ts) ∨ ∃ j ds ts, cs = .node j ds :: ts ∧ (production j).opens = true := by
  have main : ∀ {ks : List SyntaxKind}, fullRx (production k) = true → beginsRx ks (production k) = true →
      (∀ j ∈ ks, (production j).opens = true) →
      (∃ j x ts, cs = .token j x :: ts) ∨ ∃ j ds ts, cs = .node j ds :: ts ∧ (production j).opens = true := by
    intro ks h1 h2 h3
    cases hi : Shape.items cs with
    | nil => exact absurd hi (lang_full h1 hl)
    | cons i v =>
      have hok := lang_begins h2 hl i v hi
      rcases items_first hi with h | ⟨hn, ds, ts, rfl⟩
      · exact .inl h
      · have hin : i.kind ∈ ks := by simpa [okItem, hn] using hok
        exact .inr ⟨_, ds, ts, rfl, h3 _ hin⟩
  rcases begins_beside k hk with rfl | ⟨h1, h2⟩
  · exact main (ks := [.TWIG_STARTING_BLOCK]) (by decide +kernel) (by decide +kernel) (by decide +kernel)
  · exact main h1 h2 (fun j hj => (opens_inner j hj).1)

theorem beside_leaves {k : SyntaxKind} {cs : List Tree} (hc : Conforms production (.node k cs)) (hk : k ∈ besideKinds) :
    leavesOf cs ≠ [] := by
  rcases beside_first hc.1 hk with ⟨j, x, ts, rfl⟩ | ⟨j, ds, ts, rfl, ho⟩
  · simp [leavesOf, Tree.leaves]
  · have hd : Conforms production (.node j ds) := hc.2.1
    obtain ⟨j', x, ts', rfl⟩ := leaves_opened hd.1 ho
    simp [leavesOf, Tree.leaves]

theorem root_of_nil {root t : Tree} {pos : Nat} (hin : Elem.In root ⟨t, pos, []⟩) : t = root := by
  generalize hg : (⟨t, pos, []⟩ : Elem) = y at hin
  cases hin with
  | root => exact congrArg Elem.tree hg
  | child hp hc =>
    have := child_parent hc
    rw [← hg] at this
    cases this

/-- A node at the beginning of the file: one of the first kinds, or the first in such a node. -/
theorem at_beginning {cs : List Tree} (hc : Conforms production (.node .ROOT cs)) : ∀ {fs : List Frame} {f : Frame} {j : SyntaxKind}
    {ds : List Tree} {pos : Nat}, Elem.In (.node .ROOT cs) ⟨.node j ds, pos, f :: fs⟩ → leavesBefore (f :: fs) = [] →
    (fs = [] ∧ f.kind = .ROOT ∧ j ∈ besideKinds) ∨ (f.kind ∈ besideKinds ∧ (production j).opens = true) := by
  intro fs
  induction fs with
  | nil =>
    intro f j ds pos hin _
    have hP := (In_path hin).1
    have hroot := root_of_nil hP
    have hk : f.kind = .ROOT := by
      injection hroot with h1 _
    refine .inl ⟨rfl, hk, ?_⟩
    have hl := lang_in hc hP rfl
    rw [hk] at hl
    exact lang_only (r := production .ROOT) (by decide +kernel) hl (mem_items_node (cs := ds) (by simp))
  | cons g gs ih =>
    intro f j ds pos hin he
    have hP := (In_path hin).1
    rw [leavesBefore, List.append_eq_nil_iff] at he
    have hl := lang_in hc hP rfl
    have tok : ∀ {k x ts}, f.before ++ .node j ds :: f.after = .token k x :: ts → False := by
      intro k x ts e
      cases hb : f.before with
      | nil => rw [hb] at e; cases e
      | cons a b =>
        rw [hb] at e
        have he2 := he.2
        rw [hb] at he2
        cases e
        simp [leavesOf, Tree.leaves] at he2
    rcases ih hP he.1 with ⟨_, _, hk⟩ | ⟨_, ho⟩
    · refine .inr ⟨hk, ?_⟩
      rcases beside_first hl hk with ⟨k, x, ts, e⟩ | ⟨k, ds', ts, e, ho⟩
      · exact (tok e).elim
      · cases hb : f.before with
        | nil => rw [hb] at e; cases e; exact ho
        | cons a b =>
          exfalso
          have he2 := he.2
          rw [hb] at e he2
          cases e
          have hPc := (conforms_in hc hP).2
          have hd : Conforms production (.node k ds') := conformAll_mem hPc _ (by rw [hb]; simp)
          obtain ⟨j', x, ts', rfl⟩ := leaves_opened hd.1 ho
          simp [leavesOf, Tree.leaves] at he2
    · obtain ⟨k, x, ts, e⟩ := leaves_opened hl ho
      exact (tok e).elim

/-- The beginning of a block that is looked at is not the beginning of the file. -/
theorem beginning_behind {cs : List Tree} (hc : Conforms production (.node .ROOT cs)) {e c ending : Elem}
    (hin : Elem.In (.node .ROOT cs) e) (hsur : Surrounded e ending) (hb : Beginning e c) : leavesBefore c.path ≠ [] := by
  obtain ⟨hblock, _, f, fs, hpath, hroot⟩ := hsur
  obtain ⟨ecs, hecs⟩ := nodeOf_tree hblock
  obtain ⟨te, pe, path⟩ := e
  dsimp only at hpath hecs
  subst hpath hecs
  have hP := (In_path hin).1
  have hl := lang_in hc hP rfl
  have hmem : (⟨true, .TWIG_BLOCK⟩ : Shape.Item) ∈ Shape.items (f.before ++ .node .TWIG_BLOCK ecs :: f.after) :=
    mem_items_node (cs := ecs) (by simp)
  have hfk := mentions_block _ (lang_mentions hl _ hmem)
  have hPc := (conforms_in hc hP).2
  -- a node beside the block has leaves
  have leafy : ∀ {l : List Tree}, (∀ t ∈ l, t ∈ f.before) → ∀ n ∈ l, n.isNode = true → leavesOf l ≠ [] := by
    intro l hsub n hn hnode h0
    cases n with
    | token => cases hnode
    | node k ds =>
      have hd : Conforms production (.node k ds) := conformAll_mem hPc _ (by simp [hsub _ hn])
      have hk := lang_beside hl hmem (mem_items_node (k := k) (cs := ds) (by simp [hsub _ hn]))
      obtain ⟨l1, l2, rfl⟩ := List.append_of_mem hn
      rw [leavesOf_append, leavesOf] at h0
      have h1 := (List.append_eq_nil_iff.1 (List.append_eq_nil_iff.1 h0).2).1
      exact beside_leaves hd hk h1
  intro h0
  rcases hb with ⟨k, s, a, n, b, after, fs', hp, hn, hbn, rfl⟩ | ⟨hno, hfirst⟩
  · dsimp only at hp h0
    cases hp
    have hi := In_before hin
    obtain ⟨nk, ns, rfl⟩ : ∃ nk ns, n = .node nk ns := by
      cases n with
      | token => simp [isComment, nodeOf] at hn
      | node nk ns => exact ⟨nk, ns, rfl⟩
    rcases at_beginning hc hi h0 with ⟨rfl, hk, _⟩ | ⟨hk, _⟩
    · have hsome := hroot hk
      have hnb : nodesBefore ⟨.node .TWIG_BLOCK ecs, pe, [⟨k, s, a ++ .node nk ns :: b, after⟩]⟩ =
          .node nk ns :: (a.filter Tree.isNode).reverse := by
        have hb0 : b.filter Tree.isNode = [] := List.filter_eq_nil_iff.2 (fun t ht => by rw [hbn t ht]; decide)
        have h1 : Tree.isNode (.node nk ns) = true := rfl
        simp only [nodesBefore, List.filter_append, List.filter_cons_of_pos h1, hb0, List.reverse_append,
          List.reverse_cons, List.reverse_nil, List.nil_append, List.singleton_append]
      rw [hnb, beyondComment, if_pos hn] at hsome
      cases hr : (a.filter Tree.isNode).reverse with
      | nil => rw [hr] at hsome; exact hsome rfl
      | cons m ms =>
        have hm : m ∈ a.filter Tree.isNode := by
          rw [← List.mem_reverse, hr]; simp
        rw [List.mem_filter] at hm
        rw [leavesBefore, List.append_eq_nil_iff] at h0
        exact leafy (l := a) (fun t ht => by simp [ht]) m hm.1 hm.2 h0.2
    · exact absurd hk ((by decide +kernel : ∀ k ∈ holdKinds, k ∉ besideKinds) _ hfk)
  · obtain ⟨k, l, r, _, _, _, _, hg⟩ := hfirst
    rw [hg, leavesBefore, List.append_eq_nil_iff] at h0
    rcases at_beginning hc hin h0.1 with ⟨rfl, hk, _⟩ | ⟨hk, _⟩
    · have hsome := hroot hk
      cases hr : nodesBefore ⟨.node .TWIG_BLOCK ecs, pe, [f]⟩ with
      | nil => rw [hr] at hsome; exact hsome rfl
      | cons m ms =>
        have hm : m ∈ f.before.filter Tree.isNode := by
          rw [← List.mem_reverse]
          show m ∈ nodesBefore ⟨.node .TWIG_BLOCK ecs, pe, [f]⟩
          rw [hr]; simp
        rw [List.mem_filter] at hm
        have h1 := h0.1
        rw [leavesBefore, List.append_eq_nil_iff] at h1
        exact leafy (l := f.before) (fun t ht => ht) m hm.1 hm.2 h1.2
    · exact absurd hk ((by decide +kernel : ∀ k ∈ holdKinds, k ∉ besideKinds) _ hfk)

/-! ## Places -/

theorem covers_solid {ls : List (SyntaxKind × Text)} {ts : List Token} (h : Covers ls ts) : EndsSolid ls →
    (∀ t ∈ ts, t.kind = .TK_LINE_BREAK → '\n' ∈ t.text) → ∀ a v, ts = a ++ [v] → v.kind ≠ .TK_LINE_BREAK := by
  have tail : ∀ {l : SyntaxKind × Text} {ls}, EndsSolid (l :: ls) → EndsSolid ls := by
    intro l ls h a x e
    exact h (l :: a) x (by rw [e]; rfl)
  induction h with
  | nil => intro _ _ a v e; cases a <;> cases e
  | @same ls ts t hc ih =>
    intro hs hb a v e
    cases a with
    | nil =>
      simp only [List.nil_append, List.cons.injEq] at e
      obtain ⟨rfl, rfl⟩ := e
      cases hc
      intro hk
      have := hs [] _ rfl
      dsimp only at this
      rw [hk] at this
      cases this
    | cons w a =>
      simp only [List.cons_append, List.cons.injEq] at e
      exact ih (tail hs) (fun t ht => hb t (by simp [ht])) a v e.2
  | @word ls ts t ht hc ih =>
    intro hs hb a v e
    cases a with
    | nil =>
      simp only [List.nil_append, List.cons.injEq] at e
      obtain ⟨rfl, rfl⟩ := e
      intro hk
      rw [hk] at ht
      cases ht
    | cons w a =>
      simp only [List.cons_append, List.cons.injEq] at e
      exact ih (tail hs) (fun t ht => hb t (by simp [ht])) a v e.2
  | @merged ls ts t u ht hu hc ih =>
    intro hs hb a v e
    rcases a with _ | ⟨w, _ | ⟨w', a⟩⟩
    · simp at e
    · simp only [List.cons_append, List.nil_append, List.cons.injEq] at e
      obtain ⟨_, rfl, _⟩ := e
      intro hk
      have := hu '\n' (hb u (by simp) hk)
      revert this
      decide
    · simp only [List.cons_append, List.cons.injEq] at e
      exact ih (tail hs) (fun t ht => hb t (by simp [ht])) a v e.2.2

/-- Every suggestion of the rule for blocks is at a place behind a token, on the same line. -/
theorem break_spots {errLen : Text → Nat} (he : ErrLenOk errLen) {s : Text} {p : Parse}
    (h : parse errLen s = .ok p) (herr : p.errors = []) (hb : BlocksClear s) (hcr : NoCr p.tree)
    (hraw : ¬ RawBlock p.tree) {config : Config} {l : List CheckResult}
    (hl : runRules config [twigBlockLineBreaks] p.tree = .ok l) :
    ∀ x ∈ l, ∀ sug ∈ x.suggestions, Spot false true [] (lex errLen s) sug := by
  intro z hz sug hsug
  have hf := fine_parsed h herr
  obtain ⟨b1, b2, T, t, r, e, b3, b4⟩ := break_findings he h herr hb hcr hl z hz sug hsug
  obtain ⟨n, x, v, y, hpl, hte, hfind⟩ := (finding_iff h herr hraw hl z).1 hz
  obtain ⟨hleaves, hst⟩ := token_place hte
  have hne := (C02_lex_partition he s).2.2
  -- the tokens before the place
  obtain ⟨trees, g1, g2⟩ := C05_root_covers errLen s p h
  have g3 : p.tree.leaves = leavesOf trees := by rw [g1]; rfl
  rw [← g3, hleaves] at g2
  obtain ⟨T1, T2, e', c1, c2⟩ := Template.covers_split g2
  have hstart : sug.range.start = byteLen (T1.flatMap (·.text)) := by
    obtain ⟨_, range, hr, rfl⟩ := hfind
    simp only [List.mem_singleton] at hsug
    subst hsug
    rw [covers_flat c1, ← hst, hr]
    split <;> rfl
  have hstart2 : sug.range.start = byteLen (T.flatMap (·.text)) := by
    rw [b4]
    split <;> rfl
  obtain ⟨v', r', hT2, _⟩ := covers_head c2
  have hT : T = T1 := by
    rw [hstart] at hstart2
    have e2 := e.symm.trans e'
    rcases List.append_eq_append_iff.1 e2 with ⟨a, ha, _⟩ | ⟨a, ha, _⟩
    · cases a with
      | nil => rw [ha]; simp
      | cons w a =>
        exfalso
        have := byteLen_pos (hne w (by rw [e', ha]; simp))
        rw [ha] at hstart2
        simp only [List.flatMap_append, List.flatMap_cons, byteLen_append] at hstart2
        omega
    · cases a with
      | nil => rw [ha]; simp
      | cons w a =>
        exfalso
        have := byteLen_pos (hne w (by rw [e, ha]; simp))
        rw [ha] at hstart2
        simp only [List.flatMap_append, List.flatMap_cons, byteLen_append] at hstart2
        omega
  subst hT
  obtain ⟨x', y', k1, k2, k3⟩ := place_tokens hf hraw hpl
  have hxne : x.map kt ≠ [] := by
    obtain ⟨el, ending, hin, _, hsur, ⟨c, hbeg, _, ha⟩ | ⟨_, _, ha⟩⟩ := hpl
    · rw [ha]
      have hc := hf.shape
      have hroot : p.tree = .node .ROOT trees := g1
      rw [hroot] at hin hc
      exact beginning_behind hc hin hsur hbeg
    · obtain ⟨x2, _, _, j1, _, j2, _⟩ := behind_iff hf hraw hin hsur
      rw [ha, ← j1]
      simpa using j2
  have hbrk : ∀ t ∈ T, t.kind = .TK_LINE_BREAK → '\n' ∈ t.text := by
    intro t ht hk
    have hm : t ∈ lex errLen s := by rw [e]; simp [ht]
    obtain ⟨y, hy⟩ := lineBreaks_last ((C13_trivia_shape he s hm).2 hk) (hne t hm)
    rw [hy]; simp
  rw [e]
  refine spot_break b1 b2 b3 b4 ?_ (covers_solid c1 k3 hbrk)
  rintro rfl
  have := covers_flat c1
  cases hx : x.map kt with
  | nil => exact absurd hx hxne
  | cons q qs => rw [hx] at c1; cases c1

/-! ## One round -/

/-- One round: the text after it has the same structure. It is the one before it, with line breaks put between
tokens, and with other whitespace at the beginnings of lines. -/
theorem row_round_text {errLen : Text → Nat} (he : ErrLenOk errLen) (hlo : ErrLineLocal errLen) (hE : ErrBeforeBreak errLen)
    {s : Text} {p : Parse} (h : parse errLen s = .ok p) (herr : p.errors = []) (hb : BlocksClear s) (hcr : NoCr p.tree)
    (hraw : ¬ RawBlock p.tree) (config : Config) {rules : List Rule} (hs : rules.Sublist definitions)
    (hn : ∀ r ∈ rules, r.name ∈ rowRules)
    {sort : List (RuleName × Suggestion) → List (RuleName × Suggestion)} (hsort : SortsRanges sort)
    {results : List CheckResult} (hr : runRules config rules p.tree = .ok results) :
    ∃ over s', overlappingRules (sort (getRuleContextSuggestions results)) = .ok over ∧
      applySuggestionsToText (filterSuggestions over (sort (getRuleContextSuggestions results))) s = some s' ∧
      BlocksClear s' ∧ SameParse (parse errLen s) (parse errLen s') ∧
      ∃ s1, Spaced [] (lex errLen s) s1 ∧ Shifted true s1 s' := by
  obtain ⟨A, B, hA, hB, hAB⟩ := results_split config rules p.tree (fun r => decide (r.name ∈ layoutRules)) hr
  have hsA : (rules.filter (fun r => decide (r.name ∈ layoutRules))).Sublist definitions := List.filter_sublist.trans hs
  have hsB : (rules.filter (fun r => !decide (r.name ∈ layoutRules))).Sublist definitions := List.filter_sublist.trans hs
  have hnA : ∀ r ∈ rules.filter (fun r => decide (r.name ∈ layoutRules)), r.name ∈ layoutRules :=
    fun r hr => by simpa using (List.mem_filter.1 hr).2
  have hnB' : ∀ r ∈ rules.filter (fun r => !decide (r.name ∈ layoutRules)), r.name ∉ layoutRules :=
    fun r hr => by simpa using (List.mem_filter.1 hr).2
  have hnB : ∀ r ∈ rules.filter (fun r => !decide (r.name ∈ layoutRules)), r.name ∈ breakRules := by
    intro r hr
    rcases List.mem_append.1 (hn r (List.mem_filter.1 hr).1) with h | h
    · exact absurd h (hnB' r hr)
    · exact h
  have hRperm : (getRuleContextSuggestions results).Perm (getRuleContextSuggestions A ++ getRuleContextSuggestions B) := by
    rw [← rcs_append]
    exact hAB.flatMap_right _
  -- the rules for layout
  obtain ⟨trees, c1, c2⟩ := C05_root_covers errLen s _ h
  have hL := tidy_results he h herr config hsA hnA hA
  have hLs : ∀ q ∈ getRuleContextSuggestions A, Spot true true [] (lex errLen s) q.2 := by
    intro q hq
    have := hL.allowed q hq
    rw [show p.tree = _ from c1] at this
    exact spot_line (lineStart_tokens c2 this)
  have hLn : ∀ q ∈ getRuleContextSuggestions A, q.1 ∈ layoutRules := by
    intro q hq
    obtain ⟨r, hr, e⟩ := results_names config hsA _ hA q hq
    rw [e]; exact hnA r hr
  -- the rule for blocks
  have hBs : (∀ q ∈ getRuleContextSuggestions B, Spot false true [] (lex errLen s) q.2) ∧
      (getRuleContextSuggestions B).Pairwise (fun a b => a.2.range.start ≠ b.2.range.start) := by
    rcases break_alone hsB hnB hB with h0 | ⟨l, hl, h0⟩
    · rw [h0]; exact ⟨by simp, .nil⟩
    · rw [h0]
      refine ⟨fun q hq => ?_, C89_breaks_at_different_places he h herr hraw hl⟩
      obtain ⟨x, hx, _, hq⟩ := mem_rcs.1 hq
      exact break_spots he h herr hb hcr hraw hl x hx _ hq
  generalize getRuleContextSuggestions A = RL at hRperm hL hLs hLn
  generalize getRuleContextSuggestions B = RB at hRperm hBs
  generalize getRuleContextSuggestions results = R at hRperm
  have hne := (C02_lex_partition he s).2.2
  have hspot : ∀ q ∈ R, ∃ l, Spot l true [] (lex errLen s) q.2 := by
    intro q hq
    rcases List.mem_append.1 (hRperm.subset hq) with hq | hq
    · exact ⟨true, hLs q hq⟩
    · exact ⟨false, hBs.1 q hq⟩
  have hle : ∀ q ∈ R, q.2.range.start ≤ q.2.range.stop := by
    intro q hq
    obtain ⟨l, hl⟩ := hspot q hq
    exact hl.start_le.2
  have hclear : R.Pairwise Clear := by
    refine (List.Perm.pairwise_iff (fun h => Clear.symm h) hRperm).mpr (List.pairwise_append.2 ⟨?_, ?_, ?_⟩)
    · refine (pairwise_both (P := fun q : RuleName × Suggestion => Spot true true [] (lex errLen s) q.2 ∧ q.1 ∈ layoutRules)
        (fun q hq => ⟨hLs q hq, hLn q hq⟩) hL.apart).imp ?_
      rintro a b ⟨⟨ha, ha'⟩, ⟨hb, hb'⟩, hab⟩
      rcases spot_ranges hne ha hb with ⟨hr, _⟩ | hr | hr
      · exact .inr (.inr ⟨hr, (hab hr).1, (hab hr).2, by simpa [ofLayout] using ha', by simpa [ofLayout] using hb'⟩)
      · exact .inl (ahead_before hr hb.start_le.2)
      · exact .inr (.inl (ahead_before hr ha.start_le.2))
    · refine (pairwise_both (P := fun q : RuleName × Suggestion => Spot false true [] (lex errLen s) q.2)
        (fun q hq => hBs.1 q hq) hBs.2).imp ?_
      rintro a b ⟨ha, hb, hab⟩
      rcases spot_ranges hne ha hb with ⟨hr, _⟩ | hr | hr
      · exact absurd (by rw [hr]) hab
      · exact .inl (ahead_before hr hb.start_le.2)
      · exact .inr (.inl (ahead_before hr ha.start_le.2))
    · intro a ha b hb
      rcases spot_ranges hne (hLs a ha) (hBs.1 b hb) with ⟨_, hr⟩ | hr | hr
      · cases hr
      · exact .inl (ahead_before hr (hBs.1 b hb).start_le.2)
      · exact .inr (.inl (ahead_before hr (hLs a ha).start_le.2))
  obtain ⟨k1, k2⟩ := clear_sorted hclear hle hsort
  obtain ⟨over, h1, h2, h3⟩ := sequel_over k2 (fun p hp => hle p (k1.mem_iff.mp hp))
  have hahead : ((sort R).filter (fun p => !over.contains p.1)).Pairwise (fun x y => Ahead x.2.range y.2.range) := by
    rw [List.pairwise_filter]
    refine (k2.and h2).imp ?_
    rintro a b ⟨hio, hov⟩ _ hb
    rcases hio with hio | ⟨hr, _⟩
    · exact hio
    · have := hov hr
      simp [this] at hb
  have hmem : ∀ q ∈ (sort R).filter (fun p => !over.contains p.1), q ∈ R :=
    fun q hq => k1.mem_iff.mp (List.mem_filter.1 hq).1
  have hbefore : (filterSuggestions over (sort R)).Pairwise (fun x y => Before x.range y.range) := by
    unfold filterSuggestions
    rw [List.pairwise_map]
    refine (pairwise_both (P := fun q : RuleName × Suggestion => q ∈ R) hmem hahead).imp ?_
    rintro a b ⟨ha, hb, hab⟩
    obtain ⟨l, ha⟩ := hspot a ha
    obtain ⟨l', hb⟩ := hspot b hb
    rcases spot_ranges hne ha hb with ⟨hr, _⟩ | hr | hr
    · rw [hr] at hab; exact absurd hab ahead_irrefl
    · exact hr
    · exfalso
      obtain ⟨x1, x2⟩ := hr
      obtain ⟨x3, x4⟩ := hab
      have := ha.start_le
      omega
  have hall : ∀ x ∈ filterSuggestions over (sort R), ∃ l, Spot l true [] (lex errLen s) x := by
    intro x hx
    unfold filterSuggestions at hx
    obtain ⟨q, hq, rfl⟩ := List.mem_map.1 hx
    exact hspot q (hmem q hq)
  have ht := C49_lex_tokenizes he s
  obtain ⟨ps, s1, g1, g2, g3, g4⟩ := spot_pieces hne (fun t ht => (C13_trivia_shape he s ht).2) (trivia_blanks ht)
    hall hbefore
  have htext : (lex errLen s).flatMap (·.text) = s := by
    rw [List.flatMap_def]
    exact (C02_lex_partition he s).2.1
  -- the text with line breaks
  obtain ⟨p1, e1, e2, e3⟩ := C87_broken he hE (spaced_broken _ (Nat.le_refl _) (trivia_blanks ht) g3) h herr
  have hlined := spaced_lined g3 (fun t ht => (C13_trivia_shape he s ht).2)
  rw [htext] at hlined
  refine ⟨over, piecesAfter ps, h1, ?_, blocksClear_shifted g4 (blocksClear_lined hlined hb), ?_, s1, g3, g4⟩
  · have := apply_pieces ps []
    rw [List.nil_append, g1, htext] at this
    rw [← g2]
    exact this
  · have hsame : SameParse (parse errLen s) (parse errLen s1) := by
      rw [h, e1]
      exact ⟨e3.symm, by rw [herr, e2]⟩
    exact hsame.trans (C68_relaid he hlo (shifted_reindented g4))

/-- One round: the text after it has the same structure. -/
theorem row_round {errLen : Text → Nat} (he : ErrLenOk errLen) (hlo : ErrLineLocal errLen) (hE : ErrBeforeBreak errLen)
    {s : Text} {p : Parse} (h : parse errLen s = .ok p) (herr : p.errors = []) (hb : BlocksClear s) (hcr : NoCr p.tree)
    (hraw : ¬ RawBlock p.tree) (config : Config) {rules : List Rule} (hs : rules.Sublist definitions)
    (hn : ∀ r ∈ rules, r.name ∈ rowRules)
    {sort : List (RuleName × Suggestion) → List (RuleName × Suggestion)} (hsort : SortsRanges sort)
    {results : List CheckResult} (hr : runRules config rules p.tree = .ok results) :
    ∃ over s', overlappingRules (sort (getRuleContextSuggestions results)) = .ok over ∧
      applySuggestionsToText (filterSuggestions over (sort (getRuleContextSuggestions results))) s = some s' ∧
      BlocksClear s' ∧ SameParse (parse errLen s) (parse errLen s') := by
  obtain ⟨over, s', h1, h2, h3, h4, _⟩ := row_round_text he hlo hE h herr hb hcr hraw config hs hn hsort hr
  exact ⟨over, s', h1, h2, h3, h4⟩

/-! ## Fixing -/

/-- C92: processing a file without parse errors, with or without `--fix`, with any of
`twig-block-line-breaks`, `indentation`, `whitespace-between-line-breaks` and the rules without suggestions
together, where no block or comment comes behind `<` or an operator of two words, no token but line breaks ends
with CR, and no block is in raw text. It does not panic and is not refused because of overlapping suggestions,
and every text that it parses or writes has the structure of the original (the same tree up to whitespace and
line breaks, no errors). -/
theorem C92_line_fix_keeps_structure {errLen : Text → Nat} (he : ErrLenOk errLen) (hlo : ErrLineLocal errLen)
    (hE : ErrBeforeBreak errLen) (config : Config) (active : List RuleName) (hactive : ∀ n ∈ active, n ∈ rowRules)
    {sort : List (RuleName × Suggestion) → List (RuleName × Suggestion)} (hsort : SortsRanges sort)
    (flags : Flags) (writeOk : Bool) {original : Text} {p : Parse} (hp : parse errLen original = .ok p)
    (herr : p.errors = []) (hb : BlocksClear original) (hcr : NoCr p.tree) (hraw : ¬ RawBlock p.tree) :
    let run := runAnalysis (realEngine errLen config active sort) flags writeOk original
    (run.outcome = .ok ∨ (flags.fix = true ∧ run.outcome = .err .maxApplyIteration) ∨
      (flags.fix = true ∧ writeOk = false ∧ run.outcome = .err .fileWrite)) ∧
    ∀ t ∈ run.parsed ++ run.writes, SameParse (parse errLen original) (parse errLen t) := by
  have facts : ∀ {t : Text}, SameParse (parse errLen original) (parse errLen t) →
      ∃ q, parse errLen t = .ok q ∧ q.errors = [] ∧ bare q.tree = bare p.tree := by
    intro t ht
    obtain ⟨q, hq, hqe⟩ := sameParse_ok hp herr ht
    rw [hp, hq] at ht
    exact ⟨q, hq, hqe, ht.1.symm⟩
  obtain ⟨g1, g2⟩ := kept_run (I := fun t => BlocksClear t ∧ SameParse (parse errLen original) (parse errLen t))
    (fun t ht => by
      obtain ⟨⟨tree, errs⟩, hq, hqe, _⟩ := facts ht.2
      dsimp only at hqe
      subst hqe
      exact ⟨tree, hq⟩) config active hactive
    (fun t q rules results ht hq hs hn hr => by
      obtain ⟨q', hq', hqe, hbare⟩ := facts ht.2
      rw [hq] at hq'
      cases hq'
      obtain ⟨over, s', k1, k2, k3, k4⟩ := row_round he hlo hE hq hqe ht.1 (noCr_bare hbare hcr)
        (fun h => hraw (by rw [← rawBlock_bare, ← hbare, rawBlock_bare]; exact h)) config hs hn hsort hr
      exact ⟨over, s', k1, k2, k3, ht.2.trans k4⟩) flags writeOk
    ⟨hb, by rw [hp]; exact ⟨rfl, rfl⟩⟩
  exact ⟨g1, fun t ht => (g2 t ht).2⟩

/-- A file that is changed in two rounds: the line breaks in the first one together with a line that is there
already, the new line in the second one. -/
example :
    let s := "<p>{% block a %}{% endblock %}\n b</p>".toList
    let run := runAnalysis (realEngine (fun _ => 1) defaultConfig rowRules insertionSort) ⟨true, false⟩ true s
    SortsRanges insertionSort ∧ ErrLineLocal (fun _ => 1) ∧ ErrBeforeBreak (fun _ => 1) ∧ BlocksClear s ∧
    Returns (parse (fun _ => 1) s) (fun r => r.errors.isEmpty && noRaw r.tree &&
      r.tree.leaves.all (fun l => l.2.getLast? != some '\r')) = true ∧
    run.parsed = [s, "<p>\n{% block a %}{% endblock %}\n\n    b</p>".toList,
      "<p>\n    {% block a %}{% endblock %}\n\n    b</p>".toList] ∧
    run.writes = ["<p>\n    {% block a %}{% endblock %}\n\n    b</p>".toList] :=
  ⟨insertionSort_sorts, fun _ _ _ h _ _ _ => ⟨List.length_pos_iff.2 h, fun _ => rfl⟩,
    fun _ _ _ _ _ _ _ _ _ => rfl,
    blocksClear_check (by decide +kernel), by decide +kernel, by decide +kernel, by decide +kernel⟩

end Ludtwig.Rules
