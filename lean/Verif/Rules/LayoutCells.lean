import Verif.Rules.GapMarks
import Verif.Rules.LayoutFix
import Verif.Layout.Acts

/-!
# The tokens of a file as cells

The tokens of a parsed file without errors, with their marks: they are determined by the text of the file
and the tokens that are no whitespace.
-/

namespace Ludtwig.Rules

open Cli Lexer Layout Shape

/-! ## Strings -/

theorem quotedAll_mem {ts : List Tree} (h : QuotedAll ts) : ∀ t ∈ ts, QuotedTree t := by
  induction ts with
  | nil => simp
  | cons a ts ih =>
    intro t ht
    rcases List.mem_cons.1 ht with rfl | ht
    · exact h.1
    · exact ih h.2 t ht

theorem quoted_in {root : Tree} (h : QuotedTree root) {e : Elem} (hin : Elem.In root e) :
    QuotedTree e.tree := by
  induction hin with
  | root => exact h
  | @child q c hq hc ih =>
    unfold Elem.childrenWithTokens at hc
    split at hc
    · cases hc
    · rename_i k cs heq
      rw [heq] at ih
      exact quotedAll_mem ih.2 _ (mem_childElems_tree hc)

theorem quoted_parsed {errLen : Text → Nat} {s : Text} {p : Parse} (h : parse errLen s = .ok p)
    (herr : p.errors = []) : Quoted p.tree := by
  intro e hin l ds r ht
  have := quoted_in (quoted_strings h herr) hin
  rw [ht] at this
  exact (this.1 rfl l ds r rfl).imp id (fun h => ⟨h.1, h.2.1⟩)

/-! ## Cells -/

/-- A token with its mark. -/
def cellOf (config : Config) (e : Elem) : Cell Mark := ⟨e.kind, e.text, markOf config e⟩

/-- The tokens of a tree with their marks. -/
def cells (config : Config) (root : Tree) : List (Cell Mark) := root.tokenElems.map (cellOf config)

theorem solid_kind {e : Elem} (h : e.isNode = false) : solid e = !e.kind.isTrivia := by
  obtain ⟨t, pos, path⟩ := e
  cases t with
  | token k x => rfl
  | node k cs => cases h

theorem blind_cell (config : Config) {e : Elem} (hs : solid e = true) (hn : e.isNode = false) :
    cellOf config (bareElem e) = cellOf config e := by
  unfold cellOf
  rw [blind_mark config e hs]
  obtain ⟨t, pos, path⟩ := e
  cases t with
  | token k x => rfl
  | node k cs => cases hn

theorem bareElem_isNode (e : Elem) : (bareElem e).isNode = e.isNode := by
  obtain ⟨t, pos, path⟩ := e
  cases t <;> rfl

theorem solid_cells (config : Config) (root : Tree) : (cells config root).filter Cell.solid =
    ((bareElems root.elems).filter (fun e => !e.isNode)).map (cellOf config) := by
  unfold cells Tree.tokenElems bareElems
  induction root.elems with
  | nil => rfl
  | cons e l ih =>
    cases hn : e.isNode with
    | true =>
      rw [List.filter_cons_of_neg (by simp [hn])]
      have hs : solid e = true := by
        obtain ⟨t, pos, path⟩ := e
        cases t with
        | token k x => cases hn
        | node k cs => rfl
      rw [List.filter_cons_of_pos hs, List.map_cons, List.filter_cons_of_neg (by simp [bareElem_isNode, hn])]
      exact ih
    | false =>
      rw [List.filter_cons_of_pos (by simp [hn]), List.map_cons]
      have hc : Cell.solid (cellOf config e) = solid e := by rw [solid_kind hn]; rfl
      cases hs : solid e with
      | false =>
        rw [List.filter_cons_of_neg (by rw [hc, hs]; exact Bool.false_ne_true),
          List.filter_cons_of_neg (by rw [hs]; exact Bool.false_ne_true)]
        exact ih
      | true =>
        rw [List.filter_cons_of_pos (by rw [hc, hs]), List.filter_cons_of_pos hs, List.map_cons,
          List.filter_cons_of_pos (by simp [bareElem_isNode, hn]), List.map_cons, blind_cell config hs hn, ih]

/-- Trees that differ only in whitespace have the same tokens apart from it. -/
theorem solid_same (config : Config) {cs cs' : List Tree} (h : bareAll cs = bareAll cs') :
    (cells config (.node .ROOT cs)).filter Cell.solid = (cells config (.node .ROOT cs')).filter Cell.solid := by
  rw [solid_cells, solid_cells]
  have h1 : bareElems (Tree.node .ROOT cs).elems = bareElems (elemsAt (bareTree (.node .ROOT cs)) 0 []) :=
    bare_elemsAt _ 0 0 [] [] rfl rfl
  have h2 : bareElems (Tree.node .ROOT cs').elems = bareElems (elemsAt (bareTree (.node .ROOT cs')) 0 []) :=
    bare_elemsAt _ 0 0 [] [] rfl rfl
  rw [h1, h2]
  have : bareTree (.node .ROOT cs) = bareTree (.node .ROOT cs') := by
    show Tree.node .ROOT (bareAll cs) = .node .ROOT (bareAll cs')
    rw [h]
  rw [this]

theorem endMark_same {cs cs' : List Tree} (h : bareAll cs = bareAll cs') :
    endMark (.node .ROOT cs) = endMark (.node .ROOT cs') := by
  unfold endMark
  dsimp only
  rw [h]

theorem cells_pairs (config : Config) (root : Tree) : (cells config root).map Cell.pair = root.leaves := by
  have h := congrArg (List.map (·.2)) (tokenElems_leaves root)
  rw [List.map_map] at h
  unfold cells
  rw [List.map_map]
  have hp : ∀ (ls : List (SyntaxKind × Text)) (pos : Nat), (placed pos ls).map (·.2) = ls := by
    intro ls
    induction ls with
    | nil => intro _; rfl
    | cons a ls ih => intro pos; rw [placed, List.map_cons, ih]
  rw [hp] at h
  exact h

theorem smooth_split {f : Elem → Mark} {m : Mark} : ∀ {x : List Elem} {e : Elem} {r : List Elem},
    Smooth f m (x ++ e :: r) → solid e = false → f e = (r.head?.map f).getD m
  | [], _, _, h, hs => h.1 hs
  | _ :: x, _, _, h, hs => smooth_split (x := x) h.2 hs

/-- The tokens of a file without parse errors are as long as possible, and whitespace has the mark of what
is behind it. -/
theorem cells_proper {errLen : Text → Nat} (he : ErrLenOk errLen) {s : Text} {p : Parse}
    (h : parse errLen s = .ok p) (herr : p.errors = []) (config : Config) :
    Proper (endMark p.tree) (cells config p.tree) := by
  obtain ⟨trees, h1, h2⟩ := C05_root_covers errLen s p h
  have hn := neat_parsed h herr
  have hq := quoted_parsed h herr
  have hs := smooth_root (cs := trees) (h1 ▸ hn) (h1 ▸ hq) config
  refine proper_cells ?_ ?_
  · rw [cells_pairs, h1]
    exact covers_proper he h2 (C49_lex_tokenizes he s)
  · intro x c r hx hk
    unfold cells at hx
    obtain ⟨x', y, e1, e2, e3⟩ := List.map_eq_append_iff.1 hx
    obtain ⟨e, r', rfl, e5, e6⟩ := List.map_eq_cons_iff.1 e3
    have ht : e.isNode = false := tokenElems_token (root := p.tree) (by rw [e1]; simp)
    rw [← h1, e1] at hs
    have := smooth_split hs (by rw [solid_kind ht]; subst e5; simpa [cellOf] using hk)
    subst e5 e6
    show markOf config e = _
    rw [this]
    cases r' with
    | nil => rfl
    | cons a r' => rfl

/-- The tokens of a file with the edits that suggestions ask for. -/
def acted (config : Config) (root : Tree) (sugs : List Suggestion) : List (Cell Mark × Option Text) :=
  root.tokenElems.map (fun e => (cellOf config e, actAt sugs e.start))

theorem acted_cells (config : Config) (root : Tree) (sugs : List Suggestion) :
    (acted config root sugs).map (·.1) = cells config root := by
  unfold acted cells
  rw [List.map_map]
  rfl

theorem sameParse_bare {errLen : Text → Nat} {s s' : Text} {p p' : Parse} (h : parse errLen s = .ok p)
    (h' : parse errLen s' = .ok p') (hsame : SameParse (parse errLen s) (parse errLen s')) :
    ∃ cs cs', p.tree = .node .ROOT cs ∧ p'.tree = .node .ROOT cs' ∧ bareAll cs = bareAll cs' := by
  obtain ⟨cs, h1, _⟩ := C05_root_covers errLen s p h
  obtain ⟨cs', h1', _⟩ := C05_root_covers errLen s' p' h'
  rw [h, h'] at hsame
  have := hsame.1
  rw [h1, h1', bare_solid rfl, bare_solid rfl] at this
  simp only [bareTree, List.cons.injEq, Tree.node.injEq, and_true, true_and] at this
  exact ⟨cs, cs', h1, h1', this⟩

/-- One round of fixing: the tokens after it. -/
theorem round_cells {errLen : Text → Nat} (he : ErrLenOk errLen) (hl : ErrLineLocal errLen) {s : Text}
    {p p' : Parse} (h : parse errLen s = .ok p) (herr : p.errors = []) (config : Config) {ps : List Piece}
    (hed : Edits true p.tree.leaves ps)
    (hblank : ∀ s ∈ pieceSuggestions 0 ps, ∀ c ∈ s.replaceWith, isBlank c = true)
    (h' : parse errLen (piecesAfter ps) = .ok p') (herr' : p'.errors = [])
    (hsame : SameParse (parse errLen s) (parse errLen (piecesAfter ps))) :
    cells config p'.tree = tidied (edited true (acted config p.tree (pieceSuggestions 0 ps))) := by
  have hps : ps = piecesOf true (acted config p.tree (pieceSuggestions 0 ps)) := by
    have := edits_pieces (sugs := pieceSuggestions 0 ps) hed (parsed_leaves he h) 0 []
      (p.tree.tokenElems.map (fun e => (e.start, cellOf config e))) rfl (by simp) (by
        rw [List.map_map, ← tokenElems_leaves]
        rfl)
    rw [List.map_map] at this
    exact this
  have hpr := cells_proper he h herr config
  have hbl : BlankEdits (acted config p.tree (pieceSuggestions 0 ps)) := by
    have := acts_blank hblank (p.tree.tokenElems.map (fun e => (e.start, cellOf config e)))
    rw [List.map_map] at this
    exact this
  obtain ⟨trees, g1, g2⟩ := C05_root_covers errLen s p h
  have hpair : (acted config p.tree (pieceSuggestions 0 ps)).map (fun p => p.1.pair) = leavesOf trees := by
    have := cells_pairs config p.tree
    rw [← acted_cells config p.tree (pieceSuggestions 0 ps), List.map_map, g1] at this
    rw [g1]
    exact this
  have hso := acts_solid he hl g2 hpair hbl (C49_lex_tokenizes he s)
  obtain ⟨cs, cs', e1, e2, e3⟩ := sameParse_bare h h' hsame
  have hpr' := cells_proper he h' herr' config
  have hend : endMark p'.tree = endMark p.tree := by rw [e1, e2, endMark_same e3]
  rw [hend] at hpr'
  rw [← acted_cells config p.tree (pieceSuggestions 0 ps)] at hpr
  refine proper_unique hpr' (edited_proper hpr hbl hso) ?_ ?_
  · rw [tidied_text, ← pieces_text, ← hps]
    have ht := C01_root_text he (piecesAfter ps) p' h'
    rw [← leaves_text, ← cells_pairs config] at ht
    rw [← ht]
    unfold cellText
    rw [List.flatMap_map]
    rfl
  · rw [edited_solid, acted_cells, e1, e2, solid_same config e3]
    intro q hq
    unfold acted at hq
    obtain ⟨e, hin, rfl⟩ := List.mem_map.1 hq
    have ht := tokenElems_token hin
    exact parsed_leaves he h (e.kind, e.text)
      (token_leaf ((mem_elems_iff _ _).mp (List.mem_filter.mp hin).1) ht)

end Ludtwig.Rules
