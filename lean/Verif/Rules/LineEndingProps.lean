import Verif.Rules.Definitions
import Verif.Rules.Samples
import Verif.Rules.RunProps
import Verif.Syntax.Places
import Verif.Cli.Pieces
import Verif.Parser.LeafLemmas
import Verif.Parser.ParseProps

/-! # Line endings: properties C36, C37 -/

namespace Ludtwig

open Lexer

namespace Rules

open Cli

/-! ## Specification -/

/-- A single line break. -/
inductive Break
  | lf
  | crlf
  deriving DecidableEq, Repr

/-- The text of a line break. -/
def Break.text : Break → Text
  | .lf => ['\n']
  | .crlf => ['\r', '\n']

/-- The text of line breaks. -/
def breaks (bs : List Break) : Text := bs.flatMap Break.text

/-- Line breaks with their byte ranges. -/
def placedBreaks : Nat → List Break → List (Break × TextRange)
  | _, [] => []
  | pos, b :: bs => (b, ⟨pos, pos + b.text.length⟩) :: placedBreaks (pos + b.text.length) bs

/-- The style of a configuration. -/
def Break.configured : LineEnding → Break
  | .unixLF => .lf
  | .windowsCRLF => .crlf

theorem breaks_of_lineBreaks {t : Text} (h : IsLineBreaks t) : ∃ bs, t = breaks bs := by
  obtain ⟨l, rfl, hl⟩ := h
  induction l with
  | nil => exact ⟨[], rfl⟩
  | cons x l ih =>
    obtain ⟨bs, hbs⟩ := ih (fun y hy => hl y (List.mem_cons_of_mem _ hy))
    rcases hl x List.mem_cons_self with rfl | rfl
    · exact ⟨.lf :: bs, by simp only [List.flatten_cons, hbs]; rfl⟩
    · exact ⟨.crlf :: bs, by simp only [List.flatten_cons, hbs]; rfl⟩

/-! ## Unix -/

theorem findIter_unix (bs : List Break) : ∀ (fuel pos : Nat), (breaks bs).length ≤ fuel →
    findIter (invalidLineEnding .unixLF) fuel pos (breaks bs) =
      ((placedBreaks pos bs).filter (fun b => b.1 != .lf)).map (·.2) := by
  induction bs with
  | nil => intro fuel pos _; cases fuel <;> rfl
  | cons b bs ih =>
    intro fuel pos hf
    cases b with
    | lf =>
      have hb : breaks (.lf :: bs) = '\n' :: breaks bs := rfl
      rw [hb] at hf ⊢
      obtain ⟨f, rfl⟩ : ∃ f, fuel = f + 1 := ⟨fuel - 1, by simp at hf; omega⟩
      have : invalidLineEnding .unixLF ('\n' :: breaks bs) = none := by
        unfold invalidLineEnding; split <;> simp_all
      rw [findIter, this]
      exact ih f _ (by simp at hf; omega)
    | crlf =>
      have hb : breaks (.crlf :: bs) = '\r' :: '\n' :: breaks bs := rfl
      rw [hb] at hf ⊢
      obtain ⟨f, rfl⟩ : ∃ f, fuel = f + 1 := ⟨fuel - 1, by simp at hf; omega⟩
      have h2 : splitAtByte 2 ('\r' :: '\n' :: breaks bs) = some (['\r', '\n'], breaks bs) :=
        splitAtByte_prefix ['\r', '\n'] (breaks bs)
      rw [findIter]
      simp only [invalidLineEnding, h2]
      rw [ih f _ (by simp at hf; omega)]
      rfl

/-- C36 (unix): on a line-break token, exactly the CRLFs are reported, each with its own range. -/
theorem C36_unix_exact (ctx : Ctx) (hc : ctx.config.lineEnding = .unixLF) (e : Elem)
    (hk : e.kind = .TK_LINE_BREAK) (bs : List Break) (ht : e.text = breaks bs) :
    (lineEnding.checkToken ctx e).map (·.primary) =
      ((placedBreaks e.start bs).filter (fun b => b.1 != .configured ctx.config.lineEnding)).map
        (fun b => some b.2) := by
  unfold lineEnding; dsimp only
  rw [hk, hc, ht]
  simp only [bne_self_eq_false, Bool.false_eq_true, if_false]
  rw [findIter_unix bs _ _ (Nat.le_refl _)]
  simp [List.map_map, Function.comp_def, suggest, result, Break.configured]

/-- C36: other tokens are not reported. -/
theorem C36_only_line_breaks (ctx : Ctx) (e : Elem) (hk : e.kind ≠ .TK_LINE_BREAK) :
    lineEnding.checkToken ctx e = [] := by
  unfold lineEnding; dsimp only
  rw [if_pos (by simpa using hk)]

/-- C36 (unix) for a file: the findings on all tokens of a parsed file are empty exactly if no line
break of the file contains a carriage return. -/
theorem C36_unix_file {errLen : Text → Nat} (he : ErrLenOk errLen) {s : Text} {r : Parse}
    (h : parse errLen s = .ok r) (ctx : Ctx) (hc : ctx.config.lineEnding = .unixLF) :
    r.tree.tokenElems.flatMap (lineEnding.checkToken ctx) = [] ↔
      ∀ t, (SyntaxKind.TK_LINE_BREAK, t) ∈ r.tree.leaves → '\r' ∉ t := by
  have hin : ∀ e ∈ r.tree.tokenElems, (e.kind, e.text) ∈ r.tree.leaves := by
    intro e hm
    have := List.mem_filter.mp hm
    exact token_leaf ((mem_elems_iff _ _).mp this.1) (by simpa using this.2)
  have hpl : ∀ (bs : List Break) (pos : Nat),
      ((placedBreaks pos bs).filter (fun b => b.1 != .lf)) = [] ↔ '\r' ∉ breaks bs := by
    intro bs
    induction bs with
    | nil => intro pos; simp [placedBreaks, breaks]
    | cons b bs ih =>
      intro pos
      cases b with
      | lf => simpa [placedBreaks, breaks, Break.text] using ih (pos + 1)
      | crlf => simp [placedBreaks, breaks, Break.text]
  have hone : ∀ e ∈ r.tree.tokenElems, lineEnding.checkToken ctx e = [] ↔
      (e.kind = .TK_LINE_BREAK → '\r' ∉ e.text) := by
    intro e hm
    by_cases hk : e.kind = .TK_LINE_BREAK
    · have := hin e hm
      rw [hk] at this
      obtain ⟨bs, hbs⟩ := breaks_of_lineBreaks (leaf_lineBreak he h this)
      have hx := C36_unix_exact ctx hc e hk bs hbs
      rw [hbs, ← hpl bs e.start]
      simp only [hk, true_imp_iff]
      rw [hc] at hx
      rw [← List.map_eq_nil_iff, hx, List.map_eq_nil_iff]
      rfl
    · simp [C36_only_line_breaks ctx e hk, hk]
  rw [List.flatMap_eq_nil_iff]
  constructor
  · intro hall t ht
    have : ∃ e ∈ r.tree.tokenElems, e.kind = .TK_LINE_BREAK ∧ e.text = t := by
      have hl : ∀ (ls : List (SyntaxKind × Text)) (pos : Nat), (SyntaxKind.TK_LINE_BREAK, t) ∈ ls →
          ∃ p, (p, SyntaxKind.TK_LINE_BREAK, t) ∈ placed pos ls := by
        intro ls
        induction ls with
        | nil => intro pos h; simp at h
        | cons a ls ih =>
          intro pos h
          rcases List.mem_cons.mp h with h | h
          · subst h; exact ⟨pos, by simp [placed]⟩
          · obtain ⟨p, hp⟩ := ih (pos + byteLen a.2) h
            exact ⟨p, by simp [placed, hp]⟩
      obtain ⟨p, hp⟩ := hl _ 0 ht
      rw [← tokenElems_leaves] at hp
      obtain ⟨e, hm, hx⟩ := List.mem_map.mp hp
      simp only [Elem.leaf, Prod.mk.injEq] at hx
      exact ⟨e, hm, hx.2.1, hx.2.2⟩
    obtain ⟨e, hm, hk, rfl⟩ := this
    exact (hone e hm).mp (hall e hm) hk
  · intro hall e hm
    refine (hone e hm).mpr (fun hk => hall _ ?_)
    have := hin e hm
    rwa [hk] at this

/-- The file `a\r\nb\n\nc`: one finding, on the CRLF. -/
example : ((crlfSample.tokenElems.flatMap (lineEnding.checkToken ⟨sampleConfig, false⟩)).map
    (·.primary)) = [some ⟨1, 3⟩] := by decide +kernel

/-! ### C37 (unix) -/

/-- What the unix fix does with a single line break. -/
def unixPiece : Break → Piece
  | .lf => ⟨['\n'], none⟩
  | .crlf => ⟨['\r', '\n'], some ['\n']⟩

theorem unix_suggestions (ctx : Ctx) (hc : ctx.config.lineEnding = .unixLF) (e : Elem)
    (hk : e.kind = .TK_LINE_BREAK) (bs : List Break) (ht : e.text = breaks bs) :
    (lineEnding.checkToken ctx e).flatMap (·.suggestions) =
      pieceSuggestions e.start (bs.map unixPiece) := by
  unfold lineEnding; dsimp only
  rw [hk, hc, ht]
  simp only [bne_self_eq_false, Bool.false_eq_true, if_false]
  rw [findIter_unix bs _ _ (Nat.le_refl _)]
  generalize e.start = pos
  clear ht hk
  have b1 : byteLen ['\n'] = 1 := by decide
  have b2 : byteLen ['\r', '\n'] = 2 := by decide
  induction bs generalizing pos with
  | nil => rfl
  | cons b bs ih =>
    cases b with
    | lf =>
      have := ih (pos + 1)
      simpa [placedBreaks, pieceSuggestions, unixPiece, Break.text, b1] using this
    | crlf =>
      have := ih (pos + 2)
      simpa [placedBreaks, pieceSuggestions, unixPiece, Break.text, suggest, result,
        LineEnding.text, b2] using this

/-- The text of a leaf with all line breaks turned to LFs. -/
def unixLeaf (l : SyntaxKind × Text) : Text :=
  if l.1 = .TK_LINE_BREAK then List.replicate (l.2.count '\n') '\n' else l.2

theorem unix_pieces_before (bs : List Break) : piecesBefore (bs.map unixPiece) = breaks bs := by
  induction bs with
  | nil => rfl
  | cons b bs ih => cases b <;> simpa [piecesBefore, breaks, unixPiece, Break.text] using ih

theorem unix_pieces_after (bs : List Break) :
    piecesAfter (bs.map unixPiece) = List.replicate ((breaks bs).count '\n') '\n' := by
  induction bs with
  | nil => rfl
  | cons b bs ih =>
    cases b <;>
      simpa [piecesAfter, breaks, unixPiece, Break.text, List.replicate_succ] using ih

/-- C37 (unix): all suggestions of the line-ending rule on the tokens of a parsed file, applied at
once, give the same file in which every line-break token has become as many LFs as it had line
breaks; nothing else changes. -/
theorem C37_unix_fix {errLen : Text → Nat} (he : ErrLenOk errLen) {s : Text} {r : Parse}
    (h : parse errLen s = .ok r) (ctx : Ctx) (hc : ctx.config.lineEnding = .unixLF) :
    applySuggestionsToText
        (r.tree.tokenElems.flatMap (fun e =>
          (lineEnding.checkToken ctx e).flatMap (·.suggestions))) s =
      some (r.tree.leaves.flatMap unixLeaf) := by
  have hlb : ∀ t, (SyntaxKind.TK_LINE_BREAK, t) ∈ r.tree.leaves → ∃ bs, t = breaks bs :=
    fun t ht => breaks_of_lineBreaks (leaf_lineBreak he h ht)
  have hs : s = r.tree.leaves.flatMap (·.2) := by rw [leaves_text, C01_root_text he s r h]
  have key : ∀ (ls : List (SyntaxKind × Text)) (es : List Elem) (pos : Nat),
      es.map (·.leaf) = placed pos ls →
      (∀ t, (SyntaxKind.TK_LINE_BREAK, t) ∈ ls → ∃ bs, t = breaks bs) →
      ∃ ps : List Piece, piecesBefore ps = ls.flatMap (·.2) ∧
        piecesAfter ps = ls.flatMap unixLeaf ∧
        es.flatMap (fun e => (lineEnding.checkToken ctx e).flatMap (·.suggestions)) =
          pieceSuggestions pos ps := by
    intro ls
    induction ls with
    | nil =>
      intro es pos hes _
      simp only [placed, List.map_eq_nil_iff] at hes
      subst hes
      exact ⟨[], rfl, rfl, rfl⟩
    | cons l ls ih =>
      intro es pos hes hls
      obtain ⟨k, t⟩ := l
      cases es with
      | nil => simp [placed] at hes
      | cons e es =>
        simp only [placed, List.map_cons, List.cons.injEq, Elem.leaf, Prod.mk.injEq] at hes
        obtain ⟨⟨hst, hk, ht⟩, hes⟩ := hes
        obtain ⟨ps, h1, h2, h3⟩ := ih es _ hes (fun t ht => hls t (List.mem_cons_of_mem _ ht))
        by_cases hkl : k = .TK_LINE_BREAK
        · subst hkl
          obtain ⟨bs, rfl⟩ := hls t List.mem_cons_self
          refine ⟨bs.map unixPiece ++ ps, ?_, ?_, ?_⟩
          · simp only [piecesBefore, List.flatMap_append, List.flatMap_cons] at h1 ⊢
            rw [h1]; congr 1; exact unix_pieces_before bs
          · simp only [piecesAfter, List.flatMap_append, List.flatMap_cons] at h2 ⊢
            rw [h2]; congr 1; simp only [unixLeaf, if_true]; exact unix_pieces_after bs
          · rw [List.flatMap_cons, h3, pieceSuggestions_append,
              unix_suggestions ctx hc e hk bs ht, hst, unix_pieces_before]
        · refine ⟨⟨t, none⟩ :: ps, ?_, ?_, ?_⟩
          · simp only [piecesBefore, List.flatMap_cons] at h1 ⊢; rw [h1]
          · simp only [piecesAfter, List.flatMap_cons] at h2 ⊢
            rw [h2]; simp [unixLeaf, hkl]
          · rw [List.flatMap_cons, h3, C36_only_line_breaks ctx e (by rw [hk]; exact hkl)]
            simp [pieceSuggestions]
  obtain ⟨ps, h1, h2, h3⟩ := key r.tree.leaves r.tree.tokenElems 0 (tokenElems_leaves _) hlb
  have := apply_pieces ps []
  simp only [byteLen_nil, List.nil_append] at this
  rw [h3, hs, ← h1, this, h2]

/-- The file `a\r\nb\n\nc` becomes `a\nb\n\nc`. -/
example : applySuggestionsToText (crlfSample.tokenElems.flatMap (fun e =>
      (lineEnding.checkToken ⟨sampleConfig, false⟩ e).flatMap (·.suggestions)))
      "a\r\nb\n\nc".toList = some "a\nb\n\nc".toList ∧
    crlfSample.leaves.flatMap unixLeaf = "a\nb\n\nc".toList := by decide +kernel

/-! ## Windows -/

theorem findIter_windows : ∀ (n : Nat) (bs : List Break) (fuel pos : Nat),
    (breaks bs).length ≤ n → (breaks bs).length ≤ fuel →
    ∀ p ∈ placedBreaks pos bs,
      ∃ x ∈ findIter (invalidLineEnding .windowsCRLF) fuel pos (breaks bs),
        x.start < p.2.stop ∧ p.2.stop ≤ x.stop
  | _, [], _, _, _, _, p, hp => by simp [placedBreaks] at hp
  | 0, b :: bs, _, _, hn, _, _, _ => by cases b <;> simp [breaks, Break.text] at hn
  | n + 1, .crlf :: bs, fuel, pos, hn, hf, p, hp => by
    have hb : breaks (.crlf :: bs) = '\r' :: breaks (.lf :: bs) := rfl
    rw [hb] at hn hf ⊢
    obtain ⟨f, rfl⟩ : ∃ f, fuel = f + 1 := ⟨fuel - 1, by simp at hf; omega⟩
    have : invalidLineEnding .windowsCRLF ('\r' :: breaks (.lf :: bs)) = none := by
      show invalidLineEnding .windowsCRLF ('\r' :: '\n' :: breaks bs) = none
      simp [invalidLineEnding]
    rw [findIter, this]
    have hp' : ∃ q ∈ placedBreaks (pos + 1) (.lf :: bs), q.2.stop = p.2.stop := by
      simp only [placedBreaks, List.mem_cons, Break.text, List.length_cons, List.length_nil] at hp ⊢
      rcases hp with hp | hp
      · subst hp; exact ⟨_, .inl rfl, by simp⟩
      · exact ⟨p, .inr (by simpa using hp), rfl⟩
    obtain ⟨q, hq, hqs⟩ := hp'
    have h1 : ('\r' : Char).utf8Size = 1 := by decide
    have := findIter_windows n (.lf :: bs) f (pos + 1) (by simp at hn; exact hn)
      (by simp at hf; exact hf) q hq
    rw [hqs] at this
    rwa [h1]
  | n + 1, [.lf], fuel, pos, hn, hf, p, hp => by
    obtain ⟨f, rfl⟩ : ∃ f, fuel = f + 1 := ⟨fuel - 1, by simp [breaks, Break.text] at hf; omega⟩
    simp only [placedBreaks, List.mem_singleton] at hp
    subst hp
    refine ⟨⟨pos, pos + 1⟩, ?_, by simp [Break.text], by simp [Break.text]⟩
    show _ ∈ findIter _ (f + 1) pos ['\n']
    rw [findIter]
    simp [invalidLineEnding]
  | n + 1, .lf :: .lf :: bs, fuel, pos, hn, hf, p, hp => by
    have hb : breaks (.lf :: .lf :: bs) = '\n' :: '\n' :: breaks bs := rfl
    rw [hb] at hn hf ⊢
    obtain ⟨f, rfl⟩ : ∃ f, fuel = f + 1 := ⟨fuel - 1, by simp at hf; omega⟩
    have h2 : splitAtByte 2 ('\n' :: '\n' :: breaks bs) = some (['\n', '\n'], breaks bs) :=
      splitAtByte_prefix ['\n', '\n'] (breaks bs)
    have h3 : invalidLineEnding .windowsCRLF ('\n' :: '\n' :: breaks bs) = some 2 := by
      simp only [invalidLineEnding]; rfl
    rw [findIter, h3]
    simp only [h2]
    simp only [placedBreaks, List.mem_cons, Break.text, List.length_cons, List.length_nil] at hp
    rcases hp with hp | hp | hp
    · subst hp; exact ⟨_, List.mem_cons_self, by simp, by simp⟩
    · subst hp; exact ⟨_, List.mem_cons_self, by simp only; omega, by simp⟩
    · obtain ⟨x, hx, h⟩ := findIter_windows n bs f (pos + 2) (by simp at hn; omega)
        (by simp at hf; omega) p (by simpa using hp)
      exact ⟨x, List.mem_cons_of_mem _ hx, h⟩
  | n + 1, .lf :: .crlf :: bs, fuel, pos, hn, hf, p, hp => by
    have hb : breaks (.lf :: .crlf :: bs) = '\n' :: breaks (.crlf :: bs) := rfl
    rw [hb] at hn hf ⊢
    obtain ⟨f, rfl⟩ : ∃ f, fuel = f + 1 := ⟨fuel - 1, by simp at hf; omega⟩
    have h2 : splitAtByte 1 ('\n' :: breaks (.crlf :: bs)) = some (['\n'], breaks (.crlf :: bs)) :=
      splitAtByte_prefix ['\n'] (breaks (.crlf :: bs))
    have h3 : invalidLineEnding .windowsCRLF ('\n' :: breaks (.crlf :: bs)) = some 1 := by
      show invalidLineEnding .windowsCRLF ('\n' :: '\r' :: '\n' :: breaks bs) = some 1
      unfold invalidLineEnding; simp
    rw [findIter, h3]
    simp only [h2]
    rw [placedBreaks, List.mem_cons] at hp
    rcases hp with hp | hp
    · subst hp; exact ⟨_, List.mem_cons_self, by simp [Break.text], by simp [Break.text]⟩
    · obtain ⟨x, hx, h⟩ := findIter_windows n (.crlf :: bs) f (pos + 1) (by simp at hn; omega)
        (by simp at hf; omega) p hp
      exact ⟨x, List.mem_cons_of_mem _ hx, h⟩

/-- C36 (windows), what is left of it: no wrong line break is missed, the newline of every line break
lies in a reported range. Missing from the full claim: correct line breaks are reported too
(`C36_windows_reports_correct`), and two LFs are reported as one. -/
theorem C36_windows_partial (ctx : Ctx) (hc : ctx.config.lineEnding = .windowsCRLF) (e : Elem)
    (hk : e.kind = .TK_LINE_BREAK) (bs : List Break) (ht : e.text = breaks bs) :
    ∀ p ∈ placedBreaks e.start bs, ∃ x ∈ lineEnding.checkToken ctx e, ∃ range,
      x.primary = some range ∧ range.start < p.2.stop ∧ p.2.stop ≤ range.stop := by
  intro p hp
  obtain ⟨x, hx, h⟩ := findIter_windows _ bs (breaks bs).length e.start (Nat.le_refl _)
    (Nat.le_refl _) p hp
  refine ⟨suggest (result "line-ending".toList .warning x) x LineEnding.windowsCRLF.text, ?_, x, rfl,
    h⟩
  · unfold lineEnding; dsimp only
    rw [hk, hc, ht]
    simp only [bne_self_eq_false, Bool.false_eq_true, if_false]
    exact List.mem_map.mpr ⟨x, hx, rfl⟩

/-- C36 (windows), counterexample: with windows line endings configured, every line-break token is
reported, also one that consists of the configured CRLFs only. -/
theorem C36_windows_reports_correct (ctx : Ctx) (hc : ctx.config.lineEnding = .windowsCRLF) (e : Elem)
    (hk : e.kind = .TK_LINE_BREAK) (n : Nat) (ht : e.text = breaks (List.replicate (n + 1) .crlf)) :
    lineEnding.checkToken ctx e ≠ [] := by
  obtain ⟨x, hx, _⟩ := C36_windows_partial ctx hc e hk _ ht (.crlf, ⟨e.start, e.start + 2⟩)
    (by simp [List.replicate_succ, placedBreaks, Break.text])
  intro h
  rw [h] at hx
  simp at hx

/-- The sample configuration with windows line endings. -/
def windowsConfig : Config := { sampleConfig with lineEnding := .windowsCRLF }

example : (Elem.mk (.token .TK_LINE_BREAK ['\r', '\n']) 7 []).text =
    breaks (List.replicate (0 + 1) .crlf) := by decide

/-- C37 (windows), counterexample: the file `a\r\nb\n\nc` becomes `a\r\r\nb\r\nc`. The CRLF got a
second carriage return, and the two LFs became one line break. -/
theorem C37_windows_fix_wrong :
    parsesTo "a\r\nb\n\nc".toList crlfSample = true ∧
    applySuggestionsToText (crlfSample.tokenElems.flatMap (fun e =>
      (lineEnding.checkToken ⟨windowsConfig, false⟩ e).flatMap (·.suggestions)))
      "a\r\nb\n\nc".toList = some "a\r\r\nb\r\nc".toList :=
  ⟨crlfSample_parsed, by decide +kernel⟩

/-- C37 (windows), counterexample: the file `{{ a not in\nb }}` has no parse error, and has one after
the fix, since `not in` in front of a CR is not read as an operator. -/
theorem C37_windows_fix_breaks_file :
    (∃ p, parse (fun _ => 1) "{{ a not in\nb }}".toList = .ok p ∧ p.tree = notInSample ∧
      p.errors = []) ∧
    applySuggestionsToText (notInSample.tokenElems.flatMap (fun e =>
      (lineEnding.checkToken ⟨windowsConfig, false⟩ e).flatMap (·.suggestions)))
      "{{ a not in\nb }}".toList = some "{{ a not in\r\nb }}".toList ∧
    ∃ p, parse (fun _ => 1) "{{ a not in\r\nb }}".toList = .ok p ∧ p.errors ≠ [] := by
  refine ⟨?_, by decide +kernel, ?_⟩
  · have h : Returns (parse (fun _ => 1) "{{ a not in\nb }}".toList) (fun p =>
        p.tree.eqb notInSample && p.errors.isEmpty) = true := by decide +kernel
    unfold Returns at h
    split at h
    · rename_i p hp
      simp only [Bool.and_eq_true, List.isEmpty_iff] at h
      exact ⟨p, hp, Tree.eq_of_eqb _ _ h.1, h.2⟩
    · cases h
  · have h : Returns (parse (fun _ => 1) "{{ a not in\r\nb }}".toList) (fun p =>
        !p.errors.isEmpty) = true := by decide +kernel
    unfold Returns at h
    split at h
    · rename_i p hp
      simp only [Bool.not_eq_true', List.isEmpty_eq_false_iff] at h
      exact ⟨p, hp, h⟩
    · cases h

theorem windows_suggestions_lf (ctx : Ctx) (hc : ctx.config.lineEnding = .windowsCRLF) (e : Elem)
    (hk : e.kind = .TK_LINE_BREAK) (ht : e.text = ['\n']) :
    (lineEnding.checkToken ctx e).flatMap (·.suggestions) =
      [⟨⟨e.start, e.start + 1⟩, ['\r', '\n']⟩] := by
  unfold lineEnding; dsimp only
  rw [hk, hc, ht]
  have h1 : findIter (invalidLineEnding .windowsCRLF) (['\n'] : Text).length e.start ['\n'] =
      [⟨e.start, e.start + 1⟩] := rfl
  rw [if_neg (by simp), h1]
  rfl

/-- C37 (windows), what is left of it: in a text around a token that is a single LF, the suggestion
turns it to one CRLF. Missing from the full claim: tokens of several line breaks, or with a CRLF, for
which it is false (`C37_windows_fix_wrong`). -/
theorem C37_windows_single_partial (ctx : Ctx) (hc : ctx.config.lineEnding = .windowsCRLF)
    {root : Tree} {e : Elem} (hin : Elem.In root e)
    (hk : e.kind = .TK_LINE_BREAK) (ht : e.text = ['\n']) :
    ∃ pre post, root.text = pre ++ ['\n'] ++ post ∧ byteLen pre = e.start ∧
      applySuggestionsToText ((lineEnding.checkToken ctx e).flatMap (·.suggestions)) root.text =
        some (pre ++ ['\r', '\n'] ++ post) := by
  obtain ⟨pre, post, h1, h2⟩ := In_inText hin
  rw [ht] at h1
  refine ⟨pre, post, h1, h2, ?_⟩
  rw [windows_suggestions_lf ctx hc e hk ht, h1]
  have := apply_pieces [⟨['\n'], some ['\r', '\n']⟩, ⟨post, none⟩] pre
  simp only [pieceSuggestions, piecesBefore, piecesAfter, List.flatMap_cons, List.flatMap_nil,
    List.append_nil, Option.getD_some, Option.getD_none, h2] at this
  rw [List.append_assoc, List.append_assoc]
  exact this

example : ∃ e ∈ (Tree.node .ROOT [.token .TK_WORD ['a'], .token .TK_LINE_BREAK ['\n']]).elems,
    e.kind = .TK_LINE_BREAK ∧ e.text = ['\n'] ∧ e.start = 1 := by
  refine ⟨⟨.token .TK_LINE_BREAK ['\n'], 1, [⟨.ROOT, 0, [.token .TK_WORD ['a']], []⟩]⟩, ?_, ?_⟩
  · rw [mem_elems_iff]
    exact .child .root (by
      simp only [Elem.root, Elem.childrenWithTokens, childElems, List.mem_cons]
      exact .inr (.inl rfl))
  · decide

end Rules
end Ludtwig
