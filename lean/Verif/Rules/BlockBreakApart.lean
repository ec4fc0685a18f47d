import Verif.Rules.BlockBreakFix
import Verif.Rules.LayoutCells

/-!
# The line breaks around blocks: property C89

The suggestions of `twig-block-line-breaks` are at different places. The place behind a block is followed by
whitespace, by the end of what the block is in, or by something that is no block and no comment before one;
so it is not the place in front of another block.
-/

namespace Ludtwig.Rules

open Cli Lexer Layout Shape

/-! ## What comes behind a node -/

/-- No word is empty. -/
def fullRx : Rx → Bool
  | .nil => false
  | .star _ => false
  | .seq a b => fullRx a || fullRx b
  | .alt a b => fullRx a && fullRx b
  | .sure a => fullRx a
  | _ => true

/-- A token, or a node of one of the kinds. -/
def okItem (ks : List SyntaxKind) (i : Shape.Item) : Bool := !i.isNode || ks.contains i.kind

/-- No word begins with a node of another kind. -/
def beginsRx (ks : List SyntaxKind) : Rx → Bool
  | .node l => l.all (ks.contains ·)
  | .seq a b => beginsRx ks a && (fullRx a || beginsRx ks b)
  | .alt a b => beginsRx ks a && beginsRx ks b
  | .star a => beginsRx ks a
  | .sure a => beginsRx ks a
  | _ => true

/-- Behind each node of kind `k` there is a token or a node of one of the kinds; `next` says that
there is one behind the words. -/
def followedRx (k : SyntaxKind) (ks : List SyntaxKind) : Rx → Bool → Bool
  | .node l, next => !l.contains k || next
  | .seq a b, next => followedRx k ks a (beginsRx ks b && (fullRx b || next)) && followedRx k ks b next
  | .alt a b, next => followedRx k ks a next && followedRx k ks b next
  | .star a, next => followedRx k ks a (beginsRx ks a && next)
  | .sure a, next => followedRx k ks a next
  | _, _ => true

theorem lang_full : ∀ {r : Rx} {w : List Shape.Item}, fullRx r = true → r.Lang w → w ≠ []
  | .never, w, _, h => h.elim
  | .nil, w, h, _ => by cases h
  | .tok _, w, _, h => by obtain ⟨k, _, rfl⟩ := h; simp
  | .tokNot _, w, _, h => by obtain ⟨k, _, rfl⟩ := h; simp
  | .node _, w, _, h => by obtain ⟨k, _, rfl⟩ := h; simp
  | .star _, w, h, _ => by cases h
  | .seq a b, w, hf, h => by
    obtain ⟨u, v, rfl, h1, h2⟩ := h
    rw [fullRx, Bool.or_eq_true] at hf
    intro e
    rw [List.append_eq_nil_iff] at e
    rcases hf with hf | hf
    · exact lang_full hf h1 e.1
    · exact lang_full hf h2 e.2
  | .alt a b, w, hf, h => by
    rw [fullRx, Bool.and_eq_true] at hf
    rcases h with h | h
    · exact lang_full hf.1 h
    · exact lang_full hf.2 h
  | .sure a, w, hf, h => lang_full (r := a) hf h

theorem lang_begins {ks : List SyntaxKind} : ∀ {r : Rx} {w : List Shape.Item}, beginsRx ks r = true → r.Lang w →
    ∀ i v, w = i :: v → okItem ks i = true
  | .never, w, _, h, i, v, e => h.elim
  | .nil, w, _, h, i, v, e => by rw [show w = [] from h] at e; cases e
  | .tok _, w, _, h, i, v, e => by obtain ⟨k, _, rfl⟩ := h; cases e; rfl
  | .tokNot _, w, _, h, i, v, e => by obtain ⟨k, _, rfl⟩ := h; cases e; rfl
  | .node l, w, hb, h, i, v, e => by
    obtain ⟨k, hk, rfl⟩ := h
    cases e
    have := List.all_eq_true.1 hb k hk
    simpa [okItem] using this
  | .seq a b, w, hb, h, i, v, e => by
    obtain ⟨x, y, rfl, h1, h2⟩ := h
    rw [beginsRx, Bool.and_eq_true, Bool.or_eq_true] at hb
    cases x with
    | nil =>
      rcases hb.2 with hf | hf
      · exact absurd rfl (lang_full hf h1)
      · exact lang_begins hf h2 i v e
    | cons j x =>
      cases e
      exact lang_begins hb.1 h1 _ _ rfl
  | .alt a b, w, hb, h, i, v, e => by
    rw [beginsRx, Bool.and_eq_true] at hb
    rcases h with h | h
    · exact lang_begins hb.1 h i v e
    · exact lang_begins hb.2 h i v e
  | .star a, w, hb, h, i, v, e => by
    obtain ⟨ws, rfl, hw⟩ := h
    induction ws with
    | nil => cases e
    | cons x ws ih =>
      cases x with
      | nil => exact ih (fun u hu => hw u (List.mem_cons_of_mem _ hu)) e
      | cons j x =>
        cases e
        exact lang_begins (r := a) hb (hw _ List.mem_cons_self) _ _ rfl
  | .sure a, w, hb, h, i, v, e => lang_begins (r := a) hb h i v e

/-- The list begins with a token or a node of one of the kinds. -/
def OkHead (ks : List SyntaxKind) (l : List Shape.Item) : Prop := ∃ i v, l = i :: v ∧ okItem ks i = true

theorem append_split {a b u v : List Shape.Item} {i : Shape.Item} (h : a ++ b = u ++ i :: v) :
    (∃ c, a = u ++ i :: c ∧ v = c ++ b) ∨ (∃ c, b = c ++ i :: v) := by
  rcases List.append_eq_append_iff.1 h with ⟨c, _, h2⟩ | ⟨c, h1, h2⟩
  · exact .inr ⟨c, h2⟩
  · cases c with
    | nil => exact .inr ⟨[], by simpa using h2.symm⟩
    | cons j c =>
      rw [List.cons_append, List.cons.injEq] at h2
      obtain ⟨rfl, h2⟩ := h2
      exact .inl ⟨c, h1, h2⟩

theorem okHead_append {ks : List SyntaxKind} {r : Rx} {w z : List Shape.Item} (hb : beginsRx ks r = true)
    (hw : r.Lang w) (hz : w = [] → OkHead ks z) : OkHead ks (w ++ z) := by
  cases w with
  | nil => exact hz rfl
  | cons i w => exact ⟨i, w ++ z, rfl, lang_begins hb hw i w rfl⟩

theorem lang_followed {k : SyntaxKind} {ks : List SyntaxKind} : ∀ {r : Rx} {next : Bool} {w : List Shape.Item},
    followedRx k ks r next = true → r.Lang w → ∀ z, (next = true → OkHead ks z) →
    ∀ u v, w = u ++ ⟨true, k⟩ :: v → OkHead ks (v ++ z)
  | .never, _, w, _, h, z, hz, u, v, e => h.elim
  | .nil, _, w, _, h, z, hz, u, v, e => by rw [show w = [] from h] at e; simp at e
  | .tok _, _, w, _, h, z, hz, u, v, e => by
    obtain ⟨j, _, rfl⟩ := h
    have : (⟨true, k⟩ : Shape.Item) ∈ [⟨false, j⟩] := by rw [e]; simp
    simp at this
  | .tokNot _, _, w, _, h, z, hz, u, v, e => by
    obtain ⟨j, _, rfl⟩ := h
    have : (⟨true, k⟩ : Shape.Item) ∈ [⟨false, j⟩] := by rw [e]; simp
    simp at this
  | .node l, next, w, hf, h, z, hz, u, v, e => by
    obtain ⟨j, hj, rfl⟩ := h
    have h1 : (⟨true, k⟩ : Shape.Item) ∈ [⟨true, j⟩] := by rw [e]; simp
    simp at h1
    subst h1
    have h2 : v = [] := by
      cases u with
      | nil => simp at e; exact e
      | cons x u => simp at e
    subst h2
    simp only [followedRx, Bool.or_eq_true, Bool.not_eq_true'] at hf
    rcases hf with hf | hf
    · have : l.contains k = true := by simpa using hj
      rw [this] at hf
      cases hf
    · exact hz hf
  | .seq a b, next, w, hf, h, z, hz, u, v, e => by
    obtain ⟨x, y, rfl, h1, h2⟩ := h
    rw [followedRx, Bool.and_eq_true] at hf
    rcases append_split e with ⟨c, rfl, rfl⟩ | ⟨c, rfl⟩
    · have := lang_followed hf.1 h1 (y ++ z) (fun hn => by
        rw [Bool.and_eq_true, Bool.or_eq_true] at hn
        refine okHead_append hn.1 h2 (fun hy => ?_)
        rcases hn.2 with hn | hn
        · exact absurd hy (lang_full hn h2)
        · exact hz hn) u c rfl
      rw [List.append_assoc]
      exact this
    · exact lang_followed hf.2 h2 z hz c v rfl
  | .alt a b, next, w, hf, h, z, hz, u, v, e => by
    rw [followedRx, Bool.and_eq_true] at hf
    rcases h with h | h
    · exact lang_followed hf.1 h z hz u v e
    · exact lang_followed hf.2 h z hz u v e
  | .star a, next, w, hf, h, z, hz, u, v, e => by
    obtain ⟨ws, rfl, hw⟩ := h
    induction ws generalizing u with
    | nil => simp at e
    | cons x ws ih =>
      rw [List.flatten_cons] at e
      rcases append_split e with ⟨c, rfl, rfl⟩ | ⟨c, hc⟩
      · have := lang_followed (r := a) hf (hw _ List.mem_cons_self) (ws.flatten ++ z) (fun hn => by
          rw [Bool.and_eq_true] at hn
          exact okHead_append (r := .star a) hn.1
            ⟨ws, rfl, fun u hu => hw u (List.mem_cons_of_mem _ hu)⟩ (fun _ => hz hn.2)) u c rfl
        rw [List.append_assoc]
        exact this
      · exact ih c (fun u hu => hw u (List.mem_cons_of_mem _ hu)) hc
  | .sure a, next, w, hf, h, z, hz, u, v, e => lang_followed (r := a) hf h z hz u v e

/-! ## The kinds of nodes -/

/-- Where a block, or the comment before it, begins. -/
def beginKinds : List SyntaxKind :=
  [.TWIG_COMMENT, .HTML_COMMENT, .LUDTWIG_DIRECTIVE_FILE_IGNORE, .LUDTWIG_DIRECTIVE_IGNORE, .TWIG_STARTING_BLOCK]

/-- The nodes beside a block. -/
def besideKinds : List SyntaxKind := .HTML_ATTRIBUTE :: (twigKinds ++ htmlKinds)

/-- The first nodes in the nodes beside a block, apart from blocks. -/
def innerKinds : List SyntaxKind :=
  [.TWIG_IF_BLOCK, .TWIG_SET_BLOCK, .TWIG_FOR_BLOCK, .TWIG_APPLY_STARTING_BLOCK, .TWIG_AUTOESCAPE_STARTING_BLOCK,
   .TWIG_EMBED_STARTING_BLOCK, .TWIG_SANDBOX_STARTING_BLOCK, .TWIG_VERBATIM_STARTING_BLOCK,
   .TWIG_MACRO_STARTING_BLOCK, .TWIG_WITH_STARTING_BLOCK, .TWIG_CACHE_STARTING_BLOCK,
   .TWIG_COMPONENT_STARTING_BLOCK, .TWIG_TRANS_STARTING_BLOCK, .SHOPWARE_SILENT_FEATURE_CALL_STARTING_BLOCK,
   .HTML_STARTING_TAG, .TWIG_VAR]

/-- The nodes behind a body. -/
def endKinds : List SyntaxKind :=
  [.HTML_ENDING_TAG, .TWIG_ENDING_BLOCK, .TWIG_ELSE_IF_BLOCK, .TWIG_ELSE_BLOCK, .TWIG_ENDIF_BLOCK,
   .TWIG_ENDSET_BLOCK, .TWIG_FOR_ELSE_BLOCK, .TWIG_ENDFOR_BLOCK, .TWIG_APPLY_ENDING_BLOCK,
   .TWIG_AUTOESCAPE_ENDING_BLOCK, .TWIG_EMBED_ENDING_BLOCK, .TWIG_SANDBOX_ENDING_BLOCK,
   .TWIG_VERBATIM_ENDING_BLOCK, .TWIG_MACRO_ENDING_BLOCK, .TWIG_WITH_ENDING_BLOCK, .TWIG_CACHE_ENDING_BLOCK,
   .TWIG_COMPONENT_ENDING_BLOCK, .TWIG_TRANS_ENDING_BLOCK, .SHOPWARE_SILENT_FEATURE_CALL_ENDING_BLOCK]

/-- The nodes with blocks in them. -/
def holdKinds : List SyntaxKind := [.ROOT, .BODY, .HTML_ATTRIBUTE_LIST, .HTML_STRING_INNER, .HTML_RAW_TEXT]

theorem opens_begin : ∀ k ∈ beginKinds, (production k).opens = true := by decide +kernel
theorem opens_inner : ∀ k ∈ innerKinds, (production k).opens = true ∧ k ∉ beginKinds := by decide +kernel
theorem opens_end : ∀ k ∈ endKinds, (production k).opens = true ∧ k ∉ beginKinds := by decide +kernel
theorem begins_beside : ∀ k ∈ besideKinds, k = .TWIG_BLOCK ∨
    (fullRx (production k) = true ∧ beginsRx innerKinds (production k) = true) := by decide +kernel
theorem hold_begin : ∀ k ∈ holdKinds, k ∉ beginKinds := by decide +kernel

theorem mentions_block (k : SyntaxKind) (h : (production k).mentions ⟨true, .TWIG_BLOCK⟩ = true) : k ∈ holdKinds := by
  cases k <;> first | decide | cases h

theorem mentions_root (k : SyntaxKind) : (production k).mentions ⟨true, .ROOT⟩ = false := by
  cases k <;> rfl

theorem mentions_inner (k : SyntaxKind) (h : (production k).mentions ⟨true, .HTML_STRING_INNER⟩ = true) :
    k = .HTML_STRING := by
  cases k <;> first | rfl | cases h

theorem mentions_body (k : SyntaxKind) (h : (production k).mentions ⟨true, .BODY⟩ = true ∨
    (production k).mentions ⟨true, .HTML_ATTRIBUTE_LIST⟩ = true) : k ∉ beginKinds := by
  cases k <;> first | decide | (rcases h with h | h <;> cases h)

theorem followed_body (k : SyntaxKind) : followedRx .BODY endKinds (production k) false = true ∧
    followedRx .HTML_ATTRIBUTE_LIST endKinds (production k) false = true := by
  cases k <;> exact ⟨rfl, rfl⟩

/-- The nodes in the words are of the kinds. -/
def onlyRx (ks : List SyntaxKind) : Rx → Bool
  | .node l => l.all (ks.contains ·)
  | .seq a b => onlyRx ks a && onlyRx ks b
  | .alt a b => onlyRx ks a && onlyRx ks b
  | .star a => onlyRx ks a
  | .sure a => onlyRx ks a
  | _ => true

theorem only_mentions {ks : List SyntaxKind} {j : SyntaxKind} : ∀ {r : Rx}, onlyRx ks r = true →
    r.mentions ⟨true, j⟩ = true → j ∈ ks
  | .never, _, h => by cases h
  | .nil, _, h => by cases h
  | .tok _, _, h => by simp [Rx.mentions] at h
  | .tokNot _, _, h => by simp [Rx.mentions] at h
  | .node l, ho, h => by
    have hm : j ∈ l := by simpa [Rx.mentions] using h
    simpa using List.all_eq_true.1 ho j hm
  | .seq a b, ho, h => by
    rw [onlyRx, Bool.and_eq_true] at ho
    rw [Rx.mentions, Bool.or_eq_true] at h
    exact h.elim (only_mentions ho.1) (only_mentions ho.2)
  | .alt a b, ho, h => by
    rw [onlyRx, Bool.and_eq_true] at ho
    rw [Rx.mentions, Bool.or_eq_true] at h
    exact h.elim (only_mentions ho.1) (only_mentions ho.2)
  | .star a, ho, h => only_mentions (r := a) ho h
  | .sure a, ho, h => only_mentions (r := a) ho h

theorem lang_only {ks : List SyntaxKind} {r : Rx} {w : List Shape.Item} {j : SyntaxKind} (ho : onlyRx ks r = true)
    (h : r.Lang w) (hj : (⟨true, j⟩ : Shape.Item) ∈ w) : j ∈ ks :=
  only_mentions ho (lang_mentions h _ hj)

theorem lang_beside {k : SyntaxKind} {w : List Shape.Item} (h : (production k).Lang w)
    (hb : (⟨true, .TWIG_BLOCK⟩ : Shape.Item) ∈ w) {j : SyntaxKind} (hj : (⟨true, j⟩ : Shape.Item) ∈ w) :
    j ∈ besideKinds := by
  have hk := mentions_block k (lang_mentions h _ hb)
  simp only [holdKinds, List.mem_cons, List.not_mem_nil, or_false] at hk
  rcases hk with rfl | rfl | rfl | rfl | rfl
  · exact lang_only (r := production .ROOT) (by decide +kernel) h hj
  · rcases h with h | h | h | h
    · exact lang_only (by decide +kernel) h hj
    · exact lang_only (by decide +kernel) h hj
    · exact absurd (lang_mentions h _ hb) (by decide +kernel)
    · exact lang_only (by decide +kernel) h hj
  · exact lang_only (r := production .HTML_ATTRIBUTE_LIST) (by decide +kernel) h hj
  · exact lang_only (r := production .HTML_STRING_INNER) (by decide +kernel) h hj
  · exact lang_only (r := production .HTML_RAW_TEXT) (by decide +kernel) h hj

/-! ## The first token of some nodes -/

theorem items_first {cs : List Tree} {i : Shape.Item} {v : List Shape.Item} (h : Shape.items cs = i :: v) :
    (∃ j x ts, cs = .token j x :: ts) ∨ (i.isNode = true ∧ ∃ ds ts, cs = .node i.kind ds :: ts) := by
  cases cs with
  | nil => cases h
  | cons t ts =>
    cases t with
    | token j x => exact .inl ⟨j, x, ts, rfl⟩
    | node j ds =>
      rw [Shape.items] at h
      cases h
      exact .inr ⟨rfl, ds, ts, rfl⟩

theorem first_token (j : SyntaxKind) (x : Text) (ts : List Tree) (k : SyntaxKind) (start : Nat) (before : List Tree)
    (pos : Nat) (path : List Frame) : ∃ r, tokensOf (elemsIn (.token j x :: ts) k start before pos path) =
      ⟨.token j x, pos, ⟨k, start, before, ts⟩ :: path⟩ :: r := by
  refine ⟨tokensOf (elemsIn ts k start (before ++ [.token j x]) (pos + byteLen (Tree.token j x).text) path), ?_⟩
  rw [elemsIn, elemsAt, tokensOf_append]
  rfl

theorem tokens_node (k : SyntaxKind) (cs : List Tree) (pos : Nat) (path : List Frame) :
    tokensOf (elemsAt (.node k cs) pos path) = tokensOf (elemsIn cs k pos [] pos path) := by
  rw [elemsAt]
  rfl

/-- A node that opens with a token. -/
theorem first_opened {k : SyntaxKind} {ds : List Tree} (hc : Conforms production (.node k ds))
    (ho : (production k).opens = true) (pos : Nat) (path : List Frame) :
    ∃ t r f, tokensOf (elemsAt (.node k ds) pos path) = t :: r ∧ t.path = f :: path ∧ f.kind = k := by
  obtain ⟨j, v, hv⟩ := lang_opens ho hc.1
  rcases items_first hv with ⟨j, x, ts, rfl⟩ | ⟨h, _⟩
  · rw [tokens_node]
    obtain ⟨r, hr⟩ := first_token j x ts k pos [] pos path
    exact ⟨_, r, _, hr, rfl, rfl⟩
  · cases h

/-- A node beside a block that is not a block. -/
theorem first_beside {k : SyntaxKind} {ds : List Tree} (hc : Conforms production (.node k ds))
    (hk : k ∈ besideKinds) (hne : k ≠ .TWIG_BLOCK) (pos : Nat) (path : List Frame) :
    ∃ t r f fs, tokensOf (elemsAt (.node k ds) pos path) = t :: r ∧ t.path = f :: fs ∧
      ((f.kind = k ∧ fs = path) ∨ f.kind ∈ innerKinds) := by
  obtain ⟨h1, h2⟩ := (begins_beside k hk).resolve_left hne
  cases hi : Shape.items ds with
  | nil => exact absurd hi (lang_full h1 hc.1)
  | cons i v =>
    have hok := lang_begins h2 hc.1 i v hi
    rw [tokens_node]
    rcases items_first hi with ⟨j, x, ts, rfl⟩ | ⟨hn, ds', ts, rfl⟩
    · obtain ⟨r, hr⟩ := first_token j x ts k pos [] pos path
      exact ⟨_, r, _, _, hr, rfl, .inl ⟨rfl, rfl⟩⟩
    · have hin : i.kind ∈ innerKinds := by simpa [okItem, hn] using hok
      obtain ⟨t, r, f, g1, g2, g3⟩ := first_opened hc.2.1 (opens_inner _ hin).1 pos (⟨k, pos, [], ts⟩ :: path)
      refine ⟨t, r ++ tokensOf (elemsIn ts k pos ([] ++ [.node i.kind ds'])
        (pos + byteLen (Tree.node i.kind ds').text) path), f, _, ?_, g2, .inr (g3 ▸ hin)⟩
      rw [elemsIn, tokensOf_append, g1]
      rfl

/-! ## Places behind a block are not in front of another -/

mutual
/-- There is a block in raw text (the content of `script`, `style`, `textarea` or `title`). -/
def RawBlock : Tree → Prop
  | .token _ _ => False
  | .node k cs => (k = .HTML_RAW_TEXT ∧ ∃ ds, .node .TWIG_BLOCK ds ∈ cs) ∨ RawBlocks cs
/-- `RawBlock` for one of the trees of a list. -/
def RawBlocks : List Tree → Prop
  | [] => False
  | t :: ts => RawBlock t ∨ RawBlocks ts
end

theorem rawBlocks_mem : ∀ {ts : List Tree} {t : Tree}, t ∈ ts → RawBlock t → RawBlocks ts
  | [], t, h, _ => by cases h
  | u :: ts, t, h, hr => by
    rw [RawBlocks]
    rcases List.mem_cons.1 h with rfl | h
    · exact .inl hr
    · exact .inr (rawBlocks_mem h hr)

theorem rawBlock_in {root : Tree} {e : Elem} (hin : Elem.In root e) (h : RawBlock e.tree) : RawBlock root := by
  induction hin with
  | root => exact h
  | child hp hc ih =>
    rename_i P c
    refine ih ?_
    obtain ⟨tp, pp, path⟩ := P
    unfold Elem.childrenWithTokens at hc
    cases tp with
    | token => cases hc
    | node k cs =>
      have : c.tree ∈ cs := by
        rw [← childElems_trees path k pp cs [] pp]
        exact List.mem_map_of_mem hc
      exact .inr (rawBlocks_mem this h)

theorem bareAll_block {ts : List Tree} : (∃ ds, .node .TWIG_BLOCK ds ∈ bareAll ts) ↔ ∃ ds, .node .TWIG_BLOCK ds ∈ ts := by
  induction ts with
  | nil => rw [bareAll]
  | cons t ts ih =>
    rw [bareAll]
    simp only [List.mem_append, List.mem_cons, exists_or, ih]
    refine or_congr ?_ Iff.rfl
    cases t with
    | token k x =>
      rw [bare]
      constructor
      · rintro ⟨ds, h⟩
        split at h <;> simp at h
      · rintro ⟨ds, h⟩; cases h
    | node k cs =>
      rw [bare]
      constructor
      · rintro ⟨ds, h⟩
        simp only [List.mem_singleton, Tree.node.injEq] at h
        exact ⟨cs, by rw [h.1]⟩
      · rintro ⟨ds, h⟩
        cases h
        exact ⟨_, List.mem_singleton.2 rfl⟩

theorem rawBlocks_append : ∀ {a b : List Tree}, RawBlocks (a ++ b) ↔ RawBlocks a ∨ RawBlocks b
  | [], b => by simp [RawBlocks]
  | t :: a, b => by
    rw [List.cons_append, RawBlocks, RawBlocks, rawBlocks_append, or_assoc]

mutual
/-- Whitespace does not matter for this. -/
theorem rawBlock_bare : ∀ t : Tree, RawBlocks (bare t) ↔ RawBlock t
  | .token k x => by
    rw [bare]
    split <;> simp [RawBlocks, RawBlock]
  | .node k cs => by
    rw [bare, RawBlocks, RawBlocks, or_false, RawBlock, RawBlock, bareAll_block, rawBlocks_bare cs]
theorem rawBlocks_bare : ∀ ts : List Tree, RawBlocks (bareAll ts) ↔ RawBlocks ts
  | [] => by rw [bareAll]
  | t :: ts => by
    rw [bareAll, rawBlocks_append, RawBlocks, rawBlock_bare t, rawBlocks_bare ts]
end

theorem beginning_kind {e c : Elem} (h : Beginning e c) : ∃ k cs, c.tree = .node k cs ∧ k ∈ beginKinds := by
  rcases h with ⟨k, s, a, n, b, after, fs, hp, hn, _, rfl⟩ | ⟨_, _, _, _, _, _, hk, _⟩
  · unfold isComment at hn
    simp only [Bool.or_eq_true] at hn
    rcases hn with ((hn | hn) | hn) | hn <;>
    · obtain ⟨cs, rfl⟩ := nodeOf_tree hn
      exact ⟨_, cs, rfl, by decide⟩
  · obtain ⟨cs, hcs⟩ := nodeOf_tree hk
    exact ⟨_, cs, hcs, by decide⟩

theorem In_beginning {root : Tree} {e c : Elem} (hin : Elem.In root e) (h : Beginning e c) : Elem.In root c := by
  rcases h with ⟨k, s, a, n, b, after, fs, hp, hn, _, rfl⟩ | ⟨_, h⟩
  · obtain ⟨te, pe, path⟩ := e
    cases hp
    exact In_before hin
  · exact In_child hin ((child_iff _ _ _).2 h)

theorem after_ending {w l r : List Shape.Item} (h : (production .TWIG_BLOCK).Lang w)
    (e : w = l ++ ⟨true, .TWIG_ENDING_BLOCK⟩ :: r) : r = [] := by
  obtain ⟨a, b, rfl, ⟨k1, m1, rfl⟩, hb⟩ := h
  simp only [List.mem_singleton] at m1
  subst m1
  rcases hb with rfl | ⟨c, d, rfl, ⟨k2, m2, rfl⟩, k3, m3, rfl⟩
  · cases l with
    | nil => simp at e
    | cons x l => simp at e
  · simp only [List.mem_singleton] at m2 m3
    subst m2 m3
    cases l with
    | nil => simp at e
    | cons x l =>
      cases l with
      | nil => simp at e
      | cons y l =>
        cases l with
        | nil => simp at e; exact e.2.2
        | cons z l => simp at e

theorem apart {root : Tree} (hc : Conforms production root) (hq : QuotedTree root) {e ending t : Elem}
    (hin : Elem.In root e) (hsur : Surrounded e ending)
    (hno : ¬ ∃ n, beyondComment (nodesBehind e) = some n ∧ n.kind = .TWIG_BLOCK) (hb : Behind ending t)
    {e' c : Elem} (hin' : Elem.In root e') (hblock : nodeOf .TWIG_BLOCK e'.tree = true) (hbeg : Beginning e' c)
    (hfirst : FirstIn c t) : RawBlock root := by
  -- the token is in `c`
  obtain ⟨kc, ccs, hct, hkc⟩ := beginning_kind hbeg
  obtain ⟨f0, ht0, hf0⟩ : ∃ f, t.path = f :: c.path ∧ f.kind = kc := by
    have h1 := conforms_in hc (In_beginning hin' hbeg)
    rw [hct] at h1
    obtain ⟨t', r', f, g1, g2, g3⟩ := first_opened h1 (opens_begin _ hkc) c.start c.path
    obtain ⟨r, hr⟩ := hfirst
    rw [hct, g1] at hr
    cases hr
    exact ⟨f, g2, g3⟩
  have hold : ∀ f fs, t.path = f :: fs → f.kind ∈ beginKinds := by
    intro f fs h
    rw [ht0] at h
    cases h
    rw [hf0]; exact hkc
  -- the token is behind the block
  obtain ⟨last, hlast, hnext⟩ := hb
  obtain ⟨r, hr⟩ := lastTokenAt_eq _ _ _ _ hlast
  obtain ⟨y, hy⟩ := nextToken_after hnext
  rw [elemsAt_after _ _ _ r last [] hr, List.nil_append] at hy
  obtain ⟨hbe, ⟨kb, l, r1, het, _, hending, _, hpath⟩, f, fs, hef, _⟩ := hsur
  obtain ⟨ecs, hecs⟩ := nodeOf_tree hbe
  have hkb : kb = .TWIG_BLOCK := by rw [hecs] at het; cases het; rfl
  subst hkb
  rw [hpath, tokensAfterFrom] at hy
  -- nothing but whitespace behind the last tag
  have hr1 : r1 = [] := by
    have hlang := lang_in hc hin het
    obtain ⟨x, hx⟩ := nodeOf_tree hending
    rw [Shape.items_append, hx, Shape.items] at hlang
    have hi := after_ending hlang rfl
    cases r1 with
    | nil => rfl
    | cons z r1 =>
      exfalso
      cases z with
      | node j zs => rw [Shape.items] at hi; cases hi
      | token j x =>
        obtain ⟨q, hq⟩ := first_token j x r1 .TWIG_BLOCK e.start (l ++ [ending.tree])
          (ending.start + byteLen ending.tree.text) e.path
        dsimp only at hy
        rw [hq] at hy
        cases hy
        have : SyntaxKind.TWIG_BLOCK ∈ beginKinds := hold _ _ rfl
        exact absurd this (by decide)
  subst hr1
  dsimp only at hy
  rw [elemsIn, ← het, hef] at hy
  have hy : tokensAfterFrom e.tree (ending.start + byteLen ending.tree.text + byteLen (textOf [])) (f :: fs) =
    t :: y := hy
  generalize ending.start + byteLen ending.tree.text + byteLen (textOf []) = stop at hy
  rw [tokensAfterFrom] at hy
  -- the parent
  have hP : Elem.In root ⟨.node f.kind (f.before ++ e.tree :: f.after), f.start, fs⟩ := by
    obtain ⟨te, pe, path⟩ := e
    dsimp only at hef
    subst hef
    exact (In_path hin).1
  have hPl := lang_in hc hP rfl
  have hPc := (conforms_in hc hP).2
  have hmem : (⟨true, .TWIG_BLOCK⟩ : Shape.Item) ∈ Shape.items (f.before ++ e.tree :: f.after) :=
    mem_items_node (cs := ecs) (by rw [hecs]; simp)
  have hfk := mentions_block _ (lang_mentions hPl _ hmem)
  have hnb : nodesBehind e = f.after.filter Tree.isNode := by unfold nodesBehind; rw [hef]
  cases hafter : f.after with
  | cons z as =>
    exfalso
    rw [hafter] at hy
    cases z with
    | token j x =>
      obtain ⟨q, hq⟩ := first_token j x as f.kind f.start (f.before ++ [e.tree]) stop fs
      rw [hq] at hy
      cases hy
      exact hold_begin f.kind hfk (hold ⟨f.kind, f.start, f.before ++ [e.tree], as⟩ fs rfl)
    | node n ds =>
      rw [hafter] at hnb
      have hnb : nodesBehind e = .node n ds :: as.filter Tree.isNode := hnb
      have hn : n ∈ besideKinds := lang_beside hPl hmem (mem_items_node (cs := ds) (by rw [hafter]; simp))
      by_cases hnk : n = .TWIG_BLOCK
      · subst hnk
        refine hno ⟨.node .TWIG_BLOCK ds, ?_, rfl⟩
        rw [hnb]
        rfl
      · have hcd : Conforms production (.node n ds) := conformAll_mem hPc _ (by rw [hafter]; simp)
        obtain ⟨t', r', g, gs, g1, g2, g3⟩ := first_beside hcd hn hnk stop
          (⟨f.kind, f.start, f.before ++ [e.tree], as⟩ :: fs)
        rw [elemsIn, tokensOf_append, g1] at hy
        cases hy
        rcases g3 with ⟨g3, rfl⟩ | g3
        · have g2 := ht0.symm.trans g2
          rcases hbeg with ⟨k, s, a, m, b, aft, fs', hp, hm, hbn, rfl⟩ | ⟨_, _, _, _, _, _, hk, _⟩
          · simp only [List.cons.injEq, Frame.mk.injEq] at g2
            obtain ⟨hfg, ⟨_, _, _, has⟩, _⟩ := g2
            obtain ⟨xs, hxs⟩ := nodeOf_tree hblock
            refine hno ⟨e'.tree, ?_, by rw [hxs]; rfl⟩
            have hcom : isComment (.node n ds) = true := by
              have : kc = n := by rw [← hf0, ← g3, hfg]
              subst this
              have h5 : m = .node kc ccs := hct
              rw [h5] at hm
              exact hm
            rw [hnb, beyondComment, if_pos hcom, ← has, List.filter_append, nodes_nil hbn, List.nil_append,
              List.filter_cons_of_pos (by rw [hxs]; rfl)]
            rfl
          · obtain ⟨xs, hxs⟩ := nodeOf_tree hk
            rw [hct] at hxs
            cases hxs
            have : f0 = g := (List.cons.inj g2).1
            rw [this, g3] at hf0
            subst hf0
            revert hn
            decide
        · exact (opens_inner _ g3).2 (hold _ _ g2)
  | nil =>
    rw [hafter, elemsIn] at hy
    have hy : tokensAfterFrom (.node f.kind (f.before ++ [e.tree])) (stop + byteLen (textOf [])) fs = t :: y := hy
    generalize stop + byteLen (textOf []) = stop at hy
    rw [hafter] at hP hPc
    by_cases hraw : f.kind = .HTML_RAW_TEXT
    · exact rawBlock_in hP (.inl ⟨hraw, ecs, by rw [hecs]; simp⟩)
    exfalso
    cases hfs : fs with
    | nil => rw [hfs, tokensAfterFrom] at hy; cases hy
    | cons g gs =>
      rw [hfs] at hP
      have hQ := (In_path hP).1
      have hQl := lang_in hc hQ rfl
      have hQc := (conforms_in hc hQ).2
      rw [hfs, tokensAfterFrom] at hy
      have hm2 : (⟨true, f.kind⟩ : Shape.Item) ∈
          Shape.items (g.before ++ .node f.kind (f.before ++ [e.tree]) :: g.after) :=
        mem_items_node (cs := f.before ++ [e.tree]) (by simp)
      have hm2 := lang_mentions hQl _ hm2
      -- what comes behind a body or list of attributes
      have bodies : followedRx f.kind endKinds (production g.kind) false = true → g.kind ∉ beginKinds → False := by
        intro hfol hgk
        rw [Shape.items_append, Shape.items] at hQl
        obtain ⟨i, v, hv, hok⟩ := lang_followed hfol hQl [] nofun _ _ rfl
        rw [List.append_nil] at hv
        rcases items_first hv with ⟨j, x, ts, hga⟩ | ⟨hin, ds, ts, hga⟩
        · rw [hga] at hy
          obtain ⟨q, hq⟩ := first_token j x ts g.kind g.start (g.before ++ [.node f.kind (f.before ++ [e.tree])]) stop gs
          rw [hq] at hy
          cases hy
          exact hgk (hold ⟨g.kind, g.start, g.before ++ [.node f.kind (f.before ++ [e.tree])], ts⟩ gs rfl)
        · have hik : i.kind ∈ endKinds := by simpa [okItem, hin] using hok
          have hcd : Conforms production (.node i.kind ds) := conformAll_mem hQc _ (by rw [hga]; simp)
          obtain ⟨t', r', f', g1, g2, g3⟩ := first_opened hcd (opens_end _ hik).1 stop
            (⟨g.kind, g.start, g.before ++ [.node f.kind (f.before ++ [e.tree])], ts⟩ :: gs)
          rw [hga, elemsIn, tokensOf_append, g1] at hy
          cases hy
          exact (opens_end _ hik).2 (g3 ▸ hold _ _ g2)
      simp only [holdKinds, List.mem_cons, List.not_mem_nil, or_false] at hfk
      rcases hfk with hfk | hfk | hfk | hfk | hfk
      · rw [hfk, mentions_root] at hm2
        cases hm2
      · exact bodies (by rw [hfk]; exact (followed_body _).1) (mentions_body _ (.inl (by rw [← hfk]; exact hm2)))
      · exact bodies (by rw [hfk]; exact (followed_body _).2) (mentions_body _ (.inr (by rw [← hfk]; exact hm2)))
      · have hg : g.kind = .HTML_STRING := mentions_inner _ (by rw [← hfk]; exact hm2)
        have hquote := (quoted_in hq hQ).1 hg
        rcases hquote g.before (f.before ++ [e.tree]) g.after (by rw [hfk]) with ⟨j, x, _, hga⟩ | ⟨_, _, hnob⟩
        · rw [hga] at hy
          obtain ⟨q, hq⟩ := first_token j x [] g.kind g.start (g.before ++ [.node f.kind (f.before ++ [e.tree])]) stop gs
          rw [hq] at hy
          cases hy
          have := hold ⟨g.kind, g.start, g.before ++ [.node f.kind (f.before ++ [e.tree])], []⟩ gs rfl
          rw [show Frame.kind _ = SyntaxKind.HTML_STRING from hg] at this
          exact absurd this (by decide)
        · exact hnob ecs (by rw [hecs]; simp)
      · exact hraw hfk

/-! ## Elements are at different places -/

mutual
theorem elemsAt_path : ∀ (t : Tree) (pos : Nat) (path : List Frame), ∀ c ∈ elemsAt t pos path,
    ∃ pre, c.path = pre ++ path
  | .token k x, pos, path, c, h => by
    rw [elemsAt, List.mem_singleton] at h
    subst h
    exact ⟨[], rfl⟩
  | .node k cs, pos, path, c, h => by
    rw [elemsAt, List.mem_cons] at h
    rcases h with rfl | h
    · exact ⟨[], rfl⟩
    · obtain ⟨pre, b, a, h, _⟩ := elemsIn_path cs k pos [] pos path c h
      exact ⟨pre ++ [⟨k, pos, b, a⟩], by rw [h]; simp⟩
theorem elemsIn_path : ∀ (ts : List Tree) (k : SyntaxKind) (start : Nat) (before : List Tree) (pos : Nat)
    (path : List Frame), ∀ c ∈ elemsIn ts k start before pos path,
    ∃ pre b a, c.path = pre ++ ⟨k, start, b, a⟩ :: path ∧ before.length ≤ b.length
  | [], _, _, _, _, _, c, h => by rw [elemsIn] at h; cases h
  | t :: ts, k, start, before, pos, path, c, h => by
    rw [elemsIn, List.mem_append] at h
    rcases h with h | h
    · obtain ⟨pre, h⟩ := elemsAt_path t pos (⟨k, start, before, ts⟩ :: path) c h
      exact ⟨pre, before, ts, h, Nat.le_refl _⟩
    · obtain ⟨pre, b, a, h1, h2⟩ := elemsIn_path ts k start (before ++ [t]) _ path c h
      rw [List.length_append] at h2
      exact ⟨pre, b, a, h1, by omega⟩
end

mutual
theorem elemsAt_nodup : ∀ (t : Tree) (pos : Nat) (path : List Frame), (elemsAt t pos path).Nodup
  | .token k x, pos, path => by rw [elemsAt]; simp
  | .node k cs, pos, path => by
    rw [elemsAt, List.nodup_cons]
    refine ⟨fun h => ?_, elemsIn_nodup cs k pos [] pos path⟩
    obtain ⟨pre, b, a, h, _⟩ := elemsIn_path cs k pos [] pos path _ h
    have := congrArg List.length h
    simp at this
    omega
theorem elemsIn_nodup : ∀ (ts : List Tree) (k : SyntaxKind) (start : Nat) (before : List Tree) (pos : Nat)
    (path : List Frame), (elemsIn ts k start before pos path).Nodup
  | [], _, _, _, _, _ => by rw [elemsIn]; exact .nil
  | t :: ts, k, start, before, pos, path => by
    rw [elemsIn, List.nodup_append]
    refine ⟨elemsAt_nodup t pos _, elemsIn_nodup ts k start _ _ path, ?_⟩
    rintro c hc c' hc' rfl
    obtain ⟨pre, h⟩ := elemsAt_path t pos (⟨k, start, before, ts⟩ :: path) c hc
    obtain ⟨pre', b, a, h1, h2⟩ := elemsIn_path ts k start (before ++ [t]) _ path c hc'
    rw [h] at h1
    have := List.append_inj_right' h1 (by simp)
    cases this
    simp only [List.length_append, List.length_singleton] at h2
    omega
end

/-- Tokens at the same place are the same. -/
theorem token_unique {errLen : Text → Nat} (he : ErrLenOk errLen) {s : Text} {p : Parse}
    (h : parse errLen s = .ok p) {x y x' y' : List Elem} {t t' : Elem} (h1 : p.tree.tokenElems = x ++ t :: y)
    (h2 : p.tree.tokenElems = x' ++ t' :: y') (hs : t.start = t'.start) : x = x' ∧ t = t' := by
  have main : ∀ {x y x' y' : List Elem} {t t' : Elem}, p.tree.tokenElems = x ++ t :: y →
      p.tree.tokenElems = x' ++ t' :: y' → t.start = t'.start → ∀ c, x' = x ++ c → c = [] := by
    intro x y x' y' t t' h1 h2 hs c hc
    obtain ⟨l1, s1⟩ := token_place h1
    obtain ⟨_, s2⟩ := token_place h2
    cases c with
    | nil => rfl
    | cons d c =>
      exfalso
      have hd : d = t := by
        rw [h2, hc, List.append_assoc] at h1
        exact (List.cons.inj (List.append_cancel_left h1)).1
      have hne := (leaves_known he h (kt t) (by rw [l1]; simp)).nonempty
      have hpos : 0 < byteLen (kt t).2 := Layout.byteLen_pos hne
      rw [s1, s2, hc, hd, List.map_append, List.map_cons, List.flatMap_append, List.flatMap_cons, byteLen_append,
        byteLen_append] at hs
      omega
  have hx : x = x' := by
    rcases List.append_eq_append_iff.1 (h1.symm.trans h2) with ⟨c, hc, _⟩ | ⟨c, hc, _⟩
    · rw [main h1 h2 hs c hc] at hc
      simpa using hc.symm
    · rw [main h2 h1 hs.symm c hc] at hc
      simpa using hc
  subst hx
  rw [h1] at h2
  exact ⟨rfl, (List.cons.inj (List.append_cancel_left h2)).1⟩

/-- A place determines the element that begins there. -/
theorem firstIn_parent {c t : Elem} {k : SyntaxKind} {cs : List Tree} (hc : Conforms production c.tree)
    (ht : c.tree = .node k cs) (ho : (production k).opens = true) (hf : FirstIn c t) : t.parent = some c := by
  obtain ⟨r, hr⟩ := hf
  rw [ht] at hc hr
  obtain ⟨j, v, hv⟩ := lang_opens ho hc.1
  rcases items_first hv with ⟨j, x, ts, rfl⟩ | ⟨h, _⟩
  · rw [tokens_node] at hr
    obtain ⟨r', hr'⟩ := first_token j x ts k c.start [] c.start c.path
    rw [hr'] at hr
    cases hr
    obtain ⟨ct, cp, path⟩ := c
    cases ht
    rfl
  · cases h

theorem firstChild_parent {q : Tree → Bool} {e c : Elem} (h : FirstChild q e c) : c.parent = some e := by
  obtain ⟨k, l, r, h1, _, _, _, h2⟩ := h
  obtain ⟨te, pe, path⟩ := e
  dsimp only at h1
  subst h1
  unfold Elem.parent
  rw [h2]

theorem tokens_last : ∀ (ts : List Tree) (k : SyntaxKind) (start : Nat) (before : List Tree) (pos : Nat)
    (path : List Frame), (∀ t ∈ ts, t.isNode = false) → ∀ c ∈ elemsIn ts k start before pos path,
    c.parent = some ⟨.node k (before ++ ts), start, path⟩
  | [], _, _, _, _, _, _, c, h => by rw [elemsIn] at h; cases h
  | .node _ _ :: _, _, _, _, _, _, hn, c, h => by cases hn _ List.mem_cons_self
  | .token j x :: ts, k, start, before, pos, path, hn, c, h => by
    rw [elemsIn, elemsAt, List.mem_append, List.mem_singleton] at h
    rcases h with rfl | h
    · rfl
    · rw [tokens_last ts k start _ _ path (fun t ht => hn t (List.mem_cons_of_mem _ ht)) c h]
      simp

/-- The last token of an ending tag is directly in it. -/
theorem last_parent {root : Tree} (hc : Conforms production root) {ending last : Elem}
    (hin : Elem.In root ending) (hk : nodeOf .TWIG_ENDING_BLOCK ending.tree = true) {r : List Elem}
    (h : tokensOf (elemsAt ending.tree ending.start ending.path) = r ++ [last]) : last.parent = some ending := by
  obtain ⟨cs, ht⟩ := nodeOf_tree hk
  have hl := lang_in hc hin ht
  have hno : ∀ t ∈ cs, t.isNode = false := by
    intro t htm
    cases t with
    | token => rfl
    | node j ds =>
      exfalso
      have := lang_only (ks := []) (by decide +kernel) hl (mem_items_node htm)
      cases this
  rw [ht, tokens_node] at h
  have hm : last ∈ elemsIn cs .TWIG_ENDING_BLOCK ending.start [] ending.start ending.path :=
    (List.mem_filter.1 (show last ∈ tokensOf _ by rw [h]; simp)).1
  rw [tokens_last _ _ _ _ _ _ hno _ hm, List.nil_append, ← ht]

theorem beginning_unique {root : Tree} {e e' c : Elem} (hin : Elem.In root e) (hin' : Elem.In root e')
    (hb : nodeOf .TWIG_BLOCK e.tree = true) (hb' : nodeOf .TWIG_BLOCK e'.tree = true)
    (h : Beginning e c) (h' : Beginning e' c) : e = e' := by
  have hcom : ∀ {n : Tree}, isComment n = true → nodeOf .TWIG_STARTING_BLOCK n = true → False := by
    intro n h1 h2
    obtain ⟨cs, rfl⟩ := nodeOf_tree h2
    revert h1
    exact Bool.false_ne_true
  rcases h with ⟨k, s, a, n, b, after, fs, hp, hn, hbn, rfl⟩ | ⟨_, h⟩
  · rcases h' with ⟨k', s', a', n', b', after', fs', hp', hn', hbn', hc⟩ | ⟨_, h'⟩
    · obtain ⟨x, hx⟩ := nodeOf_tree hb
      obtain ⟨x', hx'⟩ := nodeOf_tree hb'
      simp only [Elem.mk.injEq, List.cons.injEq, Frame.mk.injEq] at hc
      obtain ⟨rfl, _, ⟨rfl, rfl, rfl, h1⟩, rfl⟩ := hc
      have key : ∀ {b b' : List Tree} {t t' : Tree} {r r' : List Tree}, (∀ t ∈ b, t.isNode = false) →
          (∀ t ∈ b', t.isNode = false) → t.isNode = true → t'.isNode = true → b ++ t :: r = b' ++ t' :: r' →
          b = b' ∧ t = t' ∧ r = r' := by
        intro b
        induction b with
        | nil =>
          intro b' t t' r r' h1 h2 h3 h4 e
          cases b' with
          | nil => cases e; exact ⟨rfl, rfl, rfl⟩
          | cons y b' =>
            cases e
            rw [h2 t List.mem_cons_self] at h3
            cases h3
        | cons y b ih =>
          intro b' t t' r r' h1 h2 h3 h4 e
          cases b' with
          | nil =>
            cases e
            rw [h1 _ List.mem_cons_self] at h4
            cases h4
          | cons z b' =>
            rw [List.cons_append, List.cons_append, List.cons.injEq] at e
            obtain ⟨rfl, e⟩ := e
            obtain ⟨rfl, g2, g3⟩ := ih (fun t ht => h1 t (List.mem_cons_of_mem _ ht))
              (fun t ht => h2 t (List.mem_cons_of_mem _ ht)) h3 h4 e
            exact ⟨rfl, g2, g3⟩
      obtain ⟨rfl, g2, rfl⟩ := key hbn hbn' (by rw [hx]; rfl) (by rw [hx']; rfl) h1
      obtain ⟨te, pe, path⟩ := e
      obtain ⟨te', pe', path'⟩ := e'
      cases g2
      cases hp
      cases hp'
      have e1 := (In_path hin).2
      have e2 := (In_path hin').2
      dsimp only at e1 e2
      rw [e1, e2]
    · exact (hcom hn (by obtain ⟨_, _, _, _, _, hk, _⟩ := h'; exact hk)).elim
  · rcases h' with ⟨k', s', a', n', b', after', fs', hp', hn', hbn', rfl⟩ | ⟨_, h'⟩
    · exact (hcom hn' (by obtain ⟨_, _, _, _, _, hk, _⟩ := h; exact hk)).elim
    · have h1 := firstChild_parent h
      rw [firstChild_parent h'] at h1
      exact (Option.some.inj h1).symm

/-! ## The suggestions of the rule are at different places -/

/-- A finding in front of a block. -/
def FindsBefore (config : Config) (root : Tree) (e : Elem) (x : CheckResult) : Prop :=
  ∃ ending c t, Elem.In root e ∧ Surrounded e ending ∧ Beginning e c ∧ FirstIn c t ∧
    BreakFinding config (breaksBefore config e) t x

/-- A finding behind a block. -/
def FindsBehind (config : Config) (root : Tree) (e : Elem) (x : CheckResult) : Prop :=
  ∃ ending t, Elem.In root e ∧ Surrounded e ending ∧
    (¬ ∃ n, beyondComment (nodesBehind e) = some n ∧ n.kind = .TWIG_BLOCK) ∧ Behind ending t ∧
    BreakFinding config (breaksBehind config e) t x

/-- The place of a finding. -/
theorem finding_place {config : Config} {n : Nat} {t : Elem} {x : CheckResult} (h : BreakFinding config n t x) :
    ∃ sug : Suggestion, x.suggestions = [sug] ∧ sug.range.start = t.start := by
  obtain ⟨_, range, hr, rfl⟩ := h
  refine ⟨_, rfl, ?_⟩
  dsimp only
  rw [hr]
  split <;> rfl

/-- Two findings at one place. -/
def Meet (x y : CheckResult) : Prop :=
  ∃ a ∈ x.suggestions, ∃ b ∈ y.suggestions, a.range.start = b.range.start

theorem meet_places {config : Config} {n m : Nat} {t t' : Elem} {x y : CheckResult} (h : BreakFinding config n t x)
    (h' : BreakFinding config m t' y) (hm : Meet x y) : t.start = t'.start := by
  obtain ⟨a, ha, e1⟩ := finding_place h
  obtain ⟨b, hb, e2⟩ := finding_place h'
  obtain ⟨a', ha', b', hb', e⟩ := hm
  rw [ha, List.mem_singleton] at ha'
  rw [hb, List.mem_singleton] at hb'
  subst ha' hb'
  rw [← e1, ← e2, e]

theorem surrounded_ending {e ending : Elem} (h : Surrounded e ending) :
    nodeOf .TWIG_ENDING_BLOCK ending.tree = true := by
  obtain ⟨_, ⟨_, _, _, _, _, hk, _⟩, _⟩ := h
  exact hk

theorem firstIn_split {root : Tree} {c t : Elem} (hin : Elem.In root c) (hf : FirstIn c t) :
    ∃ x y, root.tokenElems = x ++ t :: y := by
  obtain ⟨x, y, h⟩ := In_tokens_between hin
  obtain ⟨r, hr⟩ := hf
  exact ⟨x, r ++ y, by rw [h, hr]; rfl⟩

theorem before_before {errLen : Text → Nat} (he : ErrLenOk errLen) {s : Text} {p : Parse}
    (h : parse errLen s = .ok p) (herr : p.errors = []) {config : Config} {e e' : Elem} {x y : CheckResult}
    (h1 : FindsBefore config p.tree e x) (h2 : FindsBefore config p.tree e' y) (hm : Meet x y) : e = e' := by
  have hc := C62_error_free_tree h herr
  obtain ⟨_, c, t, hin, hs, hb, hf, hx⟩ := h1
  obtain ⟨_, c', t', hin', hs', hb', hf', hy⟩ := h2
  obtain ⟨a, b, hab⟩ := firstIn_split (In_beginning hin hb) hf
  obtain ⟨a', b', hab'⟩ := firstIn_split (In_beginning hin' hb') hf'
  obtain ⟨_, rfl⟩ := token_unique he h hab hab' (meet_places hx hy hm)
  obtain ⟨k, cs, ht, hk⟩ := beginning_kind hb
  obtain ⟨k', cs', ht', hk'⟩ := beginning_kind hb'
  have g1 := firstIn_parent (conforms_in hc (In_beginning hin hb)) ht (opens_begin _ hk) hf
  have g2 := firstIn_parent (conforms_in hc (In_beginning hin' hb')) ht' (opens_begin _ hk') hf'
  rw [g1] at g2
  cases g2
  exact beginning_unique hin hin' hs.1 hs'.1 hb hb'

theorem behind_behind {errLen : Text → Nat} (he : ErrLenOk errLen) {s : Text} {p : Parse}
    (h : parse errLen s = .ok p) (herr : p.errors = []) {config : Config} {e e' : Elem} {x y : CheckResult}
    (h1 : FindsBehind config p.tree e x) (h2 : FindsBehind config p.tree e' y) (hm : Meet x y) : e = e' := by
  have hc := C62_error_free_tree h herr
  obtain ⟨ending, t, hin, hs, _, hb, hx⟩ := h1
  obtain ⟨ending', t', hin', hs', _, hb', hy⟩ := h2
  have hi : Elem.In p.tree ending := In_child hin ((child_iff _ _ _).2 hs.2.1)
  have hi' : Elem.In p.tree ending' := In_child hin' ((child_iff _ _ _).2 hs'.2.1)
  obtain ⟨a, last, b, r, hab, hr⟩ := C72_behind_is_next hi hb
  obtain ⟨a', last', b', r', hab', hr'⟩ := C72_behind_is_next hi' hb'
  have e1 : p.tree.tokenElems = (a ++ [last]) ++ t :: b := by rw [hab]; simp
  have e2 : p.tree.tokenElems = (a' ++ [last']) ++ t' :: b' := by rw [hab']; simp
  obtain ⟨g, _⟩ := token_unique he h e1 e2 (meet_places hx hy hm)
  have g := List.append_inj_right' g rfl
  cases g
  have g1 := last_parent hc hi (surrounded_ending hs) hr
  rw [last_parent hc hi' (surrounded_ending hs') hr'] at g1
  cases g1
  have g3 := firstChild_parent hs.2.1
  rw [firstChild_parent hs'.2.1] at g3
  exact (Option.some.inj g3).symm

theorem behind_before {errLen : Text → Nat} (he : ErrLenOk errLen) {s : Text} {p : Parse}
    (h : parse errLen s = .ok p) (herr : p.errors = []) {config : Config} {e e' : Elem} {x y : CheckResult}
    (h1 : FindsBehind config p.tree e x) (h2 : FindsBefore config p.tree e' y) (hm : Meet x y) :
    RawBlock p.tree := by
  have hc := C62_error_free_tree h herr
  obtain ⟨ending, t, hin, hs, hno, hb, hx⟩ := h1
  obtain ⟨_, c', t', hin', hs', hb', hf', hy⟩ := h2
  have hi : Elem.In p.tree ending := In_child hin ((child_iff _ _ _).2 hs.2.1)
  obtain ⟨a, last, b, r, hab, hr⟩ := C72_behind_is_next hi hb
  have e1 : p.tree.tokenElems = (a ++ [last]) ++ t :: b := by rw [hab]; simp
  obtain ⟨a', b', hab'⟩ := firstIn_split (In_beginning hin' hb') hf'
  obtain ⟨_, rfl⟩ := token_unique he h e1 hab' (meet_places hx hy hm)
  exact apart hc (quoted_strings h herr) hin hs hno hb hin' hs'.1 hb' hf'

theorem meet_symm {x y : CheckResult} (h : Meet x y) : Meet y x := by
  obtain ⟨a, ha, b, hb, e⟩ := h
  exact ⟨b, hb, a, ha, e.symm⟩

/-- The findings on an element: at most one in front of it and one behind it. -/
theorem block_parts {errLen : Text → Nat} {s : Text} {p : Parse} (h : parse errLen s = .ok p) (config : Config)
    {e : Elem} (hin : Elem.In p.tree e) : ∃ A B, checkElem config twigBlockLineBreaks e = A ++ B ∧
      A.length ≤ 1 ∧ B.length ≤ 1 ∧ (∀ x ∈ A, FindsBefore config p.tree e x) ∧
      (∀ x ∈ B, FindsBehind config p.tree e x) := by
  have hc := C63_every_tree h
  have none : ∀ {l : List CheckResult}, l = [] → ∃ A B, l = A ++ B ∧ A.length ≤ 1 ∧ B.length ≤ 1 ∧
      (∀ x ∈ A, FindsBefore config p.tree e x) ∧ (∀ x ∈ B, FindsBehind config p.tree e x) := by
    rintro l rfl
    exact ⟨[], [], rfl, by simp, by simp, by simp, by simp⟩
  have hlen : ∀ b t n, (checkLineBreaks b t n).length ≤ 1 := by
    intro b t n
    unfold checkLineBreaks
    dsimp only
    repeat' split
    all_goals simp
  unfold checkElem
  split
  rotate_left
  · exact none rfl
  unfold twigBlockLineBreaks
  dsimp only
  split
  · exact none rfl
  split
  · exact none rfl
  rename_i b hcast
  obtain ⟨hblock, heq⟩ := (nodeOf_cast _ _ _).1 hcast
  have heq' : e = b := by rw [heq]
  subst heq'
  unfold checkBlockLineBreaks Elem.parent
  cases hpath : e.path with
  | nil => exact none rfl
  | cons f fs =>
    dsimp only
    split
    · exact none rfl
    · rename_i hroot
      have hkind : (⟨Tree.node f.kind (f.before ++ e.tree :: f.after), f.start, fs⟩ : Elem).kind = f.kind := rfl
      rw [hkind] at hroot
      cases hstart : e.startingBlock with
      | none => exact none rfl
      | some start =>
        cases hend : e.endingBlock with
        | none => exact none rfl
        | some ending =>
          have hs := (child_iff _ _ _).1 hstart
          have he := (child_iff _ _ _).1 hend
          have hsur : Surrounded e ending := by
            refine ⟨hblock, he, f, fs, hpath, fun h1 h2 => hroot ?_⟩
            rw [Bool.and_eq_true, realPrev_none]
            exact ⟨by rw [h1]; rfl, h2⟩
          dsimp only
          have hbefore : (if (realPrevSibling e).isSome = true then
              (if config.linebreaksAroundBlocks = true then 2 else 1) else 1) = breaksBefore config e := by
            unfold breaksBefore
            by_cases hn : beyondComment (nodesBefore e) = Option.none
            · have := (realPrev_none e).2 hn
              rw [if_pos hn, if_neg (by rw [Option.isNone_iff_eq_none.1 this]; exact Bool.false_ne_true)]
            · rw [if_neg hn, if_pos]
              cases hr : realPrevSibling e with
              | none => exact absurd ((realPrev_none e).1 (by rw [hr]; rfl)) hn
              | some => rfl
          have hbehind : (if e.nextSibling.isSome = true then
              (if config.linebreaksAroundBlocks = true then 2 else 1) else 1) = breaksBehind config e := by
            unfold breaksBehind
            by_cases hn : nodesBehind e = []
            · rw [if_pos hn, if_neg (by rw [(nextSibling_none e).2 hn]; exact Bool.false_ne_true)]
            · rw [if_neg hn, if_pos]
              cases hr : e.nextSibling with
              | none => exact absurd ((nextSibling_none e).1 hr) hn
              | some => rfl
          rw [hbefore, hbehind]
          refine ⟨_, _, rfl, ?_, ?_, ?_, ?_⟩
          · split
            · simp
            · exact hlen _ _ _
          · split
            · simp
            · exact hlen _ _ _
          · intro x hx
            cases hf : blockFirstToken e start with
            | none => rw [hf] at hx; cases hx
            | some t =>
              rw [hf] at hx
              obtain ⟨c, g1, g2⟩ := (blockFirst_iff hc hin hs t).1 hf
              exact ⟨ending, c, t, hin, hsur, g1, g2, (checkLineBreaks_iff _ _ _ _).1 hx⟩
          · intro x hx
            cases hf : blockAfterToken e ending with
            | none => rw [hf] at hx; cases hx
            | some t =>
              rw [hf] at hx
              obtain ⟨g1, g2⟩ := (blockAfter_iff e ending t).1 hf
              exact ⟨ending, t, hin, hsur, g2, g1, (checkLineBreaks_iff _ _ _ _).1 hx⟩

theorem pairwise_short {R : CheckResult → CheckResult → Prop} {A : List CheckResult} (h : A.length ≤ 1) :
    A.Pairwise R := by
  match A, h with
  | [], _ => exact .nil
  | [x], _ => exact List.pairwise_singleton ..

/-- C89: in a file without syntax errors and without blocks in raw text, all changes that
`twig-block-line-breaks` suggests are at different places. -/
theorem C89_breaks_at_different_places {errLen : Text → Nat} (he : ErrLenOk errLen) {s : Text} {p : Parse}
    (h : parse errLen s = .ok p) (herr : p.errors = []) (hraw : ¬ RawBlock p.tree) {config : Config}
    {l : List CheckResult} (hl : runRules config [twigBlockLineBreaks] p.tree = .ok l) :
    (getRuleContextSuggestions l).Pairwise (fun a b => a.2.range.start ≠ b.2.range.start) := by
  rw [C18_scope_of_ignore config [twigBlockLineBreaks] p.tree (fun _ => []) (by
    intro r hr
    rw [List.mem_singleton] at hr
    subst hr
    rfl)] at hl
  cases hl
  -- the elements
  have hparts : ∀ e, Elem.In p.tree e → ∃ A B,
      (([twigBlockLineBreaks].filter (fun r => !switchedOff r.name e)).flatMap (fun r => checkElem config r e)) =
        A ++ B ∧ A.length ≤ 1 ∧ B.length ≤ 1 ∧ (∀ x ∈ A, FindsBefore config p.tree e x) ∧
      (∀ x ∈ B, FindsBehind config p.tree e x) := by
    intro e hin
    cases hsw : switchedOff twigBlockLineBreaks.name e with
    | true => exact ⟨[], [], by simp [hsw], by simp, by simp, by simp, by simp⟩
    | false =>
      obtain ⟨A, B, hAB⟩ := block_parts h config hin
      exact ⟨A, B, by simpa [hsw] using hAB.1, hAB.2⟩
  -- the findings
  have hfind : (specResults config [twigBlockLineBreaks] p.tree).Pairwise (fun x y => ¬ Meet x y) := by
    unfold specResults
    rw [List.pairwise_flatMap]
    constructor
    · intro e hmem
      have hin := (mem_elems_iff _ _).1 (List.mem_filter.1 hmem).1
      obtain ⟨A, B, hAB, hA, hB, fA, fB⟩ := hparts e hin
      rw [hAB, List.pairwise_append]
      refine ⟨pairwise_short hA, pairwise_short hB, fun x hx y hy hm => ?_⟩
      exact hraw (behind_before he h herr (fB y hy) (fA x hx) (meet_symm hm))
    · have hnd : (p.tree.elems.filter (fun e => !hidden e)).Nodup :=
        List.Nodup.sublist List.filter_sublist (elemsAt_nodup p.tree 0 [])
      have hnd := pairwise_both (P := fun e => Elem.In p.tree e)
        (fun e hmem => (mem_elems_iff _ _).1 (List.mem_filter.1 hmem).1) hnd
      refine hnd.imp ?_
      rintro e e' ⟨hin, hin', hne⟩ x hx y hy hm
      obtain ⟨A, B, hAB, _, _, fA, fB⟩ := hparts e hin
      obtain ⟨A', B', hAB', _, _, fA', fB'⟩ := hparts e' hin'
      rw [hAB, List.mem_append] at hx
      rw [hAB', List.mem_append] at hy
      rcases hx with hx | hx <;> rcases hy with hy | hy
      · exact hne (before_before he h herr (fA x hx) (fA' y hy) hm)
      · exact hraw (behind_before he h herr (fB' y hy) (fA x hx) (meet_symm hm))
      · exact hraw (behind_before he h herr (fB x hx) (fA' y hy) hm)
      · exact hne (behind_behind he h herr (fB x hx) (fB' y hy) hm)
  -- the suggestions
  rw [List.flatMap_cons, List.flatMap_nil, List.nil_append, List.nil_append]
  unfold getRuleContextSuggestions
  rw [List.pairwise_flatMap]
  constructor
  · intro x hx
    unfold specResults at hx
    obtain ⟨e, hmem, hx⟩ := List.mem_flatMap.1 hx
    obtain ⟨A, B, hAB, _, _, fA, fB⟩ := hparts e ((mem_elems_iff _ _).1 (List.mem_filter.1 hmem).1)
    rw [hAB, List.mem_append] at hx
    have : ∃ sug : Suggestion, x.suggestions = [sug] := by
      rcases hx with hx | hx
      · obtain ⟨_, _, _, _, _, _, _, hf⟩ := fA x hx
        obtain ⟨sug, h1, _⟩ := finding_place hf
        exact ⟨sug, h1⟩
      · obtain ⟨_, _, _, _, _, _, hf⟩ := fB x hx
        obtain ⟨sug, h1, _⟩ := finding_place hf
        exact ⟨sug, h1⟩
    obtain ⟨sug, h1⟩ := this
    rw [h1]
    exact List.pairwise_singleton ..
  · refine hfind.imp ?_
    intro x y hxy a ha b hb hab
    obtain ⟨a', ha', rfl⟩ := List.mem_map.1 ha
    obtain ⟨b', hb', rfl⟩ := List.mem_map.1 hb
    exact hxy ⟨a', ha', b', hb', hab⟩

mutual
/-- A check that there is no raw text. -/
def noRaw : Tree → Bool
  | .token _ _ => true
  | .node k cs => k != .HTML_RAW_TEXT && noRaws cs
/-- `noRaw` for all trees of a list. -/
def noRaws : List Tree → Bool
  | [] => true
  | t :: ts => noRaw t && noRaws ts
end

mutual
theorem noRaw_sound : ∀ t : Tree, noRaw t = true → ¬ RawBlock t
  | .token k x, _, h => h.elim
  | .node k cs, hn, h => by
    rw [noRaw, Bool.and_eq_true, bne_iff_ne] at hn
    rcases h with ⟨h, _⟩ | h
    · exact hn.1 h
    · exact noRaws_sound cs hn.2 h
theorem noRaws_sound : ∀ ts : List Tree, noRaws ts = true → ¬ RawBlocks ts
  | [], _, h => h.elim
  | t :: ts, hn, h => by
    rw [noRaws, Bool.and_eq_true] at hn
    rcases h with h | h
    · exact noRaw_sound t hn.1 h
    · exact noRaws_sound ts hn.2 h
end

/-- A file with five suggestions: blocks in blocks, in attributes, with comments between. -/
example : Returns (parse (fun _ => 1)
      "<p {% block a %}b{% endblock %}>{#c#}{% block d %}{% endblock %}{#e#}{% block f %}{% endblock %}</p>".toList)
    (fun r => r.errors.isEmpty && noRaw r.tree && match runRules defaultConfig [twigBlockLineBreaks] r.tree with
      | .ok l => (getRuleContextSuggestions l).length == 5
      | .error _ => false) = true := by decide +kernel

end Ludtwig.Rules
