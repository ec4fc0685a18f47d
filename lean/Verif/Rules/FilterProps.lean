import Verif.Rules.OperatorProps

/-! # Filter chains: property C42 -/

namespace Ludtwig.Rules

open Cli

/-- The first child of a tree with a property. -/
def FirstOf (q : Tree → Bool) (t x : Tree) : Prop :=
  ∃ k l r, t = .node k (l ++ x :: r) ∧ (∀ y ∈ l, q y = false) ∧ q x = true

/-- The second child of a tree with a property. -/
def SecondOf (q : Tree → Bool) (t x : Tree) : Prop :=
  ∃ k l y m r, t = .node k (l ++ y :: (m ++ x :: r)) ∧ (∀ t ∈ l, q t = false) ∧ q y = true ∧
    (∀ t ∈ m, q t = false) ∧ q x = true

/-- `name` is the name of a filter: the first word of the first name of the second operand. -/
def FilterName (f : Tree) (name : Text) : Prop :=
  ∃ o n, SecondOf (nodeOf .TWIG_OPERAND) f o ∧ FirstOf (nodeOf .TWIG_LITERAL_NAME) o n ∧
    FirstOf (isTokenOf .TK_WORD) n (.token .TK_WORD name)

/-- `g` is the filter directly to the left of the filter `f`: the first filter of the first operand
of `f`. -/
def LeftFilter (f g : Tree) : Prop :=
  ∃ o, FirstOf (nodeOf .TWIG_OPERAND) f o ∧ FirstOf (nodeOf .TWIG_FILTER) o g

/-- `g` is somewhere to the left of `f` in the same chain of filters. -/
inductive ToTheLeft : Tree → Tree → Prop
  | direct {f g : Tree} : LeftFilter f g → ToTheLeft f g
  | further {f g h : Tree} : LeftFilter f g → ToTheLeft g h → ToTheLeft f h

/-! ## The accessors -/

theorem firstChild_of {q : Tree → Bool} {e x : Elem} (h : FirstChild q e x) : FirstOf q e.tree x.tree := by
  obtain ⟨k, l, r, h1, h2, h3, _⟩ := h
  exact ⟨k, l, r, h1, h2, h3⟩

theorem of_firstChild {q : Tree → Bool} {e : Elem} {t : Tree} (h : FirstOf q e.tree t) :
    ∃ x, FirstChild q e x ∧ x.tree = t := by
  obtain ⟨k, l, r, h1, h2, h3⟩ := h
  exact ⟨⟨t, e.start + byteLen (textOf l), ⟨k, e.start, l, r⟩ :: e.path⟩,
    ⟨k, l, r, h1, h2, h3, rfl, rfl⟩, rfl⟩

theorem secondChild_of {q : Tree → Bool} {e x : Elem} (h : SecondChild q e x) :
    SecondOf q e.tree x.tree := by
  obtain ⟨k, l, y, m, r, h1, h2, h3, h4, h5, _⟩ := h
  exact ⟨k, l, y, m, r, h1, h2, h3, h4, h5⟩

theorem of_secondChild {q : Tree → Bool} {e : Elem} {t : Tree} (h : SecondOf q e.tree t) :
    ∃ x, SecondChild q e x ∧ x.tree = t := by
  obtain ⟨k, l, y, m, r, h1, h2, h3, h4, h5⟩ := h
  exact ⟨⟨t, e.start + byteLen (textOf (l ++ y :: m)), ⟨k, e.start, l ++ y :: m, r⟩ :: e.path⟩,
    ⟨k, l, y, m, r, h1, h2, h3, h4, h5, rfl, rfl⟩, rfl⟩

/-- The place of the name of a filter. -/
def NameAt (f name : Elem) : Prop :=
  ∃ o n, SecondChild (nodeOf .TWIG_OPERAND) f o ∧ FirstChild (nodeOf .TWIG_LITERAL_NAME) o n ∧
    FirstChild (isTokenOf .TK_WORD) n name

theorem literalName_iff (o name : Elem) : literalName o = some name ↔
    ∃ n, FirstChild (nodeOf .TWIG_LITERAL_NAME) o n ∧ FirstChild (isTokenOf .TK_WORD) n name := by
  unfold literalName
  rw [Option.bind_eq_some_iff]
  simp only [child_iff, Elem.word, token_iff]

theorem filterName_iff (f name : Elem) :
    f.filterOperand.bind literalName = some name ↔ NameAt f name := by
  rw [Option.bind_eq_some_iff]
  simp only [Elem.filterOperand, second_iff, literalName_iff]
  constructor
  · rintro ⟨o, h1, n, h2, h3⟩; exact ⟨o, n, h1, h2, h3⟩
  · rintro ⟨o, n, h1, h2, h3⟩; exact ⟨o, h1, n, h2, h3⟩

theorem word_token {n w : Elem} (h : FirstChild (isTokenOf .TK_WORD) n w) :
    w.tree = .token .TK_WORD w.text := by
  obtain ⟨_, _, _, _, _, h3, _⟩ := h
  unfold Elem.text
  cases hw : w.tree with
  | node _ _ => rw [hw] at h3; simp [isTokenOf] at h3
  | token k t =>
    rw [hw] at h3
    have : k = .TK_WORD := by simpa [isTokenOf] using h3
    rw [this]; rfl

theorem nameAt_filterName (f : Elem) (name : Text) :
    FilterName f.tree name ↔ ∃ w, NameAt f w ∧ w.text = name := by
  constructor
  · rintro ⟨o, n, h1, h2, h3⟩
    obtain ⟨o', g1, rfl⟩ := of_secondChild h1
    obtain ⟨n', g2, rfl⟩ := of_firstChild h2
    obtain ⟨w, g3, hw⟩ := of_firstChild h3
    refine ⟨w, ⟨o', n', g1, g2, g3⟩, ?_⟩
    rw [Elem.text, hw]; rfl
  · rintro ⟨w, ⟨o, n, h1, h2, h3⟩, rfl⟩
    refine ⟨o.tree, n.tree, secondChild_of h1, firstChild_of h2, ?_⟩
    rw [← word_token h3]
    exact firstChild_of h3

theorem isJsonEncode_iff (f : Elem) :
    isJsonEncode f = true ↔ FilterName f.tree "json_encode".toList := by
  rw [nameAt_filterName]
  unfold isJsonEncode
  constructor
  · intro h
    split at h
    · rename_i t ht
      exact ⟨t, (filterName_iff f t).mp ht, by simpa using h⟩
    · cases h
  · rintro ⟨w, h1, h2⟩
    rw [(filterName_iff f w).mpr h1]
    simp [h2]

theorem innerFilter_iff (f g : Elem) : innerFilter f = some g ↔
    ∃ o, FirstChild (nodeOf .TWIG_OPERAND) f o ∧ FirstChild (nodeOf .TWIG_FILTER) o g := by
  unfold innerFilter Elem.operand
  rw [Option.bind_eq_some_iff]
  simp only [child_iff]

theorem leftFilter_iff (f : Elem) (g : Tree) :
    LeftFilter f.tree g ↔ ∃ x, innerFilter f = some x ∧ x.tree = g := by
  constructor
  · rintro ⟨o, h1, h2⟩
    obtain ⟨o', g1, rfl⟩ := of_firstChild h1
    obtain ⟨x, g2, rfl⟩ := of_firstChild h2
    exact ⟨x, (innerFilter_iff f x).mpr ⟨o', g1, g2⟩, rfl⟩
  · rintro ⟨x, h, rfl⟩
    obtain ⟨o, g1, g2⟩ := (innerFilter_iff f x).mp h
    exact ⟨o.tree, firstChild_of g1, firstChild_of g2⟩

/-! ## The loop -/

theorem treesHeight_mem {t : Tree} {ts : List Tree} (h : t ∈ ts) : treeHeight t ≤ treesHeight ts := by
  induction ts with
  | nil => cases h
  | cons u ts ih =>
    rw [treesHeight]
    rcases List.mem_cons.mp h with rfl | h
    · omega
    · have := ih h; omega

theorem firstOf_height {q : Tree → Bool} {t x : Tree} (h : FirstOf q t x) :
    treeHeight x < treeHeight t := by
  obtain ⟨k, l, r, rfl, _⟩ := h
  have := treesHeight_mem (t := x) (ts := l ++ x :: r) (by simp)
  rw [treeHeight]; omega

theorem chain_iff : ∀ (fuel : Nat) (f : Elem), treeHeight f.tree ≤ fuel →
    (chainContainsJsonEncode fuel f = true ↔ FilterName f.tree "json_encode".toList ∨
      ∃ g, ToTheLeft f.tree g ∧ FilterName g "json_encode".toList)
  | 0, f, h => by
    cases hf : f.tree with
    | token _ _ => rw [hf, treeHeight] at h; omega
    | node _ _ => rw [hf, treeHeight] at h; omega
  | fuel + 1, f, h => by
    rw [chainContainsJsonEncode, Bool.or_eq_true, isJsonEncode_iff]
    refine or_congr Iff.rfl ?_
    constructor
    · intro hc
      split at hc
      · rename_i g hg
        have hl : LeftFilter f.tree g.tree := (leftFilter_iff f g.tree).mpr ⟨g, hg, rfl⟩
        have hlt : treeHeight g.tree ≤ fuel := by
          obtain ⟨o, h1, h2⟩ := hl
          have := firstOf_height h1
          have := firstOf_height h2
          omega
        rcases (chain_iff fuel g hlt).mp hc with h | ⟨x, h1, h2⟩
        · exact ⟨g.tree, .direct hl, h⟩
        · exact ⟨x, .further hl h1, h2⟩
      · cases hc
    · rintro ⟨x, hx, hn⟩
      have step : ∀ g', LeftFilter f.tree g' → (g' = x ∨ ToTheLeft g' x) →
          (match innerFilter f with
            | some inner => chainContainsJsonEncode fuel inner
            | none => false) = true := by
        intro g' hl hg
        have hlt : treeHeight g' ≤ fuel := by
          obtain ⟨o, h1, h2⟩ := hl
          have := firstOf_height h1
          have := firstOf_height h2
          omega
        obtain ⟨g, hgi, rfl⟩ := (leftFilter_iff f g').mp hl
        rw [hgi]
        refine (chain_iff fuel g hlt).mpr ?_
        rcases hg with h | h
        · left; rw [h]; exact hn
        · right; exact ⟨x, h, hn⟩
      cases hx with
      | direct hl => exact step x hl (.inl rfl)
      | further hl ht => exact step _ hl (.inr ht)

theorem nodeOf_cast (k : SyntaxKind) (e x : Elem) :
    e.cast k = some x ↔ nodeOf k e.tree = true ∧ x = e := by
  unfold Elem.cast
  rw [isNode_kind]
  split
  · rename_i h
    constructor
    · intro hx; cases hx; exact ⟨h, rfl⟩
    · rintro ⟨_, rfl⟩; rfl
  · rename_i h
    constructor
    · intro hx; cases hx
    · rintro ⟨h', _⟩; exact absurd h' h

theorem nameAt_unique {f v w : Elem} (hv : NameAt f v) (hw : NameAt f w) : v = w := by
  rw [← filterName_iff] at hv hw
  rw [hv] at hw
  exact Option.some.inj hw

/-- C42: the findings are exactly those for the filters (not hidden and not switched off) named `raw`
with a filter named `json_encode` somewhere to the left in the same chain; the suggestion replaces
exactly the name `raw` by `escape('js')`. -/
theorem C42_json_encode_raw (config : Config) (root : Tree) :
    ∃ l, runRules config [twigJsonEncodeEscapeJs] root = .ok l ∧ ∀ x, x ∈ l ↔
      ∃ e name, Elem.In root e ∧ hidden e = false ∧
        switchedOff "twig-json-encode-escape-js".toList e = false ∧
        nodeOf .TWIG_FILTER e.tree = true ∧ NameAt e name ∧ name.text = "raw".toList ∧
        (∃ g, ToTheLeft e.tree g ∧ FilterName g "json_encode".toList) ∧
        x = { rule := "twig-json-encode-escape-js".toList
              severity := .warning
              suggestions := [⟨⟨name.start, name.start + byteLen name.text⟩, "escape('js')".toList⟩]
              primary := some ⟨name.start, name.start + byteLen name.text⟩ } := by
  refine node_rule_reported config twigJsonEncodeEscapeJs root rfl rfl
    (fun e x => ∃ name, nodeOf .TWIG_FILTER e.tree = true ∧ NameAt e name ∧
      name.text = "raw".toList ∧ (∃ g, ToTheLeft e.tree g ∧ FilterName g "json_encode".toList) ∧
        x = { rule := "twig-json-encode-escape-js".toList
              severity := .warning
              suggestions := [⟨⟨name.start, name.start + byteLen name.text⟩, "escape('js')".toList⟩]
              primary := some ⟨name.start, name.start + byteLen name.text⟩ })
    (fun ctx e x => ?_) (fun e x h => ?_) |>.imp (fun l h => ⟨h.1, fun x => (h.2 x).trans ?_⟩)
  · unfold twigJsonEncodeEscapeJs; dsimp only
    constructor
    · intro h
      split at h
      · cases h
      · rename_i f hf
        obtain ⟨hk, rfl⟩ := (nodeOf_cast _ _ _).mp hf
        split at h
        · cases h
        · rename_i name hn
          rw [filterName_iff] at hn
          split at h
          · cases h
          · rename_i hraw
            have hraw : name.text = "raw".toList := by simpa using hraw
            split at h
            · cases h
            · rename_i hc
              have hc : chainContainsJsonEncode (treeHeight f.tree) f = true := by simpa using hc
              refine ⟨name, hk, hn, hraw, ?_, List.mem_singleton.mp h⟩
              rcases (chain_iff _ f (Nat.le_refl _)).mp hc with h | h
              · obtain ⟨w, h1, h2⟩ := (nameAt_filterName f _).mp h
                rw [nameAt_unique h1 hn, hraw] at h2
                exact absurd h2 (by decide)
              · exact h
    · rintro ⟨name, hk, hn, hraw, hg, rfl⟩
      rw [(nodeOf_cast _ _ _).mpr ⟨hk, rfl⟩]; dsimp only
      rw [(filterName_iff e name).mpr hn]; dsimp only
      rw [if_neg (by rw [hraw]; decide)]
      rw [if_neg (by rw [(chain_iff _ e (Nat.le_refl _)).mpr (.inr hg)]; decide)]
      exact List.mem_singleton.mpr rfl
  · obtain ⟨o, h4, _⟩ := h
    exact nodeOf_isNode h4
  · constructor
    · rintro ⟨e, h1, h2, h3, o, h4⟩; exact ⟨e, o, h1, h2, h3, h4⟩
    · rintro ⟨e, o, h1, h2, h3, h4⟩; exact ⟨e, h1, h2, h3, o, h4⟩

/-- In `{{ a|json_encode(1)|b|raw }}{{ (c|json_encode)|raw }}` only the first `raw` is reported:
parentheses end a chain. -/
example : parsesTo "{{ a|json_encode(1)|b|raw }}{{ (c|json_encode)|raw }}".toList chainSample = true ∧
    Gives (runRules sampleConfig [twigJsonEncodeEscapeJs] chainSample) (fun l =>
      l.map (·.suggestions) == [[⟨⟨22, 25⟩, "escape('js')".toList⟩]]) = true :=
  ⟨chainSample_parsed, by decide +kernel⟩

end Ludtwig.Rules
