import Verif.Template.Cells
import Verif.Template.RequoteInduction
import Verif.Template.Turns
import Verif.Layout.LineSuggestions

/-!
# The changed file is a template (proof device for C75)

The change of the tokens that a list of cells describes, with the new places of all tokens.
-/

namespace Ludtwig.Template

open Lexer Layout

/-! ## Places -/

/-- Where new quotes are put. -/
def Cell.spots : Cell → List Nat
  | .ins p _ => [p]
  | _ => []

/-- Where new quotes are put. -/
def spots (cs : List Cell) : List Nat := cs.flatMap Cell.spots

/-- The new offset of what comes behind the quotes at an offset. -/
def behind (L : List Nat) (x : Nat) : Nat := x + L.countP (fun p => decide (p ≤ x))

/-- The new offset of what comes before the quotes at an offset. -/
def ahead (L : List Nat) (x : Nat) : Nat := x + L.countP (fun p => decide (p < x))

/-- The new place of a token. Behind `<` and `:` no quotes are put. -/
def newPlace (L : List Nat) (t : Token) : TextRange :=
  ⟨behind L t.range.start, if t.kind = T!"<" ∨ t.kind = T!":" then behind L t.range.stop else ahead L t.range.stop⟩

/-- The token afterwards. -/
def Cell.token (L : List Nat) : Cell → Token
  | .keep t => { t with range := newPlace L t }
  | .swap t q => ⟨quoteKind q, [q], newPlace L t⟩
  | .ins p q => ⟨quoteKind q, [q], ⟨ahead L p, ahead L p + 1⟩⟩

/-- The cells lie one behind the other from an offset on. -/
def Lies : Nat → List Cell → Prop
  | _, [] => True
  | a, .keep t :: cs => t.range.start = a ∧ t.range.stop = a + byteLen t.text ∧ t.text ≠ [] ∧ Lies t.range.stop cs
  | a, .swap t _ :: cs => t.range.start = a ∧ t.range.stop = a + byteLen t.text ∧ byteLen t.text = 1 ∧ Lies t.range.stop cs
  | a, .ins p _ :: cs => p = a ∧ Lies a cs

theorem behind_lt {L : List Nat} {x y : Nat} (h : x < y) : behind L x < behind L y := by
  unfold behind
  have : L.countP (fun p => decide (p ≤ x)) ≤ L.countP (fun p => decide (p ≤ y)) :=
    List.countP_mono_left (fun p _ hp => by simp only [decide_eq_true_eq] at *; omega)
  omega

theorem behind_inj {L : List Nat} {x y : Nat} : behind L x = behind L y ↔ x = y := by
  constructor
  · intro h
    rcases Nat.lt_trichotomy x y with hx | hx | hx
    · have := behind_lt (L := L) hx; omega
    · exact hx
    · have := behind_lt (L := L) hx; omega
  · exact fun h => h ▸ rfl

theorem at_spots : ∀ {cs : List Cell} {a : Nat}, Lies a cs → ∀ p ∈ spots cs, a ≤ p
  | [], _, _, p, hp => by cases hp
  | .keep t :: cs, a, h, p, hp => by
    have := at_spots h.2.2.2 p hp
    have := h.2.1
    omega
  | .swap t q :: cs, a, h, p, hp => by
    have := at_spots h.2.2.2 p hp
    have := h.2.1
    omega
  | .ins r q :: cs, a, h, p, hp => by
    rcases List.mem_cons.1 (show p ∈ r :: spots cs from hp) with rfl | hp
    · exact Nat.le_of_eq h.1.symm
    · exact at_spots h.2 p hp

theorem good_spots {cs : List Cell} {a : Nat} (h : Lies a cs) (hg : Sits false cs) : ∀ p ∈ spots cs, a < p := by
  cases cs with
  | nil => intro p hp; cases hp
  | cons c cs =>
    cases c with
    | keep t =>
      intro p hp
      have h1 := at_spots h.2.2.2 p hp
      have h2 := h.2.1
      have := byteLen_pos h.2.2.1
      omega
    | swap t q =>
      intro p hp
      have h1 := at_spots h.2.2.2 p hp
      have h2 := h.2.1
      have h3 := h.2.2.1
      omega
    | ins r q => cases hg.1

theorem countP_all {L : List Nat} {f : Nat → Bool} (h : ∀ p ∈ L, f p = true) : L.countP f = L.length := List.countP_eq_length.2 h

theorem countP_none {L : List Nat} {f : Nat → Bool} (h : ∀ p ∈ L, f p = false) : L.countP f = 0 :=
  List.countP_eq_zero.2 (fun p hp => by simp [h p hp])

/-- The new tokens lie one behind the other. -/
theorem cells_contiguous : ∀ {cs : List Cell} {A : List Nat} {a : Nat} {b : Bool}, Lies a cs → Sits b cs → (∀ p ∈ A, p ≤ a) →
    (b = true → ∀ p ∈ A, p < a) → ∃ e, Contiguous (a + A.length) (cs.map (Cell.token (A ++ spots cs))) e
  | [], A, a, b, _, _, _, _ => ⟨_, .nil _⟩
  | .keep t :: cs, A, a, b, h, hg, hA, _ => by
    obtain ⟨h1, h2, h3, h4⟩ := h
    have hp := byteLen_pos h3
    obtain ⟨e, ih⟩ := cells_contiguous (A := A) h4 hg (fun p hp => by have := hA p hp; omega) (fun _ p hp => by have := hA p hp; omega)
    have hs := at_spots h4
    have hstart : behind (A ++ spots cs) t.range.start = a + A.length := by
      unfold behind
      rw [List.countP_append, countP_all (fun p hp => by have := hA p hp; simp; omega),
        countP_none (fun p hp => by have := hs p hp; simp; omega)]
      omega
    have hstop : (newPlace (A ++ spots cs) t).stop = t.range.stop + A.length := by
      unfold newPlace
      dsimp only
      split
      · rename_i hk
        have hg' : Sits false cs := by
          have : decide (t.kind ∈ insertable) = false := by rcases hk with hk | hk <;> rw [hk] <;> decide
          have hg : Sits (decide (t.kind ∈ insertable)) cs := hg
          rwa [this] at hg
        have hs' := good_spots h4 hg'
        unfold behind
        rw [List.countP_append, countP_all (fun p hp => by have := hA p hp; simp; omega),
          countP_none (fun p hp => by have := hs' p hp; simp; omega)]
        omega
      · unfold ahead
        rw [List.countP_append, countP_all (fun p hp => by have := hA p hp; simp; omega),
          countP_none (fun p hp => by have := hs p hp; simp; omega)]
        omega
    refine ⟨e, .cons hstart ?_ ?_⟩
    · show (newPlace (A ++ spots cs) t).stop = _ + byteLen t.text
      omega
    · show Contiguous (newPlace (A ++ spots cs) t).stop _ _
      rw [hstop]
      exact ih
  | .swap t q :: cs, A, a, b, h, hg, hA, _ => by
    obtain ⟨h1, h2, h3, h4⟩ := h
    obtain ⟨g1, g2, g3⟩ := hg
    obtain ⟨e, ih⟩ := cells_contiguous (A := A) h4 g3 (fun p hp => by have := hA p hp; omega) (fun hb => by cases hb)
    have hs := at_spots h4
    have hstart : behind (A ++ spots cs) t.range.start = a + A.length := by
      unfold behind
      rw [List.countP_append, countP_all (fun p hp => by have := hA p hp; simp; omega),
        countP_none (fun p hp => by have := hs p hp; simp; omega)]
      omega
    have hstop : (newPlace (A ++ spots cs) t).stop = t.range.stop + A.length := by
      unfold newPlace
      dsimp only
      rw [if_neg (by rintro (hk | hk) <;> rw [hk] at g1 <;> exact absurd g1 (by decide))]
      unfold ahead
      rw [List.countP_append, countP_all (fun p hp => by have := hA p hp; simp; omega),
        countP_none (fun p hp => by have := hs p hp; simp; omega)]
      omega
    have hl : byteLen [q] = 1 := by rcases g2 with rfl | rfl <;> decide
    refine ⟨e, .cons hstart ?_ ?_⟩
    · show (newPlace (A ++ spots cs) t).stop = _ + byteLen [q]
      omega
    · show Contiguous (newPlace (A ++ spots cs) t).stop _ _
      rw [hstop]
      exact ih
  | .ins p q :: cs, A, a, b, h, hg, hA, hb => by
    obtain ⟨rfl, h4⟩ := h
    obtain ⟨g1, g2, g3⟩ := hg
    obtain ⟨e, ih⟩ := cells_contiguous (A := A ++ [p]) h4 g3
      (fun r hr => by
        rcases List.mem_append.1 hr with hr | hr
        · exact hA r hr
        · cases List.mem_singleton.1 hr; exact Nat.le_refl _) (fun hb => by cases hb)
    have hs := good_spots h4 g3
    have hl : byteLen [q] = 1 := by rcases g2 with rfl | rfl <;> decide
    have hL : (A ++ [p]) ++ spots cs = A ++ spots (.ins p q :: cs) := by simp [spots, Cell.spots]
    have hpos : ahead (A ++ spots (.ins p q :: cs)) p = p + A.length := by
      rw [← hL]
      unfold ahead
      rw [List.countP_append, List.countP_append, countP_all (fun r hr => by have := hb g1 r hr; simp; omega),
        countP_none (L := spots cs) (fun r hr => by have := hs r hr; simp; omega)]
      simp
    rw [hL] at ih
    refine ⟨e, .cons hpos ?_ ?_⟩
    · show ahead (A ++ spots (.ins p q :: cs)) p + 1 = _ + byteLen [q]
      omega
    · show Contiguous (ahead (A ++ spots (.ins p q :: cs)) p + 1) _ _
      rw [hpos]
      simpa [Nat.add_assoc] using ih

theorem contiguous_unique : ∀ {us vs : List Token} {a e e' : Nat}, Contiguous a us e → Contiguous a vs e' →
    us.map (fun t => (t.kind, t.text)) = vs.map (fun t => (t.kind, t.text)) → us = vs
  | [], [], _, _, _, _, _, _ => rfl
  | [], _ :: _, _, _, _, _, _, h => by cases h
  | _ :: _, [], _, _, _, _, _, h => by cases h
  | u :: us, v :: vs, a, e, e', .cons h1 h2 h3, .cons k1 k2 k3, h => by
    simp only [List.map_cons, List.cons.injEq, Prod.mk.injEq] at h
    have hr : u.range.stop = v.range.stop := by rw [h2, k2, h.1.2]
    rw [hr] at h3
    have := contiguous_unique h3 k3 h.2
    obtain ⟨k, t, ⟨x, y⟩⟩ := u
    obtain ⟨k', t', ⟨x', y'⟩⟩ := v
    simp only at h1 k1 hr h
    obtain ⟨⟨rfl, rfl⟩, _⟩ := h
    subst h1 k1 hr this
    rfl

theorem token_new (L : List Nat) (c : Cell) : ((c.token L).kind, (c.token L).text) = c.new := by cases c <;> rfl

/-- The tokens of the changed text. -/
theorem cells_lex {errLen : Text → Nat} (he : ErrLenOk errLen) (ha : ErrAhead errLen) {s : Text} {cs : List Cell} (hg : Sits false cs)
    (hat : Lies 0 cs) (hold : oldToks cs = lex errLen s) : lex errLen (newText cs) = cs.map (Cell.token (spots cs)) := by
  have h1 := (cells_tokenize ha hg (hold ▸ C49_lex_tokenizes he s)).1
  have h2 := C49_tokenizes_unique (C49_lex_tokenizes he _) h1
  obtain ⟨e, h3⟩ := cells_contiguous (A := []) hat hg (fun p hp => by cases hp) (fun _ p hp => by cases hp)
  refine contiguous_unique (C02_lex_partition he _).1 h3 ?_
  rw [h2, List.map_map]
  exact List.map_congr_left (fun c _ => (token_new _ c).symm)

/-! ## The change -/

/-- The cells of a token. -/
inductive GroupOk : Token × List Cell → Prop
  | keep {t} : GroupOk (t, [.keep t])
  | swap {t q} : t.kind ∈ quotes → QuoteChar q → GroupOk (t, [.swap t q])
  | word {t p p' q} : t.kind = T!"word" → QuoteChar q → GroupOk (t, [.ins p q, .keep t, .ins p' q])
  | opened {t p q} : t.kind ∈ varOpens → QuoteChar q → GroupOk (t, [.ins p q, .keep t])
  | closed {t p q} : t.kind ∈ varCloses → QuoteChar q → GroupOk (t, [.keep t, .ins p q])

/-- The tokens of the cells. -/
def cellChange (L : List Nat) (g : List (Token × List Cell)) : Change where
  place := newPlace L
  image := fun t => match g.find? (fun p => decide (p.1 = t)) with
    | some p => p.2.map (Cell.token L)
    | none => [{ t with range := newPlace L t }]

/-- A token afterwards belongs to a cell. -/
def Change.Is (C : Change) (t' : Token) : Cell → Prop
  | .keep t => t' = C.moved t
  | .swap _ q => t'.kind = quoteKind q ∧ t'.text = [q]
  | .ins _ q => t'.kind = quoteKind q ∧ t'.text = [q]

/-- The image of a token are its cells. -/
def Change.Matches (C : Change) (p : Token × List Cell) : Prop :=
  ∃ f : Cell → Token, (∀ c ∈ p.2, C.Is (f c) c) ∧ C.image p.1 = p.2.map f

/-- The cell is not whitespace or a line break. -/
def Cell.sig (c : Cell) : Bool := !c.new.1.isTrivia

/-- A file cut into cells, with the cells of each token; the trees are `xs`, and `ys` with new quotes. -/
structure Recut (toks : List Token) (xs ys : List Tree) (cs : List Cell) (g : List (Token × List Cell)) : Prop where
  old : oldToks cs = toks
  good : Sits false cs
  places : Lies 0 cs
  sigs : cs.filter Cell.sig = g.flatMap (·.2)
  keys : g.map (·.1) = toks.filter (fun t => !t.kind.isTrivia)
  groups : ∀ p ∈ g, GroupOk p
  turns : ∀ C : Change, (∀ p ∈ g, C.Matches p) → Turns C (toks.filter (fun t => !t.kind.isTrivia)) xs ys

theorem quoteKind_quotes {q : Char} (h : QuoteChar q) : quoteKind q ∈ quotes := by rcases h with rfl | rfl <;> decide

theorem isQuote_token {q : Char} (h : QuoteChar q) (r : TextRange) : IsQuote ⟨quoteKind q, [q], r⟩ :=
  ⟨quoteKind_quotes h, by rcases h with rfl | rfl <;> simp⟩

theorem find_key {g : List (Token × List Cell)} (hn : (g.map (·.1)).Nodup) {p : Token × List Cell} (hp : p ∈ g) :
    g.find? (fun x => decide (x.1 = p.1)) = some p := by
  induction g with
  | nil => cases hp
  | cons y g ih =>
    simp only [List.map_cons, List.nodup_cons] at hn
    rcases List.mem_cons.1 hp with rfl | hp
    · simp
    · rw [List.find?_cons_of_neg]
      · exact ih hn.2 hp
      · simp only [decide_eq_true_eq]
        intro h
        exact hn.1 (h ▸ List.mem_map.2 ⟨p, hp, rfl⟩)

theorem cellChange_image {L : List Nat} {g : List (Token × List Cell)} (hg : ∀ p ∈ g, GroupOk p) (t : Token) :
    Image (cellChange L g) t := by
  cases hf : g.find? (fun p => decide (p.1 = t)) with
  | none => exact .plain (by unfold Change.Plain cellChange; dsimp only; rw [hf]; rfl)
  | some p =>
    have himg : (cellChange L g).image t = p.2.map (Cell.token L) := by unfold cellChange; dsimp only; rw [hf]
    have hp := List.mem_of_find?_eq_some hf
    have ht : p.1 = t := by have := List.find?_some hf; simpa using this
    have hok := hg p hp
    cases hok with
    | keep => cases ht; exact .plain himg
    | swap h1 h2 => cases ht; exact .swapped h1 (isQuote_token h2 _) himg
    | word h1 h2 => cases ht; exact .word h1 (isQuote_token h2 _) (isQuote_token h2 _) himg
    | opened h1 h2 => cases ht; exact .opened h1 (isQuote_token h2 _) himg
    | closed h1 h2 => cases ht; exact .closed h1 (isQuote_token h2 _) himg

theorem quoteKind_solid (q : Char) : quoteKind q ≠ T!"ws" := by
  unfold quoteKind
  split <;> decide

theorem blank_after {toks : List Token} {xs ys : List Tree} {cs : List Cell} {g : List (Token × List Cell)} (h : Recut toks xs ys cs g)
    (n : Nat) : BlankAt (cs.map (Cell.token (spots cs))) (behind (spots cs) n) ↔ BlankAt toks n := by
  have hsw : ∀ {cs b}, Sits b cs → ∀ {t q}, .swap t q ∈ cs → t.kind ∈ quotes := by
    intro cs
    induction cs with
    | nil => intro b _ t q h; cases h
    | cons c cs ih =>
      intro b hg t q hm
      rcases List.mem_cons.1 hm with rfl | hm'
      · exact hg.1
      · cases c with
        | keep t => exact ih (show Sits _ cs from hg) hm'
        | swap t q => exact ih hg.2.2 hm'
        | ins p q => exact ih hg.2.2 hm'
  constructor
  · rintro ⟨t, ht, hk, hs⟩
    obtain ⟨c, hc, rfl⟩ := List.mem_map.1 ht
    cases c with
    | keep t =>
      refine ⟨t, ?_, hk, behind_inj.1 hs⟩
      rw [← h.old]
      exact List.mem_flatMap.2 ⟨_, hc, by simp [Cell.old]⟩
    | swap t q => exact absurd hk (quoteKind_solid q)
    | ins p q => exact absurd hk (quoteKind_solid q)
  · rintro ⟨t, ht, hk, hs⟩
    rw [← h.old] at ht
    obtain ⟨c, hc, hm⟩ := List.mem_flatMap.1 ht
    cases c with
    | keep t' =>
      cases List.mem_singleton.1 hm
      exact ⟨_, List.mem_map.2 ⟨_, hc, rfl⟩, hk, by subst hs; rfl⟩
    | swap t' q =>
      cases List.mem_singleton.1 hm
      have := hsw h.good hc
      rw [hk] at this
      exact absurd this (by decide)
    | ins p q => cases hm

theorem cellChange_ok {toks : List Token} {xs ys : List Tree} {cs : List Cell} {g : List (Token × List Cell)} (h : Recut toks xs ys cs g) :
    (cellChange (spots cs) g).Ok (BlankAt toks) (BlankAt (cs.map (Cell.token (spots cs)))) where
  images := cellChange_image h.groups
  adjacent := by
    intro a b s hk _ _
    show (if _ then _ else _) = behind _ _ ↔ _
    rw [if_pos hk]
    exact behind_inj
  blanks := by
    intro t hk _
    show BlankAt _ (if _ then _ else _) ↔ _
    rw [if_pos (.inl hk)]
    exact blank_after h _

theorem contiguous_nodup : ∀ {ts : List Token} {a e : Nat}, Contiguous a ts e → (∀ t ∈ ts, t.text ≠ []) →
    ts.Nodup ∧ ∀ t ∈ ts, a ≤ t.range.start
  | [], _, _, _, _ => ⟨.nil, fun _ h => by cases h⟩
  | t :: ts, a, e, .cons h1 h2 h3, hne => by
    obtain ⟨h4, h5⟩ := contiguous_nodup h3 (fun t ht => hne t (List.mem_cons_of_mem _ ht))
    have := byteLen_pos (hne t (by simp))
    refine ⟨List.nodup_cons.2 ⟨fun hm => ?_, h4⟩, ?_⟩
    · have := h5 t hm
      omega
    · intro t' ht'
      rcases List.mem_cons.1 ht' with rfl | ht'
      · omega
      · have := h5 t' ht'
        omega

theorem cells_all {toks : List Token} {xs ys : List Tree} {cs : List Cell} {g : List (Token × List Cell)} (h : Recut toks xs ys cs g)
    (hn : toks.Nodup) : (∀ p ∈ g, (cellChange (spots cs) g).image p.1 = p.2.map (Cell.token (spots cs))) ∧
      (cellChange (spots cs) g).all (toks.filter (fun t => !t.kind.isTrivia)) =
        (cs.map (Cell.token (spots cs))).filter (fun t => !t.kind.isTrivia) := by
  have hkeys : (g.map (·.1)).Nodup := by rw [h.keys]; exact hn.filter _
  have himg : ∀ p ∈ g, (cellChange (spots cs) g).image p.1 = p.2.map (Cell.token (spots cs)) := by
    intro p hp
    unfold cellChange
    dsimp only
    rw [find_key hkeys hp]
  refine ⟨himg, ?_⟩
  rw [← h.keys]
  unfold Change.all
  rw [List.flatMap_map, List.filter_map]
  have h1 : (fun t : Token => !t.kind.isTrivia) ∘ Cell.token (spots cs) = Cell.sig := by
    funext c; cases c <;> rfl
  rw [h1, h.sigs, List.map_flatMap]
  clear h1 hkeys
  generalize cellChange (spots cs) g = C at himg ⊢
  generalize spots cs = L at himg ⊢
  have : ∀ g' : List (Token × List Cell), (∀ p ∈ g', C.image p.1 = p.2.map (Cell.token L)) →
      g'.flatMap (fun a => C.image a.1) = g'.flatMap (fun a => a.2.map (Cell.token L)) := by
    intro g' hg'
    induction g' with
    | nil => rfl
    | cons p g' ih =>
      rw [List.flatMap_cons, List.flatMap_cons, hg' p (by simp), ih (fun p hp => hg' p (List.mem_cons_of_mem _ hp))]
  exact this g himg

/-- The changed file is a template, its tree is the one with new quotes, and it is the same up to quotes. -/
theorem recut_template {errLen : Text → Nat} (he : ErrLenOk errLen) (ha : ErrAhead errLen) {s : Text} {xs ys : List Tree} {cs : List Cell}
    {g : List (Token × List Cell)} (h : Recut (lex errLen s) xs ys cs g)
    (ht : T (BlankAt (lex errLen s)) (.body .element) ((lex errLen s).filter (fun t => !t.kind.isTrivia)) xs) :
    IsTemplate (lex errLen (newText cs)) (.node .ROOT ys) ∧ unquote (.node .ROOT ys) = unquote (.node .ROOT xs) := by
  obtain ⟨hc, _, hne⟩ := C02_lex_partition he s
  obtain ⟨himg, hall⟩ := cells_all h (contiguous_nodup hc hne).1
  have hm : ∀ p ∈ g, (cellChange (spots cs) g).Matches p := by
    intro p hp
    refine ⟨Cell.token (spots cs), ?_, himg p hp⟩
    intro c _
    cases c
    · rfl
    · exact ⟨rfl, rfl⟩
    · exact ⟨rfl, rfl⟩
  have hturns := h.turns _ hm
  obtain ⟨xs', h', e⟩ := body_requoted (cellChange_ok h) ht hturns.fits
  have hlex := cells_lex he ha h.good h.places h.old
  have hs : ∀ t ∈ (cellChange (spots cs) g).all ((lex errLen s).filter (fun t => !t.kind.isTrivia)), t.text ≠ [] := by
    intro t ht
    rw [hall, ← hlex] at ht
    exact (C02_lex_partition he (newText cs)).2.2 t (List.mem_filter.1 ht).1
  obtain ⟨_, rfl⟩ := turns_unique hturns hs (sound h').each e (A := []) (B := []) rfl
  rw [hall, ← hlex] at h'
  exact ⟨⟨xs', h', rfl⟩, by rw [unquote_node, unquote_node, e]⟩

end Ludtwig.Template
