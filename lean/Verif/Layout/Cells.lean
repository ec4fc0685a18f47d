import Verif.Layout.Edits

/-!
# Leaves in a changed layout

Leaves of a file with a mark on each (what a rule has to know about the place), the leaves after edits
at line starts, and what of them the rules `indentation` and `whitespace-between-line-breaks` find.
-/

namespace Ludtwig.Layout

open Lexer Cli

/-- A leaf with a mark. -/
structure Cell (M : Type) where
  kind : SyntaxKind
  text : Text
  mark : M

variable {M : Type}

/-- The text of cells. -/
def cellText (l : List (Cell M)) : Text := l.flatMap (·.text)

/-- Is the cell neither whitespace nor a line break? -/
def Cell.solid (c : Cell M) : Bool := !c.kind.isTrivia

theorem trivia_cases {k : SyntaxKind} (h : k.isTrivia = true) : k = .TK_WHITESPACE ∨ k = .TK_LINE_BREAK := by
  revert h; cases k <;> simp [SyntaxKind.isTrivia]

theorem kind_cases (c : Cell M) : c.kind = .TK_WHITESPACE ∨ c.kind = .TK_LINE_BREAK ∨ c.kind.isTrivia = false := by
  cases h : c.kind.isTrivia with
  | false => exact .inr (.inr rfl)
  | true =>
    rcases trivia_cases h with h | h
    · exact .inl h
    · exact .inr (.inl h)

/-- Does a text start with a blank? -/
def startsWs : Text → Bool
  | ' ' :: _ => true
  | '\t' :: _ => true
  | _ => false

/-- Does a text start with LF or CRLF? -/
def startsLb : Text → Bool
  | '\n' :: _ => true
  | '\r' :: '\n' :: _ => true
  | _ => false

theorem startsBlank_false {s : Text} (h : startsBlank s = false) : startsWs s = false ∧ startsLb s = false := by
  constructor
  · cases hw : startsWs s with
    | false => rfl
    | true =>
      unfold startsWs at hw
      split at hw
      · simp [startsBlank] at h
      · simp [startsBlank] at h
      · cases hw
  · cases hw : startsLb s with
    | false => rfl
    | true =>
      unfold startsLb at hw
      split at hw
      · simp [startsBlank] at h
      · simp [startsBlank] at h
      · cases hw

theorem ws_starts {t r : Text} (hn : t ≠ []) (h : ∀ c ∈ t, isBlank c = true) :
    startsWs (t ++ r) = true ∧ startsLb (t ++ r) = false ∧ startsBlank (t ++ r) = true := by
  cases t with
  | nil => exact absurd rfl hn
  | cons c t =>
    have := h c List.mem_cons_self
    simp [isBlank] at this
    rcases this with rfl | rfl <;> simp [startsWs, startsLb, startsBlank]

theorem lb_starts {t r : Text} (hn : t ≠ []) (h : IsLineBreaks t) :
    startsWs (t ++ r) = false ∧ startsLb (t ++ r) = true ∧ startsBlank (t ++ r) = true := by
  obtain ⟨x, y, rfl, h'⟩ := lineBreaks_head h hn
  rcases h' with rfl | rfl <;> simp [startsWs, startsLb, startsBlank]

theorem startsWs_head {c : Char} {s : Text} (h : startsWs (c :: s) = false) : isBlank c = false := by
  cases hb : isBlank c with
  | false => rfl
  | true =>
    simp [isBlank] at hb
    rcases hb with rfl | rfl <;> simp [startsWs] at h

/-- The whitespace at the start of a text is unique. -/
theorem ws_unique : ∀ {t t' r r' : Text}, (∀ c ∈ t, isBlank c = true) → (∀ c ∈ t', isBlank c = true) →
    startsWs r = false → startsWs r' = false → t ++ r = t' ++ r' → t = t' ∧ r = r'
  | [], [], _, _, _, _, _, _, h => ⟨rfl, by simpa using h⟩
  | [], c :: t', r, r', _, h2, h3, _, h => by
    simp only [List.nil_append, List.cons_append] at h
    subst h
    have := startsWs_head h3
    rw [h2 c List.mem_cons_self] at this
    cases this
  | c :: t, [], r, r', h1, _, _, h4, h => by
    simp only [List.nil_append, List.cons_append] at h
    subst h
    have := startsWs_head h4
    rw [h1 c List.mem_cons_self] at this
    cases this
  | c :: t, c' :: t', r, r', h1, h2, h3, h4, h => by
    simp only [List.cons_append, List.cons.injEq] at h
    obtain ⟨rfl, h⟩ := h
    obtain ⟨rfl, rfl⟩ := ws_unique (fun x hx => h1 x (List.mem_cons_of_mem _ hx))
      (fun x hx => h2 x (List.mem_cons_of_mem _ hx)) h3 h4 h
    exact ⟨rfl, rfl⟩

theorem lb_items_unique : ∀ (l l' : List Text) {r r' : Text}, (∀ x ∈ l, x = ['\n'] ∨ x = ['\r', '\n']) →
    (∀ x ∈ l', x = ['\n'] ∨ x = ['\r', '\n']) → startsLb r = false → startsLb r' = false →
    l.flatten ++ r = l'.flatten ++ r' → l = l' ∧ r = r'
  | [], [], _, _, _, _, _, _, h => ⟨rfl, by simpa using h⟩
  | [], x :: l', r, r', _, h2, h3, _, h => by
    exfalso
    simp only [List.flatten_nil, List.nil_append, List.flatten_cons] at h
    subst h
    rcases h2 x List.mem_cons_self with rfl | rfl <;> simp [startsLb] at h3
  | x :: l, [], r, r', h1, _, _, h4, h => by
    exfalso
    simp only [List.flatten_nil, List.nil_append, List.flatten_cons] at h
    subst h
    rcases h1 x List.mem_cons_self with rfl | rfl <;> simp [startsLb] at h4
  | x :: l, x' :: l', r, r', h1, h2, h3, h4, h => by
    have ih := lb_items_unique l l' (r := r) (r' := r') (fun x hx => h1 x (List.mem_cons_of_mem _ hx))
      (fun x hx => h2 x (List.mem_cons_of_mem _ hx)) h3 h4
    rcases h1 x List.mem_cons_self with rfl | rfl <;> rcases h2 x' List.mem_cons_self with rfl | rfl <;>
      simp at h
    · obtain ⟨rfl, rfl⟩ := ih h; exact ⟨rfl, rfl⟩
    · obtain ⟨rfl, rfl⟩ := ih h; exact ⟨rfl, rfl⟩

/-- The line breaks at the start of a text are unique. -/
theorem lb_unique {t t' r r' : Text} (h1 : IsLineBreaks t) (h2 : IsLineBreaks t')
    (h3 : startsLb r = false) (h4 : startsLb r' = false) (h : t ++ r = t' ++ r') : t = t' ∧ r = r' := by
  obtain ⟨l, rfl, hl⟩ := h1
  obtain ⟨l', rfl, hl'⟩ := h2
  obtain ⟨rfl, rfl⟩ := lb_items_unique l l' hl hl' h3 h4 h
  exact ⟨rfl, rfl⟩

/-- The mark of the first cell; of no cells `m`. -/
def headMark (m : M) : List (Cell M) → M
  | [] => m
  | c :: _ => c.mark

/-- Cells as the leaves of a file are: whitespace and line breaks are as long as possible and have the
mark of the cell behind them; `m` is the mark of the end of the file. -/
def Proper (m : M) : List (Cell M) → Prop
  | [] => True
  | c :: r => Proper m r ∧ c.text ≠ [] ∧
      (c.kind = .TK_WHITESPACE → (∀ x ∈ c.text, isBlank x = true) ∧ startsWs (cellText r) = false) ∧
      (c.kind = .TK_LINE_BREAK → IsLineBreaks c.text ∧ startsLb (cellText r) = false) ∧
      (c.kind.isTrivia = false → startsBlank (c.text ++ cellText r) = false) ∧
      (c.kind.isTrivia = true → c.mark = headMark m r)

theorem cellText_cons (c : Cell M) (l : List (Cell M)) : cellText (c :: l) = c.text ++ cellText l := rfl

theorem Proper.starts {m : M} {c : Cell M} {r : List (Cell M)} (h : Proper m (c :: r)) :
    startsWs (cellText (c :: r)) = (c.kind == .TK_WHITESPACE) ∧
    startsLb (cellText (c :: r)) = (c.kind == .TK_LINE_BREAK) := by
  obtain ⟨_, hn, h1, h2, h3, _⟩ := h
  rw [cellText_cons]
  rcases kind_cases c with hk | hk | hk
  · have := ws_starts (r := cellText r) hn (h1 hk).1
    rw [hk, this.1, this.2.1]; exact ⟨rfl, rfl⟩
  · have := lb_starts (r := cellText r) hn (h2 hk).1
    rw [hk, this.1, this.2.1]; exact ⟨rfl, rfl⟩
  · obtain ⟨a, b⟩ := startsBlank_false (h3 hk)
    rw [a, b, kind_ne_lb hk]
    refine ⟨?_, rfl⟩
    revert hk; cases c.kind <;> simp [SyntaxKind.isTrivia]

/-- Such cells are determined by their text and the cells that are not whitespace or line breaks. -/
theorem proper_unique {m : M} : ∀ {l l' : List (Cell M)}, Proper m l → Proper m l' →
    cellText l = cellText l' → l.filter Cell.solid = l'.filter Cell.solid → l = l'
  | [], [], _, _, _, _ => rfl
  | [], c :: l', _, h, ht, _ => by
    exfalso
    rw [cellText_cons] at ht
    exact h.2.1 (List.append_eq_nil_iff.1 ht.symm).1
  | c :: l, [], h, _, ht, _ => by
    exfalso
    rw [cellText_cons] at ht
    exact h.2.1 (List.append_eq_nil_iff.1 ht).1
  | c :: l, d :: l', h, h', ht, hf => by
    have e1 := h.starts
    have e2 := h'.starts
    rw [ht] at e1
    have k1 : (c.kind == .TK_WHITESPACE) = (d.kind == .TK_WHITESPACE) := e1.1.symm.trans e2.1
    have k2 : (c.kind == .TK_LINE_BREAK) = (d.kind == .TK_LINE_BREAK) := e1.2.symm.trans e2.2
    obtain ⟨p, hn, h1, h2, h3, h4⟩ := h
    obtain ⟨p', hn', h1', h2', h3', h4'⟩ := h'
    rw [cellText_cons, cellText_cons] at ht
    have fin : c.kind.isTrivia = true → d.kind.isTrivia = true → c.kind = d.kind → c.text = d.text →
        cellText l = cellText l' → c :: l = d :: l' := by
      intro t1 t2 hk hx hr
      have : l = l' := by
        refine proper_unique p p' hr ?_
        rw [List.filter_cons_of_neg (by simp [Cell.solid, t1]),
          List.filter_cons_of_neg (by simp [Cell.solid, t2])] at hf
        exact hf
      subst this
      have : c.mark = d.mark := (h4 t1).trans (h4' t2).symm
      obtain ⟨ck, ct, cm⟩ := c
      obtain ⟨dk, dt, dm⟩ := d
      simp only at hk hx this
      subst hk hx this
      rfl
    rcases kind_cases c with hk | hk | hk
    · have hk' : d.kind = .TK_WHITESPACE := by rw [hk] at k1; simpa using k1.symm
      obtain ⟨x, y⟩ := ws_unique (h1 hk).1 (h1' hk').1 (h1 hk).2 (h1' hk').2 ht
      exact fin (by rw [hk]; rfl) (by rw [hk']; rfl) (hk.trans hk'.symm) x y
    · have hk' : d.kind = .TK_LINE_BREAK := by rw [hk] at k2; simpa using k2.symm
      obtain ⟨x, y⟩ := lb_unique (h2 hk).1 (h2' hk').1 (h2 hk).2 (h2' hk').2 ht
      exact fin (by rw [hk]; rfl) (by rw [hk']; rfl) (hk.trans hk'.symm) x y
    · have hk' : d.kind.isTrivia = false := by
        cases hd : d.kind.isTrivia with
        | false => rfl
        | true =>
          exfalso
          rcases trivia_cases hd with hd | hd
          · rw [hd] at k1
            have : c.kind = .TK_WHITESPACE := by simpa using k1
            rw [this] at hk; cases hk
          · rw [hd] at k2
            have : c.kind = .TK_LINE_BREAK := by simpa using k2
            rw [this] at hk; cases hk
      rw [List.filter_cons_of_pos (by simp [Cell.solid, hk]),
        List.filter_cons_of_pos (by simp [Cell.solid, hk']), List.cons.injEq] at hf
      obtain ⟨rfl, hf⟩ := hf
      rw [proper_unique p p' (List.append_cancel_left ht) hf]

/-! ## Edits -/

/-- The cells after edits. Of a cell at the beginning of a line, the edit says what replaces it if it is
whitespace, and what is put before it if it is no whitespace. `b`: do the cells begin a line? -/
def edited : Bool → List (Cell M × Option Text) → List (Cell M)
  | _, [] => []
  | b, (c, a) :: l =>
    (match a with
      | none => [c]
      | some n =>
        if b && c.kind != .TK_LINE_BREAK then
          if c.kind == .TK_WHITESPACE then [{ c with text := n }] else [⟨.TK_WHITESPACE, n, c.mark⟩, c]
        else [c]) ++ edited (c.kind == .TK_LINE_BREAK) l

theorem edited_cases (b : Bool) (c : Cell M) (a : Option Text) (l : List (Cell M × Option Text)) :
    ((a = none ∨ b = false ∨ c.kind = .TK_LINE_BREAK) ∧
      edited b ((c, a) :: l) = c :: edited (c.kind == .TK_LINE_BREAK) l) ∨
    (b = true ∧ c.kind = .TK_WHITESPACE ∧ ∃ n, a = some n ∧
      edited b ((c, a) :: l) = ⟨.TK_WHITESPACE, n, c.mark⟩ :: edited false l) ∨
    (b = true ∧ c.kind.isTrivia = false ∧ ∃ n, a = some n ∧
      edited b ((c, a) :: l) = ⟨.TK_WHITESPACE, n, c.mark⟩ :: c :: edited false l) := by
  cases a with
  | none => exact .inl ⟨.inl rfl, by simp [edited]⟩
  | some n =>
    cases b with
    | false => exact .inl ⟨.inr (.inl rfl), by simp [edited]⟩
    | true =>
      rcases kind_cases c with hk | hk | hk
      · exact .inr (.inl ⟨rfl, hk, n, rfl, by simp [edited, hk]; rfl⟩)
      · exact .inl ⟨.inr (.inr hk), by simp [edited, hk]⟩
      · refine .inr (.inr ⟨rfl, hk, n, rfl, ?_⟩)
        have h1 : ¬ c.kind = .TK_LINE_BREAK := by intro h; rw [h] at hk; cases hk
        have h2 : ¬ c.kind = .TK_WHITESPACE := by intro h; rw [h] at hk; cases hk
        simp [edited, h1, h2, kind_ne_lb hk]

/-- Puts a cell before others; empty whitespace vanishes, and line breaks become one. -/
def addCell (c : Cell M) (l : List (Cell M)) : List (Cell M) :=
  if c.text = [] then l
  else if c.kind = .TK_LINE_BREAK then
    match l with
    | [] => [c]
    | d :: r => if d.kind = .TK_LINE_BREAK then ⟨.TK_LINE_BREAK, c.text ++ d.text, d.mark⟩ :: r else c :: l
  else c :: l

/-- Cells without empty whitespace and with line breaks as long as possible. -/
def tidied (l : List (Cell M)) : List (Cell M) := l.foldr addCell []

theorem tidied_cons (c : Cell M) (l : List (Cell M)) : tidied (c :: l) = addCell c (tidied l) := rfl

theorem addCell_text (c : Cell M) (l : List (Cell M)) : cellText (addCell c l) = c.text ++ cellText l := by
  unfold addCell
  split
  · rename_i h; rw [h]; rfl
  · split
    · cases l with
      | nil => rfl
      | cons d r =>
        dsimp only
        split
        · rw [cellText_cons, cellText_cons, List.append_assoc]
        · rfl
    · rfl

theorem tidied_text (l : List (Cell M)) : cellText (tidied l) = cellText l := by
  induction l with
  | nil => rfl
  | cons c l ih => rw [tidied_cons, addCell_text, ih, cellText_cons]

theorem addCell_solid {c : Cell M} {l : List (Cell M)} (h : c.kind.isTrivia = true) :
    (addCell c l).filter Cell.solid = l.filter Cell.solid := by
  unfold addCell
  have hc : Cell.solid c = false := by simp [Cell.solid, h]
  split
  · rfl
  · split
    · cases l with
      | nil => rw [List.filter_cons_of_neg (by simp [hc])]
      | cons d r =>
        dsimp only
        split
        · rename_i hd
          rw [List.filter_cons_of_neg (by simp [Cell.solid, SyntaxKind.isTrivia]),
            List.filter_cons_of_neg (by simp [Cell.solid, hd, SyntaxKind.isTrivia])]
        · rw [List.filter_cons_of_neg (by simp [hc])]
    · rw [List.filter_cons_of_neg (by simp [hc])]

theorem addCell_token {c : Cell M} {l : List (Cell M)} (h : c.kind.isTrivia = false) (hn : c.text ≠ []) :
    addCell c l = c :: l := by
  unfold addCell
  rw [if_neg hn, if_neg (by intro hk; rw [hk] at h; cases h)]

/-- The new cells at the beginning of the list. -/
theorem edited_solid : ∀ {l : List (Cell M × Option Text)} {b : Bool}, (∀ p ∈ l, p.1.text ≠ []) →
    (tidied (edited b l)).filter Cell.solid = (l.map (·.1)).filter Cell.solid
  | [], b, _ => rfl
  | (c, a) :: l, b, hne => by
    have ih := fun b' => edited_solid (l := l) (b := b') (fun p hp => hne p (List.mem_cons_of_mem _ hp))
    have hn : c.text ≠ [] := hne (c, a) List.mem_cons_self
    have one : ∀ b', (addCell c (tidied (edited b' l))).filter Cell.solid =
        (c :: l.map (·.1)).filter Cell.solid := by
      intro b'
      cases hk : c.kind.isTrivia with
      | true =>
        rw [addCell_solid hk, List.filter_cons_of_neg (by simp [Cell.solid, hk]), ih]
      | false =>
        rw [addCell_token hk hn, List.filter_cons_of_pos (by simp [Cell.solid, hk]),
          List.filter_cons_of_pos (by simp [Cell.solid, hk]), ih]
    rcases edited_cases b c a l with ⟨_, e⟩ | ⟨_, hk, n, _, e⟩ | ⟨_, hk, n, _, e⟩
    · rw [e]; exact one _
    · rw [e, tidied_cons, addCell_solid rfl, List.map_cons,
        List.filter_cons_of_neg (by simp [Cell.solid, hk, SyntaxKind.isTrivia]), ih]
    · rw [e, tidied_cons, addCell_solid rfl]
      exact one _

/-- What edits put into the file: blanks. -/
def BlankEdits (l : List (Cell M × Option Text)) : Prop :=
  ∀ p ∈ l, ∀ n, p.2 = some n → ∀ c ∈ n, isBlank c = true

theorem headMark_addCell {m : M} {c : Cell M} {l : List (Cell M)} (h : c.mark = headMark m l) :
    headMark m (addCell c l) = c.mark := by
  unfold addCell
  split
  · exact h.symm
  · split
    · cases l with
      | nil => rfl
      | cons d r =>
        dsimp only
        split
        · exact h.symm
        · rfl
    · rfl

/-- The mark at the beginning does not change. -/
theorem edited_headMark {m : M} : ∀ {l : List (Cell M × Option Text)} {b : Bool}, Proper m (l.map (·.1)) →
    headMark m (tidied (edited b l)) = headMark m (l.map (·.1))
  | [], b, _ => rfl
  | (c, a) :: l, b, h => by
    have h' : Proper m (l.map (·.1)) ∧ c.text ≠ [] ∧ _ := h
    have ih := fun b' => edited_headMark (l := l) (b := b') h'.1
    have one : ∀ b', headMark m (addCell c (tidied (edited b' l))) = c.mark := by
      intro b'
      cases hk : c.kind.isTrivia with
      | true =>
        refine headMark_addCell ?_
        rw [ih]
        exact h.2.2.2.2.2 hk
      | false => rw [addCell_token hk h'.2.1]; rfl
    rcases edited_cases b c a l with ⟨_, e⟩ | ⟨_, hk, n, _, e⟩ | ⟨_, hk, n, _, e⟩
    · rw [e]; exact one _
    · rw [e, tidied_cons]
      refine headMark_addCell ?_
      rw [ih]
      exact h.2.2.2.2.2 (by rw [hk]; rfl)
    · rw [e, tidied_cons]
      exact headMark_addCell (one _).symm

/-- Behind every cell that is no whitespace nor line break, the new text begins as such. -/
def SolidEdits : List (Cell M × Option Text) → Prop
  | [] => True
  | (c, _) :: l => SolidEdits l ∧
      (c.kind.isTrivia = false → startsBlank (c.text ++ cellText (edited false l)) = false)

theorem addCell_proper {m : M} {c : Cell M} {l : List (Cell M)} (hl : Proper m l)
    (hw : c.kind = .TK_WHITESPACE → (∀ x ∈ c.text, isBlank x = true) ∧ startsWs (cellText l) = false)
    (hb : c.kind = .TK_LINE_BREAK → IsLineBreaks c.text)
    (hs : c.kind.isTrivia = false → startsBlank (c.text ++ cellText l) = false)
    (hm : c.kind.isTrivia = true → c.mark = headMark m l) : Proper m (addCell c l) := by
  unfold addCell
  split
  · exact hl
  · rename_i hn
    split
    · rename_i hk
      cases l with
      | nil => exact ⟨trivial, hn, fun h => (by rw [hk] at h; cases h),
          fun _ => ⟨hb hk, rfl⟩, fun h => (by rw [hk] at h; cases h), hm⟩
      | cons d r =>
        dsimp only
        split
        · rename_i hd
          obtain ⟨p, dn, d1, d2, d3, d4⟩ := hl
          refine ⟨p, by simp [hn], fun h => (by cases h), fun _ => ⟨?_, (d2 hd).2⟩, fun h => (by cases h),
            fun _ => d4 (by rw [hd]; rfl)⟩
          obtain ⟨x, hx, hx'⟩ := hb hk
          obtain ⟨y, hy, hy'⟩ := (d2 hd).1
          refine ⟨x ++ y, by simp [hx, hy], ?_⟩
          intro z hz
          rcases List.mem_append.1 hz with hz | hz
          · exact hx' z hz
          · exact hy' z hz
        · rename_i hd
          refine ⟨hl, hn, fun h => (by rw [hk] at h; cases h), fun _ => ⟨hb hk, ?_⟩,
            fun h => (by rw [hk] at h; cases h), hm⟩
          rw [hl.starts.2]
          simpa using hd
    · rename_i hk
      exact ⟨hl, hn, hw, fun h => absurd h hk, hs, hm⟩

/-- The edited cells are proper again. -/
theorem edited_proper {m : M} : ∀ {l : List (Cell M × Option Text)} {b : Bool}, Proper m (l.map (·.1)) →
    BlankEdits l → SolidEdits l → Proper m (tidied (edited b l))
  | [], b, _, _, _ => trivial
  | (c, a) :: l, b, h, hb, hs => by
    have ih := fun b' => edited_proper (l := l) (b := b') h.1 (fun p hp => hb p (List.mem_cons_of_mem _ hp)) hs.1
    obtain ⟨p, hn, h1, h2, h3, h4⟩ := h
    have hm : ∀ b', headMark m (tidied (edited b' l)) = headMark m (l.map (·.1)) :=
      fun b' => edited_headMark p
    -- behind whitespace
    have hnext : c.kind = .TK_WHITESPACE → startsWs (cellText (tidied (edited false l))) = false := by
      intro hk
      rw [tidied_text]
      cases l with
      | nil => rfl
      | cons x l =>
        obtain ⟨d, a'⟩ := x
        have e : edited false ((d, a') :: l) = d :: edited (d.kind == .TK_LINE_BREAK) l := by
          rcases edited_cases false d a' l with ⟨_, e⟩ | ⟨h, _⟩ | ⟨h, _⟩
          · exact e
          · cases h
          · cases h
        rw [e, cellText_cons]
        have hd : (d.kind == .TK_WHITESPACE) = false := by
          rw [← (Proper.starts p).1]
          exact (h1 hk).2
        rcases kind_cases d with hd' | hd' | hd'
        · rw [hd'] at hd; cases hd
        · exact (lb_starts p.2.1 (p.2.2.2.1 hd').1).1
        · have := hs.1.2 hd'
          rw [kind_ne_lb hd']
          exact (startsBlank_false this).1
    have hc : ∀ n, (∀ x ∈ n, isBlank x = true) → c.kind = .TK_WHITESPACE →
        Proper m (addCell ⟨.TK_WHITESPACE, n, c.mark⟩ (tidied (edited false l))) := by
      intro n hblank hk
      refine addCell_proper (ih _) (fun _ => ⟨hblank, hnext hk⟩) (fun h => by cases h) (fun h => by cases h)
        (fun _ => ?_)
      rw [hm]
      exact h4 (by rw [hk]; rfl)
    have one : Proper m (addCell c (tidied (edited (c.kind == .TK_LINE_BREAK) l))) := by
      refine addCell_proper (ih _) (fun hk => ⟨(h1 hk).1, ?_⟩) (fun hk => (h2 hk).1) (fun hk => ?_)
        (fun hk => ?_)
      · rw [hk]; exact hnext hk
      · rw [kind_ne_lb hk, tidied_text]
        exact hs.2 hk
      · rw [hm]; exact h4 hk
    rcases edited_cases b c a l with ⟨_, e⟩ | ⟨_, hk, n, ha, e⟩ | ⟨_, hk, n, ha, e⟩
    · rw [e]; exact one
    · rw [e]
      exact hc n (hb (c, a) List.mem_cons_self n ha) hk
    · rw [e, tidied_cons, tidied_cons]
      rw [kind_ne_lb hk] at one
      refine addCell_proper one (fun _ => ⟨hb (c, a) List.mem_cons_self n ha, ?_⟩) (fun h => by cases h)
        (fun h => by cases h) (fun _ => ?_)
      · rw [addCell_text, tidied_text]
        exact (startsBlank_false (hs.2 hk)).1
      · rw [addCell_token hk hn]
        rfl

/-! ## Indentation -/

/-- The whitespace at the beginning of a line that begins with the cell. -/
def Cell.lead (c : Cell M) : Text := if c.kind = .TK_WHITESPACE then c.text else []

/-- All lines are indented as wanted (where something is wanted). `b`: do the cells begin a line? -/
def Indented (want : M → Option Text) : Bool → List (Cell M) → Prop
  | _, [] => True
  | b, c :: l => (b = true → c.kind ≠ .TK_LINE_BREAK → ∀ e, want c.mark = some e → c.lead = e) ∧
      Indented want (c.kind == .TK_LINE_BREAK) l

/-- Edits that indent all lines as wanted, or delete the whitespace of an empty line. -/
def IndentEdits (want : M → Option Text) : Bool → List (Cell M × Option Text) → Prop
  | _, [] => True
  | b, (c, a) :: l =>
    (b = true → c.kind ≠ .TK_LINE_BREAK → ∀ e, want c.mark = some e →
      a = some e ∨ (a = none ∧ c.lead = e) ∨
      (c.kind = .TK_WHITESPACE ∧ a = some [] ∧ ∃ d ∈ l.head?, d.1.kind = .TK_LINE_BREAK)) ∧
    IndentEdits want (c.kind == .TK_LINE_BREAK) l

theorem addCell_lb {c : Cell M} {l : List (Cell M)} (hk : c.kind = .TK_LINE_BREAK) (hn : c.text ≠ []) :
    (∃ d r, l = d :: r ∧ d.kind = .TK_LINE_BREAK ∧
      addCell c l = ⟨.TK_LINE_BREAK, c.text ++ d.text, d.mark⟩ :: r) ∨
    ((∀ d ∈ l.head?, d.kind ≠ .TK_LINE_BREAK) ∧ addCell c l = c :: l) := by
  unfold addCell
  rw [if_neg hn, if_pos hk]
  cases l with
  | nil => exact .inr ⟨by simp, rfl⟩
  | cons d r =>
    dsimp only
    split
    · rename_i h; exact .inl ⟨d, r, rfl, h, rfl⟩
    · rename_i h; exact .inr ⟨by simpa using h, rfl⟩

theorem addCell_ws {c : Cell M} {l : List (Cell M)} (hk : c.kind = .TK_WHITESPACE) :
    addCell c l = if c.text = [] then l else c :: l := by
  unfold addCell
  split
  · rfl
  · rw [if_neg (by rw [hk]; exact fun h => by cases h)]

/-- The first of the edited cells, if the list does not begin a line and not with whitespace. -/
theorem edited_head {c : Cell M} {a : Option Text} {l : List (Cell M × Option Text)} (hn : c.text ≠ [])
    (hk : c.kind ≠ .TK_WHITESPACE) : ∃ d r, tidied (edited false ((c, a) :: l)) = d :: r ∧
      d.kind = c.kind ∧ (c.kind.isTrivia = false → d = c) := by
  rcases edited_cases false c a l with ⟨_, e⟩ | ⟨h, _⟩ | ⟨h, _⟩
  · rw [e, tidied_cons]
    rcases kind_cases c with h | h | h
    · exact absurd h hk
    · rcases addCell_lb h hn with ⟨d, r, _, _, e⟩ | ⟨_, e⟩
      · rw [e]; exact ⟨_, _, rfl, h.symm, fun h' => (by rw [h] at h'; cases h')⟩
      · rw [e]; exact ⟨_, _, rfl, rfl, fun _ => rfl⟩
    · rw [addCell_token h hn]; exact ⟨_, _, rfl, rfl, fun _ => rfl⟩
  · cases h
  · cases h

/-- After such edits all lines are indented as wanted. -/
theorem edited_indented {m : M} {want : M → Option Text} : ∀ {l : List (Cell M × Option Text)} {b : Bool},
    Proper m (l.map (·.1)) → IndentEdits want b l → Indented want b (tidied (edited b l))
  | [], b, _, _ => trivial
  | (c, a) :: l, b, h, ha => by
    have ih := edited_indented (l := l) h.1 ha.2
    have ha1 := ha.1
    obtain ⟨p, hn, h1, h2, h3, h4⟩ := h
    dsimp only at hn h1 h2 h3 h4
    rcases edited_cases b c a l with ⟨hor, e⟩ | ⟨rfl, hk, n, rfl, e⟩ | ⟨rfl, hk, n, rfl, e⟩
    · rw [e, tidied_cons]
      have self : b = true → c.kind ≠ .TK_LINE_BREAK → ∀ e, want c.mark = some e → c.lead = e := by
        intro hb hk x he
        rcases hor with rfl | rfl | h
        · rcases ha1 hb hk x he with h | h | ⟨_, h, _⟩
          · cases h
          · exact h.2
          · cases h
        · cases hb
        · exact absurd h hk
      by_cases hk : c.kind = .TK_LINE_BREAK
      · rw [hk] at ih
        rw [hk]
        rcases addCell_lb (l := tidied (edited true l)) hk hn with ⟨d, r, e1, e2, e3⟩ | ⟨_, e3⟩
        · rw [show (SyntaxKind.TK_LINE_BREAK == SyntaxKind.TK_LINE_BREAK) = true from rfl] at ih ⊢
          rw [e3]
          rw [e1] at ih
          refine ⟨fun _ h => absurd rfl h, ?_⟩
          have := ih.2
          rw [e2] at this
          exact this
        · rw [show (SyntaxKind.TK_LINE_BREAK == SyntaxKind.TK_LINE_BREAK) = true from rfl] at ih ⊢
          rw [e3]
          refine ⟨fun _ h => absurd hk h, ?_⟩
          rw [hk]; exact ih
      · have : addCell c (tidied (edited (c.kind == .TK_LINE_BREAK) l)) =
            c :: tidied (edited (c.kind == .TK_LINE_BREAK) l) := by
          unfold addCell
          rw [if_neg hn, if_neg hk]
        rw [this]
        exact ⟨self, ih⟩
    · rw [e, tidied_cons, addCell_ws rfl]
      have hlb : (c.kind == .TK_LINE_BREAK) = false := by rw [hk]; rfl
      rw [hlb] at ih
      dsimp only
      split
      · rename_i hn0
        subst hn0
        -- the whitespace vanishes
        cases l with
        | nil => trivial
        | cons x l =>
          obtain ⟨d, a'⟩ := x
          have hd : (d.kind == .TK_WHITESPACE) = false := by
            rw [← (Proper.starts p).1]
            exact (h1 hk).2
          have hd' : d.kind ≠ .TK_WHITESPACE := by simpa using hd
          obtain ⟨d', r, e1, e2, e3⟩ := edited_head (a := a') (l := l) (c := d) p.2.1 hd'
          rw [e1] at ih ⊢
          refine ⟨fun _ hlb' x he => ?_, ih.2⟩
          rw [e2] at hlb'
          have ht : d.kind.isTrivia = false := by
            cases h : d.kind.isTrivia with
            | false => rfl
            | true => rcases trivia_cases h with h | h
                      · exact absurd h hd'
                      · exact absurd h hlb'
          have hdd := e3 ht
          subst hdd
          have hm : c.mark = d'.mark := h4 (by rw [hk]; rfl)
          rw [← hm] at he
          have hl0 : d'.lead = [] := by unfold Cell.lead; rw [if_neg hd']
          rw [hl0]
          rcases ha1 rfl (by rw [hk]; exact fun h => by cases h) x he with h | h | ⟨_, _, q, hq, h⟩
          · simpa using h
          · cases h.1
          · cases hq
            exact absurd h hlb'
      · rename_i hn0
        refine ⟨fun _ _ e he => ?_, ih⟩
        have hl : (⟨.TK_WHITESPACE, n, c.mark⟩ : Cell M).lead = n := rfl
        rw [hl]
        rcases ha1 rfl (by rw [hk]; exact fun h => by cases h) e he with h | h | ⟨_, h, _⟩
        · simpa using h
        · cases h.1
        · exact absurd (Option.some.inj h) hn0
    · rw [e, tidied_cons, tidied_cons, addCell_ws rfl, addCell_token hk hn]
      have hlb := kind_ne_lb hk
      rw [hlb] at ih
      have hne : n = [] → ∀ e, want c.mark = some e → e = [] := by
        rintro rfl e he
        rcases ha1 rfl (by intro h; rw [h] at hk; cases hk) e he with h | h | ⟨h, _⟩
        · simpa using h.symm
        · cases h.1
        · rw [h] at hk; cases hk
      have hl0 : c.lead = [] := by
        unfold Cell.lead; rw [if_neg (by intro h; rw [h] at hk; cases hk)]
      dsimp only
      split
      · rename_i hn0
        refine ⟨fun _ _ e he => ?_, by rw [hlb]; exact ih⟩
        rw [hl0, hne hn0 e he]
      · rename_i hn0
        refine ⟨fun _ _ e he => ?_, fun h => (by cases h), by rw [hlb]; exact ih⟩
        have hl : (⟨.TK_WHITESPACE, n, c.mark⟩ : Cell M).lead = n := rfl
        rw [hl]
        rcases ha1 rfl (by intro h; rw [h] at hk; cases hk) e he with h | h | ⟨h, _⟩
        · simpa using h
        · cases h.1
        · rw [h] at hk; cases hk

/-! ## Empty lines -/

/-- Do the cells begin with a line break? -/
def headLb : List (Cell M) → Bool
  | [] => false
  | c :: _ => c.kind == .TK_LINE_BREAK

/-- No line is of whitespace only, except where the rule is off: `off` because of what is around the
line break before the line, `first` for a line break directly behind a cell that is no whitespace.
`on`: is a line break before the cells for which the rule is not off? `q`: is a cell before them that is
no whitespace and no line break? -/
def NoBlank (off first : M → Bool) : Bool → Bool → List (Cell M) → Prop
  | _, _, [] => True
  | on, q, c :: l => (on && c.kind == .TK_WHITESPACE && headLb l) = false ∧
      NoBlank off first (c.kind == .TK_LINE_BREAK && !(off c.mark || (q && first c.mark))) c.solid l

/-- Edits that delete exactly the whitespace of such lines, and do nothing else. -/
def BlankFixes (off first : M → Bool) : Bool → Bool → List (Cell M × Option Text) → Prop
  | _, _, [] => True
  | on, q, (c, a) :: l =>
    a = (if on && c.kind == .TK_WHITESPACE && headLb (l.map (·.1)) then some [] else none) ∧
    BlankFixes off first (c.kind == .TK_LINE_BREAK && !(off c.mark || (q && first c.mark))) c.solid l

theorem noBlank_lb {off first : M → Bool} {on on' q : Bool} {l : List (Cell M)} (hl : headLb l = true)
    (h : NoBlank off first on q l) : NoBlank off first on' q l := by
  cases l with
  | nil => trivial
  | cons c l =>
    have hk : c.kind = .TK_LINE_BREAK := by simpa [headLb] using hl
    exact ⟨by rw [hk]; simp, h.2⟩

theorem headLb_starts {m : M} {l : List (Cell M)} (h : Proper m l) : startsLb (cellText l) = headLb l := by
  cases l with
  | nil => rfl
  | cons c l => exact h.starts.2

/-- What begins with a line break afterwards. -/
theorem fixes_headLb {m : M} {off first : M → Bool} {on q : Bool} {l : List (Cell M × Option Text)} {b : Bool}
    (p : Proper m (l.map (·.1))) (h : BlankFixes off first on q l)
    (hl : headLb (tidied (edited b l)) = true) : on = true ∨ headLb (l.map (·.1)) = true := by
  cases l with
  | nil => cases hl
  | cons x l =>
    obtain ⟨c, a⟩ := x
    cases on with
    | true => exact .inl rfl
    | false =>
      have ha : a = none := by simpa using h.1
      subst ha
      refine .inr ?_
      rcases edited_cases b c none l with ⟨_, e⟩ | ⟨_, _, n, h, _⟩ | ⟨_, _, n, h, _⟩
      · rw [e, tidied_cons] at hl
        by_cases hk : c.kind = .TK_LINE_BREAK
        · simpa [headLb] using hk
        · have hn : c.text ≠ [] := p.2.1
          unfold addCell at hl
          rw [if_neg hn, if_neg hk] at hl
          exact hl
      · cases h
      · cases h

/-- After such edits no line is of whitespace only, except where the rule is off. -/
theorem edited_noBlank {m : M} {off first : M → Bool} : ∀ {l : List (Cell M × Option Text)} {b on q : Bool},
    Proper m (l.map (·.1)) → (on = true → b = true) → (on = true → q = false) →
    BlankFixes off first on q l → NoBlank off first on q (tidied (edited b l))
  | [], b, on, q, _, _, _, _ => trivial
  | (c, a) :: l, b, on, q, h, hob, hoq, hf => by
    obtain ⟨ha, hf⟩ := hf
    have h0 := h
    obtain ⟨p, hn, h1, h2, h3, h4⟩ := h
    dsimp only at hn h1 h2 h3 h4
    by_cases hdel : (on && c.kind == .TK_WHITESPACE && headLb (l.map (·.1))) = true
    · -- deleted
      rw [if_pos hdel] at ha
      subst ha
      simp only [Bool.and_eq_true, beq_iff_eq] at hdel
      obtain ⟨⟨hon, hk⟩, hlb⟩ := hdel
      subst hon
      have hb := hob rfl
      have hq := hoq rfl
      subst hb hq
      have ih := edited_noBlank (l := l) (b := false) p (fun h => by rw [hk] at h; cases h)
        (fun h => by rw [hk] at h; cases h) hf
      rcases edited_cases true c (some []) l with ⟨h | h | h, _⟩ | ⟨_, _, n, hs, e⟩ | ⟨_, h, _⟩
      · cases h
      · cases h
      · rw [hk] at h; cases h
      · cases hs
        rw [e, tidied_cons, addCell_ws rfl, if_pos rfl]
        have hs0 : c.solid = false := by simp [Cell.solid, hk, SyntaxKind.isTrivia]
        rw [hs0] at ih
        refine noBlank_lb ?_ ih
        cases l with
        | nil => cases hlb
        | cons x l =>
          obtain ⟨d, a'⟩ := x
          have hd : d.kind = .TK_LINE_BREAK := by simpa [headLb] using hlb
          obtain ⟨d', r, e1, e2, _⟩ := edited_head (c := d) (a := a') (l := l) p.2.1
            (by rw [hd]; exact fun h => by cases h)
          rw [e1]
          simp [headLb, e2, hd]
      · rw [hk] at h; cases h
    · have hdel' : (on && c.kind == .TK_WHITESPACE && headLb (l.map (·.1))) = false := by simpa using hdel
      rw [if_neg hdel] at ha
      subst ha
      have e : edited b ((c, none) :: l) = c :: edited (c.kind == .TK_LINE_BREAK) l := by
        rcases edited_cases b c none l with ⟨_, e⟩ | ⟨_, _, n, h, _⟩ | ⟨_, _, n, h, _⟩
        · exact e
        · cases h
        · cases h
      rw [e, tidied_cons]
      have ih := edited_noBlank (l := l) (b := c.kind == .TK_LINE_BREAK) p
        (fun h => by simp only [Bool.and_eq_true] at h; exact h.1)
        (fun h => by
          simp only [Bool.and_eq_true, beq_iff_eq] at h
          simp [Cell.solid, h.1, SyntaxKind.isTrivia]) hf
      rcases kind_cases c with hk | hk | hk
      · rw [addCell_ws hk, if_neg hn]
        refine ⟨?_, ih⟩
        rw [hk] at hdel' ih ⊢
        cases on with
        | false => rfl
        | true =>
          have hl0 : headLb (l.map (·.1)) = false := by simpa using hdel'
          cases hx : headLb (tidied (edited false l)) with
          | false => rw [show (SyntaxKind.TK_WHITESPACE == SyntaxKind.TK_LINE_BREAK) = false from rfl, hx]; rfl
          | true =>
            exfalso
            rw [hk] at hf
            rcases fixes_headLb (m := m) p hf hx with h | h
            · cases h
            · rw [hl0] at h; cases h
      · rcases addCell_lb (l := tidied (edited (c.kind == .TK_LINE_BREAK) l)) hk hn with ⟨d, r, e1, e2, e3⟩ | ⟨_, e3⟩
        · rw [e3]
          refine ⟨by simp, ?_⟩
          have hmark : d.mark = c.mark := by
            have := edited_headMark (m := m) (b := c.kind == .TK_LINE_BREAK) p
            rw [e1] at this
            rw [h4 (by rw [hk]; rfl), ← this]; rfl
          have hc0 : c.solid = false := by simp [Cell.solid, hk, SyntaxKind.isTrivia]
          have hd0 : d.solid = false := by simp [Cell.solid, e2, SyntaxKind.isTrivia]
          have hact : (c.kind == .TK_LINE_BREAK && !(off c.mark || (q && first c.mark))) = true := by
            rcases fixes_headLb (m := m) (b := c.kind == .TK_LINE_BREAK) p hf (by rw [e1]; simp [headLb, e2]) with h | h
            · exact h
            · exfalso
              have := (h2 hk).2
              rw [headLb_starts p, h] at this
              cases this
          rw [e1] at ih
          have ih2 := ih.2
          rw [hc0, hd0, e2, hmark] at ih2
          show NoBlank off first (_ && !(off d.mark || (q && first d.mark))) false r
          rw [hmark]
          rw [hk] at hact
          rw [hact]
          have : off c.mark = false := by
            cases ho : off c.mark with
            | false => rfl
            | true => rw [ho] at hact; simp at hact
          rw [this] at ih2
          simpa using ih2
        · rw [e3]
          exact ⟨by rw [hk]; simp, ih⟩
      · rw [addCell_token hk hn]
        have : (c.kind == .TK_WHITESPACE) = false := by
          cases hw : c.kind == .TK_WHITESPACE with
          | false => rfl
          | true => rw [beq_iff_eq] at hw; rw [hw] at hk; cases hk
        exact ⟨by rw [this]; simp, ih⟩

/-- Such edits of cells that are indented as wanted keep them indented as wanted. -/
theorem fixes_indent {want : M → Option Text} {off first : M → Bool} :
    ∀ {l : List (Cell M × Option Text)} {b on q : Bool}, Indented want b (l.map (·.1)) →
    BlankFixes off first on q l → IndentEdits want b l
  | [], b, on, q, _, _ => trivial
  | (c, a) :: l, b, on, q, h, hf => by
    refine ⟨fun hb hk e he => ?_, fixes_indent h.2 hf.2⟩
    have := h.1 hb hk e he
    have ha := hf.1
    by_cases hdel : (on && c.kind == .TK_WHITESPACE && headLb (l.map (·.1))) = true
    · rw [if_pos hdel] at ha
      simp only [Bool.and_eq_true, beq_iff_eq] at hdel
      refine .inr (.inr ⟨hdel.1.2, ha, ?_⟩)
      cases l with
      | nil => have := hdel.2; cases this
      | cons x l => exact ⟨x, rfl, by simpa [headLb] using hdel.2⟩
    · rw [if_neg hdel] at ha
      exact .inr (.inl ⟨ha, this⟩)

/-- Deleting the whitespace of such lines in a file that is indented as wanted. -/
theorem edited_blanks {m : M} {want : M → Option Text} {off first : M → Bool}
    {l : List (Cell M × Option Text)} (p : Proper m (l.map (·.1))) (hi : Indented want true (l.map (·.1)))
    (hf : BlankFixes off first false false l) :
    Indented want true (tidied (edited true l)) ∧ NoBlank off first false false (tidied (edited true l)) :=
  ⟨edited_indented p (fixes_indent hi hf), edited_noBlank p (fun h => by cases h) (fun h => by cases h) hf⟩

end Ludtwig.Layout
