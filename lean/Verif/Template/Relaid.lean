import Verif.Template.Relay
import Verif.Template.Props

/-!
# A template in another layout (proof device for C79)

Whitespace and line breaks between the tokens of a template may change where the layout rules change
them: the file stays a template, with the same tree.
-/

namespace Ludtwig.Template

open Lexer Layout

variable {t : Token} {u : List Token} {xs : List Tree}

/-! ## All tokens stay -/

theorem fits_plain {C : Change} (h : Strs u xs) : (∀ t ∈ u, C.Plain t ∧ t.text ≠ []) → Fits C u xs := by
  induction h with
  | nil => exact fun _ => .nil
  | tok _ ih => exact fun hu => .tok (hu _ (by simp)).1 (hu _ (by simp)).2 (ih (fun t ht => hu t (by simp [ht])))
  | two _ _ ih =>
    exact fun hu => .two (hu _ (by simp)).1 (hu _ (by simp)).1 (hu _ (by simp)).2 (hu _ (by simp)).2 (ih (fun t ht => hu t (by simp [ht])))
  | node hk _ ih =>
    exact fun hu => .node (fun h => hk (by rw [h]; decide)) (fun h => hk (by rw [h]; decide)) (ih hu)
  | twig _ _ _ _ _ ih1 ih2 =>
    exact fun hu => .twig (.inl ⟨(hu _ (by simp)).1, (hu _ (by simp)).1⟩) (hu _ (by simp)).2 (hu _ (by simp)).2
      (ih1 (fun t ht => hu t (by simp [ht]))) (ih2 (fun t ht => hu t (by simp [ht])))
  | html _ _ _ _ ih1 ih2 =>
    exact fun hu => .html (.inl ⟨(hu _ (by simp)).1, (hu _ (by simp)).1⟩) (hu _ (by simp)).2 (hu _ (by simp)).2
      (ih1 (fun t ht => hu t (by simp [ht]))) (ih2 (fun t ht => hu t (by simp [ht])))
  | word _ _ _ ih =>
    exact fun hu => .tok (hu _ (by simp)).1 (hu _ (by simp)).2
      (.word (hu _ (by simp)).2 (.inl (hu _ (by simp)).1) (ih (fun t ht => hu t (by simp [ht]))))
  | var _ _ _ _ _ _ ih1 ih2 =>
    exact fun hu => .tok (hu _ (by simp)).1 (hu _ (by simp)).2
      (.var (hu _ (by simp)).2 (hu _ (by simp)).2 (.inl ⟨(hu _ (by simp)).1, (hu _ (by simp)).1⟩)
        (ih1 (fun t ht => hu t (by simp [ht]))) (ih2 (fun t ht => hu t (by simp [ht]))))

/-! ## Old and new offsets -/

/-- Pairs of old and new offsets: different offsets stay different. -/
def OneToOne (L : List (Nat × Nat)) : Prop := ∀ p ∈ L, ∀ q ∈ L, p.1 = q.1 ↔ p.2 = q.2

/-- The tokens `u` of the file `toks` are the tokens `u'` of the file `toks'`, at the offsets that `L` says. -/
inductive Tracks (toks toks' : List Token) (L : List (Nat × Nat)) : List Token → List Token → Prop
  | nil : Tracks toks toks' L [] []
  | cons {t t' u u'} : SameTok t t' → (t.range.start, t'.range.start) ∈ L → (t.range.stop, t'.range.stop) ∈ L →
      (t.kind = T!"<" → (BlankAt toks t.range.stop ↔ BlankAt toks' t'.range.stop)) → Tracks toks toks' L u u' →
      Tracks toks toks' L (t :: u) (t' :: u')

theorem Tracks.mono {toks toks' ts ts' : List Token} {L M : List (Nat × Nat)} {u u' : List Token} {a a' : Nat} (h : Tracks toks toks' L u u')
    (hL : ∀ p ∈ L, a ≤ p.1 ∧ a' ≤ p.2) (hM : ∀ p ∈ L, p ∈ M)
    (hb : ∀ n, a ≤ n → (BlankAt ts n ↔ BlankAt toks n)) (hb' : ∀ n, a' ≤ n → (BlankAt ts' n ↔ BlankAt toks' n)) : Tracks ts ts' M u u' := by
  induction h with
  | nil => exact .nil
  | cons h1 h2 h3 h4 _ ih =>
    refine .cons h1 (hM _ h2) (hM _ h3) (fun hk => ?_) ih
    rw [hb _ (hL _ h3).1, hb' _ (hL _ h3).2]
    exact h4 hk

theorem contiguous_le {a e : Nat} {ts : List Token} (h : Contiguous a ts e) : ∀ t ∈ ts, a ≤ t.range.start ∧ t.range.stop ≤ e := by
  induction h with
  | nil => intro t ht; cases ht
  | @cons a b t ts h1 h2 h3 ih =>
    intro t' ht'
    have hb : t.range.stop ≤ b := by
      cases h3 with
      | nil => exact Nat.le_refl _
      | @cons _ _ t2 ts2 g1 g2 g3 =>
        have := (ih t2 (by simp))
        omega
    rcases List.mem_cons.1 ht' with rfl | ht'
    · exact ⟨by omega, hb⟩
    · have := ih t' ht'
      exact ⟨by omega, this.2⟩

theorem contiguous_parts {ts us : List Token} : ∀ {a e : Nat}, Contiguous a (ts ++ us) e → ∃ m, Contiguous a ts m ∧ Contiguous m us e := by
  induction ts with
  | nil => exact fun {a e} h => ⟨a, .nil a, h⟩
  | cons t ts ih =>
    intro a e h
    cases h with
    | cons h1 h2 h3 =>
      obtain ⟨m, g1, g2⟩ := ih h3
      exact ⟨m, .cons h1 h2 g1, g2⟩

theorem contiguous_lt {a e : Nat} {ts : List Token} (h : Contiguous a ts e) (hne : ∀ t ∈ ts, t.text ≠ []) :
    (∀ t ∈ ts, t.range.start < e) ∧ (ts ≠ [] → a < e) := by
  have key : ∀ t ∈ ts, t.range.start < e := by
    intro t ht
    have h1 := (contiguous_le h t ht).2
    obtain ⟨l, r, rfl⟩ := List.append_of_mem ht
    obtain ⟨m, _, h2⟩ := contiguous_parts h
    cases h2 with
    | cons g1 g2 _ =>
      have := byteLen_pos (hne t (by simp))
      omega
  refine ⟨key, fun hn => ?_⟩
  cases ts with
  | nil => exact absurd rfl hn
  | cons t ts =>
    have := key t (by simp)
    cases h with
    | cons h1 _ _ => omega

theorem blank_behind {gs ts : List Token} {a : Nat} (h : ∀ t ∈ gs, t.range.start < a) (n : Nat) (hn : a ≤ n) :
    BlankAt (gs ++ ts) n ↔ BlankAt ts n := by
  constructor
  · rintro ⟨t, ht, h1, h2⟩
    rcases List.mem_append.1 ht with ht | ht
    · have := h t ht; omega
    · exact ⟨t, ht, h1, h2⟩
  · rintro ⟨t, ht, h1, h2⟩
    exact ⟨t, List.mem_append_right _ ht, h1, h2⟩

theorem blank_head {ts : List Token} {a e : Nat} (h : Contiguous a ts e) (hne : ∀ t ∈ ts, t.text ≠ []) :
    BlankAt ts a ↔ ts.head?.map (·.kind) = some T!"ws" := by
  cases ts with
  | nil => simp [BlankAt]
  | cons t ts =>
    cases h with
    | cons h1 h2 h3 =>
      have hp := byteLen_pos (hne t (by simp))
      constructor
      · rintro ⟨t', ht', k1, k2⟩
        rcases List.mem_cons.1 ht' with rfl | ht'
        · simp [k1]
        · have := (contiguous_le h3 t' ht').1
          omega
      · intro hk
        exact ⟨t, by simp, by simpa using hk, h1⟩

theorem oneToOne_cons {L : List (Nat × Nat)} {a a' b b' : Nat} (h : OneToOne L) (hL : ∀ p ∈ L, b ≤ p.1 ∧ b' ≤ p.2) (hb : a < b) (hb' : a' < b') :
    OneToOne ((a, a') :: L) := by
  intro p hp q hq
  rcases List.mem_cons.1 hp with rfl | hp <;> rcases List.mem_cons.1 hq with rfl | hq
  · exact ⟨fun _ => rfl, fun _ => rfl⟩
  · have := hL q hq; dsimp only; constructor <;> intro <;> omega
  · have := hL p hp; dsimp only; constructor <;> intro <;> omega
  · exact h p hp q hq

/-- The tokens of a file in another layout. -/
theorem relayout_tracks {ts ts' : List Token} (h : Relayout ts ts') : ∀ {a e a' e' : Nat}, Contiguous a ts e → Contiguous a' ts' e' →
    (∀ t ∈ ts, t.text ≠ []) → (∀ t ∈ ts', t.text ≠ []) →
    ∃ L, (a, a') ∈ L ∧ (∀ p ∈ L, a ≤ p.1 ∧ a' ≤ p.2) ∧ OneToOne L ∧
      Tracks ts ts' L (ts.filter (fun t => !t.kind.isTrivia)) (ts'.filter (fun t => !t.kind.isTrivia)) := by
  induction h with
  | nil =>
    intro a e a' e' _ _ _ _
    refine ⟨[(a, a')], by simp, by simp, ?_, .nil⟩
    intro p hp q hq
    simp only [List.mem_singleton] at hp hq
    subst hp hq
    exact ⟨fun _ => rfl, fun _ => rfl⟩
  | @token t t' ts ts' hk hs hh _ ih =>
    intro a e a' e' hc hc' hne hne'
    cases hc with
    | cons h1 h2 h3 =>
      cases hc' with
      | cons h1' h2' h3' =>
        have hn := fun t ht => hne t (List.mem_cons_of_mem _ ht)
        have hn' := fun t ht => hne' t (List.mem_cons_of_mem _ ht)
        have hp := byteLen_pos (hne t (by simp))
        have hp' := byteLen_pos (hne' t' (by simp))
        obtain ⟨L, g1, g2, g3, g4⟩ := ih h3 h3' hn hn'
        have hk' : t'.kind.isTrivia = false := hs.1 ▸ hk
        have hb : ∀ n, t.range.stop ≤ n → (BlankAt (t :: ts) n ↔ BlankAt ts n) :=
          fun n hn => blank_behind (gs := [t]) (a := t.range.stop) (by simp; omega) n hn
        have hb' : ∀ n, t'.range.stop ≤ n → (BlankAt (t' :: ts') n ↔ BlankAt ts' n) :=
          fun n hn => blank_behind (gs := [t']) (a := t'.range.stop) (by simp; omega) n hn
        refine ⟨(a, a') :: L, by simp, ?_, oneToOne_cons g3 g2 (by omega) (by omega), ?_⟩
        · intro p hp
          rcases List.mem_cons.1 hp with rfl | hp
          · exact ⟨Nat.le_refl _, Nat.le_refl _⟩
          · have := g2 p hp
            omega
        · rw [List.filter_cons_of_pos (by simp [hk]), List.filter_cons_of_pos (by simp [hk'])]
          refine .cons hs (by rw [h1, h1']; simp) (List.mem_cons_of_mem _ g1) (fun hlt => ?_)
            (g4.mono g2 (fun p hp => List.mem_cons_of_mem _ hp) hb hb')
          rw [hb _ (Nat.le_refl _), hb' _ (Nat.le_refl _), blank_head h3 hn, blank_head h3' hn', hh hlt]
  | @gap g g' ts ts' hg hg' _ _ _ ih =>
    intro a e a' e' hc hc' hne hne'
    obtain ⟨m, c1, c2⟩ := contiguous_parts hc
    obtain ⟨m', c1', c2'⟩ := contiguous_parts hc'
    have hn := fun t ht => hne t (List.mem_append_right _ ht)
    have hn' := fun t ht => hne' t (List.mem_append_right _ ht)
    obtain ⟨l1, l2⟩ := contiguous_lt c1 (fun t ht => hne t (List.mem_append_left _ ht))
    obtain ⟨l1', l2'⟩ := contiguous_lt c1' (fun t ht => hne' t (List.mem_append_left _ ht))
    have l2 := l2 hg.1
    have l2' := l2' hg'.1
    obtain ⟨L, g1, g2, g3, g4⟩ := ih c2 c2' hn hn'
    refine ⟨(a, a') :: L, by simp, ?_, oneToOne_cons g3 g2 (by omega) (by omega), ?_⟩
    · intro p hp
      rcases List.mem_cons.1 hp with rfl | hp
      · exact ⟨Nat.le_refl _, Nat.le_refl _⟩
      · have := g2 p hp
        omega
    · have e1 : g.filter (fun t => !t.kind.isTrivia) = [] := List.filter_eq_nil_iff.2 (fun t ht => by simp [(hg.2 t ht).1])
      have e2 : g'.filter (fun t => !t.kind.isTrivia) = [] := List.filter_eq_nil_iff.2 (fun t ht => by simp [(hg'.2 t ht).1])
      rw [List.filter_append, List.filter_append, e1, e2]
      exact g4.mono g2 (fun p hp => List.mem_cons_of_mem _ hp) (blank_behind l1) (blank_behind l1')

/-! ## The new places -/

theorem above (L : List (Nat × Nat)) : ∃ M, ∀ p ∈ L, p.2 < M := by
  induction L with
  | nil => exact ⟨0, by simp⟩
  | cons p L ih =>
    obtain ⟨M, hM⟩ := ih
    refine ⟨max M (p.2 + 1), fun q hq => ?_⟩
    rcases List.mem_cons.1 hq with rfl | hq
    · omega
    · have := hM q hq
      omega

/-- The offsets can be changed like this without mixing them up. -/
theorem offsets {L : List (Nat × Nat)} (h : OneToOne L) : ∃ f : Nat → Nat, (∀ a b, f a = f b ↔ a = b) ∧ ∀ p ∈ L, f p.1 = p.2 := by
  obtain ⟨M, hM⟩ := above L
  have hfind : ∀ p ∈ L, ∃ q ∈ L, L.find? (fun q => decide (q.1 = p.1)) = some q ∧ q.1 = p.1 := by
    intro p hp
    cases hf : L.find? (fun q => decide (q.1 = p.1)) with
    | none => exact absurd (List.find?_eq_none.1 hf p hp) (by simp)
    | some q =>
      exact ⟨q, List.mem_of_find?_eq_some hf, rfl, by simpa using List.find?_some hf⟩
  refine ⟨fun n => match L.find? (fun q => decide (q.1 = n)) with
    | some q => q.2
    | none => M + n, ?_, ?_⟩
  · intro a b
    refine ⟨fun hab => ?_, fun hab => hab ▸ rfl⟩
    dsimp only at hab
    cases ha : L.find? (fun q => decide (q.1 = a)) with
    | none =>
      cases hb : L.find? (fun q => decide (q.1 = b)) with
      | none => rw [ha, hb] at hab; dsimp only at hab; omega
      | some q =>
        rw [ha, hb] at hab
        have := hM q (List.mem_of_find?_eq_some hb)
        dsimp only at hab
        omega
    | some p =>
      have hp := List.mem_of_find?_eq_some ha
      have pa : p.1 = a := by simpa using List.find?_some ha
      cases hb : L.find? (fun q => decide (q.1 = b)) with
      | none =>
        rw [ha, hb] at hab
        have := hM p hp
        dsimp only at hab
        omega
      | some q =>
        rw [ha, hb] at hab
        dsimp only at hab
        have qb : q.1 = b := by simpa using List.find?_some hb
        rw [← pa, ← qb]
        exact (h p hp q (List.mem_of_find?_eq_some hb)).2 hab
  · intro p hp
    obtain ⟨q, hq, h1, h2⟩ := hfind p hp
    dsimp only
    rw [h1]
    exact (h q hq p hp).1 h2

/-- All tokens stay, at new places. -/
def shift (f : Nat → Nat) : Change where
  place t := ⟨f t.range.start, f t.range.stop⟩
  image t := [{ t with range := ⟨f t.range.start, f t.range.stop⟩ }]

theorem tracks_shift {toks toks' : List Token} {L : List (Nat × Nat)} {f : Nat → Nat} {u u' : List Token} (hf : ∀ p ∈ L, f p.1 = p.2)
    (h : Tracks toks toks' L u u') : (shift f).all u = u' ∧
      (∀ t' ∈ u', ∃ t ∈ u, f t.range.stop = t'.range.stop ∧
        (t'.kind = T!"<" → (BlankAt toks t.range.stop ↔ BlankAt toks' t'.range.stop))) := by
  induction h with
  | nil => exact ⟨rfl, by simp⟩
  | @cons t t' u u' h1 h2 h3 h4 _ ih =>
    have e1 : ({ t with range := ⟨f t.range.start, f t.range.stop⟩ } : Token) = t' := by
      obtain ⟨k, x, r⟩ := t
      obtain ⟨k', x', r'⟩ := t'
      obtain ⟨hk, hx⟩ := h1
      dsimp only at hk hx h2 h3 ⊢
      subst hk hx
      rw [hf _ h2, hf _ h3]
    refine ⟨?_, ?_⟩
    · show [_] ++ _ = _
      rw [e1]
      exact congrArg (t' :: ·) ih.1
    · intro s hs
      rcases List.mem_cons.1 hs with rfl | hs
      · exact ⟨t, by simp, hf _ h3, fun hk => h4 (h1.1.trans hk)⟩
      · obtain ⟨t2, k1, k2⟩ := ih.2 s hs
        exact ⟨t2, by simp [k1], k2⟩

theorem shift_ok {f : Nat → Nat} (hf : ∀ a b, f a = f b ↔ a = b) (blank : Nat → Prop) :
    (shift f).Ok blank (fun m => ∃ n, f n = m ∧ blank n) where
  images := fun t => .plain rfl
  adjacent := fun _ _ _ => hf _ _
  blanks := by
    intro t _ _
    constructor
    · rintro ⟨n, h1, h2⟩
      rw [← (hf _ _).1 h1]
      exact h2
    · exact fun h => ⟨_, rfl, h⟩

theorem tracks_template {toks toks' : List Token} {L : List (Nat × Nat)} (h1 : OneToOne L)
    (h : Tracks toks toks' L (toks.filter (fun t => !t.kind.isTrivia)) (toks'.filter (fun t => !t.kind.isTrivia)))
    (hne : ∀ t ∈ toks, t.text ≠ []) (ht : T (BlankAt toks) (.body .element) (toks.filter (fun t => !t.kind.isTrivia)) xs) :
    ∃ xs', T (BlankAt toks') (.body .element) (toks'.filter (fun t => !t.kind.isTrivia)) xs' := by
  obtain ⟨f, f1, f2⟩ := offsets h1
  obtain ⟨e1, e2⟩ := tracks_shift f2 h
  obtain ⟨xs', h2, _⟩ := body_requoted (shift_ok f1 (BlankAt toks)) ht
    (fits_plain (sound ht) (fun t ht => ⟨rfl, hne t (List.mem_filter.1 ht).1⟩))
  rw [e1] at h2
  refine ⟨xs', h2.congr ?_⟩
  intro t' ht' hk
  obtain ⟨t, _, k1, k2⟩ := e2 t' ht'
  rw [← k2 hk]
  constructor
  · rintro ⟨n, n1, n2⟩
    rw [← k1] at n1
    rw [← (f1 _ _).1 n1]
    exact n2
  · exact fun hb => ⟨_, k1, hb⟩

/-! ## Texts -/

/-- The tokens of a text behind whitespace. -/
theorem leading_tracks {errLen : Text → Nat} (he : ErrLenOk errLen) (hl : ErrLineLocal errLen) {s s' : Text} (h : Reindented s s') :
    ∃ L, OneToOne L ∧ Tracks (lex errLen s) (lex errLen s') L ((lex errLen s).filter (fun t => !t.kind.isTrivia))
      ((lex errLen s').filter (fun t => !t.kind.isTrivia)) := by
  obtain ⟨g, g', t, t', rfl, rfl, hg, hg', ht, ht', hr⟩ := h
  obtain ⟨gt, ts, e1, e2, e3⟩ := lex_leading (errLen := errLen) he hg ht
  obtain ⟨gt', ts', e1', e2', e3'⟩ := lex_leading (errLen := errLen) he hg' ht'
  have hrel := relayout_of_map (relaid_lex he hl hr) e3.symm e3'.symm
  obtain ⟨c1, _, c2⟩ := C02_lex_partition he (g ++ t)
  obtain ⟨c1', _, c2'⟩ := C02_lex_partition he (g' ++ t')
  rw [e1] at c1 c2
  rw [e1'] at c1' c2'
  obtain ⟨m, d1, d2⟩ := contiguous_parts c1
  obtain ⟨m', d1', d2'⟩ := contiguous_parts c1'
  obtain ⟨L, g1, g2, g3, g4⟩ := relayout_tracks hrel d2 d2' (fun t ht => c2 t (List.mem_append_right _ ht))
    (fun t ht => c2' t (List.mem_append_right _ ht))
  refine ⟨L, g3, ?_⟩
  rw [e1, e1']
  have f1 : gt.filter (fun t => !t.kind.isTrivia) = [] := List.filter_eq_nil_iff.2 (fun t ht => by simp [e2 t ht])
  have f2 : gt'.filter (fun t => !t.kind.isTrivia) = [] := List.filter_eq_nil_iff.2 (fun t ht => by simp [e2' t ht])
  rw [List.filter_append, List.filter_append, f1, f2]
  exact g4.mono g2 (fun _ h => h)
    (blank_behind (contiguous_lt d1 (fun t ht => c2 t (List.mem_append_left _ ht))).1)
    (blank_behind (contiguous_lt d1' (fun t ht => c2' t (List.mem_append_left _ ht))).1)

mutual
theorem strip_bare : ∀ t : Tree, t.strip = bare t
  | .token k s => by
    unfold Tree.strip bare
    cases k.isTrivia <;> rfl
  | .node k cs => by
    unfold Tree.strip bare
    rw [stripAll_bare cs]
theorem stripAll_bare : ∀ ts : List Tree, stripAll ts = bareAll ts
  | [] => by simp [stripAll, bareAll]
  | t :: ts => by
    rw [stripAll, bareAll, strip_bare t, stripAll_bare ts]
end

/-- A template in another layout is a template with the same tree. -/
theorem relaid_template {errLen : Text → Nat} (he : ErrLenOk errLen) (hl : ErrLineLocal errLen) {s s' : Text} (h : Reindented s s')
    {x : Tree} (hx : IsTemplate (lex errLen s) x) : IsTemplate (lex errLen s') x := by
  obtain ⟨L, h1, h2⟩ := leading_tracks he hl h
  obtain ⟨tree, p1, p2⟩ := C73_template_accepted he s hx
  obtain ⟨xs, ht, rfl⟩ := hx
  obtain ⟨xs', ht'⟩ := tracks_template h1 h2 (C02_lex_partition he s).2.2 ht
  have hx' : IsTemplate (lex errLen s') (.node .ROOT xs') := ⟨xs', ht', rfl⟩
  obtain ⟨tree', q1, q2⟩ := C73_template_accepted he s' hx'
  have hs := C68_relaid he hl h
  rw [p1, q1] at hs
  have := hs.1
  dsimp only at this
  rw [← strip_bare, ← strip_bare, p2, q2] at this
  simp only [List.cons.injEq, Tree.node.injEq, true_and, and_true] at this
  rw [this]
  exact hx'

end Ludtwig.Template
