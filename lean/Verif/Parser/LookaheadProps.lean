import Verif.Parser.Sink

/-!
# C12: lookahead ignores trivia
-/

namespace Ludtwig

/-- The tokens that are not trivia. -/
def significant (ts : List Token) : List Token := ts.filter (fun t => !t.kind.isTrivia)

theorem significant_dropTrivia (ts : List Token) : significant (dropTrivia ts) = significant ts := by
  induction ts with
  | nil => rfl
  | cons t ts ih =>
    unfold dropTrivia significant at *
    rw [List.dropWhile_cons]
    split
    · rename_i h; rw [ih]; simp [h]
    · rfl

/-- The remaining tokens after skipping trivia start with the first significant token. -/
theorem dropTrivia_cases (ts : List Token) :
    (significant ts = [] ∧ dropTrivia ts = []) ∨
    ∃ t v rest, significant ts = t :: v ∧ dropTrivia ts = t :: rest ∧ significant rest = v ∧
      rest.length < ts.length := by
  induction ts with
  | nil => exact .inl ⟨rfl, rfl⟩
  | cons t ts ih =>
    by_cases h : t.kind.isTrivia = true
    · have e1 : significant (t :: ts) = significant ts := by simp [significant, h]
      have e2 : dropTrivia (t :: ts) = dropTrivia ts := by simp [dropTrivia, h]
      rw [e1, e2]
      rcases ih with ih | ⟨x, v, rest, h1, h2, h3, h4⟩
      · exact .inl ih
      · exact .inr ⟨x, v, rest, h1, h2, h3, by simp; omega⟩
    · refine .inr ⟨t, significant ts, ts, ?_, ?_, rfl, by simp⟩
      · simp [significant, h]
      · simp [dropTrivia, h]

theorem head_dropTrivia (ts : List Token) : (dropTrivia ts).head? = (significant ts).head? := by
  rcases dropTrivia_cases ts with ⟨h1, h2⟩ | ⟨t, v, rest, h1, h2, _⟩ <;> simp [h1, h2]

theorem followKinds_iff (ks set : List SyntaxKind) : followKinds ks set = true ↔ set <+: ks := by
  induction set generalizing ks with
  | nil => simp [followKinds]
  | cons k set ih =>
    cases ks with
    | nil => simp [followKinds]
    | cons x ks =>
      simp only [followKinds]
      by_cases h : x = k
      · subst h
        rw [if_pos (by simp), ih, List.cons_prefix_cons]
        simp
      · rw [if_neg (by simp [h])]
        simp [List.cons_prefix_cons, Ne.symm h]

/-- Tokens of the given kinds and texts, at the start of a list of tokens. -/
inductive StartsWith : List Token → List (SyntaxKind × Option Text) → Prop
  | nil (ts) : StartsWith ts []
  | cons {t ts c set} : (∀ x, c = some x → t.text = x) → StartsWith ts set →
      StartsWith (t :: ts) ((t.kind, c) :: set)

theorem followContent_iff (ts : List Token) (set : List (SyntaxKind × Option Text)) :
    followContent ts set = true ↔ StartsWith ts set := by
  induction set generalizing ts with
  | nil => exact ⟨fun _ => .nil _, fun _ => by cases ts <;> rfl⟩
  | cons kc set ih =>
    obtain ⟨k, c⟩ := kc
    cases ts with
    | nil => exact ⟨fun h => by simp [followContent] at h, fun h => by cases h⟩
    | cons t ts =>
      simp only [followContent]
      constructor
      · intro h
        cases c with
        | none =>
          dsimp only at h
          split at h
          · rename_i hc
            simp only [Bool.and_true, beq_iff_eq] at hc
            subst hc
            exact .cons (by simp) ((ih ts).1 h)
          · exact absurd h (by simp)
        | some c =>
          dsimp only at h
          split at h
          · rename_i hc
            simp only [Bool.and_eq_true, beq_iff_eq] at hc
            obtain ⟨rfl, rfl⟩ := hc
            exact .cons (by simp) ((ih ts).1 h)
          · exact absurd h (by simp)
      · intro h
        cases h with
        | cons h1 h2 =>
          rw [if_pos, ih]
          · exact h2
          · cases c with
            | none => simp
            | some x => simp [h1 x rfl]

/-- Everything but the skipped trivia is as before. -/
def SameButTrivia (s s' : PState) : Prop :=
  s' = { s with rest := s'.rest } ∧ significant s'.rest = significant s.rest ∧ s'.rest <:+ s.rest

theorem sameButTrivia_drop (s : PState) : SameButTrivia s { s with rest := dropTrivia s.rest } :=
  ⟨rfl, significant_dropTrivia _, List.dropWhile_suffix _⟩

theorem peek_run (s : PState) :
    peek s = .ok ((significant s.rest).head?.map (·.kind), { s with rest := dropTrivia s.rest }) := by
  have e : peek s = .ok ((dropTrivia s.rest).head?.map (·.kind), { s with rest := dropTrivia s.rest }) :=
    rfl
  rw [e, head_dropTrivia]

/-- C12, `peek` and the checks of the next kind: the answer is the kind of the first token that is
not trivia. -/
theorem C12_next_kind (s : PState) : ∃ s', SameButTrivia s s' ∧
    peek s = .ok ((significant s.rest).head?.map (·.kind), s') ∧
    (∀ k, at' k s = .ok ((significant s.rest).head?.map (·.kind) == some k, s')) ∧
    (∀ set, atSet set s =
      .ok (((significant s.rest).head?.map (·.kind)).any (fun k => set.contains k), s')) ∧
    atEnd s = .ok ((significant s.rest).isEmpty, s') := by
  refine ⟨_, sameButTrivia_drop s, peek_run s, fun k => ?_, fun set => ?_, ?_⟩
  · have e : at' k s = P.bind peek (fun x => P.pure (x == some k)) s := rfl
    rw [e]
    simp only [P.bind, peek_run]
    rfl
  · have e : atSet set s = P.bind peek (fun x => match x with
        | some k => P.pure (set.contains k)
        | none => P.pure false) s := rfl
    rw [e]
    simp only [P.bind, peek_run]
    cases (significant s.rest).head? <;> rfl
  · have e : atEnd s = P.bind peek (fun x => P.pure x.isNone) s := rfl
    rw [e]
    simp only [P.bind, peek_run]
    cases significant s.rest <;> rfl

/-- C12, the kind after the next one: that of the second token that is not trivia. -/
theorem C12_next_but_one (s : PState) : ∃ s', SameButTrivia s s' ∧
    peekNextNonTriviaKind s = .ok ((significant s.rest)[1]?.map (·.kind), s') := by
  refine ⟨_, sameButTrivia_drop s, ?_⟩
  unfold peekNextNonTriviaKind
  dsimp only
  rcases dropTrivia_cases s.rest with ⟨h1, h2⟩ | ⟨t, v, rest, h1, h2, h3, _⟩
  · rw [h1, h2]; rfl
  · rw [h1, h2, List.tail_cons, head_dropTrivia, h3]
    cases v <;> simp

/-- C12, `at_twig_tag`: a block opening and the keyword as the first two tokens that are not
trivia. -/
theorem C12_twig_tag (s : PState) (keyword : SyntaxKind) : ∃ s' b, SameButTrivia s s' ∧
    atTwigTag keyword s = .ok (b, s') ∧
    (b = true ↔ ∃ t u v, significant s.rest = t :: u :: v ∧
      (t.kind = T!"{%" ∨ t.kind = T!"{%-" ∨ t.kind = T!"{%~") ∧ u.kind = keyword) := by
  obtain ⟨s1, h1, _, _, h2, _⟩ := C12_next_kind s
  obtain ⟨s2, h3, h4⟩ := C12_next_but_one s1
  have e : atTwigTag keyword s = P.bind (atSet twigBlockOpenSet) (fun b =>
      if b then P.bind peekNextNonTriviaKind (fun k => P.pure (k == some keyword))
      else P.pure false) s := rfl
  rw [e]
  simp only [P.bind, h2]
  rw [h1.2.1] at h4
  cases hs : significant s.rest with
  | nil =>
    refine ⟨s1, false, h1, ?_, by simp⟩
    simp [P.pure]
  | cons t v =>
    rw [hs] at h4
    by_cases ht : twigBlockOpenSet.contains t.kind = true
    · refine ⟨s2, v.head?.map (·.kind) == some keyword, ?_, ?_, ?_⟩
      · refine ⟨?_, h3.2.1.trans h1.2.1, h3.2.2.trans h1.2.2⟩
        rw [h3.1, h1.1]
      · simp only [List.head?_cons, Option.map_some, Option.any_some, ht, if_true, P.bind, h4, P.pure]
        cases v <;> simp
      · simp only [twigBlockOpenSet] at ht
        cases v with
        | nil => simp
        | cons u v =>
          simp only [List.head?_cons, Option.map_some, beq_iff_eq, Option.some.injEq]
          constructor
          · intro h
            exact ⟨t, u, v, rfl, by simpa using ht, h⟩
          · rintro ⟨_, _, _, h, _, hu⟩
            cases h
            exact hu
    · refine ⟨s1, false, h1, ?_, ?_⟩
      · simp only [List.head?_cons, Option.map_some, Option.any_some, ht]
        rfl
      · simp only [Bool.false_eq_true, false_iff]
        rintro ⟨_, _, _, h, ht', _⟩
        cases h
        apply ht
        simpa [twigBlockOpenSet] using ht'

/-- C12, `at_following`: at least one token is left that is not trivia, and the kinds of these
tokens start with the pattern. -/
theorem C12_following (s : PState) (set : List SyntaxKind) : ∃ s' b, SameButTrivia s s' ∧
    atFollowing set s = .ok (b, s') ∧
    (b = true ↔ significant s.rest ≠ [] ∧ set <+: (significant s.rest).map (·.kind)) := by
  refine ⟨_, _, sameButTrivia_drop s, rfl, ?_⟩
  have hs := significant_dropTrivia s.rest
  unfold significant at hs ⊢
  rw [hs]
  rcases dropTrivia_cases s.rest with ⟨h1, h2⟩ | ⟨t, v, rest, h1, h2, h3, _⟩
  · unfold significant at h1; rw [h1, h2]; simp
  · unfold significant at h1; rw [h2, h1]; simp [followKinds_iff]

/-- C12, `at_following_content`: the same with the texts of the tokens. -/
theorem C12_following_content (s : PState) (set : List (SyntaxKind × Option Text)) :
    ∃ s' b, SameButTrivia s s' ∧ atFollowingContent set s = .ok (b, s') ∧
    (b = true ↔ significant s.rest ≠ [] ∧ StartsWith (significant s.rest) set) := by
  refine ⟨_, _, sameButTrivia_drop s, rfl, ?_⟩
  have hs := significant_dropTrivia s.rest
  unfold significant at hs ⊢
  rw [hs]
  rcases dropTrivia_cases s.rest with ⟨h1, h2⟩ | ⟨t, v, rest, h1, h2, h3, _⟩
  · unfold significant at h1; rw [h1, h2]; simp
  · unfold significant at h1; rw [h2, h1]; simp [followContent_iff]

/-- What a lookahead answers. -/
def answer (f : P α) (s : PState) : Option α :=
  match f s with
  | .ok (a, _) => some a
  | .error _ => none

/-- C12: with the same significant tokens all lookaheads answer the same, wherever trivia is added
or removed. -/
theorem C12_trivia_irrelevant (s s' : PState) (h : significant s.rest = significant s'.rest) :
    answer peek s = answer peek s' ∧ (∀ k, answer (at' k) s = answer (at' k) s') ∧
    (∀ set, answer (atSet set) s = answer (atSet set) s') ∧ answer atEnd s = answer atEnd s' ∧
    answer peekNextNonTriviaKind s = answer peekNextNonTriviaKind s' ∧
    (∀ k, answer (atTwigTag k) s = answer (atTwigTag k) s') ∧
    (∀ set, answer (atFollowing set) s = answer (atFollowing set) s') ∧
    (∀ set, answer (atFollowingContent set) s = answer (atFollowingContent set) s') := by
  have hb : ∀ {a b : Bool} {p : Prop}, (a = true ↔ p) → (b = true ↔ p) → a = b := by
    intro a b p h1 h2
    cases a <;> cases b <;> simp_all
  obtain ⟨a1, _, b1, b2, b3, b4⟩ := C12_next_kind s
  obtain ⟨c1, _, d1, d2, d3, d4⟩ := C12_next_kind s'
  refine ⟨?_, fun k => ?_, fun set => ?_, ?_, ?_, fun k => ?_, fun set => ?_, fun set => ?_⟩
  · simp [answer, b1, d1, h]
  · simp [answer, b2, d2, h]
  · simp [answer, b3, d3, h]
  · simp [answer, b4, d4, h]
  · obtain ⟨_, _, e⟩ := C12_next_but_one s
    obtain ⟨_, _, e'⟩ := C12_next_but_one s'
    simp [answer, e, e', h]
  · obtain ⟨_, _, _, e, f⟩ := C12_twig_tag s k
    obtain ⟨_, _, _, e', f'⟩ := C12_twig_tag s' k
    rw [h] at f
    simp only [answer, e, e', hb f f']
  · obtain ⟨_, _, _, e, f⟩ := C12_following s set
    obtain ⟨_, _, _, e', f'⟩ := C12_following s' set
    rw [h] at f
    simp only [answer, e, e', hb f f']
  · obtain ⟨_, _, _, e, f⟩ := C12_following_content s set
    obtain ⟨_, _, _, e', f'⟩ := C12_following_content s' set
    rw [h] at f
    simp only [answer, e, e', hb f f']

/-- A state with the given tokens (kind and text). -/
def stateOf (ts : List (SyntaxKind × String)) : PState :=
  { rest := ts.map (fun (k, x) => ⟨k, x.toList, ⟨0, 0⟩⟩), lastRange := none, events := [],
    openMarkers := [], errors := [] }

example : significant (stateOf [(T!"{%", "{%"), (T!"if", "if")]).rest =
      significant (stateOf [(T!"ws", " "), (T!"{%", "{%"), (T!"ws", " "), (T!"lb", "\n"), (T!"if", "if"),
        (T!"ws", " ")]).rest ∧
    answer (atTwigTag T!"if") (stateOf [(T!"ws", " "), (T!"{%", "{%"), (T!"ws", " "), (T!"if", "if")]) =
      some true := by decide +kernel

end Ludtwig
