import Verif.Parser.LookaheadProps

/-!
# C10: error recovery
-/

namespace Ludtwig

/-- The loop of the recovery stops before this token. -/
def StopKind (expected recovery : List SyntaxKind) (k : SyntaxKind) : Prop :=
  k ∈ expected ∨ k ∈ recovery ∨ k ∈ generalRecoverySet

/-! ## Evaluation of the pieces -/

theorem or_run {a b : P Bool} {s s' : PState} {x : Bool} (h : a s = .ok (x, s')) :
    P.or a b s = if x then .ok (true, s') else b s' := by
  have e : P.or a b s = P.bind a (fun x => if x then P.pure true else b) s := rfl
  rw [e]
  simp only [P.bind, h]
  cases x <;> rfl

theorem atSet_run (set : List SyntaxKind) (s : PState) : atSet set s =
    .ok (((significant s.rest).head?.map (·.kind)).any (fun k => set.contains k),
      { s with rest := dropTrivia s.rest }) := by
  have e : atSet set s = P.bind peek (fun x => match x with
      | some k => P.pure (set.contains k)
      | none => P.pure false) s := rfl
  rw [e]
  simp only [P.bind, peek_run]
  cases (significant s.rest).head? <;> rfl

theorem atEnd_run (s : PState) :
    atEnd s = .ok ((significant s.rest).isEmpty, { s with rest := dropTrivia s.rest }) := by
  have e : atEnd s = P.bind peek (fun x => P.pure x.isNone) s := rfl
  rw [e]
  simp only [P.bind, peek_run]
  cases significant s.rest <;> rfl

theorem dropTrivia_twice (ts : List Token) : dropTrivia (dropTrivia ts) = dropTrivia ts := by
  rcases dropTrivia_cases ts with ⟨h1, h2⟩ | ⟨t, v, rest, h1, h2, h3, _⟩
  · rw [h2]; rfl
  · rw [h2]
    have : t ∈ significant ts := by rw [h1]; simp
    simp only [significant, List.mem_filter] at this
    simp only [dropTrivia, List.dropWhile_cons]
    rw [if_neg]
    simpa using this.2

/-- The check "at the end, or at one of two sets". -/
theorem stop_run (set set' : List SyntaxKind) (s : PState) :
    P.or atEnd (P.or (atSet set) (atSet set')) s =
      .ok (match (significant s.rest).head? with
        | none => true
        | some t => set.contains t.kind || set'.contains t.kind,
        { s with rest := dropTrivia s.rest }) := by
  rw [or_run (atEnd_run s)]
  cases hs : significant s.rest with
  | nil => rfl
  | cons t v =>
    simp only [List.isEmpty_cons, Bool.false_eq_true, if_false]
    have h1 : ∀ set : List SyntaxKind, atSet set { s with rest := dropTrivia s.rest } =
        .ok (set.contains t.kind, { s with rest := dropTrivia s.rest }) := by
      intro set
      rw [atSet_run]
      simp only [significant_dropTrivia, hs, dropTrivia_twice]
      rfl
    rw [or_run (h1 set), h1 set']
    simp only [List.head?_cons]
    cases set.contains t.kind <;> rfl

theorem bump_run {s : PState} {t : Token} {v : List Token} (h : significant s.rest = t :: v) :
    ∃ rest, bump .checked s = .ok (t, { s with rest := rest, events := s.events ++ [.addToken t.kind] }) ∧
      significant rest = v ∧ rest.length < s.rest.length ∧ rest <:+ s.rest := by
  rcases dropTrivia_cases s.rest with ⟨h1, _⟩ | ⟨t', v', rest, h1, h2, h3, h4⟩
  · rw [h1] at h; cases h
  · rw [h1] at h
    cases h
    refine ⟨rest, ?_, h3, h4, ?_⟩
    · simp [bump, bumpGen, h2]
    · have := List.dropWhile_suffix (l := s.rest) (fun t => t.kind.isTrivia)
      unfold dropTrivia at h2
      rw [h2] at this
      exact (List.suffix_cons t rest).trans this

theorem complete_run {s : PState} {base acc : List Event} {om : List Nat} {k : SyntaxKind}
    (he : s.events = base ++ .placeholder :: acc) (ho : s.openMarkers = base.length :: om) :
    complete base.length k s = .ok (base.length,
      { s with events := base ++ .startNode k none :: acc ++ [.finishNode], openMarkers := om }) := by
  unfold complete
  rw [ho]
  simp [he]

/-! ## The loop -/

/-- One round: the next token is skipped; then either the loop ends, or goes on. -/
theorem recoverStep_run {expected recovery : List SyntaxKind} {s : PState} {base acc : List Event}
    {om : List Nat} {t : Token} {v : List Token}
    (he : s.events = base ++ .placeholder :: acc) (ho : s.openMarkers = base.length :: om)
    (hv : significant s.rest = t :: v) :
    ∃ rest, significant rest = v ∧ rest.length < s.rest.length ∧ rest <:+ s.rest ∧
      ((∃ u w rest', v = u :: w ∧ u.kind ∈ expected ∧ significant rest' = w ∧ rest' <:+ rest ∧
          recoverStep expected recovery base.length none s = .ok ((false, some u),
            { s with
              rest := rest'
              events := base ++ .startNode .ERROR none :: (acc ++ [.addToken t.kind]) ++ [.finishNode] ++
                [.addToken u.kind]
              openMarkers := om })) ∨
       ((v = [] ∨ ∃ u w, v = u :: w ∧ u.kind ∉ expected ∧ (u.kind ∈ recovery ∨ u.kind ∈ generalRecoverySet)) ∧
          recoverStep expected recovery base.length none s = .ok ((false, none),
            { s with
              rest := rest
              events := base ++ .startNode .ERROR none :: (acc ++ [.addToken t.kind]) ++ [.finishNode]
              openMarkers := om })) ∨
       ((∃ u w, v = u :: w ∧ ¬ StopKind expected recovery u.kind) ∧
          recoverStep expected recovery base.length none s = .ok ((true, none),
            { s with rest := rest, events := base ++ .placeholder :: (acc ++ [.addToken t.kind]) }))) := by
  obtain ⟨r0, hb, hv0, hl0, hs0⟩ := bump_run hv
  have hsuf : dropTrivia r0 <:+ r0 := List.dropWhile_suffix _
  refine ⟨dropTrivia r0, by rw [significant_dropTrivia, hv0], ?_, hsuf.trans hs0, ?_⟩
  · have := hsuf.length_le; omega
  -- the state after the bump
  generalize hs1 : ({ s with rest := r0, events := s.events ++ [.addToken t.kind] } : PState) = s1 at hb
  have e1 : s1.rest = r0 := by rw [← hs1]
  have e2 : s1.events = base ++ .placeholder :: (acc ++ [.addToken t.kind]) := by
    rw [← hs1]; simp [he]
  have e3 : s1.openMarkers = base.length :: om := by rw [← hs1]; exact ho
  have step : recoverStep expected recovery base.length none s =
      P.bind (P.bind (P.pure (!expected.isEmpty)) (fun x => if x then atSet expected else P.pure false))
        (fun x => if x then
          P.bind (complete base.length .ERROR) (fun _ => P.bind (bump .checked) (fun t => P.pure (false, some t)))
        else P.bind (P.or atEnd (P.or (atSet generalRecoverySet) (atSet recovery))) (fun x =>
          if x then P.bind (complete base.length .ERROR) (fun _ => P.pure (false, none))
          else P.pure (true, none))) s1 := by
    have : recoverStep expected recovery base.length none s =
      P.bind (bump .checked) (fun _ =>
      P.bind (P.bind (P.pure (!expected.isEmpty)) (fun x => if x then atSet expected else P.pure false))
        (fun x => if x then
          P.bind (complete base.length .ERROR) (fun _ => P.bind (bump .checked) (fun t => P.pure (false, some t)))
        else P.bind (P.or atEnd (P.or (atSet generalRecoverySet) (atSet recovery))) (fun x =>
          if x then P.bind (complete base.length .ERROR) (fun _ => P.pure (false, none))
          else P.pure (true, none)))) s := rfl
    rw [this]
    simp only [P.bind, hb]
  rw [step]
  -- the state after the checks
  have hexp : ∃ s2 flag, (flag = true ↔ ∃ u w, v = u :: w ∧ u.kind ∈ expected) ∧ (s2 = s1 ∨ s2 = { s1 with rest := dropTrivia s1.rest }) ∧
      P.bind (P.pure (!expected.isEmpty)) (fun x => if x then atSet expected else P.pure false) s1 =
        .ok (flag, s2) := by
    cases expected with
    | nil => exact ⟨s1, false, by simp, .inl rfl, rfl⟩
    | cons x xs =>
      refine ⟨_, _, ?_, .inr rfl, atSet_run _ _⟩
      rw [e1, hv0]
      cases v <;> simp
  obtain ⟨s2, flag, hflag, hs2, hexp⟩ := hexp
  have f1 : s2.events = base ++ .placeholder :: (acc ++ [.addToken t.kind]) := by
    rcases hs2 with rfl | rfl <;> exact e2
  have f2 : s2.openMarkers = base.length :: om := by
    rcases hs2 with rfl | rfl <;> exact e3
  have f3 : significant s2.rest = v := by
    rcases hs2 with rfl | rfl
    · rw [e1, hv0]
    · dsimp only; rw [significant_dropTrivia, e1, hv0]
  have f4 : dropTrivia s2.rest = dropTrivia r0 := by
    rcases hs2 with rfl | rfl
    · rw [e1]
    · dsimp only; rw [dropTrivia_twice, e1]
  have f5 : s2.lastRange = s.lastRange ∧ s2.errors = s.errors := by
    rcases hs2 with rfl | rfl <;> (rw [← hs1]; exact ⟨rfl, rfl⟩)
  obtain ⟨f5, f6⟩ := f5
  obtain ⟨r2, l2, ev2, om2, er2⟩ := s2
  dsimp only at f1 f2 f3 f4 f5 f6
  rw [P.bind, hexp]
  dsimp only
  cases v with
  | nil =>
    refine .inr (.inl ⟨.inl rfl, ?_⟩)
    rw [if_neg (by rw [hflag]; simp)]
    simp only [P.bind, stop_run, f3, List.head?_nil, if_true]
    rw [complete_run (base := base) (acc := acc ++ [.addToken t.kind]) (om := om) f1 f2]
    simp only [P.pure, f4, f5, f6]
  | cons u w =>
    by_cases hu : u.kind ∈ expected
    · left
      have hf : flag = true := hflag.2 ⟨u, w, rfl, hu⟩
      subst hf
      simp only [if_true]
      simp only [P.bind]
      rw [complete_run (base := base) (acc := acc ++ [.addToken t.kind]) (om := om) f1 f2]
      dsimp only
      obtain ⟨r3, hb3, hv3, hl3, hs3⟩ := bump_run (s := { rest := r2, lastRange := l2, events := base ++ .startNode .ERROR none :: (acc ++ [.addToken t.kind]) ++ [.finishNode], openMarkers := om, errors := er2 }) f3
      refine ⟨u, w, r3, rfl, hu, hv3, ?_, ?_⟩
      · -- the rest is behind the next token
        rcases dropTrivia_cases r2 with ⟨h1, _⟩ | ⟨t', v', rest', h1, h2, h3, h4⟩
        · rw [f3] at h1; cases h1
        · simp only [bump, bumpGen, h2] at hb3
          have : rest' = r3 := by
            injection hb3 with hb3; injection hb3 with _ hb3; injection hb3
          subst this
          rw [← f4, h2]
          exact List.suffix_cons _ _
      · rw [hb3]
        simp only [P.pure, f5, f6]
    · right
      have hf : ¬ flag = true := by
        rw [hflag]
        rintro ⟨_, _, h, h'⟩
        cases h
        exact hu h'
      rw [if_neg hf]
      simp only [P.bind, stop_run, f3, List.head?_cons, f4]
      by_cases hr : u.kind ∈ recovery ∨ u.kind ∈ generalRecoverySet
      · left
        refine ⟨.inr ⟨u, w, rfl, hu, hr⟩, ?_⟩
        rw [if_pos (by rcases hr with h | h <;> simp [h])]
        rw [P.bind, complete_run (base := base) (acc := acc ++ [.addToken t.kind]) (om := om) f1 f2]
        simp only [P.pure, f5, f6]
      · right
        refine ⟨⟨u, w, rfl, ?_⟩, ?_⟩
        · rintro (h | h)
          · exact hu h
          · exact hr h
        rw [if_neg (by simpa [not_or] using And.intro (fun h => hr (.inr h)) (fun h => hr (.inl h)))]
        simp only [P.pure, f1, f2, f5, f6, ho]

/-- The whole loop. -/
theorem recoverLoop_run {expected recovery : List SyntaxKind} (fuel : Nat) {s : PState}
    {base acc : List Event} {om : List Nat} {t : Token} {v : List Token}
    (he : s.events = base ++ .placeholder :: acc) (ho : s.openMarkers = base.length :: om)
    (hv : significant s.rest = t :: v) (hf : s.rest.length < fuel) :
    ∃ skipped left r rest', v = skipped ++ left ∧
      (∀ u ∈ skipped, ¬ StopKind expected recovery u.kind) ∧
      (left = [] ∨ ∃ u w, left = u :: w ∧ StopKind expected recovery u.kind) ∧
      (∀ u, r = some u ↔ ∃ w, left = u :: w ∧ u.kind ∈ expected) ∧
      significant rest' = (if r.isSome then left.tail else left) ∧ rest' <:+ s.rest ∧
      loopP (recoverStep expected recovery base.length) fuel none s = .ok (r,
        { s with
          rest := rest'
          events := base ++ .startNode .ERROR none ::
            (acc ++ (t :: skipped).map (fun t => Event.addToken t.kind)) ++ [.finishNode] ++
            (r.map (fun t => Event.addToken t.kind)).toList
          openMarkers := om }) := by
  induction fuel generalizing s acc t v with
  | zero => omega
  | succ fuel ih =>
    have unfoldLoop : loopP (recoverStep expected recovery base.length) (fuel + 1) none s =
        P.bind (recoverStep expected recovery base.length none) (fun x =>
          if x.1 then loopP (recoverStep expected recovery base.length) fuel x.2 else P.pure x.2) s := rfl
    obtain ⟨rest, h1, h2, h3, h4⟩ := recoverStep_run (expected := expected) (recovery := recovery) he ho hv
    rw [unfoldLoop, P.bind]
    rcases h4 with ⟨u, w, rest', rfl, hu, hw, hsuf, h4⟩ | ⟨hstop, h4⟩ | ⟨⟨u, w, rfl, hu⟩, h4⟩
    · refine ⟨[], u :: w, some u, rest', rfl, by simp, .inr ⟨u, w, rfl, .inl hu⟩, ?_, by simp [hw],
        hsuf.trans h3, ?_⟩
      · intro x
        constructor
        · rintro h; cases h; exact ⟨w, rfl, hu⟩
        · rintro ⟨_, h, _⟩; cases h; rfl
      · rw [h4]
        simp [P.pure]
    · refine ⟨[], v, none, rest, rfl, by simp, ?_, ?_, by simp [h1], h3, ?_⟩
      · rcases hstop with h | ⟨u, w, h, _, hr⟩
        · exact .inl h
        · exact .inr ⟨u, w, h, .inr hr⟩
      · intro x
        constructor
        · nofun
        · rintro ⟨w, rfl, hx⟩
          rcases hstop with h | ⟨u, w', h, hu, _⟩
          · cases h
          · cases h; exact absurd hx hu
      · rw [h4]
        simp [P.pure]
    · obtain ⟨skipped, left, r, rest', g1, g2, g3, g4, g5, g6, g7⟩ := ih
        (s := { s with rest := rest, events := base ++ .placeholder :: (acc ++ [.addToken t.kind]) })
        (acc := acc ++ [.addToken t.kind]) rfl ho h1 (by dsimp only; omega)
      refine ⟨u :: skipped, left, r, rest', by rw [g1]; rfl, ?_, g3, g4, g5, g6.trans h3, ?_⟩
      · intro x hx
        rcases List.mem_cons.1 hx with rfl | hx
        · exact hu
        · exact g2 x hx
      · rw [h4]
        simp only [if_true]
        rw [g7]
        simp

/-- C10: `recover_expect`. The significant tokens are split into the skipped ones and those left.
Nothing is skipped at the end of the file or in front of a recovery token. Otherwise at least one
token is skipped, up to the first expected token, recovery token or the end of the file. The events
are those of one ERROR node around the skipped tokens (none if there is nothing to skip); if the
skipping ended at an expected token, then it is consumed behind the ERROR node and returned. Nothing
else in the state changes. -/
theorem C10_recover_expect (expected recovery : List SyntaxKind) (s : PState) :
    ∃ skipped left r s', recoverExpect expected recovery s = .ok (r, s') ∧
      significant s.rest = skipped ++ left ∧
      (skipped = [] ↔
        ∀ t ∈ (significant s.rest).head?, t.kind ∈ recovery ∨ t.kind ∈ generalRecoverySet) ∧
      (∀ t ∈ skipped, t.kind ∉ recovery ∧ t.kind ∉ generalRecoverySet) ∧
      (∀ t ∈ skipped.tail, t.kind ∉ expected) ∧
      (∀ t ∈ left.head?, t.kind ∈ recovery ∨ t.kind ∈ generalRecoverySet ∨ t.kind ∈ expected) ∧
      (∀ t, r = some t ↔ skipped ≠ [] ∧ left.head? = some t ∧ t.kind ∈ expected) ∧
      significant s'.rest = (if r.isSome then left.tail else left) ∧ s'.rest <:+ s.rest ∧
      s'.events = s.events ++
        (if skipped = [] then []
          else .startNode .ERROR none :: skipped.map (fun t => .addToken t.kind) ++ [.finishNode]) ++
        (r.map (fun t => Event.addToken t.kind)).toList ∧
      s'.openMarkers = s.openMarkers ∧ s'.errors = s.errors ∧ s'.lastRange = s.lastRange := by
  have e : recoverExpect expected recovery s =
      P.bind (P.or atEnd (P.or (atSet recovery) (atSet generalRecoverySet))) (fun x =>
        if x then P.pure none
        else P.bind start (fun m => P.bind getPos (fun n =>
          loopP (recoverStep expected recovery m) (n + 1) none))) s := rfl
  obtain ⟨flag, hrun, hflag⟩ : ∃ flag, P.or atEnd (P.or (atSet recovery) (atSet generalRecoverySet)) s =
      .ok (flag, { s with rest := dropTrivia s.rest }) ∧
      (flag = true ↔ ∀ t ∈ (significant s.rest).head?, t.kind ∈ recovery ∨ t.kind ∈ generalRecoverySet) := by
    refine ⟨_, stop_run _ _ s, ?_⟩
    cases significant s.rest <;> simp
  rw [e, P.bind, hrun]
  dsimp only
  cases flag with
  | true =>
    have hstop := hflag.1 rfl
    refine ⟨[], significant s.rest, none, _, rfl, rfl, by simpa using hstop, by simp, by simp, ?_, by simp,
      by simp [significant_dropTrivia], List.dropWhile_suffix _, by simp, rfl, rfl, rfl⟩
    intro t ht
    rcases hstop t ht with h | h
    · exact .inl h
    · exact .inr (.inl h)
  | false =>
    have hstop : ¬ _ := fun h => Bool.false_ne_true (hflag.2 h)
    cases hv : significant s.rest with
    | nil => rw [hv] at hstop; simp at hstop
    | cons t v =>
      rw [hv] at hstop
      simp only [List.head?_cons, Option.mem_some_iff, forall_eq'] at hstop
      obtain ⟨skipped, left, r, rest', g1, g2, g3, g4, g5, g6, g7⟩ :=
        recoverLoop_run (expected := expected) (recovery := recovery)
          ((dropTrivia s.rest).length + 1)
          (s := { s with
            rest := dropTrivia s.rest
            events := s.events ++ [.placeholder]
            openMarkers := s.events.length :: s.openMarkers })
          (base := s.events) (acc := []) (om := s.openMarkers) (t := t) (v := v) (by simp) rfl
          (by rw [significant_dropTrivia, hv]) (by dsimp only; omega)
      refine ⟨t :: skipped, left, r, _, g7, by rw [g1]; rfl, by simpa using hstop, ?_, ?_, ?_, ?_, g5,
        g6.trans (List.dropWhile_suffix _), by simp, rfl, rfl, rfl⟩
      · intro u hu
        rcases List.mem_cons.1 hu with rfl | hu
        · exact not_or.1 hstop
        · exact ⟨fun h => g2 u hu (.inr (.inl h)), fun h => g2 u hu (.inr (.inr h))⟩
      · exact fun u hu h => g2 u hu (.inl h)
      · intro u hu
        rcases g3 with rfl | ⟨x, w, rfl, h⟩
        · simp at hu
        · simp only [List.head?_cons, Option.mem_some_iff] at hu
          subst hu
          rcases h with h | h | h
          · exact .inr (.inr h)
          · exact .inl h
          · exact .inr (.inl h)
      · intro u
        rw [g4]
        constructor
        · rintro ⟨w, rfl, h⟩
          exact ⟨by simp, rfl, h⟩
        · rintro ⟨_, h1, h2⟩
          cases left with
          | nil => cases h1
          | cons x w => cases h1; exact ⟨w, rfl, h2⟩

/-- C10, `recover`: without expected kinds the longest run of tokens that are not recovery tokens is
skipped. -/
theorem C10_recover (recovery : List SyntaxKind) (s : PState) :
    ∃ skipped s', recover recovery s = .ok ((), s') ∧
      significant s.rest = skipped ++ significant s'.rest ∧
      (∀ t ∈ skipped, t.kind ∉ recovery ∧ t.kind ∉ generalRecoverySet) ∧
      (∀ t ∈ (significant s'.rest).head?, t.kind ∈ recovery ∨ t.kind ∈ generalRecoverySet) ∧
      s'.events = s.events ++
        (if skipped = [] then []
          else .startNode .ERROR none :: skipped.map (fun t => .addToken t.kind) ++ [.finishNode]) ∧
      s'.openMarkers = s.openMarkers ∧ s'.errors = s.errors := by
  obtain ⟨skipped, left, r, s', h1, h2, -, h3, -, h4, h5, h6, -, h7, h8, h9, -⟩ :=
    C10_recover_expect [] recovery s
  have hr : r = none := by
    cases r with
    | none => rfl
    | some t => simpa using (h5 t).1 rfl
  subst hr
  simp only [Option.isSome_none, Bool.false_eq_true, if_false] at h6
  refine ⟨skipped, s', ?_, by rw [h6, h2], h3, ?_, by simpa using h7, h8, h9⟩
  · have e : recover recovery s = P.bind (recoverExpect [] recovery) (fun _ => P.pure ()) s := rfl
    rw [e, P.bind, h1]
    rfl
  · rw [h6]
    intro t ht
    simpa using h4 t ht

/-- The kinds of the events that were added, for the examples. -/
def recovered (expected recovery : List SyntaxKind) (ts : List (SyntaxKind × String)) :
    Option (Option SyntaxKind × List Event × List SyntaxKind) :=
  match recoverExpect expected recovery (stateOf ts) with
  | .ok (r, s) => some (r.map (·.kind), s.events, s.rest.map (·.kind))
  | .error _ => none

-- a token and the whitespace are skipped, the closing is consumed behind the ERROR node
example : recovered [T!"%}"] [T!"word"] [(T!"ws", " "), (T!"number", "1"), (T!"ws", " "), (T!",", ","),
      (T!"%}", "%}"), (T!"word", "a")] =
    some (some T!"%}", [.startNode .ERROR none, .addToken T!"number", .addToken T!",", .finishNode,
      .addToken T!"%}"], [T!"word"]) := by decide +kernel

-- nothing to skip
example : recovered [T!"%}"] [T!"word"] [(T!"ws", " "), (T!"word", "a")] = some (none, [], [T!"word"]) := by
  decide +kernel

end Ludtwig
