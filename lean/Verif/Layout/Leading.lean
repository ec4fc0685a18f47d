import Verif.Layout.Main

/-!
# Whitespace at the beginning of a file
-/

namespace Ludtwig.Layout

variable {R : Run}

/-! ## The first round of the root's loop -/

/-- `parseManyStep` without early exit, from a position on. -/
def rootRound (child : P Unit) (pos : Nat) : P (Bool × Unit) := do
  if (← at' .TK_UNKNOWN) then
    let _ ← bump
    return (true, ())
  else if (← atEnd) then
    return (false, ())
  else
    child
    let pos' ← getPos
    return (pos' != pos, ())

/-- No early exit. -/
def noExit : Unit → P (Bool × Unit) := fun _ => do return ((← pure false), ())

theorem rootRound_eq (child : P Unit) (s : PState) :
    parseManyStep noExit (fun _ => child) () s = rootRound child s.rest.length s := rfl

theorem at_drop (k : SyntaxKind) (s : PState) :
    at' k { s with rest := dropTrivia s.rest } = at' k s := by
  simp [at', peek, peekToken, bind, P.bind, dropTrivia_idem]

theorem rootRound_drop (child : P Unit) (pos : Nat) (s : PState) :
    rootRound child pos { s with rest := dropTrivia s.rest } = rootRound child pos s := by
  simp only [rootRound, bind, P.bind, at_drop]

theorem Moves.le {r r' q q' : List Token} (h : Moves r r' q q') :
    q.length ≤ r.length ∧ q'.length ≤ r'.length := by
  have l1 := dropTrivia_length r
  have l2 := dropTrivia_length r'
  rcases h with ⟨rfl, rfl⟩ | ⟨rfl, rfl⟩ | ⟨h1, h1'⟩
  · exact ⟨Nat.le_refl _, Nat.le_refl _⟩
  · exact ⟨l1, l2⟩
  · omega

theorem rootRound_settle (child : P Unit) (pos : Nat) (s : PState) :
    rootRound child pos s = settle pos (manyRound noExit (fun _ => child) () s) := by
  unfold rootRound manyRound
  refine settle_bind (fun _ _ => ?_) s
  refine settle_ite (settle_bind (fun _ _ => ?_) _) (settle_bind (fun _ _ => ?_) _)
  · rfl
  refine settle_ite ?_ ?_
  · rfl
  exact settle_bind (g := fun _ => (Pure.pure (none, ()) : P (Option Bool × Unit))) (fun _ _ => rfl) _

theorem lead_round {child child' : P Unit} (hc : Rel R Eq child child') {s s' : PState}
    (hs : Sim R s s') {pos' : Nat} (hpos : s'.rest.length < pos') :
    Outcome R (fun a b => a = b ∨ (a.1 = false ∧ b.1 = true)) s s'
      (rootRound child s.rest.length s) (rootRound child' pos' s') := by
  rw [rootRound_settle, rootRound_settle]
  rcases (Rel.manyRound (R := R) (early := noExit) (early' := noExit) (fun _ => .pureEq _)
      (fun _ => hc) ()).sim s s' hs with h | h | ⟨e, h1, h2⟩ | ⟨x, t, y, t', h1, h2, hv, ht, hm⟩
  · left
    rcases h with h | ⟨h, hb⟩
    · exact .inl (by rw [h]; rfl)
    · refine .inr ⟨h, ?_⟩
      revert hb
      cases manyRound noExit (fun _ => child) () s with
      | error e => exact id
      | ok p => exact id
  · exact .inr (.inl (by rw [h]; rfl))
  · exact .inr (.inr (.inl ⟨e, by rw [h1]; rfl, by rw [h2]; rfl⟩))
  · subst hv
    rw [h1, h2]
    obtain ⟨c, b⟩ := x
    refine .inr (.inr (.inr ⟨_, t, _, t', rfl, rfl, ?_, ht, hm⟩))
    cases c with
    | some c => exact .inl rfl
    | none =>
      have := hm.le
      have h' : (t'.rest.length != pos') = true := bne_iff_ne.2 (by omega)
      simp only [Option.getD_none]
      rw [h']
      cases (t.rest.length != s.rest.length)
      · exact .inr ⟨rfl, rfl⟩
      · exact .inl rfl

/-- The loop ends in its first round only at the end of the file or without progress. -/
theorem rootRound_false {child : P Unit} {pos : Nat} {s t : PState} {a : Bool × Unit}
    (h : rootRound child pos s = .ok (a, t)) (ha : a.1 = false) :
    dropTrivia s.rest = [] ∨ t.rest.length = pos := by
  simp only [rootRound, bind, P.bind, at', peek, peekToken, pure, P.pure] at h
  split at h
  · unfold P.bind at h
    split at h
    · cases h
    · cases h; cases ha
  · simp only [atEnd, bind, P.bind, peek, peekToken, pure, P.pure, dropTrivia_idem] at h
    split at h
    · rename_i hd
      left
      cases hh : dropTrivia s.rest with
      | nil => rfl
      | cons => simp [hh] at hd
    · unfold P.bind at h
      split at h
      · cases h
      · simp only [getPos, P.pure] at h
        cases h
        right
        simpa using ha

/-- The root's loop from a state on. -/
def rootLoop (K : Knot) (n : Nat) : P Unit :=
  loopP (parseManyStep noExit (fun _ => parseRootPart K)) n ()

/-- The state after `start`. -/
def started (s : PState) : PState :=
  { s with events := s.events ++ [.placeholder], openMarkers := s.events.length :: s.openMarkers }

theorem parseRoot_eq (K : Knot) (s : PState) : parseRoot K s =
    match rootRound (parseRootPart K) s.rest.length (started s) with
    | .error e => .error e
    | .ok (a, t) =>
      if a.1 then (do rootLoop K s.rest.length; complete s.events.length .ROOT : P _) t
      else complete s.events.length .ROOT t := by
  have e : parseRoot K s = (do rootLoop K (s.rest.length + 1); complete s.events.length .ROOT : P _)
      (started s) := rfl
  have e2 : rootLoop K (s.rest.length + 1) (started s) =
      match rootRound (parseRootPart K) s.rest.length (started s) with
      | .error e => .error e
      | .ok (a, t) => (if a.1 then rootLoop K s.rest.length else pure a.2 : P Unit) t := by
    show P.bind _ _ _ = _
    unfold P.bind
    rw [rootRound_eq]
    have hl : (started s).rest.length = s.rest.length := rfl
    rw [hl]
    cases rootRound (parseRootPart K) s.rest.length (started s) with
    | error e => rfl
    | ok p => rfl
  rw [e]
  show P.bind _ _ _ = _
  unfold P.bind
  rw [e2]
  cases rootRound (parseRootPart K) s.rest.length (started s) with
  | error e => rfl
  | ok p =>
    obtain ⟨⟨b, _⟩, t⟩ := p
    cases b
    · rfl
    · rfl

/-- The outcomes of parsing a file and one with whitespace before it: as for files of different
layout, or the first run has stopped at once. -/
theorem lead_root {K K' : Knot} (hR : R.free = false) (hK : KRel R K K') {s s' : PState}
    (hs : Sim R s { s' with rest := dropTrivia s'.rest }) (hd : dropTrivia s.rest = s.rest)
    (hne : s.rest ≠ []) (hlt : (dropTrivia s'.rest).length < s'.rest.length) :
    parseRoot K s = .error .outOfFuel ∨ parseRoot K' s' = .error .outOfFuel ∨
    (∃ e, parseRoot K s = .error e ∧ parseRoot K' s' = .error e) ∨
    (∃ a t b t', parseRoot K s = .ok (a, t) ∧ parseRoot K' s' = .ok (b, t') ∧ Sim R t t') ∨
    ((∃ e, parseRoot K s = .error e ∧ (e = .markerOrder ∨ e = .notPlaceholder)) ∨
    ∃ a t r, parseRoot K s = .ok (a, t) ∧ dropTrivia t.rest ≠ [] ∧
      eatSig (t.events.filterMap Event.leaf?) R.toks = some r ∧ dropTrivia r = dropTrivia t.rest) := by
  have hs1 : Sim R (started s) { started s' with rest := dropTrivia (started s').rest } := by
    rcases (Rel.start (R := R)).sim s { s' with rest := dropTrivia s'.rest } hs with
      (h | ⟨h, _⟩) | h | ⟨e, h, _⟩ | ⟨m, s1, m', s1', h1, h2, hm, hs1, _⟩
    · cases h
    · rw [hR] at h; cases h
    · cases h
    · cases h
    · cases h1; cases h2; exact hs1
  have hround := lead_round (rel_parseRootPart hK) hs1 (pos' := s'.rest.length) hlt
  have e0 : ({ started s' with rest := dropTrivia (started s').rest } : PState) =
      { started s' with rest := dropTrivia (started s').rest } := rfl
  rw [rootRound_drop] at hround
  have hev : s.events.length = s'.events.length := by
    have := hs.events
    simp only at this
    rw [this]
  rw [parseRoot_eq, parseRoot_eq]
  have hl0 : (started s).rest.length = s.rest.length := rfl
  rw [hl0] at hround
  rcases hround with (h | ⟨h, _⟩) | h | ⟨e, h1, h2⟩ | ⟨a, t, b, t', h1, h2, hv, ht, hmv⟩
  · rw [h]; exact .inl rfl
  · rw [hR] at h; cases h
  · rw [h]; exact .inr (.inl rfl)
  · rw [h1, h2]; exact .inr (.inr (.inl ⟨e, rfl, rfl⟩))
  · rw [h1, h2]
    dsimp only
    rcases hv with rfl | ⟨ha, hb⟩
    · have fin : ∀ {V : CompletedMarker → CompletedMarker → Prop} {m m' : P CompletedMarker},
          Rel R V m m' → m t = .error .outOfFuel ∨ m' t' = .error .outOfFuel ∨
          (∃ e, m t = .error e ∧ m' t' = .error e) ∨
          (∃ a u b u', m t = .ok (a, u) ∧ m' t' = .ok (b, u') ∧ Sim R u u') ∨
          ((∃ e, m t = .error e ∧ (e = .markerOrder ∨ e = .notPlaceholder)) ∨
          ∃ a u r, m t = .ok (a, u) ∧ dropTrivia u.rest ≠ [] ∧
            eatSig (u.events.filterMap Event.leaf?) R.toks = some r ∧ dropTrivia r = dropTrivia u.rest) := by
        intro V m m' h
        rcases h.sim t t' ht with (h | ⟨h, _⟩) | h | h | ⟨a, u, b, u', k1, k2, _, k4, _⟩
        · exact .inl h
        · rw [hR] at h; cases h
        · exact .inr (.inl h)
        · exact .inr (.inr (.inl h))
        · exact .inr (.inr (.inr (.inl ⟨a, u, b, u', k1, k2, k4⟩)))
      split
      · rw [hev]
        refine fin (V := Eq) (Rel.bindEq ?_ (fun _ => Rel.complete _ _))
        refine Rel.loopP (V := Eq) (fun a b h => ?_) _ _ _ _ rfl
        subst h
        have hround := fun a : Unit => Rel.manyRound (R := R) (early := noExit) (early' := noExit)
          (fun _ => .pureEq _) (fun _ => rel_parseRootPart hK) a
        refine ⟨.parseManyStep (hround a).mono, fun q q' hq => ?_⟩
        rcases Rel.parseManyStep (R := R) (early := noExit) (early' := noExit)
            (fun _ => .pureEq _) (fun _ => rel_parseRootPart hK) a hq with
          (h | h | h | ⟨x, t, y, t', h1, h2, hv, h⟩) | ⟨h, _⟩
        · exact .inl h
        · exact .inr (.inl h)
        · exact .inr (.inr (.inl h))
        · subst hv
          exact .inr (.inr (.inr ⟨x, t, x, t', h1, h2, ⟨rfl, rfl⟩, h⟩))
        · rw [hR] at h; cases h
      · rw [hev]
        exact fin (Rel.complete _ _)
    · -- the first run stops
      have hstop := rootRound_false h1 ha
      have hrest : t.rest = s.rest := by
        rcases hstop with h | h
        · exact absurd (hd.symm.trans h) hne
        · have hl : t.rest.length = (started s).rest.length := h
          rcases hmv with ⟨h, _⟩ | ⟨h, _⟩ | ⟨h, _⟩
          · exact h
          · rw [h]; exact hd
          · omega
      rw [ha]
      simp only [Bool.false_eq_true, if_false]
      rcases (Rel.complete (R := R) s.events.length .ROOT).sim t t' ht with
        (h | ⟨h, _⟩) | h | ⟨e, h, _⟩ | ⟨c, u, c', u', k1, k2, _, ku, _⟩
      · exact .inl h
      · rw [hR] at h; cases h
      · exfalso
        unfold complete at h
        split at h
        · split at h
          · split at h <;> cases h
          · cases h
        · cases h
      · refine .inr (.inr (.inr (.inr (.inl ⟨e, h, ?_⟩))))
        unfold complete at h
        split at h
        · split at h
          · split at h
            · cases h
            · cases h; exact .inr rfl
          · cases h; exact .inl rfl
        · cases h; exact .inl rfl
      · obtain ⟨r, g1, g2⟩ := ku.sync
        refine .inr (.inr (.inr (.inr (.inr ⟨c, u, r, k1, ?_, g1, g2⟩))))
        rw [complete_rest (m := s.events.length) (k := .ROOT) (s := t) (a := ()) (t := u) (by
          show P.bind (complete _ _) _ t = _
          unfold P.bind
          rw [k1]
          rfl), hrest, hd]
        exact hne

/-! ## Filling the tokens into the tree -/

theorem leaf_drop (l : Leaf) {ts r : List Token} {a : List Tree}
    (h : l.fill (dropTrivia ts) = some (a, r)) :
    ∃ a', l.fill ts = some (a', r) ∧ bareAll a' = bareAll a := by
  have key : ∀ b, bareAll (triviaTrees ts ++ b) = bareAll (triviaTrees (dropTrivia ts) ++ b) := by
    intro b
    rw [bareAll_append, bareAll_append, bareAll_trivia, bareAll_trivia]
  cases l with
  | triv =>
    simp only [Leaf.fill, dropTrivia_idem, Option.some.injEq, Prod.mk.injEq] at h ⊢
    obtain ⟨rfl, rfl⟩ := h
    exact ⟨_, ⟨rfl, rfl⟩, by rw [bareAll_trivia, bareAll_trivia]⟩
  | tok k =>
    simp only [Leaf.fill, dropTrivia_idem] at h ⊢
    cases hd : dropTrivia ts with
    | nil => rw [hd] at h; cases h
    | cons t q =>
      rw [hd] at h
      simp only [Option.some.injEq, Prod.mk.injEq] at h
      obtain ⟨rfl, rfl⟩ := h
      exact ⟨_, rfl, by rw [key, hd]⟩
  | ntok n k =>
    simp only [Leaf.fill, dropTrivia_idem] at h ⊢
    split at h
    · cases h
    · rename_i hn
      rw [if_neg hn]
      simp only [Option.some.injEq, Prod.mk.injEq] at h
      obtain ⟨rfl, rfl⟩ := h
      exact ⟨_, rfl, key _⟩

mutual
theorem skel_drop : (x : Skel) → ∀ {ts r : List Token} {a : List Tree},
    x.fill (dropTrivia ts) = some (a, r) → ∃ a' r', x.fill ts = some (a', r') ∧
      bareAll a' = bareAll a ∧ (r' = r ∨ (r = dropTrivia ts ∧ r' = ts))
  | .leaf l, ts, r, a, h => by
    obtain ⟨a', h1, h2⟩ := leaf_drop l h
    exact ⟨a', r, h1, h2, .inl rfl⟩
  | .node p k cs, ts, r, a, h => by
    simp only [Skel.fill] at h
    cases hf : fillAll (dropTrivia ts) cs with
    | none => rw [hf] at h; cases h
    | some p =>
      obtain ⟨b, q⟩ := p
      rw [hf] at h
      simp only [Option.some.injEq, Prod.mk.injEq] at h
      obtain ⟨rfl, rfl⟩ := h
      obtain ⟨b', r', h1, h2, h3⟩ := skel_dropAll cs hf
      exact ⟨[.node k b'], r', by simp only [Skel.fill, h1], by simp [bareAll, bare, h2], h3⟩
theorem skel_dropAll : (xs : List Skel) → ∀ {ts r : List Token} {a : List Tree},
    fillAll (dropTrivia ts) xs = some (a, r) → ∃ a' r', fillAll ts xs = some (a', r') ∧
      bareAll a' = bareAll a ∧ (r' = r ∨ (r = dropTrivia ts ∧ r' = ts))
  | [], ts, r, a, h => by
    simp only [fillAll, Option.some.injEq, Prod.mk.injEq] at h
    obtain ⟨rfl, rfl⟩ := h
    exact ⟨[], ts, rfl, rfl, .inr ⟨rfl, rfl⟩⟩
  | x :: xs, ts, r, a, h => by
    simp only [fillAll] at h
    cases hf : x.fill (dropTrivia ts) with
    | none => rw [hf] at h; cases h
    | some p =>
      obtain ⟨b, q⟩ := p
      rw [hf] at h
      dsimp only at h
      cases hg : fillAll q xs with
      | none => rw [hg] at h; cases h
      | some p =>
        obtain ⟨c, q2⟩ := p
        rw [hg] at h
        simp only [Option.some.injEq, Prod.mk.injEq] at h
        obtain ⟨rfl, rfl⟩ := h
        obtain ⟨b', r', h1, h2, h3⟩ := skel_drop x hf
        rcases h3 with rfl | ⟨rfl, rfl⟩
        · exact ⟨b' ++ c, q2, by simp only [fillAll, h1, hg], by
            rw [bareAll_append, bareAll_append, h2], .inl rfl⟩
        · obtain ⟨c', r2, k1, k2, k3⟩ := skel_dropAll xs hg
          exact ⟨b' ++ c', r2, by simp only [fillAll, h1, k1], by
            rw [bareAll_append, bareAll_append, h2, k2], k3⟩
end

/-! ## Parsing -/

/-- A file without tokens other than whitespace and line breaks. -/
theorem parseLexed_trivia {g : List Token} (hg : dropTrivia g = []) :
    parseLexed g = .ok ⟨.node .ROOT (triviaTrees g), []⟩ := by
  have e1 : parseTokens g = .ok ([.startNode .ROOT none, .finishNode], []) := by
    have : parseTokens g = match parseRoot (knot (g.length + 1)) (initial g) with
      | .error e => .error e
      | .ok (_, s) => .ok (s.events, s.errors) := rfl
    rw [this, parseRoot_eq]
    simp [rootRound, started, initial, bind, P.bind, at', peek, peekToken, atEnd, hg, pure, P.pure,
      complete, show dropTrivia [] = [] from rfl]
  have e2 : sinkFinish g [.startNode .ROOT none, .finishNode] = .ok (.node .ROOT (triviaTrees g)) := by
    simp [sinkFinish, List.range_succ, sinkLoop, sinkStep, sinkEvent, consumesTriviaBefore,
      walkForward, startNode, consumeTrivia, finishNode, hg, triviaTrees]
  unfold parseLexed
  rw [e1]
  dsimp only
  rw [e2]

theorem bare_trivia (g : List Token) : bare (.node .ROOT (triviaTrees g)) = [.node .ROOT []] := by
  simp [bare, bareAll_trivia]

theorem sim_leading {ts ts' g : List Token} (h : Relayout ts ts') (hne : ts ≠ [])
    (hd : dropTrivia (g ++ ts') = ts') :
    Sim ⟨ts, false⟩ (initial ts) { initial (g ++ ts') with rest := dropTrivia (initial (g ++ ts')).rest } where
  rest := by
    show Lay false ts (dropTrivia (g ++ ts'))
    rw [hd]; exact h.lay
  last := by
    intro _
    have := h.empty
    have hne' : ts' ≠ [] := fun he => hne (this.2 he)
    simp only [initial, Option.isSome_map]
    cases ts with
    | nil => exact absurd rfl hne
    | cons a b =>
      cases ts' with
      | nil => exact absurd rfl hne'
      | cons c d => simp [List.getLast?_append, List.getLast?_cons]
  events := rfl
  opened := rfl
  errors := rfl
  sync := ⟨ts, rfl, rfl⟩

/-- **C67** at the beginning of a file: whitespace and line breaks there may appear or vanish, too. -/
theorem C67_leading {ts ts' g : List Token} (h : Relayout ts ts') (hg : ∀ t ∈ g, t.kind.isTrivia = true)
    (hs : ∀ t ∈ ts.head?, t.kind.isTrivia = false) :
    SameParse (parseLexed ts) (parseLexed (g ++ ts')) := by
  by_cases hgn : g = []
  · subst hgn; exact C67_layout h
  by_cases hne : ts = []
  · have hne' := h.empty.1 hne
    subst hne hne'
    have hd : dropTrivia (g ++ []) = [] := dropTrivia_gap hg (by simp)
    rw [parseLexed_trivia rfl, parseLexed_trivia hd]
    exact ⟨by rw [bare_trivia, bare_trivia], rfl⟩
  have hne' : ts' ≠ [] := fun he => hne (h.empty.2 he)
  have hs' : ∀ t ∈ ts'.head?, t.kind.isTrivia = false := by
    intro t' ht'
    have hsig' := h.lay.next.2.2 rfl (dropTrivia_sig hs)
    have := h.lay.next.1.head.1
    rw [dropTrivia_sig hs, hsig'] at this
    cases ts with
    | nil => exact absurd rfl hne
    | cons t ts =>
      cases ts' with
      | nil => cases ht'
      | cons u ts' =>
        cases ht'
        simp only [List.head?_cons, Option.map_some, Option.some.injEq] at this
        rw [← this]
        exact hs t rfl
  have hd : dropTrivia (g ++ ts') = ts' := dropTrivia_gap hg hs'
  have hglen := List.length_pos_iff.2 hgn
  have hrun := parseRoot_run hne (N := ts.length + 1) (by omega)
  have hlead := lead_root (R := ⟨ts, false⟩) rfl (rel_knot (ts.length + 1) ((g ++ ts').length + 1))
    (s := initial ts) (s' := initial (g ++ ts')) (sim_leading h hne hd) (dropTrivia_sig hs) hne (by
      show (dropTrivia (g ++ ts')).length < (g ++ ts').length
      rw [hd, List.length_append]; omega)
  -- what the skeleton of the first run is
  have skeleton : ∀ {a : CompletedMarker} {s : PState} {q : List Token},
      parseRoot (knot (ts.length + 1)) (initial ts) = .ok (a, s) →
      eatSig (s.events.filterMap Event.leaf?) ts = some q → dropTrivia q = [] ∧
      ∃ trees, sinkFinish ts s.events = .ok (.node .ROOT trees) ∧
        ∃ trees', bareAll trees' = bareAll trees ∧ 
          sinkFinish (g ++ ts') s.events = .ok (.node .ROOT trees') := by
    intro a s q hx l1
    obtain ⟨hq, trees, a', xs, hfill, m2, m4, hsink⟩ := trees_of_run hne h.lay hx l1
    rw [← hd] at m2
    obtain ⟨a2, r2, n1, n2, n3⟩ := skel_dropAll _ m2
    have hr2 : r2 = [] := by
      rcases n3 with h | ⟨h, _⟩
      · exact h
      · rw [hd] at h; exact absurd h.symm hne'
    subst hr2
    exact ⟨hq, trees, hsink _ _ hfill, a2, by rw [n2, m4], hsink _ _ n1⟩
  have e1 : parseTokens ts = match parseRoot (knot (ts.length + 1)) (initial ts) with
      | .error e => .error e
      | .ok (_, s) => .ok (s.events, s.errors) := rfl
  have e2 : parseTokens (g ++ ts') = match parseRoot (knot ((g ++ ts').length + 1)) (initial (g ++ ts')) with
      | .error e => .error e
      | .ok (_, s) => .ok (s.events, s.errors) := rfl
  unfold parseLexed
  rw [e1, e2]
  rcases hlead with hx | hx | ⟨e, hx, hy⟩ | ⟨a, s, b, s', hx, hy, hsim⟩ | ⟨e, hx, he⟩ |
      ⟨a, s, q, hx, hq, l1, l2⟩
  · exact absurd hx (C03_parse_terminates _ _ (by omega))
  · exact absurd hx (C03_parse_terminates _ _ (by omega))
  · rw [hx, hy]; rfl
  · rw [hx, hy]
    obtain ⟨q, l1, l2⟩ := hsim.sync
    obtain ⟨_, trees, h1, trees', h2, h3⟩ := skeleton hx l1
    dsimp only
    rw [← hsim.events, h1, h3]
    exact ⟨by simp [bare, h2], hsim.errors⟩
  · exfalso
    rw [hx] at hrun
    rcases he with rfl | rfl <;> simp [Allowed] at hrun
  · exact absurd (l2.symm.trans (skeleton hx l1).1) hq

end Ludtwig.Layout
