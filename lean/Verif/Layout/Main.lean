import Verif.Layout.Grammar
import Verif.Parser.ParseProps

/-!
# Layout does not change the structure (theorem)
-/

namespace Ludtwig.Layout

/-! ## Filling the tokens into the tree -/

theorem bareAll_append (a b : List Tree) : bareAll (a ++ b) = bareAll a ++ bareAll b := by
  induction a with
  | nil => rfl
  | cons t a ih => simp [bareAll, ih]

theorem bareAll_trivia (ts : List Token) : bareAll (triviaTrees ts) = [] := by
  unfold triviaTrees
  have : ∀ l : List Token, (∀ t ∈ l, t.kind.isTrivia = true) →
      bareAll (l.map (fun t => Tree.token t.kind t.text)) = [] := by
    intro l
    induction l with
    | nil => intro _; rfl
    | cons t l ih =>
      intro h
      simp only [List.map_cons, bareAll, bare, h t (by simp), if_true, List.nil_append]
      exact ih (fun x hx => h x (by simp [hx]))
  refine this _ (fun t ht => ?_)
  exact List.all_eq_true.1 (List.all_takeWhile (p := fun t : Token => t.kind.isTrivia)) t ht

variable {free : Bool}

theorem leaf_fill {ts ts' r : List Token} (h : Lay free ts ts') (l : Leaf)
    (he : eatSig [l] ts = some r) :
    ∃ a a' r', l.fill ts = some (a, r) ∧ l.fill ts' = some (a', r') ∧ Lay free r r' ∧
      bareAll a = bareAll a' := by
  have hn := h.next.1
  cases l with
  | triv =>
    simp only [eatSig, Option.some.injEq] at he
    subst he
    exact ⟨_, _, _, rfl, rfl, hn.lay, by rw [bareAll_trivia, bareAll_trivia]⟩
  | tok k =>
    simp only [eatSig] at he
    cases hd : dropTrivia ts with
    | nil => rw [hd] at he; cases he
    | cons t q =>
      rw [hd] at he hn
      simp only [Option.some.injEq] at he
      subst he
      cases hd' : dropTrivia ts' with
      | nil => rw [hd'] at hn; cases hn
      | cons t' q' =>
        rw [hd'] at hn
        cases hn with
        | token h1 h2 h3 _ h4 =>
          refine ⟨triviaTrees ts ++ [.token k t.text], triviaTrees ts' ++ [.token k t'.text], q',
            by simp only [Leaf.fill, hd], by simp only [Leaf.fill, hd'], h4, ?_⟩
          rw [bareAll_append, bareAll_append, bareAll_trivia, bareAll_trivia, h2.2]
  | ntok n k =>
    simp only [eatSig] at he
    cases hd : dropTrivia ts with
    | nil => rw [hd] at he; cases he
    | cons t q =>
      cases q with
      | nil => rw [hd] at he; cases he
      | cons u q =>
        rw [hd] at he hn
        simp only at he
        split at he
        · rename_i hc
          obtain ⟨rfl, hu, hcol, hw⟩ := hc
          simp only [Option.some.injEq] at he
          subst he
          cases hd' : dropTrivia ts' with
          | nil => rw [hd'] at hn; cases hn
          | cons t' q' =>
            rw [hd'] at hn
            cases hn with
            | token h1 h2 h3 hb h4 =>
              have h5 := h4.colon hu hw (fun h => hb h hcol)
              cases h5 with
              | @token _ u' _ q' k1 k2 k3 _ k4 =>
                refine ⟨triviaTrees ts ++ [.token k (t.text ++ u.text)],
                  triviaTrees ts' ++ [.token k (t'.text ++ u'.text)], q', by simp [Leaf.fill, hd],
                  by simp [Leaf.fill, hd'], k4, ?_⟩
                rw [bareAll_append, bareAll_append, bareAll_trivia, bareAll_trivia, h2.2, k2.2]
        · cases he

mutual
theorem skel_fill : (x : Skel) → ∀ {ts ts' r : List Token}, Lay free ts ts' →
    eatSig (x.flat.filterMap Op.leaf?) ts = some r →
    ∃ a a' r', x.fill ts = some (a, r) ∧ x.fill ts' = some (a', r') ∧ Lay free r r' ∧
      bareAll a = bareAll a'
  | .leaf l, ts, ts', r, h, he => leaf_fill h l (by simpa [Skel.flat, Op.leaf?] using he)
  | .node p k cs, ts, ts', r, h, he => by
    have h1 : eatSig ((flatAll cs).filterMap Op.leaf?) ts = some r := by
      simpa [Skel.flat, Op.leaf?, List.filterMap_cons] using he
    obtain ⟨a, a', r', h2, h3, h4, h5⟩ := skel_fillAll cs h h1
    exact ⟨[.node k a], [.node k a'], r', by simp only [Skel.fill, h2], by simp only [Skel.fill, h3],
      h4, by simp [bareAll, bare, h5]⟩
theorem skel_fillAll : (xs : List Skel) → ∀ {ts ts' r : List Token}, Lay free ts ts' →
    eatSig ((flatAll xs).filterMap Op.leaf?) ts = some r →
    ∃ a a' r', fillAll ts xs = some (a, r) ∧ fillAll ts' xs = some (a', r') ∧ Lay free r r' ∧
      bareAll a = bareAll a'
  | [], ts, ts', r, h, he => by
    simp [flatAll, eatSig] at he
    subst he
    exact ⟨[], [], ts', rfl, rfl, h, rfl⟩
  | x :: xs, ts, ts', r, h, he => by
    simp only [flatAll, List.filterMap_append, eatSig_append] at he
    cases h1 : eatSig (x.flat.filterMap Op.leaf?) ts with
    | none => simp [h1] at he
    | some q =>
      rw [h1] at he
      obtain ⟨a, a', q', k1, k2, k3, k4⟩ := skel_fill x h h1
      obtain ⟨b, b', r', l1, l2, l3, l4⟩ := skel_fillAll xs (r := r) k3 (by simpa using he)
      exact ⟨a ++ b, a' ++ b', r', by simp only [fillAll, k1, l1], by simp only [fillAll, k2, l2], l3,
        by rw [bareAll_append, bareAll_append, k4, l4]⟩
end

/-! ## Parsing -/

theorem Relayout.empty {ts ts' : List Token} (h : Relayout ts ts') : ts = [] ↔ ts' = [] := by
  cases h with
  | nil => simp
  | token => simp
  | gap h1 h2 => simp [h1.1, h2.1]

theorem sim_initial {toks toks' : List Token} (h : Relayout toks toks') :
    Sim ⟨toks, false⟩ (initial toks) (initial toks') where
  rest := h.lay
  last := by
    intro _
    have := h.empty
    simp only [initial, Option.isSome_map]
    cases toks <;> cases toks' <;> simp_all [List.getLast?_cons]
  events := rfl
  opened := rfl
  errors := rfl
  sync := ⟨toks, rfl, rfl⟩

/-- The trees of two files whose runs do the same. -/
theorem trees_of_run {toks toks' : List Token} (hne : toks ≠ []) (h : Lay free toks toks')
    {a : CompletedMarker} {s : PState} {q : List Token}
    (hx : parseRoot (knot (toks.length + 1)) (initial toks) = .ok (a, s))
    (l1 : eatSig (s.events.filterMap Event.leaf?) toks = some q) :
    dropTrivia q = [] ∧ ∃ trees trees' xs, fillAll toks xs = some (trees, []) ∧
      fillAll toks' xs = some (trees', []) ∧ bareAll trees = bareAll trees' ∧
      ∀ ts ys, fillAll ts xs = some (ys, []) → sinkFinish ts s.events = .ok (.node .ROOT ys) := by
  have hrun := parseRoot_run hne (N := toks.length + 1) (by omega)
  rw [hx] at hrun
  obtain ⟨⟨⟨E, cs, next, k1, hb, r, k2, k3⟩, _, _⟩, _⟩ := hrun
  have hleaves : E.filterMap Event.leaf? = (flatAll cs).filterMap Op.leaf? := by
    obtain ⟨g, hg, hf⟩ := hb.rel
    rw [← hg.leaves, hf]
    simp [flatFrames, flatAll, Op.leaf?, List.filterMap_cons]
  have hev : s.events.filterMap Event.leaf? = E.filterMap Event.leaf? := by
    rw [k1, List.filterMap_append, filterMap_set_leaf hb.hole rfl rfl]
    simp [Event.leaf?]
  rw [hev, hleaves] at l1
  have heat : eat ((flatAll (cs ++ [.leaf .triv])).filterMap Op.leaf?) toks = some [] := by
    simp only [flatAll_append, List.filterMap_append, eat_append, ← hleaves, k2]
    simp [flatAll, Skel.flat, Op.leaf?, eat, k3]
  obtain ⟨trees, hfill, _⟩ := fillAll_of_eat _ heat
  obtain ⟨b, b', r', m1, m2, m3, m4⟩ := skel_fillAll _ h l1
  have f1 : ∀ ts c p, fillAll ts cs = some (c, p) →
      fillAll ts (cs ++ [.leaf .triv]) = some (c ++ triviaTrees p, dropTrivia p) := by
    intro ts c p hc
    rw [fillAll_append, hc]
    simp [fillAll, Skel.fill, Leaf.fill]
  have hq : dropTrivia q = [] := by
    rw [f1 _ _ _ m1] at hfill
    simp only [Option.some.injEq, Prod.mk.injEq] at hfill
    exact hfill.2
  have hq' : dropTrivia r' = [] := by
    have := m3.next.1
    rw [hq] at this
    generalize dropTrivia r' = d at this
    cases this
    rfl
  refine ⟨hq, b ++ triviaTrees q, b' ++ triviaTrees r', cs ++ [.leaf .triv], ?_, ?_, ?_, ?_⟩
  · rw [f1 _ _ _ m1, hq]
  · rw [f1 _ _ _ m2, hq']
  · rw [bareAll_append, bareAll_append, bareAll_trivia, bareAll_trivia, m4]
  · intro ts ys hys
    rw [k1, hb.sink hys]

/-- **C67.** A file keeps its syntax tree and its syntax errors, up to whitespace, line breaks and
places, when whitespace and line breaks between its tokens are replaced by other ones. -/
theorem C67_layout {toks toks' : List Token} (h : Relayout toks toks') :
    SameParse (parseLexed toks) (parseLexed toks') := by
  by_cases hne : toks = []
  · have hne' := h.empty.1 hne
    subst hne hne'
    have : parseLexed [] = .ok ⟨.node .ROOT [], []⟩ := by rfl
    rw [this]
    exact ⟨rfl, rfl⟩
  have hrel := (rel_parseRoot (R := ⟨toks, false⟩) (rel_knot (toks.length + 1) (toks'.length + 1))).sim
    (initial toks) (initial toks') (sim_initial h)
  have e1 : parseTokens toks = match parseRoot (knot (toks.length + 1)) (initial toks) with
      | .error e => .error e
      | .ok (_, s) => .ok (s.events, s.errors) := rfl
  have e2 : parseTokens toks' = match parseRoot (knot (toks'.length + 1)) (initial toks') with
      | .error e => .error e
      | .ok (_, s) => .ok (s.events, s.errors) := rfl
  unfold parseLexed
  rw [e1, e2]
  rcases hrel with (hx | ⟨hx, _⟩) | hx | ⟨e, hx, hy⟩ | ⟨a, s, b, s', hx, hy, _, hs, _⟩
  · exact absurd hx (C03_parse_terminates _ _ (by omega))
  · cases hx
  · exact absurd hx (C03_parse_terminates _ _ (by omega))
  · rw [hx, hy]; rfl
  · obtain ⟨q, l1, l2⟩ := hs.sync
    obtain ⟨_, trees, trees', xs, f1, f2, hb, hsink⟩ := trees_of_run hne h.lay hx l1
    rw [hx, hy]
    dsimp only
    rw [← hs.events, hsink _ _ f1, hsink _ _ f2]
    refine ⟨?_, hs.errors⟩
    simp [bare, hb]

end Ludtwig.Layout
