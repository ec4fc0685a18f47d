import Verif.Parser.BuildProps
import Verif.Parser.Parse
import Verif.GrammarSpec.Root

/-!
# From the program logic to `parse` (proof device)
-/

namespace Ludtwig

/-! ## The leaves of a skeleton -/

/-- The token command of an operation. -/
def Op.leaf? : Op → Option Leaf
  | .leaf l => some l
  | _ => none

theorem Linked.no_leaf {E i l} (h : Linked E i l) : l.filterMap Op.leaf? = [] := by
  rw [List.filterMap_eq_nil_iff]
  intro op hop
  obtain ⟨p, k, rfl⟩ := h.mem_is_start op hop
  rfl

theorem Linked.event {E i l} (h : Linked E i l) : ∃ e, E[i]? = some e ∧ e.leaf? = none := by
  cases h with
  | hole _ h => exact ⟨_, h, rfl⟩
  | last _ _ h => exact ⟨_, h, rfl⟩
  | link _ _ _ _ h => exact ⟨_, h, rfl⟩

theorem GroupOk.leaves {E i x} (h : GroupOk E i x) :
    ∃ e, E[i]? = some e ∧ x.filterMap Op.leaf? = e.leaf?.toList := by
  cases h with
  | leaf e l h1 h2 => exact ⟨e, h1, by simp [h2, Op.leaf?]⟩
  | finish h1 => exact ⟨_, h1, rfl⟩
  | taken k fp h1 => exact ⟨_, h1, rfl⟩
  | takenHole h1 => exact ⟨_, h1, rfl⟩
  | chain l h1 =>
    obtain ⟨e, h2, h3⟩ := h1.event
    exact ⟨e, h2, by rw [List.filterMap_reverse, h1.no_leaf, h3]; rfl⟩

theorem leaves_of_groups {E : List Event} {g : List (List Op)} (hlen : g.length = E.length)
    (hok : ∀ (i : Nat) (x : List Op), g[i]? = some x → ∃ e, E[i]? = some e ∧ x.filterMap Op.leaf? = e.leaf?.toList) :
    g.flatten.filterMap Op.leaf? = E.filterMap Event.leaf? := by
  induction g generalizing E with
  | nil =>
    cases E with
    | nil => rfl
    | cons _ _ => simp at hlen
  | cons x g ih =>
    cases E with
    | nil => simp at hlen
    | cons e E =>
      have h1 := ih (E := E) (by simpa using hlen) (fun i x hx => by
        have := hok (i + 1) x (by simpa using hx)
        simpa using this)
      obtain ⟨e', h2, h3⟩ := hok 0 x (by simp)
      simp at h2
      subst h2
      simp only [List.flatten_cons, List.filterMap_append, h3, h1, List.filterMap_cons]
      cases e.leaf? <;> rfl

theorem Rel.leaves {E g} (h : Rel E g) : g.flatten.filterMap Op.leaf? = E.filterMap Event.leaf? :=
  leaves_of_groups h.len (fun i x hx => (h.ok i x hx).leaves)

/-! ## Filling leaves -/

theorem Covers.append {ls ls' ts ts'} (h : Covers ls ts) (h' : Covers ls' ts') :
    Covers (ls ++ ls') (ts ++ ts') := by
  induction h with
  | nil => exact h'
  | same t _ ih => exact .same t ih
  | word t ht _ ih => exact .word t ht ih
  | merged t u ht hu _ ih => exact .merged t u ht hu ih

theorem leavesOf_append (a b : List Tree) : leavesOf (a ++ b) = leavesOf a ++ leavesOf b := by
  induction a with
  | nil => rfl
  | cons t a ih => simp [leavesOf, ih]

theorem nodeKindsOf_append (a b : List Tree) :
    nodeKindsOf (a ++ b) = nodeKindsOf a ++ nodeKindsOf b := by
  induction a with
  | nil => rfl
  | cons t a ih => simp [nodeKindsOf, ih]

theorem trivia_split (ts : List Token) : ∃ seg, ts = seg ++ dropTrivia ts ∧
    Covers (leavesOf (triviaTrees ts)) seg ∧ nodeKindsOf (triviaTrees ts) = [] := by
  induction ts with
  | nil => exact ⟨[], rfl, .nil, rfl⟩
  | cons t ts ih =>
    by_cases ht : t.kind.isTrivia = true
    · obtain ⟨seg, h1, h2, h3⟩ := ih
      refine ⟨t :: seg, ?_, ?_, ?_⟩
      · simp only [dropTrivia, List.dropWhile_cons, ht, if_true, List.cons_append]
        exact congrArg _ h1
      · simp only [triviaTrees, List.takeWhile_cons, ht, if_true, List.map_cons, leavesOf, Tree.leaves]
        exact .same t h2
      · simp only [triviaTrees, List.takeWhile_cons, ht, if_true, List.map_cons, nodeKindsOf,
          Tree.nodeKinds]
        exact h3
    · refine ⟨[], ?_, ?_, ?_⟩
      · simp [dropTrivia, ht]
      · simp [triviaTrees, ht]; exact .nil
      · simp [triviaTrees, ht]; rfl

theorem dropTrivia_head {ts rest : List Token} {t : Token} (h : dropTrivia ts = t :: rest) :
    t.kind.isTrivia = false := by
  induction ts with
  | nil => cases h
  | cons u ts ih =>
    by_cases hu : u.kind.isTrivia = true
    · simp only [dropTrivia, List.dropWhile_cons, hu, if_true] at h
      exact ih h
    · simp [dropTrivia, hu] at h
      rw [← h.1]
      simpa using hu

/-- Does the first of some tokens hold trivia? -/
def tokTrivia : List Token → Bool
  | [] => false
  | t :: _ => t.kind.isTrivia

theorem tokTrivia_dropTrivia (ts : List Token) : tokTrivia (dropTrivia ts) = false := by
  cases h : dropTrivia ts with
  | nil => rfl
  | cons t rest => exact dropTrivia_head h

theorem headTrivia_covers {ls : List (SyntaxKind × Text)} {seg r : List Token} (h : Covers ls seg) :
    headTrivia (tokTrivia r) ls = tokTrivia (seg ++ r) := by
  cases h with
  | nil => rfl
  | same t _ => rfl
  | word t ht _ => simp only [headTrivia, List.cons_append, tokTrivia, ht]; rfl
  | merged t u ht _ _ => simp only [headTrivia, List.cons_append, tokTrivia, ht]; rfl

theorem GroupedAll.append {as bs : List Tree} {next : Bool}
    (ha : GroupedAll as (headTrivia next (leavesOf bs))) (hb : GroupedAll bs next) :
    GroupedAll (as ++ bs) next := by
  have hh : ∀ l, headTrivia next (l ++ leavesOf bs) = headTrivia (headTrivia next (leavesOf bs)) l := by
    intro l; cases l <;> rfl
  induction as with
  | nil => exact hb
  | cons a as ih =>
    rw [List.cons_append, GroupedAll, leavesOf_append, hh]
    rw [GroupedAll] at ha
    refine ⟨ha.1, ih ha.2.1, ?_⟩
    intro k x h1 h2 h3
    obtain ⟨k', x', ts', h⟩ := ha.2.2 k x h1 h2 h3
    exact ⟨k', x', ts' ++ bs, by rw [h]; rfl⟩

theorem groupedAll_trivia (ts : List Token) : GroupedAll (triviaTrees ts) false := by
  unfold triviaTrees
  induction ts.takeWhile (fun t => t.kind.isTrivia) with
  | nil => trivial
  | cons t l ih =>
    rw [List.map_cons, GroupedAll]
    refine ⟨trivial, ih, ?_⟩
    intro k x _ _ h
    cases l with
    | nil => simp [leavesOf, headTrivia] at h
    | cons u l => exact ⟨_, _, _, rfl⟩

theorem groupedAll_trivia_token (ts : List Token) (k : SyntaxKind) (x : Text) (next : Bool)
    (hk : k.isTrivia = false) : GroupedAll (triviaTrees ts ++ [.token k x]) next := by
  refine GroupedAll.append ?_ ⟨trivial, trivial, ?_⟩
  · have : headTrivia next (leavesOf [Tree.token k x]) = false := by
      simpa [leavesOf, Tree.leaves, headTrivia] using hk
    rw [this]; exact groupedAll_trivia ts
  · intro k' x' h h'
    cases h
    rw [hk] at h'
    cases h'

/-- What is known about filled skeletons. -/
structure Fills (ops : List Op) (ts : List Token) (trees : List Tree) (r : List Token) : Prop where
  covers : ∃ seg, ts = seg ++ r ∧ Covers (leavesOf trees) seg
  kinds : ∀ k ∈ nodeKindsOf trees, ∃ p, Op.start p (some k) ∈ ops
  grouped : GroupedAll trees (tokTrivia r)

mutual
theorem fill_of_eat : (x : Skel) → ∀ {ts r}, eat (x.flat.filterMap Op.leaf?) ts = some r →
    ∃ trees, x.fill ts = some (trees, r) ∧ Fills x.flat ts trees r
  | .leaf l, ts, r, h => by
    obtain ⟨seg, hseg, hcov, hkinds⟩ := trivia_split ts
    cases l with
    | triv =>
      simp [Skel.flat, Op.leaf?, eat] at h
      subst h
      exact ⟨_, rfl, ⟨seg, hseg, hcov⟩, by simp [hkinds],
        by rw [tokTrivia_dropTrivia]; exact groupedAll_trivia ts⟩
    | tok k =>
      simp only [Skel.flat, List.filterMap_cons, Op.leaf?, List.filterMap_nil, eat] at h
      split at h
      · cases h
      · rename_i t rest hd
        split at h
        · rename_i hk
          cases h
          refine ⟨triviaTrees ts ++ [.token k t.text], by simp only [Skel.fill, Leaf.fill, hd],
            ⟨seg ++ [t], by rw [hd] at hseg; simpa using hseg, ?_⟩, ?_,
            groupedAll_trivia_token _ _ _ _ ?_⟩
          · rw [leavesOf_append]
            refine hcov.append ?_
            rcases hk with rfl | rfl
            · exact .same t .nil
            · exact .word t (dropTrivia_head hd) .nil
          · simp [nodeKindsOf_append, hkinds, nodeKindsOf, Tree.nodeKinds]
          · rcases hk with rfl | rfl
            · exact dropTrivia_head hd
            · rfl
        · cases h
    | ntok n k =>
      simp only [Skel.flat, List.filterMap_cons, Op.leaf?, List.filterMap_nil, eat] at h
      split at h
      · rename_i t u rest hd
        split at h
        · rename_i hc
          cases h
          obtain ⟨rfl, rfl, hc, hu⟩ := hc
          refine ⟨triviaTrees ts ++ [.token T!"word" (t.text ++ u.text)],
            by simp [Skel.fill, Leaf.fill, hd],
            ⟨seg ++ [t, u], by rw [hd] at hseg; simpa using hseg, ?_⟩, ?_,
            groupedAll_trivia_token _ _ _ _ rfl⟩
          · rw [leavesOf_append]
            exact hcov.append (.merged t u hc (by simpa using hu) .nil)
          · simp [nodeKindsOf_append, hkinds, nodeKindsOf, Tree.nodeKinds]
        · cases h
      · cases h
  | .node p k cs, ts, r, h => by
    have h1 : eat ((flatAll cs).filterMap Op.leaf?) ts = some r := by
      simpa [Skel.flat, Op.leaf?, List.filterMap_cons] using h
    obtain ⟨trees, h2, ⟨seg, h3, h4⟩, h5, h6⟩ := fillAll_of_eat cs h1
    refine ⟨[.node k trees], by simp only [Skel.fill, h2], ⟨seg, h3, ?_⟩, ?_,
      ⟨h6, trivial, fun _ _ h => by cases h⟩⟩
    · simpa [leavesOf, Tree.leaves] using h4
    · intro k' hk'
      simp [nodeKindsOf, Tree.nodeKinds] at hk'
      rcases hk' with rfl | hk'
      · exact ⟨p, by simp [Skel.flat]⟩
      · obtain ⟨q, hq⟩ := h5 k' hk'
        exact ⟨q, by simp [Skel.flat, hq]⟩
theorem fillAll_of_eat : (xs : List Skel) → ∀ {ts r},
    eat ((flatAll xs).filterMap Op.leaf?) ts = some r →
    ∃ trees, fillAll ts xs = some (trees, r) ∧ Fills (flatAll xs) ts trees r
  | [], ts, r, h => by
    simp [flatAll, eat] at h
    subst h
    exact ⟨_, rfl, ⟨[], rfl, .nil⟩, by simp [nodeKindsOf], trivial⟩
  | x :: xs, ts, r, h => by
    simp only [flatAll, List.filterMap_append, eat_append] at h
    cases h1 : eat (x.flat.filterMap Op.leaf?) ts with
    | none => simp [h1] at h
    | some r1 =>
      rw [h1] at h
      obtain ⟨t1, h2, ⟨seg1, h3, h4⟩, h5, h6⟩ := fill_of_eat x h1
      obtain ⟨t2, k2, ⟨seg2, k3, k4⟩, k5, k6⟩ :=
        fillAll_of_eat xs (ts := r1) (r := r) (by simpa using h)
      refine ⟨t1 ++ t2, by simp only [fillAll, h2, k2], ⟨seg1 ++ seg2, ?_, ?_⟩, ?_,
        GroupedAll.append (by rw [headTrivia_covers k4, ← k3]; exact h6) k6⟩
      · rw [h3, k3]; simp
      · rw [leavesOf_append]; exact h4.append k4
      · intro k hk
        rw [nodeKindsOf_append] at hk
        rcases List.mem_append.1 hk with hk | hk
        · obtain ⟨p, hp⟩ := h5 k hk
          exact ⟨p, by simp [flatAll, hp]⟩
        · obtain ⟨p, hp⟩ := k5 k hk
          exact ⟨p, by simp [flatAll, hp]⟩
end

/-! ## The root -/

/-- The events of a finished parse. -/
structure Finished (toks : List Token) (events : List Event) (errors : List ParseError) : Prop where
  built : ∃ E cs next, events = E.set 0 (.startNode .ROOT none) ++ [.finishNode] ∧
    Built E [0] ⟨[], [(0, cs)], next⟩ ∧
    ∃ r, eat (E.filterMap Event.leaf?) toks = some r ∧ dropTrivia r = []
  errs : ∀ e ∈ errors, ErrOk toks e
  noerr : errors = [] → ∀ fp, Event.startNode .ERROR fp ∉ events

/-- The initial state of the parser. -/
def initial (toks : List Token) : PState :=
  { rest := toks, lastRange := toks.getLast?.map (·.range), events := [], openMarkers := [],
    errors := [] }

theorem parseRoot_run {toks : List Token} (hne : toks ≠ []) {N : Nat} (hN : toks.length < N) :
    match parseRoot (knot N) (initial toks) with
    | .ok (_, s) => Finished toks s.events s.errors ∧ s.openMarkers = []
    | .error e => Allowed toks e := by
  have h0 : St toks [(0, [])] toks.length any false
      { rest := toks, lastRange := toks.getLast?.map (·.range), events := [.placeholder],
        openMarkers := [0], errors := [] } := by
    refine ⟨⟨⟨[(0, [])], 1, Built.empty.start, .cons (.refl _) (by simp) .nil⟩, ⟨toks, rfl, rfl⟩,
      List.suffix_refl _, rfl, hne, by simp, by simp⟩, Nat.le_refl _, trivial, by simp⟩
  have hmany := J_parseMany_strict (toks := toks) (n := toks.length) (vs := []) (h := any)
    (e := false) (early := pure false) (child := parseRootPart (knot N)) (Peek.pure false)
    (fun n' hn' => ext_parseRootPart (kgood_knot N) (by omega) (fun v hv => hv.1)) 0 [] []
    _ h0
  have hpr : parseRoot (knot N) (initial toks) =
      match parseMany (pure false) (parseRootPart (knot N))
        { rest := toks, lastRange := toks.getLast?.map (·.range), events := [.placeholder],
          openMarkers := [0], errors := [] } with
      | .error e => .error e
      | .ok (_, s) => complete 0 .ROOT s := by
    unfold parseRoot
    show P.bind start (fun m => P.bind (parseMany (pure false) (parseRootPart (knot N)))
      (fun _ => complete m .ROOT)) (initial toks) = _
    simp only [P.bind, start, initial, List.nil_append, List.length_nil]
    split <;> rename_i heq <;> simp only [heq]
  rw [hpr]
  split at hmany
  · rename_i u s hok
    simp only [hok]
    obtain ⟨⟨L, vs, n, h, e⟩, ⟨h1, _, _, _, h5, _⟩, hs⟩ := hmany
    dsimp only at h1 h5 hs
    subst h1
    obtain ⟨frames, next, hb, hF⟩ := hs.inv.built
    cases hF with
    | @cons _ cs _ fs _ k1 k2 k3 =>
      cases k3 with
      | nil =>
        have ho := hb.opened
        simp only [List.map_cons, List.map_nil] at ho
        simp only [complete, ho, beq_self_eq_true, if_true, hb.hole]
        refine ⟨⟨⟨s.events, cs, next, rfl, ?_, ?_⟩, hs.inv.errs, ?_⟩, trivial⟩
        · rw [ho] at hb; exact hb
        · obtain ⟨r, hr1, hr2⟩ := hs.inv.sync
          refine ⟨r, hr1, ?_⟩
          rw [hr2]
          simpa using h5 _ hs.view
        · intro he fp hm
          simp at hm
          rcases List.mem_or_eq_of_mem_set hm with hm | hm
          · exact hs.inv.noerr he fp hm
          · simp at hm
  · rename_i e herr
    simp only [herr]
    exact hmany

/-- The parser and the sink on tokens. -/
theorem parseLexed_run (toks : List Token) :
    match parseLexed toks with
    | .ok r => (∃ trees, r.tree = .node .ROOT trees ∧ Covers (leavesOf trees) toks ∧
        (r.errors = [] → SyntaxKind.ERROR ∉ nodeKindsOf trees) ∧ GroupedAll trees false) ∧ ∀ e ∈ r.errors, ErrOk toks e
    | .error (.parser e) => Allowed toks e
    | .error (.sink _) => False := by
  by_cases hne : toks = []
  · subst hne
    have : parseLexed [] = .ok ⟨.node .ROOT [], []⟩ := by rfl
    rw [this]
    exact ⟨⟨[], rfl, .nil, by simp [nodeKindsOf], trivial⟩, by simp⟩
  have h := parseRoot_run hne (N := toks.length + 1) (by omega)
  unfold parseLexed parseTokens
  unfold initial at h
  split at h
  · rename_i m s hok
    simp only [hok]
    obtain ⟨⟨⟨E, cs, next, h1, hb, r, h2, h3⟩, h4, h5⟩, _⟩ := h
    have hleaves : E.filterMap Event.leaf? = (flatAll cs).filterMap Op.leaf? := by
      obtain ⟨g, hg, hf⟩ := hb.rel
      rw [← hg.leaves, hf]
      simp [flatFrames, flatAll, Op.leaf?, List.filterMap_cons]
    have heat : eat ((flatAll (cs ++ [.leaf .triv])).filterMap Op.leaf?) toks = some [] := by
      simp only [flatAll_append, List.filterMap_append, eat_append, ← hleaves, h2]
      simp [flatAll, Skel.flat, Op.leaf?, eat, h3]
    obtain ⟨trees, hfill, ⟨seg, hseg, hcov⟩, hkinds, hgroup⟩ := fillAll_of_eat _ heat
    rw [h1, hb.sink hfill]
    refine ⟨⟨trees, rfl, ?_, ?_, hgroup⟩, h4⟩
    · simp at hseg
      rw [hseg]; exact hcov
    · intro he hmem
      obtain ⟨p, hp⟩ := hkinds _ hmem
      have hp : Op.start p (some .ERROR) ∈ flatAll cs := by
        simpa [flatAll, Skel.flat] using hp
      obtain ⟨g, hg, hf⟩ := hb.rel
      obtain ⟨fp, hfp⟩ := hg.mem_start (p := p) (k := .ERROR) (by rw [hf]; simp [flatFrames, hp])
      have hp0 : p ≠ 0 := by
        rintro rfl
        rw [hb.hole] at hfp
        simp at hfp
      refine h5 he fp ?_
      rw [h1]
      refine List.mem_append_left _ ?_
      refine List.mem_of_getElem? (i := p) ?_
      rw [List.getElem?_set_ne (Ne.symm hp0)]
      exact hfp
  · rename_i e herr
    simp only [herr]
    exact h

end Ludtwig
