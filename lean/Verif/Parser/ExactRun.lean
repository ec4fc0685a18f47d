import Verif.Parser.BuildProps
import Verif.Parser.RecoverProps
import Verif.Parser.PrattSpec
import Verif.Grammar.Root

/-!
# Exact runs of grammar functions (proof device for C11)

`Now s frames v er`: the parser state `s` has the open nodes `frames` (of the direct machine), the
significant tokens `v` left and the errors `er`.
-/

namespace Ludtwig

/-- `f` runs without panic from `s` to `s'` and returns `a`. -/
def Does (f : P α) (s : PState) (a : α) (s' : PState) : Prop := f s = .ok (a, s')

theorem Does.bind {f : P α} {g : α → P β} {s s' s'' a b} (h : Does f s a s') (h' : Does (g a) s' b s'') :
    Does (f >>= g) s b s'' := by
  show P.bind f g s = _
  unfold P.bind
  rw [show f s = _ from h]
  exact h'

theorem Does.pure (a : α) (s : PState) : Does (pure a) s a s := rfl

theorem Does.discard {f : P α} {s s' a} (h : Does f s a s') : Does (discard' f) s () s' :=
  h.bind (Does.pure _ _)

theorem Does.ifTrue {c : P Bool} {t e : P α} {s s' s'' a} (h : Does c s true s') (h' : Does t s' a s'') :
    Does (ifP c t e) s a s'' := h.bind (by simpa using h')

theorem Does.ifFalse {c : P Bool} {t e : P α} {s s' s'' a} (h : Does c s false s') (h' : Does e s' a s'') :
    Does (ifP c t e) s a s'' := h.bind (by simpa using h')

/-- See above. -/
structure Now (s : PState) (frames : List (Nat × List Skel)) (v : List Token) (er : List ParseError) :
    Prop where
  built : ∃ next, Built s.events s.openMarkers ⟨[], frames, next⟩
  view : significant s.rest = v
  errs : s.errors = er

variable {s : PState} {p q : Nat} {cs ds : List Skel} {fs : List (Nat × List Skel)} {t : Token}
  {v : List Token} {er : List ParseError} {frames : List (Nat × List Skel)}

theorem Now.skip (h : Now s frames v er) : Now { s with rest := dropTrivia s.rest } frames v er :=
  ⟨h.built, by dsimp only; rw [significant_dropTrivia, h.view], h.errs⟩

/-- Checks of the next tokens, after which only trivia was skipped. -/
theorem Now.peek (h : Now s frames v er) :
    ∃ s', Does peek s (v.head?.map (·.kind)) s' ∧ Now s' frames v er ∧ s'.rest = dropTrivia s.rest :=
  ⟨_, by rw [← h.view]; exact peek_run s, h.skip, rfl⟩

theorem Now.peekToken (h : Now s frames v er) :
    ∃ s', Does peekToken s v.head? s' ∧ Now s' frames v er ∧ s'.rest = dropTrivia s.rest :=
  ⟨_, by rw [← h.view, ← head_dropTrivia]; rfl, h.skip, rfl⟩

theorem Now.atSet (h : Now s frames v er) (set : List SyntaxKind) :
    ∃ s', Does (atSet set) s ((v.head?.map (·.kind)).any (fun k => set.contains k)) s' ∧
      Now s' frames v er ∧ s'.rest = dropTrivia s.rest :=
  ⟨_, by rw [← h.view]; exact atSet_run set s, h.skip, rfl⟩

theorem Now.at' (h : Now s frames v er) (k : SyntaxKind) :
    ∃ s', Does (at' k) s (v.head?.map (·.kind) == some k) s' ∧ Now s' frames v er ∧
      s'.rest = dropTrivia s.rest := by
  obtain ⟨s', h1, h2, h3⟩ := h.peek
  exact ⟨s', h1.bind (Does.pure _ _), h2, h3⟩

theorem Now.atEnd (h : Now s frames v er) :
    ∃ s', Does atEnd s v.isEmpty s' ∧ Now s' frames v er ∧ s'.rest = dropTrivia s.rest :=
  ⟨_, by rw [← h.view]; exact atEnd_run s, h.skip, rfl⟩

theorem Now.atFollowing (h : Now s frames v er) (set : List SyntaxKind) :
    ∃ s' b, Does (atFollowing set) s b s' ∧ Now s' frames v er ∧
      (b = true ↔ v ≠ [] ∧ set <+: v.map (·.kind)) := by
  obtain ⟨s', b, h1, h2, h3⟩ := C12_following s set
  rw [h.view] at h3
  refine ⟨s', b, h2, ⟨?_, h1.2.1.trans h.view, ?_⟩, h3⟩
  · rw [h1.1]; exact h.built
  · rw [h1.1]; exact h.errs

/-- A token is consumed. -/
theorem Now.bump (h : Now s ((p, cs) :: fs) (t :: v) er) (asKind : Option SyntaxKind := none)
    (site : Site := .checked) :
    ∃ s', Does (bumpGen site asKind) s t s' ∧
      Now s' ((p, cs ++ [.leaf (.tok (asKind.getD t.kind))]) :: fs) v er ∧
      s'.rest.length < s.rest.length ∧ s'.rest.length < (dropTrivia s.rest).length := by
  rcases dropTrivia_cases s.rest with ⟨h1, _⟩ | ⟨t', v', rest, h1, h2, h3, h4⟩
  · rw [h.view] at h1; cases h1
  · rw [h.view] at h1
    cases h1
    obtain ⟨next, hb⟩ := h.built
    refine ⟨{ s with rest := rest, events := s.events ++ [.addToken (asKind.getD t.kind)] }, ?_,
      ⟨?_, h3, h.errs⟩, h4, by rw [h2]; simp⟩
    · show bumpGen site asKind s = _
      simp [bumpGen, h2]
    · exact ⟨_, hb.leaf (e := .addToken (asKind.getD t.kind)) (l := .tok (asKind.getD t.kind)) rfl⟩

theorem Now.start (h : Now s frames v er) :
    ∃ m s', Does start s m s' ∧ Now s' ((m, []) :: frames) v er ∧ s'.rest = s.rest ∧
      (∀ f ∈ frames, f.1 < m) := by
  obtain ⟨next, hb⟩ := h.built
  refine ⟨s.events.length, { s with
    events := s.events ++ [.placeholder]
    openMarkers := s.events.length :: s.openMarkers }, rfl, ⟨⟨_, hb.start⟩, h.view, h.errs⟩, rfl, ?_⟩
  intro f hf
  exact hb.ordered.lt f.1 f.2 hf

theorem Now.complete (h : Now s ((p, cs) :: (q, ds) :: fs) v er) (k : SyntaxKind) :
    ∃ s', Does (complete p k) s p s' ∧ Now s' ((q, ds ++ [.node p k cs]) :: fs) v er ∧
      s'.rest = s.rest ∧ q < p := by
  obtain ⟨next, hb⟩ := h.built
  have ho := hb.opened
  have hh := hb.hole
  refine ⟨{ s with
    events := s.events.set p (.startNode k none) ++ [.finishNode]
    openMarkers := ((q, ds) :: fs).map (·.1) }, ?_, ⟨⟨s.events.length + 1, ?_⟩, h.view, h.errs⟩, rfl, ?_⟩
  · show Ludtwig.complete p k s = _
    unfold Ludtwig.complete
    rw [ho]
    simp [hh]
  · have := hb.complete k
    rw [ho] at this
    exact this
  · exact hb.ordered.2.1

theorem Now.precede {pre post ks : List Skel} {c : Nat} {k : SyntaxKind}
    (h : Now s ((p, pre ++ .node c k ks :: post) :: fs) v er) (hpc : p < c) :
    ∃ m s', Does (precede c) s m s' ∧ Now s' ((m, .node c k ks :: post) :: (p, pre) :: fs) v er ∧
      s'.rest = s.rest := by
  obtain ⟨next, hb⟩ := h.built
  obtain ⟨h3, h4⟩ := hb.precede hpc
  refine ⟨s.events.length, { s with
    events := s.events.set c (.startNode k (some (s.events.length - c))) ++ [.placeholder]
    openMarkers := s.events.length :: s.openMarkers }, ?_, ⟨⟨_, h4⟩, h.view, h.errs⟩, rfl⟩
  show Ludtwig.precede c s = _
  simp [Ludtwig.precede, h3]

theorem Now.wrap {pre ks : List Skel} {c : Nat} {k : SyntaxKind}
    (h : Now s ((p, pre ++ [.node c k ks]) :: fs) v er) (hpc : p < c) (k' : SyntaxKind) :
    ∃ m s', Does (wrap c k') s m s' ∧ Now s' ((p, pre ++ [.node m k' [.node c k ks]]) :: fs) v er ∧
      s'.rest = s.rest ∧ p < m := by
  obtain ⟨m, s1, h1, n1, r1⟩ := h.precede (post := []) hpc
  obtain ⟨s2, h2, n2, r2, h3⟩ := n1.complete k'
  exact ⟨m, s2, h1.bind h2, n2, by rw [r2, r1], h3⟩

/-- `bump` and `bump_`. -/
theorem Now.bump_ (h : Now s ((p, cs) :: fs) (t :: v) er) :
    ∃ s', Does bump_ s () s' ∧ Now s' ((p, cs ++ [.leaf (.tok t.kind)]) :: fs) v er ∧
      s'.rest.length < s.rest.length ∧ s'.rest.length < (dropTrivia s.rest).length := by
  obtain ⟨s', h1, h2, h3⟩ := h.bump
  exact ⟨s', h1.discard, h2, h3⟩

/-! ## Skeletons and trees -/

/-- The skeletons take exactly the given significant tokens and become the given trees (up to
trivia). -/
inductive Fits : List Skel → List Token → List Tree → Prop
  | nil : Fits [] [] []
  | tok {xs ts trees} (k : SyntaxKind) (t : Token) : k.isTrivia = false → Fits xs ts trees →
      Fits (.leaf (.tok k) :: xs) (t :: ts) (.token k t.text :: trees)
  | node {xs ts trees cs ts' trees'} (p : Nat) (k : SyntaxKind) : Fits cs ts trees → Fits xs ts' trees' →
      Fits (.node p k cs :: xs) (ts ++ ts') (.node k trees :: trees')

theorem Fits.append {xs ts trees ys ts' trees'} (h : Fits xs ts trees) (h' : Fits ys ts' trees') :
    Fits (xs ++ ys) (ts ++ ts') (trees ++ trees') := by
  induction h with
  | nil => exact h'
  | tok k t hk _ ih => exact .tok k t hk ih
  | node p k hc _ _ ih => rw [List.append_assoc]; exact .node p k hc ih

theorem Fits.one {t : Token} (h : t.kind.isTrivia = false) : Fits [.leaf (.tok t.kind)] [t] [t.tree] :=
  .tok t.kind t h .nil

theorem Fits.wrapped {cs ts trees} (h : Fits cs ts trees) (p : Nat) (k : SyntaxKind) :
    Fits [.node p k cs] ts [.node k trees] := by
  have := Fits.node p k h .nil
  rwa [List.append_nil] at this

theorem stripAll_append (a b : List Tree) : stripAll (a ++ b) = stripAll a ++ stripAll b := by
  induction a with
  | nil => rfl
  | cons x a ih =>
    simp only [List.cons_append, stripAll, ih, List.append_assoc]

theorem stripAll_trivia (ts : List Token) : stripAll (triviaTrees ts) = [] := by
  unfold triviaTrees
  induction ts with
  | nil => rfl
  | cons t ts ih =>
    rw [List.takeWhile_cons]
    split
    · rename_i h
      simp only [List.map_cons, stripAll, Tree.strip, h, if_true, List.nil_append]
      exact ih
    · rfl

theorem Fits.fill {xs o trees} (h : Fits xs o trees) : ∀ {ts v}, significant ts = o ++ v →
    ∃ trees' rest, fillAll ts xs = some (trees', rest) ∧ significant rest = v ∧ stripAll trees' = trees := by
  induction h with
  | nil => intro ts v hv; exact ⟨[], ts, rfl, by simpa using hv, rfl⟩
  | @tok xs o trees k t hk _ ih =>
    intro ts v hv
    rcases dropTrivia_cases ts with ⟨h1, _⟩ | ⟨t', v', rest, h1, h2, h3, _⟩
    · rw [hv] at h1; simp at h1
    · rw [hv] at h1
      simp only [List.cons_append, List.cons.injEq] at h1
      obtain ⟨rfl, rfl⟩ := h1
      obtain ⟨trees', rest', g1, g2, g3⟩ := ih h3
      refine ⟨(triviaTrees ts ++ [.token k t.text]) ++ trees', rest', ?_, g2, ?_⟩
      · simp only [fillAll, Skel.fill, Leaf.fill, h2, g1]
      · rw [stripAll_append, stripAll_append, stripAll_trivia, g3]
        simp [stripAll, Tree.strip, hk]
  | @node xs o trees cs o' trees' p k _ _ ih1 ih2 =>
    intro ts v hv
    rw [List.append_assoc] at hv
    obtain ⟨t1, r1, g1, g2, g3⟩ := ih1 hv
    obtain ⟨t2, r2, g4, g5, g6⟩ := ih2 g2
    refine ⟨.node k t1 :: t2, r2, ?_, g5, ?_⟩
    · simp only [fillAll, Skel.fill, g1, g4, List.cons_append, List.nil_append]
    · simp only [stripAll, Tree.strip, g3, g6, List.cons_append, List.nil_append]

end Ludtwig
