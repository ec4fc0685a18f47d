import Verif.Parser.BuildProps
import Verif.Parser.RecoverProps
import Verif.Parser.PrattSpec
import Verif.Parser.Hoare
import Verif.Parser.Parse

/-!
# Runs without errors (proof device for C73)

`At toks s F v`: the parser state `s` of the file `toks` has no errors so far and the significant
tokens `v` left. `F` are the open nodes, innermost first, each with its children so far: their trees
without trivia, and the labels of those that may still be wrapped.
`Run f s Q`: `f` runs from `s` without a panic to a result and a state with `Q`.
-/

namespace Ludtwig.Template

/-- `f` runs without a panic, and `Q` holds afterwards. -/
def Run (f : P α) (s : PState) (Q : α → PState → Prop) : Prop := ∃ a s', f s = .ok (a, s') ∧ Q a s'

theorem Run.pure {a : α} {s : PState} {Q : α → PState → Prop} (h : Q a s) : Run (pure a) s Q :=
  ⟨a, s, rfl, h⟩

theorem Run.bind {f : P α} {g : α → P β} {s : PState} {Q : β → PState → Prop}
    (h : Run f s (fun a s' => Run (g a) s' Q)) : Run (f >>= g) s Q := by
  obtain ⟨a, s1, h1, b, s2, h2, h3⟩ := h
  refine ⟨b, s2, ?_, h3⟩
  show P.bind f g s = _
  unfold P.bind
  rw [h1]
  exact h2

theorem Run.mono {f : P α} {s : PState} {Q Q' : α → PState → Prop} (h : Run f s Q)
    (hq : ∀ a s', Q a s' → Q' a s') : Run f s Q' := by
  obtain ⟨a, s1, h1, h2⟩ := h
  exact ⟨a, s1, h1, hq _ _ h2⟩

theorem Run.discard {f : P α} {s : PState} {Q : Unit → PState → Prop} (h : Run f s (fun _ => Q ())) :
    Run (discard' f) s Q := .bind (h.mono fun _ _ h => .pure h)

theorem Run.someP {f : P CompletedMarker} {s : PState} {Q : Option CompletedMarker → PState → Prop}
    (h : Run f s (fun a => Q (some a))) : Run (someP f) s Q := .bind (h.mono fun _ _ h => .pure h)

/-! ## The open nodes -/

/-- A child of an open node: its label, if it may still be wrapped, and its tree without trivia. -/
abbrev Child := Option Nat × Tree

/-- Children that are not wrapped any more. -/
def anon (xs : List Tree) : List Child := xs.map (fun x => (none, x))

@[simp] theorem anon_nil : anon [] = [] := rfl
@[simp] theorem anon_cons (x : Tree) (xs : List Tree) : anon (x :: xs) = (none, x) :: anon xs := rfl
@[simp] theorem anon_append (xs ys : List Tree) : anon (xs ++ ys) = anon xs ++ anon ys := by simp [anon]
@[simp] theorem anon_trees (xs : List Tree) : (anon xs).map (·.2) = xs := by
  simp [anon, Function.comp_def]

/-- The skeletons, filled with the tokens, are the children. -/
inductive Grown : List Token → List Skel → List Child → List Token → Prop
  | nil (r) : Grown r [] [] r
  | skip {r r1 r' x trees xs ch} : x.fill r = some (trees, r1) → stripAll trees = [] → Grown r1 xs ch r' →
      Grown r (x :: xs) ch r'
  | one {r r1 r' x trees t xs ch} (l : Option Nat) : x.fill r = some (trees, r1) → stripAll trees = [t] →
      (∀ c, l = some c → ∃ k ks, x = .node c k ks) → Grown r1 xs ch r' → Grown r (x :: xs) ((l, t) :: ch) r'

/-- The open nodes, filled with the tokens of the file. -/
inductive Filled (ts : List Token) : List (Nat × List Skel) → List (Nat × List Child) → List Token → Prop
  | nil : Filled ts [] [] ts
  | cons {fs F r p cs ch r'} : Filled ts fs F r → Grown r cs ch r' → (∀ c x, (some c, x) ∈ ch → p < c) →
      Filled ts ((p, cs) :: fs) ((p, ch) :: F) r'

theorem Grown.append {r cs ch r1 ds dh r'} (h : Grown r cs ch r1) (h' : Grown r1 ds dh r') :
    Grown r (cs ++ ds) (ch ++ dh) r' := by
  induction h with
  | nil => exact h'
  | skip h1 h2 _ ih => exact .skip h1 h2 (ih h')
  | one l h1 h2 h3 _ ih => exact .one l h1 h2 h3 (ih h')

theorem strip_append (a b : List Tree) : stripAll (a ++ b) = stripAll a ++ stripAll b := by
  induction a with
  | nil => rfl
  | cons x a ih => simp only [List.cons_append, stripAll, ih, List.append_assoc]

theorem strip_trivia (ts : List Token) : stripAll (triviaTrees ts) = [] := by
  unfold triviaTrees
  induction ts with
  | nil => rfl
  | cons t ts ih =>
    rw [List.takeWhile_cons]
    split
    · rename_i h
      simp only [List.map_cons, stripAll, Tree.strip, h, if_true, List.nil_append]
      exact ih
    · rfl

theorem Grown.fill {r cs ch r'} (h : Grown r cs ch r') :
    ∃ trees, fillAll r cs = some (trees, r') ∧ stripAll trees = ch.map (·.2) := by
  induction h with
  | nil => exact ⟨[], rfl, rfl⟩
  | skip h1 h2 _ ih =>
    obtain ⟨trees, h3, h4⟩ := ih
    exact ⟨_, by simp only [fillAll, h1, h3]; rfl, by rw [strip_append, h2, h4, List.nil_append]⟩
  | one l h1 h2 _ _ ih =>
    obtain ⟨trees, h3, h4⟩ := ih
    exact ⟨_, by simp only [fillAll, h1, h3]; rfl, by rw [strip_append, h2, h4]; rfl⟩

theorem Grown.split {r cs ch r'} (h : Grown r cs ch r') : ∀ {pre post : List Child} {c : Nat} {x : Tree},
    ch = pre ++ (some c, x) :: post → ∃ cpre k ks cpost r1, cs = cpre ++ .node c k ks :: cpost ∧
      Grown r cpre pre r1 ∧ Grown r1 (.node c k ks :: cpost) ((some c, x) :: post) r' := by
  induction h with
  | nil => intro pre post c x h; simp at h
  | skip h1 h2 _ ih =>
    intro pre post c x h
    obtain ⟨cpre, k, ks, cpost, r1, rfl, h3, h4⟩ := ih h
    exact ⟨_, k, ks, cpost, r1, by rw [List.cons_append], .skip h1 h2 h3, h4⟩
  | @one r r1 r' y trees t xs ch l h1 h2 h3 h4 ih =>
    intro pre post c x h
    cases pre with
    | nil =>
      simp only [List.nil_append, List.cons.injEq, Prod.mk.injEq] at h
      obtain ⟨⟨rfl, rfl⟩, rfl⟩ := h
      obtain ⟨k, ks, rfl⟩ := h3 c rfl
      exact ⟨[], k, ks, xs, r, rfl, .nil _, .one _ h1 h2 (fun c' h => ⟨k, ks, by cases h; rfl⟩) h4⟩
    | cons z pre =>
      simp only [List.cons_append, List.cons.injEq] at h
      obtain ⟨rfl, h⟩ := h
      obtain ⟨cpre, k, ks, cpost, r1, rfl, h5, h6⟩ := ih h
      exact ⟨_, k, ks, cpost, r1, by rw [List.cons_append], .one l h1 h2 h3 h5, h6⟩

theorem Grown.forget {r cs ch r'} (h : Grown r cs ch r') : Grown r cs (anon (ch.map (·.2))) r' := by
  induction h with
  | nil => exact .nil _
  | skip h1 h2 _ ih => exact .skip h1 h2 ih
  | one l h1 h2 _ _ ih => exact .one none h1 h2 (by simp) ih

theorem Grown.split' {r cs ch r'} (h : Grown r cs ch r') : ∀ {pre post : List Child},
    ch = pre ++ post → ∃ cpre cpost r1, cs = cpre ++ cpost ∧ Grown r cpre pre r1 ∧ Grown r1 cpost post r' := by
  induction h with
  | nil r =>
    intro pre post h
    obtain ⟨rfl, rfl⟩ := List.append_eq_nil_iff.1 h.symm
    exact ⟨[], [], r, rfl, .nil _, .nil _⟩
  | skip h1 h2 _ ih =>
    intro pre post h
    obtain ⟨cpre, cpost, r1, rfl, h3, h4⟩ := ih h
    exact ⟨_, cpost, r1, by rw [List.cons_append], .skip h1 h2 h3, h4⟩
  | @one r r1 r' y trees t xs ch l h1 h2 h3 h4 ih =>
    intro pre post h
    cases pre with
    | nil =>
      simp only [List.nil_append] at h
      subst h
      exact ⟨[], _, r, rfl, .nil _, .one l h1 h2 h3 h4⟩
    | cons z pre =>
      simp only [List.cons_append, List.cons.injEq] at h
      obtain ⟨rfl, h⟩ := h
      obtain ⟨cpre, cpost, r1, rfl, h5, h6⟩ := ih h
      exact ⟨_, cpost, r1, by rw [List.cons_append], .one l h1 h2 h3 h5, h6⟩

/-! ## States -/

/-- See above. -/
structure At (toks : List Token) (s : PState) (F : List (Nat × List Child)) (v : List Token) : Prop where
  built : ∃ frames next r, Built s.events s.openMarkers ⟨[], frames, next⟩ ∧ Filled toks frames F r ∧
    dropTrivia r = dropTrivia s.rest
  suffix : s.rest <:+ toks
  view : significant s.rest = v
  errs : s.errors = []

variable {toks : List Token} {s s' : PState} {p q c : Nat} {ch dh : List Child}
  {F : List (Nat × List Child)} {t : Token} {v w u : List Token} {x : Tree} {k : SyntaxKind}

theorem At.skip {r : List Token} (h : At toks s F v) (hr : r = s.rest ∨ r = dropTrivia s.rest) :
    At toks { s with rest := r } F v := by
  rcases hr with rfl | rfl
  · exact h
  · obtain ⟨frames, next, r, h1, h2, h3⟩ := h.built
    exact ⟨⟨frames, next, r, h1, h2, by rw [dropTrivia_idem]; exact h3⟩, (dropTrivia_suffix _).trans h.suffix,
      by dsimp only; rw [significant_dropTrivia, h.view], h.errs⟩

theorem Filled.tail {ts fs F r p cs ch} (h : Filled ts ((p, cs) :: fs) ((p, ch) :: F) r) :
    ∃ r0, Filled ts fs F r0 ∧ Grown r0 cs ch r ∧ (∀ c x, (some c, x) ∈ ch → p < c) := by
  cases h with
  | cons h1 h2 h3 => exact ⟨_, h1, h2, h3⟩

theorem At.forget (h : At toks s ((p, ch ++ dh) :: F) v) :
    At toks s ((p, ch ++ anon (dh.map (·.2))) :: F) v := by
  obtain ⟨frames, next, r, h1, h2, h3⟩ := h.built
  refine ⟨⟨frames, next, r, h1, ?_, h3⟩, h.suffix, h.view, h.errs⟩
  cases h2 with
  | cons g1 g2 g3 =>
    obtain ⟨cpre, cpost, r1, rfl, g4, g5⟩ := g2.split' rfl
    refine .cons g1 (g4.append g5.forget) ?_
    intro c x hm
    rcases List.mem_append.1 hm with hm | hm
    · exact g3 c x (List.mem_append_left _ hm)
    · simp [anon] at hm

/-- Without the label. -/
theorem At.anon1 {l : Option Nat} (h : At toks s ((p, ch ++ [(l, x)]) :: F) v) :
    At toks s ((p, ch ++ [(none, x)]) :: F) v := by simpa using h.forget

theorem At.shorter (h : At toks s F v) {F'} (h' : At toks s' F' w) (hl : w.length < v.length) :
    s'.rest.length < s.rest.length := by
  apply Nat.lt_of_not_le
  intro hle
  have hs : s.rest <:+ s'.rest := List.suffix_of_suffix_length_le h.suffix h'.suffix hle
  have : (significant s.rest).length ≤ (significant s'.rest).length := (hs.sublist.filter _).length_le
  rw [h.view, h'.view] at this
  omega

theorem At.length_le (h : At toks s F v) : v.length ≤ s.rest.length := by
  rw [← h.view]; exact List.length_filter_le _ _

/-! ## Looking ahead -/

/-- `f` only looks ahead and returns `φ` of the significant tokens. -/
def Sees (f : P α) (φ : List Token → α) : Prop :=
  ∀ s, ∃ r, f s = .ok (φ (significant s.rest), { s with rest := r }) ∧ (r = s.rest ∨ r = dropTrivia s.rest)

theorem Sees.run {f : P α} {φ : List Token → α} (hf : Sees f φ) (h : At toks s F v) {Q : α → PState → Prop}
    (hk : ∀ s', At toks s' F v → Q (φ v) s') : Run f s Q := by
  obtain ⟨r, h1, h2⟩ := hf s
  refine ⟨_, _, h1, ?_⟩
  rw [h.view]
  exact hk _ (h.skip h2)

theorem Sees.pure (a : α) : Sees (Pure.pure a : P α) (fun _ => a) := fun s => ⟨s.rest, rfl, .inl rfl⟩

theorem Sees.bind {f : P α} {φ : List Token → α} {g : α → P β} {ψ : α → List Token → β}
    (hf : Sees f φ) (hg : ∀ a, Sees (g a) (ψ a)) : Sees (f >>= g) (fun v => ψ (φ v) v) := by
  intro s
  obtain ⟨r, h1, h2⟩ := hf s
  obtain ⟨r', h3, h4⟩ := hg (φ (significant s.rest)) { s with rest := r }
  have hd : significant r = significant s.rest := by
    rcases h2 with rfl | rfl
    · rfl
    · exact significant_dropTrivia _
  refine ⟨r', ?_, ?_⟩
  · show P.bind f g s = _
    unfold P.bind
    rw [h1]
    simp only [h3, hd]
  · dsimp only at h4
    rcases h2 with rfl | rfl
    · exact h4
    · right
      rcases h4 with rfl | rfl
      · rfl
      · exact dropTrivia_idem _

theorem Sees.congr {f : P α} {φ ψ : List Token → α} (hf : Sees f φ) (hφ : ∀ v, φ v = ψ v) : Sees f ψ := by
  intro s
  rw [← hφ]
  exact hf s

theorem significant_cons_cases (ts : List Token) :
    (significant ts).head? = (dropTrivia ts).head? := by
  rcases dropTrivia_cases ts with ⟨h1, h2⟩ | ⟨t, v, rest, h1, h2, h3, _⟩
  · rw [h1, h2]
  · rw [h1, h2]; rfl

theorem Sees.peekToken : Sees peekToken (fun v => v.head?) := fun s =>
  ⟨dropTrivia s.rest, by dsimp only; rw [significant_cons_cases]; rfl, .inr rfl⟩

theorem Sees.peek : Sees peek (fun v => v.head?.map (·.kind)) :=
  Sees.peekToken.bind (fun _ => .pure _)

/-- The kind of the next token. -/
def atK (k : SyntaxKind) : List Token → Bool
  | [] => false
  | t :: _ => t.kind == k

/-- The kind of the next token is in a set. -/
def atS (set : List SyntaxKind) : List Token → Bool
  | [] => false
  | t :: _ => set.contains t.kind

/-- The kind of the token behind the next one. -/
def secondK (f : SyntaxKind → Bool) : List Token → Bool
  | _ :: t :: _ => f t.kind
  | _ => false

@[simp] theorem atK_nil : atK k [] = false := rfl
@[simp] theorem atK_cons : atK k (t :: v) = (t.kind == k) := rfl
@[simp] theorem atS_nil {set} : atS set [] = false := rfl
@[simp] theorem atS_cons {set} : atS set (t :: v) = set.contains t.kind := rfl
@[simp] theorem secondK_cons {f} {t' : Token} : secondK f (t :: t' :: v) = f t'.kind := rfl
@[simp] theorem secondK_one {f} : secondK f [t] = false := rfl
@[simp] theorem secondK_nil {f} : secondK f [] = false := rfl

theorem Sees.at' (k : SyntaxKind) : Sees (at' k) (atK k) :=
  (Sees.peek.bind (fun _ => .pure _)).congr (fun v => by cases v <;> rfl)

theorem Sees.atSet (set : List SyntaxKind) : Sees (atSet set) (atS set) := by
  refine (Sees.peek.bind (ψ := fun o _ => match o with
    | some k => set.contains k | none => false) (fun o => ?_)).congr ?_
  · cases o <;> exact .pure _
  · intro v
    cases v <;> rfl

theorem Sees.atEnd : Sees atEnd (fun v => v.isEmpty) :=
  (Sees.peek.bind (fun _ => .pure _)).congr (fun v => by cases v <;> rfl)

theorem Sees.or {a b : P Bool} {φ ψ : List Token → Bool} (ha : Sees a φ) (hb : Sees b ψ) :
    Sees (P.or a b) (fun v => φ v || ψ v) :=
  (ha.bind (ψ := fun x v => if x then true else ψ v) (fun x => by
    cases x
    · exact hb
    · exact .pure _)).congr (fun v => by cases φ v <;> rfl)

theorem Sees.and {a b : P Bool} {φ ψ : List Token → Bool} (ha : Sees a φ) (hb : Sees b ψ) :
    Sees (P.and a b) (fun v => φ v && ψ v) :=
  (ha.bind (ψ := fun x v => if x then ψ v else false) (fun x => by
    cases x
    · exact .pure _
    · exact hb)).congr (fun v => by cases φ v <;> rfl)

theorem Sees.not {a : P Bool} {φ : List Token → Bool} (ha : Sees a φ) :
    Sees (P.not a) (fun v => !φ v) :=
  ha.bind (fun _ => .pure _)

theorem dropTrivia_tail_head (ts : List Token) :
    (dropTrivia (dropTrivia ts).tail).head? = (significant ts).tail.head? := by
  rcases dropTrivia_cases ts with ⟨h1, h2⟩ | ⟨t, v, rest, h1, h2, h3, _⟩
  · rw [h1, h2]; rfl
  · rw [h1, h2, ← h3]
    exact (significant_cons_cases rest).symm

theorem Sees.peekNext : Sees peekNextNonTriviaKind (fun v => v.tail.head?.map (·.kind)) := fun s =>
  ⟨dropTrivia s.rest, by dsimp only; rw [← dropTrivia_tail_head]; rfl, .inr rfl⟩

theorem Sees.atTwigTag (k : SyntaxKind) :
    Sees (atTwigTag k) (fun v => atS twigBlockOpenSet v && secondK (· == k) v) :=
  ((Sees.atSet _).and (Sees.peekNext.bind (fun _ => .pure _))).congr (fun v => by
    cases v with
    | nil => rfl
    | cons t v => cases v <;> rfl)

theorem Sees.atTwigTerminationTag : Sees atTwigTerminationTag
    (fun v => atS twigBlockOpenSet v && secondK (fun k => terminationKeywords.contains k) v) := by
  refine ((Sees.atSet _).and (Sees.peekNext.bind (ψ := fun o _ => match o with
    | some k => terminationKeywords.contains k | none => false) (fun o => ?_))).congr ?_
  · cases o <;> exact .pure _
  · intro v
    cases v with
    | nil => rfl
    | cons t v => cases v <;> rfl

/-- The kinds of the next tokens. -/
def follows (set : List SyntaxKind) (v : List Token) : Bool :=
  if v.isEmpty then false else followKinds (v.map (·.kind)) set

theorem Sees.atFollowing (set : List SyntaxKind) : Sees (atFollowing set) (follows set) := by
  intro s
  refine ⟨dropTrivia s.rest, ?_, .inr rfl⟩
  unfold Ludtwig.atFollowing follows
  rcases dropTrivia_cases s.rest with ⟨h1, h2⟩ | ⟨t, v, rest, h1, h2, h3, _⟩
  · rw [h1, h2]; rfl
  · have : (dropTrivia s.rest).filter (fun t => !t.kind.isTrivia) = significant s.rest :=
      significant_dropTrivia s.rest
    simp only [this]
    rw [h1, h2]
    rfl

theorem Sees.atFollowingContent (set : List (SyntaxKind × Option Text)) :
    Sees (atFollowingContent set) (fun v => if v.isEmpty then false else followContent v set) := by
  intro s
  refine ⟨dropTrivia s.rest, ?_, .inr rfl⟩
  unfold Ludtwig.atFollowingContent
  rcases dropTrivia_cases s.rest with ⟨h1, h2⟩ | ⟨t, v, rest, h1, h2, h3, _⟩
  · rw [h1, h2]; rfl
  · have : (dropTrivia s.rest).filter (fun t => !t.kind.isTrivia) = significant s.rest :=
      significant_dropTrivia s.rest
    simp only [this]
    rw [h1, h2]
    rfl

/-- A check that is true. -/
theorem At.ifT {c : P Bool} {φ : List Token → Bool} {a b : P α} {Q : α → PState → Prop} (h : At toks s F v)
    (hc : Sees c φ) (hφ : φ v = true) (hk : ∀ s', At toks s' F v → Run a s' Q) : Run (ifP c a b) s Q :=
  .bind (hc.run h fun s' h' => by rw [hφ, if_pos rfl]; exact hk s' h')

/-- A check that is false. -/
theorem At.ifF {c : P Bool} {φ : List Token → Bool} {a b : P α} {Q : α → PState → Prop} (h : At toks s F v)
    (hc : Sees c φ) (hφ : φ v = false) (hk : ∀ s', At toks s' F v → Run b s' Q) : Run (ifP c a b) s Q :=
  .bind (hc.run h fun s' h' => by rw [hφ, if_neg (by simp)]; exact hk s' h')

/-! ## Steps -/

theorem At.bumpGen (h : At toks s ((p, ch) :: F) (t :: v)) {site asKind} {Q : Token → PState → Prop}
    (hk : (asKind.getD t.kind).isTrivia = false) (hq : ∀ s', At toks s' ((p, ch ++ [(none, .token (asKind.getD t.kind) t.text)]) :: F) v → Q t s') :
    Run (bumpGen site asKind) s Q := by
  rcases dropTrivia_cases s.rest with ⟨h1, _⟩ | ⟨t', v', rest, h1, h2, h3, h4⟩
  · rw [h.view] at h1; cases h1
  · rw [h.view] at h1
    cases h1
    obtain ⟨frames, next, r, g1, g2, g3⟩ := h.built
    cases g2 with
    | @cons fs F r0 p cs ch r' g4 g5 g6 =>
      refine ⟨t, { s with rest := rest, events := s.events ++ [.addToken (asKind.getD t.kind)] }, ?_, hq _ ⟨?_, ?_, h3, h.errs⟩⟩
      · simp [Ludtwig.bumpGen, h2]
      · refine ⟨_, _, rest, g1.leaf (e := .addToken (asKind.getD t.kind)) (l := .tok (asKind.getD t.kind)) rfl,
          .cons g4 (g5.append (.one none (trees := triviaTrees r ++ [.token (asKind.getD t.kind) t.text]) ?_ ?_ (by simp) (.nil _))) ?_, rfl⟩
        · rw [h2] at g3
          simp [Skel.fill, Leaf.fill, g3]
        · rw [strip_append, strip_trivia]
          simp [stripAll, Tree.strip, hk]
        · intro c x hm
          rcases List.mem_append.1 hm with hm | hm
          · exact g6 c x hm
          · simp at hm
      · have : (t :: rest) <:+ s.rest := by rw [← h2]; exact dropTrivia_suffix _
        exact ((List.suffix_cons t rest).trans this).trans h.suffix

theorem At.sig (h : At toks s F (t :: v)) : t.kind.isTrivia = false := by
  have : t ∈ significant s.rest := by rw [h.view]; simp
  simpa [significant] using (List.mem_filter.1 this).2

theorem At.bump (h : At toks s ((p, ch) :: F) (t :: v)) {site} {Q : Token → PState → Prop}
    (hq : ∀ s', At toks s' ((p, ch ++ [(none, t.tree)]) :: F) v → Q t s') : Run (bump site) s Q :=
  h.bumpGen (asKind := none) h.sig hq

theorem At.bump_ (h : At toks s ((p, ch) :: F) (t :: v)) {site} {Q : Unit → PState → Prop}
    (hq : ∀ s', At toks s' ((p, ch ++ [(none, t.tree)]) :: F) v → Q () s') : Run (bump_ site) s Q :=
  .discard (h.bump hq)

theorem At.bumpAs (h : At toks s ((p, ch) :: F) (t :: v)) {Q : Token → PState → Prop} (hk : k.isTrivia = false)
    (hq : ∀ s', At toks s' ((p, ch ++ [(none, .token k t.text)]) :: F) v → Q t s') : Run (bumpAs k) s Q :=
  h.bumpGen (asKind := some k) hk hq

theorem At.start (h : At toks s F v) {Q : Marker → PState → Prop}
    (hq : ∀ m s', At toks s' ((m, []) :: F) v → Q m s') : Run start s Q := by
  obtain ⟨frames, next, r, g1, g2, g3⟩ := h.built
  refine ⟨s.events.length, { s with
    events := s.events ++ [.placeholder]
    openMarkers := s.events.length :: s.openMarkers }, rfl, hq _ _
      ⟨⟨_, _, r, g1.start, .cons g2 (.nil _) (by simp), g3⟩, h.suffix, h.view, h.errs⟩⟩

theorem At.complete (h : At toks s ((p, ch) :: (q, dh) :: F) v) {Q : Marker → PState → Prop}
    (hq : ∀ s', At toks s' ((q, dh ++ [(some p, .node k (ch.map (·.2)))]) :: F) v → Q p s') :
    Run (complete p k) s Q := by
  obtain ⟨frames, next, r, hb, g2, g3⟩ := h.built
  cases g2 with
  | @cons fs _ r0 p cs ch r' g4 g5 g6 =>
  cases g4 with
  | @cons fs' _ r1 q ds dh r1' g7 g8 g9 =>
  have ho := hb.opened
  have hh := hb.hole
  obtain ⟨trees, g10, g11⟩ := g5.fill
  refine ⟨p, { s with
    events := s.events.set p (.startNode k none) ++ [.finishNode]
    openMarkers := ((q, ds) :: fs').map (·.1) }, ?_, hq _ ⟨⟨_, s.events.length + 1, r, ?_,
      .cons g7 (g8.append (.one (some p) (x := .node p k cs) (trees := [.node k trees]) ?_ ?_ ?_ (.nil _))) ?_, g3⟩, h.suffix, h.view, h.errs⟩⟩
  · show Ludtwig.complete p k s = _
    unfold Ludtwig.complete
    rw [ho]
    simp [hh]
  · have := hb.complete k
    rw [ho] at this
    exact this
  · simp [Skel.fill, g10]
  · simp [stripAll, Tree.strip, g11]
  · intro c hc
    cases hc
    exact ⟨_, _, rfl⟩
  · intro c x hm
    rcases List.mem_append.1 hm with hm | hm
    · exact g9 c x hm
    · simp at hm
      rw [hm.1]
      exact hb.ordered.2.1

theorem At.complete_ (h : At toks s ((p, ch) :: (q, dh) :: F) v) {Q : Unit → PState → Prop}
    (hq : ∀ s', At toks s' ((q, dh ++ [(none, .node k (ch.map (·.2)))]) :: F) v → Q () s') :
    Run (complete_ p k) s Q :=
  .discard (h.complete fun s' h' => hq s' h'.anon1)

theorem At.precede {pre post : List Child} (h : At toks s ((p, pre ++ (some c, x) :: post) :: F) v)
    {Q : Marker → PState → Prop}
    (hq : ∀ m s', At toks s' ((m, (none, x) :: anon (post.map (·.2))) :: (p, pre) :: F) v → Q m s') : Run (precede c) s Q := by
  obtain ⟨frames, next, r, hb, g2, g3⟩ := h.built
  cases g2 with
  | @cons fs _ r0 p cs _ r' g4 g5 g6 =>
  obtain ⟨cpre, k, ks, cpost, r1, rfl, g7, g8⟩ := g5.split rfl
  have hpc : p < c := g6 c x (by simp)
  obtain ⟨h3, h4⟩ := hb.precede hpc
  refine ⟨s.events.length, { s with
    events := s.events.set c (.startNode k (some (s.events.length - c))) ++ [.placeholder]
    openMarkers := s.events.length :: s.openMarkers }, ?_, hq _ _ ⟨⟨_, _, r, h4,
      .cons (.cons g4 g7 (fun c' x' hm => g6 c' x' (List.mem_append_left _ hm))) ?_ ?_, g3⟩, h.suffix, h.view, h.errs⟩⟩
  · simp [Ludtwig.precede, h3]
  · cases g8 with
    | skip a b c' => exact absurd b (by
        simp only [Skel.fill] at a
        split at a
        · cases a
        · cases a; simp [stripAll, Tree.strip])
    | one l a b c' d => exact .one none a b (by simp) d.forget
  · intro c x hm
    simp [anon] at hm

end Ludtwig.Template
