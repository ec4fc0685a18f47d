import Verif.Parser.DirectLemmas
import Verif.Parser.Spec
import Verif.Grammar.Root

/-!
# A program logic for the parser (proof device)

`St toks F n h e s`: the parser state `s` is consistent with the tokens `toks` of the file, its open
markers are `F` (innermost first, each with the completed children that may still be preceded), at
most `n` tokens remain, `h` holds for the remaining tokens after leading trivia, and if `e` is set
there is an error already.
-/

namespace Ludtwig

/-- The remaining tokens after token commands: tokens may only be renamed to `word`, and only a `:`
and its next token, without whitespace in it, may be merged. -/
def eat : List Leaf → List Token → Option (List Token)
  | [], ts => some ts
  | .triv :: ls, ts => eat ls (dropTrivia ts)
  | .tok k :: ls, ts =>
    match dropTrivia ts with
    | [] => none
    | t :: rest => if k = t.kind ∨ k = T!"word" then eat ls rest else none
  | .ntok n k :: ls, ts =>
    match dropTrivia ts with
    | t :: u :: rest =>
      if n = 2 ∧ k = T!"word" ∧ t.kind = T!":" ∧ u.text.all (fun c => !c.isWhitespace) = true then eat ls rest
      else none
    | _ => none

/-- The panics that are not excluded: the arrow function behind an opening parenthesis, and text of
an element with raw text. -/
def Allowed (toks : List Token) (e : Panic) : Prop :=
  (e = .bumpAtEnd .arrowFunction ∧ ∃ t ∈ toks, t.kind = T!"(") ∨
  (e = .bumpAtEnd .rawText ∧ ∃ t ∈ toks, (htmlRawTextElements.contains (t.text.map asciiLower)) = true)

/-- Open frames of the direct machine and the labels of their children that may be preceded. -/
inductive FramesOk : List (Nat × List Skel) → List (Nat × List Nat) → Prop
  | nil : FramesOk [] []
  | cons {p cs us fs F} : us.Sublist (nodeLabels cs) → (∀ c ∈ us, p < c) → FramesOk fs F →
      FramesOk ((p, cs) :: fs) ((p, us) :: F)

/-- The parser state is consistent, with the open markers `F`. -/
structure Inv (toks : List Token) (F : List (Nat × List Nat)) (s : PState) : Prop where
  built : ∃ frames next, Built s.events s.openMarkers ⟨[], frames, next⟩ ∧ FramesOk frames F
  sync : ∃ r, eat (s.events.filterMap Event.leaf?) toks = some r ∧ dropTrivia r = dropTrivia s.rest
  suffix : s.rest <:+ toks
  last : s.lastRange = toks.getLast?.map (·.range)
  nonempty : toks ≠ []
  errs : ∀ e ∈ s.errors, ErrOk toks e
  noerr : s.errors = [] → ∀ fp, Event.startNode .ERROR fp ∉ s.events

/-- See above. -/
structure St (toks : List Token) (F : List (Nat × List Nat)) (n : Nat) (h : List Token → Prop)
    (e : Bool) (s : PState) : Prop where
  inv : Inv toks F s
  len : s.rest.length ≤ n
  view : h (dropTrivia s.rest)
  err : e = true → s.errors ≠ []

/-- The state that a function sees: the markers it opened (innermost first) with their children, the
new children of its caller's node, and the remaining parts of `St`. -/
structure AS where
  L : List (Nat × List Nat)
  vs : List Nat
  n : Nat
  h : List Token → Prop
  e : Bool

/-- No knowledge about the next tokens. -/
abbrev any : List Token → Prop := fun _ => True

/-- `f` runs from `A` to a state with `Q`, whatever the caller's open markers are, or panics in an
allowed way. -/
def J (toks : List Token) (A : AS) (f : P α) (Q : α → AS → Prop) : Prop :=
  ∀ p us F s, St toks (A.L ++ (p, us ++ A.vs) :: F) A.n A.h A.e s →
    match f s with
    | .ok (a, s') => ∃ A' : AS, Q a A' ∧ St toks (A'.L ++ (p, us ++ A'.vs) :: F) A'.n A'.h A'.e s'
    | .error e => Allowed toks e

/-! ## Facts about trivia -/

theorem dropTrivia_idem (ts : List Token) : dropTrivia (dropTrivia ts) = dropTrivia ts := by
  induction ts with
  | nil => rfl
  | cons t ts ih =>
    by_cases h : t.kind.isTrivia = true
    · have : dropTrivia (t :: ts) = dropTrivia ts := by simp [dropTrivia, h]
      rw [this, ih]
    · have : dropTrivia (t :: ts) = t :: ts := by simp [dropTrivia, h]
      rw [this, this]

theorem dropTrivia_suffix (ts : List Token) : dropTrivia ts <:+ ts := List.dropWhile_suffix _

theorem dropTrivia_length (ts : List Token) : (dropTrivia ts).length ≤ ts.length :=
  (dropTrivia_suffix ts).length_le

theorem suffix_tail {a b : List Token} {t} (h : (t :: a) <:+ b) : a <:+ b :=
  (List.suffix_cons t a).trans h

theorem eat_append (a b : List Leaf) (ts : List Token) :
    eat (a ++ b) ts = (eat a ts).bind (eat b) := by
  induction a generalizing ts with
  | nil => rfl
  | cons l a ih =>
    cases l with
    | triv => simp [eat, ih]
    | tok k =>
      simp only [List.cons_append, eat]
      split
      · rfl
      · split
        · exact ih _
        · rfl
    | ntok n k =>
      simp only [List.cons_append, eat]
      split
      · split
        · exact ih _
        · rfl
      · rfl

theorem filterMap_set_leaf {E : List Event} {p : Nat} {e e' : Event} (hp : E[p]? = some e)
    (h1 : e.leaf? = none) (h2 : e'.leaf? = none) :
    (E.set p e').filterMap Event.leaf? = E.filterMap Event.leaf? := by
  induction E generalizing p with
  | nil => rfl
  | cons x E ih =>
    cases p with
    | zero => simp at hp; subst hp; simp [h1, h2]
    | succ p =>
      simp at hp
      simp [List.filterMap_cons, ih hp]

/-! ## The logic -/

variable {toks : List Token} {α β : Type} {L : List (Nat × List Nat)} {vs : List Nat} {n : Nat}
  {h : List Token → Prop} {e : Bool}

theorem J_pure {a : α} {A : AS} {Q : α → AS → Prop} (hq : Q a A) : J toks A (pure a) Q :=
  fun _ _ _ _ hs => ⟨A, hq, hs⟩

theorem J_bind {A : AS} {f : P α} {g : α → P β} {Q1 : α → AS → Prop} {Q : β → AS → Prop}
    (hf : J toks A f Q1) (hg : ∀ a A', Q1 a A' → J toks A' (g a) Q) : J toks A (f >>= g) Q := by
  intro p us F s hs
  have h1 := hf p us F s hs
  show match P.bind f g s with | .ok (a, s') => _ | .error e => _
  unfold P.bind
  cases hfs : f s with
  | error e => rw [hfs] at h1; exact h1
  | ok r =>
    rw [hfs] at h1
    obtain ⟨A', hq, hs'⟩ := h1
    exact hg r.1 A' hq p us F r.2 hs'

theorem J_post {A : AS} {f : P α} {Q Q' : α → AS → Prop} (hf : J toks A f Q)
    (hq : ∀ a A', Q a A' → Q' a A') : J toks A f Q' := by
  intro p us F s hs
  have h1 := hf p us F s hs
  cases hfs : f s with
  | error e => rw [hfs] at h1; exact h1
  | ok r =>
    rw [hfs] at h1
    obtain ⟨A', h2, h3⟩ := h1
    exact ⟨A', hq _ _ h2, h3⟩

theorem J_pre {h' : List Token → Prop} {f : P α} {Q : α → AS → Prop}
    (hf : J toks ⟨L, vs, n, h', e⟩ f Q) (hh : ∀ v, h v → h' v) : J toks ⟨L, vs, n, h, e⟩ f Q :=
  fun p us F s hs => hf p us F s ⟨hs.inv, hs.len, hh _ hs.view, hs.err⟩

theorem J_n {n' : Nat} {f : P α} {Q : α → AS → Prop} (hf : J toks ⟨L, vs, n', h, e⟩ f Q)
    (hn : n ≤ n') : J toks ⟨L, vs, n, h, e⟩ f Q :=
  fun p us F s hs => hf p us F s ⟨hs.inv, Nat.le_trans hs.len hn, hs.view, hs.err⟩

theorem J_err {f : P α} {Q : α → AS → Prop} (hf : J toks ⟨L, vs, n, h, false⟩ f Q) :
    J toks ⟨L, vs, n, h, e⟩ f Q :=
  fun p us F s hs => hf p us F s ⟨hs.inv, hs.len, hs.view, by simp⟩

theorem bind_pure_P (f : P α) : (f >>= pure) = f := by
  funext s
  show P.bind f P.pure s = f s
  unfold P.bind P.pure
  cases f s with
  | error e => rfl
  | ok r => rfl

/-- The last call of a function. -/
theorem J_last {A : AS} {f : P α} {Q : α → AS → Prop} (hf : J toks A (f >>= pure) Q) :
    J toks A f Q := by rwa [bind_pure_P] at hf

theorem bind_assoc_P {γ : Type} (f : P α) (g : α → P β) (k : β → P γ) :
    ((f >>= g) >>= k) = (f >>= fun a => g a >>= k) := by
  funext s
  show P.bind (P.bind f g) k s = P.bind f (fun a => P.bind (g a) k) s
  unfold P.bind
  cases f s with
  | error e => rfl
  | ok r => rfl

theorem J_assoc {γ : Type} {A : AS} {f : P α} {g : α → P β} {k : β → P γ} {Q : γ → AS → Prop}
    (hf : J toks A (f >>= fun a => g a >>= k) Q) : J toks A ((f >>= g) >>= k) Q := by
  rwa [bind_assoc_P]

theorem pure_bind_P (a : α) (g : α → P β) : (pure a >>= g) = g a := rfl

/-- Facts that follow from the next tokens. -/
theorem J_fact {φ : Prop} {f : P α} {Q : α → AS → Prop}
    (hφ : ∀ v, v <:+ toks → h v → φ) (hf : φ → J toks ⟨L, vs, n, h, e⟩ f Q) :
    J toks ⟨L, vs, n, h, e⟩ f Q :=
  fun p us F s hs => hf (hφ _ ((dropTrivia_suffix _).trans hs.inv.suffix) hs.view) p us F s hs

/-- An impossible state. -/
theorem J_false {f : P α} {Q : α → AS → Prop} (hh : ∀ v, ¬ h v) : J toks ⟨L, vs, n, h, e⟩ f Q :=
  fun _ _ _ _ hs => absurd hs.view (hh _)

/-! ## Looking at the next tokens -/

/-- `f` only looks at the next tokens and returns `φ` of them. -/
def Peek (f : P α) (φ : List Token → α) : Prop :=
  ∀ s, ∃ r, f s = .ok (φ (dropTrivia s.rest), { s with rest := r }) ∧
    (r = s.rest ∨ r = dropTrivia s.rest)

theorem St.rest {F s} (hs : St toks F n h e s) {r : List Token}
    (hr : r = s.rest ∨ r = dropTrivia s.rest) : St toks F n h e { s with rest := r } := by
  rcases hr with rfl | rfl
  · exact hs
  · refine ⟨⟨hs.inv.built, ?_, (dropTrivia_suffix _).trans hs.inv.suffix, hs.inv.last,
      hs.inv.nonempty, hs.inv.errs, hs.inv.noerr⟩, ?_, ?_, hs.err⟩
    · obtain ⟨r, h1, h2⟩ := hs.inv.sync
      exact ⟨r, h1, by rw [dropTrivia_idem]; exact h2⟩
    · exact Nat.le_trans (dropTrivia_length _) hs.len
    · rw [dropTrivia_idem]; exact hs.view

theorem b_peek {f : P α} {φ : List Token → α} {g : α → P β} {Q : β → AS → Prop} (hf : Peek f φ)
    (hg : ∀ a, J toks ⟨L, vs, n, fun v => φ v = a ∧ h v, e⟩ (g a) Q) :
    J toks ⟨L, vs, n, h, e⟩ (f >>= g) Q := by
  intro p us F s hs
  obtain ⟨r, h1, h2⟩ := hf s
  show match P.bind f g s with | .ok (a, s') => _ | .error e => _
  unfold P.bind
  rw [h1]
  have h3 := hs.rest h2
  exact hg _ p us F _ ⟨h3.inv, h3.len, ⟨by
    rcases h2 with rfl | rfl
    · rfl
    · simp [dropTrivia_idem], h3.view⟩, h3.err⟩

theorem Peek.pure (a : α) : Peek (Pure.pure a : P α) (fun _ => a) := fun s => ⟨s.rest, rfl, .inl rfl⟩

theorem Peek.bind {f : P α} {φ : List Token → α} {g : α → P β} {ψ : α → List Token → β}
    (hf : Peek f φ) (hg : ∀ a, Peek (g a) (ψ a)) : Peek (f >>= g) (fun v => ψ (φ v) v) := by
  intro s
  obtain ⟨r, h1, h2⟩ := hf s
  obtain ⟨r', h3, h4⟩ := hg (φ (dropTrivia s.rest)) { s with rest := r }
  have hd : dropTrivia r = dropTrivia s.rest := by
    rcases h2 with rfl | rfl
    · rfl
    · exact dropTrivia_idem _
  refine ⟨r', ?_, ?_⟩
  · show P.bind f g s = _
    unfold P.bind
    rw [h1]
    simp only [h3, hd]
  · simp only [hd] at h4
    rcases h4 with rfl | rfl
    · exact h2
    · exact .inr rfl

theorem Peek.peekToken : Peek peekToken (fun v => v.head?) := fun _ => ⟨_, rfl, .inr rfl⟩

theorem Peek.peek : Peek peek (fun v => v.head?.map (·.kind)) :=
  Peek.peekToken.bind (fun _ => .pure _)

theorem Peek.peekNthToken (i : Nat) : Peek (peekNthToken i) (fun v => v[i]?) :=
  fun _ => ⟨_, rfl, .inr rfl⟩

/-- The kind of the next token. -/
def isAt (k : SyntaxKind) (v : List Token) : Bool := v.head?.map (·.kind) == some k

/-- The kind of the next token is in a set. -/
def isAtSet (set : List SyntaxKind) (v : List Token) : Bool :=
  match v.head? with
  | some t => set.contains t.kind
  | none => false

theorem Peek.at' (k : SyntaxKind) : Peek (at' k) (isAt k) :=
  Peek.peek.bind (fun _ => .pure _)

theorem Peek.congr {f : P α} {φ ψ : List Token → α} (hf : Peek f φ) (hφ : ∀ v, φ v = ψ v) :
    Peek f ψ := by
  intro s
  rw [← hφ]
  exact hf s

theorem Peek.atSet (set : List SyntaxKind) : Peek (atSet set) (isAtSet set) := by
  refine (Peek.peek.bind (ψ := fun o _ => match o with
    | some k => set.contains k | none => false) (fun o => ?_)).congr ?_
  · cases o <;> exact .pure _
  · intro v
    cases v <;> rfl

theorem Peek.atEnd : Peek atEnd (fun v => v.isEmpty) :=
  (Peek.peek.bind (fun _ => .pure _)).congr (fun v => by cases v <;> rfl)

theorem Peek.or {a b : P Bool} {φ ψ : List Token → Bool} (ha : Peek a φ) (hb : Peek b ψ) :
    Peek (P.or a b) (fun v => φ v || ψ v) :=
  (ha.bind (ψ := fun x v => if x then true else ψ v) (fun x => by
    cases x
    · exact hb
    · exact .pure _)).congr (fun v => by cases φ v <;> rfl)

theorem Peek.and {a b : P Bool} {φ ψ : List Token → Bool} (ha : Peek a φ) (hb : Peek b ψ) :
    Peek (P.and a b) (fun v => φ v && ψ v) :=
  (ha.bind (ψ := fun x v => if x then ψ v else false) (fun x => by
    cases x
    · exact .pure _
    · exact hb)).congr (fun v => by cases φ v <;> rfl)

theorem Peek.not {a : P Bool} {φ : List Token → Bool} (ha : Peek a φ) :
    Peek (P.not a) (fun v => !φ v) :=
  ha.bind (fun _ => .pure _)

theorem Peek.peekNext : Peek peekNextNonTriviaKind
    (fun v => (dropTrivia v.tail).head?.map (·.kind)) := fun _ => ⟨_, rfl, .inr rfl⟩

/-- The kinds of the next tokens. -/
def isFollowing (set : List SyntaxKind) (v : List Token) : Bool :=
  if v.isEmpty then false else followKinds ((v.filter (fun t => !t.kind.isTrivia)).map (·.kind)) set

theorem Peek.atFollowing (set : List SyntaxKind) : Peek (atFollowing set) (isFollowing set) :=
  fun _ => ⟨_, rfl, .inr rfl⟩

theorem Peek.atFollowingContent (set : List (SyntaxKind × Option Text)) :
    Peek (atFollowingContent set) (fun v => if v.isEmpty then false
      else followContent (v.filter (fun t => !t.kind.isTrivia)) set) :=
  fun _ => ⟨_, rfl, .inr rfl⟩

/-- A twig tag with the given keyword. -/
def isTwigTag (k : SyntaxKind) (v : List Token) : Bool :=
  isAtSet twigBlockOpenSet v && (dropTrivia v.tail).head?.map (·.kind) == some k

theorem Peek.atTwigTag (k : SyntaxKind) : Peek (atTwigTag k) (isTwigTag k) :=
  (Peek.atSet _).and (Peek.peekNext.bind (fun _ => .pure _))

theorem Peek.ifP {c : P Bool} {t f : P α} {φ : List Token → Bool} {ψ χ : List Token → α}
    (hc : Peek c φ) (ht : Peek t ψ) (hf : Peek f χ) :
    Peek (ifP c t f) (fun v => if φ v then ψ v else χ v) :=
  (hc.bind (ψ := fun x v => if x then ψ v else χ v) (fun x => by
    cases x
    · exact hf
    · exact ht))

theorem b_ifP {c : P Bool} {φ : List Token → Bool} {t f : P α} {g : α → P β} {Q : β → AS → Prop}
    (hc : Peek c φ)
    (ht : J toks ⟨L, vs, n, fun v => φ v = true ∧ h v, e⟩ (t >>= g) Q)
    (hf : J toks ⟨L, vs, n, fun v => φ v = false ∧ h v, e⟩ (f >>= g) Q) :
    J toks ⟨L, vs, n, h, e⟩ (ifP c t f >>= g) Q := by
  unfold ifP
  refine J_assoc (b_peek hc (fun b => ?_))
  cases b
  · exact hf
  · exact ht

/-! ## Primitives -/

theorem St.push {F s} (hs : St toks F n h e s) {om : List Nat} {ev : List Event} {F' frames next}
    (hb : Built ev om ⟨[], frames, next⟩) (hF : FramesOk frames F')
    (hl : ev.filterMap Event.leaf? = s.events.filterMap Event.leaf?)
    (hne : s.errors = [] → ∀ fp, Event.startNode .ERROR fp ∉ ev) :
    St toks F' n h e { s with events := ev, openMarkers := om } :=
  ⟨⟨⟨_, _, hb, hF⟩, by simpa [hl] using hs.inv.sync, hs.inv.suffix, hs.inv.last, hs.inv.nonempty,
    hs.inv.errs, hne⟩, hs.len, hs.view, hs.err⟩

theorem b_start {g : Marker → P β} {Q : β → AS → Prop}
    (hg : ∀ m, J toks ⟨(m, []) :: L, vs, n, h, e⟩ (g m) Q) :
    J toks ⟨L, vs, n, h, e⟩ (start >>= g) Q := by
  intro p us F s hs
  obtain ⟨frames, next, hb, hF⟩ := hs.inv.built
  refine hg s.events.length p us F _ (hs.push hb.start ?_ ?_ ?_)
  · exact .cons (.refl _) (by simp) hF
  · simp [Event.leaf?]
  · intro he fp hm
    simp at hm
    exact hs.inv.noerr he fp hm

theorem FramesOk.pos_lt {frames q us p ts L} {N : Nat} (hF : FramesOk frames ((p, ts) :: (q, us) :: L))
    (ho : Ordered N frames) : q < p := by
  cases hF with
  | cons h1 h2 h3 =>
    cases h3 with
    | cons h4 h5 h6 => exact ho.2.1

theorem St.complete {s : PState} {m : Nat} {ts : List Nat} {q us F} {k : SyntaxKind}
    (hs : St toks ((m, ts) :: (q, us) :: F) n h e s) (hk : k = .ERROR → e = true) :
    ∃ s', complete m k s = .ok (m, s') ∧ St toks ((q, us ++ [m]) :: F) n h e s' := by
  obtain ⟨frames, next, hb, hF⟩ := hs.inv.built
  have hlt := hF.pos_lt hb.ordered
  cases hF with
  | @cons _ cs _ fs _ h1 h2 h3 =>
    cases h3 with
    | @cons _ ds _ fs' _ h4 h5 h6 =>
      have hc := hb.complete k
      have ho := hb.opened
      simp only [List.map_cons] at ho
      have hh := hb.hole
      refine ⟨{ s with
        events := s.events.set m (.startNode k none) ++ [.finishNode]
        openMarkers := s.openMarkers.tail }, ?_, ?_⟩
      · simp [Ludtwig.complete, ho, hh]
      · refine hs.push (F' := (q, us ++ [m]) :: F) hc ?_ ?_ ?_
        · refine .cons ?_ ?_ h6
          · simp only [nodeLabels_append, nodeLabels]
            exact h4.append (.refl _)
          · intro c hcm
            simp at hcm
            rcases hcm with hcm | rfl
            · exact h5 c hcm
            · exact hlt
        · rw [List.filterMap_append, filterMap_set_leaf hh rfl rfl]
          simp [Event.leaf?]
        · intro he fp hm
          simp at hm
          have hm' := List.mem_or_eq_of_mem_set hm
          rcases hm' with hm' | hm'
          · exact hs.inv.noerr he fp hm'
          · simp at hm'
            exact hs.err (hk hm'.1.symm) he

theorem b_complete {g : CompletedMarker → P β} {Q : β → AS → Prop} {m : Nat} {ts : List Nat} {q us}
    {k : SyntaxKind} (hk : k = .ERROR → e = true)
    (hg : J toks ⟨(q, us ++ [m]) :: L, vs, n, h, e⟩ (g m) Q) :
    J toks ⟨(m, ts) :: (q, us) :: L, vs, n, h, e⟩ (complete m k >>= g) Q := by
  intro p us' F s hs
  obtain ⟨s', h1, h2⟩ := hs.complete hk
  show match P.bind (complete m k) g s with | .ok (a, s') => _ | .error e => _
  simp only [P.bind, h1]
  exact hg p us' F s' h2

theorem b_complete_nil {g : CompletedMarker → P β} {Q : β → AS → Prop} {m : Nat} {ts : List Nat}
    {k : SyntaxKind} (hk : k = .ERROR → e = true)
    (hg : J toks ⟨[], vs ++ [m], n, h, e⟩ (g m) Q) :
    J toks ⟨[(m, ts)], vs, n, h, e⟩ (complete m k >>= g) Q := by
  intro p us' F s hs
  obtain ⟨s', h1, h2⟩ := hs.complete hk
  show match P.bind (complete m k) g s with | .ok (a, s') => _ | .error e => _
  simp only [P.bind, h1]
  refine hg p us' F s' ?_
  simpa [List.append_assoc] using h2

theorem sublist_split {a b l r : List Nat} {c : Nat} (hs : (a ++ c :: b).Sublist (l ++ c :: r))
    (hc : c ∉ l) (hr : c ∉ r) : a.Sublist l := by
  obtain ⟨l1, l2, hl, h1, h2⟩ := List.append_sublist_iff.1 hs
  have hc2 : c ∈ l2 := h2.subset (by simp)
  rcases List.append_eq_append_iff.1 hl with ⟨as, hl1, has⟩ | ⟨bs, hl1, hbs⟩
  · cases as with
    | nil => simp at hl1; subst hl1; exact h1
    | cons x as =>
      simp at has
      obtain ⟨rfl, rfl⟩ := has
      exact absurd (by simp [hc2]) hr
  · subst hl1
    exact h1.trans (List.sublist_append_left _ _)

theorem nodeLabels_nodup {E : List Event} {g} (hr : Rel E g) {done p cs fs}
    (hg : g.flatten = flatFrames done ((p, cs) :: fs)) : (nodeLabels cs).Nodup := by
  have hsub : ∀ (l : List Skel), (nodeLabels l).Sublist (labels (flatAll l)) := by
    intro l
    induction l with
    | nil => simp [nodeLabels]
    | cons y l ih =>
      cases y with
      | leaf z => simpa [nodeLabels, flatAll, Skel.flat] using ih
      | node a b d =>
        simp only [nodeLabels, flatAll, Skel.flat, List.cons_append, labels_start, labels_append]
        exact (ih.trans (List.sublist_append_right _ _)).cons_cons a
  have hn := hr.nodup
  rw [hg] at hn
  simp only [flatFrames, labels_append, labels_start] at hn
  exact ((List.nodup_cons.1 (List.nodup_append.1 hn).2.1).2).sublist (hsub cs)

theorem St.precede {s : PState} {c : Nat} {a b : List Nat} {q F}
    (hs : St toks ((q, a ++ c :: b) :: F) n h e s) :
    ∃ m s', precede c s = .ok (m, s') ∧ St toks ((m, []) :: (q, a) :: F) n h e s' := by
  obtain ⟨frames, next, hb, hF⟩ := hs.inv.built
  cases hF with
  | @cons _ cs _ fs _ h1 h2 h3 =>
    have hqc : q < c := h2 c (by simp)
    obtain ⟨pre, k, ks, post, rfl, _, hpre⟩ := Skel_split (h1.subset (show c ∈ a ++ c :: b by simp))
    obtain ⟨h4, h5⟩ := hb.precede hqc
    obtain ⟨g, hr, hg⟩ := hb.rel
    have hnd := nodeLabels_nodup hr hg
    simp only [nodeLabels_append, nodeLabels] at h1 hnd
    have hpost : c ∉ nodeLabels post := (List.nodup_cons.1 (List.nodup_append.1 hnd).2.1).1
    refine ⟨s.events.length, { s with
      events := s.events.set c (.startNode k (some (s.events.length - c))) ++ [.placeholder]
      openMarkers := s.events.length :: s.openMarkers }, by simp [Ludtwig.precede, h4], hs.push h5 ?_ ?_ ?_⟩
    · exact .cons (List.nil_sublist _) (by simp)
        (.cons (sublist_split h1 hpre hpost) (fun x hx => h2 x (by simp [hx])) h3)
    · rw [List.filterMap_append, filterMap_set_leaf h4 rfl rfl]
      simp [Event.leaf?]
    · intro he fp hm
      simp at hm
      rcases List.mem_or_eq_of_mem_set hm with hm' | hm'
      · exact hs.inv.noerr he fp hm'
      · simp at hm'
        obtain ⟨rfl, _⟩ := hm'
        exact hs.inv.noerr he none (List.mem_of_getElem? h4)

theorem b_precede_nil {g : Marker → P β} {Q : β → AS → Prop} {c : Nat} (hc : c ∈ vs)
    (hg : ∀ m vs', J toks ⟨[(m, [])], vs', n, h, e⟩ (g m) Q) :
    J toks ⟨[], vs, n, h, e⟩ (precede c >>= g) Q := by
  intro p us F s hs
  obtain ⟨a, b, rfl⟩ := List.append_of_mem hc
  have hs' : St toks ((p, (us ++ a) ++ c :: b) :: F) n h e s := by simpa using hs
  obtain ⟨m, s', h1, h2⟩ := hs'.precede
  show match P.bind (precede c) g s with | .ok (a, s') => _ | .error e => _
  simp only [P.bind, h1]
  exact hg m a p us F s' h2

theorem b_precede {g : Marker → P β} {Q : β → AS → Prop} {c : Nat} {q : Nat} {ts : List Nat}
    (hc : c ∈ ts)
    (hg : ∀ m ts', J toks ⟨(m, []) :: (q, ts') :: L, vs, n, h, e⟩ (g m) Q) :
    J toks ⟨(q, ts) :: L, vs, n, h, e⟩ (precede c >>= g) Q := by
  intro p us F s hs
  obtain ⟨a, b, rfl⟩ := List.append_of_mem hc
  obtain ⟨m, s', h1, h2⟩ := St.precede hs
  show match P.bind (precede c) g s with | .ok (a, s') => _ | .error e => _
  simp only [P.bind, h1]
  exact hg m a p us F s' h2

theorem St.leaf {F s} (hs : St toks F n h e s) (hF0 : F ≠ []) {ev : Event} {l : Leaf}
    (hl : ev.leaf? = some l) {rest r : List Token} {n' : Nat} {h' : List Token → Prop}
    (heat : ∀ x, dropTrivia x = dropTrivia s.rest → eat [l] x = some r)
    (hr : dropTrivia r = dropTrivia rest) (hsuf : rest <:+ toks) (hlen : rest.length ≤ n')
    (hview : h' (dropTrivia rest)) :
    St toks F n' h' e { s with rest := rest, events := s.events ++ [ev] } := by
  obtain ⟨frames, next, hb, hF⟩ := hs.inv.built
  refine ⟨⟨?_, ?_, hsuf, hs.inv.last, hs.inv.nonempty, hs.inv.errs, ?_⟩, hlen, hview, hs.err⟩
  · have hb2 := hb.leaf hl
    cases hF with
    | nil => simp at hF0
    | cons h1 h2 h3 =>
      refine ⟨_, _, hb2, .cons ?_ h2 h3⟩
      simpa [nodeLabels] using h1
  · obtain ⟨x, h1, h2⟩ := hs.inv.sync
    refine ⟨r, ?_, hr⟩
    simp only [List.filterMap_append, List.filterMap_cons, hl, List.filterMap_nil]
    rw [eat_append, h1]
    exact heat x h2
  · intro he fp hm
    simp at hm
    rcases hm with hm | hm
    · exact hs.inv.noerr he fp hm
    · subst hm; simp [Event.leaf?] at hl

theorem b_trivia {g : Unit → P β} {Q : β → AS → Prop}
    (hg : J toks ⟨L, vs, n, h, e⟩ (g ()) Q) :
    J toks ⟨L, vs, n, h, e⟩ (explicitlyConsumeTrivia >>= g) Q := by
  intro p us F s hs
  refine hg p us F _ (hs.leaf (by simp) (l := .triv) rfl (r := dropTrivia s.rest) ?_ ?_
    hs.inv.suffix hs.len hs.view)
  · intro x hx; simp [eat, hx]
  · exact dropTrivia_idem _

theorem St.bumpGen {F s} (hs : St toks F n h e s) (hF0 : F ≠ []) {t : Token} {rest : List Token}
    (hr : dropTrivia s.rest = t :: rest) (site : Site) (k : Option SyntaxKind)
    (hk : ∀ k', k = some k' → k' = T!"word") :
    ∃ s', bumpGen site k s = .ok (t, s') ∧
      St toks F (n - 1) (fun v => ∃ ts, h (t :: ts) ∧ v = dropTrivia ts) e s' ∧
      0 < n ∧ t ∈ toks ∧ h (t :: rest) := by
  have hlen : s.rest.length ≤ n := hs.len
  have hd := dropTrivia_length s.rest
  rw [hr] at hd
  simp at hd
  have hsuf : (t :: rest) <:+ toks := by rw [← hr]; exact (dropTrivia_suffix _).trans hs.inv.suffix
  have hv := hs.view
  rw [hr] at hv
  refine ⟨{ s with rest := rest, events := s.events ++ [.addToken (k.getD t.kind)] },
    by simp [Ludtwig.bumpGen, hr], ?_, by omega, hsuf.subset (by simp), hv⟩
  refine hs.leaf hF0 (l := .tok (k.getD t.kind)) rfl (r := rest) ?_ rfl (suffix_tail hsuf) (by omega)
    ⟨rest, hv, rfl⟩
  intro x hx
  cases k with
  | none => simp [eat, hx, hr]
  | some k => simp [eat, hx, hr, hk k rfl]

theorem b_bumpGen {site : Site} {k : Option SyntaxKind} {g : Token → P β} {Q : β → AS → Prop}
    (hk : ∀ k', k = some k' → k' = T!"word")
    (hne : ∀ v, h v → v = [] → Allowed toks (.bumpAtEnd site))
    (hg : ∀ t n', n' < n → t ∈ toks → (∃ ts, h (t :: ts)) →
      J toks ⟨L, vs, n', fun v => ∃ ts, h (t :: ts) ∧ v = dropTrivia ts, e⟩ (g t) Q) :
    J toks ⟨L, vs, n, h, e⟩ (bumpGen site k >>= g) Q := by
  intro p us F s hs
  show match P.bind (bumpGen site k) g s with | .ok (a, s') => _ | .error e => _
  cases hr : dropTrivia s.rest with
  | nil =>
    have hv := hs.view
    simp only [P.bind, bumpGen, hr]
    exact hne _ hv hr
  | cons t rest =>
    obtain ⟨s', h1, h2, h3, h4, h5⟩ := hs.bumpGen (by simp) hr site k hk
    simp only [P.bind, h1]
    have h3 : 0 < n := h3
    exact hg t (n - 1) (by omega) h4 ⟨rest, h5⟩ p us F s' h2

theorem b_bump {g : Token → P β} {Q : β → AS → Prop} (hne : ∀ v, h v → v ≠ [])
    (hg : ∀ t n', n' < n → t ∈ toks → (∃ ts, h (t :: ts)) →
      J toks ⟨L, vs, n', fun v => ∃ ts, h (t :: ts) ∧ v = dropTrivia ts, e⟩ (g t) Q) :
    J toks ⟨L, vs, n, h, e⟩ (bump >>= g) Q :=
  b_bumpGen (by simp) (fun v hv h0 => absurd h0 (hne v hv)) hg

theorem b_bump_ {g : Unit → P β} {Q : β → AS → Prop} (hne : ∀ v, h v → v ≠ [])
    (hg : ∀ n', n' < n →
      J toks ⟨L, vs, n', fun v => ∃ t ts, h (t :: ts) ∧ v = dropTrivia ts, e⟩ (g ()) Q) :
    J toks ⟨L, vs, n, h, e⟩ (bump_ >>= g) Q := by
  unfold bump_ discard'
  refine J_assoc (b_bump hne (fun t n' hn _ _ => ?_))
  exact J_pre (hg n' hn) (fun v hv => ⟨t, hv⟩)

theorem b_bumpAs {g : Unit → P β} {Q : β → AS → Prop} (hne : ∀ v, h v → v ≠ [])
    (hg : ∀ n', n' < n →
      J toks ⟨L, vs, n', fun v => ∃ t ts, h (t :: ts) ∧ v = dropTrivia ts, e⟩ (g ()) Q) :
    J toks ⟨L, vs, n, h, e⟩ (discard' (bumpAs T!"word") >>= g) Q := by
  unfold discard'
  refine J_assoc (b_bumpGen (by simp) (fun v hv h0 => absurd h0 (hne v hv)) (fun t n' hn _ _ => ?_))
  exact J_pre (hg n' hn) (fun v hv => ⟨t, hv⟩)

theorem b_bumpN {g : Unit → P β} {Q : β → AS → Prop}
    (hne : ∀ v, h v → isAt T!":" v = true ∧ ∃ u, v[1]? = some u ∧ u.text.all (fun c => !c.isWhitespace) = true)
    (hg : ∀ n', n' < n → J toks ⟨L, vs, n', any, e⟩ (g ()) Q) :
    J toks ⟨L, vs, n, h, e⟩ (bumpNextNAs 2 T!"word" >>= g) Q := by
  intro p us F s hs
  obtain ⟨hat, hv⟩ := hne _ hs.view
  have hlen : s.rest.length ≤ n := hs.len
  have hd := dropTrivia_length s.rest
  have hsuf : dropTrivia s.rest <:+ toks := (dropTrivia_suffix _).trans hs.inv.suffix
  show match P.bind (bumpNextNAs 2 T!"word") g s with | .ok (a, s') => _ | .error e => _
  rcases hrr : dropTrivia s.rest with _ | ⟨a, _ | ⟨b, rest⟩⟩
  · simp [hrr] at hv
  · simp [hrr] at hv
  simp only [hrr, List.getElem?_cons_succ, List.getElem?_cons_zero, Option.some.injEq, exists_eq_left'] at hv
  rw [hrr] at hat hd hsuf
  simp only [List.length_cons] at hd
  simp only [P.bind, bumpNextNAs, hrr, List.length_cons, List.drop_succ_cons, List.drop_zero]
  rw [if_neg (by omega)]
  refine hg (n - 1) (by omega) p us F _ (hs.leaf (by simp) (l := .ntok 2 T!"word") rfl
    (r := rest) ?_ rfl (suffix_tail (suffix_tail hsuf)) ?_ trivial)
  · intro x hx
    simp [isAt] at hat
    rw [eat, hx, hrr]
    dsimp only
    rw [if_pos ⟨rfl, rfl, hat, hv⟩]
    rfl
  · show _ ≤ n - 1
    omega

theorem St.error {F s} (hs : St toks F n h e s) {er : ParseError} (her : ErrOk toks er) :
    St toks F n h true { s with errors := s.errors ++ [er] } :=
  ⟨⟨hs.inv.built, hs.inv.sync, hs.inv.suffix, hs.inv.last, hs.inv.nonempty, by
    intro x hx
    simp at hx
    rcases hx with hx | rfl
    · exact hs.inv.errs x hx
    · exact her, by simp⟩, hs.len, hs.view, by simp⟩

theorem b_addError {msg : String} {g : Unit → P β} {Q : β → AS → Prop}
    (hg : J toks ⟨L, vs, n, h, true⟩ (g ()) Q) :
    J toks ⟨L, vs, n, h, e⟩ (addError msg >>= g) Q := by
  intro p us F s hs
  show match P.bind (addError msg) g s with | .ok (a, s') => _ | .error e => _
  have h1 := hs.rest (.inr rfl)
  cases hr : dropTrivia s.rest with
  | nil =>
    obtain ⟨t, ht⟩ : ∃ t, toks.getLast? = some t := by
      cases hl : toks.getLast? with
      | none => exact absurd (List.getLast?_eq_none_iff.1 hl) hs.inv.nonempty
      | some t => exact ⟨t, rfl⟩
    have hlast : s.lastRange = some t.range := by rw [hs.inv.last, ht]; rfl
    simp only [P.bind, addError, addErrorBuilder, Option.isNone_none, Bool.true_or, ↓reduceIte, hr,
      hlast]
    rw [hr, hlast] at h1
    exact hg p us F _ (h1.error (.inr ⟨t, ht, rfl, rfl⟩))
  | cons t rest =>
    simp only [P.bind, addError, addErrorBuilder, Option.isNone_none, Bool.true_or, ↓reduceIte, hr]
    rw [hr] at h1
    have ht : t ∈ toks := by
      have : (t :: rest) <:+ toks := by rw [← hr]; exact (dropTrivia_suffix _).trans hs.inv.suffix
      exact this.subset (by simp)
    exact hg p us F _ (h1.error (.inl ⟨t, ht, rfl, rfl⟩))

theorem b_addErrorAt {msg : String} {t : Token} {g : Unit → P β} {Q : β → AS → Prop} (ht : t ∈ toks)
    (hg : J toks ⟨L, vs, n, h, true⟩ (g ()) Q) :
    J toks ⟨L, vs, n, h, e⟩ (addErrorAt msg t >>= g) Q := by
  intro p us F s hs
  show match P.bind (addErrorAt msg t) g s with | .ok (a, s') => _ | .error e => _
  simp only [P.bind, addErrorAt, addErrorBuilder, Option.isNone_some, Bool.or_self,
    Bool.false_eq_true, ↓reduceIte]
  exact hg p us F _ (hs.error (.inl ⟨t, ht, rfl, rfl⟩))

end Ludtwig
