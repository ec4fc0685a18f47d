import Verif.Template.Run
import Verif.Template.Names

/-!
# Steps and loops (proof device for C73)
-/

namespace Ludtwig.Template

variable {toks : List Token} {s s' : PState} {p q c : Nat} {ch dh : List Child}
  {F : List (Nat × List Child)} {t : Token} {v w u : List Token} {x : Tree} {k : SyntaxKind}

theorem At.whenF {c : P Bool} {φ : List Token → Bool} {a : P Unit} {Q : Unit → PState → Prop} (h : At toks s F v)
    (hc : Sees c φ) (hφ : φ v = false) (hk : ∀ s', At toks s' F v → Q () s') : Run (whenP c a) s Q :=
  h.ifF hc hφ fun s' h' => .pure (hk s' h')

theorem At.whenT {c : P Bool} {φ : List Token → Bool} {a : P Unit} {Q : Unit → PState → Prop} (h : At toks s F v)
    (hc : Sees c φ) (hφ : φ v = true) (hk : ∀ s', At toks s' F v → Run a s' Q) : Run (whenP c a) s Q :=
  h.ifT hc hφ hk

theorem At.wrap {l : List Child} (h : At toks s ((p, ch ++ (some c, x) :: l) :: F) v) {Q : Marker → PState → Prop}
    (hq : ∀ m s', At toks s' ((p, ch ++ [(some m, .node k (x :: l.map (·.2)))]) :: F) v → Q m s') :
    Run (wrap c k) s Q :=
  .bind (h.precede fun m s1 h1 => h1.complete fun s2 h2 => hq m s2 (by simpa using h2))

theorem At.wrap1 (h : At toks s ((p, ch ++ [(some c, x)]) :: F) v) {Q : Marker → PState → Prop}
    (hq : ∀ m s', At toks s' ((p, ch ++ [(some m, .node k [x])]) :: F) v → Q m s') :
    Run (Ludtwig.wrap c k) s Q := h.wrap hq

theorem At.expect (h : At toks s ((p, ch) :: F) (t :: v)) (ht : t.kind = k) {rec} {Q : Option Token → PState → Prop}
    (hq : ∀ s', At toks s' ((p, ch ++ [(none, t.tree)]) :: F) v → Q (some t) s') : Run (expect k rec) s Q :=
  .bind ((Sees.at' k).run h fun s1 h1 => by
    simp only [atK_cons, ht, beq_self_eq_true, if_true]
    exact .bind (h1.bump fun s2 h2 => .pure (hq s2 h2)))

theorem At.expect_ (h : At toks s ((p, ch) :: F) (t :: v)) (ht : t.kind = k) {rec} {Q : Unit → PState → Prop}
    (hq : ∀ s', At toks s' ((p, ch ++ [(none, t.tree)]) :: F) v → Q () s') : Run (expect_ k rec) s Q :=
  .discard (h.expect ht hq)

theorem At.expectAny_ {set rec : List SyntaxKind} (h : At toks s ((p, ch) :: F) (t :: v)) (ht : t.kind ∈ set)
    {Q : Unit → PState → Prop}
    (hq : ∀ s', At toks s' ((p, ch ++ [(none, t.tree)]) :: F) v → Q () s') : Run (expectAny_ set rec) s Q :=
  .discard (.bind ((Sees.atSet set).run h fun s1 h1 => by
    simp only [atS_cons, List.contains_iff_mem.2 ht, if_true]
    exact .bind (h1.bump fun s2 h2 => .pure (hq s2 h2))))

theorem At.consumeTrivia (h : At toks s ((p, ch) :: F) v) {Q : Unit → PState → Prop}
    (hq : ∀ s', At toks s' ((p, ch) :: F) v → Q () s') : Run explicitlyConsumeTrivia s Q := by
  obtain ⟨frames, next, r, g1, g2, g3⟩ := h.built
  cases g2 with
  | @cons fs F r0 p cs ch r' g4 g5 g6 =>
    refine ⟨(), { s with events := s.events ++ [.explicitlyConsumeTrivia] }, rfl, hq _ ⟨?_, h.suffix, h.view, h.errs⟩⟩
    refine ⟨_, _, dropTrivia r, g1.leaf (e := .explicitlyConsumeTrivia) (l := .triv) rfl,
      .cons g4 ?_ g6, by rw [dropTrivia_idem]; exact g3⟩
    have := g5.append (.skip (trees := triviaTrees r) (r1 := dropTrivia r) (x := .leaf .triv) ?_ (strip_trivia r) (.nil _))
    · simpa using this
    · simp [Skel.fill, Leaf.fill]

/-- The label of the last child can be dropped. -/
theorem At.plain {l : Option Nat} (h : At toks s ((p, ch ++ [(l, x)]) :: F) v) :
    At toks s ((p, ch ++ anon [x]) :: F) v := h.anon1

/-! ## Loops -/

/-- A `parse_many` loop from here, whatever its bound. -/
def Loops {σ : Type} (early : σ → P (Bool × σ)) (child : σ → P σ) (a : σ) (s : PState)
    (Q : σ → PState → Prop) : Prop :=
  ∀ fuel, s.rest.length < fuel → Run (loopP (parseManyStep early child) fuel a) s Q

/-- The check at the beginning of a loop: `φ` says whether it ends, and `ρ` is the new value of the
captured variable. -/
structure Early {σ : Type} (early : σ → P (Bool × σ)) (φ : List Token → Bool) (ρ : σ → List Token → σ) : Prop where
  sees : ∀ a, Sees (early a) (fun v => (φ v, ρ a v))
  keep : ∀ a v, φ v = false → ρ a v = a

theorem Early.of {e : P Bool} {φ : List Token → Bool} (h : Sees e φ) :
    Early (σ := σ) (fun a => do return ((← e), a)) φ (fun a _ => a) :=
  ⟨fun _ => h.bind (fun _ => .pure _), fun _ _ _ => rfl⟩

theorem Loops.run {σ : Type} {early : σ → P (Bool × σ)} {child : σ → P σ} {a : σ} {Q : σ → PState → Prop}
    (h : Loops early child a s Q) : Run (parseManyWith early child a) s Q :=
  .bind ⟨_, _, rfl, h _ (Nat.lt_succ_self _)⟩

theorem Loops.many {e : P Bool} {child : P Unit} {Q : Unit → PState → Prop}
    (h : Loops (fun a => do return ((← e), a)) (fun _ => child) () s Q) : Run (parseMany e child) s Q := h.run

theorem beq_ne {a b : SyntaxKind} (h : a ≠ b) : (a == b) = false := beq_eq_false_iff_ne.2 h

theorem Loops.end_ {σ : Type} {early : σ → P (Bool × σ)} {child : σ → P σ} {a : σ} {Q : σ → PState → Prop}
    (h : At toks s F []) (hq : ∀ s', At toks s' F [] → Q a s') : Loops early child a s Q := by
  intro fuel hf
  cases fuel with
  | zero => omega
  | succ fuel =>
    refine .bind (Run.bind ⟨_, _, rfl, .bind ((Sees.at' _).run h fun s1 h1 => ?_)⟩)
    simp only [atK_nil, Bool.false_eq_true, if_false]
    refine .bind (Sees.atEnd.run h1 fun s2 h2 => ?_)
    simp only [List.isEmpty_nil, if_true]
    exact .pure (by simp only [Bool.false_eq_true, if_false]; exact .pure (hq _ h2))

/-- The check at the beginning of a loop gives `r` here, and only looks ahead. -/
def Checks {σ : Type} (toks : List Token) (early : P (Bool × σ)) (F : List (Nat × List Child)) (v : List Token)
    (r : Bool × σ) : Prop :=
  ∀ s (Q : Bool × σ → PState → Prop), At toks s F v → (∀ s', At toks s' F v → Q r s') → Run early s Q

theorem Early.checks {σ : Type} {early : σ → P (Bool × σ)} {φ ρ} (he : Early early φ ρ) (a : σ) :
    Checks toks (early a) F v (φ v, ρ a v) := fun _ _ h hq => (he.sees a).run h hq

theorem Loops.stop' {σ : Type} {early : σ → P (Bool × σ)} {child : σ → P σ} {a b : σ} {Q : σ → PState → Prop}
    (h : At toks s F (t :: v)) (hu : t.kind ≠ .TK_UNKNOWN) (he : Checks toks (early a) F (t :: v) (true, b))
    (hq : ∀ s', At toks s' F (t :: v) → Q b s') : Loops early child a s Q := by
  intro fuel hf
  cases fuel with
  | zero => omega
  | succ fuel =>
    refine .bind (Run.bind ⟨_, _, rfl, .bind ((Sees.at' _).run h fun s1 h1 => ?_)⟩)
    simp only [atK_cons, beq_ne hu, Bool.false_eq_true, if_false]
    refine .bind (Sees.atEnd.run h1 fun s2 h2 => ?_)
    simp only [List.isEmpty_cons, Bool.false_eq_true, if_false]
    refine .bind (he _ _ h2 fun s3 h3 => ?_)
    simp only [if_true]
    exact .pure (by simp only [Bool.false_eq_true, if_false]; exact .pure (hq _ h3))

theorem Loops.stop {σ : Type} {early : σ → P (Bool × σ)} {φ ρ} {child : σ → P σ} {a : σ} {Q : σ → PState → Prop}
    (he : Early early φ ρ) (h : At toks s F (t :: v)) (hu : t.kind ≠ .TK_UNKNOWN) (hφ : φ (t :: v) = true)
    (hq : ∀ s', At toks s' F (t :: v) → Q (ρ a (t :: v)) s') : Loops early child a s Q :=
  Loops.stop' h hu (by have := he.checks (toks := toks) (F := F) (v := t :: v) a; rwa [hφ] at this) hq

theorem Loops.step' {σ : Type} {early : σ → P (Bool × σ)} {child : σ → P σ} {a : σ} {Q : σ → PState → Prop}
    (h : At toks s F (t :: v)) (hu : t.kind ≠ .TK_UNKNOWN) (he : Checks toks (early a) F (t :: v) (false, a))
    (hq : ∀ s', At toks s' F (t :: v) → Run (child a) s' (fun a' s2 => ∃ F' v', At toks s2 F' v' ∧
      v'.length ≤ v.length ∧ Loops early child a' s2 Q)) : Loops early child a s Q := by
  intro fuel hf
  cases fuel with
  | zero => omega
  | succ fuel =>
    refine .bind (Run.bind ⟨_, _, rfl, .bind ((Sees.at' _).run h fun s1 h1 => ?_)⟩)
    simp only [atK_cons, beq_ne hu, Bool.false_eq_true, if_false]
    refine .bind (Sees.atEnd.run h1 fun s2 h2 => ?_)
    simp only [List.isEmpty_cons, Bool.false_eq_true, if_false]
    refine .bind (he _ _ h2 fun s3 h3 => ?_)
    simp only [Bool.false_eq_true, if_false]
    refine .bind ((hq s3 h3).mono fun a' s4 hs => ?_)
    obtain ⟨F', v', h4, hl, hs⟩ := hs
    have hlt := h.shorter h4 (by simp only [List.length_cons]; omega)
    refine Run.bind ⟨_, _, rfl, .pure ?_⟩
    have : (s4.rest.length != s.rest.length) = true := by simp; omega
    rw [this, if_pos rfl]
    exact hs fuel (by omega)

theorem Loops.step {σ : Type} {early : σ → P (Bool × σ)} {φ ρ} {child : σ → P σ} {a : σ} {Q : σ → PState → Prop}
    (he : Early early φ ρ) (h : At toks s F (t :: v)) (hu : t.kind ≠ .TK_UNKNOWN) (hφ : φ (t :: v) = false)
    (hq : ∀ s', At toks s' F (t :: v) → Run (child a) s' (fun a' s2 => ∃ F' v', At toks s2 F' v' ∧
      v'.length ≤ v.length ∧ Loops early child a' s2 Q)) : Loops early child a s Q :=
  Loops.step' h hu (by
    have := he.checks (toks := toks) (F := F) (v := t :: v) a; rwa [he.keep _ _ hφ, hφ] at this) hq

theorem Loops.unknown {σ : Type} {early : σ → P (Bool × σ)} {child : σ → P σ} {a : σ} {Q : σ → PState → Prop}
    (h : At toks s ((p, ch) :: F) (t :: v)) (hu : t.kind = .TK_UNKNOWN)
    (hq : ∀ s', At toks s' ((p, ch ++ [(none, t.tree)]) :: F) v → Loops early child a s' Q) :
    Loops early child a s Q := by
  intro fuel hf
  cases fuel with
  | zero => omega
  | succ fuel =>
    refine .bind (Run.bind ⟨_, _, rfl, .bind ((Sees.at' _).run h fun s1 h1 => ?_)⟩)
    simp only [atK_cons, hu, beq_self_eq_true, if_true]
    refine .bind (h1.bump fun s2 h2 => .pure ?_)
    have hlt := h.shorter h2 (by simp)
    rw [if_pos rfl]
    exact hq s2 h2 fuel (by omega)

theorem seesUnit {e : P Bool} {φ : List Token → Bool} (h : Sees e φ) :
    Early (σ := Unit) (fun a => do return ((← e), a)) φ (fun a _ => a) := .of h

theorem Sees.run' {f : P α} {φ : List Token → α} (hf : Sees f φ) (h : At toks s F v) {Q : α → PState → Prop}
    (hk : ∀ s', At toks s' F v → s'.rest.length ≤ s.rest.length → Q (φ v) s') : Run f s Q := by
  obtain ⟨r, h1, h2⟩ := hf s
  refine ⟨_, _, h1, ?_⟩
  rw [h.view]
  refine hk _ (h.skip h2) ?_
  rcases h2 with rfl | rfl
  · exact Nat.le_refl _
  · exact (dropTrivia_suffix _).length_le

theorem At.ifF' {c : P Bool} {φ : List Token → Bool} {a b : P α} {Q : α → PState → Prop} (h : At toks s F v)
    (hc : Sees c φ) (hφ : φ v = false)
    (hk : ∀ s', At toks s' F v → s'.rest.length ≤ s.rest.length → Run b s' Q) : Run (ifP c a b) s Q :=
  .bind (hc.run' h fun s' h' hl => by rw [hφ, if_neg (by simp)]; exact hk s' h' hl)

/-- A loop whose child changes nothing ends. -/
theorem Loops.idle {σ : Type} {early : σ → P (Bool × σ)} {child : σ → P σ} {a : σ} {Q : σ → PState → Prop}
    (he : Sees (early a) (fun _ => (false, a))) (h : At toks s F (t :: v)) (hu : t.kind ≠ .TK_UNKNOWN)
    (hc : ∀ s', At toks s' F (t :: v) → Run (child a) s' (fun a' s2 => a' = a ∧ At toks s2 F (t :: v) ∧
      s2.rest.length ≤ s'.rest.length))
    (hq : ∀ s', At toks s' F (t :: v) → Q a s') : Loops early child a s Q := by
  intro fuel
  induction fuel generalizing s with
  | zero => intro hf; omega
  | succ fuel ih =>
    intro hf
    refine .bind (Run.bind ⟨_, _, rfl, .bind ((Sees.at' _).run' h fun s1 h1 l1 => ?_)⟩)
    simp only [atK_cons, beq_ne hu, Bool.false_eq_true, if_false]
    refine .bind (Sees.atEnd.run' h1 fun s2 h2 l2 => ?_)
    simp only [List.isEmpty_cons, Bool.false_eq_true, if_false]
    refine .bind (he.run' h2 fun s3 h3 l3 => ?_)
    simp only [Bool.false_eq_true, if_false]
    refine .bind ((hc s3 h3).mono ?_)
    rintro a' s4 ⟨rfl, h4, l4⟩
    refine Run.bind ⟨_, _, rfl, .pure ?_⟩
    by_cases hl : s4.rest.length = s.rest.length
    · rw [show (s4.rest.length != s.rest.length) = false by simp [hl], if_neg (by simp)]
      exact .pure (hq _ h4)
    · rw [show (s4.rest.length != s.rest.length) = true by simp [hl], if_pos rfl]
      exact ih h4 (by omega)

theorem Sees.at1 (k : SyntaxKind) : Sees (Ludtwig.at' k) (atS [k]) :=
  (Sees.at' k).congr (fun v => by
    cases v with
    | nil => rfl
    | cons t v => simp [atS, atK, Bool.beq_eq_decide_eq])

theorem Run.unbind {f : P α} {g : α → P β} {s : PState} {Q : β → PState → Prop} (h : Run (f >>= g) s Q) :
    Run f s (fun a s' => Run (g a) s' Q) := by
  obtain ⟨b, s2, h1, h2⟩ := h
  change P.bind f g s = _ at h1
  unfold P.bind at h1
  split at h1
  · cases h1
  · rename_i a s1 h3
    exact ⟨a, s1, h3, b, s2, h1, h2⟩

/-! ## What a parser gives -/

variable {Q : α → PState → Prop}

/-- `f` takes the tokens `u`, if `fol` holds for those behind, and appends the node `x`. -/
def Gives (toks : List Token) (f : P (Option CompletedMarker)) (u : List Token) (x : Tree) (fol : List Token → Prop) :
    Prop :=
  ∀ {s p ch F v} {Q : Option CompletedMarker → PState → Prop}, At toks s ((p, ch) :: F) (u ++ v) → fol v →
    (∀ c s', At toks s' ((p, ch ++ [(some c, x)]) :: F) v → Q (some c) s') → Run f s Q

/-- The same for functions that always return a node. -/
def Gives1 (toks : List Token) (f : P CompletedMarker) (u : List Token) (x : Tree) (fol : List Token → Prop) :
    Prop :=
  ∀ {s p ch F v} {Q : CompletedMarker → PState → Prop}, At toks s ((p, ch) :: F) (u ++ v) → fol v →
    (∀ c s', At toks s' ((p, ch ++ [(some c, x)]) :: F) v → Q c s') → Run f s Q

/-- The same for functions that return nothing. -/
def GivesU (toks : List Token) (f : P Unit) (u : List Token) (xs : List Tree) (fol : List Token → Prop) :
    Prop :=
  ∀ {s p ch F v} {Q : Unit → PState → Prop}, At toks s ((p, ch) :: F) (u ++ v) → fol v →
    (∀ s', At toks s' ((p, ch ++ anon xs) :: F) v → Q () s') → Run f s Q

theorem Gives1.some {f : P CompletedMarker} {fol} (h : Gives1 toks f u x fol) :
    Gives toks (do return some (← f)) u x fol := fun ha hf hq => .bind (h ha hf fun c s' h' => .pure (hq c s' h'))

theorem Gives1.discard {f : P CompletedMarker} {fol} (h : Gives1 toks f u x fol) :
    GivesU toks (discard' f) u [x] fol := fun ha hf hq => .discard (h ha hf fun _ s' h' => hq s' h'.plain)

theorem Gives.discard {f : P (Option CompletedMarker)} {fol} (h : Gives toks f u x fol) :
    GivesU toks (discard' f) u [x] fol := fun ha hf hq => .discard (h ha hf fun _ s' h' => hq s' h'.plain)

theorem Gives.ifNone {f : P (Option CompletedMarker)} {fol} {e : P Unit} (h : Gives toks f u x fol) :
    GivesU toks (ifNone f e) u [x] fol := fun ha hf hq => .bind (h ha hf fun _ s' h' => .pure (hq s' h'.plain))

theorem Gives.orRecover {f : P (Option CompletedMarker)} {fol} {e : String} {r} (h : Gives toks f u x fol) :
    GivesU toks (orRecover f e r) u [x] fol := h.ifNone

/-- Any tokens may follow. -/
def Any : List Token → Prop := fun _ => True

/-! ## Leaves -/

theorem At.tokenNode (h : At toks s ((p, ch) :: F) (t :: v)) {Q : Marker → PState → Prop}
    (hq : ∀ m s', At toks s' ((p, ch ++ [(some m, .node k [t.tree])]) :: F) v → Q m s') :
    Run (tokenNode k) s Q :=
  .bind (h.start fun m s1 h1 => .bind (h1.bump_ fun s2 h2 => h2.complete fun s3 h3 => hq m s3 (by simpa using h3)))

theorem At.wordNode (h : At toks s ((p, ch) :: F) (t :: v)) {Q : Marker → PState → Prop}
    (hq : ∀ m s', At toks s' ((p, ch ++ [(some m, .node k [wordTree t])]) :: F) v → Q m s') :
    Run (wordNode k) s Q :=
  .bind (h.start fun m s1 h1 => .bind (.discard (h1.bumpAs rfl fun s2 h2 =>
    h2.complete fun s3 h3 => hq m s3 (by simpa [wordTree] using h3))))

theorem At.parseName (h : At toks s ((p, ch) :: F) (t :: v)) (ht : isTwigName t.text = true ∨ t.kind ∈ testKinds)
    {Q : Option Marker → PState → Prop}
    (hq : ∀ m s', At toks s' ((p, ch ++ [(some m, nameTree t)]) :: F) v → Q (some m) s') :
    Run parseTwigName s Q := by
  refine .bind ((Sees.atSet _).run h fun s1 h1 => .bind (Sees.peekToken.run h1 fun s2 h2 => ?_))
  have : (!atS [T!"same as", T!"divisible by"] (t :: v) && !isTwigName t.text) = false := by
    rcases ht with ht | ht
    · rw [ht]; simp
    · have : atS [T!"same as", T!"divisible by"] (t :: v) = true := by
        simpa [atS, testKinds] using ht
      rw [this]; rfl
  simp only [List.head?_cons, this, Bool.false_eq_true, if_false]
  exact .bind (h2.wordNode fun m s3 h3 => .pure (hq m s3 h3))

theorem At.noName (h : At toks s F v) (ht : ∀ t ∈ v.head?, isTwigName t.text = false ∧ t.kind ∉ testKinds)
    {Q : Option Marker → PState → Prop} (hq : ∀ s', At toks s' F v → Q none s') :
    Run parseTwigName s Q := by
  refine .bind ((Sees.atSet _).run h fun s1 h1 => .bind (Sees.peekToken.run h1 fun s2 h2 => ?_))
  cases v with
  | nil => exact .pure (hq _ h2)
  | cons t v =>
    obtain ⟨h3, h4⟩ := ht t rfl
    have : (!atS [T!"same as", T!"divisible by"] (t :: v) && !isTwigName t.text) = true := by
      rw [h3]
      simpa [atS, testKinds] using h4
    simp only [List.head?_cons, this, if_true]
    exact .pure (hq _ h2)

theorem At.mem (h : At toks s F (t :: v)) : t ∈ toks := by
  have : t ∈ significant s.rest := by rw [h.view]; simp
  exact h.suffix.subset (List.mem_filter.1 this).1

theorem name_gives (ht : isTwigName t.text = true ∨ t.kind ∈ testKinds) : Gives toks parseTwigName [t] (nameTree t) Any :=
  fun h _ hq => At.parseName h ht hq

/-! ## Lexed files -/

/-- The symbols that are tested as names. -/
def symbols : List SyntaxKind :=
  tagOpens ++ tagCloses ++ varOpens ++ varCloses ++ commentOpens ++ [T!":", T!"]"]

/-- What is used of the fact that the tokens come from the lexer. -/
structure Good (toks : List Token) : Prop where
  tight : ∀ {a r b}, (a :: r) <:+ toks → (dropTrivia r).head? = some b → Adjacent a b → r.head? = some b
  sym : ∀ {t}, t ∈ toks → t.kind ∈ symbols → isTwigName t.text = false ∧ isHtmlAttributeName t.text = false
  blank : ∀ {a r}, (a :: r) <:+ toks → BlankAt toks a.range.stop → ∃ t r', r = t :: r' ∧ t.kind = T!"ws"

/-- The token behind the next one, if nothing is between them. -/
theorem At.nth (G : Good toks) {b : Token} (h : At toks s F (t :: b :: v)) (ha : Adjacent t b)
    {Q : Option Token → PState → Prop} (hq : ∀ s', At toks s' F (t :: b :: v) → Q (some b) s') :
    Run (peekNthToken 1) s Q := by
  rcases dropTrivia_cases s.rest with ⟨h1, _⟩ | ⟨t', v', rest, h1, h2, h3, h4⟩
  · rw [h.view] at h1; cases h1
  · rw [h.view] at h1
    cases h1
    have hsuf : (t :: rest) <:+ toks := by rw [← h2]; exact (dropTrivia_suffix _).trans h.suffix
    have hb : (dropTrivia rest).head? = some b := by rw [← significant_cons_cases, h3]; rfl
    have := G.tight hsuf hb ha
    refine ⟨_, _, rfl, ?_⟩
    rw [h2]
    have e : (t :: rest)[1]? = some b := by
      cases rest with
      | nil => cases this
      | cons c r => simpa using this
    rw [e]
    have := hq _ (h.skip (.inr rfl))
    rwa [h2] at this

/-- The token behind the next one, if a blank is there. -/
theorem At.nthBlank (G : Good toks) (h : At toks s F (t :: v)) (hb : BlankAt toks t.range.stop)
    {Q : Option Token → PState → Prop} (hq : ∀ b s', b.kind = T!"ws" → At toks s' F (t :: v) → Q (some b) s') :
    Run (peekNthToken 1) s Q := by
  rcases dropTrivia_cases s.rest with ⟨h1, _⟩ | ⟨t', v', rest, h1, h2, h3, h4⟩
  · rw [h.view] at h1; cases h1
  · rw [h.view] at h1
    cases h1
    have hsuf : (t :: rest) <:+ toks := by rw [← h2]; exact (dropTrivia_suffix _).trans h.suffix
    obtain ⟨b, r', rfl, hk⟩ := G.blank hsuf hb
    refine ⟨_, _, rfl, ?_⟩
    rw [h2]
    have := hq b _ hk (h.skip (.inr rfl))
    rw [h2] at this
    simpa using this

/-- Two tokens as one, if nothing is between them. -/
theorem At.bump2 (G : Good toks) {b : Token} (h : At toks s ((p, ch) :: F) (t :: b :: v)) (ha : Adjacent t b)
    (hk : k.isTrivia = false) {Q : Unit → PState → Prop}
    (hq : ∀ s', At toks s' ((p, ch ++ [(none, .token k (t.text ++ b.text))]) :: F) v → Q () s') :
    Run (bumpNextNAs 2 k) s Q := by
  rcases dropTrivia_cases s.rest with ⟨h1, _⟩ | ⟨t', v', rest, h1, h2, h3, h4⟩
  · rw [h.view] at h1; cases h1
  · rw [h.view] at h1
    cases h1
    have hsuf : (t :: rest) <:+ toks := by rw [← h2]; exact (dropTrivia_suffix _).trans h.suffix
    have hb : (dropTrivia rest).head? = some b := by rw [← significant_cons_cases, h3]; rfl
    have := G.tight hsuf hb ha
    obtain ⟨r, rfl⟩ : ∃ r, rest = b :: r := by
      cases rest with
      | nil => cases this
      | cons c r => exact ⟨r, by simp at this; rw [this]⟩
    obtain ⟨frames, next, r', g1, g2, g3⟩ := h.built
    cases g2 with
    | @cons fs F r0 p cs ch r' g4 g5 g6 =>
      have hbk : b.kind.isTrivia = false := by
        have : b ∈ significant (b :: r) := by rw [h3]; simp
        simpa [significant] using (List.mem_filter.1 this).2
      have hv : significant r = v := by
        have : significant (b :: r) = b :: significant r := by simp [significant, hbk]
        rw [this] at h3
        cases h3
        rfl
      refine ⟨(), { s with rest := r, events := s.events ++ [.addNextNTokensAs 2 k] }, ?_, hq _ ⟨?_, ?_, hv, h.errs⟩⟩
      · simp [bumpNextNAs, h2]
      · refine ⟨_, _, r, g1.leaf (e := .addNextNTokensAs 2 k) (l := .ntok 2 k) rfl,
          .cons g4 (g5.append (.one none (trees := triviaTrees r' ++ [.token k (t.text ++ b.text)]) ?_ ?_ (by simp) (.nil _))) ?_, rfl⟩
        · rw [h2] at g3
          simp [Skel.fill, Leaf.fill, g3]
        · rw [strip_append, strip_trivia]
          simp [stripAll, Tree.strip, hk]
        · intro c x hm
          rcases List.mem_append.1 hm with hm | hm
          · exact g6 c x hm
          · simp at hm
      · exact ((List.suffix_cons b r).trans (List.suffix_cons t _)).trans hsuf

end Ludtwig.Template
