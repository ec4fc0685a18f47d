import Verif.Layout.Spec
import Verif.Parser.Hoare

/-!
# Two runs of the parser side by side (proof device)

Two files that differ in their layout. Either whitespace and line breaks are between the same tokens,
or (`free`) the second file may have some where the first one has none; then only what the first run
does without syntax errors matters.
-/

namespace Ludtwig.Layout

/-! ## Positions -/

theorem gap_head {g : List Token} (h : Gap g) (ts : List Token) :
    ∃ t q, g ++ ts = t :: q ∧ t.kind.isTrivia = true ∧ t.text.all blankChar = true := by
  obtain ⟨h1, h2⟩ := h
  cases g with
  | nil => exact absurd rfl h1
  | cons t g => exact ⟨t, g ++ ts, rfl, h2 t (by simp)⟩

theorem dropTrivia_sig {ts : List Token} (h : ∀ t ∈ ts.head?, t.kind.isTrivia = false) :
    dropTrivia ts = ts := by
  cases ts with
  | nil => rfl
  | cons t ts => simp [dropTrivia, h t (by simp)]

theorem dropTrivia_gap {g ts : List Token} (h : ∀ t ∈ g, t.kind.isTrivia = true)
    (hs : ∀ t ∈ ts.head?, t.kind.isTrivia = false) : dropTrivia (g ++ ts) = ts := by
  induction g with
  | nil => exact dropTrivia_sig hs
  | cons t g ih =>
    have : dropTrivia (t :: g ++ ts) = dropTrivia (g ++ ts) := by
      simp [dropTrivia, h t (by simp)]
    rw [this, ih (fun x hx => h x (by simp [hx]))]

/-- The layout of the second file: as `Relayout`, or (`free`) as `Widened`. -/
inductive Lay (free : Bool) : List Token → List Token → Prop
  | nil : Lay free [] []
  | token {t t' ts ts'} : t.kind.isTrivia = false → SameTok t t' →
      (t.kind = T!"<" → ts.head?.map (·.kind) = ts'.head?.map (·.kind)) →
      (free = true → t.kind = T!":" → BehindColon ts ts') → Lay free ts ts' →
      Lay free (t :: ts) (t' :: ts')
  | gap {g g' ts ts'} : Blank g → Gap g' → (g = [] → free = true) →
      (∀ t ∈ ts.head?, t.kind.isTrivia = false) →
      (∀ t ∈ ts'.head?, t.kind.isTrivia = false) → Lay free ts ts' → Lay free (g ++ ts) (g' ++ ts')

theorem Relayout.lay {ts ts' : List Token} (h : Relayout ts ts') : Lay false ts ts' := by
  induction h with
  | nil => exact .nil
  | token h1 h2 h3 _ ih => exact .token h1 h2 h3 (by simp) ih
  | gap h1 h2 h3 h4 _ ih => exact .gap h1.2 h2 (fun h => absurd h h1.1) h3 h4 ih

theorem Widened.lay {ts ts' : List Token} (h : Widened ts ts') : Lay true ts ts' := by
  induction h with
  | nil => exact .nil
  | token h1 h2 h3 h4 _ ih => exact .token h1 h2 h3 (fun _ => h4) ih
  | gap h1 h2 h3 h4 _ ih => exact .gap h1 h2 (fun _ => rfl) h3 h4 ih

/-- What follows the trivia. -/
inductive Next (free : Bool) : List Token → List Token → Prop
  | nil : Next free [] []
  | token {t t' ts ts'} : t.kind.isTrivia = false → SameTok t t' →
      (t.kind = T!"<" → ts.head?.map (·.kind) = ts'.head?.map (·.kind)) →
      (free = true → t.kind = T!":" → BehindColon ts ts') → Lay free ts ts' →
      Next free (t :: ts) (t' :: ts')

variable {free : Bool}

theorem Next.lay {r r' : List Token} (h : Next free r r') : Lay free r r' := by
  cases h with
  | nil => exact .nil
  | token h1 h2 h3 h4 h5 => exact .token h1 h2 h3 h4 h5

theorem Next.sig {r r' : List Token} (h : Next free r r') :
    (∀ t ∈ r.head?, t.kind.isTrivia = false) ∧ ∀ t ∈ r'.head?, t.kind.isTrivia = false := by
  cases h with
  | nil => simp
  | token h1 h2 _ _ _ => exact ⟨by simpa using h1, by simpa [← h2.1] using h1⟩

theorem Lay.next {r r' : List Token} (h : Lay free r r') :
    Next free (dropTrivia r) (dropTrivia r') ∧ (dropTrivia r' = r' → dropTrivia r = r) ∧
      (free = false → dropTrivia r = r → dropTrivia r' = r') := by
  induction h with
  | nil => exact ⟨.nil, by simp [dropTrivia], by simp [dropTrivia]⟩
  | @token t t' ts ts' h1 h2 h3 h4 h5 _ =>
    have h1' : t'.kind.isTrivia = false := h2.1 ▸ h1
    rw [dropTrivia_sig (ts := t :: ts) (by simpa using h1),
      dropTrivia_sig (ts := t' :: ts') (by simpa using h1')]
    exact ⟨.token h1 h2 h3 h4 h5, by simp, by simp⟩
  | @gap g g' ts ts' h1 h2 h3 h4 h5 h6 ih =>
    rw [dropTrivia_gap (fun t ht => (h1 t ht).1) h4, dropTrivia_gap (fun t ht => (h2.2 t ht).1) h5]
    refine ⟨?_, ?_, ?_⟩
    · rw [← dropTrivia_sig h4, ← dropTrivia_sig h5]; exact ih.1
    · intro h
      exact absurd (by simpa using h) h2.1
    · intro hf h
      have := h3 (by simpa using h)
      rw [hf] at this
      cases this

theorem Lay.sig {ts ts' : List Token} (h : Lay free ts ts')
    (hs : ∀ t ∈ ts.head?, t.kind.isTrivia = false)
    (hs' : ∀ t ∈ ts'.head?, t.kind.isTrivia = false) : Next free ts ts' := by
  have := h.next.1
  rwa [dropTrivia_sig hs, dropTrivia_sig hs'] at this

theorem Lay.drop {r r' : List Token} (h : Lay free r r') :
    Lay free (dropTrivia r) (dropTrivia r') := h.next.1.lay

theorem Next.head {r r' : List Token} (h : Next free r r') :
    r.head?.map (·.kind) = r'.head?.map (·.kind) ∧ r.head?.map (·.text) = r'.head?.map (·.text) ∧
      r.isEmpty = r'.isEmpty := by
  cases h with
  | nil => simp
  | token _ h2 _ _ _ => exact ⟨by simp [h2.1], by simp [h2.2], rfl⟩

theorem filter_gap {g : List Token} (h : ∀ t ∈ g, t.kind.isTrivia = true) :
    g.filter (fun t => !t.kind.isTrivia) = [] := by
  rw [List.filter_eq_nil_iff]
  intro t ht
  simp [h t ht]

/-- The tokens that are not trivia are the same. -/
theorem Lay.filter {r r' : List Token} (h : Lay free r r') :
    (r.filter (fun t => !t.kind.isTrivia)).map (fun t => (t.kind, t.text)) =
      (r'.filter (fun t => !t.kind.isTrivia)).map (fun t => (t.kind, t.text)) := by
  induction h with
  | nil => rfl
  | @token t t' ts ts' h1 h2 _ _ _ ih =>
    have h1' : t'.kind.isTrivia = false := h2.1 ▸ h1
    simp only [List.filter_cons, h1, h1', Bool.not_false, if_true, List.map_cons, ih, h2.1, h2.2]
  | gap h1 h2 _ _ _ _ ih =>
    rw [List.filter_append, List.filter_append, filter_gap (fun t ht => (h1 t ht).1),
      filter_gap (fun t ht => (h2.2 t ht).1)]
    exact ih

/-- How the positions of the two runs move: not at all, over the trivia, or forward. -/
def Moves (r r' q q' : List Token) : Prop :=
  (q = r ∧ q' = r') ∨ (q = dropTrivia r ∧ q' = dropTrivia r') ∨
    (q.length < r.length ∧ q'.length < r'.length)

theorem Moves.refl (r r' : List Token) : Moves r r' r r' := .inl ⟨rfl, rfl⟩
theorem Moves.drop (r r' : List Token) : Moves r r' (dropTrivia r) (dropTrivia r') :=
  .inr (.inl ⟨rfl, rfl⟩)

theorem Moves.trans {r r' q q' p p' : List Token} (h : Moves r r' q q') (h2 : Moves q q' p p') :
    Moves r r' p p' := by
  have l1 := dropTrivia_length r
  have l2 := dropTrivia_length r'
  have l3 := dropTrivia_length q
  have l4 := dropTrivia_length q'
  rcases h with ⟨rfl, rfl⟩ | ⟨rfl, rfl⟩ | ⟨h1, h1'⟩
  · exact h2
  · rcases h2 with ⟨rfl, rfl⟩ | ⟨rfl, rfl⟩ | ⟨h2, h2'⟩
    · exact .inr (.inl ⟨rfl, rfl⟩)
    · exact .inr (.inl ⟨by rw [dropTrivia_idem], by rw [dropTrivia_idem]⟩)
    · exact .inr (.inr ⟨by omega, by omega⟩)
  · rcases h2 with ⟨rfl, rfl⟩ | ⟨rfl, rfl⟩ | ⟨h2, h2'⟩
    · exact .inr (.inr ⟨h1, h1'⟩)
    · exact .inr (.inr ⟨by omega, by omega⟩)
    · exact .inr (.inr ⟨by omega, by omega⟩)

theorem length_drop {r : List Token} : (dropTrivia r).length = r.length ↔ dropTrivia r = r :=
  ⟨fun h => (dropTrivia_suffix r).eq_of_length h, fun h => by rw [h]⟩

/-- The two runs agree on whether the position has changed, unless only the second one has skipped
whitespace. -/
theorem Moves.length {r r' q q' : List Token} (hr : Lay free r r') (h : Moves r r' q q') :
    (q.length != r.length) = (q'.length != r'.length) ∨
      free = true ∧ (q.length != r.length) = false ∧ (q'.length != r'.length) = true ∧
        dropTrivia r = r ∧ q = r ∧ q' = dropTrivia r' := by
  rcases h with ⟨rfl, rfl⟩ | ⟨rfl, rfl⟩ | ⟨h1, h1'⟩
  · simp
  · have := hr.next.2
    rw [← length_drop, ← length_drop] at this
    by_cases h : (dropTrivia r).length = r.length
    · by_cases h' : (dropTrivia r').length = r'.length
      · simp [h, h']
      · right
        refine ⟨?_, by simp [h], by simp [h'], length_drop.1 h, length_drop.1 h, rfl⟩
        cases free with
        | true => rfl
        | false => exact absurd (this.2 rfl h) h'
    · have h' : ¬ (dropTrivia r').length = r'.length := fun hh => h (this.1 hh)
      left
      rw [bne_iff_ne.2 h, bne_iff_ne.2 h']
  · left
    rw [bne_iff_ne.2 (by omega), bne_iff_ne.2 (by omega)]

/-! ## States -/

/-- The remaining tokens after token commands that merge no trivia. -/
def eatSig : List Leaf → List Token → Option (List Token)
  | [], ts => some ts
  | .triv :: ls, ts => eatSig ls (dropTrivia ts)
  | .tok _ :: ls, ts =>
    match dropTrivia ts with
    | [] => none
    | _ :: rest => eatSig ls rest
  | .ntok n _ :: ls, ts =>
    match dropTrivia ts with
    | t :: u :: rest =>
      if n = 2 ∧ u.kind.isTrivia = false ∧ t.kind = T!":" ∧ u.text.head?.any Char.isAlpha = true then
        eatSig ls rest
      else none
    | _ => none

theorem eatSig_append (a b : List Leaf) (ts : List Token) :
    eatSig (a ++ b) ts = (eatSig a ts).bind (eatSig b) := by
  induction a generalizing ts with
  | nil => rfl
  | cons l a ih =>
    cases l with
    | triv => simp [eatSig, ih]
    | tok k =>
      simp only [List.cons_append, eatSig]
      split
      · rfl
      · exact ih _
    | ntok n k =>
      simp only [List.cons_append, eatSig]
      split
      · split
        · exact ih _
        · rfl
      · rfl

/-- The token behind a `:` that belongs to it is behind the `:` in the other file, too. -/
theorem Lay.colon {ts ts' : List Token} {u : Token} (h : Lay free (u :: ts) ts')
    (hu : u.kind.isTrivia = false) (hw : u.text.head?.any Char.isAlpha = true)
    (hc : free = true → BehindColon (u :: ts) ts') : Next free (u :: ts) ts' := by
  refine h.sig (by simpa using hu) ?_
  by_cases hf : free = true
  · rcases hc hf with h1 | ⟨x, h1, h2⟩
    · intro t' ht'
      rw [Option.mem_def] at ht'
      rw [ht'] at h1
      simpa [hu] using h1.symm
    · simp only [List.head?_cons, Option.mem_def, Option.some.injEq] at h1
      subst h1
      rw [hw] at h2
      cases h2
  · have h1 := h.next.2.2 (by simpa using hf) (dropTrivia_sig (by simpa using hu))
    rw [← h1]
    exact h.next.1.sig.2

/-- The first file, and whether the second one may have more whitespace. -/
structure Run where
  toks : List Token
  free : Bool

/-- The states of two runs. -/
structure Sim (R : Run) (s s' : PState) : Prop where
  rest : Lay R.free s.rest s'.rest
  last : R.free = false → s.lastRange.isSome = s'.lastRange.isSome
  events : s.events = s'.events
  opened : s.openMarkers = s'.openMarkers
  errors : s.errors.map ParseError.says = s'.errors.map ParseError.says
  sync : ∃ r, eatSig (s.events.filterMap Event.leaf?) R.toks = some r ∧ dropTrivia r = dropTrivia s.rest

/-- The first run does not matter: it panics or has found a syntax error. -/
def Bad : Except Panic (α × PState) → Prop
  | .error _ => True
  | .ok (_, t) => t.errors ≠ []

/-- The first run is out of fuel or does not matter. -/
def Left (R : Run) (x : Except Panic (α × PState)) : Prop :=
  x = .error .outOfFuel ∨ (R.free = true ∧ Bad x)

/-- The outcomes of two runs from `s` and `s'`. -/
def Outcome (R : Run) (V : α → α → Prop) (s s' : PState)
    (x y : Except Panic (α × PState)) : Prop :=
  Left R x ∨ y = .error .outOfFuel ∨ (∃ e, x = .error e ∧ y = .error e) ∨
  ∃ a t b t', x = .ok (a, t) ∧ y = .ok (b, t') ∧ V a b ∧ Sim R t t' ∧
    Moves s.rest s'.rest t.rest t'.rest

/-- How the position of a run moves: not at all, over the trivia, or behind the next token. -/
def Step (r q : List Token) : Prop :=
  q = r ∨ q = dropTrivia r ∨ q.length < (dropTrivia r).length

theorem Step.trans {r q p : List Token} (h : Step r q) (h2 : Step q p) : Step r p := by
  have l1 := dropTrivia_length q
  have l2 := dropTrivia_length p
  rcases h with rfl | rfl | h
  · exact h2
  · rcases h2 with rfl | rfl | h2
    · exact .inr (.inl rfl)
    · exact .inr (.inl (dropTrivia_idem _))
    · rw [dropTrivia_idem] at h2; exact .inr (.inr h2)
  · rcases h2 with rfl | rfl | h2
    · exact .inr (.inr h)
    · exact .inr (.inr (by omega))
    · exact .inr (.inr (by omega))

/-- An action keeps syntax errors and never goes back. -/
def Mono (m : P α) : Prop :=
  ∀ s a t, m s = .ok (a, t) → (s.errors ≠ [] → t.errors ≠ []) ∧ Step s.rest t.rest

/-- Two actions do the same on files of different layout. -/
structure Rel (R : Run) (V : α → α → Prop) (m m' : P α) : Prop where
  mono : Mono m
  sim : ∀ s s', Sim R s s' → Outcome R V s s' (m s) (m' s')

/-- Relations between results that hold between equal ones. -/
class Rf (V : α → α → Prop) : Prop where
  rf : ∀ a, V a a

instance : Rf (Eq : α → α → Prop) := ⟨fun _ => rfl⟩
instance : Rf SameTok := ⟨fun _ => ⟨rfl, rfl⟩⟩

variable {R : Run} {α β : Type}

theorem Mono.pure (a : α) : Mono (Pure.pure a : P α) := by
  intro s b t h
  cases h
  exact ⟨id, .inl rfl⟩

theorem Mono.bind {m : P α} {f : α → P β} (hm : Mono m) (hf : ∀ a, Mono (f a)) : Mono (m >>= f) := by
  intro s b t h
  replace h : P.bind m f s = .ok (b, t) := h
  unfold P.bind at h
  split at h
  · cases h
  · rename_i a u hu
    obtain ⟨h1, h2⟩ := hm _ _ _ hu
    obtain ⟨h3, h4⟩ := hf _ _ _ _ h
    exact ⟨fun h => h3 (h1 h), h2.trans h4⟩

theorem Mono.panic (e : Panic) : Mono (P.panic e : P α) := by
  intro s a t h
  cases h

theorem Mono.ite {c : Prop} [Decidable c] {m f : P α} (h1 : Mono m) (h2 : Mono f) :
    Mono (if c then m else f) := by
  split
  · exact h1
  · exact h2

theorem Left.bind {s : PState} {m : P α} {f : α → P β} (h : Left R (m s)) (hf : ∀ a, Mono (f a)) :
    Left R ((m >>= f) s) := by
  show Left R (P.bind m f s)
  unfold P.bind
  rcases h with h | ⟨h1, h2⟩
  · rw [h]; exact .inl rfl
  · refine .inr ⟨h1, ?_⟩
    cases hx : m s with
    | error e => exact trivial
    | ok p =>
      obtain ⟨a, t⟩ := p
      rw [hx] at h2
      dsimp only
      cases hy : f a t with
      | error e => exact trivial
      | ok q => exact (hf a t q.1 q.2 hy).1 h2

theorem Outcome.bind {V : α → α → Prop} {W : β → β → Prop} {s s' : PState} {m m' : P α}
    {f f' : α → P β} (hm : Outcome R V s s' (m s) (m' s')) (hmono : ∀ a, Mono (f a))
    (hf : ∀ a t b t', m s = .ok (a, t) → m' s' = .ok (b, t') → V a b → Sim R t t' →
      Outcome R W t t' (f a t) (f' b t')) : Outcome R W s s' ((m >>= f) s) ((m' >>= f') s') := by
  rcases hm with h | h | ⟨e, h1, h2⟩ | ⟨a, t, b, t', h1, h2, hv, ht, hmv⟩
  · exact .inl (h.bind hmono)
  all_goals
    show Outcome R W s s' (P.bind m f s) (P.bind m' f' s')
    unfold P.bind
  · rw [h]; exact .inr (.inl rfl)
  · rw [h1, h2]; exact .inr (.inr (.inl ⟨e, rfl, rfl⟩))
  · rw [h1, h2]
    rcases hf a t b t' h1 h2 hv ht with h | h | h | ⟨a', u, b', u', k1, k2, kv, ku, kmv⟩
    · exact .inl h
    · exact .inr (.inl h)
    · exact .inr (.inr (.inl h))
    · exact .inr (.inr (.inr ⟨a', u, b', u', k1, k2, kv, ku, hmv.trans kmv⟩))

theorem Rel.pure {V : α → α → Prop} {a b : α} (h : V a b) : Rel R V (Pure.pure a) (Pure.pure b) :=
  ⟨.pure a, fun s s' hs => .inr (.inr (.inr ⟨a, s, b, s', rfl, rfl, h, hs, .refl _ _⟩))⟩

theorem Rel.pureEq (a : α) : Rel R Eq (Pure.pure a) (Pure.pure a) := .pure rfl

theorem Rel.bind {V : α → α → Prop} [Rf V] {W : β → β → Prop} {m m' : P α} {f f' : α → P β}
    (hm : Rel R V m m') (hf : ∀ a b, V a b → Rel R W (f a) (f' b)) :
    Rel R W (m >>= f) (m' >>= f') where
  mono := hm.mono.bind (fun a => (hf a a (Rf.rf a)).mono)
  sim s s' hs := (hm.sim s s' hs).bind (fun a => (hf a a (Rf.rf a)).mono)
    (fun a t b t' _ _ hv ht => (hf a b hv).sim t t' ht)

theorem Rel.bindEq {W : β → β → Prop} {m m' : P α} {f f' : α → P β}
    (hm : Rel R Eq m m') (hf : ∀ a, Rel R W (f a) (f' a)) :
    Rel R W (m >>= f) (m' >>= f') :=
  hm.bind (fun a b h => by subst h; exact hf a)

theorem Rel.panic {V : α → α → Prop} (e : Panic) : Rel R V (P.panic e) (P.panic e) :=
  ⟨.panic e, fun _ _ _ => .inr (.inr (.inl ⟨e, rfl, rfl⟩))⟩

theorem Rel.ite {V : α → α → Prop} {c : Prop} [Decidable c] {m m' f f' : P α}
    (h1 : c → Rel R V m m') (h2 : ¬ c → Rel R V f f') :
    Rel R V (if c then m else f) (if c then m' else f') := by
  split
  · rename_i h; exact h1 h
  · rename_i h; exact h2 h

/-! ## Looking ahead -/

theorem Sim.drop {s s' : PState} (h : Sim R s s') :
    Sim R { s with rest := dropTrivia s.rest } { s' with rest := dropTrivia s'.rest } :=
  { h with
    rest := h.rest.drop
    sync := by
      obtain ⟨r, h1, h2⟩ := h.sync
      exact ⟨r, h1, by rw [h2, dropTrivia_idem]⟩ }

/-- An action that looks at the tokens behind the trivia. -/
theorem Rel.look {V : α → α → Prop} {m : P α} {φ : List Token → α}
    (hm : ∀ s, m s = .ok (φ (dropTrivia s.rest), { s with rest := dropTrivia s.rest }))
    (hφ : ∀ r r', Next R.free r r' → V (φ r) (φ r')) : Rel R V m m where
  mono s a t h := by
    rw [hm s] at h
    cases h
    exact ⟨id, .inr (.inl rfl)⟩
  sim s s' hs :=
    .inr (.inr (.inr ⟨_, _, _, _, hm s, hm s', hφ _ _ hs.rest.next.1, hs.drop, .drop _ _⟩))

/-- Tokens that may be missing. -/
def SameTok? : Option Token → Option Token → Prop
  | none, none => True
  | some t, some t' => SameTok t t'
  | _, _ => False

instance : Rf SameTok? := ⟨fun o => by cases o; trivial; exact ⟨rfl, rfl⟩⟩

theorem Rel.peekToken : Rel R SameTok? peekToken peekToken :=
  .look (φ := fun v => v.head?) (fun _ => rfl) (fun r r' h => by
    cases h with
    | nil => trivial
    | token _ h2 _ _ _ => exact h2)

theorem SameTok?.kind {o o' : Option Token} (h : SameTok? o o') :
    o.map (·.kind) = o'.map (·.kind) := by
  cases o <;> cases o' <;> first | rfl | exact h.elim | skip
  simp [h.1]

theorem SameTok?.text {o o' : Option Token} (h : SameTok? o o') :
    o.map (·.text) = o'.map (·.text) := by
  cases o <;> cases o' <;> first | rfl | exact h.elim | skip
  simp [h.2]

theorem Rel.peek : Rel R Eq peek peek :=
  Rel.bind Rel.peekToken (fun _ _ h => .pure h.kind)

theorem Rel.at' (k : SyntaxKind) : Rel R Eq (at' k) (at' k) :=
  Rel.peek.bindEq (fun _ => .pureEq _)

theorem Rel.atSet (ks : List SyntaxKind) : Rel R Eq (atSet ks) (atSet ks) :=
  Rel.peek.bindEq (fun o => by cases o <;> exact .pureEq _)

theorem Rel.atEnd : Rel R Eq atEnd atEnd := Rel.peek.bindEq (fun _ => .pureEq _)

theorem Rel.or {a b a' b' : P Bool} (ha : Rel R Eq a a') (hb : Rel R Eq b b') :
    Rel R Eq (P.or a b) (P.or a' b') :=
  ha.bindEq (fun x => .ite (fun _ => .pureEq _) (fun _ => hb))

theorem Rel.and {a b a' b' : P Bool} (ha : Rel R Eq a a') (hb : Rel R Eq b b') :
    Rel R Eq (P.and a b) (P.and a' b') :=
  ha.bindEq (fun x => .ite (fun _ => hb) (fun _ => .pureEq _))

theorem Rel.not {a a' : P Bool} (ha : Rel R Eq a a') : Rel R Eq (P.not a) (P.not a') :=
  ha.bindEq (fun _ => .pureEq _)

theorem Rel.peekNext : Rel R Eq peekNextNonTriviaKind peekNextNonTriviaKind :=
  .look (φ := fun v => (dropTrivia v.tail).head?.map (·.kind)) (fun _ => rfl) (fun r r' h => by
    cases h with
    | nil => rfl
    | token _ _ _ _ h4 => exact h4.next.1.head.1)

theorem Rel.atFollowing (set : List SyntaxKind) : Rel R Eq (atFollowing set) (atFollowing set) :=
  .look (φ := isFollowing set) (fun _ => rfl) (fun r r' h => by
    have h1 := h.lay.filter
    have h2 := congrArg (List.map (·.1)) h1
    simp only [List.map_map] at h2
    unfold isFollowing
    rw [h.head.2.2]
    have : ∀ l : List Token, l.map (·.kind) = l.map ((fun x : SyntaxKind × Text => x.1) ∘ fun t => (t.kind, t.text)) :=
      fun _ => rfl
    rw [this, this, h2])

theorem followContent_congr {ts ts' : List Token} {set : List (SyntaxKind × Option Text)}
    (h : ts.map (fun t => (t.kind, t.text)) = ts'.map (fun t => (t.kind, t.text))) :
    followContent ts set = followContent ts' set := by
  induction set generalizing ts ts' with
  | nil => cases ts <;> cases ts' <;> rfl
  | cons x set ih =>
    cases ts with
    | nil =>
      cases ts' with
      | nil => rfl
      | cons => simp at h
    | cons t ts =>
      cases ts' with
      | nil => simp at h
      | cons t' ts' =>
        simp only [List.map_cons, List.cons.injEq, Prod.mk.injEq] at h
        obtain ⟨⟨hk, ht⟩, h⟩ := h
        obtain ⟨k, c⟩ := x
        simp only [followContent, hk, ht, ih h]

theorem Rel.atFollowingContent (set : List (SyntaxKind × Option Text)) :
    Rel R Eq (atFollowingContent set) (atFollowingContent set) :=
  .look (φ := fun v => if v.isEmpty then false
      else followContent (v.filter (fun t => !t.kind.isTrivia)) set) (fun _ => rfl) (fun r r' h => by
    simp only [h.head.2.2, followContent_congr h.lay.filter])

theorem Rel.atTwigTag (k : SyntaxKind) : Rel R Eq (atTwigTag k) (atTwigTag k) :=
  (Rel.atSet _).and (Rel.peekNext.bindEq (fun _ => .pureEq _))

/-! ## Events -/

theorem Sim.leaves {s s' : PState} (h : Sim R s s') {ev : List Event} {om : List Nat}
    (hl : ev.filterMap Event.leaf? = s.events.filterMap Event.leaf?) :
    Sim R { s with events := ev, openMarkers := om } { s' with events := ev, openMarkers := om } :=
  { h with events := rfl, opened := rfl, sync := by simpa [hl] using h.sync }

theorem Rel.start : Rel R Eq start start := by
  refine ⟨fun s a t h => by cases h; exact ⟨id, .inl rfl⟩, fun s s' hs => ?_⟩
  refine .inr (.inr (.inr ⟨_, _, _, _, rfl, rfl, by rw [hs.events], ?_, .refl _ _⟩))
  rw [← hs.events, ← hs.opened]
  exact hs.leaves (by simp [Event.leaf?])

theorem Mono.complete (m : Marker) (k : SyntaxKind) : Mono (complete m k) := by
  intro s a t h
  unfold Ludtwig.complete at h
  split at h
  · split at h
    · split at h
      · cases h; exact ⟨id, .inl rfl⟩
      · cases h
    · cases h
  · cases h

theorem Rel.complete (m : Marker) (k : SyntaxKind) : Rel R Eq (complete m k) (complete m k) := by
  refine ⟨.complete m k, fun s s' hs => ?_⟩
  unfold Ludtwig.complete
  rw [← hs.opened]
  cases hom : s.openMarkers with
  | nil => exact .inr (.inr (.inl ⟨_, rfl, rfl⟩))
  | cons a rest =>
    simp only [← hs.events]
    by_cases h1 : (a == m) = true
    · rw [if_pos h1, if_pos h1]
      by_cases h2 : (s.events[m]? == some .placeholder) = true
      · rw [if_pos h2, if_pos h2]
        refine .inr (.inr (.inr ⟨_, _, _, _, rfl, rfl, rfl, hs.leaves ?_, .refl _ _⟩))
        rw [List.filterMap_append, filterMap_set_leaf (by simpa using h2) rfl rfl]
        simp [Event.leaf?]
      · rw [if_neg h2, if_neg h2]; exact .inr (.inr (.inl ⟨_, rfl, rfl⟩))
    · rw [if_neg h1, if_neg h1]; exact .inr (.inr (.inl ⟨_, rfl, rfl⟩))

theorem Mono.precede (c : CompletedMarker) : Mono (precede c) := by
  intro s a t h
  unfold Ludtwig.precede at h
  dsimp only at h
  split at h
  · cases h; exact ⟨id, .inl rfl⟩
  · cases h

theorem Rel.precede (c : CompletedMarker) : Rel R Eq (precede c) (precede c) := by
  refine ⟨.precede c, fun s s' hs => ?_⟩
  unfold Ludtwig.precede
  simp only [← hs.events, ← hs.opened]
  split
  · rename_i k fp heq
    refine .inr (.inr (.inr ⟨_, _, _, _, rfl, rfl, rfl, hs.leaves ?_, .refl _ _⟩))
    rw [List.filterMap_append, filterMap_set_leaf heq rfl rfl]
    simp [Event.leaf?]
  · exact .inr (.inr (.inl ⟨_, rfl, rfl⟩))

theorem Rel.trivia : Rel R Eq explicitlyConsumeTrivia explicitlyConsumeTrivia := by
  refine ⟨fun s a t h => by cases h; exact ⟨id, .inl rfl⟩, fun s s' hs => ?_⟩
  refine .inr (.inr (.inr ⟨_, _, _, _, rfl, rfl, rfl, ?_, .refl _ _⟩))
  refine { hs with events := by rw [hs.events], sync := ?_ }
  obtain ⟨r, h1, h2⟩ := hs.sync
  refine ⟨dropTrivia r, ?_, by rw [dropTrivia_idem]; exact h2⟩
  simp [List.filterMap_append, Event.leaf?, eatSig_append, h1, eatSig]

theorem Mono.bumpGen (site : Site) (k : Option SyntaxKind) : Mono (bumpGen site k) := by
  intro s a t h
  unfold Ludtwig.bumpGen at h
  split at h
  · cases h
  · rename_i u q hu
    cases h
    refine ⟨id, .inr (.inr ?_)⟩
    rw [hu]
    simp

theorem Rel.bumpGen (site : Site) (k : Option SyntaxKind) :
    Rel R SameTok (bumpGen site k) (bumpGen site k) := by
  refine ⟨.bumpGen site k, fun s s' hs => ?_⟩
  have hn := hs.rest.next.1
  have hl := dropTrivia_length s.rest
  have hl' := dropTrivia_length s'.rest
  cases hr : dropTrivia s.rest with
  | nil =>
    rw [hr] at hn
    cases hr' : dropTrivia s'.rest with
    | nil =>
      exact .inr (.inr (.inl ⟨.bumpAtEnd site, by simp [Ludtwig.bumpGen, hr],
        by simp [Ludtwig.bumpGen, hr']⟩))
    | cons t' q' => rw [hr'] at hn; cases hn
  | cons t q =>
    cases hr' : dropTrivia s'.rest with
    | nil => rw [hr, hr'] at hn; cases hn
    | cons t' q' =>
      rw [hr, hr'] at hn
      rw [hr] at hl
      rw [hr'] at hl'
      simp only [List.length_cons] at hl hl'
      cases hn with
      | token h1 h2 h3 _ h4 =>
        refine .inr (.inr (.inr ⟨t, { s with rest := q, events := s.events ++ [.addToken (k.getD t.kind)] },
          t', { s' with rest := q', events := s'.events ++ [.addToken (k.getD t'.kind)] },
          by simp [Ludtwig.bumpGen, hr], by simp [Ludtwig.bumpGen, hr'], h2, ?_,
          .inr (.inr ⟨hl, hl'⟩)⟩))
        refine { hs with rest := h4, events := by simp [hs.events, h2.1], sync := ?_ }
        obtain ⟨r, k1, k2⟩ := hs.sync
        refine ⟨q, ?_, rfl⟩
        simp [List.filterMap_append, Event.leaf?, eatSig_append, k1, eatSig, k2, hr]

theorem Rel.bump (site : Site) : Rel R SameTok (bump site) (bump site) := .bumpGen _ _
theorem Rel.bumpAs (k : SyntaxKind) : Rel R SameTok (bumpAs k) (bumpAs k) := .bumpGen _ _

/-! ## Errors -/

theorem Sim.error {s s' : PState} (h : Sim R s s') {e e' : ParseError}
    (he : ParseError.says e = ParseError.says e') :
    Sim R { s with errors := s.errors ++ [e] } { s' with errors := s'.errors ++ [e'] } :=
  { h with errors := by simp [h.errors, he] }

theorem addErrorBuilder_errors {b : ErrorBuilder} {s t : PState} {a : Unit}
    (h : addErrorBuilder b s = .ok (a, t)) : t.errors ≠ [] ∧ Step s.rest t.rest := by
  unfold addErrorBuilder at h
  split at h
  · dsimp only at h
    split at h
    · cases h; exact ⟨by simp, .inr (.inl rfl)⟩
    · split at h
      · cases h
      · cases h; exact ⟨by simp, .inr (.inl rfl)⟩
  · rename_i hc
    split at h
    · cases h; exact ⟨by simp, .inl rfl⟩
    · rename_i hr
      exact absurd (by simp [hr]) hc

theorem Mono.addErrorBuilder (b : ErrorBuilder) : Mono (addErrorBuilder b) :=
  fun _ _ _ h => ⟨fun _ => (addErrorBuilder_errors h).1, (addErrorBuilder_errors h).2⟩

theorem Rel.addErrorBuilder {b b' : ErrorBuilder} (hr : b.range.isSome = b'.range.isSome)
    (hf : b.found = b'.found) (he : b.expected = b'.expected) :
    Rel R Eq (addErrorBuilder b) (addErrorBuilder b') := by
  refine ⟨.addErrorBuilder b, fun s s' hs => ?_⟩
  by_cases hfree : R.free = true
  · refine .inl (.inr ⟨hfree, ?_⟩)
    cases hx : Ludtwig.addErrorBuilder b s with
    | error e => trivial
    | ok p => exact (addErrorBuilder_errors hx).1
  unfold Ludtwig.addErrorBuilder
  have hr' : b.range.isNone = b'.range.isNone := by
    cases h1 : b.range <;> cases h2 : b'.range <;> simp_all
  rw [← hf, ← hr', ← he]
  by_cases hc : (b.range.isNone || b.found.isNone) = true
  · rw [if_pos hc, if_pos hc]
    have hn := hs.rest.next.1
    have hd := hs.drop
    cases hr : dropTrivia s.rest with
    | nil =>
      cases hr' : dropTrivia s'.rest with
      | nil =>
        have hl := hs.last (by simpa using hfree)
        rw [hr, hr'] at hd
        cases h1 : s.lastRange with
        | none =>
          cases h2 : s'.lastRange with
          | none => exact .inr (.inr (.inl ⟨_, rfl, rfl⟩))
          | some => rw [h1, h2] at hl; cases hl
        | some r =>
          cases h2 : s'.lastRange with
          | none => rw [h1, h2] at hl; cases hl
          | some r' =>
            rw [h1, h2] at hd
            exact .inr (.inr (.inr ⟨_, _, _, _, rfl, rfl, rfl, hd.error rfl,
              .inr (.inl ⟨hr.symm, hr'.symm⟩)⟩))
      | cons t' q' => rw [hr, hr'] at hn; cases hn
    | cons t q =>
      cases hr' : dropTrivia s'.rest with
      | nil => rw [hr, hr'] at hn; cases hn
      | cons t' q' =>
        rw [hr, hr'] at hn
        rw [hr, hr'] at hd
        cases hn with
        | token h1 h2 h3 _ h4 =>
          refine .inr (.inr (.inr ⟨_, _, _, _, rfl, rfl, rfl, hd.error ?_, ?_⟩))
          · simp [ParseError.says, h2.1]
          · exact .inr (.inl ⟨hr.symm, hr'.symm⟩)
  · rw [if_neg hc, if_neg hc]
    cases h1 : b.range with
    | none => simp [h1] at hc
    | some r =>
      cases h2 : b'.range with
      | none => rw [h1, h2] at hr; cases hr
      | some r' =>
        exact .inr (.inr (.inr ⟨_, _, _, _, rfl, rfl, rfl, hs.error rfl, .refl _ _⟩))

theorem Rel.addError (msg : String) : Rel R Eq (addError msg) (addError msg) :=
  .addErrorBuilder rfl rfl rfl

theorem Rel.addErrorAt (msg : String) {t t' : Token} (h : SameTok t t') :
    Rel R Eq (addErrorAt msg t) (addErrorAt msg t') :=
  .addErrorBuilder rfl (by simp [h.1]) rfl

/-! ## Loops -/

theorem Mono.loopP {σ : Type} {body : σ → P (Bool × σ)} (hb : ∀ a, Mono (body a)) :
    ∀ (n : Nat) (a : σ), Mono (loopP body n a)
  | 0, _ => .panic _
  | n + 1, a => (hb a).bind (fun x => by
      obtain ⟨x1, x2⟩ := x
      exact .ite (Mono.loopP hb n _) (.pure _))

theorem Rel.loopP {σ : Type} {V : σ → σ → Prop} [Rf V] {body body' : σ → P (Bool × σ)}
    (hb : ∀ a b, V a b → Rel R (fun x y => x.1 = y.1 ∧ V x.2 y.2) (body a) (body' b)) :
    ∀ (n n' : Nat) (a b : σ), V a b → Rel R V (loopP body n a) (loopP body' n' b) := by
  intro n n' a b hv
  refine ⟨.loopP (fun a => (hb a a (Rf.rf a)).mono) n a, ?_⟩
  induction n generalizing n' a b with
  | zero => intro s s' _; exact .inl (.inl rfl)
  | succ n ih =>
    cases n' with
    | zero => intro s s' _; exact .inr (.inl rfl)
    | succ n' =>
      intro s s' hs
      refine Outcome.bind ((hb a b hv).sim s s' hs) (fun x => ?_) (fun x t y t' _ _ hxy ht => ?_)
      · obtain ⟨x1, x2⟩ := x
        exact .ite (.loopP (fun a => (hb a a (Rf.rf a)).mono) n _) (.pure _)
      obtain ⟨x1, x2⟩ := x
      obtain ⟨y1, y2⟩ := y
      obtain ⟨h1, h2⟩ := hxy
      dsimp only at h1 h2 ⊢
      subst h1
      split
      · exact ih n' _ _ h2 t t' ht
      · exact (Rel.pure h2).sim t t' ht

theorem Rel.loopTokens {σ : Type} {V : σ → σ → Prop} [Rf V] {body body' : σ → P (Bool × σ)}
    (hb : ∀ a b, V a b → Rel R (fun x y => x.1 = y.1 ∧ V x.2 y.2) (body a) (body' b))
    {a b : σ} (hv : V a b) : Rel R V (loopTokens body a) (loopTokens body' b) :=
  ⟨fun s x t h => (Rel.loopP hb (s.rest.length + 1) 0 a b hv).mono s x t h,
    fun s s' hs => (Rel.loopP hb _ _ a b hv).sim s s' hs⟩

theorem Rel.split {σ : Type} {m m' : P (Bool × σ)} (h : Rel R Eq m m') :
    Rel R (fun x y => x.1 = y.1 ∧ x.2 = y.2) m m' := by
  refine ⟨h.mono, fun s s' hs => ?_⟩
  rcases h.sim s s' hs with h | h | h | ⟨x, t, y, t', h1, h2, hv, h⟩
  · exact .inl h
  · exact .inr (.inl h)
  · exact .inr (.inr (.inl h))
  · subst hv
    exact .inr (.inr (.inr ⟨x, t, x, t', h1, h2, ⟨rfl, rfl⟩, h⟩))

theorem Rel.loopTokensEq {σ : Type} {body body' : σ → P (Bool × σ)}
    (hb : ∀ a, Rel R Eq (body a) (body' a)) (a : σ) :
    Rel R Eq (Ludtwig.loopTokens body a) (Ludtwig.loopTokens body' a) :=
  .loopTokens (fun a b h => by subst h; exact (hb a).split) rfl

/-- A round of `parse_many` from a position on: whether to go on is open (`none`) when it depends on
the position. -/
def manyRound {σ : Type} (early : σ → P (Bool × σ)) (child : σ → P σ) (a : σ) :
    P (Option Bool × σ) := do
  if (← at' .TK_UNKNOWN) then
    let _ ← bump
    return (some true, a)
  else if (← atEnd) then
    return (some false, a)
  else
    let (exit, a) ← early a
    if exit then return (some false, a)
    else
      let a ← child a
      return (none, a)

/-- The outcome of a round that began with `n` tokens. -/
def settle {σ : Type} (n : Nat) :
    Except Panic ((Option Bool × σ) × PState) → Except Panic ((Bool × σ) × PState)
  | .error e => .error e
  | .ok ((c, b), t) => .ok ((c.getD (t.rest.length != n), b), t)

theorem settle_bind {σ : Type} {n : Nat} {m : P α} {f : α → P (Bool × σ)}
    {g : α → P (Option Bool × σ)} (h : ∀ a t, f a t = settle n (g a t)) (s : PState) :
    (m >>= f) s = settle n ((m >>= g) s) := by
  show P.bind m f s = settle n (P.bind m g s)
  unfold P.bind
  cases m s with
  | error e => rfl
  | ok p => exact h _ _

theorem settle_ite {σ : Type} {n : Nat} {c : Prop} [Decidable c] {f f' : P (Bool × σ)}
    {g g' : P (Option Bool × σ)} {t : PState} (h : f t = settle n (g t))
    (h' : f' t = settle n (g' t)) :
    (if c then f else f') t = settle n ((if c then g else g') t) := by
  split
  · exact h
  · exact h'

theorem getPos_bind (f : Nat → P α) (s : PState) : (getPos >>= f) s = f s.rest.length s := rfl

theorem manyRound_eq {σ : Type} (early : σ → P (Bool × σ)) (child : σ → P σ) (a : σ) (s : PState) :
    parseManyStep early child a s = settle s.rest.length (manyRound early child a s) := by
  unfold parseManyStep manyRound
  rw [getPos_bind]
  refine settle_bind (fun _ _ => ?_) s
  refine settle_ite (settle_bind (fun _ _ => ?_) _) (settle_bind (fun _ _ => ?_) _)
  · rfl
  refine settle_ite ?_ (settle_bind (fun x _ => ?_) _)
  · rfl
  obtain ⟨x, b⟩ := x
  refine settle_ite ?_ (settle_bind (fun _ _ => ?_) _)
  · rfl
  · rfl

theorem Rel.manyRound {σ : Type} {early early' : σ → P (Bool × σ)} {child child' : σ → P σ}
    (he : ∀ a, Rel R Eq (early a) (early' a)) (hc : ∀ a, Rel R Eq (child a) (child' a)) (a : σ) :
    Rel R Eq (manyRound early child a) (manyRound early' child' a) := by
  unfold Ludtwig.Layout.manyRound
  refine (Rel.at' _).bindEq (fun x => .ite (fun _ => ?_) (fun _ => ?_))
  · exact (Rel.bump _).bind (fun _ _ _ => .pureEq _)
  refine Rel.atEnd.bindEq (fun x => .ite (fun _ => .pureEq _) (fun _ => ?_))
  refine (he a).bindEq (fun x => ?_)
  obtain ⟨exit, a1⟩ := x
  exact .ite (fun _ => .pureEq _) (fun _ => (hc a1).bindEq (fun _ => .pureEq _))

theorem Mono.parseManyStep {σ : Type} {early : σ → P (Bool × σ)} {child : σ → P σ} {a : σ}
    (h : Mono (Layout.manyRound early child a)) : Mono (parseManyStep early child a) := by
  intro s b t ht
  rw [manyRound_eq] at ht
  cases hu : Layout.manyRound early child a s with
  | error e => rw [hu] at ht; cases ht
  | ok p =>
    rw [hu] at ht
    cases ht
    exact h s _ _ hu

/-- One round on both files: they agree, or only the second run goes on, having skipped whitespace
that the first file does not have. -/
theorem Rel.parseManyStep {σ : Type} {early early' : σ → P (Bool × σ)} {child child' : σ → P σ}
    (he : ∀ a, Rel R Eq (early a) (early' a)) (hc : ∀ a, Rel R Eq (child a) (child' a)) (a : σ)
    {s s' : PState} (hs : Sim R s s') :
    Outcome R Eq s s' (Ludtwig.parseManyStep early child a s) (Ludtwig.parseManyStep early' child' a s') ∨
    R.free = true ∧ ∃ b t t', Layout.manyRound early child a s = .ok ((none, b), t) ∧
      Ludtwig.parseManyStep early child a s = .ok ((false, b), t) ∧
      Ludtwig.parseManyStep early' child' a s' = .ok ((true, b), t') ∧ Sim R t t' ∧
      dropTrivia s.rest = s.rest ∧ t.rest = s.rest ∧ t'.rest = dropTrivia s'.rest := by
  rcases (Rel.manyRound he hc a).sim s s' hs with h | h | ⟨e, h1, h2⟩ | ⟨x, t, y, t', h1, h2, hv, ht, hm⟩
  · refine .inl (.inl ?_)
    rcases h with h | ⟨h, hb⟩
    · exact .inl (by rw [manyRound_eq, h]; rfl)
    · refine .inr ⟨h, ?_⟩
      rw [manyRound_eq]
      revert hb
      cases Layout.manyRound early child a s with
      | error e => exact id
      | ok p => exact id
  · exact .inl (.inr (.inl (by rw [manyRound_eq, h]; rfl)))
  · exact .inl (.inr (.inr (.inl ⟨e, by rw [manyRound_eq, h1]; rfl, by rw [manyRound_eq, h2]; rfl⟩)))
  · subst hv
    obtain ⟨c, b⟩ := x
    have e1 : Ludtwig.parseManyStep early child a s = .ok ((c.getD (t.rest.length != s.rest.length), b), t) := by
      rw [manyRound_eq, h1]; rfl
    have e2 : Ludtwig.parseManyStep early' child' a s' =
        .ok ((c.getD (t'.rest.length != s'.rest.length), b), t') := by rw [manyRound_eq, h2]; rfl
    cases c with
    | some c => exact .inl (.inr (.inr (.inr ⟨_, _, _, _, e1, e2, rfl, ht, hm⟩)))
    | none =>
      rcases hm.length hs.rest with hl | ⟨hf, hl, hl', k1, k2, k3⟩
      · refine .inl (.inr (.inr (.inr ⟨_, _, _, _, e1, e2, ?_, ht, hm⟩)))
        simp only [Option.getD_none, hl]
      · simp only [Option.getD_none, hl, hl'] at e1 e2
        exact .inr ⟨hf, b, t, t', h1, e1, e2, ht, k1, k2, k3⟩

/-- An action that consumes a token, reports an error or does nothing, when the next tokens satisfy
`H`; if it does nothing, its result satisfies `N`. -/
structure QuietIf (H : List Token → Prop) (N : α → Prop) (m : P α) : Prop where
  mono : Mono m
  quiet : ∀ s a t, H (dropTrivia s.rest) → m s = .ok (a, t) → t.errors = [] →
    t.rest.length < (dropTrivia s.rest).length ∨
    (N a ∧ t.events = s.events ∧ t.openMarkers = s.openMarkers)

/-- An action that consumes a token or reports an error. -/
abbrev SureIf (H : List Token → Prop) (m : P α) : Prop := QuietIf H (fun _ => False) m

/-- The round of a quiet child. -/
theorem quiet_round {σ : Type} {early : σ → P (Bool × σ)} {child : σ → P σ} {a b : σ} {s t : PState}
    {φ : σ → List Token → Bool × σ} (he : ∀ a, Peek (early a) (φ a))
    (hφ : ∀ a v, (φ a v).1 = false → (φ a v).2 = a)
    (hc : ∀ a, QuietIf (fun v => v ≠ [] ∧ (φ a v).1 = false) (fun b => b = a) (child a))
    (h : manyRound early child a s = .ok ((none, b), t)) (hr : t.rest = dropTrivia s.rest)
    (hes : t.errors = []) : b = a ∧ t.events = s.events ∧ t.openMarkers = s.openMarkers := by
  unfold manyRound at h
  replace h : P.bind _ _ s = _ := h
  unfold P.bind at h
  obtain ⟨r1, p1, q1⟩ := Peek.at' SyntaxKind.TK_UNKNOWN s
  have d1 : dropTrivia r1 = dropTrivia s.rest := by
    rcases q1 with rfl | rfl
    · rfl
    · exact dropTrivia_idem _
  rw [p1] at h
  dsimp only at h
  split at h
  · replace h : P.bind _ _ _ = _ := h
    unfold P.bind at h
    split at h
    · cases h
    · cases h
  replace h : P.bind _ _ _ = _ := h
  unfold P.bind at h
  obtain ⟨r2, p2, q2⟩ := Peek.atEnd { s with rest := r1 }
  have d2 : dropTrivia r2 = dropTrivia s.rest := by
    rcases q2 with rfl | rfl
    · exact d1
    · exact (dropTrivia_idem _).trans d1
  rw [p2] at h
  dsimp only at h
  rw [d1] at h
  split at h
  · cases h
  rename_i hend
  replace h : P.bind _ _ _ = _ := h
  unfold P.bind at h
  obtain ⟨r3, p3, q3⟩ := he a { s with rest := r2 }
  have d3 : dropTrivia r3 = dropTrivia s.rest := by
    rcases q3 with rfl | rfl
    · exact d2
    · exact (dropTrivia_idem _).trans d2
  rw [p3] at h
  dsimp only at h
  rw [d2] at h
  split at h
  · cases h
  rename_i hexit
  replace h : P.bind _ _ _ = _ := h
  unfold P.bind at h
  have hexit' : (φ a (dropTrivia s.rest)).1 = false := by simpa using hexit
  rw [hφ _ _ hexit'] at h
  split at h
  · cases h
  · rename_i c u hu
    cases h
    have := (hc a).quiet { s with rest := r3 } b t (by
      show dropTrivia r3 ≠ [] ∧ (φ a (dropTrivia r3)).1 = false
      rw [d3]
      exact ⟨by simpa using hend, hexit'⟩) hu hes
    rcases this with hlt | this
    · exfalso
      have : t.rest.length < (dropTrivia r3).length := hlt
      rw [d3, hr] at this
      omega
    · exact this

/-- `parse_many` with a quiet child. -/
theorem Rel.manyQuiet {σ : Type} {early early' : σ → P (Bool × σ)} {child child' : σ → P σ}
    {φ : σ → List Token → Bool × σ}
    (he : ∀ a, Rel R Eq (early a) (early' a)) (hp : ∀ a, Peek (early a) (φ a))
    (hφ : ∀ a v, (φ a v).1 = false → (φ a v).2 = a)
    (hc : ∀ a, Rel R Eq (child a) (child' a))
    (hq : ∀ a, QuietIf (fun v => v ≠ [] ∧ (φ a v).1 = false) (fun b => b = a) (child a)) (a : σ) :
    Rel R Eq (parseManyWith early child a) (parseManyWith early' child' a) := by
  have hmono : ∀ a, Mono (Ludtwig.parseManyStep early child a) :=
    fun a => .parseManyStep (Rel.manyRound he hc a).mono
  have key : ∀ (n n' : Nat) (a : σ) (s s' : PState), Sim R s s' →
      Outcome R Eq s s' (Ludtwig.loopP (Ludtwig.parseManyStep early child) n a s)
        (Ludtwig.loopP (Ludtwig.parseManyStep early' child') n' a s') := by
    intro n
    induction n with
    | zero => intro n' a s s' _; exact .inl (.inl rfl)
    | succ n ih =>
      intro n' a s s' hs
      cases n' with
      | zero => exact .inr (.inl rfl)
      | succ n' =>
        have hmono' : ∀ x : Bool × σ, Mono (match x with
            | (c, a) => if c then Ludtwig.loopP (Ludtwig.parseManyStep early child) n a else Pure.pure a) := by
          rintro ⟨x1, x2⟩
          exact .ite (.loopP hmono n _) (.pure _)
        rcases Rel.parseManyStep he hc a hs with h | ⟨hf, b, t, t', h1, h2, h3, ht, k1, k2, k3⟩
        · refine Outcome.bind h hmono' (fun x u y u' _ _ hxy hu => ?_)
          subst hxy
          obtain ⟨x1, x2⟩ := x
          dsimp only
          split
          · exact ih n' _ u u' hu
          · exact (Rel.pureEq _).sim u u' hu
        · -- the second run goes around once more
          have e1 : Ludtwig.loopP (Ludtwig.parseManyStep early child) (n + 1) a s = .ok (b, t) := by
            show P.bind _ _ s = _
            unfold P.bind
            rw [h2]
            rfl
          have e2 : Ludtwig.loopP (Ludtwig.parseManyStep early' child') (n' + 1) a s' =
              Ludtwig.loopP (Ludtwig.parseManyStep early' child') n' b t' := by
            show P.bind _ _ s' = _
            unfold P.bind
            rw [h3]
            rfl
          rw [e1, e2]
          by_cases hbad : t.errors = []
          · obtain ⟨rfl, l2, l3⟩ := quiet_round hp hφ hq h1 (by rw [k2, k1]) hbad
            have hs2 : Sim R s t' := by
              refine ⟨?_, fun h => (by rw [hf] at h; cases h), ?_, ?_, ?_, hs.sync⟩
              · rw [k3]
                have := hs.rest.next.1.lay
                rwa [k1] at this
              · rw [← ht.events, l2]
              · rw [← ht.opened, l3]
              · rw [← ht.errors]
                have h0 : s.errors = [] := by
                  cases hse : s.errors with
                  | nil => rfl
                  | cons e es =>
                    exact absurd hbad (((Rel.manyRound he hc b).mono s _ _ h1).1 (by rw [hse]; simp))
                rw [hbad, h0]
            cases n' with
            | zero => exact .inr (.inl rfl)
            | succ n' =>
              rcases (Rel.manyRound he hc b).sim s t' hs2 with g | g | ⟨e, g1, g2⟩ |
                  ⟨x, u, y, u', g1, g2, hv, gu, gm⟩
              · rw [h1] at g
                rcases g with g | ⟨_, g⟩
                · cases g
                · exact absurd hbad g
              · refine .inr (.inl ?_)
                show P.bind _ _ t' = _
                unfold P.bind
                rw [manyRound_eq, g]
                rfl
              · rw [h1] at g1; cases g1
              · rw [h1] at g1
                cases g1
                subst hv
                have hu' : u'.rest = t'.rest := by
                  have hd : dropTrivia t'.rest = t'.rest := by rw [k3, dropTrivia_idem]
                  rcases gm with ⟨_, g⟩ | ⟨_, g⟩ | ⟨g, _⟩
                  · exact g
                  · rw [g, hd]
                  · rw [k2] at g; omega
                refine .inr (.inr (.inr ⟨b, t, b, u', rfl, ?_, rfl, gu, ?_⟩))
                · show P.bind _ _ t' = _
                  unfold P.bind
                  rw [manyRound_eq, g2]
                  simp only [settle, hu', bne_self_eq_false, Option.getD_none]
                  rfl
                · rw [hu', k3, k2]
                  exact .inr (.inl ⟨k1.symm, rfl⟩)
          · exact .inl (.inr ⟨hf, hbad⟩)
  exact ⟨fun s x t h => Mono.loopP hmono _ a s x t h, fun s s' hs => key _ _ a s s' hs⟩

/-- `parse_many` with a quiet child that captures nothing. -/
theorem Rel.parseMany {early early' : P Bool} {child child' : P Unit} {φ : List Token → Bool}
    (he : Rel R Eq early early') (hp : Peek early φ) (hc : Rel R Eq child child')
    (hq : QuietIf (fun v => v ≠ [] ∧ φ v = false) (fun _ => True) child) :
    Rel R Eq (parseMany early child) (parseMany early' child') :=
  .manyQuiet (φ := fun _ v => (φ v, ())) (fun _ => he.bindEq (fun _ => .pureEq _))
    (fun _ => hp.bind (fun _ => .pure _)) (fun _ _ _ => rfl) (fun _ => hc)
    (fun _ => ⟨hq.mono, fun s a t h1 h2 h3 => (hq.quiet s a t h1 h2 h3).imp_right (fun h => ⟨rfl, h.2⟩)⟩) ()

/-! ## Combinators -/

theorem Rel.ifP {V : α → α → Prop} {c c' : P Bool} {t t' e e' : P α} (hc : Rel R Eq c c')
    (ht : Rel R V t t') (he : Rel R V e e') : Rel R V (ifP c t e) (ifP c' t' e') :=
  hc.bindEq (fun _ => .ite (fun _ => ht) (fun _ => he))

theorem Rel.whenP {c c' : P Bool} {t t' : P Unit} (hc : Rel R Eq c c') (ht : Rel R Eq t t') :
    Rel R Eq (whenP c t) (whenP c' t') := .ifP hc ht (.pureEq _)

theorem Rel.ifNone {m m' : P (Option α)} {t t' : P Unit} (hm : Rel R Eq m m')
    (ht : Rel R Eq t t') : Rel R Eq (ifNone m t) (ifNone m' t') :=
  hm.bindEq (fun o => by cases o; exact ht; exact .pureEq _)

theorem Rel.discard {V : α → α → Prop} [Rf V] {m m' : P α} (hm : Rel R V m m') :
    Rel R Eq (discard' m) (discard' m') := hm.bind (fun _ _ _ => .pureEq _)

theorem Rel.bump_ (site : Site) : Rel R Eq (bump_ site) (bump_ site) := (Rel.bump site).discard

theorem Rel.bumpAs_ (k : SyntaxKind) : Rel R Eq (discard' (Ludtwig.bumpAs k)) (discard' (Ludtwig.bumpAs k)) :=
  (Rel.bumpAs k).discard

theorem Rel.complete_ (m : Marker) (k : SyntaxKind) : Rel R Eq (complete_ m k) (complete_ m k) :=
  (Rel.complete m k).discard

theorem Rel.recoverStep (expected recovery : List SyntaxKind) (m : Marker) {r r' : Option Token}
    (h : SameTok? r r') : Rel R (fun x y => x.1 = y.1 ∧ SameTok? x.2 y.2)
      (recoverStep expected recovery m r) (recoverStep expected recovery m r') := by
  unfold Ludtwig.recoverStep
  refine (Rel.bump _).bind (fun _ _ _ => ?_)
  refine ((Rel.pureEq _).and (.atSet _)).bindEq (fun b => .ite (fun _ => ?_) (fun _ => ?_))
  · refine (Rel.complete _ _).bindEq (fun _ => (Rel.bump _).bind (fun t t' ht => .pure ⟨rfl, ht⟩))
  · refine (Rel.atEnd.or ((Rel.atSet _).or (.atSet _))).bindEq (fun b => .ite (fun _ => ?_) (fun _ => ?_))
    · exact (Rel.complete _ _).bindEq (fun _ => .pure ⟨rfl, trivial⟩)
    · exact .pure ⟨rfl, h⟩

theorem Rel.recoverExpect (expected recovery : List SyntaxKind) :
    Rel R SameTok? (recoverExpect expected recovery) (recoverExpect expected recovery) := by
  unfold Ludtwig.recoverExpect
  refine (Rel.atEnd.or ((Rel.atSet _).or (.atSet _))).bindEq (fun b => .ite (fun _ => ?_) (fun _ => ?_))
  · exact .pure trivial
  · refine Rel.start.bindEq (fun m => ?_)
    exact .loopTokens (fun a b h => .recoverStep _ _ m h) trivial

theorem Rel.recover (recovery : List SyntaxKind) : Rel R Eq (recover recovery) (recover recovery) :=
  (Rel.recoverExpect _ _).bind (fun _ _ _ => .pureEq _)

theorem Rel.displayKind (k : SyntaxKind) : Rel R Eq (displayKind k) (displayKind k) := by
  unfold Ludtwig.displayKind
  split
  · exact .pureEq _
  · exact .panic _

theorem Rel.displayKinds (ks : List SyntaxKind) : Rel R Eq (displayKinds ks) (displayKinds ks) := by
  induction ks with
  | nil => exact .pureEq _
  | cons k ks ih =>
    exact (Rel.displayKind k).bindEq (fun _ => ih.bindEq (fun _ => .pureEq _))

theorem Rel.expect (k : SyntaxKind) (recovery : List SyntaxKind) :
    Rel R SameTok? (expect k recovery) (expect k recovery) := by
  unfold Ludtwig.expect
  refine (Rel.at' _).bindEq (fun b => .ite (fun _ => ?_) (fun _ => ?_))
  · exact (Rel.bump _).bind (fun _ _ h => .pure h)
  · exact (Rel.displayKind _).bindEq (fun _ => (Rel.addError _).bindEq (fun _ => .recoverExpect _ _))

theorem Rel.expectAny (ks : List SyntaxKind) (recovery : List SyntaxKind) :
    Rel R SameTok? (expectAny ks recovery) (expectAny ks recovery) := by
  unfold Ludtwig.expectAny
  refine (Rel.atSet _).bindEq (fun b => .ite (fun _ => ?_) (fun _ => ?_))
  · exact (Rel.bump _).bind (fun _ _ h => .pure h)
  · exact (Rel.displayKinds _).bindEq (fun _ => (Rel.addError _).bindEq (fun _ => .recoverExpect _ _))

theorem Rel.expect_ (k : SyntaxKind) (recovery : List SyntaxKind) :
    Rel R Eq (expect_ k recovery) (expect_ k recovery) := (Rel.expect _ _).discard
theorem Rel.expectAny_ (ks : List SyntaxKind) (recovery : List SyntaxKind) :
    Rel R Eq (expectAny_ ks recovery) (expectAny_ ks recovery) := (Rel.expectAny _ _).discard

theorem Rel.errorRecover (msg : String) (recovery : List SyntaxKind) :
    Rel R Eq (errorRecover msg recovery) (errorRecover msg recovery) :=
  (Rel.addError _).bindEq (fun _ => .recover _)

theorem Rel.orRecover {f f' : P (Option CompletedMarker)} (hf : Rel R Eq f f') (msg : String)
    (recovery : List SyntaxKind) : Rel R Eq (orRecover f msg recovery) (orRecover f' msg recovery) :=
  .ifNone hf (.errorRecover _ _)

theorem Rel.wrap (node : CompletedMarker) (k : SyntaxKind) : Rel R Eq (wrap node k) (wrap node k) :=
  (Rel.precede _).bindEq (fun _ => .complete _ _)

theorem Rel.optionalToken (k : SyntaxKind) : Rel R Eq (optionalToken k) (optionalToken k) :=
  .whenP (.at' _) (.bump_ _)

theorem Rel.commaOrEnd {a a' : P Bool} (h : Rel R Eq a a') :
    Rel R Eq (commaOrEnd a) (commaOrEnd a') :=
  .ifP (.at' _) (.bump_ _) (.whenP h.not (.addError _))

end Ludtwig.Layout
