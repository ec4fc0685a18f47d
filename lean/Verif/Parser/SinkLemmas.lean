import Verif.Parser.Groups

/-!
# The sink runs the build operations (helper lemmas for C08)
-/

namespace Ludtwig

/-- One build operation on the state of the sink. -/
def runOp : Op → SinkState → Except SinkPanic SinkState
  | .start _ (some k), s => .ok (startNode k s)
  | .start _ none, s => .ok s
  | .finish, s => finishNode s
  | .leaf (.tok k), s => tokenAs k (consumeTrivia s)
  | .leaf (.ntok n k), s => nextNTokensAs n k (consumeTrivia s)
  | .leaf .triv, s => .ok (consumeTrivia s)

/-- Build operations on the state of the sink. -/
def runOps : List Op → SinkState → Except SinkPanic SinkState
  | [], s => .ok s
  | op :: ops, s =>
    match runOp op s with
    | .error e => .error e
    | .ok s => runOps ops s

theorem runOps_append (a b : List Op) (s : SinkState) :
    runOps (a ++ b) s = match runOps a s with
      | .error e => .error e
      | .ok s => runOps b s := by
  induction a generalizing s with
  | nil => rfl
  | cons op a ih =>
    simp only [List.cons_append, runOps]
    cases runOp op s with
    | error e => rfl
    | ok s => exact ih s

/-- The state with other events. -/
def SinkState.withEvents (s : SinkState) (E : List Event) : SinkState := { s with events := E }

/-- A result with other events. -/
def withEv (E : List Event) : Except SinkPanic SinkState → Except SinkPanic SinkState
  | .ok s => .ok (s.withEvents E)
  | .error e => .error e

theorem runOp_withEvents (op : Op) (s : SinkState) (E : List Event) :
    runOp op (s.withEvents E) = withEv E (runOp op s) := by
  cases op with
  | start p k => cases k <;> rfl
  | finish =>
    simp only [runOp, finishNode, SinkState.withEvents]
    cases s.parents <;> rfl
  | leaf l =>
    cases l with
    | tok k =>
      simp only [runOp, tokenAs, consumeTrivia, SinkState.withEvents]
      cases dropTrivia s.rest <;> rfl
    | ntok n k =>
      simp only [runOp, nextNTokensAs, consumeTrivia, SinkState.withEvents]
      by_cases hn : (dropTrivia s.rest).length < n
      · simp only [hn, ↓reduceIte]; rfl
      · simp only [hn, ↓reduceIte]; rfl
    | triv => rfl

theorem runOps_withEvents (ops : List Op) (s : SinkState) (E : List Event) :
    runOps ops (s.withEvents E) = withEv E (runOps ops s) := by
  induction ops generalizing s with
  | nil => rfl
  | cons op ops ih =>
    simp only [runOps, runOp_withEvents]
    cases runOp op s with
    | error e => rfl
    | ok s => exact ih s

theorem runOp_events {op : Op} {s s' : SinkState} (h : runOp op s = .ok s') : s'.events = s.events := by
  cases op with
  | start p k => cases k <;> simp [runOp] at h <;> subst h <;> rfl
  | finish =>
    simp only [runOp, finishNode] at h
    split at h
    · simp at h
    · simp at h; subst h; rfl
  | leaf l =>
    cases l with
    | tok k =>
      simp only [runOp, tokenAs] at h
      split at h
      · simp at h
      · simp at h; subst h; rfl
    | ntok n k =>
      simp only [runOp, nextNTokensAs] at h
      split at h
      · simp at h
      · simp at h; subst h; rfl
    | triv => simp [runOp] at h; subst h; rfl

/-! ## Walking along a chain -/

theorem Linked.length_le {E i l} (h : Linked E i l) : l.length + i ≤ E.length := by
  induction h with
  | hole i h => have := (List.getElem?_eq_some_iff.1 h).1; simp; omega
  | last i k h => have := (List.getElem?_eq_some_iff.1 h).1; simp; omega
  | link i k fp l h hf _ ih => simp; omega

/-- The kinds of start operations. -/
def kindsOf : List Op → List SyntaxKind
  | [] => []
  | .start _ (some k) :: l => k :: kindsOf l
  | _ :: l => kindsOf l

/-- Every start operation has its kind. -/
def Whole (l : List Op) : Prop := ∀ p, Op.start p none ∉ l

theorem walk_lemma {E i l} (h : Linked E i l) (hw : Whole l) : ∀ (ev : List Event) (fuel : Nat)
    (kinds : List SyntaxKind) (k : SyntaxKind) (fp : Option Nat),
    E[i]? = some (.startNode k fp) → ev.length = E.length →
    (∀ j ∈ labels l, j ≠ i → ev[j]? = E[j]?) → l.length ≤ fuel + 1 →
    ∃ ev', walkForward fuel ev i fp (kinds ++ [k]) = .ok (ev', kinds ++ kindsOf l) ∧
      ev'.length = E.length ∧
      ∀ j, ev'[j]? = if j ∈ labels l ∧ j ≠ i then some .placeholder else ev[j]? := by
  induction h with
  | hole i h => exact absurd (List.mem_singleton.2 rfl) (hw i)
  | last i k' h =>
    intro ev fuel kinds k fp hi hlen hev hf
    rw [h] at hi
    simp at hi
    obtain ⟨rfl, rfl⟩ := hi
    refine ⟨ev, ?_, hlen, ?_⟩
    · cases fuel <;> simp [walkForward, kindsOf]
    · intro j
      simp
  | link i k' f l h hf hl ih =>
    intro ev fuel kinds k fp hi hlen hev hfuel
    rw [h] at hi
    simp at hi
    obtain ⟨rfl, rfl⟩ := hi
    have hwl : Whole l := fun p hp => hw p (List.mem_cons_of_mem _ hp)
    have hge := hl.labels_ge
    have hmem : i + f ∈ labels l := by cases hl <;> simp
    have hne : i + f ≠ i := by omega
    have hlt := hl.lt
    obtain ⟨k2, fp2, h2⟩ : ∃ k2 fp2, E[i + f]? = some (.startNode k2 fp2) := by
      cases hl with
      | hole _ h => exact absurd (List.mem_singleton.2 rfl) (hwl (i + f))
      | last _ k2 h => exact ⟨k2, none, h⟩
      | link _ k2 fp2 l h _ _ => exact ⟨k2, some fp2, h⟩
    cases fuel with
    | zero =>
      have : l.length = 0 := by simp at hfuel; simp [hfuel]
      have : l = [] := List.length_eq_zero_iff.1 this
      subst this
      simp at hmem
    | succ fuel =>
      have hnot : i ∉ labels l := fun hm => by have := hge i hm; omega
      obtain ⟨ev', h3, h4, h5⟩ := ih hwl (ev.set (i + f) .placeholder) fuel (kinds ++ [k']) k2 fp2 h2
        (by simp [hlen])
        (by
          intro j hj hjne
          rw [List.getElem?_set_ne (fun e => hjne e.symm)]
          exact hev j (by simp [hj]) (by rintro rfl; exact hnot hj))
        (by simp at hfuel; omega)
      refine ⟨ev', ?_, h4, ?_⟩
      · have hk : ev[i + f]? = some (.startNode k2 fp2) := by
          rw [hev (i + f) (by simp [hmem]) hne]; exact h2
        simp only [walkForward, hk]
        rw [h3]
        simp [kindsOf]
      · intro j
        rw [h5 j]
        by_cases hj : j ∈ labels l
        · have hji : j ≠ i := by rintro rfl; exact hnot hj
          by_cases hjf : j = i + f
          · subst hjf
            have hev_lt : i + f < ev.length := by omega
            rw [if_neg (by simp), if_pos ⟨by simp [hmem], hji⟩, List.getElem?_set_self hev_lt]
          · rw [if_pos ⟨hj, hjf⟩, if_pos ⟨by simp [hj], hji⟩]
        · have hjf : j ≠ i + f := by rintro rfl; exact hj hmem
          have h6 : ¬ (j ∈ labels (Op.start i (some k') :: l) ∧ j ≠ i) := by
            simp [hj]
          rw [if_neg (fun hh => hj hh.1), if_neg h6, List.getElem?_set_ne (fun e => hjf e.symm)]

theorem runOps_starts {l : List Op} (hs : ∀ op ∈ l, ∃ p k, op = Op.start p (some k)) (s : SinkState) :
    runOps l s = .ok ((kindsOf l).foldl (fun s k => startNode k s) s) := by
  induction l generalizing s with
  | nil => rfl
  | cons op l ih =>
    obtain ⟨p, k, rfl⟩ := hs op (by simp)
    simp only [runOps, runOp, kindsOf, List.foldl_cons]
    exact ih (fun op h => hs op (by simp [h])) _

theorem kindsOf_append (a b : List Op) : kindsOf (a ++ b) = kindsOf a ++ kindsOf b := by
  induction a with
  | nil => rfl
  | cons op a ih =>
    cases op with
    | start p k => cases k <;> simp [kindsOf, ih]
    | finish => simp [kindsOf, ih]
    | leaf => simp [kindsOf, ih]

theorem kindsOf_reverse (l : List Op) : kindsOf l.reverse = (kindsOf l).reverse := by
  induction l with
  | nil => rfl
  | cons op l ih =>
    rw [List.reverse_cons, kindsOf_append, ih]
    cases op with
    | start p k => cases k <;> simp [kindsOf]
    | finish => simp [kindsOf]
    | leaf => simp [kindsOf]

/-! ## One event -/

/-- The events that the sink still sees after processing the first `i` events. -/
structure Seen (E : List Event) (g : List (List Op)) (i : Nat) (ev : List Event) : Prop where
  len : ev.length = E.length
  get : ∀ j, i ≤ j → ev[j]? =
    if j ∈ labels (g.take i).flatten then some .placeholder else E[j]?

theorem Rel.label_start {E g} (h : Rel E g) {p} (hp : p ∈ labels g.flatten) :
    ∃ e, E[p]? = some e ∧ e.isStart := by
  simp only [labels, List.mem_filterMap] at hp
  obtain ⟨op, hop, hl⟩ := hp
  cases op with
  | start q k =>
    simp [Op.label?] at hl
    subst hl
    cases k with
    | none => exact ⟨_, h.mem_hole hop, rfl⟩
    | some k => obtain ⟨fp, hf⟩ := h.mem_start hop; exact ⟨_, hf, rfl⟩
  | finish => simp [Op.label?] at hl
  | leaf => simp [Op.label?] at hl

theorem labels_take_subset {g : List (List Op)} {i p} (hp : p ∈ labels (g.take i).flatten) :
    p ∈ labels g.flatten := by
  rw [← List.take_append_drop i g]
  simp only [List.flatten_append, labels_append, List.mem_append]
  exact .inl hp

theorem take_succ_flatten {g : List (List Op)} {i x} (h : g[i]? = some x) :
    (g.take (i + 1)).flatten = (g.take i).flatten ++ x := by
  rw [List.take_add_one, h]
  simp

theorem not_taken_again {E g} (h : Rel E g) {i x p} (hx : g[i]? = some x) (hp : p ∈ labels x) :
    p ∉ labels (g.take i).flatten := by
  intro hm
  have hn := h.nodup
  rw [← List.take_append_drop (i + 1) g] at hn
  simp only [List.flatten_append, labels_append, take_succ_flatten hx] at hn
  have := (List.nodup_append.1 (List.nodup_append.1 hn).1).2.2
  exact this p hm p hp rfl

theorem consumes_eq {E : List Event} {g i ev} (h : Rel E g) (hs : Seen E g i ev) (s : SinkState)
    (hev : s.events = ev) :
    consumesTriviaBefore s i = ((match E[i]? with
      | some (.addToken _) => true
      | some (.addNextNTokensAs _ _) => true
      | _ => false) || i + 1 == E.length) := by
  unfold consumesTriviaBefore
  rw [hev, hs.len]
  congr 1
  rw [hs.get i (Nat.le_refl _)]
  by_cases hm : i ∈ labels (g.take i).flatten
  · rw [if_pos hm]
    obtain ⟨e, he, hst⟩ := h.label_start (labels_take_subset hm)
    rw [he]
    cases e <;> simp_all [Event.isStart]
  · rw [if_neg hm]
    cases E[i]? with
    | none => rfl
    | some e => cases e <;> rfl

theorem sinkEvent_lemma {E g i ev x} (h : Rel E g) (hw : Whole g.flatten) (hs : Seen E g i ev)
    (hx : g[i]? = some x) (s : SinkState) (hev : s.events = ev) :
    (∃ e l, E[i]? = some e ∧ e.leaf? = some l ∧ x = [.leaf l]) ∨
    ∃ ev', Seen E g (i + 1) ev' ∧ sinkEvent i s = runOps x (s.withEvents ev') := by
  have hpl : x = [] ∨ (∀ p, p ∉ labels x) →
      ∀ ev'', ev''.length = E.length → (∀ j, i + 1 ≤ j → ev''[j]? = ev[j]?) → Seen E g (i + 1) ev'' := by
    intro hx0 ev'' hl hg
    refine ⟨hl, fun j hj => ?_⟩
    rw [hg j hj, hs.get j (by omega), take_succ_flatten hx, labels_append]
    have : j ∉ labels x := by
      rcases hx0 with rfl | hx0
      · simp
      · exact hx0 j
    simp [this]
  cases h.ok i x hx with
  | leaf e l he hl => exact .inl ⟨e, l, he, hl, rfl⟩
  | finish he =>
    right
    refine ⟨ev, hpl (.inr (by simp)) ev hs.len (fun _ _ => rfl), ?_⟩
    have hn : i ∉ labels (g.take i).flatten := by
      intro hm
      obtain ⟨e, he', hst⟩ := h.label_start (labels_take_subset hm)
      rw [he] at he'; simp at he'; subst he'; simp [Event.isStart] at hst
    have : s.events[i]? = some .finishNode := by
      rw [hev, hs.get i (Nat.le_refl _), if_neg hn, he]
    simp only [sinkEvent, this, runOps, runOp]
    have h2 : s.withEvents ev = s := by subst hev; rfl
    rw [h2]
    cases finishNode s <;> rfl
  | taken k fp he =>
    right
    refine ⟨ev, hpl (.inl rfl) ev hs.len (fun _ _ => rfl), ?_⟩
    have hc := h.cover i _ he rfl
    have : i ∈ labels (g.take i).flatten := by
      rw [← List.take_append_drop i g] at hc
      simp only [List.flatten_append, labels_append, List.mem_append] at hc
      rcases hc with hc | hc
      · exact hc
      · exfalso
        simp only [labels, List.mem_filterMap, List.mem_flatten] at hc
        obtain ⟨op, ⟨y, hy, hop⟩, hl⟩ := hc
        obtain ⟨j, hj⟩ := List.getElem?_of_mem hy
        rw [List.getElem?_drop] at hj
        have hil : i ∈ labels y := by simp only [labels, List.mem_filterMap]; exact ⟨op, hop, hl⟩
        have := (h.ok _ y hj).labels_ge i hil
        have : j = 0 := by omega
        subst this
        simp [hx] at hj
        subst hj
        simp at hop
    have : s.events[i]? = some .placeholder := by
      rw [hev, hs.get i (Nat.le_refl _), if_pos this]
    simp only [sinkEvent, this, runOps]
    have h2 : s.withEvents ev = s := by subst hev; rfl
    rw [h2]
  | takenHole he =>
    right
    refine ⟨ev, hpl (.inl rfl) ev hs.len (fun _ _ => rfl), ?_⟩
    have : s.events[i]? = some .placeholder := by
      rw [hev, hs.get i (Nat.le_refl _)]
      split
      · rfl
      · exact he
    simp only [sinkEvent, this, runOps]
    have h2 : s.withEvents ev = s := by subst hev; rfl
    rw [h2]
  | chain l hl =>
    right
    have hwl : Whole l := by
      intro p hp
      exact hw p (List.mem_flatten.2 ⟨_, List.mem_of_getElem? hx, by simpa using hp⟩)
    have hfresh : ∀ p ∈ labels l, p ∉ labels (g.take i).flatten :=
      fun p hp => not_taken_again h hx (by simpa using hp)
    obtain ⟨k, fp, hk⟩ : ∃ k fp, E[i]? = some (.startNode k fp) := by
      cases hl with
      | hole _ h => exact absurd (List.mem_singleton.2 rfl) (hwl i)
      | last _ k h => exact ⟨k, none, h⟩
      | link _ k fp l h _ _ => exact ⟨k, some fp, h⟩
    have hi : i ∈ labels l := by cases hl <;> simp
    have hge := hl.labels_ge
    have hiE := hl.lt
    have hget : ∀ j ∈ labels l, ev[j]? = E[j]? := by
      intro j hj
      rw [hs.get j (hge j hj), if_neg (hfresh j hj)]
    obtain ⟨ev', h1, h2, h3⟩ := walk_lemma hl hwl (ev.set i .placeholder) ev.length [] k fp hk
      (by simp [hs.len])
      (by intro j hj hne; rw [List.getElem?_set_ne (fun e => hne e.symm)]; exact hget j hj)
      (by have := hl.length_le; have := hs.len; omega)
    refine ⟨ev', ⟨h2, ?_⟩, ?_⟩
    · intro j hj
      rw [h3 j, take_succ_flatten hx, labels_append, labels_reverse]
      by_cases hjl : j ∈ labels l
      · rw [if_pos ⟨hjl, by omega⟩, if_pos (by simp [hjl])]
      · rw [if_neg (fun hh => hjl hh.1), List.getElem?_set_ne (by omega), hs.get j (by omega)]
        simp [hjl]
    · have h4 : ev[i]? = some (.startNode k fp) := by rw [hget i hi, hk]
      simp only [sinkEvent, hev, h4]
      simp only [List.nil_append] at h1
      rw [h1, runOps_starts, kindsOf_reverse]
      · rfl
      · intro op hop
        obtain ⟨p, k', rfl⟩ := hl.mem_is_start op (by simpa using hop)
        cases k' with
        | none => exact absurd (by simpa using hop) (hwl p)
        | some k' => exact ⟨p, k', rfl⟩

/-- The events of token commands. -/
theorem sinkStep_leaf {E g i ev e l} (h : Rel E g) (hs : Seen E g i ev) (hx : g[i]? = some [.leaf l])
    (he : E[i]? = some e) (hl : e.leaf? = some l) (hlast : i + 1 ≠ E.length)
    (s : SinkState) (hev : s.events = ev) :
    Seen E g (i + 1) ev ∧ sinkStep i s = runOps [.leaf l] (s.withEvents ev) := by
  have hlt : i < E.length := (List.getElem?_eq_some_iff.1 he).1
  constructor
  · refine ⟨hs.len, fun j hj => ?_⟩
    rw [hs.get j (by omega), take_succ_flatten hx]
    simp
  · have hn : i ∉ labels (g.take i).flatten := by
      intro hm
      obtain ⟨e', he', hst⟩ := h.label_start (labels_take_subset hm)
      rw [he] at he'; simp at he'; subst he'
      cases e <;> simp_all [Event.isStart, Event.leaf?]
    have h1 : s.events[i]? = some e := by rw [hev, hs.get i (Nat.le_refl _), if_neg hn, he]
    have h2 : s.withEvents ev = s := by subst hev; rfl
    have hc := consumes_eq h hs s hev
    rw [he] at hc
    rw [h2]
    unfold sinkStep
    cases e with
    | addToken k =>
      simp [Event.leaf?] at hl
      subst hl
      simp at hc
      simp only [hc, ↓reduceIte, sinkEvent, consumeTrivia, h1, runOps, runOp]
      cases tokenAs k _ <;> rfl
    | addNextNTokensAs n k =>
      simp [Event.leaf?] at hl
      subst hl
      simp at hc
      simp only [hc, ↓reduceIte, sinkEvent, consumeTrivia, h1, runOps, runOp]
      cases nextNTokensAs n k _ <;> rfl
    | explicitlyConsumeTrivia =>
      simp [Event.leaf?] at hl
      subst hl
      have hc' : consumesTriviaBefore s i = false := by
        rw [hc]
        simpa using hlast
      simp [hc', sinkEvent, h1, runOps, runOp]
    | startNode => simp [Event.leaf?] at hl
    | finishNode => simp [Event.leaf?] at hl
    | placeholder => simp [Event.leaf?] at hl

theorem sinkStep_other {E g i ev x} (h : Rel E g) (hw : Whole g.flatten) (hs : Seen E g i ev)
    (hx : g[i]? = some x) (hlast : i + 1 ≠ E.length) (hnl : ∀ e, E[i]? = some e → e.leaf? = none)
    (s : SinkState) (hev : s.events = ev) :
    ∃ ev', Seen E g (i + 1) ev' ∧ sinkStep i s = runOps x (s.withEvents ev') := by
  have hlt : i < E.length := by rw [← h.len]; exact (List.getElem?_eq_some_iff.1 hx).1
  have hc := consumes_eq h hs s hev
  have hc2 : consumesTriviaBefore s i = false := by
    rw [hc]
    have h1 := hnl _ (List.getElem?_eq_getElem hlt)
    rw [List.getElem?_eq_getElem hlt]
    simp [hlast]
    cases hE : E[i] <;> simp_all [Event.leaf?]
  rcases sinkEvent_lemma h hw hs hx s hev with ⟨e, l, he, hl, _⟩ | h1
  · rw [hnl e he] at hl; simp at hl
  · simpa [sinkStep, hc2] using h1

/-- Before the last event the sink runs exactly the build operations of the groups. -/
theorem sinkLoop_lemma {E : List Event} {g : List (List Op)} (h : Rel E g) (hw : Whole g.flatten) :
    ∀ (n i : Nat) (ev : List Event) (s : SinkState), Seen E g i ev → s.events = ev →
      i + n < E.length → ∃ ev', Seen E g (i + n) ev' ∧
        (sinkLoop (List.range' i n) s = withEv ev' (runOps ((g.drop i).take n).flatten s) ∨
          ∃ e, sinkLoop (List.range' i n) s = .error e ∧
            runOps ((g.drop i).take n).flatten s = .error e) := by
  intro n
  induction n with
  | zero =>
    intro i ev s hs hev hlt
    refine ⟨ev, hs, .inl ?_⟩
    subst hev
    rfl
  | succ n ih =>
    intro i ev s hs hev hlt
    obtain ⟨x, hx⟩ : ∃ x, g[i]? = some x :=
      ⟨g[i]'(by rw [h.len]; omega), List.getElem?_eq_getElem _⟩
    have hstep : ∃ ev', Seen E g (i + 1) ev' ∧ sinkStep i s = runOps x (s.withEvents ev') := by
      by_cases hleaf : ∃ e l, E[i]? = some e ∧ e.leaf? = some l
      · obtain ⟨e, l, he, hl⟩ := hleaf
        have hxl : x = [.leaf l] := by
          cases h.ok i x hx with
          | leaf e' l' he' hl' =>
            rw [he] at he'; simp at he'; subst he'; rw [hl] at hl'; simp at hl'; subst hl'; rfl
          | finish he' => rw [he] at he'; simp at he'; subst he'; simp [Event.leaf?] at hl
          | taken k fp he' => rw [he] at he'; simp at he'; subst he'; simp [Event.leaf?] at hl
          | takenHole he' => rw [he] at he'; simp at he'; subst he'; simp [Event.leaf?] at hl
          | chain l' hl' =>
            cases hl' with
            | hole _ he' => rw [he] at he'; simp at he'; subst he'; simp [Event.leaf?] at hl
            | last _ _ he' => rw [he] at he'; simp at he'; subst he'; simp [Event.leaf?] at hl
            | link _ _ _ _ he' => rw [he] at he'; simp at he'; subst he'; simp [Event.leaf?] at hl
        subst hxl
        exact ⟨ev, sinkStep_leaf h hs hx he hl (by omega) s hev⟩
      · refine sinkStep_other h hw hs hx (by omega) ?_ s hev
        intro e he
        cases hl : e.leaf? with
        | none => rfl
        | some l => exact absurd ⟨e, l, he, hl⟩ hleaf
    obtain ⟨ev1, hs1, h1⟩ := hstep
    have hgd : (g.drop i).take (n + 1) = x :: ((g.drop (i + 1)).take n) := by
      rw [List.drop_eq_getElem_cons (by rw [h.len]; omega), List.take_succ_cons]
      congr 1
      have := List.getElem?_eq_some_iff.1 hx
      exact this.2
    rw [hgd, List.flatten_cons, List.range'_succ]
    simp only [sinkLoop, h1, runOps_append]
    rw [runOps_withEvents]
    cases hr : runOps x s with
    | error e =>
      obtain ⟨ev', hs', _⟩ := ih (i + 1) ev1 (s.withEvents ev1) hs1 rfl (by omega)
      refine ⟨ev', by rwa [show i + (n + 1) = i + 1 + n by omega], .inr ⟨e, rfl, rfl⟩⟩
    | ok s1 =>
      simp only [withEv]
      obtain ⟨ev', hs', h2⟩ := ih (i + 1) ev1 (s1.withEvents ev1) hs1 rfl (by omega)
      refine ⟨ev', by rwa [show i + (n + 1) = i + 1 + n by omega], ?_⟩
      rw [runOps_withEvents] at h2
      rcases h2 with h2 | ⟨e, h2, h3⟩
      · left
        rw [h2]
        cases runOps ((g.drop (i + 1)).take n).flatten s1 with
        | error e => rfl
        | ok s2 => rfl
      · right
        refine ⟨e, h2, ?_⟩
        cases hr2 : runOps ((g.drop (i + 1)).take n).flatten s1 with
        | error e' => rw [hr2] at h3; simpa [withEv] using h3
        | ok s2 => rw [hr2] at h3; simp [withEv] at h3

/-! ## Filling skeletons -/

theorem runOps_leaf {ts l trees rest} (hf : Leaf.fill ts l = some (trees, rest)) (ev ch ps) :
    runOps [.leaf l] ⟨ev, ts, ch, ps⟩ = .ok ⟨ev, rest, ch ++ trees, ps⟩ := by
  cases l with
  | triv =>
    simp [Leaf.fill] at hf
    obtain ⟨rfl, rfl⟩ := hf
    rfl
  | tok k =>
    simp only [Leaf.fill] at hf
    split at hf
    · simp at hf
    · rename_i t rest' ht
      simp at hf
      obtain ⟨rfl, rfl⟩ := hf
      simp [runOps, runOp, consumeTrivia, tokenAs, ht, triviaTrees]
  | ntok n k =>
    simp only [Leaf.fill] at hf
    split at hf
    · simp at hf
    · rename_i hn
      simp at hf
      obtain ⟨rfl, rfl⟩ := hf
      simp [runOps, runOp, consumeTrivia, nextNTokensAs, hn, triviaTrees]

mutual
theorem runOps_flat {ts trees rest} : (x : Skel) → x.fill ts = some (trees, rest) → ∀ ev ch ps,
    runOps x.flat ⟨ev, ts, ch, ps⟩ = .ok ⟨ev, rest, ch ++ trees, ps⟩
  | .leaf l, hf, ev, ch, ps => runOps_leaf (by simpa [Skel.fill] using hf) ev ch ps
  | .node p k cs, hf, ev, ch, ps => by
    simp only [Skel.fill] at hf
    split at hf
    · simp at hf
    · rename_i trees' rest' h
      simp at hf
      obtain ⟨rfl, rfl⟩ := hf
      have h1 := runOps_flatAll cs h ev [] ((k, ch) :: ps)
      simp only [Skel.flat, runOps, runOp, startNode, runOps_append, h1, finishNode, List.nil_append]
theorem runOps_flatAll {ts trees rest} : (xs : List Skel) → fillAll ts xs = some (trees, rest) →
    ∀ ev ch ps, runOps (flatAll xs) ⟨ev, ts, ch, ps⟩ = .ok ⟨ev, rest, ch ++ trees, ps⟩
  | [], hf, ev, ch, ps => by
    simp [fillAll] at hf
    obtain ⟨rfl, rfl⟩ := hf
    simp [flatAll, runOps]
  | x :: xs, hf, ev, ch, ps => by
    simp only [fillAll] at hf
    split at hf
    · simp at hf
    · rename_i t1 r1 h1
      split at hf
      · simp at hf
      · rename_i t2 r2 h2
        simp at hf
        obtain ⟨rfl, rfl⟩ := hf
        rw [flatAll, runOps_append, runOps_flat x h1 ev ch ps]
        have := runOps_flatAll xs h2 ev (ch ++ t1) ps
        simpa [List.append_assoc] using this
end

theorem fillAll_append (ts : List Token) (a b : List Skel) :
    fillAll ts (a ++ b) = match fillAll ts a with
      | none => none
      | some (t1, r1) => match fillAll r1 b with
        | none => none
        | some (t2, r2) => some (t1 ++ t2, r2) := by
  induction a generalizing ts with
  | nil =>
    simp only [List.nil_append, fillAll]
    cases fillAll ts b with
    | none => rfl
    | some p => rfl
  | cons x xs ih =>
    simp only [List.cons_append, fillAll]
    cases x.fill ts with
    | none => rfl
    | some p =>
      obtain ⟨t, r⟩ := p
      simp only [ih r]
      cases fillAll r xs with
      | none => rfl
      | some q =>
        obtain ⟨t1, r1⟩ := q
        simp only
        cases fillAll r1 b with
        | none => rfl
        | some w => simp

mutual
theorem whole_flat : (x : Skel) → Whole x.flat
  | .leaf l => by intro p; simp [Skel.flat]
  | .node q k cs => by
    intro p
    have := whole_flatAll cs p
    simp [Skel.flat, this]
theorem whole_flatAll : (xs : List Skel) → Whole (flatAll xs)
  | [] => by intro p; simp [flatAll]
  | x :: xs => by
    intro p
    have h1 := whole_flat x p
    have h2 := whole_flatAll xs p
    simp [flatAll, h1, h2]
end

/-- The sink on the events of one finished node whose last event is the end of that node: the
trivia at the end goes into the node. -/
theorem sinkFinish_lemma {E : List Event} {g : List (List Op)} (h : Rel E g) {p k cs trees}
    {ts : List Token} (hE : E ≠ []) (hlast : g.getLast? = some [.finish])
    (hg : g.flatten = (Skel.node p k cs).flat) (hfill : fillAll ts (cs ++ [.leaf .triv]) = some (trees, [])) :
    sinkFinish ts E = .ok (.node k trees) := by
  have hw : Whole g.flatten := by
    rw [hg]
    exact whole_flat _
  have hlen : 0 < E.length := List.length_pos_iff.2 hE
  obtain ⟨n, hn⟩ : ∃ n, E.length = n + 1 := ⟨E.length - 1, by omega⟩
  have hglen : g.length = n + 1 := by rw [h.len, hn]
  have hsplit : g = g.take n ++ [[.finish]] := by
    have h1 : g ≠ [] := by intro h0; simp [h0] at hglen
    rw [List.getLast?_eq_some_getLast h1] at hlast
    have h2 := List.dropLast_concat_getLast h1
    rw [List.dropLast_eq_take, hglen] at h2
    simp at hlast
    rw [hlast] at h2
    simpa using h2.symm
  have hgn : g[n]? = some [.finish] := by
    rw [hsplit, List.getElem?_append_right (by simp [hglen])]
    simp [hglen]
  have hflat : (g.take n).flatten = .start p (some k) :: flatAll cs := by
    have h1 : g.flatten = (g.take n).flatten ++ [.finish] := by
      conv => lhs; rw [hsplit]
      simp
    rw [h1] at hg
    simp only [Skel.flat] at hg
    rw [← List.cons_append] at hg
    exact List.append_cancel_right hg
  rw [fillAll_append] at hfill
  cases hcs : fillAll ts cs with
  | none => simp [hcs] at hfill
  | some q =>
    obtain ⟨t1, r1⟩ := q
    simp only [hcs, fillAll, Skel.fill, Leaf.fill, List.append_nil, Option.some.injEq,
      Prod.mk.injEq] at hfill
    obtain ⟨htr, hrest⟩ := hfill
    have hseen : Seen E g 0 E := ⟨rfl, by simp⟩
    obtain ⟨ev', hs', h1⟩ := sinkLoop_lemma h hw n 0 E ⟨E, ts, [], []⟩ hseen rfl (by omega)
    simp only [List.drop_zero, hflat, Nat.zero_add] at h1 hs'
    have hrun : runOps (.start p (some k) :: flatAll cs) ⟨E, ts, [], []⟩ =
        .ok ⟨E, r1, t1, [(k, [])]⟩ := by
      simp only [runOps, runOp, startNode]
      rw [runOps_flatAll cs hcs]
      simp
    rw [hrun] at h1
    rcases h1 with h1 | ⟨e, _, h2⟩
    · have hget : ev'[n]? = some .finishNode := by
        rw [hs'.get n (Nat.le_refl _)]
        have hfin : E[n]? = some .finishNode := by
          generalize hx : ([Op.finish] : List Op) = x at hgn
          cases h.ok n x hgn with
          | finish he => exact he
          | leaf => simp at hx
          | taken => simp at hx
          | takenHole => simp at hx
          | chain l hl =>
            obtain ⟨a, b, hab⟩ := hl.mem_is_start .finish (by
              have : Op.finish ∈ l.reverse := by rw [← hx]; simp
              simpa using this)
            simp at hab
        split
        · rename_i hm
          obtain ⟨e, he, hst⟩ := h.label_start (labels_take_subset hm)
          rw [hfin] at he; simp at he; subst he; simp [Event.isStart] at hst
        · exact hfin
      have hrange : List.range E.length = List.range' 0 n ++ [n] := by
        rw [hn, List.range_succ, List.range_eq_range']
      unfold sinkFinish
      have happ : ∀ (a b : List Nat) (s : SinkState), sinkLoop (a ++ b) s =
          match sinkLoop a s with
          | .error e => .error e
          | .ok s => sinkLoop b s := by
        intro a
        induction a with
        | nil => intro b s; rfl
        | cons i a ih =>
          intro b s
          simp only [List.cons_append, sinkLoop]
          cases sinkStep i s with
          | error e => rfl
          | ok s => exact ih b s
      rw [hrange, happ, h1]
      have hc : consumesTriviaBefore (⟨ev', r1, t1, [(k, [])]⟩ : SinkState) n = true := by
        simp [consumesTriviaBefore, hs'.len, hn]
      simp only [withEv, SinkState.withEvents, sinkLoop, sinkStep, hc, ↓reduceIte, sinkEvent,
        consumeTrivia, hget, finishNode, List.nil_append]
      rw [hrest, ← htr]
      rfl
    · simp at h2

end Ludtwig
