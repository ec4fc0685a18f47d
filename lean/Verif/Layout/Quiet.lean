import Verif.Layout.Logic
import Verif.Grammar.Root

/-!
# Actions that consume a token or do nothing (proof device)

A loop of the parser stops when its position has not changed. With more whitespace in the second
file its position may change where the one of the first file does not. Here are the rules for why
that makes no difference: what the loops call consumes a token, reports an error or does nothing; or
the code behind the loop reports an error.
-/

namespace Ludtwig.Layout

variable {R : Run} {α β : Type} {H : List Token → Prop}

/-! ## Rules -/

theorem Mono.ofPeek {m : P α} {φ : List Token → α} (h : Peek m φ) : Mono m := by
  intro s a t ht
  obtain ⟨r, h1, h2⟩ := h s
  rw [h1] at ht
  cases ht
  exact ⟨id, h2.imp_right .inl⟩

theorem Mono.start : Mono start := (Rel.start (R := ⟨[], false⟩)).mono
theorem Mono.trivia : Mono explicitlyConsumeTrivia := (Rel.trivia (R := ⟨[], false⟩)).mono

theorem Mono.bumpNextNAs (k : SyntaxKind) : Mono (bumpNextNAs 2 k) := by
  intro s a t h
  unfold Ludtwig.bumpNextNAs at h
  dsimp only at h
  split at h
  · cases h
  · cases h
    refine ⟨id, .inr (.inr ?_)⟩
    simp only [List.length_drop]
    omega

theorem Mono.ifP {c : P Bool} {m f : P α} (hc : Mono c) (h1 : Mono m) (h2 : Mono f) :
    Mono (ifP c m f) := hc.bind (fun _ => .ite h1 h2)

theorem Mono.whenP {c : P Bool} {m : P Unit} (hc : Mono c) (h1 : Mono m) : Mono (whenP c m) :=
  hc.ifP h1 (.pure _)

theorem Mono.ifNone {m : P (Option α)} {f : P Unit} (h1 : Mono m) (h2 : Mono f) :
    Mono (ifNone m f) := h1.bind (fun o => by cases o; exact h2; exact .pure _)

theorem Mono.discard {m : P α} (h1 : Mono m) : Mono (discard' m) := h1.bind (fun _ => .pure _)

theorem Mono.parseMany {early : P Bool} {child : P Unit} (he : Mono early) (hc : Mono child) :
    Mono (parseMany early child) := by
  have hr : ∀ a : Unit, Mono (manyRound (fun a => do return ((← early), a)) (fun _ => child) a) := by
    intro a
    unfold manyRound
    refine (Mono.ofPeek (Peek.at' _)).bind (fun _ => .ite ((Mono.bumpGen _ _).bind (fun _ => .pure _))
      ((Mono.ofPeek Peek.atEnd).bind (fun _ => .ite (.pure _)
        ((he.bind (fun _ => .pure _)).bind (fun x => ?_)))))
    obtain ⟨x1, x2⟩ := x
    exact .ite (.pure _) (hc.bind (fun _ => .pure _))
  intro s x t h
  exact Mono.loopP (fun a => .parseManyStep (hr a)) _ () s x t h

theorem QuietIf.weaken {H' : List Token → Prop} {N : α → Prop} {m : P α} (h : QuietIf H' N m)
    (hH : ∀ v, H v → H' v) : QuietIf H N m :=
  ⟨h.mono, fun s a t h1 => h.quiet s a t (hH _ h1)⟩

theorem QuietIf.result {N N' : α → Prop} {m : P α} (h : QuietIf H N' m)
    (hN : ∀ a, N' a → N a) : QuietIf H N m :=
  ⟨h.mono, fun s a t h1 h2 h3 => (h.quiet s a t h1 h2 h3).imp_right (fun h => ⟨hN _ h.1, h.2⟩)⟩

theorem QuietIf.sure {N : α → Prop} {m : P α} (h : SureIf H m) : QuietIf H N m :=
  h.result (fun _ => False.elim)

theorem QuietIf.absurd {N : α → Prop} {m : P α} (h : Mono m) (hH : ∀ v, ¬ H v) : QuietIf H N m :=
  ⟨h, fun _ _ _ h1 => (hH _ h1).elim⟩

theorem QuietIf.pure {N : α → Prop} {a : α} (h : N a) : QuietIf H N (Pure.pure a) :=
  ⟨.pure a, fun s b t _ h2 _ => by cases h2; exact .inr ⟨h, rfl, rfl⟩⟩

theorem step_view {r q : List Token} (h : Step r q) :
    dropTrivia q = dropTrivia r ∨ q.length < (dropTrivia r).length := by
  rcases h with rfl | rfl | h
  · exact .inl rfl
  · exact .inl (dropTrivia_idem _)
  · exact .inr h

theorem no_errors {s t : PState} (h : s.errors ≠ [] → t.errors ≠ []) (ht : t.errors = []) :
    s.errors = [] := by
  cases hs : s.errors with
  | nil => rfl
  | cons e es => exact _root_.absurd ht (h (by rw [hs]; simp))

/-- A first action that looks only. -/
theorem QuietIf.peek {N : β → Prop} {m : P α} {φ : List Token → α} {f : α → P β} (hm : Peek m φ)
    (hf : ∀ a, QuietIf (fun v => φ v = a ∧ H v) N (f a)) : QuietIf H N (m >>= f) := by
  refine ⟨(Mono.ofPeek hm).bind (fun a => (hf a).mono), fun s b t hs h he => ?_⟩
  replace h : P.bind m f s = .ok (b, t) := h
  unfold P.bind at h
  obtain ⟨r, h1, h2⟩ := hm s
  rw [h1] at h
  dsimp only at h
  have hd : dropTrivia r = dropTrivia s.rest := by
    rcases h2 with rfl | rfl
    · rfl
    · exact dropTrivia_idem _
  have := (hf _).quiet { s with rest := r } b t (by
    show φ (dropTrivia r) = _ ∧ H (dropTrivia r)
    rw [hd]
    exact ⟨rfl, hs⟩) h he
  simp only [hd] at this
  exact this

/-- A first action that consumes a token or reports an error. -/
theorem QuietIf.left {N : β → Prop} {m : P α} {f : α → P β} (hm : SureIf H m)
    (hf : ∀ a, Mono (f a)) : QuietIf H N (m >>= f) := by
  refine ⟨hm.mono.bind hf, fun s b t hs h he => ?_⟩
  replace h : P.bind m f s = .ok (b, t) := h
  unfold P.bind at h
  split at h
  · cases h
  · rename_i a u hu
    obtain ⟨h1, h2⟩ := hf _ _ _ _ h
    rcases hm.quiet s a u hs hu (no_errors h1 he) with h3 | h3
    · have l := dropTrivia_length u.rest
      left
      rcases step_view h2 with h4 | h4
      · rcases h2 with h2 | h2 | h2
        · rw [h2]; exact h3
        · rw [h2]; omega
        · omega
      · omega
    · exact h3.1.elim

/-- Consuming a token or reporting an error after something else. -/
theorem QuietIf.right {N : β → Prop} {m : P α} {f : α → P β} (hm : Mono m)
    (hf : ∀ a, SureIf H (f a)) : QuietIf H N (m >>= f) := by
  refine ⟨hm.bind (fun a => (hf a).mono), fun s b t hs h he => ?_⟩
  replace h : P.bind m f s = .ok (b, t) := h
  unfold P.bind at h
  split at h
  · cases h
  · rename_i a u hu
    obtain ⟨h1, h2⟩ := (hf _).mono _ _ _ h
    obtain ⟨h3, h4⟩ := hm _ _ _ hu
    have l := dropTrivia_length u.rest
    left
    rcases step_view h4 with h5 | h5
    · rcases (hf a).quiet u b t (by rw [h5]; exact hs) h he with h6 | h6
      · rwa [h5] at h6
      · exact h6.1.elim
    · rcases h2 with h2 | h2 | h2
      · rw [h2]; exact h5
      · rw [h2]; omega
      · omega

/-- Two actions one after the other. -/
theorem QuietIf.bind {N : β → Prop} {M : α → Prop} {m : P α} {f : α → P β} (hm : QuietIf H M m)
    (hmono : ∀ a, Mono (f a)) (hf : ∀ a, M a → QuietIf H N (f a)) : QuietIf H N (m >>= f) := by
  refine ⟨hm.mono.bind hmono, fun s b t hs h he => ?_⟩
  have h0 := h
  replace h : P.bind m f s = .ok (b, t) := h
  unfold P.bind at h
  split at h
  · cases h
  · rename_i a u hu
    obtain ⟨h1, h2⟩ := hmono _ _ _ _ h
    obtain ⟨_, h4⟩ := hm.mono _ _ _ hu
    have l := dropTrivia_length u.rest
    have moved : u.rest.length < (dropTrivia s.rest).length →
        t.rest.length < (dropTrivia s.rest).length := by
      intro h5
      rcases h2 with h2 | h2 | h2
      · rw [h2]; exact h5
      · rw [h2]; omega
      · omega
    rcases step_view h4 with h5 | h5
    · rcases hm.quiet s a u hs hu (no_errors h1 he) with h6 | ⟨h6, h7, h8⟩
      · exact .inl (moved h6)
      · rcases (hf a h6).quiet u b t (by rw [h5]; exact hs) h he with h9 | ⟨h9, h10, h11⟩
        · left; rwa [h5] at h9
        · exact .inr ⟨h9, h10.trans h7, h11.trans h8⟩
    · exact .inl (moved h5)

theorem QuietIf.ite {N : α → Prop} {c : Prop} [Decidable c] {m f : P α}
    (h1 : c → QuietIf H N m) (h2 : ¬ c → QuietIf H N f) : QuietIf H N (if c then m else f) := by
  split
  · rename_i h; exact h1 h
  · rename_i h; exact h2 h

theorem QuietIf.ifP {N : α → Prop} {c : P Bool} {φ : List Token → Bool} {m f : P α} (hc : Peek c φ)
    (h1 : QuietIf (fun v => φ v = true ∧ H v) N m) (h2 : QuietIf (fun v => φ v = false ∧ H v) N f) :
    QuietIf H N (ifP c m f) :=
  .peek hc (fun a => by
    cases a with
    | true => exact h1
    | false => exact h2)

theorem QuietIf.discard {N : α → Prop} {m : P α} (hm : QuietIf H N m) {M : Unit → Prop}
    (hM : ∀ a, N a → M ()) : QuietIf H M (discard' m) :=
  hm.bind (fun _ => .pure _) (fun a ha => .pure (hM a ha))

theorem sure_discard {m : P α} (hm : SureIf H m) : SureIf H (discard' m) :=
  hm.discard (fun _ h => h)

theorem sure_bumpGen (site : Site) (k : Option SyntaxKind) : SureIf H (bumpGen site k) := by
  refine ⟨.bumpGen site k, fun s a t _ h _ => .inl ?_⟩
  unfold Ludtwig.bumpGen at h
  split at h
  · cases h
  · rename_i u q hu
    cases h
    rw [hu]
    simp

theorem sure_bump_ (site : Site) : SureIf H (bump_ site) := sure_discard (sure_bumpGen _ _)

theorem sure_bumpNextNAs (k : SyntaxKind) : SureIf H (bumpNextNAs 2 k) := by
  refine ⟨.bumpNextNAs k, fun s a t _ h _ => .inl ?_⟩
  unfold Ludtwig.bumpNextNAs at h
  dsimp only at h
  split at h
  · cases h
  · cases h
    simp only [List.length_drop]
    omega

theorem sure_addErrorBuilder (b : ErrorBuilder) : SureIf H (addErrorBuilder b) :=
  ⟨.addErrorBuilder b, fun _ _ _ _ h he => _root_.absurd he (addErrorBuilder_errors h).1⟩

theorem sure_addError (e : String) : SureIf H (addError e) := sure_addErrorBuilder _

theorem mono_recoverExpect (a b : List SyntaxKind) : Mono (recoverExpect a b) :=
  (Rel.recoverExpect (R := ⟨[], false⟩) a b).mono

theorem mono_displayKind (k : SyntaxKind) : Mono (displayKind k) :=
  (Rel.displayKind (R := ⟨[], false⟩) k).mono

theorem mono_displayKinds (ks : List SyntaxKind) : Mono (displayKinds ks) :=
  (Rel.displayKinds (R := ⟨[], false⟩) ks).mono

theorem sure_errorRecover (e : String) (r : List SyntaxKind) : SureIf H (errorRecover e r) :=
  .left (sure_addError e) (fun _ => (Rel.recover (R := ⟨[], false⟩) r).mono)

theorem Mono.orRecover {m : P (Option CompletedMarker)} (h : Mono m) (e : String)
    (r : List SyntaxKind) : Mono (orRecover m e r) :=
  .ifNone h (sure_errorRecover (H := fun _ => True) e r).mono

theorem sure_expect (k : SyntaxKind) (r : List SyntaxKind) : SureIf H (expect k r) :=
  .peek (Peek.at' k) (fun _ => .ite (fun _ => .left (sure_bumpGen _ _) (fun _ => .pure _))
    (fun _ => .right (mono_displayKind k)
      (fun _ => .left (sure_addError _) (fun _ => mono_recoverExpect _ _))))

theorem sure_expect_ (k : SyntaxKind) (r : List SyntaxKind) : SureIf H (expect_ k r) :=
  sure_discard (sure_expect k r)

theorem sure_expectAny (k : List SyntaxKind) (r : List SyntaxKind) : SureIf H (expectAny k r) :=
  .peek (Peek.atSet k) (fun _ => .ite (fun _ => .left (sure_bumpGen _ _) (fun _ => .pure _))
    (fun _ => .right (mono_displayKinds k)
      (fun _ => .left (sure_addError _) (fun _ => mono_recoverExpect _ _))))

theorem sure_commaOrEnd {listEnd : P Bool} {φ : List Token → Bool} (hp : Peek listEnd φ)
    (hφ : ∀ v, H v → φ v = false) : SureIf H (commaOrEnd listEnd) := by
  refine .ifP (Peek.at' _) (sure_bump_ _) (.ifP (φ := fun v => !φ v) hp.not ?_ ?_)
  · exact (sure_addError _)
  · refine .absurd (.pure _) (fun v h => ?_)
    obtain ⟨h1, _, h2⟩ := h
    rw [hφ v h2] at h1
    cases h1

/-- The elements of a list with separators. -/
theorem sure_item {m : P Unit} {listEnd : P Bool} {φ : List Token → Bool} (hp : Peek listEnd φ)
    (hφ : ∀ v, H v → φ v = false) (hm : Mono m) :
    SureIf H (m >>= fun _ => commaOrEnd listEnd) :=
  .right hm (fun _ => sure_commaOrEnd hp hφ)

/-- A loop whose first round is certain. -/
theorem sure_parseMany {early : P Bool} {child : P Unit} {φ : List Token → Bool}
    (hp : Peek early φ) (hφ : ∀ v, H v → φ v = false ∧ v ≠ []) (hc : SureIf H child) :
    SureIf H (parseMany early child) := by
  have hround : SureIf H (manyRound (fun _ => do return ((← early), ())) (fun _ => child) ()) := by
    unfold manyRound
    refine .peek (Peek.at' _) (fun x => .ite (fun _ => .left (sure_bumpGen _ _) (fun _ => .pure _))
      (fun _ => .peek Peek.atEnd (fun y => .ite (fun hy => ?_) (fun _ => ?_))))
    · refine .absurd (.pure _) (fun v h => ?_)
      obtain ⟨h1, _, h2⟩ := h
      subst hy
      exact (hφ v h2).2 (by simpa using h1)
    · refine .peek (φ := fun v => (φ v, ())) (hp.bind (ψ := fun a _ => (a, ())) (fun _ => .pure _)) (fun z => ?_)
      obtain ⟨z1, z2⟩ := z
      refine .ite (fun hz => ?_) (fun _ => .left (hc.weaken (fun v h => h.2.2.2)) (fun _ => .pure _))
      refine .absurd (.pure _) (fun v h => ?_)
      obtain ⟨h1, _, _, h2⟩ := h
      rw [(hφ v h2).1] at h1
      cases h1
      cases hz
  have hstep : SureIf H (parseManyStep (fun _ => do return ((← early), ())) (fun _ => child) ()) := by
    refine ⟨.parseManyStep hround.mono, fun s a t hs h he => ?_⟩
    rw [manyRound_eq] at h
    cases hu : manyRound (fun _ => do return ((← early), ())) (fun _ => child) () s with
    | error e => rw [hu] at h; cases h
    | ok p =>
      rw [hu] at h
      cases h
      rcases hround.quiet s _ _ hs hu he with h | h
      · exact .inl h
      · exact h.1.elim
  have hm : ∀ a : Unit, Mono (parseManyStep (fun _ => do return ((← early), ())) (fun _ => child) a) :=
    fun _ => hstep.mono
  refine ⟨fun s x t h => Mono.loopP hm _ () s x t h, fun s a t hs h he => ?_⟩
  exact (QuietIf.left (N := fun _ => False) (f := fun x : Bool × Unit => match x with
    | (c, a) => if c then loopP (parseManyStep (fun _ => do return ((← early), ())) (fun _ => child))
        s.rest.length a else Pure.pure a) hstep (by
      rintro ⟨x1, x2⟩
      exact .ite (.loopP hm _ _) (.pure _))).quiet s a t hs h he

/-! ## Actions that end with an error -/

/-- An action that reports an error (or panics) when the next tokens satisfy `H`. -/
def Kill (H : List Token → Prop) (m : P α) : Prop :=
  ∀ s, H (dropTrivia s.rest) → Bad (m s)

theorem Kill.weaken {H' : List Token → Prop} {m : P α} (h : Kill H' m) (hH : ∀ v, H v → H' v) :
    Kill H m := fun s hs => h s (hH _ hs)

theorem Kill.left {m : P α} {f : α → P β} (hm : Kill H m) (hf : ∀ a, Mono (f a)) :
    Kill H (m >>= f) := by
  intro s hs
  have h := hm s hs
  show Bad (P.bind m f s)
  unfold P.bind
  cases hx : m s with
  | error e => trivial
  | ok p =>
    rw [hx] at h
    dsimp only
    cases hy : f p.1 p.2 with
    | error e => trivial
    | ok q => exact (hf _ _ q.1 q.2 hy).1 h

theorem Kill.peek {m : P α} {φ : List Token → α} {f : α → P β} (hm : Peek m φ)
    (hf : ∀ a, Kill (fun v => φ v = a ∧ H v) (f a)) : Kill H (m >>= f) := by
  intro s hs
  show Bad (P.bind m f s)
  unfold P.bind
  obtain ⟨r, h1, h2⟩ := hm s
  rw [h1]
  dsimp only
  have hd : dropTrivia r = dropTrivia s.rest := by
    rcases h2 with rfl | rfl
    · rfl
    · exact dropTrivia_idem _
  refine hf _ { s with rest := r } ?_
  show φ (dropTrivia r) = _ ∧ H (dropTrivia r)
  rw [hd]
  exact ⟨rfl, hs⟩

theorem Kill.start {f : Marker → P β} (hf : ∀ a, Kill H (f a)) : Kill H (start >>= f) :=
  fun _ hs => hf _ _ hs

theorem Kill.absurd {m : P α} (hH : ∀ v, ¬ H v) : Kill H m := fun _ hs => (hH _ hs).elim

theorem kill_addError (e : String) : Kill H (addError e) := by
  intro s _
  cases hx : addError e s with
  | error e => trivial
  | ok p => exact (addErrorBuilder_errors hx).1

theorem kill_expect (k : SyntaxKind) (r : List SyntaxKind) (hk : ∀ v, H v → isAt k v = false) :
    Kill H (expect k r) := by
  refine .peek (Peek.at' k) (fun b => ?_)
  cases b with
  | true => exact .absurd (fun v h => by rw [hk v h.2] at h; cases h.1)
  | false =>
    intro s hs
    show Bad (P.bind (displayKind k) _ s)
    unfold P.bind Ludtwig.displayKind
    cases k.display? with
    | none => trivial
    | some d =>
      exact (Kill.left (H := fun _ => True) (kill_addError d) (fun _ => mono_recoverExpect [k] r)) s trivial

theorem kill_displayKinds (ks : List SyntaxKind) (s : PState) :
    (∃ e, displayKinds ks s = .error e) ∨ ∃ d, displayKinds ks s = .ok (d, s) := by
  induction ks with
  | nil => exact .inr ⟨[], rfl⟩
  | cons k ks ih =>
    show (∃ e, P.bind (displayKind k) _ s = .error e) ∨ ∃ d, P.bind (displayKind k) _ s = .ok (d, s)
    unfold P.bind Ludtwig.displayKind
    cases k.display? with
    | none => exact .inl ⟨_, rfl⟩
    | some d =>
      show (∃ e, P.bind (displayKinds ks) _ s = .error e) ∨ ∃ d, P.bind (displayKinds ks) _ s = .ok (d, s)
      unfold P.bind
      rcases ih with ⟨e, h⟩ | ⟨d, h⟩
      · rw [h]; exact .inl ⟨_, rfl⟩
      · rw [h]; exact .inr ⟨_, rfl⟩

theorem kill_expectAny (ks : List SyntaxKind) (r : List SyntaxKind)
    (hk : ∀ v, H v → isAtSet ks v = false) : Kill H (expectAny ks r) := by
  refine .peek (Peek.atSet ks) (fun b => ?_)
  cases b with
  | true => exact .absurd (fun v h => by rw [hk v h.2] at h; cases h.1)
  | false =>
    intro s hs
    show Bad (P.bind (displayKinds ks) _ s)
    unfold P.bind
    rcases kill_displayKinds ks s with ⟨e, h⟩ | ⟨d, h⟩
    · rw [h]; trivial
    · rw [h]
      exact (Kill.left (H := fun _ => True) (kill_addError _) (fun _ => mono_recoverExpect ks r)) s trivial

/-- `expect_any(OPEN); expect(keyword)` away from the tag `keyword`. -/
theorem kill_tag (k : SyntaxKind) (r r' : List SyntaxKind) {f : Unit → P β} (hf : ∀ a, Mono (f a)) :
    Kill (fun v => isTwigTag k v = false)
      (expectAny_ twigBlockOpenSet r >>= fun _ => expect_ k r' >>= f) := by
  have hmono : ∀ a : Unit, Mono (expect_ k r' >>= f) :=
    fun _ => (sure_expect_ (H := fun _ => True) k r').mono.bind hf
  intro s hs
  by_cases ho : isAtSet twigBlockOpenSet (dropTrivia s.rest) = true
  · -- the next token opens a block
    cases hd : dropTrivia s.rest with
    | nil => rw [hd] at ho; cases ho
    | cons t q =>
      obtain ⟨u, hu, hr⟩ : ∃ u : PState, expectAny_ twigBlockOpenSet r s = .ok ((), u) ∧ u.rest = q := by
        obtain ⟨r1, p1, q1⟩ := Peek.atSet twigBlockOpenSet s
        have d1 : dropTrivia r1 = t :: q := by
          rcases q1 with rfl | rfl
          · exact hd
          · rw [dropTrivia_idem]; exact hd
        refine ⟨{ s with rest := q, events := s.events ++ [.addToken t.kind] }, ?_, rfl⟩
        have h1 : bump .checked { s with rest := r1 } =
            .ok (t, { s with rest := q, events := s.events ++ [.addToken t.kind] }) := by
          unfold bump bumpGen
          simp only [d1]
          rfl
        have h2 : expectAny twigBlockOpenSet r s =
            .ok (some t, { s with rest := q, events := s.events ++ [.addToken t.kind] }) := by
          show P.bind (atSet twigBlockOpenSet) _ s = _
          unfold P.bind
          rw [p1, ho]
          show P.bind (bump .checked) _ { s with rest := r1 } = _
          unfold P.bind
          rw [h1]
          rfl
        show P.bind (expectAny twigBlockOpenSet r) _ s = _
        unfold P.bind
        rw [h2]
        rfl
      show Bad (P.bind _ _ s)
      unfold P.bind
      rw [hu]
      dsimp only
      refine (Kill.left (H := fun v => isAt k v = false) ?_ hf) u ?_
      · exact Kill.left (kill_expect k r' (fun _ h => h)) (fun _ => .pure _)
      · rw [hr]
        show isAt k (dropTrivia q) = false
        have hs' : isTwigTag k (dropTrivia s.rest) = false := hs
        unfold isTwigTag at hs'
        rw [ho, hd] at hs'
        simpa [isAt] using hs'
  · refine (Kill.left (H := fun v => isAtSet twigBlockOpenSet v = false) ?_ hmono) s (by simpa using ho)
    exact Kill.left (kill_expectAny _ r (fun _ h => h)) (fun _ => .pure _)

theorem kill_endBlock (k : SyntaxKind) (a b c : List SyntaxKind) (kind : SyntaxKind) :
    Kill (fun v => isTwigTag k v = false) (parseEndBlock k a b c kind) :=
  .start (fun m => kill_tag k a b (fun _ =>
    ((sure_expectAny (H := fun _ => True) _ c).mono.discard).bind
      (fun _ => (Mono.complete m kind).discard)))

theorem mono_parseEndName (w : String) (n : Option Text) : Mono (parseEndName w n) := by
  unfold parseEndName
  refine .whenP (.ofPeek (Peek.at' _)) ((Mono.bumpGen _ _).bind (fun t => ?_))
  cases n with
  | none => exact .pure _
  | some n =>
    exact .ite ((Mono.addErrorBuilder _).bind (fun _ => (Rel.recover (R := ⟨[], false⟩) _).mono)) (.pure _)

theorem kill_namedEndBlock (k : SyntaxKind) (w : String) (n : Option Text) (a b : List SyntaxKind)
    (kind : SyntaxKind) :
    Kill (fun v => isTwigTag k v = false) (parseNamedEndBlock k w n a b kind) :=
  .start (fun m => kill_tag k a b (fun _ => (mono_parseEndName w n).bind (fun _ =>
    ((sure_expectAny (H := fun _ => True) _ _).mono.discard).bind
      (fun _ => (Mono.complete m kind).discard))))

/-! ## Loops whose end is checked -/

/-- The first run has stopped where the next tokens satisfy `H`, and has returned `a`. -/
def Esc (R : Run) (H : List Token → Prop) (a : α) (x : Except Panic (α × PState)) : Prop :=
  R.free = true ∧ ∃ t, x = .ok (a, t) ∧ H (dropTrivia t.rest)

/-- Two actions do the same, or the first one stops where `H`. -/
structure RelE (R : Run) (H : List Token → Prop) (a : α) (m m' : P α) : Prop where
  mono : Mono m
  sim : ∀ s s', Sim R s s' → Esc R H a (m s) ∨ Outcome R Eq s s' (m s) (m' s')

theorem RelE.bind {a : α} {W : β → β → Prop} {m m' : P α} {f f' : α → P β} (hm : RelE R H a m m')
    (hk : Kill H (f a)) (hf : ∀ a, Rel R W (f a) (f' a)) : Rel R W (m >>= f) (m' >>= f') := by
  refine ⟨hm.mono.bind (fun a => (hf a).mono), fun s s' hs => ?_⟩
  rcases hm.sim s s' hs with ⟨h1, t, h2, h3⟩ | h
  · refine .inl (.inr ⟨h1, ?_⟩)
    show Bad (P.bind m f s)
    unfold P.bind
    rw [h2]
    exact hk t h3
  · exact h.bind (fun a => (hf a).mono) (fun a t b t' _ _ hv ht => by subst hv; exact (hf a).sim t t' ht)

/-- Something that cannot escape before. -/
theorem RelE.after {V : α → α → Prop} [Rf V] {b : β} {m m' : P α} {f f' : α → P β}
    (hm : Rel R V m m') (hf : ∀ a a', V a a' → RelE R H b (f a) (f' a')) :
    RelE R H b (m >>= f) (m' >>= f') := by
  have hmono : ∀ a, Mono (f a) := fun a => (hf a a (Rf.rf a)).mono
  refine ⟨hm.mono.bind hmono, fun s s' hs => ?_⟩
  show Esc R H b (P.bind m f s) ∨ Outcome R Eq s s' (P.bind m f s) (P.bind m' f' s')
  rcases hm.sim s s' hs with h | h | ⟨e, h1, h2⟩ | ⟨a, t, c, t', h1, h2, hv, ht, hmv⟩
  · exact .inr (.inl (h.bind hmono))
  · unfold P.bind; rw [h]; exact .inr (.inr (.inl rfl))
  · unfold P.bind; rw [h1, h2]; exact .inr (.inr (.inr (.inl ⟨e, rfl, rfl⟩)))
  · unfold P.bind
    rw [h1, h2]
    rcases (hf a c hv).sim t t' ht with h | h
    · exact .inl h
    · right
      rcases h with h | h | h | ⟨a', u, b', u', k1, k2, kv, ku, kmv⟩
      · exact .inl h
      · exact .inr (.inl h)
      · exact .inr (.inr (.inl h))
      · exact .inr (.inr (.inr ⟨a', u, b', u', k1, k2, kv, ku, hmv.trans kmv⟩))

theorem RelE.ofRel {a : α} {m m' : P α} (h : Rel R Eq m m') : RelE R H a m m' :=
  ⟨h.mono, fun s s' hs => .inr (h.sim s s' hs)⟩

/-- A round that called its child began where `early` is false. -/
theorem open_round {early : P Bool} {child : P Unit} {φ : List Token → Bool} (hp : Peek early φ)
    {b : Unit} {s t : PState}
    (h : manyRound (fun a => do return ((← early), a)) (fun _ => child) () s = .ok ((none, b), t)) :
    φ (dropTrivia s.rest) = false := by
  cases hφ : φ (dropTrivia s.rest) with
  | false => rfl
  | true =>
    exfalso
    unfold manyRound at h
    replace h : P.bind _ _ s = _ := h
    unfold P.bind at h
    obtain ⟨r1, p1, q1⟩ := Peek.at' SyntaxKind.TK_UNKNOWN s
    have d1 : dropTrivia r1 = dropTrivia s.rest := by
      rcases q1 with rfl | rfl
      · rfl
      · exact dropTrivia_idem _
    rw [p1] at h
    dsimp only at h
    split at h
    · replace h : P.bind _ _ _ = _ := h
      unfold P.bind at h
      split at h
      · cases h
      · cases h
    replace h : P.bind _ _ _ = _ := h
    unfold P.bind at h
    obtain ⟨r2, p2, q2⟩ := Peek.atEnd { s with rest := r1 }
    have d2 : dropTrivia r2 = dropTrivia s.rest := by
      rcases q2 with rfl | rfl
      · exact d1
      · exact (dropTrivia_idem _).trans d1
    rw [p2] at h
    dsimp only at h
    split at h
    · cases h
    replace h : P.bind _ _ _ = _ := h
    unfold P.bind at h
    obtain ⟨r3, p3, q3⟩ := (hp.bind (ψ := fun a _ => (a, ())) (fun a => .pure (a, ()))) { s with rest := r2 }
    rw [p3] at h
    dsimp only at h
    rw [d2, hφ] at h
    cases h

theorem complete_rest {m : Marker} {k : SyntaxKind} {s t : PState} {a : Unit}
    (h : complete_ m k s = .ok (a, t)) : t.rest = s.rest := by
  replace h : P.bind (complete m k) _ s = _ := h
  unfold P.bind Ludtwig.complete at h
  split at h
  · cases h
  · rename_i c u hu
    cases h
    split at hu
    · split at hu
      · split at hu
        · cases hu; rfl
        · cases hu
      · cases hu
    · cases hu

/-- A `parse_many` whose child may do anything. -/
theorem RelE.parseMany {early early' : P Bool} {child child' : P Unit} {φ : List Token → Bool}
    (he : Rel R Eq early early') (hp : Peek early φ) (hc : Rel R Eq child child') :
    RelE R (fun v => φ v = false) () (parseMany early child) (parseMany early' child') := by
  have he1 : ∀ a : Unit, Rel R Eq (do return ((← early), a)) (do return ((← early'), a)) :=
    fun _ => he.bindEq (fun _ => .pureEq _)
  have hround := fun a : Unit => Rel.manyRound (R := R) he1 (fun _ => hc) a
  have hmono : ∀ a : Unit, Mono (parseManyStep (fun a => do return ((← early), a)) (fun _ => child) a) :=
    fun a => .parseManyStep (hround a).mono
  have key : ∀ (n n' : Nat) (s s' : PState), Sim R s s' →
      Esc R (fun v => φ v = false) () (loopP (parseManyStep (fun a => do return ((← early), a)) (fun _ => child)) n () s) ∨
      Outcome R Eq s s' (loopP (parseManyStep (fun a => do return ((← early), a)) (fun _ => child)) n () s)
        (loopP (parseManyStep (fun a => do return ((← early'), a)) (fun _ => child')) n' () s') := by
    intro n
    induction n with
    | zero => intro n' s s' _; exact .inr (.inl (.inl rfl))
    | succ n ih =>
      intro n' s s' hs
      cases n' with
      | zero => exact .inr (.inr (.inl rfl))
      | succ n' =>
        rcases Rel.parseManyStep he1 (fun _ => hc) () hs with h | ⟨hf, b, t, t', h1, h2, h3, ht, k1, k2, k3⟩
        · have hmono' : ∀ x : Bool × Unit, Mono (match x with
              | (c, a) => if c then loopP (parseManyStep (fun a => do return ((← early), a)) (fun _ => child)) n a
                else Pure.pure a) := by
            rintro ⟨x1, x2⟩
            exact .ite (.loopP hmono n _) (.pure _)
          rcases h with h | h | ⟨e, h1, h2⟩ | ⟨x, t, y, t', h1, h2, hv, ht, hmv⟩
          · exact .inr (.inl (h.bind hmono'))
          · refine .inr (.inr (.inl ?_))
            show P.bind _ _ s' = _
            unfold P.bind; rw [h]
          · refine .inr (.inr (.inr (.inl ⟨e, ?_, ?_⟩)))
            · show P.bind _ _ s = _
              unfold P.bind; rw [h1]
            · show P.bind _ _ s' = _
              unfold P.bind; rw [h2]
          · subst hv
            obtain ⟨c, a⟩ := x
            have e1 : loopP (parseManyStep (fun a => do return ((← early), a)) (fun _ => child)) (n + 1) () s =
                (if c then loopP (parseManyStep (fun a => do return ((← early), a)) (fun _ => child)) n ()
                  else Pure.pure ()) t := by
              show P.bind _ _ s = _
              unfold P.bind; rw [h1]
            have e2 : loopP (parseManyStep (fun a => do return ((← early'), a)) (fun _ => child')) (n' + 1) () s' =
                (if c then loopP (parseManyStep (fun a => do return ((← early'), a)) (fun _ => child')) n' ()
                  else Pure.pure ()) t' := by
              show P.bind _ _ s' = _
              unfold P.bind; rw [h2]
            rw [e1, e2]
            cases c with
            | false =>
              exact .inr (.inr (.inr (.inr ⟨(), t, (), t', rfl, rfl, rfl, ht, hmv⟩)))
            | true =>
              simp only [if_true]
              rcases ih n' t t' ht with h | h
              · exact .inl h
              · right
                rcases h with h | h | h | ⟨a', u, b', u', k1, k2, kv, ku, kmv⟩
                · exact .inl h
                · exact .inr (.inl h)
                · exact .inr (.inr (.inl h))
                · exact .inr (.inr (.inr ⟨a', u, b', u', k1, k2, kv, ku, hmv.trans kmv⟩))
        · left
          refine ⟨hf, t, ?_, ?_⟩
          · show P.bind _ _ s = _
            unfold P.bind; rw [h2]; rfl
          · rw [k2]
            show φ (dropTrivia s.rest) = false
            exact open_round hp h1
  exact ⟨fun s x t h => Mono.loopP hmono _ () s x t h, fun s s' hs => key _ _ s s' hs⟩

theorem relE_parseBody {child child' : P (Option CompletedMarker)} {early early' : P Bool}
    {φ : List Token → Bool} (hc : Rel R Eq child child') (he : Rel R Eq early early')
    (hp : Peek early φ) :
    RelE R (fun v => φ v = false) () (parseBody child early) (parseBody child' early') := by
  unfold parseBody
  refine RelE.after Rel.start (fun m m' hm => ?_)
  subst hm
  have h := RelE.parseMany he hp hc.discard
  refine ⟨h.mono.bind (fun _ => (Mono.complete _ _).discard), fun s s' hs => ?_⟩
  rcases h.sim s s' hs with ⟨h1, t, h2, h3⟩ | h
  · show Esc _ _ _ (P.bind _ _ s) ∨ Outcome R Eq s s' (P.bind _ _ s) _
    cases hx : complete_ m .BODY t with
    | error e =>
      refine .inr (.inl (.inr ⟨h1, ?_⟩))
      unfold P.bind
      rw [h2]
      dsimp only
      rw [hx]
      trivial
    | ok p =>
      refine .inl ⟨h1, p.2, ?_, ?_⟩
      · unfold P.bind
        rw [h2]
        exact hx
      · rw [complete_rest hx]
        exact h3
  · exact .inr (h.bind (fun _ => (Mono.complete _ _).discard)
      (fun a t b t' _ _ _ ht => ((Rel.complete m .BODY).discard).sim t t' ht))

/-- A loop that ends where its body has stopped. -/
theorem RelE.loopTokens {body body' : Unit → P (Bool × Unit)}
    (hb : ∀ u, RelE R H (false, ()) (body u) (body' u)) :
    RelE R H () (loopTokens body ()) (loopTokens body' ()) := by
  have hmono : ∀ n, ∀ x : Bool × Unit, Mono (match x with
      | (c, a) => if c then loopP body n a else Pure.pure a) := by
    rintro n ⟨x1, x2⟩
    exact .ite (.loopP (fun u => (hb u).mono) n _) (.pure _)
  have key : ∀ (n n' : Nat) (s s' : PState), Sim R s s' →
      Esc R H () (loopP body n () s) ∨ Outcome R Eq s s' (loopP body n () s) (loopP body' n' () s') := by
    intro n
    induction n with
    | zero => intro n' s s' _; exact .inr (.inl (.inl rfl))
    | succ n ih =>
      intro n' s s' hs
      cases n' with
      | zero => exact .inr (.inr (.inl rfl))
      | succ n' =>
        rcases (hb ()).sim s s' hs with ⟨h1, t, h2, h3⟩ | h
        · left
          refine ⟨h1, t, ?_, h3⟩
          show P.bind _ _ s = _
          unfold P.bind
          rw [h2]
          rfl
        rcases h with h | h | ⟨e, h1, h2⟩ | ⟨x, t, y, t', h1, h2, hv, ht, hmv⟩
        · exact .inr (.inl (h.bind (hmono n)))
        · refine .inr (.inr (.inl ?_))
          show P.bind _ _ s' = _
          unfold P.bind; rw [h]
        · refine .inr (.inr (.inr (.inl ⟨e, ?_, ?_⟩)))
          · show P.bind _ _ s = _
            unfold P.bind; rw [h1]
          · show P.bind _ _ s' = _
            unfold P.bind; rw [h2]
        · subst hv
          obtain ⟨c, a⟩ := x
          have e1 : loopP body (n + 1) () s = (if c then loopP body n () else Pure.pure ()) t := by
            show P.bind _ _ s = _
            unfold P.bind; rw [h1]
          have e2 : loopP body' (n' + 1) () s' = (if c then loopP body' n' () else Pure.pure ()) t' := by
            show P.bind _ _ s' = _
            unfold P.bind; rw [h2]
          rw [e1, e2]
          cases c with
          | false => exact .inr (.inr (.inr (.inr ⟨(), t, (), t', rfl, rfl, rfl, ht, hmv⟩)))
          | true =>
            simp only [if_true]
            rcases ih n' t t' ht with h | h
            · exact .inl h
            · right
              rcases h with h | h | h | ⟨a', u, b', u', k1, k2, kv, ku, kmv⟩
              · exact .inl h
              · exact .inr (.inl h)
              · exact .inr (.inr (.inl h))
              · exact .inr (.inr (.inr ⟨a', u, b', u', k1, k2, kv, ku, hmv.trans kmv⟩))
  exact ⟨fun s x t h => Mono.loopP (fun u => (hb u).mono) _ () s x t h, fun s s' hs => key _ _ s s' hs⟩

/-- An action that returns `a` and does not go behind the next token, when the next tokens satisfy
`H`. -/
def Still (H : List Token → Prop) (a : α) (m : P α) : Prop :=
  ∀ s, H (dropTrivia s.rest) → ∃ u : PState, m s = .ok (a, u) ∧ dropTrivia u.rest = dropTrivia s.rest

theorem Still.pure (a : α) : Still H a (Pure.pure a) := fun s _ => ⟨s, rfl, rfl⟩

theorem Still.ifFalse {c : P Bool} {φ : List Token → Bool} {m f : P α} {a : α} (hc : Peek c φ)
    (hφ : ∀ v, H v → φ v = false) (hf : Still H a f) : Still H a (ifP c m f) := by
  intro s hs
  obtain ⟨r, h1, h2⟩ := hc s
  have hd : dropTrivia r = dropTrivia s.rest := by
    rcases h2 with rfl | rfl
    · rfl
    · exact dropTrivia_idem _
  obtain ⟨u, h3, h4⟩ := hf { s with rest := r } (by
    show H (dropTrivia r)
    rw [hd]; exact hs)
  refine ⟨u, ?_, h4.trans hd⟩
  show P.bind c _ s = _
  unfold P.bind
  rw [h1, hφ _ hs]
  exact h3

theorem Still.kill {a : α} {m : P α} {f : α → P β} (hm : Still H a m) (hf : Kill H (f a)) :
    Kill H (m >>= f) := by
  intro s hs
  obtain ⟨u, h1, h2⟩ := hm s hs
  show Bad (P.bind m f s)
  unfold P.bind
  rw [h1]
  exact hf u (by rw [h2]; exact hs)

/-- Something that does not move behind. -/
theorem RelE.still {a : α} {b : β} {m m' : P α} {f f' : α → P β} (hm : RelE R H a m m')
    (hs : Still H b (f a)) (hf : ∀ a, Rel R Eq (f a) (f' a)) : RelE R H b (m >>= f) (m' >>= f') := by
  refine ⟨hm.mono.bind (fun a => (hf a).mono), fun s s' hss => ?_⟩
  rcases hm.sim s s' hss with ⟨h1, t, h2, h3⟩ | h
  · left
    obtain ⟨u, k1, k2⟩ := hs t h3
    refine ⟨h1, u, ?_, by rw [k2]; exact h3⟩
    show P.bind m f s = _
    unfold P.bind
    rw [h2]
    exact k1
  · exact .inr (h.bind (fun a => (hf a).mono)
      (fun a t b t' _ _ hv ht => by subst hv; exact (hf a).sim t t' ht))

theorem Rel.body {W : β → β → Prop} {child child' : P (Option CompletedMarker)} {early early' : P Bool}
    {φ : List Token → Bool} {f f' : Unit → P β} (hc : Rel R Eq child child')
    (he : Rel R Eq early early') (hp : Peek early φ) (hk : Kill (fun v => φ v = false) (f ()))
    (hf : ∀ a, Rel R W (f a) (f' a)) :
    Rel R W (parseBody child early >>= f) (parseBody child' early' >>= f') :=
  (relE_parseBody hc he hp).bind hk hf

end Ludtwig.Layout
