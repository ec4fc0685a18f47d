import Verif.Shape.Logic

/-!
# Tokens, error recovery and small combinators in the logic of children (proof device)
-/

namespace Ludtwig.Shape
open Rx

variable {strict : Bool} {α β : Type} {L : List (Nat × List Seg)} {vs : List Seg}
  {h : List Token → Prop}

/-! ## The kind of the next token -/

theorem lang_isAt {k : SyntaxKind} {t : Token} {ts : List Token} (hv : isAt k (t :: ts) = true) :
    (tok [k]).Lang [⟨false, t.kind⟩] := by
  simp [isAt] at hv
  exact ⟨k, by simp, by rw [hv]⟩

theorem lang_isAtSet {ks : List SyntaxKind} {t : Token} {ts : List Token}
    (hv : isAtSet ks (t :: ts) = true) : (tok ks).Lang [⟨false, t.kind⟩] := by
  simp [isAtSet] at hv
  exact ⟨t.kind, hv, rfl⟩

theorem lang_isTwigTag {k : SyntaxKind} {t : Token} {ts : List Token}
    (hv : isTwigTag k (t :: ts) = true) : (tok twigBlockOpenSet).Lang [⟨false, t.kind⟩] := by
  unfold isTwigTag at hv
  exact lang_isAtSet (Bool.and_eq_true_iff.1 hv).1

theorem lang_isTwigTag2 {k : SyntaxKind} {t t0 : Token} {ts ts0 : List Token}
    (hv : isTwigTag k (t0 :: ts0) = true) (hd : t :: ts = dropTrivia ts0) :
    (tok [k]).Lang [⟨false, t.kind⟩] := by
  unfold isTwigTag at hv
  have := (Bool.and_eq_true_iff.1 hv).2
  simp [← hd] at this
  exact ⟨k, by simp, by rw [this]⟩

theorem lang_isFollowing {k : SyntaxKind} {l : List SyntaxKind} {t : Token} {ts : List Token}
    (ht : t.kind.isTrivia = false) (hv : isFollowing (k :: l) (t :: ts) = true) :
    (tok [k]).Lang [⟨false, t.kind⟩] := by
  simp only [isFollowing, List.isEmpty_cons, Bool.false_eq_true, if_false, List.filter_cons, ht,
    Bool.not_false, if_true, List.map_cons, followKinds] at hv
  split at hv
  · rename_i h1
    exact ⟨k, by simp, by rw [beq_iff_eq.1 h1]⟩
  · cases hv

theorem filter_dropTrivia (ts : List Token) : (dropTrivia ts).filter (fun t => !t.kind.isTrivia) =
    ts.filter (fun t => !t.kind.isTrivia) := by
  induction ts with
  | nil => rfl
  | cons x ts ih =>
    by_cases hx : x.kind.isTrivia = true
    · rw [show dropTrivia (x :: ts) = dropTrivia ts from by simp [dropTrivia, hx], ih]
      simp [hx]
    · rw [show dropTrivia (x :: ts) = x :: ts from by simp [dropTrivia, hx]]

theorem lang_isFollowing2 {k0 k : SyntaxKind} {l : List SyntaxKind} {t t0 : Token} {ts ts0 : List Token}
    (ht0 : t0.kind.isTrivia = false) (ht : t.kind.isTrivia = false)
    (hv : isFollowing (k0 :: k :: l) (t0 :: ts0) = true)
    (hd : t :: ts = dropTrivia ts0) : (tok [k]).Lang [⟨false, t.kind⟩] := by
  have hf : ts0.filter (fun t => !t.kind.isTrivia) = t :: ts.filter (fun t => !t.kind.isTrivia) := by
    rw [← filter_dropTrivia, ← hd]
    simp [ht]
  simp only [isFollowing, List.isEmpty_cons, Bool.false_eq_true, if_false, List.filter_cons, hf] at hv
  simp only [ht0, Bool.not_false, if_true, List.map_cons, followKinds] at hv
  split at hv
  · split at hv
    · rename_i h1
      exact ⟨k, by simp, by rw [beq_iff_eq.1 h1]⟩
    · cases hv
  · cases hv

theorem lang_notAtSet {ks : List SyntaxKind} {t : Token} {ts : List Token}
    (hv : isAtSet ks (t :: ts) = false) : (tokNot ks).Lang [⟨false, t.kind⟩] := by
  simp [isAtSet] at hv
  exact ⟨t.kind, hv, rfl⟩

theorem lang_notAt {k : SyntaxKind} {t : Token} {ts : List Token} (hv : isAt k (t :: ts) = false) :
    (tokNot [k]).Lang [⟨false, t.kind⟩] := by
  simp [isAt] at hv
  exact ⟨t.kind, by simpa using hv, rfl⟩

theorem lang_any {t : Token} : (tokNot []).Lang [⟨false, t.kind⟩] := ⟨t.kind, by simp, rfl⟩

theorem isAtSet_sub {ks ks' : List SyntaxKind} {v : List Token}
    (hs : (ks.all (fun k => ks'.contains k)) = true) (hv : isAtSet ks v = true) :
    isAtSet ks' v = true := by
  simp only [List.all_eq_true, List.contains_iff_mem] at hs
  cases v with
  | nil => simp [isAtSet] at hv
  | cons t ts =>
    simp only [isAtSet, List.head?_cons, List.contains_iff_mem] at hv ⊢
    exact hs _ hv

/-! ## Facts from the view -/

/-- If the view is impossible, the run does not matter, whatever the children are. -/
theorem T_absurd {m : Nat} {us us' : List Seg} {f : P α} {Q : α → Abs → Prop} (hn : ∀ v, ¬ h v)
    (hg : T strict ⟨(m, us') :: L, vs, h⟩ f Q) : T strict ⟨(m, us) :: L, vs, h⟩ f Q := by
  intro p pre F s hs
  refine hg p pre F s ?_
  rcases hs with hs | ⟨frames, next, h1, h2, h3⟩
  · exact .inl hs
  · exact absurd h3 (hn _)

theorem T_absurd_nil {us' : List Seg} {f : P α} {Q : α → Abs → Prop} (hn : ∀ v, ¬ h v)
    (hg : T strict ⟨[], us', h⟩ f Q) : T strict ⟨[], vs, h⟩ f Q := by
  intro p pre F s hs
  refine hg p pre F s ?_
  rcases hs with hs | ⟨frames, next, h1, h2, h3⟩
  · exact .inl hs
  · exact absurd h3 (hn _)

/-- An error inside of a node is known outside of it. -/
theorem T_errUp {m : Nat} {us : List Seg} {f : P α} {Q : α → Abs → Prop}
    (hg : T strict ⟨[(m, .rx (err strict) :: us)], .rx (err strict) :: vs, h⟩ f Q) :
    T strict ⟨[(m, .rx (err strict) :: us)], vs, h⟩ f Q := by
  intro p pre F s hs
  refine hg p pre F s ?_
  cases strict with
  | true =>
    rcases hs with hs | ⟨frames, next, h1, h2, h3⟩
    · exact .inl hs
    · cases h2 with
      | cons f1 _ _ _ =>
        obtain ⟨a, b, _, _, hb⟩ := f1
        exact absurd hb (by simp [err, Lang])
  | false =>
    refine Cl.le (L := [(m, _)]) hs ⟨fun cs hc => ⟨cs, [], by simp, hc, rfl⟩, fun c ks hm => ⟨ks, ?_⟩⟩
    simpa using hm

/-! ## Recovery -/

/-- After an error: an `ERROR` node or nothing. -/
def lost (strict : Bool) : Rx := .seq (err strict) (opt (.node [.ERROR]))

/-- An expected token, or an error. -/
def may (strict : Bool) (ks : List SyntaxKind) : Rx :=
  .alt (.tok ks) (.seq (err strict) (opt (.seq (.node [.ERROR]) (opt (.tok ks)))))

/-- A comma or the end of a list, or an error. -/
def comma (strict : Bool) : Rx := opt (.alt (.tok [T!","]) (err strict))

theorem lang_anyStar (n : Nat) : ∀ {ks : List SyntaxKind}, ks.length = n →
    (star (tokNot [])).Lang (ks.map (fun k => ⟨false, k⟩)) := by
  induction n with
  | zero => intro ks hk; simp at hk; subst hk; exact ⟨[], rfl, by simp⟩
  | succ n ih =>
    intro ks hk
    cases ks with
    | nil => simp at hk
    | cons k ks =>
      obtain ⟨ws, h1, h2⟩ := ih (ks := ks) (by simpa using hk)
      refine ⟨[⟨false, k⟩] :: ws, by simp [h1], ?_⟩
      intro u hu
      rcases List.mem_cons.1 hu with rfl | hu
      · exact ⟨k, by simp, rfl⟩
      · exact h2 u hu

theorem incl_error : incl (star (tokNot [])) (gram strict .ERROR) = true := by
  cases strict <;> decide +kernel

theorem le_opt_nil {r : Rx} {xs : List Seg} : Le xs (.rx (opt r) :: xs) := by
  refine ⟨fun cs hc => ⟨cs, [], by simp, hc, .inl rfl⟩, fun c ks hm => ⟨ks, by simpa using hm⟩⟩

theorem le_opt_some {r : Rx} {xs ys : List Seg} (hr : Le ys [.rx r]) :
    Le (ys ++ xs) (.rx (opt r) :: xs) := by
  refine Le.append (xs' := [.rx (opt r)]) ⟨fun cs hc => ?_, by simp⟩ (Le.refl xs)
  obtain ⟨a, b, h1, h2, h3⟩ := hr.1 cs hc
  exact ⟨a, b, h1, h2, .inr h3⟩

/-- `recover_expect`. -/
theorem shape_recoverExpect {expected recovery : List SyntaxKind} :
    Runs strict [] [] h (recoverExpect expected recovery)
      (fun _ => [.rx (opt (.seq (.node [.ERROR]) (opt (.tok expected))))]) := by
  unfold Runs recoverExpect
  refine b_peek (Peek.atEnd.or ((Peek.atSet _).or (Peek.atSet _))) (fun b => ?_)
  have hseq : ∀ (m : Nat) (us : List Seg) (r : Rx), (us = [] ∧ r = .nil ∨ us = [.rx r]) →
      Le (us ++ [.nd m [.ERROR]]) [.rx (.seq (.node [.ERROR]) r)] := by
    rintro m us r hus
    refine ⟨fun cs hc => ?_, by simp⟩
    obtain ⟨a, b, rfl, ⟨a1, k, d, a2, rfl, h1, h2, h3⟩, h4⟩ := fits_append.1 hc
    refine ⟨[], _, rfl, rfl, ?_⟩
    simp only [Fits] at h1
    refine ⟨[⟨true, label k d⟩], skelItems b, ?_, ⟨_, h2, rfl⟩, ?_⟩
    · simp [skelItems_append, h1, skelItems, h3]
    · rcases hus with ⟨rfl, rfl⟩ | rfl
      · exact h4
      · obtain ⟨b1, b2, rfl, h5, h6⟩ := h4
        simp only [Fits] at h5
        simpa [skelItems_append, h5] using h6
  cases b with
  | true => exact T_pure ⟨rfl, le_opt_nil⟩
  | false =>
    simp only [Bool.false_eq_true, if_false]
    refine b_start (fun m => ?_)
    have hnil : Le [] [.rx (star (tokNot []))] :=
      ⟨fun cs hc => ⟨[], cs, rfl, rfl, [], hc, by simp⟩, by simp⟩
    refine T_le hnil ?_
    refine T_loopTokens (fun _ A => A.vs = [] ∧ A.L = [(m, [.rx (star (tokNot []))])]) ?_ ⟨rfl, rfl⟩
    · rintro a ⟨L', vs', h'⟩ ⟨h1, h2⟩
      dsimp only at h1 h2
      subst h1 h2
      unfold recoverStep
      refine b_bump (tokNot []) (fun _ _ _ _ => lang_any) (fun t => ?_)
      refine T_le (c' := [.rx (star (tokNot []))]) (le_star (xs := [.rx (tokNot [])]) (Le.refl _)) ?_
      refine b_peek ((Peek.pure _).and (Peek.atSet expected)) (fun b => ?_)
      cases b with
      | true =>
        simp only [if_true]
        refine b_complete_nil rfl incl_error (b_bump_nil (.tok expected) ?_ (fun t => T_pure ?_))
        · rintro t ts _ ⟨hv, _⟩
          exact lang_isAtSet (Bool.and_eq_true_iff.1 hv).2
        · refine ⟨rfl, ?_⟩
          exact (le_opt_some (xs := []) (ys := [.rx (.tok expected), .nd m [.ERROR]])
            (Le.trans (le_opt_some (ys := [.rx (.tok expected)]) (Le.refl _))
              (hseq m [.rx (opt (.tok expected))] _ (.inr rfl))))
      | false =>
        simp only [Bool.false_eq_true, if_false]
        refine b_peek (Peek.atEnd.or ((Peek.atSet _).or (Peek.atSet _))) (fun b => ?_)
        cases b with
        | true =>
          simp only [if_true]
          refine b_complete_nil rfl incl_error (T_pure ⟨rfl, ?_⟩)
          exact (le_opt_some (xs := []) (ys := [.nd m [.ERROR]])
            (Le.trans le_opt_nil (hseq m [.rx (opt (.tok expected))] _ (.inr rfl))))
        | false =>
          simp only [Bool.false_eq_true, if_false]
          exact T_pure ⟨rfl, rfl⟩

theorem shape_addError {msg : String} :
    Runs strict [] [] h (addError msg) (fun _ => [.rx (err strict)]) :=
  T_last (b_addError_nil (T_pure ⟨rfl, Le.refl _⟩))

theorem shape_errorRecover {msg : String} {recovery : List SyntaxKind} :
    Runs strict [] [] h (errorRecover msg recovery) (fun _ => [.rx (lost strict)]) := by
  unfold Runs errorRecover recover
  refine b_addError_nil (b_ext_nil shape_recoverExpect (fun _ => T_pure ⟨rfl, ?_⟩))
  refine Le.rx (xs := [_, _]) (ys := []) rfl ?_ Le.nil
  cases strict <;> decide +kernel

theorem b_displayKind {k : SyntaxKind} {g : String → P β} {Q : β → Abs → Prop} {A : Abs}
    (hg : ∀ s, T strict A (g s) Q) : T strict A (displayKind k >>= g) Q := by
  unfold displayKind
  cases k.display? with
  | none => exact T_panicBind
  | some d => exact hg d

theorem b_displayKinds {ks : List SyntaxKind} {g : List String → P β} {Q : β → Abs → Prop} {A : Abs}
    (hg : ∀ s, T strict A (g s) Q) : T strict A (displayKinds ks >>= g) Q := by
  induction ks generalizing g with
  | nil => exact hg []
  | cons k ks ih =>
    unfold displayKinds
    exact T_assoc (b_displayKind (fun s => T_assoc (ih (fun ss => hg _))))

theorem le_may {ks : List SyntaxKind} :
    Le [.rx (opt (.seq (.node [.ERROR]) (opt (.tok ks)))), .rx (err strict)] [.rx (may strict ks)] := by
  refine ⟨fun cs hc => ?_, by simp⟩
  refine ⟨[], cs, rfl, rfl, .inr ?_⟩
  exact lang_mkSeq.1 hc.lang

/-- `expect`. -/
theorem shape_expect {k : SyntaxKind} {recovery : List SyntaxKind} :
    Runs strict [] [] h (expect k recovery) (fun _ => [.rx (may strict [k])]) := by
  unfold Runs expect
  refine b_peek (Peek.at' k) (fun b => ?_)
  cases b with
  | true =>
    simp only [if_true]
    exact b_bump_nil (.tok [k]) (fun t ts _ hv => lang_isAt hv.1) (fun t => T_pure ⟨rfl, le_alt_left⟩)
  | false =>
    simp only [Bool.false_eq_true, if_false]
    exact b_displayKind (fun s => b_addError_nil (T_last (b_ext_nil shape_recoverExpect
      (fun _ => T_pure ⟨rfl, le_may⟩))))

/-- `expect_any`. -/
theorem shape_expectAny {ks : List SyntaxKind} {recovery : List SyntaxKind} :
    Runs strict [] [] h (expectAny ks recovery) (fun _ => [.rx (may strict ks)]) := by
  unfold Runs expectAny
  refine b_peek (Peek.atSet ks) (fun b => ?_)
  cases b with
  | true =>
    simp only [if_true]
    exact b_bump_nil (.tok ks) (fun t ts _ hv => lang_isAtSet hv.1) (fun t => T_pure ⟨rfl, le_alt_left⟩)
  | false =>
    simp only [Bool.false_eq_true, if_false]
    exact b_displayKinds (fun s => b_addError_nil (T_last (b_ext_nil shape_recoverExpect
      (fun _ => T_pure ⟨rfl, le_may⟩))))

/-! ## Results -/

/-- A completed node. -/
def nodeS (ks : List SyntaxKind) (c : CompletedMarker) : List Seg := [.nd c ks]

/-- A completed node or nothing. -/
def optS (ks : List SyntaxKind) : Option CompletedMarker → List Seg
  | some c => [.nd c ks]
  | none => []

theorem runs_discard {f : P α} {S : α → List Seg} {r : Rx} (hf : Runs strict [] [] h f S)
    (hr : ∀ a, Le (S a) [.rx r]) : Runs strict [] [] h (discard' f) (fun _ => [.rx r]) := by
  unfold Runs discard'
  exact b_ext_nil hf (fun a => T_pure ⟨rfl, by simpa using hr a⟩)

theorem le_node {c : Nat} {ks : List SyntaxKind} : Le [.nd c ks] [.rx (.node ks)] := by
  refine ⟨fun cs hc => ?_, by simp⟩
  obtain ⟨a, k, d, b, rfl, h1, h2, h3⟩ := hc
  simp only [Fits] at h1
  exact ⟨[], _, rfl, rfl, _, h2, by simp [skelItems_append, h1, h3, skelItems]⟩

theorem le_optS {ks : List SyntaxKind} {a : Option CompletedMarker} :
    Le (optS ks a) [.rx (opt (.node ks))] := by
  cases a with
  | none => exact le_opt_nil
  | some c => exact Le.trans le_node ⟨fun cs ⟨a, b, h1, h2, h3⟩ => ⟨a, b, h1, h2, .inr h3⟩, by simp⟩

theorem runs_discardRx {f : P α} {r : Rx} (hf : Runs strict [] [] h f (fun _ => [.rx r])) :
    Runs strict [] [] h (discard' f) (fun _ => [.rx r]) := runs_discard hf (fun _ => Le.refl _)

theorem runs_discardNode {f : P CompletedMarker} {ks : List SyntaxKind}
    (hf : Runs strict [] [] h f (nodeS ks)) :
    Runs strict [] [] h (discard' f) (fun _ => [.rx (.node ks)]) := runs_discard hf (fun _ => le_node)

theorem runs_discardOpt {f : P (Option CompletedMarker)} {ks : List SyntaxKind}
    (hf : Runs strict [] [] h f (optS ks)) :
    Runs strict [] [] h (discard' f) (fun _ => [.rx (opt (.node ks))]) := runs_discard hf (fun _ => le_optS)

theorem shape_expect_ {k : SyntaxKind} {recovery : List SyntaxKind} :
    Runs strict [] [] h (expect_ k recovery) (fun _ => [.rx (may strict [k])]) :=
  runs_discardRx shape_expect

theorem shape_expectAny_ {ks : List SyntaxKind} {recovery : List SyntaxKind} :
    Runs strict [] [] h (expectAny_ ks recovery) (fun _ => [.rx (may strict ks)]) :=
  runs_discardRx shape_expectAny

/-- A node, or an error. -/
def must (strict : Bool) (ks : List SyntaxKind) : Rx := .alt (.node ks) (lost strict)

theorem shape_orRecover {f : P (Option CompletedMarker)} {expected : String} {ks recovery : List SyntaxKind}
    (hf : Runs strict [] [] h f (optS ks)) :
    Runs strict [] [] h (orRecover f expected recovery) (fun _ => [.rx (must strict ks)]) := by
  unfold Runs orRecover ifNone
  refine b_ext_nil hf (fun a => ?_)
  cases a with
  | some c => exact T_pure ⟨rfl, Le.trans le_node le_alt_left⟩
  | none => exact T_last (b_ext_nil shape_errorRecover (fun _ => T_pure ⟨rfl, le_alt_right⟩))

/-- `if f(parser).is_none() { add_error(..) }` -/
theorem shape_ifNoneError {f : P (Option CompletedMarker)} {msg : String} {ks : List SyntaxKind}
    (hf : Runs strict [] [] h f (optS ks)) :
    Runs strict [] [] h (ifNone f (addError msg)) (fun _ => [.rx (.alt (.node ks) (err strict))]) := by
  unfold Runs ifNone
  refine b_ext_nil hf (fun a => ?_)
  cases a with
  | some c => exact T_pure ⟨rfl, Le.trans le_node le_alt_left⟩
  | none => exact T_last (b_ext_nil shape_addError (fun _ => T_pure ⟨rfl, le_alt_right⟩))

theorem shape_whenP {c : P Bool} {t : P Unit} {φ : List Token → Bool} {r : Rx} (hc : Peek c φ)
    (ht : Runs strict [] [] (fun v => φ v = true ∧ h v) t (fun _ => [.rx r])) :
    Runs strict [] [] h (whenP c t) (fun _ => [.rx (opt r)]) := by
  unfold Runs whenP
  refine T_last (b_ifP hc ?_ (T_pure ⟨rfl, le_opt_nil⟩))
  refine b_ext_nil ht (fun _ => T_pure ⟨rfl, ?_⟩)
  exact le_opt_some (xs := []) (ys := [.rx r]) (Le.refl _)

theorem shape_optionalToken {k : SyntaxKind} :
    Runs strict [] [] h (optionalToken k) (fun _ => [.rx (opt (.tok [k]))]) :=
  shape_whenP (Peek.at' k) (T_last (b_bump__nil (fun _ _ _ hv => lang_isAt hv.1)
    (T_pure ⟨rfl, Le.refl _⟩)))

theorem shape_commaOrEnd {c : P Bool} {φ : List Token → Bool} (hc : Peek c φ) :
    Runs strict [] [] h (commaOrEnd c) (fun _ => [.rx (comma strict)]) := by
  unfold Runs commaOrEnd
  refine T_last (b_ifP (Peek.at' _) ?_ (T_last ?_))
  · refine b_bump__nil (fun _ _ _ hv => lang_isAt hv.1) (T_pure ⟨rfl, ?_⟩)
    exact le_opt_some (xs := []) (ys := [_]) le_alt_left
  · rw [bind_pure_P]
    refine b_ext_nil (shape_whenP hc.not shape_addError) (fun _ => T_pure ⟨rfl, ?_⟩)
    refine Le.rx (xs := [_]) (ys := []) rfl ?_ Le.nil
    cases strict <;> decide +kernel

/-- `parse_many` where there is something to parse. -/
theorem runs_parseSome {early : P Bool} {child : P Unit} {φ : List Token → Bool} {r : Rx}
    (he : Peek early φ) (hh : ∀ v, h v → v ≠ [] ∧ φ v = false)
    (hc : Runs strict [] [] (fun v => v ≠ [] ∧ φ v = false) child (fun _ => [.rx r])) :
    Runs strict [] [] h (parseMany early child) (fun _ => [.rx (.seq (alt unknown r) (many r))]) := by
  unfold parseMany parseManyWith
  refine T_loopTokens (fun _ A => A.L = [] ∧
    ((A.vs = [] ∧ ∀ v, A.h v → v ≠ [] ∧ φ v = false) ∨ Le A.vs [.rx (.seq (alt unknown r) (many r))])) ?_
    ⟨rfl, .inl ⟨rfl, hh⟩⟩
  rintro a ⟨L, vs, h⟩ ⟨h1, h2⟩
  dsimp only at h1 h2
  subst h1
  have more : ∀ xs : List Seg, Le xs [.rx (alt unknown r)] →
      Le (xs ++ vs) [.rx (.seq (alt unknown r) (many r))] := by
    intro xs hx
    rcases h2 with ⟨rfl, _⟩ | h2
    · rw [List.append_nil]; exact hx.trans le_plus
    · exact (hx.append h2).trans le_plus_more
  have stop : ∀ h' : List Token → Prop, (∀ v, h' v → h v ∧ ¬ (v ≠ [] ∧ φ v = false)) →
      T strict ⟨[], vs, h'⟩ (pure (false, a)) (fun r' A' =>
        if r'.1 then A'.L = [] ∧ ((A'.vs = [] ∧ ∀ v, A'.h v → v ≠ [] ∧ φ v = false) ∨
          Le A'.vs [.rx (.seq (alt unknown r) (many r))])
        else A'.L = [] ∧ Le A'.vs [.rx (.seq (alt unknown r) (many r))]) := by
    intro h' hv
    rcases h2 with ⟨rfl, h2⟩ | h2
    · refine T_absurd_nil (us' := [.rx (.seq (alt unknown r) (many r))])
        (fun v hv' => (hv v hv').2 (h2 v (hv v hv').1)) (T_pure ⟨rfl, Le.refl _⟩)
    · exact T_pure ⟨rfl, h2⟩
  unfold parseManyStep
  refine b_getPos (fun n0 => b_peek (Peek.at' _) (fun b => ?_))
  cases b with
  | true =>
    simp only [if_true]
    refine b_bump_nil unknown ?_ (fun t => T_pure ⟨rfl, .inr (more [.rx unknown] le_alt_left)⟩)
    rintro t ts _ ⟨hv, _⟩
    simp [isAt] at hv
    exact ⟨.TK_UNKNOWN, by simp, by rw [hv]⟩
  | false =>
    simp only [Bool.false_eq_true, if_false]
    refine b_peek Peek.atEnd (fun b => ?_)
    cases b with
    | true =>
      refine stop _ (fun v hv => ⟨hv.2.2, fun hn => hn.1 ?_⟩)
      simpa using hv.1
    | false =>
      simp only [Bool.false_eq_true, if_false]
      refine b_peek (φ := fun v => (φ v, ())) (he.bind (fun _ => .pure _)) (fun b => ?_)
      obtain ⟨b, u⟩ := b
      cases b with
      | true =>
        refine stop _ (fun v hv => ⟨hv.2.2.2, fun hn => ?_⟩)
        have := hv.1
        simp [hn.2] at this
      | false =>
        simp only [Bool.false_eq_true, if_false]
        refine T_bind ((Runs.frame hc).pre ?_) (fun a2 A2 hA2 => b_getPos (fun n1 => T_pure ?_))
        · rintro v ⟨h3, h4, _⟩
          simp at h3 h4
          exact ⟨h4, h3⟩
        · have := (hA2.2).trans (more [.rx r] le_alt_right)
          cases (n1 != n0)
          · exact ⟨hA2.1, this⟩
          · exact ⟨hA2.1, .inr this⟩

end Ludtwig.Shape
