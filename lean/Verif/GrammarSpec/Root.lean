import Verif.GrammarSpec.Html

/-!
# Specifications of the recursion and the root (proof device)
-/

namespace Ludtwig

variable {toks : List Token} {α β : Type} {L : List (Nat × List Nat)} {vs : List Nat} {n N : Nat}
  {h : List Token → Prop} {e : Bool} {K : Knot}

theorem ext_parseAnyElement (hK : KGood toks N K) (hn : n ≤ N) :
    Ext toks n h (parseAnyElement K) (RA n h) := by
  intro e
  unfold parseAnyElement
  refine J_bind (ext_parseAnyTwig hK (childGood_anyElement hK) hn e)
    (fun r A ⟨h1, h2, ⟨h3, h4⟩, h5⟩ => ?_)
  obtain ⟨L1, vs1, n1, hh1, e1⟩ := A
  dsimp only at h1 h2 h3 h4 h5
  subst h1
  cases r with
  | some c => exact J_pure ⟨rfl, h2, ⟨h3, by simp⟩, h5⟩
  | none =>
    refine J_post ((ext_parseAnyHtml hK (by omega)).at vs1) ?_
    rintro r ⟨L2, vs2, n2, hh2, e2⟩ ⟨k1, k2, ⟨ws, k3, k4, k5⟩, k6⟩
    dsimp only at k1 k2 k3 k4 k5 k6
    subst k1 k3
    refine ⟨rfl, by dsimp only; omega, ⟨fun c hc => ?_, fun hr => ?_⟩, fun x => k6 (h5 x)⟩
    · have := k4 c hc
      exact ⟨by simp [this.1], by dsimp only; omega⟩
    · dsimp only
      rcases k5 hr with k7 | k7
      · exact .inl (by omega)
      · rcases h4 rfl with h6 | h6
        · exact .inl (by omega)
        · refine .inr (fun v hv => ?_)
          obtain ⟨k8, k9⟩ := k7 v hv
          obtain ⟨g1, g2, g3, g4⟩ := h6 v k8
          refine ⟨g1, ?_⟩
          rcases k9 with k9 | ⟨k9, k10, k11, k12⟩
          · exact .inl k9
          · exact .inr (isTextEnd_cases k9 g2 g3 g4 k10 k11 k12)

/-- The recursion is deep enough for as many tokens as its depth. -/
theorem kgood_knot : ∀ N, KGood toks N (knot N)
  | 0 => ⟨fun _ h => by omega, fun _ h => by omega, fun _ _ h => by omega, fun _ h => by omega,
      fun _ h => by omega, fun _ h => by omega⟩
  | N + 1 => by
    have hK := kgood_knot N
    exact ⟨fun n hn bp => ext_parseExpressionBp hK (by omega),
      fun n hn h => ext_parseAnyElement hK (by omega),
      fun ht n hn => ext_parseHtmlRawTextInner ht hK (by omega),
      fun n hn => ext_parseHtmlAttributeOrTwig hK (by omega),
      fun n hn => ext_parseInnerQuote hK (childGood_double hK) (by omega),
      fun n hn => ext_parseInnerQuote hK (childGood_single hK) (by omega)⟩

/-- One element of the root consumes a token. -/
theorem ext_parseRootPart (hK : KGood toks N K) (hn : n < N) (hh : ∀ v, h v → v ≠ []) :
    Ext toks n h (parseRootPart K) (fun _ A => A.n < n) := by
  intro e
  unfold parseRootPart
  refine J_bind (hK.anyElement n hn h e) (fun r A ⟨h1, h2, ⟨h3, h4⟩, h5⟩ => ?_)
  obtain ⟨L1, vs1, n1, hh1, e1⟩ := A
  dsimp only at h1 h2 h3 h4 h5
  subst h1
  cases r with
  | some c => exact J_pure ⟨rfl, h2, (h3 c rfl).2, h5⟩
  | none =>
    dsimp only
    by_cases hlt : n1 < n
    · refine J_post ((ext_whenP (toks := toks) (n := n1) Peek.atEnd.not ext_errorRecover).at vs1) ?_
      rintro r ⟨L2, vs2, n2, hh2, e2⟩ ⟨k1, k2, _, k6⟩
      dsimp only at k1 k2 k6
      exact ⟨k1, by dsimp only; omega, by dsimp only; omega, fun x => k6 (h5 x)⟩
    · have h6 := (h4 rfl).resolve_left hlt
      have h7 : ∀ v, hh1 v → v ≠ [] ∧ isAt T!"</" v = true := fun v hv =>
        ⟨hh v (h6 v hv).1, (h6 v hv).2.resolve_left (hh v (h6 v hv).1)⟩
      unfold whenP
      refine J_last (b_ifP Peek.atEnd.not ?_ (J_false ?_))
      · unfold errorRecover recover
        refine J_assoc (b_addError (J_assoc ?_))
        refine J_bind (J_postView (J_recoverExpect (n := n1))
          (Q' := fun _ A' => A'.L = [] ∧ A'.n < n ∧ A'.e = true) ?_) ?_
        · rintro a ⟨L2, vs2, n2, hh2, e2⟩ ⟨k1, k2, _, k3, k4⟩
          dsimp only at k1 k2 k3 k4
          rcases k4 with k4 | k4
          · exact .inl ⟨k1, by dsimp only; omega, k3⟩
          · refine .inr (fun v hv => ?_)
            obtain ⟨⟨g1, g2⟩, g3⟩ := k4 v hv
            obtain ⟨g4, g5⟩ := h7 v g2
            cases v with
            | nil => simp at g4
            | cons t v =>
              simp only [isAt, List.head?_cons] at g5
              simp [isAtSet, generalRecoverySet] at g3
              grind
        · rintro a ⟨L2, vs2, n2, hh2, e2⟩ ⟨k1, k2, k3⟩
          dsimp only at k1 k2 k3
          exact J_pure ⟨k1, by dsimp only; omega, k2, fun _ => k3⟩
      · rintro v ⟨hv, hv2⟩
        have := (h7 v hv2).1
        simp at hv
        exact this hv

end Ludtwig
