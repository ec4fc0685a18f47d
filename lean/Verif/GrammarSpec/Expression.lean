import Verif.GrammarSpec.Literal

/-!
# Specifications of the functions in `Grammar/Expression.lean`
-/

namespace Ludtwig

variable {toks : List Token} {n N : Nat} {h : List Token → Prop} {e : Bool} {K : Knot}

theorem ext_parseTruthy (hK : KGood toks N K) (hn : n < N) : Ext toks n h (parseTruthy K) RU := by
  intro e
  unfold parseTruthy
  jauto

theorem node_parseBinary {bp : Nat} {a : Bool × CompletedMarker} (hK : KGood toks N K) (hn : n ≤ N) :
    NExt toks n h a.2 (loopTokens (parseBinaryStep K bp) a) (fun r A => r.2 ∈ A.vs) := by
  intro vs e hc
  refine J_loopTokens (fun a A => A.L = [] ∧ A.n ≤ n ∧ a.2 ∈ A.vs ∧ (e = true → A.e = true)) ?_
    (fun n0 hn => ⟨rfl, hn, hc, id⟩)
  rintro ⟨b, c⟩ ⟨L', vs', n', h', e'⟩ ⟨h1, h2, h3, h4⟩
  dsimp only at h1 h2 h3 h4
  subst h1
  unfold parseBinaryStep
  refine b_peek Peek.peek (fun k => ?_)
  split
  · exact J_pure ⟨rfl, h2, h3, h4⟩
  · split
    · exact J_pure ⟨rfl, h2, h3, h4⟩
    · rename_i heq _
      refine b_bump_ ?_ (fun n1 hn1 => b_precede_nil h3 (fun m vs1 => ?_))
      · rintro v ⟨hv, _⟩ rfl
        simp at hv
        subst hv
        simp at heq
      · refine b_ext (ext_exprBp hK (by omega)) (fun r ws n2 _ _ hn2 _ => ?_)
        refine b_complete_nil (by side_tac) (J_pure ?_)
        cases r with
        | none => exact ⟨rfl, by dsimp only; omega, by simp, h4⟩
        | some c => exact ⟨⟨rfl, by dsimp only; omega, by simp, h4⟩, by dsimp only; omega⟩

theorem node_parseConditionalExpression {c : Nat} (hK : KGood toks N K) (hn : n ≤ N) :
    NExt toks n h c (parseConditionalExpression K c)
      (fun r A => r.getD c ∈ A.vs) := by
  intro vs e hc
  unfold parseConditionalExpression
  jauto

theorem node_parseBindingPowerRhs {bp c : Nat} (hK : KGood toks N K) (hn : n ≤ N) :
    NExt toks n h c (parseBindingPowerRhs K bp c) RM := by
  intro vs e hc
  unfold parseBindingPowerRhs
  refine b_node_nil (node_parseBinary hK hn) hc (fun a vs' n' _ _ hn' hr => ?_)
  jauto

theorem node_parseParenName {c : Nat} (hK : KGood toks N K) (hn : n < N) :
    NExt toks n h c (parseParenName K c) RU := by
  intro vs e hc
  unfold parseParenName
  jauto

theorem ext_parseParenInner (hK : KGood toks N K) (hn : n < N) :
    Ext toks n h (parseParenInner K) RU := by
  intro e
  unfold parseParenInner
  jauto

theorem cls_parseParenArrowFunction {m : Nat} (hK : KGood toks N K) (hn : n ≤ N)
    (hp : ∃ t ∈ toks, t.kind = T!"(") : Cls toks n h m (parseParenArrowFunction K m) RM := by
  intro ts vs e
  unfold parseParenArrowFunction
  jstep
  jstep
  jstep
  jstep
  refine b_node_nil (node_parseTwigArrowFunction hK (by omega) (fun _ _ _ => hp)) (by simp) ?_
  intro a vs' n' _ _ _ _
  jauto

theorem ext_parseUnaryExpression (hK : KGood toks N K) (hn : n ≤ N)
    (hh : ∀ v, h v → isAtSet [T!"-", T!"+", T!"not", T!"..."] v = true) :
    Ext toks n h (parseUnaryExpression K) (RMS n) := by
  intro e
  unfold parseUnaryExpression
  refine J_pre ?_ hh
  jstep
  refine b_bump (by side_tac) (fun t n' hn' ht hv => ?_)
  split
  · exfalso
    rename_i heq
    obtain ⟨ts, hv⟩ := hv
    simp only [isAtSet, List.head?_cons, List.contains_eq_mem, List.mem_cons, List.not_mem_nil,
      or_false, decide_eq_true_eq] at hv
    rcases hv with hv | hv | hv | hv <;> rw [hv] at heq <;> simp [unaryBindingPower] at heq
  · clear hv hh
    jauto

theorem ext_parseExpressionLhs (hK : KGood toks N K) (hn : n ≤ N) :
    Ext toks n h (parseExpressionLhs K) RO := by
  intro e
  unfold parseExpressionLhs
  jstep
  jstep
  · unfold parseParenExpression
    refine J_fact (φ := ∃ t ∈ toks, t.kind = T!"(") ?_ (fun hp => ?_)
    · rintro v hv ⟨h1, _⟩
      cases v with
      | nil => simp [isAt] at h1
      | cons t ts => exact ⟨t, hv.subset (by simp), by simpa [isAt] using h1⟩
    · jauto
  · jauto

theorem ext_parseExpressionBp {bp : Nat} (hK : KGood toks N K) (hn : n ≤ N) :
    Ext toks n h (parseExpressionBp K bp) RO := by
  intro e
  unfold parseExpressionBp
  jauto

end Ludtwig
