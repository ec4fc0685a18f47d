import Verif.GrammarSpec.Tactic

/-!
# Specifications of the functions in `Grammar/Literal.lean` and `Grammar/Basic.lean`
-/

namespace Ludtwig

variable {toks : List Token} {n N : Nat} {h : List Token → Prop} {e : Bool} {K : Knot}

theorem ext_tokenNode {k : SyntaxKind} (hk : k ≠ .ERROR) (hh : ∀ v, h v → v ≠ []) :
    Ext toks n h (tokenNode k) (RMS n) := by
  intro e
  unfold tokenNode
  jauto

theorem ext_parseTwigNumber (hh : ∀ v, h v → v ≠ []) : Ext toks n h parseTwigNumber (RMS n) :=
  ext_tokenNode (by decide) hh
theorem ext_parseTwigNull (hh : ∀ v, h v → v ≠ []) : Ext toks n h parseTwigNull (RMS n) :=
  ext_tokenNode (by decide) hh
theorem ext_parseTwigBoolean (hh : ∀ v, h v → v ≠ []) : Ext toks n h parseTwigBoolean (RMS n) :=
  ext_tokenNode (by decide) hh

theorem ext_wordNode {k : SyntaxKind} (hk : k ≠ .ERROR) (hh : ∀ v, h v → v ≠ []) :
    Ext toks n h (wordNode k) (RMS n) := by
  intro e
  unfold wordNode
  jauto

theorem ext_parseTwigName : Ext toks n h parseTwigName (ROS n) := by
  intro e
  unfold parseTwigName
  jauto

theorem ext_parseTwigInterpolation (hK : KGood toks N K) (hn : n ≤ N)
    (hh : ∀ v, h v → isFollowing [T!"#", T!"{"] v = true) :
    Ext toks n h (parseTwigInterpolation K) RU := by
  intro e
  unfold parseTwigInterpolation
  refine J_pre ?_ hh
  jauto

theorem ext_parseTwigStringPart {q : SyntaxKind} {i : Bool} (hK : KGood toks N K) (hn : n ≤ N)
    (hh : ∀ v, h v → v ≠ []) : Ext toks n h (parseTwigStringPart K q i) RU := by
  intro e
  unfold parseTwigStringPart
  jauto

theorem ext_parseTwigString {i : Bool} (hK : KGood toks N K) (hn : n ≤ N)
    (hh : ∀ v, h v → isAtSet [T!"\"", T!"'"] v = true) :
    Ext toks n h (parseTwigString K i) (RMS n) := by
  intro e
  unfold parseTwigString
  refine J_pre ?_ hh
  jstep
  refine b_bump (by side_tac) (fun t n' hn' ht hv => ?_)
  have hd : t.kind.display?.isSome = true := by
    obtain ⟨ts, hv⟩ := hv
    simp only [isAtSet, List.head?_cons, List.contains_eq_mem, List.mem_cons, List.not_mem_nil,
      or_false, decide_eq_true_eq] at hv
    rcases hv with hv | hv <;> rw [hv] <;> rfl
  clear hv hh
  jauto

theorem ext_parseTwigArray (hK : KGood toks N K) (hn : n ≤ N) (hh : ∀ v, h v → v ≠ []) :
    Ext toks n h (parseTwigArray K) (RMS n) := by
  intro e
  unfold parseTwigArray
  jauto

theorem ext_parseTwigHashKey (hK : KGood toks N K) (hn : n < N) :
    Ext toks n h (parseTwigHashKey K) RO := by
  intro e
  unfold parseTwigHashKey
  jauto

theorem ext_parseTwigHashPair (hK : KGood toks N K) (hn : n < N) :
    Ext toks n h (parseTwigHashPair K) RO := by
  intro e
  unfold parseTwigHashPair
  jauto

theorem ext_parseTwigHash (hK : KGood toks N K) (hn : n ≤ N) (hh : ∀ v, h v → v ≠ []) :
    Ext toks n h (parseTwigHash K) (RMS n) := by
  intro e
  unfold parseTwigHash
  jauto

theorem ext_parseTwigFunctionArgument (hK : KGood toks N K) (hn : n < N) :
    Ext toks n h (parseTwigFunctionArgument K) RO := by
  intro e
  unfold parseTwigFunctionArgument
  jauto

theorem ext_parseArguments {c : P Bool} {φ : List Token → Bool} (hc : Peek c φ) (hK : KGood toks N K)
    (hn : n < N) : Ext toks n h (parseArguments K c) RU := by
  unfold parseArguments
  side_tac

theorem ext_parseArgumentsNode (hK : KGood toks N K) (hn : n ≤ N) (hh : ∀ v, h v → v ≠ []) :
    Ext toks n h (parseArgumentsNode K) RU := by
  intro e
  unfold parseArgumentsNode
  jauto

theorem node_parseTwigFilter {c : Nat} (hK : KGood toks N K) (hn : n ≤ N) (hh : ∀ v, h v → v ≠ []) :
    NExt toks n h c (parseTwigFilter K c) RM := by
  intro vs e hc
  unfold parseTwigFilter
  jauto

theorem ext_parseTwigUpperBound (hK : KGood toks N K) (hn : n < N) :
    Ext toks n h (parseTwigUpperBound K) RU := by
  intro e
  unfold parseTwigUpperBound
  jauto

theorem node_parseTwigIndexer {c : Nat} (hK : KGood toks N K) (hn : n ≤ N) (hh : ∀ v, h v → v ≠ []) :
    NExt toks n h c (parseTwigIndexer K c) RM := by
  intro vs e hc
  unfold parseTwigIndexer
  jauto

theorem node_parseTwigFunction {c : Nat} (hK : KGood toks N K) (hn : n ≤ N)
    (hh : ∀ v, h v → v ≠ []) : NExt toks n h c (parseTwigFunction K c) RM := by
  intro vs e hc
  unfold parseTwigFunction
  jauto

theorem node_parseTwigAccessor {c : Nat} (hK : KGood toks N K) (hn : n ≤ N)
    (hh : ∀ v, h v → v ≠ []) : NExt toks n h c (parseTwigAccessor K c) RM := by
  intro vs e hc
  unfold parseTwigAccessor
  jauto

theorem node_parseTwigTestImplicitArgument {c : Nat} (hK : KGood toks N K) (hn : n < N) :
    NExt toks n h c (parseTwigTestImplicitArgument K c) RM := by
  intro vs e hc
  unfold parseTwigTestImplicitArgument
  jauto

theorem b_bumpSite {β : Type} {L : List (Nat × List Nat)} {vs : List Nat} {site : Site}
    {g : Unit → P β} {Q : β → AS → Prop}
    (hne : ∀ v, h v → v = [] → Allowed toks (.bumpAtEnd site))
    (hg : ∀ n', n' < n → J toks ⟨L, vs, n', any, e⟩ (g ()) Q) :
    J toks ⟨L, vs, n, h, e⟩ (bump_ site >>= g) Q := by
  unfold bump_ discard' bump
  exact J_assoc (b_bumpGen (by simp) hne (fun t n' hn _ _ => J_pre (hg n' hn) (fun _ _ => trivial)))

theorem node_parseTwigArrowFunction {c : Nat} (hK : KGood toks N K) (hn : n ≤ N)
    (hh : ∀ v, h v → v = [] → ∃ t ∈ toks, t.kind = T!"(") :
    NExt toks n h c (parseTwigArrowFunction K c) RM := by
  intro vs e hc
  unfold parseTwigArrowFunction
  jstep
  refine b_bumpSite (fun v hv h0 => .inl ⟨rfl, hh v hv h0⟩) (fun n' hn' => ?_)
  jauto

theorem ext_parseTwigNameLiteral (hK : KGood toks N K) (hn : n ≤ N) :
    Ext toks n h (parseTwigNameLiteral K) RO := by
  intro e
  unfold parseTwigNameLiteral
  jauto

theorem ext_parseTwigLiteral (hK : KGood toks N K) (hn : n ≤ N) :
    Ext toks n h (parseTwigLiteral K) RO := by
  intro e
  unfold parseTwigLiteral
  jauto

theorem node_parsePostfixOperator {c : Nat} (hK : KGood toks N K) (hn : n ≤ N) :
    NExt toks n h c (parsePostfixOperator K c) RM := by
  intro vs e hc
  unfold parsePostfixOperator
  jauto

theorem node_parsePostfixOperators {c : Nat} (hK : KGood toks N K) (hn : n ≤ N) :
    NExt toks n h c (parsePostfixOperators K c) RM := by
  intro vs e hc
  unfold parsePostfixOperators
  refine J_many (φ := fun c _ => (false, c)) (fun c ts => c ∈ ts) (fun _ => .pure _)
    (fun _ _ _ h => h) ?_ hc
  intro a a' vs' n' e hn' hi
  exact node_parsePostfixOperator hK (by omega) vs' e hi

end Ludtwig
