import Verif.Template.Postfix

/-!
# Operands and conditionals (proof device for C73)
-/

namespace Ludtwig.Template

variable {toks : List Token} {s s' : PState} {p q c : Nat} {ch dh : List Child}
  {F : List (Nat × List Child)} {t : Token} {v w u : List Token} {x y : Tree} {xs : List Tree} {k : SyntaxKind}
  {n m : Nat} {d i : Bool} {e : Tail}

/-- An operand without the operators behind it is taken. -/
structure PrimaryOk (toks : List Token) (u : List Token) (x : Tree) : Prop where
  starts : HeadIn exprStarts u
  run : ∀ n, u.length ≤ n → ∀ {s p ch F v} {Q : Option CompletedMarker → PState → Prop},
    At toks s ((p, ch) :: F) (u ++ v) → atS [T!"(", T!"=>"] v = false →
    (∀ c s', At toks s' ((p, ch ++ [(some c, x)]) :: F) v →
      Run (parsePostfixOperators (knot n) c) s' (fun c => Q (some c))) → Run (parseExpressionLhs (knot n)) s Q

/-- An operand is taken. -/
structure OpOk (toks : List Token) (e : Tail) (u : List Token) (x : Tree) : Prop where
  starts : HeadIn exprStarts u
  run : OperandOk toks e u x

/-- Operands and operators are taken. -/
structure SumOk (toks : List Token) (tight : Bool) (e : Tail) (u : List Token) (x : Tree) : Prop where
  starts : HeadIn exprStarts u
  run : TermsOk toks tight e u x

theorem postfixed_ok (hx : PrimaryOk toks u x) (hp : PostOk toks x w y) : OpOk toks .all (u ++ w) y := by
  refine ⟨hx.starts.append _, fun n hn s p ch F v Q h hf hk => ?_⟩
  simp only [List.length_append] at hn
  rw [List.append_assoc] at h
  exact hx.run n (by omega) h (hp.notIn hf) fun c s h => (hp.run n (by omega) h hf fun c s h => hk c s h).run

/-! ## Literals -/

/-- The literal branch of an operand. -/
theorem At.literal {L : List SyntaxKind} (h : At toks s F (t :: v)) (ht : t.kind ∈ L)
    {Q : Option CompletedMarker → PState → Prop}
    (hk : ∀ s', At toks s' F (t :: v) → Run (parseTwigLiteral (knot n)) s' (fun o s2 => ∃ c, o = some c ∧
      Run (parsePostfixOperators (knot n) c) s2 (fun c => Q (some c))))
    (hd : L.all (fun k => !(T!"(" :: prefixKinds).contains k) = true := by decide +kernel) :
    Run (parseExpressionLhs (knot n)) s Q := by
  have hL : ∀ {k}, k ∈ T!"(" :: prefixKinds → t.kind ≠ k := by
    intro k hk h'
    have := contains_no ht hd
    rw [h'] at this
    rw [List.contains_iff_mem.2 hk] at this
    cases this
  refine h.ifF (Sees.at' _) (beq_ne (hL (by simp))) fun s h => h.ifF (Sees.atSet _) ?_ fun s h => .bind ?_
  · rw [atS_cons]
    have : [T!"-", T!"+", T!"not", T!"..."].contains t.kind = prefixKinds.contains t.kind := rfl
    rw [this]
    cases h' : prefixKinds.contains t.kind with
    | false => rfl
    | true => exact absurd rfl (hL (List.mem_cons_of_mem _ (List.contains_iff_mem.1 h')))
  · refine (hk s h).mono ?_
    rintro o s2 ⟨c, rfl, h2⟩
    exact .bind (h2.mono fun c s h => .pure h)

theorem number_ok (ht : t.kind = T!"number") : PrimaryOk toks [t] (.node .TWIG_LITERAL_NUMBER [t.tree]) := by
  refine ⟨.of (mem_sub (mem1 ht)), fun n hn s p ch F v Q h hf hk => h.literal (mem1 ht) fun s h => ?_⟩
  exact h.ifT (Sees.at1 _) (atS_yes (mem1 ht)) fun s h => .bind (h.tokenNode fun m s h => .pure ⟨_, rfl, hk _ _ h⟩)

theorem literalString_ok (hx : StringOk toks true u x) : PrimaryOk toks u x := by
  refine ⟨hx.starts.sub, fun n hn s p ch F v Q h hf hk => ?_⟩
  obtain ⟨t, w, rfl, ht⟩ := hx.starts
  refine h.literal ht fun s h => ?_
  exact h.ifF (Sees.at1 _) (atS_no ht) fun s h => h.ifT (Sees.atSet _) (atS_yes ht) fun s h =>
    .bind (hx.run n hn h trivial fun m s h => .pure ⟨_, rfl, hk _ _ h⟩)

theorem arrayPrimary_ok {l r : Token} (hl : l.kind = T!"[") (ih : ListOk (AnyExpr toks) m u xs) (hr : r.kind = T!"]") :
    PrimaryOk toks (l :: (u ++ [r])) (.node .TWIG_LITERAL_ARRAY [l.tree, .node .TWIG_LITERAL_ARRAY_INNER xs, r.tree]) := by
  refine ⟨.of (mem_sub (mem1 hl)), fun n hn s p ch F v Q h hf hk => h.literal (mem1 hl) fun s h => ?_⟩
  exact h.ifF (Sees.at1 _) (atS_no (mem1 hl)) fun s h => h.ifF (Sees.atSet _) (atS_no (mem1 hl)) fun s h =>
    h.ifT (Sees.at1 _) (atS_yes (mem1 hl)) fun s h => .bind (array_ok ih hr n hn h trivial fun m s h =>
      .pure ⟨_, rfl, hk _ _ h⟩)

theorem null_ok (ht : t.kind = T!"null") : PrimaryOk toks [t] (.node .TWIG_LITERAL_NULL [t.tree]) := by
  refine ⟨.of (mem_sub (mem1 ht)), fun n hn s p ch F v Q h hf hk => h.literal (mem1 ht) fun s h => ?_⟩
  exact h.ifF (Sees.at1 _) (atS_no (mem1 ht)) fun s h => h.ifF (Sees.atSet _) (atS_no (mem1 ht)) fun s h =>
    h.ifF (Sees.at1 _) (atS_no (mem1 ht)) fun s h => h.ifT (Sees.at1 _) (atS_yes (mem1 ht)) fun s h =>
    .bind (h.tokenNode fun m s h => .pure ⟨_, rfl, hk _ _ h⟩)

theorem boolean_ok (ht : t.kind ∈ [T!"true", T!"false"]) : PrimaryOk toks [t] (.node .TWIG_LITERAL_BOOLEAN [t.tree]) := by
  refine ⟨.of (mem_sub ht), fun n hn s p ch F v Q h hf hk => h.literal ht fun s h => ?_⟩
  exact h.ifF (Sees.at1 _) (atS_no ht) fun s h => h.ifF (Sees.atSet _) (atS_no ht) fun s h =>
    h.ifF (Sees.at1 _) (atS_no ht) fun s h => h.ifF (Sees.at1 _) (atS_no ht) fun s h =>
    h.ifT (Sees.atSet _) (atS_yes ht) fun s h => .bind (h.tokenNode fun m s h => .pure ⟨_, rfl, hk _ _ h⟩)

theorem literalHash_ok (hx : HashOk toks u x) : PrimaryOk toks u x := by
  refine ⟨hx.starts.sub, fun n hn s p ch F v Q h hf hk => ?_⟩
  obtain ⟨t, w, rfl, ht⟩ := hx.starts
  refine h.literal ht fun s h => ?_
  exact h.ifF (Sees.at1 _) (atS_no ht) fun s h => h.ifF (Sees.atSet _) (atS_no ht) fun s h =>
    h.ifF (Sees.at1 _) (atS_no ht) fun s h => h.ifF (Sees.at1 _) (atS_no ht) fun s h =>
    h.ifF (Sees.atSet _) (atS_no ht) fun s h => h.ifT (Sees.at1 _) (atS_yes ht) fun s h =>
    .bind (hx.run n hn h trivial fun m s h => .pure ⟨_, rfl, hk _ _ h⟩)

/-! ## Names -/

/-- The kinds of names in the position of operands. -/
def operandNames : List SyntaxKind :=
  testKinds ++ nameKinds.filter (fun k => ![T!"true", T!"false", T!"null", T!"not"].contains k)

theorem IsVariable.operand (h : IsVariable t) : t.kind ∈ operandNames :=
  List.mem_append_right _ (List.mem_filter.2 ⟨h.1.1, by
    have := h.2
    cases h' : [T!"true", T!"false", T!"null", T!"not"].contains t.kind with
    | false => rfl
    | true => exact absurd (List.contains_iff_mem.1 h') this⟩)

theorem operandNames_name (h : IsVariable t ∨ t.kind ∈ testKinds) :
    t.kind ∈ operandNames ∧ (isTwigName t.text = true ∨ t.kind ∈ testKinds) := by
  rcases h with h | h
  · exact ⟨h.operand, .inl h.1.text⟩
  · exact ⟨List.mem_append_left _ h, .inr h⟩

/-- The part of an operand behind its name. -/
def nameRest (K : Knot) (kind : Option SyntaxKind) (node : CompletedMarker) : P CompletedMarker :=
  ifP (at' T!"(") (parseTwigFunction K node)
    (ifP (at' T!"=>")
      (do parseTwigArrowFunction K (← wrap node .TWIG_ARGUMENTS))
      (if kind = some T!"same as" ∨ kind = some T!"divisible by" then
        parseTwigTestImplicitArgument K node
      else pure node))

theorem At.nameLiteral (h : At toks s ((p, ch) :: F) (t :: v)) (ht : IsVariable t ∨ t.kind ∈ testKinds)
    {Q : Option CompletedMarker → PState → Prop}
    (hk : ∀ c s', At toks s' ((p, ch ++ [(some c, nameTree t)]) :: F) v →
      Run (nameRest (knot n) (some t.kind) c) s' (fun c s2 => Run (parsePostfixOperators (knot n) c) s2 (fun c => Q (some c)))) :
    Run (parseExpressionLhs (knot n)) s Q := by
  obtain ⟨h1, h2⟩ := operandNames_name ht
  refine h.literal h1 fun s h => ?_
  refine h.ifF (Sees.at1 _) (atS_no h1) fun s h => h.ifF (Sees.atSet _) (atS_no h1) fun s h =>
    h.ifF (Sees.at1 _) (atS_no h1) fun s h => h.ifF (Sees.at1 _) (atS_no h1) fun s h =>
    h.ifF (Sees.atSet _) (atS_no h1) fun s h => h.ifF (Sees.at1 _) (atS_no h1) fun s h => ?_
  refine .bind (Sees.peek.run h fun s h => .bind (h.parseName h2 fun m s h => .bind ?_))
  exact (hk m s h).mono fun c s h => .pure ⟨_, rfl, h⟩

theorem name_not_test (h : IsVariable t) : ¬ (some t.kind = some T!"same as" ∨ some t.kind = some T!"divisible by") := by
  have := h.1.1
  rintro (h' | h') <;> · rw [Option.some.inj h'] at this; exact absurd this (by decide)

theorem name_ok (ht : IsVariable t) : PrimaryOk toks [t] (nameTree t) := by
  refine ⟨.of (mem_sub ht.1.1), fun n hn s p ch F v Q h hf hk => h.nameLiteral (.inl ht) fun m s h => ?_⟩
  obtain ⟨h1, h2⟩ : atS [T!"("] v = false ∧ atS [T!"=>"] v = false := by
    cases v with
    | nil => exact ⟨rfl, rfl⟩
    | cons t v => simpa using hf
  refine h.ifF (Sees.at1 _) h1 fun s h => h.ifF (Sees.at1 _) h2 fun s h => ?_
  rw [if_neg (name_not_test ht)]
  exact .pure (hk _ _ h)

theorem call_ok (ht : IsVariable t ∨ t.kind ∈ testKinds) (ha : ArgsShape toks u x) :
    PrimaryOk toks (t :: u) (.node .TWIG_FUNCTION_CALL [.node .TWIG_OPERAND [nameTree t], x]) := by
  refine ⟨.of (mem_sub (operandNames_name ht).1), fun n hn s p ch F v Q h hf hk => ?_⟩
  simp only [List.length_cons] at hn
  refine h.nameLiteral ht fun m s h => ?_
  exact h.ifT (Sees.at1 _) (ha.starts.append _).yes fun s h => ha.function (by omega) h fun m s h => hk _ _ h

/-! ## Operands that reach as far as possible -/

theorem OpFol.exprEnd (h : OpFol (.none d) v) : ExprEnd d v := by
  obtain ⟨t, w, rfl, h | ⟨h, _⟩ | ⟨_, h⟩⟩ := h
  · exact ⟨t, w, rfl, h⟩
  · exact h.elim
  · exact h.elim

theorem OpFol.postfixes (hf : OpFol e v) (h : At toks s ((p, ch ++ [(some c, x)]) :: F) v)
    {Q : CompletedMarker → PState → Prop} (hk : ∀ s', At toks s' ((p, ch ++ [(some c, x)]) :: F) v → Q c s') :
    Run (parsePostfixOperators (knot n) c) s Q := (noPostfix h hf.head hk).run

theorem arrow_run {a : Token} {y : Tree} (hx : ExprOk toks d u x) (hn : u.length < n) (hf : ExprEnd d v)
    (h : At toks s ((p, ch ++ [(some c, y)]) :: F) (a :: (u ++ v))) {Q : CompletedMarker → PState → Prop}
    (hk : ∀ m s', At toks s' ((p, ch ++ [(some m, .node .TWIG_ARROW_FUNCTION [y, a.tree, x])]) :: F) v → Q m s') :
    Run (parseTwigArrowFunction (knot n) c) s Q :=
  .bind (h.precede fun m s h => .bind (h.bump_ fun s h => .bind (Gives.orRecover (hx.knot hn) h hf fun s h =>
    h.complete fun s h => hk _ _ (by simpa using h))))

theorem arrow_ok {a : Token} (ht : IsVariable t) (ha : a.kind = T!"=>") (hx : ExprOk toks d u x) :
    OpOk toks (.none d) (t :: a :: u) (.node .TWIG_ARROW_FUNCTION [.node .TWIG_ARGUMENTS [nameTree t], a.tree, x]) := by
  refine ⟨.of (mem_sub ht.1.1), fun n hn s p ch F v Q h hf hk => ?_⟩
  simp only [List.length_cons] at hn
  refine h.nameLiteral (.inl ht) fun m s h => ?_
  refine h.ifF (Sees.at1 _) (atS_no (mem1 ha)) fun s h => h.ifT (Sees.at1 _) (atS_yes (mem1 ha)) fun s h =>
    .bind (h.wrap1 fun m s h => arrow_run hx (by omega) hf.exprEnd h fun m s h => ?_)
  exact hf.postfixes h fun s h => hk _ _ h

theorem test_ok (ht : t.kind ∈ testKinds) (hx : ExprOk toks d u x) (hu : ∀ t' ∈ u.head?, t'.kind ∉ [T!"(", T!"=>"]) :
    OpOk toks (.none d) (t :: u)
      (.node .TWIG_FUNCTION_CALL [.node .TWIG_OPERAND [nameTree t], .node .TWIG_ARGUMENTS [x]]) := by
  refine ⟨.of (mem_sub ht), fun n hn s p ch F v Q h hf hk => ?_⟩
  simp only [List.length_cons] at hn
  refine h.nameLiteral (.inr ht) fun m s h => ?_
  obtain ⟨h1, h2⟩ : atS [T!"("] (u ++ v) = false ∧ atS [T!"=>"] (u ++ v) = false := by
    obtain ⟨t', w, rfl, _⟩ := hx.starts
    simpa using hu t' rfl
  refine h.ifF (Sees.at1 _) h1 fun s h => h.ifF (Sees.at1 _) h2 fun s h => ?_
  rw [if_pos (by simpa [testKinds] using ht)]
  refine .bind (h.wrap1 fun m s h => .bind (h.precede fun m s h => .bind (h.start fun m s h => .bind ?_)))
  refine Gives.orRecover (hx.knot (by omega)) h hf.exprEnd fun s h => .bind (h.complete_ fun s h => h.complete fun s h => ?_)
  exact hf.postfixes (by simpa using h) fun s h => hk _ _ h

/-! ## Prefix operators -/

theorem binary_lt : ∀ {k l r}, binaryBindingPower k = some (l, r) → l < 201 := by
  have key : ∀ k ∈ SyntaxKind.all, (match binaryBindingPower k with
      | some (l, _) => decide (l < 201) | none => true) = true := by decide +kernel
  intro k l r h
  have := key k (mem_all k)
  rw [h] at this
  exact of_decide_eq_true this

theorem At.unary (h : At toks s ((p, ch) :: F) (t :: v)) (ht : t.kind ∈ prefixKinds) {b : Nat}
    (hb : unaryBindingPower t.kind = some b) {Q : Option CompletedMarker → PState → Prop}
    (hk : ∀ m s', At toks s' ((m, [(none, t.tree)]) :: (p, ch) :: F) v → Run ((knot n).exprBp b) s'
      (fun _ s2 => ∃ y w, At toks s2 ((m, [(none, t.tree), (none, y)]) :: (p, ch) :: F) w ∧
        ∀ s3, At toks s3 ((p, ch ++ [(some m, .node .TWIG_UNARY_EXPRESSION [t.tree, y])]) :: F) w → Q (some m) s3)) :
    Run (parseExpressionLhs (knot n)) s Q := by
  refine h.ifF (Sees.at1 _) (atS_no ht) fun s h => h.ifT (Sees.atSet _) (atS_yes ht) fun s h => .bind ?_
  refine .bind (h.start fun m s h => .bind (h.bump fun s h => ?_))
  rw [hb]
  refine .bind (.discard ((hk m s h).mono ?_))
  rintro _ s2 ⟨y, w, h2, h3⟩
  exact h2.complete fun s h => .pure (h3 s (by simpa using h))

theorem signed_ok (ht : t.kind ∈ [T!"+", T!"-", T!"..."]) (hx : OpOk toks e u x) :
    OpOk toks e (t :: u) (.node .TWIG_UNARY_EXPRESSION [t.tree, .node .TWIG_EXPRESSION [x]]) := by
  refine ⟨.of (mem_sub ht), fun n hn s p ch F v Q h hf hk => ?_⟩
  simp only [List.length_cons] at hn
  obtain ⟨n, rfl⟩ : ∃ m, n = m + 1 := ⟨n - 1, by omega⟩
  obtain ⟨b, hb, hb'⟩ : ∃ b, unaryBindingPower t.kind = some b ∧ 201 ≤ b := by
    simp only [List.mem_cons, List.not_mem_nil, or_false] at ht
    rcases ht with ht | ht | ht
    · exact ⟨201, by rw [ht]; rfl, by omega⟩
    · exact ⟨201, by rw [ht]; rfl, by omega⟩
    · exact ⟨211, by rw [ht]; rfl, by omega⟩
  refine h.unary (mem_sub ht) hb fun m s h => ?_
  have hl : BinaryLoop toks n b (.operand u x) [] (.operand u x) [] v :=
    binaryLoop (b := b) (rest := []) (.stop (by simp)) (Nat.le_refl _)
      (fun _ _ _ _ h => Nat.lt_of_lt_of_le (binary_lt h) hb') (by simp) trivial (by simp [restTokens])
  refine expr_run hl ?_ h fun m s h => ?_
  · intro s p ch F v' Q h hv hk
    have hv : v' = v := hv
    rw [hv] at h hk
    exact hx.run n (by omega) h hf hk
  · rw [if_neg (by omega)]
    exact .pure ⟨_, _, h.anon1, fun s h => hk _ _ h⟩

theorem not_ok (ht : t.kind = T!"not") (hx : SumOk toks true e u x) :
    OpOk toks e.behindNot (t :: u) (.node .TWIG_UNARY_EXPRESSION [t.tree, x]) := by
  refine ⟨.of (mem_sub (mem1 ht)), fun n hn s p ch F v Q h hf hk => ?_⟩
  simp only [List.length_cons] at hn
  obtain ⟨n, rfl⟩ : ∃ m, n = m + 1 := ⟨n - 1, by omega⟩
  refine h.unary (mem_sub (mem1 ht)) (b := 51) (by rw [ht]; rfl) fun m s h => ?_
  refine hx.run n (by omega) h hf fun m s h => ?_
  rw [if_neg (by decide)]
  exact .pure ⟨_, _, h.anon1, fun s h => hk _ _ h⟩

/-! ## Arrow functions with parentheses -/

/-- Further parameters are taken. -/
structure ParamsOk (toks : List Token) (u : List Token) (xs : List Tree) : Prop where
  starts : u = [] ∨ HeadIn [T!","] u
  run : ∀ {s p ch F r v} {Q : Unit → PState → Prop}, At toks s ((p, ch) :: F) (u ++ r :: v) → r.kind = T!")" →
    (∀ s', At toks s' ((p, ch ++ anon xs) :: F) (r :: v) → Q () s') →
    Loops (fun a => do return ((← at' T!")"), a)) (fun _ => do
      expect_ T!"," twigExpressionRecoverySet
      discard' parseTwigName) () s Q

theorem noParam_ok : ParamsOk toks [] [] := by
  refine ⟨.inl rfl, fun h hr hk => ?_⟩
  exact Loops.stop (seesUnit (Sees.at1 _)) h (kind_ne (mem1 hr)) (atS_yes (mem1 hr)) fun s h => hk s (by simpa using h)

theorem param_ok {c : Token} (hc : c.kind = T!",") (ht : IsName t) (ih : ParamsOk toks w xs) :
    ParamsOk toks (c :: t :: w) (c.tree :: nameTree t :: xs) := by
  refine ⟨.inr (.of (mem1 hc)), fun h hr hk => ?_⟩
  refine Loops.step (seesUnit (Sees.at1 _)) h (kind_ne (mem1 hc)) (atS_no (mem1 hc)) fun s h => ?_
  refine .bind (h.expect_ hc fun s h => Gives.discard (name_gives (.inl ht.text)) h trivial fun s h => ⟨_, _, h, by simp, ?_⟩)
  exact ih.run h hr fun s h => hk s (by simpa using h)

theorem variable_unary (ht : IsVariable t) : unaryBindingPower t.kind = none := by
  have key : ∀ k ∈ operandNames, unaryBindingPower k = none := by decide +kernel
  exact key _ ht.operand

theorem parenArrow_ok {l r a : Token} (hl : l.kind = T!"(") (ht : IsVariable t) (hw : ParamsOk toks w xs)
    (hr : r.kind = T!")") (ha : a.kind = T!"=>") (hx : ExprOk toks d u x) :
    OpOk toks (.none d) (l :: t :: (w ++ r :: a :: u))
      (.node .TWIG_ARROW_FUNCTION [.node .TWIG_ARGUMENTS (l.tree :: nameTree t :: (xs ++ [r.tree])), a.tree, x]) := by
  refine ⟨.of (mem_sub (mem1 hl)), fun n hn s p ch F v Q h hf hk => ?_⟩
  simp only [List.length_cons, List.length_append] at hn
  simp only [List.cons_append, List.append_assoc] at h
  refine h.ifT (Sees.at1 _) (atS_yes (mem1 hl)) fun s h => .bind (.bind (h.start fun m s h => .bind (h.bump_ fun s h => .bind ?_)))
  refine .bind (Sees.peek.run h fun s h => ?_)
  simp only [List.head?_cons, Option.map_some, variable_unary ht]
  refine .bind (h.parseName (.inl ht.1.text) fun m' s h => h.ifT ((Sees.at1 _).or (Sees.atFollowing _)) ?_ fun s h => .pure ?_)
  · rcases hw.starts with rfl | hw
    · rw [List.nil_append, follows_both hr ha, Bool.or_true]
    · rw [(hw.append _).yes, Bool.true_or]
  · rw [if_pos rfl]
    refine .pure ?_
    rw [if_neg (by simp)]
    refine .bind (.bind (Loops.many (hw.run h hr fun s h => ?_)))
    refine .bind (h.expect_ hr fun s h => .bind (h.complete fun s h => ?_))
    refine arrow_run hx (by omega) hf.exprEnd h fun m s h => .pure (hk _ _ (by simpa [At.anon1] using h))

/-! ## Conditionals -/

theorem terms_sum {tight : Bool} {first : Operand} {rest : List (Token × Operand)} {g : Grouping}
    (hf : OpOk toks first.tail first.toks first.tree)
    (hr : ∀ r ∈ rest, OpOk toks r.2.tail r.2.toks r.2.tree)
    (hops : ∀ r ∈ rest, (rowOf r.1.kind).isSome) (ht : tight = true → ∀ r ∈ rest, TighterThanNot r.1.kind)
    (hj : Joins first.tail rest) (hg : WellGrouped g) (hi : g.items = (flatOf first rest).items) :
    SumOk toks tight (lastTail first.tail rest) (flatOf first rest).tokens g.expr :=
  ⟨hf.starts.append _, terms_ok hf.run (fun r h => (hr r h).run) hops ht hj hg hi⟩

theorem ends_not_question (hf : ExprEnd d v) : atS [T!"?"] v = false := by
  obtain ⟨t, w, rfl, h, _⟩ := hf
  exact atS_no h

theorem expr_ok (hx : SumOk toks false e u x) : ExprOk toks e.dangles u x := by
  refine ⟨hx.starts, fun n hn s p ch F v Q h hf hk => ?_⟩
  refine hx.run n hn h hf.term fun m s h => ?_
  rw [if_pos (show powerOf false = 0 from rfl)]
  exact .bind (h.ifT (Sees.at1 _).not (by rw [ends_not_question hf]; rfl) fun s h => .pure (.pure (hk _ _ h)))

/-- The part of a conditional behind the condition. -/
theorem conditional_run {q' : Token} {w : List Token} (hx : SumOk toks false e u x) (he : e.Continues)
    (hq : q'.kind = T!"?") (hn : u.length ≤ n)
    (h : At toks s ((p, ch) :: F) (u ++ q' :: w)) {Q : Option CompletedMarker → PState → Prop} {R : CompletedMarker → PState → Prop}
    (hk : ∀ m s', At toks s' ((m, [(none, x), (none, q'.tree)]) :: (p, ch) :: F) w → Run (parseTruthy (knot n)) s' (fun _ s =>
      Run (whenP (at' T!":") (do
      bump_
      orRecover ((knot n).exprBp 0) "twig expression" [T!"}}", T!"-}}", T!"~}}", T!"%}", T!"-%}", T!"~%}"])) s (fun _ => R m)))
    (hr : ∀ m s', R m s' → ∃ ys v, At toks s' ((m, (none, x) :: (none, q'.tree) :: anon ys) :: (p, ch) :: F) v ∧
      ∀ c s2, At toks s2 ((p, ch ++ [(some c, .node .TWIG_EXPRESSION [.node .TWIG_CONDITIONAL_EXPRESSION (x :: q'.tree :: ys)])]) :: F) v →
        Q (some c) s2) :
    Run (parseExpressionBp (knot n) 0) s Q := by
  refine hx.run n hn h ⟨q', w, rfl, .inr ⟨he, hq⟩⟩ fun m s h => ?_
  rw [if_pos (show powerOf false = 0 from rfl)]
  refine .bind (h.ifF (Sees.at1 _).not (by rw [atS_yes (mem1 hq)]; rfl) fun s h => .bind (h.precede fun m s h =>
    .bind (h.bump_ fun s h => .bind ?_)))
  refine (hk m s h).mono fun _ s h => .bind (h.mono fun _ s h => ?_)
  obtain ⟨ys, v, h1, h2⟩ := hr m s h
  exact .bind (h1.complete fun s h => .bind (h.wrap1 fun m s h => .pure (.pure (h2 _ _ (by simpa using h)))))

theorem conditional_ok {q' c : Token} {u1 u2 : List Token} {z : Tree} (hx : SumOk toks false e u x) (he : e.Continues)
    (hq : q'.kind = T!"?") (h1 : ExprOk toks false u1 y) (hc : c.kind = T!":") (h2 : ExprOk toks d u2 z) :
    ExprOk toks d (u ++ q' :: (u1 ++ c :: u2)) (.node .TWIG_EXPRESSION [.node .TWIG_CONDITIONAL_EXPRESSION
        [x, q'.tree, y, c.tree, z]]) := by
  refine ⟨hx.starts.append _, fun n hn s p ch F v Q h hf hk => ?_⟩
  simp only [List.length_cons, List.length_append] at hn
  simp only [List.cons_append, List.append_assoc] at h
  refine conditional_run (R := fun m s => At toks s ((m, (none, x) :: (none, q'.tree) :: anon [y, c.tree, z]) :: (p, ch) :: F) v)
    hx he hq (by omega) h (fun m s h => ?_) (fun m s h => ⟨_, _, h, hk⟩)
  refine .bind (h1.knot (by omega) h ⟨c, _, rfl, by rw [hc]; decide +kernel, by simp⟩ fun m s h => .pure ?_)
  refine h.whenT (Sees.at1 _) (atS_yes (mem1 hc)) fun s h => .bind (h.anon1.bump_ fun s h => ?_)
  exact Gives.orRecover (h2.knot (by omega)) h hf fun s h => by simpa using h

theorem conditionalThen_ok {q' : Token} {u1 : List Token} (hx : SumOk toks false e u x) (he : e.Continues)
    (hq : q'.kind = T!"?") (h1 : ExprOk toks d u1 y) :
    ExprOk toks true (u ++ q' :: u1) (.node .TWIG_EXPRESSION [.node .TWIG_CONDITIONAL_EXPRESSION [x, q'.tree, y]]) := by
  refine ⟨hx.starts.append _, fun n hn s p ch F v Q h hf hk => ?_⟩
  simp only [List.length_cons, List.length_append] at hn
  simp only [List.cons_append, List.append_assoc] at h
  refine conditional_run (R := fun m s => At toks s ((m, (none, x) :: (none, q'.tree) :: anon [y]) :: (p, ch) :: F) v)
    hx he hq (by omega) h (fun m s h => ?_) (fun m s h => ⟨_, _, h, hk⟩)
  obtain ⟨t, w, rfl, hf⟩ := hf
  refine .bind (h1.knot (by omega) h ⟨t, w, rfl, hf.1, fun _ => hf.2 rfl⟩ fun m s h => .pure ?_)
  exact h.whenF (Sees.at' _) (beq_ne (hf.2 rfl)) fun s h => by simpa using h.anon1

theorem conditionalElse_ok (G : Good toks) {q' c : Token} {u2 : List Token} {z : Tree} (hx : SumOk toks false e u x)
    (he : e.Continues) (hq : q'.kind = T!"?") (hc : c.kind = T!":") (h2 : ExprOk toks d u2 z) :
    ExprOk toks d (u ++ q' :: c :: u2) (.node .TWIG_EXPRESSION [.node .TWIG_CONDITIONAL_EXPRESSION
        [x, q'.tree, c.tree, z]]) := by
  refine ⟨hx.starts.append _, fun n hn s p ch F v Q h hf hk => ?_⟩
  simp only [List.length_cons, List.length_append] at hn
  simp only [List.cons_append, List.append_assoc] at h
  refine conditional_run (R := fun m s => At toks s ((m, (none, x) :: (none, q'.tree) :: anon [c.tree, z]) :: (p, ch) :: F) v)
    hx he hq (by omega) h (fun m s h => ?_) (fun m s h => ⟨_, _, h, hk⟩)
  refine .bind (h.noExpr G (mem_sub (mem1 hc)) (by omega) fun s h =>
    h.whenF (Sees.at1 _).not (by rw [atS_yes (mem1 hc)]; rfl) fun s h => ?_)
  refine h.whenT (Sees.at1 _) (atS_yes (mem1 hc)) fun s h => .bind (h.bump_ fun s h => ?_)
  exact Gives.orRecover (h2.knot (by omega)) h hf fun s h => by simpa using h

end Ludtwig.Template
