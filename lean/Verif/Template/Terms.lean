import Verif.Template.Steps
import Verif.Parser.GroupingLemmas
import Verif.Grammar.Root

/-!
# Runs of operators (proof device for C73)
-/

namespace Ludtwig.Template

variable {toks : List Token} {s s' : PState} {p q c : Nat} {ch dh : List Child}
  {F : List (Nat × List Child)} {t : Token} {v w u : List Token} {x : Tree} {k : SyntaxKind} {n min : Nat}

/-- The kinds of the tokens behind expressions. -/
def exprEnds : List SyntaxKind :=
  varCloses ++ tagCloses ++ [T!")", T!"]", T!"}", T!",", T!":", T!"as", T!"import", T!"sw_import",
    T!"ignore missing", T!"with", T!"only", T!"ttl", T!"tags", T!"style"]

/-- What stands behind an expression; no `:` behind a conditional without one. -/
def EndKind (d : Bool) (k : SyntaxKind) : Prop := k ∈ exprEnds ∧ (d = true → k ≠ T!":")

/-- What stands behind an expression. -/
def ExprEnd (d : Bool) (v : List Token) : Prop := ∃ t w, v = t :: w ∧ EndKind d t.kind

/-- What stands behind operands and operators. -/
def TermEnd (e : Tail) (v : List Token) : Prop :=
  ∃ t w, v = t :: w ∧ (EndKind e.dangles t.kind ∨ (e.Continues ∧ t.kind = T!"?"))

/-- What stands behind an operand. -/
def OpFol (e : Tail) (v : List Token) : Prop :=
  ∃ t w, v = t :: w ∧ (EndKind e.dangles t.kind ∨ (e.Continues ∧ t.kind = T!"?") ∨
    ((rowOf t.kind).isSome ∧ e.Allows t.kind))

/-- All kinds behind operands. -/
def followers : List SyntaxKind := exprEnds ++ T!"?" :: binaryOperators

theorem OpFol.follows {e : Tail} (h : OpFol e v) : ∃ t w, v = t :: w ∧ t.kind ∈ followers := by
  obtain ⟨t, w, rfl, h⟩ := h
  refine ⟨t, w, rfl, ?_⟩
  rcases h with h | ⟨_, h⟩ | ⟨h, _⟩
  · exact List.mem_append_left _ h.1
  · exact List.mem_append_right _ (by rw [h]; exact List.mem_cons_self)
  · exact List.mem_append_right _ (List.mem_cons_of_mem _ (mem_binaryOperators.2 h))

/-- The kinds that would continue an operand. -/
theorem followers_not : ∀ k ∈ followers, k ∉ [T!".", T!"[", T!"|", T!"(", T!"=>", .TK_UNKNOWN] := by
  decide +kernel

theorem OpFol.not {e : Tail} (h : OpFol e v) (hk : k ∈ [T!".", T!"[", T!"|", T!"(", T!"=>", .TK_UNKNOWN]) :
    atK k v = false := by
  obtain ⟨t, w, rfl, hf⟩ := h.follows
  rw [atK_cons]
  refine beq_ne ?_
  rintro rfl
  exact followers_not _ hf hk

theorem ExprEnd.term {e : Tail} (h : ExprEnd e.dangles v) : TermEnd e v := by
  obtain ⟨t, w, rfl, h⟩ := h
  exact ⟨t, w, rfl, .inl h⟩

theorem TermEnd.op {e : Tail} (h : TermEnd e v) : OpFol e v := by
  obtain ⟨t, w, rfl, h | h⟩ := h
  · exact ⟨t, w, rfl, .inl h⟩
  · exact ⟨t, w, rfl, .inr (.inl h)⟩

theorem exprEnds_power : ∀ k ∈ exprEnds, binaryBindingPower k = none := by decide +kernel

/-- No operator of at least this power stands here. -/
def StopAt (b : Nat) (w : List Token) : Prop :=
  ∀ t ∈ w.head?, ∀ l r, binaryBindingPower t.kind = some (l, r) → l < b

theorem TermEnd.stop {e : Tail} (h : TermEnd e v) (b : Nat) : StopAt b v := by
  obtain ⟨t, w, rfl, h⟩ := h
  intro t' ht l r hp
  cases ht
  rcases h with h | ⟨_, h⟩
  · rw [exprEnds_power _ h.1] at hp; cases hp
  · rw [h] at hp; cases hp

/-- The power of `not` is between those of the operators that bind tighter and the others. -/
theorem power_not : ∀ k ∈ SyntaxKind.all, ∀ l r, binaryBindingPower k = some (l, r) →
    (∃ i s, rowOf k = some (i, s) ∧ (9 ≤ i ↔ 51 ≤ l) ∧ (51 ≤ l → 51 ≤ r)) := by
  have key : ∀ k ∈ SyntaxKind.all, (match binaryBindingPower k, rowOf k with
      | some (l, r), some (i, _) => decide ((9 ≤ i ↔ 51 ≤ l) ∧ (51 ≤ l → 51 ≤ r))
      | some _, none => false
      | none, _ => true) = true := by decide +kernel
  intro k hk l r hp
  have := key k hk
  rw [hp] at this
  cases h : rowOf k with
  | none => rw [h] at this; cases this
  | some i =>
    rw [h] at this
    exact ⟨i.1, i.2, rfl, of_decide_eq_true this⟩

theorem mem_all (k : SyntaxKind) : k ∈ SyntaxKind.all := List.mem_of_getElem? (i := k.ctorIdx) (by cases k <;> rfl)

theorem OpFol.stop {e : Tail} (h : OpFol e.behindNot v) : StopAt 51 v := by
  obtain ⟨t, w, rfl, h⟩ := h
  intro t' ht l r hp
  cases ht
  rcases h with h | ⟨_, h⟩ | ⟨h, ha⟩
  · rw [exprEnds_power _ h.1] at hp; cases hp
  · rw [h] at hp; cases hp
  · obtain ⟨i, s, h1, h2, _⟩ := power_not _ (mem_all t.kind) l r hp
    cases e <;> simp only [Tail.behindNot, Tail.Allows] at ha
    all_goals
      apply Nat.lt_of_not_le
      intro hl
      exact ha ⟨i, s, h1, h2.2 hl⟩

/-! ## The loop over operators -/

/-- The operands of the rest of a sequence are taken. -/
def RestOk (toks w : List Token) : List (Token × (List Token × Tree)) → Prop
  | [] => True
  | y :: post => (∀ n, y.2.1.length ≤ n →
      Gives toks (parseExpressionLhs (knot n)) y.2.1 y.2.2 (fun v => v = restTokens post ++ w)) ∧ RestOk toks w post

theorem RestOk.suffix {rest rest' : List (Token × (List Token × Tree))} (h : RestOk toks w rest) (hs : rest' <:+ rest) :
    RestOk toks w rest' := by
  induction rest with
  | nil => rw [List.suffix_nil.1 hs]; trivial
  | cons y rest ih =>
    rcases List.suffix_cons_iff.1 hs with rfl | hs
    · exact h
    · exact ih h.2 hs

theorem pratt_total (N : Nat) : ∀ (rest : List (Token × (List Token × Tree))), rest.length ≤ N →
    (∀ x ∈ rest, (rowOf x.1.kind).isSome) → ∀ min g, ∃ g' rest', Pratt min g rest g' rest' := by
  induction N with
  | zero =>
    intro rest h _ min g
    rw [List.length_eq_zero_iff.1 (Nat.le_zero.1 h)]
    exact ⟨g, [], .stop (by simp)⟩
  | succ N ih =>
    intro rest h hops min g
    cases rest with
    | nil => exact ⟨g, [], .stop (by simp)⟩
    | cons y rest =>
      obtain ⟨op, x⟩ := y
      obtain ⟨⟨l, r⟩, hpow⟩ := Option.isSome_iff_exists.1 ((power_isSome op.kind).2 (hops (op, x) (by simp)))
      by_cases hl : l < min
      · refine ⟨g, _, .stop ?_⟩
        simp only [List.head?_cons, Option.mem_some_iff]
        rintro _ rfl l' r' h'
        rw [hpow] at h'
        cases h'
        exact hl
      · have hops' : ∀ x ∈ rest, (rowOf x.1.kind).isSome := fun y hy => hops y (by simp [hy])
        obtain ⟨g1, rest1, h1⟩ := ih rest (by simpa using h) hops' r (.operand x.1 x.2)
        have hs := h1.suffix
        obtain ⟨g2, rest2, h2⟩ := ih rest1 (by have := hs.length_le; simp at h; omega)
          (fun y hy => hops' y (hs.subset hy)) min (.binary g op g1)
        exact ⟨g2, rest2, .step hpow (by omega) h1 h2⟩

/-- The loop runs like `Pratt`. -/
def BinaryLoop (toks : List Token) (n min : Nat) (g : Grouping) (rest : List (Token × (List Token × Tree)))
    (g' : Grouping) (rest' : List (Token × (List Token × Tree))) (w : List Token) : Prop :=
  ∀ {s p ch F c fuel} {Q : Bool × Marker → PState → Prop},
    At toks s ((p, ch ++ [(some c, g.tree)]) :: F) (restTokens rest ++ w) → s.rest.length < fuel →
    (∀ c' s', At toks s' ((p, ch ++ [(some c', g'.tree)]) :: F) (restTokens rest' ++ w) →
      Q (g'.top?.isSome, c') s') →
    Run (loopP (parseBinaryStep (knot n) min) fuel (g.top?.isSome, c)) s Q

/-- The part of an expression behind its first operand. -/
theorem rhs_run {o : List Token} {rest g' rest'} (hl : BinaryLoop toks n min (.operand o x) rest g' rest' w)
    (h : At toks s ((p, ch ++ [(some c, .node .TWIG_EXPRESSION [x])]) :: F) (restTokens rest ++ w))
    {Q : CompletedMarker → PState → Prop}
    (hq : ∀ c' s', At toks s' ((p, ch ++ [(some c', g'.expr)]) :: F) (restTokens rest' ++ w) →
      Run (if min = 0 then (do return (← parseConditionalExpression (knot n) c').getD c') else return c') s' Q) :
    Run (parseBindingPowerRhs (knot n) min c) s Q := by
  refine .bind (Run.bind ⟨_, _, rfl, hl h (Nat.lt_succ_self _) fun c' s' h' => ?_⟩)
  cases g' with
  | operand o' x' =>
    simp only [Grouping.top?, Option.isSome_none, Bool.false_eq_true, if_false]
    exact hq _ _ (by simpa [Grouping.tree, Grouping.expr] using h')
  | binary a op b =>
    simp only [Grouping.top?, Option.isSome_some, if_true]
    exact .bind (h'.wrap1 fun m s2 h2 => hq _ _ (by simpa [Grouping.tree, Grouping.expr] using h2))

theorem expr_run {o : List Token} {rest g' rest'} (hl : BinaryLoop toks n min (.operand o x) rest g' rest' w)
    (hx : Gives toks (parseExpressionLhs (knot n)) o x (fun v => v = restTokens rest ++ w))
    (h : At toks s ((p, ch) :: F) (o ++ (restTokens rest ++ w)))
    {Q : Option CompletedMarker → PState → Prop}
    (hq : ∀ c' s', At toks s' ((p, ch ++ [(some c', g'.expr)]) :: F) (restTokens rest' ++ w) →
      Run (if min = 0 then (do return (← parseConditionalExpression (knot n) c').getD c') else return c') s'
        (fun c => Q (some c))) :
    Run (parseExpressionBp (knot n) min) s Q := by
  refine .bind (hx h rfl fun c s1 h1 => .bind (h1.wrap1 fun m s2 h2 => .bind ?_))
  exact (rhs_run hl h2 hq).mono fun _ _ h => .pure h

theorem restTokens_cons (op : Token) (y : List Token × Tree) (rest : List (Token × (List Token × Tree))) :
    restTokens ((op, y) :: rest) = op :: (y.1 ++ restTokens rest) := by simp [restTokens]

/-- An operator has a positive right power. -/
theorem power_pos : ∀ {k l r}, binaryBindingPower k = some (l, r) → r ≠ 0 := by
  have key : ∀ k ∈ SyntaxKind.all, (match binaryBindingPower k with
      | some (_, r) => decide (r ≠ 0) | none => true) = true := by decide +kernel
  intro k l r h
  have := key k (mem_all k)
  rw [h] at this
  exact of_decide_eq_true this

theorem restTokens_le {rest rest' : List (Token × (List Token × Tree))} (h : rest' <:+ rest) :
    (restTokens rest').length ≤ (restTokens rest).length := by
  obtain ⟨a, rfl⟩ := h
  simp [restTokens]

theorem binaryLoop {b : Nat} {g rest g' rest'} (hp : Pratt min g rest g' rest') :
    ∀ {n}, b ≤ min → StopAt b w → (∀ y ∈ rest, ∀ l r, binaryBindingPower y.1.kind = some (l, r) → b ≤ r) →
    RestOk toks w rest → (restTokens rest).length ≤ n → BinaryLoop toks n min g rest g' rest' w := by
  induction hp with
  | @stop min g rest hs =>
    intro n hb hw _ _ _ s p ch F c fuel Q h hf hq
    cases fuel with
    | zero => omega
    | succ fuel =>
      refine .bind (Run.bind (Sees.peek.run h fun s1 h1 => ?_))
      have : ∀ l r, ((restTokens rest ++ w).head?.map (·.kind)).bind binaryBindingPower = some (l, r) → l < min := by
        intro l r hl
        cases rest with
        | nil =>
          cases w with
          | nil => cases hl
          | cons t w => exact Nat.lt_of_lt_of_le (hw t rfl l r hl) hb
        | cons y rest => exact hs y rfl l r hl
      split
      · exact .pure (.pure (hq _ _ h1))
      · rename_i l r hl
        rw [if_pos (this l r hl)]
        exact .pure (.pure (hq _ _ h1))
  | @step min g op y rest g1 rest1 g2 rest2 l r hpow hmin h1 h2 ih1 ih2 =>
    intro n hb hw hr ho hn s p ch F c fuel Q h hf hq
    rw [restTokens_cons] at h hn
    rw [List.cons_append, List.append_assoc] at h
    simp only [List.length_cons, List.length_append] at hn
    obtain ⟨n', rfl⟩ : ∃ n', n = n' + 1 := ⟨n - 1, by omega⟩
    have hsuf := h1.suffix
    cases fuel with
    | zero => omega
    | succ fuel =>
      refine .bind (Run.bind (Sees.peek.run h fun s1 a1 => ?_))
      simp only [List.head?_cons, Option.map_some, Option.bind_some, hpow]
      rw [if_neg (by omega)]
      refine .bind (a1.bump_ fun s2 a2 => .bind ?_)
      rw [List.append_assoc] at a2
      refine a2.precede (pre := ch) (post := [(none, op.tree)]) fun m s3 a3 => .bind ?_
      have hbr : b ≤ r := hr (op, y) List.mem_cons_self l r hpow
      refine expr_run (ih1 hbr hw (fun z hz => hr z (by simp [hz])) ho.2 (by omega)) (ho.1 n' (show y.1.length ≤ n' by omega)) a3 ?_
      intro c4 s4 a4
      rw [if_neg (power_pos hpow)]
      refine .pure (.bind (a4.complete fun s5 a5 => .pure ?_))
      have hlt := h.shorter a5 (by
        have := restTokens_le hsuf
        simp only [List.length_cons, List.length_append]
        omega)
      simp only [Option.isSome_some, if_true]
      refine ih2 hb hw (fun z hz => hr z (by simp [hsuf.subset hz])) (ho.2.suffix hsuf)
        (by have := restTokens_le hsuf; omega) (c := m) (ch := ch) ?_ (by omega) hq
      simpa [Grouping.tree] using a5

/-! ## Operands and operators -/

/-- An operand is taken. -/
def OperandOk (toks : List Token) (e : Tail) (u : List Token) (x : Tree) : Prop :=
  ∀ n, u.length ≤ n → Gives toks (parseExpressionLhs (knot n)) u x (OpFol e)

/-- The least power of `not`, or none. -/
def powerOf (tight : Bool) : Nat := if tight then 51 else 0

/-- What stands behind operands and operators; `tight` behind `not`. -/
def TermFol (tight : Bool) (e : Tail) (v : List Token) : Prop :=
  if tight then OpFol e.behindNot v else TermEnd e v

theorem TermFol.stop {tight : Bool} {e : Tail} (h : TermFol tight e v) : StopAt (powerOf tight) v := by
  cases tight
  · exact TermEnd.stop h _
  · exact OpFol.stop h

theorem behindNot_op {e : Tail} (h : OpFol e.behindNot v) : OpFol e v := by
  obtain ⟨t, w, rfl, h⟩ := h
  refine ⟨t, w, rfl, ?_⟩
  rcases h with h | ⟨h1, h2⟩ | ⟨h1, h2⟩
  · refine .inl ?_
    cases e <;> exact h
  · refine .inr (.inl ⟨?_, h2⟩)
    cases e <;> exact h1
  · refine .inr (.inr ⟨h1, ?_⟩)
    cases e
    · trivial
    · exact h2
    · exact h2

theorem TermFol.op {tight : Bool} {e : Tail} (h : TermFol tight e v) : OpFol e v := by
  cases tight
  · exact TermEnd.op h
  · exact behindNot_op h

/-- Operands and operators are taken, and then `kont` follows. -/
def TermsOk (toks : List Token) (tight : Bool) (e : Tail) (u : List Token) (x : Tree) : Prop :=
  ∀ n, u.length ≤ n → ∀ {s p ch F v} {Q : Option CompletedMarker → PState → Prop},
    At toks s ((p, ch) :: F) (u ++ v) → TermFol tight e v →
    (∀ c s', At toks s' ((p, ch ++ [(some c, x)]) :: F) v →
      Run (if powerOf tight = 0 then (do return (← parseConditionalExpression (knot n) c).getD c) else return c) s'
        (fun c => Q (some c))) → Run (parseExpressionBp (knot n) (powerOf tight)) s Q

/-- The rest of a sequence. -/
def restOf (rest : List (Token × Operand)) : List (Token × (List Token × Tree)) :=
  rest.map (fun r => (r.1, r.2.toks, r.2.tree))

theorem join_follow {e : Tail} {rest : List (Token × Operand)} (hj : Joins e rest)
    (hops : ∀ r ∈ rest, (rowOf r.1.kind).isSome) (hw : OpFol (lastTail e rest) w) :
    OpFol e (restTokens (restOf rest) ++ w) := by
  cases rest with
  | nil => exact hw
  | cons r rest =>
    refine ⟨r.1, r.2.toks ++ restTokens (restOf rest) ++ w, ?_, .inr (.inr ⟨hops r (by simp), hj.1⟩)⟩
    simp [restOf, restTokens]

theorem restOk {rest : List (Token × Operand)} : ∀ {e : Tail}, Joins e rest →
    (∀ r ∈ rest, (rowOf r.1.kind).isSome) → OpFol (lastTail e rest) w →
    (∀ r ∈ rest, OperandOk toks r.2.tail r.2.toks r.2.tree) → RestOk toks w (restOf rest) := by
  induction rest with
  | nil => intros; trivial
  | cons r rest ih =>
    intro e hj hops hw ho
    have hops' : ∀ r ∈ rest, (rowOf r.1.kind).isSome := fun y hy => hops y (by simp [hy])
    refine ⟨fun n hn => ?_, ih hj.2 hops' hw (fun y hy => ho y (by simp [hy]))⟩
    intro s p ch F v Q h hv hq
    subst hv
    exact ho r (by simp) n hn h (join_follow hj.2 hops' hw) hq

theorem terms_ok {tight : Bool} {first : Operand} {rest : List (Token × Operand)} {g : Grouping}
    (hf : OperandOk toks first.tail first.toks first.tree)
    (hr : ∀ r ∈ rest, OperandOk toks r.2.tail r.2.toks r.2.tree)
    (hops : ∀ r ∈ rest, (rowOf r.1.kind).isSome) (ht : tight = true → ∀ r ∈ rest, TighterThanNot r.1.kind)
    (hj : Joins first.tail rest) (hg : WellGrouped g) (hi : g.items = (flatOf first rest).items) :
    TermsOk toks tight (lastTail first.tail rest) (flatOf first rest).tokens g.expr := by
  intro n hn s p ch F v Q h hfol hq
  have hops' : ∀ y ∈ restOf rest, (rowOf y.1.kind).isSome := by
    intro y hy
    obtain ⟨r, hr, rfl⟩ := List.mem_map.1 hy
    exact hops r hr
  have hlow : ∀ y ∈ restOf rest, ∀ l r, binaryBindingPower y.1.kind = some (l, r) →
      powerOf tight ≤ l ∧ powerOf tight ≤ r := by
    intro y hy l r hp
    cases tight with
    | false => exact ⟨Nat.zero_le _, Nat.zero_le _⟩
    | true =>
      obtain ⟨z, hz, rfl⟩ := List.mem_map.1 hy
      obtain ⟨i, s, h1, h2⟩ := ht rfl z hz
      obtain ⟨i', s', h3, h4, h5⟩ := power_not _ (mem_all z.1.kind) l r hp
      rw [h1] at h3
      cases h3
      exact ⟨h4.1 h2, h5 (h4.1 h2)⟩
  obtain ⟨g', rest', hpr⟩ := pratt_total _ (restOf rest) (Nat.le_refl _) hops' (powerOf tight)
    (.operand first.toks first.tree)
  obtain ⟨hwg, _, hstop⟩ := hpr.wellGrouped hops' (.operand _ _) (by simp [Grouping.top?]) (by simp [Grouping.top?])
  have hnil : rest' = [] := by
    cases rest' with
    | nil => rfl
    | cons y rest' =>
      have hy : y ∈ restOf rest := hpr.suffix.subset (by simp)
      obtain ⟨⟨l, r⟩, hpow⟩ := Option.isSome_iff_exists.1 ((power_isSome y.1.kind).2 (hops' y hy))
      have := hstop y rfl l r hpow
      have := (hlow y hy l r hpow).1
      omega
  subst hnil
  have hitems := hpr.items
  simp only [restItems, List.flatMap_nil, List.append_nil] at hitems
  have : g' = g := by
    refine wellGrouped_unique hwg hg ?_
    rw [hi, hitems]
    rfl
  subst this
  have htok : (flatOf first rest).tokens = first.toks ++ restTokens (restOf rest) := rfl
  rw [htok, List.append_assoc] at h
  rw [htok, List.length_append] at hn
  have hw := hfol.op
  refine expr_run (binaryLoop hpr (Nat.le_refl _) hfol.stop (fun y hy l r hp => (hlow y hy l r hp).2)
    (restOk hj hops hw hr) (by omega)) ?_ h (fun c s' h' => hq c s' h')
  intro s p ch F v Q h hv hq
  subst hv
  exact hf n (by omega) h (join_follow hj hops hw) hq

end Ludtwig.Template
