import Verif.Template.Lists

/-!
# Strings, arrays, hashes and arguments (proof device for C73)
-/

namespace Ludtwig.Template

variable {toks : List Token} {s s' : PState} {p q c : Nat} {ch dh : List Child}
  {F : List (Nat × List Child)} {t : Token} {v w u : List Token} {x : Tree} {xs : List Tree} {k : SyntaxKind}
  {n m : Nat} {d i : Bool}

theorem follows_first {k' : SyntaxKind} (h : t.kind ≠ k) : follows [k, k'] (t :: v) = false := by
  simp [follows, followKinds, h]

theorem follows_second {k' : SyntaxKind} (h : ∀ t' ∈ v.head?, t'.kind ≠ k') : follows [k, k'] (t :: v) = false := by
  cases v with
  | nil => simp [follows, followKinds]
  | cons t' v => simp [follows, followKinds, h t' rfl]

theorem follows_both {k' : SyntaxKind} {t' : Token} (h : t.kind = k) (h' : t'.kind = k') :
    follows [k, k'] (t :: t' :: v) = true := by
  simp [follows, followKinds, h, h']

/-! ## Strings -/

/-- The parts of a string are taken. -/
def PartsOk (toks : List Token) (q : SyntaxKind) (i : Bool) (u : List Token) (xs : List Tree) : Prop :=
  ∀ n, u.length < n → ∀ {s p ch F t v} {Q : Unit → PState → Prop}, At toks s ((p, ch) :: F) (u ++ t :: v) →
    t.kind = q → q ∈ quotes → (∀ s', At toks s' ((p, ch ++ anon xs) :: F) (t :: v) → Q () s') →
    Loops (fun a => do return ((← at' q), a)) (fun _ => parseTwigStringPart (knot n) q i) () s Q

/-- A string is taken. -/
structure StringOk (toks : List Token) (i : Bool) (u : List Token) (x : Tree) : Prop where
  starts : HeadIn quotes u
  run : ∀ n, u.length ≤ n → Gives1 toks (parseTwigString (knot n) i) u x Any

theorem stringEnd_ok {q : SyntaxKind} : PartsOk toks q i [] [] := by
  intro n _ s p ch F t v Q h ht hq hk
  subst ht
  exact Loops.stop (seesUnit (Sees.at1 _)) h (kind_ne hq) (by simp) fun s h => hk s (by simpa using h)

theorem stringToken_ok {q : SyntaxKind} (ht : t.kind ≠ q) (hb : t.kind = T!"\\" → ∃ t' w, u = t' :: w ∧ t'.kind ≠ q)
    (hh : t.kind = T!"#" → ∀ t' ∈ u.head?, t'.kind ≠ T!"{") (ih : PartsOk toks q i u xs) :
    PartsOk toks q i (t :: u) (t.tree :: xs) := by
  intro n hn s p ch F t1 v Q h ht1 hq hk
  simp only [List.length_cons] at hn
  by_cases hu : t.kind = .TK_UNKNOWN
  · exact Loops.unknown h hu fun s h => ih n (by omega) h ht1 hq fun s h => hk s (by simpa using h)
  · refine Loops.step (seesUnit (Sees.at' _)) h hu (by exact beq_ne ht) fun s h => ?_
    refine h.ifF (Sees.atFollowing _) ?_ fun s h => h.ifF (Sees.atFollowing _) ?_ fun s h => ?_
    · by_cases h1 : t.kind = T!"\\"
      · obtain ⟨t', w, rfl, h2⟩ := hb h1
        exact follows_second (by simpa using h2)
      · exact follows_first h1
    · by_cases h1 : t.kind = T!"#"
      · refine follows_second ?_
        cases u with
        | nil =>
          intro t' ht'
          cases ht'
          rw [ht1]
          intro h2
          rw [h2] at hq
          exact absurd hq (by decide)
        | cons t' w => exact hh h1
      · exact follows_first h1
    · exact h.bump_ fun s h => ⟨_, _, h, by simp, ih n (by omega) h ht1 hq fun s h => hk s (by simpa using h)⟩

theorem stringEscape_ok {q : SyntaxKind} {b : Token} (hb : b.kind = T!"\\") (ht : t.kind = q)
    (ih : PartsOk toks q i u xs) : PartsOk toks q i (b :: t :: u) (b.tree :: t.tree :: xs) := by
  intro n hn s p ch F t1 v Q h ht1 hq hk
  simp only [List.length_cons] at hn
  have hbq : b.kind ≠ q := by
    rw [hb]
    intro h2
    rw [← h2] at hq
    exact absurd hq (by decide)
  refine Loops.step (seesUnit (Sees.at' _)) h (kind_ne (mem1 hb)) (by exact beq_ne hbq) fun s h => ?_
  refine h.ifT (Sees.atFollowing _) (follows_both hb ht) fun s h => .bind (h.bump_ fun s h => h.bump_ fun s h => ?_)
  exact ⟨_, _, h, by simp, ih n (by omega) h ht1 hq fun s h => hk s (by simpa using h)⟩

theorem interpolation_ok {q : SyntaxKind} {h' l r : Token} (hh : h'.kind = T!"#") (hl : l.kind = T!"{")
    (hx : AnyExpr toks u x) (hr : r.kind = T!"}") (ih : PartsOk toks q true w xs) :
    PartsOk toks q true (h' :: l :: (u ++ r :: w))
      (.node .TWIG_LITERAL_STRING_INTERPOLATION [h'.tree, l.tree, x, r.tree] :: xs) := by
  intro n hn s p ch F t1 v Q h ht1 hq hk
  simp only [List.length_cons, List.length_append] at hn
  have hbq : h'.kind ≠ q := by
    rw [hh]
    intro h2
    rw [← h2] at hq
    exact absurd hq (by decide)
  simp only [List.cons_append, List.append_assoc] at h
  refine Loops.step (seesUnit (Sees.at' _)) h (kind_ne (mem1 hh)) (by exact beq_ne hbq) fun s h => ?_
  refine h.ifF (Sees.atFollowing _) (follows_first (kind_ne (mem1 hh))) fun s h => ?_
  refine h.ifT (Sees.atFollowing _) (follows_both hh hl) fun s h => ?_
  rw [if_neg (by simp)]
  refine .bind (h.consumeTrivia fun s h => .bind (h.start fun m s h => .bind (h.bump_ fun s h => .bind (h.bump_ fun s h => .bind ?_))))
  refine Gives.ifNone (hx.run n (by omega)) h (.of (mem_sub (mem1 hr))) fun s h => ?_
  refine .bind (h.expect_ hr fun s h => h.complete_ fun s h => ?_)
  exact ⟨_, _, h, by simp; omega, ih n (by omega) h ht1 hq fun s h => hk s (by simpa using h)⟩

theorem string_ok {l r : Token} (hl : l.kind ∈ quotes) (ih : PartsOk toks l.kind (i && l.kind == T!"\"") u xs)
    (hr : r.kind = l.kind) : StringOk toks i (l :: (u ++ [r]))
      (.node .TWIG_LITERAL_STRING [l.tree, .node .TWIG_LITERAL_STRING_INNER xs, r.tree]) := by
  refine ⟨.of hl, fun n hn s p ch F v Q h _ hk => ?_⟩
  simp only [List.length_cons, List.length_append] at hn
  simp only [List.cons_append, List.append_assoc, List.nil_append] at h
  refine .bind (h.start fun m s h => .bind (h.bump fun s h => .bind (h.start fun m' s h => .bind ?_)))
  have e : (if l.kind = T!"\"" then i else false) = (i && l.kind == T!"\"") := by
    by_cases h1 : l.kind = T!"\"" <;> simp [h1]
  rw [e]
  refine Loops.many (ih n (by omega) h hr hl fun s h => ?_)
  refine .bind (h.consumeTrivia fun s h => .bind (h.complete_ fun s h => .bind (h.expect_ hr fun s h =>
    h.complete fun s h => hk _ _ (by simpa using h))))

/-! ## Arrays -/

theorem array_ok {l r : Token} (ih : ListOk (AnyExpr toks) m u xs) (hr : r.kind = T!"]") (n : Nat)
    (hn : (l :: (u ++ [r])).length ≤ n) :
    Gives1 toks (parseTwigArray (knot n)) (l :: (u ++ [r]))
      (.node .TWIG_LITERAL_ARRAY [l.tree, .node .TWIG_LITERAL_ARRAY_INNER xs, r.tree]) Any := by
  intro s p ch F v Q h _ hk
  simp only [List.length_cons, List.length_append] at hn
  simp only [List.cons_append, List.append_assoc, List.nil_append] at h
  refine .bind (h.start fun m s h => .bind (h.bump_ fun s h => .bind (h.start fun m' s h => .bind (Loops.many ?_))))
  refine list_loop (f := id) (Z := [T!"]"]) (L := [T!"]"]) (N := u.length) (seesUnit (Sees.at1 _)) (Sees.at1 _) (by decide) ?_ ?_ ih
    (Nat.le_refl _) h (mem1 hr) fun s h => ?_
  · intro u x hx
    obtain ⟨t, w, rfl, ht⟩ := hx.starts
    exact ⟨t, w, rfl, by simpa using kind_ne (k := T!"]") ht, kind_ne ht⟩
  · intro u x hx hN s p ch F v a Q h hf hq
    exact .bind (Gives.discard (hx.run n (by omega)) h hf.sub fun s h => hq s h)
  · exact .bind (h.complete_ fun s h => .bind (h.expect_ hr fun s h => h.complete fun s h => hk _ _ (by simpa using h)))

/-! ## Arguments -/

/-- An argument is taken. -/
structure ArgOk (toks : List Token) (u : List Token) (x : Tree) : Prop where
  starts : HeadIn exprStarts u
  run : ∀ n, u.length < n → Gives toks (parseTwigFunctionArgument (knot n)) u x (HeadIn anyEnds)

theorem argument_ok (hx : AnyExpr toks u x) (hu : NoArgumentName u) : ArgOk toks u x := by
  refine ⟨hx.starts, fun n hn s p ch F v Q h hf hk => ?_⟩
  obtain ⟨t, w, rfl, ht⟩ := hx.starts
  by_cases hw : t.kind = T!"word"
  case neg => exact h.ifF (Sees.atFollowing _) (follows_first hw) fun s h => hx.run n hn h hf hk
  refine h.ifF (Sees.atFollowing _) (follows_second ?_) fun s h => hx.run n hn h hf hk
  cases w with
  | nil =>
    obtain ⟨t', v, rfl, ht'⟩ := hf
    intro t1 h1
    cases h1
    exact kind_ne ht'
  | cons t' w =>
    intro t1 h1
    cases h1
    exact hu _ _ _ rfl hw

theorem namedArgument_ok {e : Token} (ht : t.kind = T!"word") (he : e.kind = T!"=") (hx : AnyExpr toks u x) :
    ArgOk toks (t :: e :: u) (.node .TWIG_NAMED_ARGUMENT [t.tree, e.tree, x]) := by
  refine ⟨.of (mem_sub (mem1 ht)), fun n hn s p ch F v Q h hf hk => ?_⟩
  simp only [List.length_cons] at hn
  refine h.ifT (Sees.atFollowing _) (follows_both ht he) fun s h => .bind (h.start fun m s h => .bind (h.bump_ fun s h =>
    .bind (h.expect_ he fun s h => .bind (Gives.discard (hx.run n (by omega)) h hf fun s h => .bind (h.complete fun s h => .pure ?_)))))
  exact hk _ _ (by simpa using h)

/-- The loop over arguments. -/
theorem arguments_loop {le : P Bool} {L : List SyntaxKind} (hle : Sees le (atS L)) (hL : T!")" ∈ L)
    (hL' : exprStarts.all (fun k => !L.contains k) = true) (ih : ListOk (ArgOk toks) m u xs) (hn : u.length < n)
    {r : Token} (hr : r.kind = T!")") (h : At toks s ((p, ch) :: F) (u ++ r :: v)) {Q : Unit → PState → Prop}
    (hk : ∀ s', At toks s' ((p, ch ++ anon xs) :: F) (r :: v) → Q () s') :
    Run (parseArguments (knot n) le) s Q := by
  refine Loops.many (list_loop (f := id) (Z := [T!")"]) (N := u.length) (seesUnit hle) hle ?_ ?_ ?_ ih
    (Nat.le_refl _) h (mem1 hr) hk)
  · simp [hL]
  · intro u x hx
    obtain ⟨t, w, rfl, ht⟩ := hx.starts
    refine ⟨t, w, rfl, ?_, kind_ne ht⟩
    intro h'
    have := List.contains_iff_mem.2 h'
    rw [contains_no ht hL'] at this
    cases this
  · intro u x hx hN s p ch F v a Q h hf hq
    exact .bind (Gives.discard (hx.run n (by omega)) h hf.sub fun s h => hq s h)

/-- Arguments in parentheses. -/
def ArgsShape (toks : List Token) (u : List Token) (x : Tree) : Prop :=
  ∃ l n w xs r, l.kind = T!"(" ∧ ListOk (ArgOk toks) n w xs ∧ r.kind = T!")" ∧ u = l :: (w ++ [r]) ∧
    x = .node .TWIG_ARGUMENTS (l.tree :: (xs ++ [r.tree]))

theorem ArgsShape.starts (h : ArgsShape toks u x) : HeadIn [T!"("] u := by
  obtain ⟨l, n, w, xs, r, hl, hw, hr, rfl, rfl⟩ := h
  exact .of (mem1 hl)

theorem ArgsShape.node (ha : ArgsShape toks u x) (hn : u.length ≤ n) : GivesU toks (parseArgumentsNode (knot n)) u [x] Any := by
  intro s p ch F v Q h _ hk
  obtain ⟨l, m, w, xs, r, hl, hw, hr, rfl, rfl⟩ := ha
  simp only [List.length_cons, List.length_append] at hn
  simp only [List.cons_append, List.append_assoc, List.nil_append] at h
  refine .bind (h.start fun m s h => .bind (h.bump_ fun s h => .bind ?_))
  refine arguments_loop (Sees.at1 _) (by simp) (by decide +kernel) hw (by omega) hr h fun s h => ?_
  exact .bind (h.expect_ hr fun s h => h.complete_ fun s h => hk _ (by simpa using h))

/-- A call of the name or accessor before. -/
theorem ArgsShape.function {y : Tree} (ha : ArgsShape toks u y) (hn : u.length ≤ n)
    (h : At toks s ((p, ch ++ [(some c, x)]) :: F) (u ++ v)) {Q : CompletedMarker → PState → Prop}
    (hk : ∀ m s', At toks s' ((p, ch ++ [(some m, .node .TWIG_FUNCTION_CALL [.node .TWIG_OPERAND [x], y])]) :: F) v → Q m s') :
    Run (parseTwigFunction (knot n) c) s Q :=
  .bind (h.wrap1 fun m s h => .bind (h.precede fun m' s h => .bind (ha.node hn h trivial fun s h =>
    h.complete fun s h => hk _ _ (by simpa using h))))

/-! ## Hashes -/

/-- A key is taken. -/
structure KeyOk (toks : List Token) (u : List Token) (x : Tree) : Prop where
  starts : HeadIn exprStarts u
  run : ∀ n, u.length < n → Gives toks (parseTwigHashKey (knot n)) u x Any

theorem numberKey_ok (ht : t.kind = T!"number") :
    KeyOk toks [t] (.node .TWIG_LITERAL_HASH_KEY [.node .TWIG_LITERAL_NUMBER [t.tree]]) := by
  refine ⟨.of (mem_sub (mem1 ht)), fun n hn s p ch F v Q h hf hk => ?_⟩
  exact h.ifT (Sees.at1 _) (atS_yes (mem1 ht)) fun s h => .bind (h.tokenNode fun m s h => .bind (h.wrap1 fun m s h =>
    .pure (hk _ _ h)))

theorem stringKey_ok (hx : StringOk toks false u x) : KeyOk toks u (.node .TWIG_LITERAL_HASH_KEY [x]) := by
  refine ⟨hx.starts.sub, fun n hn s p ch F v Q h hf hk => ?_⟩
  have hs := hx.starts.append v
  exact h.ifF (Sees.at1 _) hs.no fun s h => h.ifT (Sees.atSet _) hs.yes fun s h =>
    .bind (hx.run n (by omega) h trivial fun m s h => .bind (h.wrap1 fun m s h => .pure (hk _ _ h)))

theorem exprKey_ok {l r : Token} (hl : l.kind = T!"(") (hx : AnyExpr toks u x) (hr : r.kind = T!")") :
    KeyOk toks (l :: (u ++ [r])) (.node .TWIG_LITERAL_HASH_KEY [l.tree, x, r.tree]) := by
  refine ⟨.of (mem_sub (mem1 hl)), fun n hn s p ch F v Q h hf hk => ?_⟩
  simp only [List.length_cons, List.length_append] at hn
  simp only [List.cons_append, List.append_assoc, List.nil_append] at h
  refine h.ifF (Sees.at1 _) (atS_no (mem1 hl)) fun s h => h.ifF (Sees.atSet _) (atS_no (mem1 hl)) fun s h =>
    h.ifT (Sees.at1 _) (atS_yes (mem1 hl)) fun s h => .bind (h.start fun m s h => .bind (h.bump_ fun s h => .bind ?_))
  refine Gives.orRecover (hx.run n (by omega)) h (.of (mem_sub (mem1 hr))) fun s h => .bind (h.expect_ hr fun s h =>
    .bind (h.complete fun s h => .pure (hk _ _ (by simpa using h))))

theorem nameKey_ok (ht : IsName t) : KeyOk toks [t] (.node .TWIG_LITERAL_HASH_KEY [wordTree t]) := by
  refine ⟨.of (mem_sub ht.1), fun n hn s p ch F v Q h hf hk => ?_⟩
  refine h.ifF (Sees.at1 _) (atS_no ht.1) fun s h => h.ifF (Sees.atSet _) (atS_no ht.1) fun s h =>
    h.ifF (Sees.at1 _) (atS_no ht.1) fun s h => .bind (Sees.peekToken.run h fun s h => ?_)
  simp only [List.cons_append, List.head?_cons, ht.text, if_true]
  exact .bind (h.wordNode fun m s h => .pure (hk _ _ h))

/-- A pair is taken. -/
structure PairOk (toks : List Token) (u : List Token) (x : Tree) : Prop where
  starts : HeadIn exprStarts u
  run : ∀ n, u.length < n → Gives toks (parseTwigHashPair (knot n)) u x (HeadIn [T!",", T!"}"])

theorem pair_ok {y : Tree} {c : Token} (hk : KeyOk toks u y) (hc : c.kind = T!":") (hx : AnyExpr toks w x) :
    PairOk toks (u ++ c :: w) (.node .TWIG_LITERAL_HASH_PAIR [y, c.tree, x]) := by
  refine ⟨hk.starts.append _, fun n hn s p ch F v Q h hf hq => ?_⟩
  simp only [List.length_cons, List.length_append] at hn
  simp only [List.cons_append, List.append_assoc] at h
  refine .bind (hk.run n (by omega) h trivial fun m s h => .bind (h.whenT (Sees.at1 _) (atS_yes (mem1 hc)) fun s h =>
    .bind (h.bump_ fun s h => ?_)))
  refine Gives.orRecover (hx.run n (by omega)) h hf.sub fun s h => ?_
  simp only [List.append_assoc] at h
  exact .bind (h.wrap fun m s h => .pure (hq _ _ (by simpa using h)))

theorem shortPair_ok {y : Tree} (hk : KeyOk toks u y) : PairOk toks u (.node .TWIG_LITERAL_HASH_PAIR [y]) := by
  refine ⟨hk.starts, fun n hn s p ch F v Q h hf hq => ?_⟩
  exact .bind (hk.run n (by omega) h trivial fun m s h => .bind (h.whenF (Sees.at1 _) hf.no fun s h =>
    .bind (h.wrap1 fun m s h => .pure (hq _ _ h))))

/-- A hash is taken. -/
structure HashOk (toks : List Token) (u : List Token) (x : Tree) : Prop where
  starts : HeadIn [T!"{"] u
  run : ∀ n, u.length ≤ n → Gives1 toks (parseTwigHash (knot n)) u x Any

theorem hash_ok {l r : Token} (hl : l.kind = T!"{") (ih : ListOk (PairOk toks) m u xs) (hr : r.kind = T!"}") :
    HashOk toks (l :: (u ++ [r])) (.node .TWIG_LITERAL_HASH [l.tree, .node .TWIG_LITERAL_HASH_ITEMS xs, r.tree]) := by
  refine ⟨.of (mem1 hl), fun n hn s p ch F v Q h _ hk => ?_⟩
  simp only [List.length_cons, List.length_append] at hn
  simp only [List.cons_append, List.append_assoc, List.nil_append] at h
  refine .bind (h.start fun m s h => .bind (h.bump_ fun s h => .bind (h.start fun m' s h => .bind (Loops.many ?_))))
  refine list_loop (f := id) (Z := [T!"}"]) (L := [T!"}"]) (N := u.length) (seesUnit (Sees.at1 _)) (Sees.at1 _) (by decide) ?_ ?_ ih
    (Nat.le_refl _) h (mem1 hr) fun s h => ?_
  · intro u x hx
    obtain ⟨t, w, rfl, ht⟩ := hx.starts
    exact ⟨t, w, rfl, by simpa using kind_ne (k := T!"}") ht, kind_ne ht⟩
  · intro u x hx hN s p ch F v a Q h hf hq
    exact .bind (Gives.discard (hx.run n (by omega)) h hf fun s h => hq s h)
  · exact .bind (h.complete_ fun s h => .bind (h.expect_ hr fun s h => h.complete fun s h => hk _ _ (by simpa using h)))

end Ludtwig.Template
