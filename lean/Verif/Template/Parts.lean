import Verif.Template.Parens

/-!
# Optional parts, variables and comments (proof device for C73)
-/

namespace Ludtwig.Template

variable {toks : List Token} {s s' : PState} {p q c : Nat} {ch dh : List Child}
  {F : List (Nat × List Child)} {t : Token} {v w u : List Token} {x y : Tree} {xs ys : List Tree} {k : SyntaxKind}
  {n m : Nat} {d i : Bool} {e : Tail} {K : Knot}

theorem atS_notMem {set : List SyntaxKind} (h : t.kind ∉ set) : atS set (t :: v) = false := by
  rw [atS_cons]
  cases h' : set.contains t.kind with
  | false => rfl
  | true => exact absurd (List.contains_iff_mem.1 h') h

theorem atS_mem {set : List SyntaxKind} (h : t.kind ∈ set) : atS set (t :: v) = true :=
  List.contains_iff_mem.2 h

theorem HeadIn.weaken {L M : List SyntaxKind} (h : HeadIn L v) (hs : ∀ k ∈ L, k ∈ M) : HeadIn M v := by
  obtain ⟨t, w, rfl, h⟩ := h
  exact ⟨t, w, rfl, hs _ h⟩

theorem AnyExpr.recover (hx : AnyExpr toks u x) (hn : u.length < n) {e : String} {r : List SyntaxKind} :
    GivesU toks (orRecover (knot n).expr e r) u [x] (HeadIn anyEnds) := Gives.orRecover (hx.run n hn)

/-! ## Optional parts -/

/-- An optional token. -/
def OptTok (k : SyntaxKind) (u : List Token) (xs : List Tree) : Prop :=
  (u = [] ∧ xs = []) ∨ ∃ t, t.kind = k ∧ u = [t] ∧ xs = [t.tree]

theorem OptTok.head {L : List SyntaxKind} (h : OptTok k u xs) (hv : HeadIn L v) : HeadIn (k :: L) (u ++ v) := by
  rcases h with ⟨rfl, rfl⟩ | ⟨t, ht, rfl, rfl⟩
  · exact hv.weaken fun _ h => List.mem_cons_of_mem _ h
  · exact .of (by rw [ht]; exact List.mem_cons_self)

theorem OptTok.run (ho : OptTok k u xs) (hv : atS [k] v = false) (h : At toks s ((p, ch) :: F) (u ++ v))
    {Q : Unit → PState → Prop} (hk : ∀ s', At toks s' ((p, ch ++ anon xs) :: F) v → Q () s') :
    Run (optionalToken k) s Q := by
  rcases ho with ⟨rfl, rfl⟩ | ⟨t, ht, rfl, rfl⟩
  · exact h.whenF (Sees.at1 _) hv fun s h => hk s (by simpa using h)
  · exact h.whenT (Sees.at1 _) (atS_mem (mem1 ht)) fun s h => h.bump_ fun s h => hk s (by simpa using h)

/-- An optional keyword with a value. -/
def OptVal (toks : List Token) (k node : SyntaxKind) (u : List Token) (xs : List Tree) : Prop :=
  (u = [] ∧ xs = []) ∨ ∃ t w x, t.kind = k ∧ AnyExpr toks w x ∧ u = t :: w ∧ xs = [.node node [t.tree, x]]

theorem OptVal.head {node : SyntaxKind} {L : List SyntaxKind} (h : OptVal toks k node u xs) (hv : HeadIn L v) :
    HeadIn (k :: L) (u ++ v) := by
  rcases h with ⟨rfl, rfl⟩ | ⟨t, w, x, ht, hx, rfl, rfl⟩
  · exact hv.weaken fun _ h => List.mem_cons_of_mem _ h
  · exact .of (by rw [ht]; exact List.mem_cons_self)

theorem OptVal.run {node : SyntaxKind} (ho : OptVal toks k node u xs) (hn : u.length ≤ n) (hv : HeadIn anyEnds v)
    (hk' : atS [k] v = false) {e : String} {r : List SyntaxKind}
    (h : At toks s ((p, ch) :: F) (u ++ v)) {Q : Unit → PState → Prop}
    (hk : ∀ s', At toks s' ((p, ch ++ anon xs) :: F) v → Q () s') :
    Run (parseOptionalValue (knot n) k e r node) s Q := by
  rcases ho with ⟨rfl, rfl⟩ | ⟨t, w, x, ht, hx, rfl, rfl⟩
  · exact h.whenF (Sees.at1 _) hk' fun s h => hk s (by simpa using h)
  · simp only [List.length_cons] at hn
    refine h.whenT (Sees.at1 _) (atS_mem (mem1 ht)) fun s h => .bind (h.start fun m s h => .bind (h.bump_ fun s h => .bind ?_))
    exact hx.recover (by omega) h hv fun s h => h.complete_ fun s h => hk s (by simpa using h)

/-- An optional keyword with a value in parentheses. -/
def OptCall (toks : List Token) (k node : SyntaxKind) (u : List Token) (xs : List Tree) : Prop :=
  (u = [] ∧ xs = []) ∨ ∃ t l w x r, t.kind = k ∧ l.kind = T!"(" ∧ AnyExpr toks w x ∧ r.kind = T!")" ∧
    u = t :: l :: (w ++ [r]) ∧ xs = [.node node [t.tree, l.tree, x, r.tree]]

theorem OptCall.head {node : SyntaxKind} {L : List SyntaxKind} (h : OptCall toks k node u xs) (hv : HeadIn L v) :
    HeadIn (k :: L) (u ++ v) := by
  rcases h with ⟨rfl, rfl⟩ | ⟨t, l, w, x, r, ht, hl, hx, hr, rfl, rfl⟩
  · exact hv.weaken fun _ h => List.mem_cons_of_mem _ h
  · exact .of (by rw [ht]; exact List.mem_cons_self)

theorem OptCall.run {node : SyntaxKind} (ho : OptCall toks k node u xs) (hn : u.length ≤ n)
    (hk' : atS [k] v = false) {e : String} {r : List SyntaxKind}
    (h : At toks s ((p, ch) :: F) (u ++ v)) {Q : Unit → PState → Prop}
    (hk : ∀ s', At toks s' ((p, ch ++ anon xs) :: F) v → Q () s') :
    Run (parseCacheArgument (knot n) k node e r) s Q := by
  rcases ho with ⟨rfl, rfl⟩ | ⟨t, l, w, x, r, ht, hl, hx, hr, rfl, rfl⟩
  · exact h.whenF (Sees.at1 _) hk' fun s h => hk s (by simpa using h)
  · simp only [List.length_cons, List.length_append] at hn
    simp only [List.cons_append, List.append_assoc, List.nil_append] at h
    refine h.whenT (Sees.at1 _) (atS_mem (mem1 ht)) fun s h => .bind (h.start fun m s h => .bind (h.bump_ fun s h =>
      .bind (h.expect_ hl fun s h => .bind ?_)))
    exact hx.recover (by omega) h (.of (mem_sub (mem1 hr))) fun s h => .bind (h.expect_ hr fun s h =>
      h.complete_ fun s h => hk s (by simpa using h))

/-- An optional expression in a tag. -/
theorem optExpr_run (G : Good toks) (ho : OptShape (AnyExpr toks) u xs) (hn : u.length < n)
    (hv : HeadIn anyEnds v) (hv' : u = [] → HeadIn noStarts v) (h : At toks s ((p, ch) :: F) (u ++ v)) {Q : Unit → PState → Prop}
    (hk : ∀ s', At toks s' ((p, ch ++ anon xs) :: F) v → Q () s') :
    Run (discard' (knot n).expr) s Q := by
  cases ho with
  | none =>
    obtain ⟨t, w, rfl, ht⟩ := hv' rfl
    exact .discard (h.noExpr G ht (by omega) fun s h => hk s (by simpa using h))
  | one hx => exact Gives.discard (hx.run n hn) h hv fun s h => hk s (by simpa using h)

/-! ## Variables and comments -/

/-- A variable is taken. -/
structure VarOk (toks : List Token) (u : List Token) (x : Tree) : Prop where
  starts : HeadIn varOpens u
  run : ∀ n, u.length ≤ n → Gives1 toks (parseTwigVarStatement (knot n)) u x Any

theorem var_ok {o c : Token} (ho : o.kind ∈ varOpens) (hx : AnyExpr toks u x) (hc : c.kind ∈ varCloses) :
    VarOk toks (o :: (u ++ [c])) (.node .TWIG_VAR [o.tree, x, c.tree]) := by
  refine ⟨.of ho, fun n hn s p ch F v Q h _ hk => ?_⟩
  simp only [List.length_cons, List.length_append] at hn
  simp only [List.cons_append, List.append_assoc, List.nil_append] at h
  refine .bind (h.start fun m s h => .bind (h.bump_ fun s h => .bind (hx.recover (by omega) h (.of (mem_sub hc)) fun s h => ?_)))
  exact .bind (h.expectAny_ hc fun s h => h.complete fun s h => hk _ _ (by simpa using h))

/-- Tokens are taken until the check says that it is the end. -/
theorem tokens_loop {early : Unit → P (Bool × Unit)} {ts : List Token}
    (hts : ∀ t ∈ ts, ∀ F v, t.kind ≠ .TK_UNKNOWN → Checks toks (early ()) F (t :: v) (false, ())) {Q : Unit → PState → Prop}
    {v : List Token} (hend : ∀ s, At toks s ((p, dh) :: F) v → Loops early (fun _ => bump_) () s Q)
    (h : At toks s ((p, ch) :: F) (ts ++ v)) (hd : dh = ch ++ anon (ts.map Token.tree)) : Loops early (fun _ => bump_) () s Q := by
  induction ts generalizing s ch with
  | nil => exact hend s (by simpa [hd] using h)
  | cons t ts ih =>
    have ih' : ∀ s, At toks s ((p, ch ++ [(none, t.tree)]) :: F) (ts ++ v) → Loops early (fun _ => bump_) () s Q := fun s h =>
      ih (fun t' ht' => hts t' (List.mem_cons_of_mem _ ht')) h (by simpa using hd)
    by_cases hu : t.kind = .TK_UNKNOWN
    · exact Loops.unknown h hu fun s h => ih' s h
    · exact Loops.step' h hu (hts t List.mem_cons_self _ _ hu) fun s h => h.bump_ fun s h =>
        ⟨_, _, h, by simp, ih' s h⟩

/-- Tokens up to one of a set. -/
theorem until_run {E : List SyntaxKind} {early : P Bool} (he : Sees early (atS E)) {ts : List Token} {c : Token}
    (hts : ∀ t ∈ ts, t.kind ∉ E) (hc : c.kind ∈ E) (hu : c.kind ≠ .TK_UNKNOWN) (h : At toks s ((p, ch) :: F) (ts ++ c :: v))
    {Q : Unit → PState → Prop} (hk : ∀ s', At toks s' ((p, ch ++ anon (ts.map Token.tree)) :: F) (c :: v) → Q () s') :
    Run (parseMany early bump_) s Q := by
  refine Loops.many (tokens_loop (dh := ch ++ anon (ts.map Token.tree)) ?_ ?_ h rfl)
  · intro t ht F v _ s Q h hq
    have := (seesUnit he).checks (toks := toks) (F := F) (v := t :: v) ()
    rw [atS_notMem (hts t ht)] at this
    exact this s Q h hq
  · intro s h
    exact Loops.stop (seesUnit he) h hu (atS_mem hc) hk

/-- The rules behind `ludtwig-ignore` are taken. -/
structure RulesOk (toks : List Token) (u : List Token) (xs : List Tree) : Prop where
  starts : u = [] ∨ HeadIn [T!"word"] u
  run : ∀ {closing} {s p ch F r v} {Q : Unit → PState → Prop},
    closing.all (fun k => k != T!"word" && k != T!"," && k != .TK_UNKNOWN) = true →
    At toks s ((p, ch) :: F) (u ++ r :: v) → r.kind ∈ closing →
    (∀ s', At toks s' ((p, ch ++ anon xs) :: F) (r :: v) → Q () s') →
    Loops (fun a => do return ((← atSet closing), a)) (fun _ => do
      expect_ T!"word" (T!"," :: closing)
      optionalToken T!",") () s Q

theorem closing_ne {closing : List SyntaxKind}
    (hc : closing.all (fun k => k != T!"word" && k != T!"," && k != .TK_UNKNOWN) = true) (h : k ∈ closing) :
    k ≠ T!"word" ∧ k ≠ T!"," ∧ k ≠ .TK_UNKNOWN := by
  have := List.all_eq_true.1 hc k h
  simp only [Bool.and_eq_true, bne_iff_ne] at this
  exact ⟨this.1.1, this.1.2, this.2⟩

theorem noRule_ok : RulesOk toks [] [] := by
  refine ⟨.inl rfl, fun hc h hr hk => ?_⟩
  exact Loops.stop (seesUnit (Sees.atSet _)) h (closing_ne hc hr).2.2 (atS_mem hr) fun s h => hk s (by simpa using h)

theorem rule_ok (ht : t.kind = T!"word") (ho : OptTok T!"," u xs) (ih : RulesOk toks w ys) :
    RulesOk toks (t :: (u ++ w)) (t.tree :: (xs ++ ys)) := by
  refine ⟨.inr (.of (mem1 ht)), fun {closing} {s p ch F r v} {Q} hc h hr hk => ?_⟩
  simp only [List.cons_append, List.append_assoc] at h
  refine Loops.step (seesUnit (Sees.atSet _)) h (kind_ne (mem1 ht)) (atS_notMem ?_) fun s h => ?_
  · intro h'
    exact (closing_ne hc h').1 ht
  · refine .bind (h.expect_ ht fun s h => ho.run ?_ h fun s h => ⟨_, _, h, by simp, ?_⟩)
    · rcases ih.starts with rfl | hw
      · exact atS_notMem (by simpa using (closing_ne hc hr).2.1)
      · exact (hw.append _).no
    · exact ih.run hc h hr fun s h => hk s (by simpa using h)

/-- A comment is taken. -/
structure CommentOk (toks : List Token) (u : List Token) (x : Tree) : Prop where
  starts : HeadIn commentOpens u
  run : Gives1 toks parseTwigCommentStatement u x Any

theorem directive_run {d : Token} {o : Token} {closing : List SyntaxKind} {r : Token} {nk : SyntaxKind} (hd : (d.kind, nk) ∈ directives)
    (hu : RulesOk toks u xs)
    (hc : closing.all (fun k => k != T!"word" && k != T!"," && k != .TK_UNKNOWN) = true) (hr : r.kind ∈ closing)
    (h : At toks s ((m, [(none, o.tree)]) :: (p, ch) :: F) (d :: (u ++ r :: v))) {Q : CompletedMarker → PState → Prop}
    (hk : ∀ m s', At toks s' ((p, ch ++ [(some m, .node nk [o.tree, d.tree, .node .LUDTWIG_DIRECTIVE_RULE_LIST xs, r.tree])]) :: F) v →
      Q m s') :
    Run (parseLudtwigDirective m closing) s Q := by
  refine .bind ((Sees.at' _).run h fun s h => .bind (h.bump_ fun s h => .bind (h.start fun m' s h => .bind (Loops.many ?_))))
  refine hu.run hc h hr fun s h => .bind (h.complete_ fun s h => .bind (h.expectAny_ hr fun s h => ?_))
  have e : (if atK T!"ludtwig-ignore-file" (d :: (u ++ r :: v)) = true then SyntaxKind.LUDTWIG_DIRECTIVE_FILE_IGNORE
      else SyntaxKind.LUDTWIG_DIRECTIVE_IGNORE) = nk := by
    simp only [directives, List.mem_cons, Prod.mk.injEq, List.not_mem_nil, or_false] at hd
    rcases hd with ⟨h1, rfl⟩ | ⟨h1, rfl⟩ <;> simp [atK, h1]
  rw [e]
  exact h.complete fun s h => hk _ _ (by simpa using h)

theorem directive_kind {d : Token} {nk : SyntaxKind} (hd : (d.kind, nk) ∈ directives) :
    d.kind ∈ [T!"ludtwig-ignore-file", T!"ludtwig-ignore"] := by
  simp only [directives, List.mem_cons, Prod.mk.injEq, List.not_mem_nil, or_false] at hd
  rcases hd with ⟨h1, rfl⟩ | ⟨h1, rfl⟩ <;> simp [h1]

theorem comment_first {ts : List Token} {c : Token} {E : List SyntaxKind} (h : ∀ t ∈ ts.head?, t.kind ∉ directives.map (·.1))
    (hc : c.kind ∈ E) (hE : E.all (fun k => ![T!"ludtwig-ignore-file", T!"ludtwig-ignore"].contains k) = true) :
    atS [T!"ludtwig-ignore-file", T!"ludtwig-ignore"] (ts ++ c :: v) = false := by
  cases ts with
  | nil => exact atS_no hc hE
  | cons t ts =>
    refine atS_notMem ?_
    have := h t rfl
    simp only [directives, List.map_cons, List.map_nil, List.mem_cons, List.not_mem_nil, or_false, not_or] at this
    simp only [List.mem_cons, List.not_mem_nil, or_false, not_or]
    exact ⟨this.2, this.1⟩

theorem comment_ok {o c : Token} {ts : List Token} (ho : o.kind ∈ commentOpens) (hts : ∀ t ∈ ts, t.kind ∉ commentCloses)
    (hd : ∀ t ∈ ts.head?, t.kind ∉ directives.map (·.1)) (hc : c.kind ∈ commentCloses) :
    CommentOk toks (o :: (ts ++ [c])) (.node .TWIG_COMMENT (o.tree :: (ts.map Token.tree ++ [c.tree]))) := by
  refine ⟨.of ho, fun {s p ch F v Q} h _ hk => ?_⟩
  simp only [List.cons_append, List.append_assoc, List.nil_append] at h
  refine .bind (h.start fun m s h => .bind (h.bump_ fun s h => ?_))
  refine h.ifF (Sees.atSet _) (comment_first hd hc (by decide +kernel)) fun s h => .bind ?_
  refine until_run (Sees.atSet _) hts hc (kind_ne hc) h fun s h => .bind (h.expectAny_ hc fun s h =>
    h.complete fun s h => hk _ _ (by simpa using h))

theorem directive_ok {o d c : Token} {nk : SyntaxKind} (ho : o.kind ∈ commentOpens) (hd : (d.kind, nk) ∈ directives)
    (hu : RulesOk toks u xs) (hc : c.kind ∈ commentCloses) :
    CommentOk toks (o :: d :: (u ++ [c])) (.node nk [o.tree, d.tree, .node .LUDTWIG_DIRECTIVE_RULE_LIST xs, c.tree]) := by
  refine ⟨.of ho, fun {s p ch F v Q} h _ hk => ?_⟩
  simp only [List.cons_append, List.append_assoc, List.nil_append] at h
  refine .bind (h.start fun m s h => .bind (h.bump_ fun s h => ?_))
  exact h.ifT (Sees.atSet _) (atS_yes (directive_kind hd)) fun s h => directive_run hd hu (by decide) hc h fun m s h => hk _ _ h

end Ludtwig.Template
