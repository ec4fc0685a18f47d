import Verif.Template.Literals

/-!
# Operators behind operands (proof device for C73)
-/

namespace Ludtwig.Template

variable {toks : List Token} {s s' : PState} {p q c : Nat} {ch dh : List Child}
  {F : List (Nat × List Child)} {t : Token} {v w u : List Token} {x y : Tree} {xs : List Tree} {k : SyntaxKind}
  {n m : Nat} {d i : Bool}

/-- The name of a filter, and its arguments. -/
def FilterShape (toks : List Token) (u : List Token) (xs : List Tree) : Prop :=
  ∃ t, IsName t ∧ ((u = [t] ∧ xs = [nameTree t]) ∨
    ∃ w x, ArgsShape toks w x ∧ u = t :: w ∧ xs = [nameTree t, x])

/-- The operators behind an operand are taken. -/
structure PostOk (toks : List Token) (x : Tree) (u : List Token) (y : Tree) : Prop where
  starts : u = [] ∨ HeadIn [T!".", T!"[", T!"|"] u
  run : ∀ n, u.length ≤ n → ∀ {s p ch F v c} {Q : CompletedMarker → PState → Prop},
    At toks s ((p, ch ++ [(some c, x)]) :: F) (u ++ v) → OpFol .all v →
    (∀ c' s', At toks s' ((p, ch ++ [(some c', y)]) :: F) v → Q c' s') →
    Loops (fun node => pure (false, node)) (parsePostfixOperator (knot n)) c s Q

theorem early_false : Early (σ := CompletedMarker) (fun node => pure (false, node)) (fun _ => false) (fun a _ => a) :=
  ⟨fun _ => .pure _, fun _ _ _ => rfl⟩

/-- No operator follows. -/
theorem OpFol.head {e : Tail} (h : OpFol e v) : HeadIn followers v := h.follows

theorem noPostfix (h : At toks s ((p, ch ++ [(some c, x)]) :: F) v) (hf : HeadIn followers v)
    {Q : CompletedMarker → PState → Prop}
    (hk : ∀ s', At toks s' ((p, ch ++ [(some c, x)]) :: F) v → Q c s') :
    Loops (fun node => pure (false, node)) (parsePostfixOperator (knot n)) c s Q := by
  obtain ⟨t, w, rfl, ht⟩ := hf
  refine Loops.idle (.pure _) h (kind_ne ht) (fun s h => ?_) hk
  refine h.ifF' (Sees.at1 _) (atS_no ht) fun s1 h l1 => h.ifF' (Sees.at1 _) (atS_no ht) fun s2 h l2 =>
    h.ifF' (Sees.at1 _) (atS_no ht) fun s3 h l3 => .pure ⟨rfl, h, by omega⟩

theorem done_ok : PostOk toks x [] x :=
  ⟨.inl rfl, fun _ _ _ _ _ _ _ _ _ h hf hk => noPostfix h hf.head fun s h => hk _ s h⟩

/-- What can follow a name without arguments. -/
theorem PostOk.notIn (hp : PostOk toks x u y) (hf : OpFol .all v) {set : List SyntaxKind}
    (hd : (T!"." :: T!"[" :: T!"|" :: followers).all (fun k => !set.contains k) = true := by decide +kernel) :
    atS set (u ++ v) = false := by
  rcases hp.starts with rfl | h
  · have : HeadIn (T!"." :: T!"[" :: T!"|" :: followers) v := by
      obtain ⟨t, w, rfl, h⟩ := hf.head
      exact ⟨t, w, rfl, by simp [h]⟩
    exact this.no hd
  · obtain ⟨t, w, rfl, h⟩ := h
    have : t.kind ∈ T!"." :: T!"[" :: T!"|" :: followers := by
      simp only [List.mem_cons] at h ⊢
      rcases h with h | h | h | h
      · exact .inl h
      · exact .inr (.inl h)
      · exact .inr (.inr (.inl h))
      · cases h
    exact atS_no this hd

theorem property_ok {d : Token} (hd : d.kind = T!".") (ht : IsName t)
    (ih : PostOk toks (.node .TWIG_ACCESSOR [.node .TWIG_OPERAND [x], d.tree, .node .TWIG_OPERAND [nameTree t]]) w y) :
    PostOk toks x (d :: t :: w) y := by
  refine ⟨.inr (.of (by simp [hd])), fun n hn s p ch F v c Q h hf hk => ?_⟩
  simp only [List.length_cons] at hn
  refine Loops.step early_false h (kind_ne (mem1 hd)) rfl fun s h => ?_
  refine h.ifT (Sees.at1 _) (atS_yes (mem1 hd)) fun s h => .bind (h.wrap1 fun m s h => .bind (h.precede fun m' s h =>
    .bind (h.bump_ fun s h => .bind (h.start fun m'' s h => ?_))))
  refine h.ifF (Sees.at1 _) (atS_no ht.1) fun s h => .bind (Gives.orRecover (name_gives (.inl ht.text)) h trivial fun s h =>
    .bind (h.complete_ fun s h => .bind (h.complete fun s h => ?_)))
  refine h.ifF (Sees.at1 _) (ih.notIn hf) fun s h => .pure ⟨_, _, h, by simp, ?_⟩
  refine ih.run n (by omega) (by simpa using h) hf hk

theorem method_ok {d : Token} {a : Tree} (hd : d.kind = T!".") (ht : IsName t) (ha : ArgsShape toks u a)
    (ih : PostOk toks (.node .TWIG_FUNCTION_CALL [.node .TWIG_OPERAND [.node .TWIG_ACCESSOR
        [.node .TWIG_OPERAND [x], d.tree, .node .TWIG_OPERAND [nameTree t]]], a]) w y) :
    PostOk toks x (d :: t :: (u ++ w)) y := by
  refine ⟨.inr (.of (by simp [hd])), fun n hn s p ch F v c Q h hf hk => ?_⟩
  simp only [List.length_cons, List.length_append] at hn
  simp only [List.cons_append, List.append_assoc] at h
  refine Loops.step early_false h (kind_ne (mem1 hd)) rfl fun s h => ?_
  refine h.ifT (Sees.at1 _) (atS_yes (mem1 hd)) fun s h => .bind (h.wrap1 fun m s h => .bind (h.precede fun m' s h =>
    .bind (h.bump_ fun s h => .bind (h.start fun m'' s h => ?_))))
  refine h.ifF (Sees.at1 _) (atS_no ht.1) fun s h => .bind (Gives.orRecover (name_gives (.inl ht.text)) h trivial fun s h =>
    .bind (h.complete_ fun s h => .bind (h.complete fun s h => ?_)))
  refine h.ifT (Sees.at1 _) (ha.starts.append _).yes fun s h => ha.function (by omega) h fun m s h =>
    ⟨_, _, h, by simp; omega, ?_⟩
  refine ih.run n (by omega) (by simpa using h) hf hk

theorem position_ok {d : Token} (hd : d.kind = T!".") (ht : t.kind = T!"number")
    (ih : PostOk toks (.node .TWIG_INDEX_LOOKUP [.node .TWIG_OPERAND [x], d.tree,
        .node .TWIG_INDEX [.node .TWIG_EXPRESSION [.node .TWIG_LITERAL_NUMBER [t.tree]]]]) w y) :
    PostOk toks x (d :: t :: w) y := by
  refine ⟨.inr (.of (by simp [hd])), fun n hn s p ch F v c Q h hf hk => ?_⟩
  simp only [List.length_cons] at hn
  refine Loops.step early_false h (kind_ne (mem1 hd)) rfl fun s h => ?_
  refine h.ifT (Sees.at1 _) (atS_yes (mem1 hd)) fun s h => .bind (h.wrap1 fun m s h => .bind (h.precede fun m' s h =>
    .bind (h.bump_ fun s h => .bind (h.start fun m'' s h => ?_))))
  refine h.ifT (Sees.at1 _) (atS_yes (mem1 ht)) fun s h => .bind (h.tokenNode fun m s h => .bind (.discard (h.wrap1 fun m s h => ?_)))
  refine .bind (h.complete_ fun s h => h.complete fun s h => ⟨_, _, h, by simp, ?_⟩)
  refine ih.run n (by omega) (by simpa using h) hf hk

theorem index_ok {l r : Token} {i : Tree} (hl : l.kind = T!"[") (hx : AnyExpr toks u i) (hr : r.kind = T!"]")
    (ih : PostOk toks (.node .TWIG_INDEX_LOOKUP [.node .TWIG_OPERAND [x], l.tree, .node .TWIG_INDEX [i], r.tree]) w y) :
    PostOk toks x (l :: (u ++ r :: w)) y := by
  refine ⟨.inr (.of (by simp [hl])), fun n hn s p ch F v c Q h hf hk => ?_⟩
  simp only [List.length_cons, List.length_append] at hn
  simp only [List.cons_append, List.append_assoc] at h
  refine Loops.step early_false h (kind_ne (mem1 hl)) rfl fun s h => ?_
  refine h.ifF (Sees.at1 _) (atS_no (mem1 hl)) fun s h => h.ifT (Sees.at1 _) (atS_yes (mem1 hl)) fun s h =>
    .bind (h.wrap1 fun m s h => .bind (h.precede fun m' s h => .bind (h.bump_ fun s h => .bind (h.start fun m'' s h => ?_))))
  refine .bind (hx.run n (by omega) h (.of (mem_sub (mem1 hr))) fun m s h => .bind ?_)
  refine h.ifF (Sees.at1 _) (atS_no (mem1 hr)) fun s h => .pure (.bind (h.whenF (.pure _) rfl fun s h => ?_))
  refine .bind (h.complete_ fun s h => .bind (h.expect_ hr fun s h => h.complete fun s h => ⟨_, _, h, by simp; omega, ?_⟩))
  refine ih.run n (by omega) (by simpa using h) hf hk

/-- An expression that may be missing. -/
inductive OptShape (P : List Token → Tree → Prop) : List Token → List Tree → Prop
  | none : OptShape P [] []
  | one {u : List Token} {x : Tree} : P u x → OptShape P u [x]

theorem slice_ok (G : Good toks) {l c r : Token} {u1 u2 : List Token} {is js : List Tree} (hl : l.kind = T!"[")
    (h1 : OptShape (ExprOk toks false) u1 is) (hc : c.kind = T!":") (h2 : OptShape (AnyExpr toks) u2 js)
    (hne : is ≠ [] ∨ js ≠ []) (hr : r.kind = T!"]")
    (ih : PostOk toks (.node .TWIG_INDEX_LOOKUP [.node .TWIG_OPERAND [x], l.tree,
        .node .TWIG_INDEX_RANGE (is ++ c.tree :: js), r.tree]) w y) :
    PostOk toks x (l :: (u1 ++ c :: (u2 ++ r :: w))) y := by
  refine ⟨.inr (.of (by simp [hl])), fun n hn s p ch F v c' Q h hf hk => ?_⟩
  simp only [List.length_cons, List.length_append] at hn
  simp only [List.cons_append, List.append_assoc] at h
  refine Loops.step early_false h (kind_ne (mem1 hl)) rfl fun s h => ?_
  refine h.ifF (Sees.at1 _) (atS_no (mem1 hl)) fun s h => h.ifT (Sees.at1 _) (atS_yes (mem1 hl)) fun s h =>
    .bind (h.wrap1 fun m s h => .bind (h.precede fun m' s h => .bind (h.bump_ fun s h => .bind (h.start fun m'' s h => .bind ?_))))
  have low : ∀ {Q' : Option CompletedMarker → PState → Prop},
      (∀ o s', (o.isNone = true → is = []) → At toks s' ((m'', anon is) :: (m', [(none, .node .TWIG_OPERAND [x]), (none, l.tree)]) :: (p, ch) :: F)
        (c :: (u2 ++ r :: (w ++ v))) → Q' o s') → Run ((knot n).exprBp 0) s Q' := by
    intro Q' hq
    cases h1 with
    | none => exact h.noExpr G (mem_sub (mem1 hc)) (by omega) fun s h => hq _ _ (fun _ => rfl) (by simpa using h)
    | one hx =>
      refine hx.knot (by omega) h ⟨c, _, rfl, by rw [hc]; decide +kernel, by simp⟩ fun m s h => hq _ _ (by simp) ?_
      exact At.anon1 (ch := []) h
  refine low fun o s ho h => .bind (h.ifT (Sees.at1 _) (atS_yes (mem1 hc)) fun s h => .bind (h.bump_ fun s h => .bind ?_))
  have up : ∀ {Q' : Option CompletedMarker → PState → Prop},
      (∀ o s', (o.isNone = true → js = []) → At toks s' ((m'', anon (is ++ c.tree :: js)) :: (m', [(none, .node .TWIG_OPERAND [x]), (none, l.tree)]) :: (p, ch) :: F)
        (r :: (w ++ v)) → Q' o s') → Run ((knot n).exprBp 0) s Q' := by
    intro Q' hq
    cases h2 with
    | none => exact h.noExpr G (mem_sub (mem1 hr)) (by omega) fun s h => hq _ _ (fun _ => rfl) (by simpa using h)
    | one hx =>
      refine hx.run n (by omega) h (.of (mem_sub (mem1 hr))) fun m s h => hq _ _ (by simp) ?_
      simpa using h.anon1
  refine up fun o' s ho' h => .pure (.bind (h.whenF (.pure _) ?_ fun s h => ?_))
  · dsimp only
    cases o with
    | some _ => rfl
    | none =>
      cases o' with
      | some _ => rfl
      | none => rcases hne with h' | h' <;> simp_all
  · refine .bind (h.complete_ fun s h => .bind (h.expect_ hr fun s h => h.complete fun s h => ⟨_, _, h, by simp; omega, ?_⟩))
    refine ih.run n (by omega) (by simpa using h) hf hk

/-- A filter behind the children `dh` of the open node. -/
theorem filter_run {p' : Token} {x0 : Tree} {ys : List Tree} (hu : FilterShape toks u xs) (hn : u.length ≤ n)
    (hf : atS [T!"("] v = false)
    (h : At toks s ((p, ch ++ (some c, x0) :: anon ys) :: F) (p' :: (u ++ v))) {Q : CompletedMarker → PState → Prop}
    (hk : ∀ c' s', At toks s' ((p, ch ++ [(some c', .node .TWIG_FILTER
        [.node .TWIG_OPERAND (x0 :: ys), p'.tree, .node .TWIG_OPERAND xs])]) :: F) v → Q c' s') :
    Run (parseTwigFilter (knot n) c) s Q := by
  refine .bind (h.wrap fun m s h => .bind (h.precede fun m' s h => .bind (h.bump_ fun s h => .bind (h.start fun m'' s h => .bind ?_))))
  obtain ⟨t, ht, ⟨rfl, rfl⟩ | ⟨w, a, ha, rfl, rfl⟩⟩ := hu
  · refine h.parseName (.inl ht.text) fun m s h => .bind (h.whenF (Sees.at1 _) hf fun s h => ?_)
    exact .bind (h.complete_ fun s h => h.complete fun s h => hk _ _ (by simpa using h))
  · refine h.parseName (.inl ht.text) fun m s h => .bind (h.whenT (Sees.at1 _) (ha.starts.append _).yes fun s h => ?_)
    refine ha.node (by simp at hn; omega) h trivial fun s h => ?_
    exact .bind (h.complete_ fun s h => h.complete fun s h => hk _ _ (by simpa using h))

theorem filter_ok {p' : Token} (hp : p'.kind = T!"|") (hu : FilterShape toks u xs)
    (ih : PostOk toks (.node .TWIG_FILTER [.node .TWIG_OPERAND [x], p'.tree, .node .TWIG_OPERAND xs]) w y) :
    PostOk toks x (p' :: (u ++ w)) y := by
  refine ⟨.inr (.of (by simp [hp])), fun n hn s p ch F v c Q h hf hk => ?_⟩
  simp only [List.length_cons, List.length_append] at hn
  simp only [List.cons_append, List.append_assoc] at h
  refine Loops.step early_false h (kind_ne (mem1 hp)) rfl fun s h => ?_
  refine h.ifF (Sees.at1 _) (atS_no (mem1 hp)) fun s h => h.ifF (Sees.at1 _) (atS_no (mem1 hp)) fun s h =>
    h.ifT (Sees.at1 _) (atS_yes (mem1 hp)) fun s h => ?_
  refine filter_run (ys := []) hu (by omega) (ih.notIn hf) h fun m s h => ⟨_, _, h, by simp, ?_⟩
  exact ih.run n (by omega) h hf hk

end Ludtwig.Template
