import Verif.Template.Parts

/-!
# Tags: bodies and the way through the dispatch (proof device for C73)
-/

namespace Ludtwig.Template

variable {toks : List Token} {s s' : PState} {p q : Nat} {ch dh : List Child}
  {F : List (Nat × List Child)} {t : Token} {v w u b : List Token} {x y : Tree} {xs ys zs bs : List Tree} {k : SyntaxKind}
  {n m : Nat} {d i : Bool} {e : Tail} {K : Knot} {c : Ctx}

/-! ## Bodies -/

/-- The keywords that end or continue a tag with a body. -/
def endKeywords : List SyntaxKind := T!"endcomponent" :: terminationKeywords

/-- The function for the content of a body. -/
def childOf : Ctx → Nat → P (Option CompletedMarker)
  | .element, n => (knot n).anyElement
  | .attribute, n => (knot n).attributeOrTwig
  | .double, n => (knot n).innerDouble
  | .single, n => (knot n).innerSingle
  | .raw, n => (knot n).rawTextInner

/-- A tag with one of these keywords follows. -/
def atTag (E : List SyntaxKind) (v : List Token) : Bool := atS tagOpens v && secondK (fun k => E.contains k) v

theorem Sees.tag (k : SyntaxKind) : Sees (Ludtwig.atTwigTag k) (atTag [k]) :=
  (Sees.atTwigTag k).congr fun v => by
    match v with
    | [] => rfl
    | [_] => rfl
    | _ :: _ :: _ =>
      simp only [atTag, secondK_cons, List.contains_cons, List.contains_nil, Bool.or_false]
      rfl

theorem Sees.orTag {a b : P Bool} {A B : List SyntaxKind} (ha : Sees a (atTag A)) (hb : Sees b (atTag B)) :
    Sees (P.or a b) (atTag (A ++ B)) :=
  (ha.or hb).congr fun v => by
    match v with
    | [] => rfl
    | [_] => simp [atTag]
    | _ :: _ :: _ =>
      simp only [atTag, secondK_cons, List.contains_append]
      rw [← Bool.and_or_distrib_left]

/-- The end of a body is found in the context. -/
def EndsIn (c : Ctx) (k : SyntaxKind) : Prop := k ∈ terminationKeywords ∨ ((c = .element ∨ c = .attribute) ∧ k ∈ endKeywords)

/-- A body of a tag is taken. -/
def BodyOk (toks : List Token) (c : Ctx) (b : List Token) (xs : List Tree) : Prop :=
  ∀ n, b.length < n → ∀ {early E}, Sees early (atTag E) → E.all (fun k => endKeywords.contains k) = true →
    ∀ {s p ch F o e v} {Q : Unit → PState → Prop}, At toks s ((p, ch) :: F) (b ++ o :: e :: v) → o.kind ∈ tagOpens →
    e.kind ∈ E → EndsIn c e.kind →
    (∀ s', At toks s' ((p, ch ++ anon xs) :: F) (o :: e :: v) → Q () s') →
    Loops (fun a => do return ((← early), a)) (fun _ => discard' (childOf c n)) () s Q

/-- The whole node. -/
theorem BodyOk.body (hb : BodyOk toks c b xs) (hn : b.length < n) {early : P Bool} {E : List SyntaxKind}
    (he : Sees early (atTag E)) {o e' : Token} (ho : o.kind ∈ tagOpens)
    (hk : e'.kind ∈ E) (hE : EndsIn c e'.kind) (h : At toks s ((p, ch) :: F) (b ++ o :: e' :: v)) {Q : Unit → PState → Prop}
    (hq : ∀ s', At toks s' ((p, ch ++ [(none, .node .BODY xs)]) :: F) (o :: e' :: v) → Q () s')
    (hall : E.all (fun k => endKeywords.contains k) = true := by decide +kernel) :
    Run (parseBody (childOf c n) early) s Q :=
  .bind (h.start fun m s h => .bind (Loops.many (hb n hn he hall h ho hk hE fun s h =>
    h.complete_ fun s h => hq s (by simpa using h))))

theorem endBlock {o e' cl : Token} {r1 r2 r3 : List SyntaxKind} {kw node : SyntaxKind} (ho : o.kind ∈ tagOpens) (he : e'.kind = kw)
    (hc : cl.kind ∈ tagCloses) (h : At toks s ((p, ch) :: F) (o :: e' :: cl :: v)) {Q : Unit → PState → Prop}
    (hq : ∀ s', At toks s' ((p, ch ++ [(none, .node node [o.tree, e'.tree, cl.tree])]) :: F) v → Q () s') :
    Run (parseEndBlock kw r1 r2 r3 node) s Q :=
  .bind (h.start fun m s h => .bind (h.expectAny_ ho fun s h => .bind (h.expect_ he fun s h =>
    .bind (h.expectAny_ hc fun s h => h.complete_ fun s h => hq s (by simpa using h)))))

theorem namedEndBlock {o e' cl : Token} {r1 r2 : List SyntaxKind} {kw node : SyntaxKind} {what : String} {name : Text}
    (ho : o.kind ∈ tagOpens) (he : e'.kind = kw)
    (hu : OptTok T!"word" u ys) (ht : ∀ t ∈ u, t.text = name) (hc : cl.kind ∈ tagCloses)
    (h : At toks s ((p, ch) :: F) (o :: e' :: (u ++ cl :: v))) {Q : Unit → PState → Prop}
    (hq : ∀ s', At toks s' ((p, ch ++ [(none, .node node (o.tree :: e'.tree :: (ys ++ [cl.tree])))]) :: F) v → Q () s') :
    Run (parseNamedEndBlock kw what (some name) r1 r2 node) s Q := by
  refine .bind (h.start fun m s h => .bind (h.expectAny_ ho fun s h => .bind (h.expect_ he fun s h => .bind ?_)))
  rcases hu with ⟨rfl, rfl⟩ | ⟨t, ht', rfl, rfl⟩
  · exact h.whenF (Sees.at1 _) (atS_no hc) fun s h => .bind (h.expectAny_ hc fun s h =>
      h.complete_ fun s h => hq s (by simpa using h))
  · refine h.whenT (Sees.at1 _) (atS_yes (mem1 ht')) fun s h => .bind (h.bump fun s h => ?_)
    dsimp only
    rw [if_neg (by simp [ht t (by simp)])]
    exact .pure (.bind (h.expectAny_ hc fun s h => h.complete_ fun s h => hq s (by simpa using h)))

/-- The part behind the starting tag: the body and the ending tag. -/
theorem blockRest (hb : BodyOk toks c b xs) (hn : b.length < n) {early : P Bool} {E r1 r2 r3 : List SyntaxKind}
    {k1 k2 k3 kw : SyntaxKind}
    (he : Sees early (atTag E)) {o e' cl : Token} (ho : o.kind ∈ tagOpens)
    (hk : e'.kind = kw) (hkE : kw ∈ E) (hE : EndsIn c kw) (hc : cl.kind ∈ tagCloses)
    (h : At toks s ((m, dh) :: (p, ch) :: F) (b ++ o :: e' :: cl :: v)) {Q : CompletedMarker → PState → Prop}
    (hq : ∀ c' s', At toks s' ((p, ch ++ [(some c', .node k3 [.node k1 (dh.map (·.2)), .node .BODY xs,
      .node k2 [o.tree, e'.tree, cl.tree]])]) :: F) v → Q c' s')
    (hall : E.all (fun k => endKeywords.contains k) = true := by decide +kernel) :
    Run (do
      let wrapper ← complete m k1
      let wrapper ← precede wrapper
      parseBody (childOf c n) early
      parseEndBlock kw r1 r2 r3 k2
      complete wrapper k3) s Q := by
  refine .bind (h.complete fun s h => .bind (h.precede fun m' s h => .bind ?_))
  refine hb.body hn he ho (by rw [hk]; exact hkE) (by rw [hk]; exact hE) h (fun s h => .bind ?_) hall
  exact endBlock ho hk hc h fun s h => h.complete fun s h => hq _ _ (by simpa using h)

/-! ## The dispatch -/

theorem disT {c : P Bool} {φ : List Token → Bool} {a b : P α} {Q : α → PState → Prop}
    (hc : Sees c φ) (hφ : φ v = true) (hk : ∀ s', At toks s' F v → Run a s' Q) :
    ∀ s', At toks s' F v → Run (ifP c a b) s' Q := fun _ h => h.ifT hc hφ hk

theorem disF {c : P Bool} {φ : List Token → Bool} {a b : P α} {Q : α → PState → Prop}
    (hc : Sees c φ) (hφ : φ v = false) (hk : ∀ s', At toks s' F v → Run b s' Q) :
    ∀ s', At toks s' F v → Run (ifP c a b) s' Q := fun _ h => h.ifF hc hφ hk

/-- Goes to the branch for the kind of the next token. -/
syntax "dispatch" term : tactic
macro_rules
  | `(tactic| dispatch $hk) => `(tactic| first
      | refine disT (Sees.at1 _) (atS_yes $hk) ?_
      | refine disT (Sees.atSet _) (atS_yes $hk) ?_
      | (refine disF (Sees.at1 _) (atS_no $hk) ?_; dispatch $hk)
      | (refine disF (Sees.atSet _) (atS_no $hk) ?_; dispatch $hk))

/-- A tag or comment is taken. -/
structure TagOk (toks : List Token) (c : Ctx) (u : List Token) (x : Tree) : Prop where
  starts : HeadIn commentOpens u ∨ ∃ o k w, u = o :: k :: w ∧ o.kind ∈ tagOpens ∧ k.kind ∉ endKeywords
  run : ∀ n, u.length ≤ n → Gives toks (parseAnyTwig (knot n) (childOf c n)) u x Any

theorem tagComment_ok (hx : CommentOk toks u x) : TagOk toks c u x := by
  refine ⟨.inl hx.starts, fun n hn s p ch F v Q h hf hk => ?_⟩
  have hs := hx.starts.append v
  exact h.ifF (Sees.atSet _) hs.no fun s h => h.ifF (Sees.atSet _) hs.no fun s h => h.ifT (Sees.atSet _) hs.yes fun s h =>
    .bind (hx.run h trivial fun m s h => .pure (hk _ _ h))

/-- What is left to show for a tag. -/
def TagRun (toks : List Token) (c : Ctx) (o k : Token) (w : List Token) (x : Tree) : Prop :=
  ∀ n, w.length + 2 ≤ n → ∀ {p ch F v m} {Q : Option CompletedMarker → PState → Prop},
    (∀ c' s', At toks s' ((p, ch ++ [(some c', x)]) :: F) v → Q (some c') s') →
    ∀ s, At toks s ((m, [(none, o.tree)]) :: (p, ch) :: F) (k :: (w ++ v)) → Run (parseTwigTag (knot n) m (childOf c n)) s Q

theorem TagRun.ok {o k : Token} (hr : TagRun toks c o k w x) (ho : o.kind ∈ tagOpens) {L : List SyntaxKind} (hk : k.kind ∈ L)
    (hL : L.all (fun k => !endKeywords.contains k) = true := by decide +kernel) : TagOk toks c (o :: k :: w) x := by
  refine ⟨.inr ⟨o, k, w, rfl, ho, ?_⟩, fun n hn s p ch F v Q h hf hq => ?_⟩
  · intro h
    have := List.contains_iff_mem.2 h
    rw [contains_no hk hL] at this
    cases this
  · refine h.ifT (Sees.atSet _) (atS_yes ho) fun s h => .bind (h.start fun m s h => .bind (h.bump_ fun s h => ?_))
    exact hr n (by simpa using hn) hq s (by simpa using h)

/-! ## Tags with one part -/

theorem flush_ok {o k cl : Token} (ho : o.kind ∈ tagOpens) (hk : k.kind = T!"flush") (hc : cl.kind ∈ tagCloses) :
    TagOk toks c [o, k, cl] (.node .TWIG_FLUSH [o.tree, k.tree, cl.tree]) := by
  refine TagRun.ok (fun n hn p ch F v m Q hq => ?_) ho (mem1 hk)
  dispatch (mem1 hk)
  exact fun s h => .bind (.bind (h.bump_ fun s h => .bind (h.expectAny_ hc fun s h => h.complete fun s h =>
    .pure (hq _ _ (by simpa using h)))))

theorem expressionTag_ok {o k cl : Token} {nk : SyntaxKind} (ho : o.kind ∈ tagOpens) (hk : (k.kind, nk) ∈ expressionTags)
    (hx : AnyExpr toks u x) (hc : cl.kind ∈ tagCloses) :
    TagOk toks c (o :: k :: (u ++ [cl])) (.node nk [o.tree, k.tree, x, cl.tree]) := by
  simp only [expressionTags, List.mem_cons, Prod.mk.injEq, List.not_mem_nil, or_false] at hk
  rcases hk with ⟨hk, rfl⟩ | ⟨hk, rfl⟩ <;>
  · refine TagRun.ok (fun n hn p ch F v m Q hq => ?_) ho (mem1 hk)
    simp only [List.length_append, List.append_assoc] at hn ⊢
    dispatch (mem1 hk)
    exact fun s h => .bind (.bind (h.bump_ fun s h => .bind (hx.recover (by omega) h (.of (mem_sub hc)) fun s h =>
      .bind (h.expectAny_ hc fun s h => h.complete fun s h => .pure (hq _ _ (by simpa using h))))))

theorem StringOk.or {e : String} {r : List SyntaxKind} (hx : StringOk toks false u x) (hn : u.length ≤ n) :
    GivesU toks (parseStringOr (knot n) e r) u [x] Any := by
  intro s p ch F v Q h _ hk
  have hs := hx.starts.append v
  exact h.ifT (Sees.atSet _) hs.yes fun s h => Gives1.discard (hx.run n hn) h trivial hk

theorem stringTag_ok {o k cl : Token} {nk : SyntaxKind} (ho : o.kind ∈ tagOpens) (hk : (k.kind, nk) ∈ stringTags)
    (hx : StringOk toks false u x) (hc : cl.kind ∈ tagCloses) :
    TagOk toks c (o :: k :: (u ++ [cl])) (.node nk [o.tree, k.tree, x, cl.tree]) := by
  simp only [stringTags, List.mem_cons, Prod.mk.injEq, List.not_mem_nil, or_false] at hk
  rcases hk with ⟨hk, rfl⟩ | ⟨hk, rfl⟩ <;>
  · refine TagRun.ok (fun n hn p ch F v m Q hq => ?_) ho (mem1 hk)
    simp only [List.length_append, List.append_assoc] at hn ⊢
    dispatch (mem1 hk)
    exact fun s h => .bind (.bind (h.bump_ fun s h => .bind (hx.or (by omega) h trivial fun s h =>
      .bind (h.expectAny_ hc fun s h => h.complete fun s h => .pure (hq _ _ (by simpa using h))))))

theorem returnTag_ok (G : Good toks) {o k cl : Token} (ho : o.kind ∈ tagOpens) (hk : k.kind = T!"return")
    (hx : OptShape (AnyExpr toks) u xs) (hc : cl.kind ∈ tagCloses) :
    TagOk toks c (o :: k :: (u ++ [cl])) (.node .SHOPWARE_RETURN (o.tree :: k.tree :: (xs ++ [cl.tree]))) := by
  refine TagRun.ok (fun n hn p ch F v m Q hq => ?_) ho (mem1 hk)
  simp only [List.length_append, List.append_assoc] at hn ⊢
  dispatch (mem1 hk)
  exact fun s h => .bind (.bind (h.bump_ fun s h => .bind (optExpr_run G hx (by omega) (.of (mem_sub hc)) (fun _ => .of (mem_sub hc)) h fun s h =>
    .bind (h.expectAny_ hc fun s h => h.complete fun s h => .pure (hq _ _ (by simpa using h))))))

theorem includeTag_ok {o k cl : Token} {nk : SyntaxKind} {u1 u2 u3 : List Token} (ho : o.kind ∈ tagOpens) (hk : (k.kind, nk) ∈ includeTags)
    (hx : AnyExpr toks u x) (h1 : OptTok T!"ignore missing" u1 xs) (h2 : OptVal toks T!"with" .TWIG_INCLUDE_WITH u2 ys)
    (h3 : OptTok T!"only" u3 zs) (hc : cl.kind ∈ tagCloses) :
    TagOk toks c (o :: k :: (u ++ (u1 ++ (u2 ++ (u3 ++ [cl]))))) (.node nk (o.tree :: k.tree :: x :: (xs ++ (ys ++ (zs ++ [cl.tree]))))) := by
  simp only [includeTags, List.mem_cons, Prod.mk.injEq, List.not_mem_nil, or_false] at hk
  rcases hk with ⟨hk, rfl⟩ | ⟨hk, rfl⟩ <;>
  · refine TagRun.ok (fun n hn p ch F v m Q hq => ?_) ho (mem1 hk)
    simp only [List.length_append, List.append_assoc, List.cons_append, List.nil_append] at hn ⊢
    have g4 : HeadIn tagCloses (cl :: v) := .of hc
    have g3 := h3.head g4
    have g2 := h2.head g3
    have g1 := h1.head g2
    dispatch (mem1 hk)
    exact fun s h => .bind (.bind (h.bump_ fun s h => .bind (hx.recover (by omega) h g1.sub fun s h =>
      .bind (h1.run g2.no h fun s h => .bind (h2.run (by omega) g3.sub g3.no h fun s h => .bind (h3.run g4.no h fun s h =>
      .bind (h.expectAny_ hc fun s h => h.complete fun s h => .pure (hq _ _ (by simpa using h)))))))))

theorem embedTag_ok {o k cl o' e' cl' : Token} {ek : SyntaxKind} {u1 u2 u3 : List Token} (ho : o.kind ∈ tagOpens)
    (hk : (k.kind, ek) ∈ embedTags)
    (hx : AnyExpr toks u x) (h1 : OptTok T!"ignore missing" u1 xs) (h2 : OptVal toks T!"with" .TWIG_INCLUDE_WITH u2 ys)
    (h3 : OptTok T!"only" u3 zs) (hc : cl.kind ∈ tagCloses) (hb : BodyOk toks c b bs) (ho' : o'.kind ∈ tagOpens)
    (he : e'.kind = ek) (hc' : cl'.kind ∈ tagCloses) :
    TagOk toks c (o :: k :: (u ++ (u1 ++ (u2 ++ (u3 ++ cl :: (b ++ [o', e', cl']))))))
      (.node .TWIG_EMBED [.node .TWIG_EMBED_STARTING_BLOCK (o.tree :: k.tree :: x :: (xs ++ (ys ++ (zs ++ [cl.tree])))),
          .node .BODY bs, .node .TWIG_EMBED_ENDING_BLOCK [o'.tree, e'.tree, cl'.tree]]) := by
  have hkk : (if atK T!"sw_embed" [k] = true then T!"sw_end_embed" else T!"endembed") = ek ∧
      k.kind ∈ [T!"embed", T!"sw_embed"] ∧ ek ∈ [T!"endembed", T!"sw_end_embed"] := by
    simp only [embedTags, List.mem_cons, Prod.mk.injEq, List.not_mem_nil, or_false] at hk
    rcases hk with ⟨hk, rfl⟩ | ⟨hk, rfl⟩ <;> simp [hk]
  obtain ⟨hek, hk', hek'⟩ := hkk
  refine TagRun.ok (fun n hn p ch F v m Q hq => ?_) ho hk'
  simp only [List.length_append, List.append_assoc, List.cons_append, List.nil_append, List.length_cons] at hn ⊢
  have g4 : HeadIn tagCloses (cl :: (b ++ o' :: e' :: cl' :: v)) := .of hc
  have g3 := h3.head g4
  have g2 := h2.head g3
  have g1 := h1.head g2
  dispatch hk'
  refine fun s h => .bind (.bind ((Sees.at' _).run h fun s h => ?_))
  rw [show atK T!"sw_embed" (k :: (u ++ (u1 ++ (u2 ++ (u3 ++ cl :: (b ++ o' :: e' :: cl' :: v)))))) = atK T!"sw_embed" [k] from rfl]
  refine .bind (h.bump_ fun s h => .bind (hx.recover (by omega) h g1.sub fun s h =>
    .bind (h1.run g2.no h fun s h => .bind (h2.run (by omega) g3.sub g3.no h fun s h => .bind (h3.run g4.no h fun s h =>
    .bind (h.expectAny_ hc fun s h => ?_))))))
  refine blockRest hb (by omega) ((Sees.tag _).orTag (Sees.tag _)) ho' (he.trans hek.symm) ?_ ?_ hc' h (fun c s h => .pure (hq _ _ (by simpa using h))) 
  · rw [hek]; exact hek'
  · rw [hek]; exact .inl (mem_sub hek')

theorem valueTag_ok {o k cl : Token} {vk vn nk : SyntaxKind} (ho : o.kind ∈ tagOpens) (hk : (k.kind, vk, vn, nk) ∈ valueTags)
    (hx : AnyExpr toks u x) (h1 : OptVal toks vk vn w ys) (hc : cl.kind ∈ tagCloses) :
    TagOk toks c (o :: k :: (u ++ (w ++ [cl]))) (.node nk (o.tree :: k.tree :: x :: (ys ++ [cl.tree]))) := by
  simp only [valueTags, List.mem_cons, Prod.mk.injEq, List.not_mem_nil, or_false] at hk
  rcases hk with ⟨hk, rfl, rfl, rfl⟩ | ⟨hk, rfl, rfl, rfl⟩ <;>
  · refine TagRun.ok (fun n hn p ch F v m Q hq => ?_) ho (mem1 hk)
    simp only [List.length_append, List.append_assoc, List.cons_append, List.nil_append] at hn ⊢
    have g2 : HeadIn tagCloses (cl :: v) := .of hc
    have g1 := h1.head g2
    dispatch (mem1 hk)
    exact fun s h => .bind (.bind (h.bump_ fun s h => .bind (hx.recover (by omega) h g1.sub fun s h =>
      .bind (h1.run (by omega) g2.sub g2.no h fun s h =>
      .bind (h.expectAny_ hc fun s h => h.complete fun s h => .pure (hq _ _ (by simpa using h)))))))

/-! ## Tags with a body -/

theorem plainBlock_ok {o k cl o' e' cl' : Token} {ek sn en nk : SyntaxKind} (ho : o.kind ∈ tagOpens)
    (hk : (k.kind, ek, sn, en, nk) ∈ plainBlocks) (hc : cl.kind ∈ tagCloses) (hb : BodyOk toks c b xs)
    (ho' : o'.kind ∈ tagOpens) (he : e'.kind = ek) (hc' : cl'.kind ∈ tagCloses) :
    TagOk toks c (o :: k :: cl :: (b ++ [o', e', cl']))
      (.node nk [.node sn [o.tree, k.tree, cl.tree], .node .BODY xs, .node en [o'.tree, e'.tree, cl'.tree]]) := by
  simp only [plainBlocks, List.mem_cons, Prod.mk.injEq, List.not_mem_nil, or_false] at hk
  rcases hk with ⟨hk, rfl, rfl, rfl, rfl⟩ | ⟨hk, rfl, rfl, rfl, rfl⟩ | ⟨hk, rfl, rfl, rfl, rfl⟩ <;>
  · refine TagRun.ok (fun n hn p ch F v m Q hq => ?_) ho (mem1 hk)
    simp only [List.length_append, List.append_assoc, List.cons_append, List.nil_append, List.length_cons] at hn ⊢
    dispatch (mem1 hk)
    refine fun s h => .bind (.bind (h.bump_ fun s h => .bind (h.expectAny_ hc fun s h => ?_)))
    exact blockRest hb (by omega) (Sees.tag _) ho' he (by simp) (.inl (by decide)) hc' h (fun c s h => .pure (hq _ _ (by simpa using h)))

theorem cacheTag_ok {o k cl o' e' cl' : Token} {u1 u2 : List Token} (ho : o.kind ∈ tagOpens)
    (hk : k.kind = T!"cache") (hx : AnyExpr toks u x) (h1 : OptCall toks T!"ttl" .TWIG_CACHE_TTL u1 xs)
    (h2 : OptCall toks T!"tags" .TWIG_CACHE_TAGS u2 ys) (hc : cl.kind ∈ tagCloses) (hb : BodyOk toks c b zs)
    (ho' : o'.kind ∈ tagOpens) (he : e'.kind = T!"endcache") (hc' : cl'.kind ∈ tagCloses) :
    TagOk toks c (o :: k :: (u ++ (u1 ++ (u2 ++ cl :: (b ++ [o', e', cl'])))))
        (.node .TWIG_CACHE [.node .TWIG_CACHE_STARTING_BLOCK (o.tree :: k.tree :: x :: (xs ++ (ys ++ [cl.tree]))),
          .node .BODY zs, .node .TWIG_CACHE_ENDING_BLOCK [o'.tree, e'.tree, cl'.tree]]) := by
  refine TagRun.ok (fun n hn p ch F v m Q hq => ?_) ho (mem1 hk)
  simp only [List.length_append, List.append_assoc, List.cons_append, List.nil_append, List.length_cons] at hn ⊢
  have g3 : HeadIn tagCloses (cl :: (b ++ o' :: e' :: cl' :: v)) := .of hc
  have g2 := h2.head g3
  have g1 := h1.head g2
  dispatch (mem1 hk)
  refine fun s h => .bind (.bind (h.bump_ fun s h => .bind (hx.recover (by omega) h g1.sub fun s h =>
    .bind (h1.run (by omega) g2.no h fun s h => .bind (h2.run (by omega) g3.no h fun s h => .bind (h.expectAny_ hc fun s h => ?_))))))
  exact blockRest hb (by omega) (Sees.tag _) ho' he (by simp) (.inl (by decide)) hc' h (fun c s h => .pure (hq _ _ (by simpa using h)))

theorem withTag_ok (G : Good toks) {o k cl o' e' cl' : Token} (ho : o.kind ∈ tagOpens)
    (hk : k.kind = T!"with") (hx : OptShape (AnyExpr toks) u xs) (h1 : OptTok T!"only" w ys) (hw : u = [] → w = [])
    (hc : cl.kind ∈ tagCloses) (hb : BodyOk toks c b zs)
    (ho' : o'.kind ∈ tagOpens) (he : e'.kind = T!"endwith") (hc' : cl'.kind ∈ tagCloses) :
    TagOk toks c (o :: k :: (u ++ (w ++ cl :: (b ++ [o', e', cl']))))
        (.node .TWIG_WITH [.node .TWIG_WITH_STARTING_BLOCK (o.tree :: k.tree :: (xs ++ (ys ++ [cl.tree]))), .node .BODY zs,
          .node .TWIG_WITH_ENDING_BLOCK [o'.tree, e'.tree, cl'.tree]]) := by
  refine TagRun.ok (fun n hn p ch F v m Q hq => ?_) ho (mem1 hk)
  simp only [List.length_append, List.append_assoc, List.cons_append, List.nil_append, List.length_cons] at hn ⊢
  have g2 : HeadIn tagCloses (cl :: (b ++ o' :: e' :: cl' :: v)) := .of hc
  have g1 := h1.head g2
  dispatch (mem1 hk)
  refine fun s h => .bind (.bind (h.bump_ fun s h => .bind (optExpr_run G hx (by omega) g1.sub (fun h => ?_) h fun s h =>
    .bind (h1.run g2.no h fun s h => .bind (h.expectAny_ hc fun s h => ?_)))))
  · rw [hw h]
    exact g2.sub
  · exact blockRest hb (by omega) (Sees.tag _) ho' he (by simp) (.inl (by decide)) hc' h (fun c s h => .pure (hq _ _ (by simpa using h)))

theorem silentTag_ok {o k cl o' e' cl' : Token} (ho : o.kind ∈ tagOpens)
    (hk : k.kind = T!"sw_silent_feature_call") (hx : StringOk toks false u x)
    (hc : cl.kind ∈ tagCloses) (hb : BodyOk toks c b ys)
    (ho' : o'.kind ∈ tagOpens) (he : e'.kind = T!"endsw_silent_feature_call") (hc' : cl'.kind ∈ tagCloses) :
    TagOk toks c (o :: k :: (u ++ cl :: (b ++ [o', e', cl'])))
        (.node .SHOPWARE_SILENT_FEATURE_CALL [.node .SHOPWARE_SILENT_FEATURE_CALL_STARTING_BLOCK
          [o.tree, k.tree, x, cl.tree], .node .BODY ys,
          .node .SHOPWARE_SILENT_FEATURE_CALL_ENDING_BLOCK [o'.tree, e'.tree, cl'.tree]]) := by
  refine TagRun.ok (fun n hn p ch F v m Q hq => ?_) ho (mem1 hk)
  simp only [List.length_append, List.append_assoc, List.cons_append, List.nil_append, List.length_cons] at hn ⊢
  dispatch (mem1 hk)
  refine fun s h => .bind (.bind (h.bump_ fun s h => .bind (hx.or (by omega) h trivial fun s h => .bind (h.expectAny_ hc fun s h => ?_))))
  exact blockRest hb (by omega) (Sees.tag _) ho' he (by simp) (.inl (by decide)) hc' h (fun c s h => .pure (hq _ _ (by simpa using h)))

/-- The strategy of `autoescape`. -/
def StrategyShape (toks : List Token) (u : List Token) (xs : List Tree) : Prop :=
  (u = [] ∧ xs = []) ∨ (∃ t, t.kind = T!"false" ∧ u = [t] ∧ xs = [t.tree]) ∨ ∃ x, StringOk toks false u x ∧ xs = [x]

theorem autoescapeTag_ok {o k cl o' e' cl' : Token} (ho : o.kind ∈ tagOpens)
    (hk : k.kind = T!"autoescape") (hu : StrategyShape toks u xs)
    (hc : cl.kind ∈ tagCloses) (hb : BodyOk toks c b ys)
    (ho' : o'.kind ∈ tagOpens) (he : e'.kind = T!"endautoescape") (hc' : cl'.kind ∈ tagCloses) :
    TagOk toks c (o :: k :: (u ++ cl :: (b ++ [o', e', cl'])))
        (.node .TWIG_AUTOESCAPE [.node .TWIG_AUTOESCAPE_STARTING_BLOCK (o.tree :: k.tree :: (xs ++ [cl.tree])),
          .node .BODY ys, .node .TWIG_AUTOESCAPE_ENDING_BLOCK [o'.tree, e'.tree, cl'.tree]]) := by
  refine TagRun.ok (fun n hn p ch F v m Q hq => ?_) ho (mem1 hk)
  simp only [List.length_append, List.append_assoc, List.cons_append, List.nil_append, List.length_cons] at hn ⊢
  dispatch (mem1 hk)
  refine fun s h => .bind (.bind (h.bump_ fun s h => .bind ?_))
  rcases hu with ⟨rfl, rfl⟩ | ⟨t, ht, rfl, rfl⟩ | ⟨x, hx, rfl⟩
  · refine h.ifF (Sees.atSet _) (atS_no hc) fun s h => h.ifF (Sees.at1 _) (atS_no hc) fun s h =>
      h.whenF (Sees.atSet _).not ?_ fun s h => .bind (h.expectAny_ hc fun s h => ?_)
    · rw [List.nil_append, atS_yes hc]; rfl
    exact blockRest hb (by simp at hn; omega) (Sees.tag _) ho' he (by simp) (.inl (by decide)) hc' h (fun c s h => .pure (hq _ _ (by simpa using h)))
  · refine h.ifF (Sees.atSet _) (atS_no (mem1 ht)) fun s h => h.ifT (Sees.at1 _) (atS_yes (mem1 ht)) fun s h =>
      h.bump_ fun s h => .bind (h.expectAny_ hc fun s h => ?_)
    exact blockRest hb (by omega) (Sees.tag _) ho' he (by simp) (.inl (by decide)) hc' h (fun c s h => .pure (hq _ _ (by simpa using h)))
  · refine h.ifT (Sees.atSet _) (hx.starts.append _).yes fun s h => ?_
    refine Gives1.discard (hx.run n (by omega)) h trivial fun s h => .bind (h.expectAny_ hc fun s h => ?_)
    exact blockRest hb (by omega) (Sees.tag _) ho' he (by simp) (.inl (by decide)) hc' h (fun c s h => .pure (hq _ _ (by simpa using h)))

/-- The variables of a component. -/
def WithShape (toks : List Token) (u : List Token) (xs : List Tree) : Prop :=
  (u = [] ∧ xs = []) ∨ ∃ i w x, i.kind = T!"with" ∧ HashOk toks w x ∧ u = i :: w ∧ xs = [i.tree, x]

theorem componentTag_ok {o k t cl o' e' cl' : Token} (hctx : c = .element ∨ c = .attribute) (ho : o.kind ∈ tagOpens)
    (hk : k.kind = T!"component") (ht : IsName t) (hu : WithShape toks u xs)
    (hc : cl.kind ∈ tagCloses) (hb : BodyOk toks c b ys)
    (ho' : o'.kind ∈ tagOpens) (he : e'.kind = T!"endcomponent") (hc' : cl'.kind ∈ tagCloses) :
    TagOk toks c (o :: k :: t :: (u ++ cl :: (b ++ [o', e', cl'])))
        (.node .TWIG_COMPONENT [.node .TWIG_COMPONENT_STARTING_BLOCK (o.tree :: k.tree :: nameTree t :: (xs ++ [cl.tree])),
          .node .BODY ys, .node .TWIG_COMPONENT_ENDING_BLOCK [o'.tree, e'.tree, cl'.tree]]) := by
  refine TagRun.ok (fun n hn p ch F v m Q hq => ?_) ho (mem1 hk)
  simp only [List.length_append, List.append_assoc, List.cons_append, List.nil_append, List.length_cons] at hn ⊢
  dispatch (mem1 hk)
  refine fun s h => .bind (.bind (h.bump_ fun s h => .bind (Gives.ifNone (name_gives (.inl ht.text)) h trivial fun s h => .bind ?_)))
  rcases hu with ⟨rfl, rfl⟩ | ⟨i, w, x, hi, hx, rfl, rfl⟩
  · refine h.whenF (Sees.at1 _) (atS_no hc) fun s h => .bind (h.expectAny_ hc fun s h => ?_)
    exact blockRest hb (by simp at hn; omega) (Sees.tag _) ho' he (by simp) (.inr ⟨hctx, by decide⟩) hc' h (fun c s h => .pure (hq _ _ (by simpa using h)))
  · simp only [List.length_cons] at hn
    refine h.whenT (Sees.at1 _) (atS_yes (mem1 hi)) fun s h => .bind (h.bump_ fun s h => h.ifT (Sees.at1 _) (hx.starts.append _).yes fun s h => ?_)
    refine Gives1.discard (hx.run n (by omega)) h trivial fun s h => .bind (h.expectAny_ hc fun s h => ?_)
    exact blockRest hb (by omega) (Sees.tag _) ho' he (by simp) (.inr ⟨hctx, by decide⟩) hc' h (fun c s h => .pure (hq _ _ (by simpa using h)))

theorem importTag_ok {o k a t cl : Token} (ho : o.kind ∈ tagOpens) (hk : k.kind ∈ [T!"import", T!"sw_import"])
    (hx : AnyExpr toks u x) (ha : a.kind = T!"as") (ht : IsName t) (hc : cl.kind ∈ tagCloses) :
    TagOk toks c (o :: k :: (u ++ [a, t, cl])) (.node .TWIG_IMPORT [o.tree, k.tree, x, a.tree, nameTree t, cl.tree]) := by
  refine TagRun.ok (fun n hn p ch F v m Q hq => ?_) ho hk
  simp only [List.length_append, List.append_assoc, List.cons_append, List.nil_append, List.length_cons] at hn ⊢
  dispatch hk
  exact fun s h => .bind (.bind (h.bump_ fun s h => .bind (hx.recover (by omega) h (.of (mem_sub (mem1 ha))) fun s h =>
    .bind (h.expect_ ha fun s h => .bind (Gives.orRecover (name_gives (.inl ht.text)) h trivial fun s h =>
    .bind (h.expectAny_ hc fun s h => h.complete fun s h => .pure (hq _ _ (by simpa using h))))))))

/-! ## Blocks and macros -/

theorem block_ok {o k t cl o' e' cl' : Token} (ho : o.kind ∈ tagOpens) (hk : k.kind = T!"block") (ht : t.kind = T!"word")
    (hc : cl.kind ∈ tagCloses) (hb : BodyOk toks c b xs)
    (ho' : o'.kind ∈ tagOpens) (he : e'.kind = T!"endblock") (hu : OptTok T!"word" u ys) (hut : ∀ t' ∈ u, t'.text = t.text)
    (hc' : cl'.kind ∈ tagCloses) :
    TagOk toks c (o :: k :: t :: cl :: (b ++ o' :: e' :: (u ++ [cl'])))
        (.node .TWIG_BLOCK [.node .TWIG_STARTING_BLOCK [o.tree, k.tree, t.tree, cl.tree], .node .BODY xs,
          .node .TWIG_ENDING_BLOCK (o'.tree :: e'.tree :: (ys ++ [cl'.tree]))]) := by
  refine TagRun.ok (fun n hn p ch F v m Q hq => ?_) ho (mem1 hk)
  simp only [List.length_append, List.append_assoc, List.cons_append, List.nil_append, List.length_cons] at hn ⊢
  dispatch (mem1 hk)
  refine fun s h => .bind (.bind (h.bump_ fun s h => .bind (h.expect ht fun s h => .bind (h.ifF (Sees.atSet _).not ?_ fun s h =>
    .pure (.bind (h.expectAny_ hc fun s h => .bind (h.complete fun s h => .bind (h.precede fun m' s h => .bind ?_))))))))
  · rw [atS_yes hc]; rfl
  refine h.whenT (.pure true) rfl fun s h => .bind (hb.body (by omega) (Sees.tag _) ho' (mem1 he) (by rw [he]; exact .inl (by decide)) h fun s h => ?_)
  exact namedEndBlock ho' he hu hut hc' h fun s h => h.complete fun s h => .pure (hq _ _ (by simpa using h))

theorem shortBlock_ok {o k t cl : Token} (ho : o.kind ∈ tagOpens) (hk : k.kind = T!"block") (ht : t.kind = T!"word")
    (hx : AnyExpr toks u x) (hc : cl.kind ∈ tagCloses) :
    TagOk toks c (o :: k :: t :: (u ++ [cl]))
        (.node .TWIG_BLOCK [.node .TWIG_STARTING_BLOCK [o.tree, k.tree, t.tree, x, cl.tree]]) := by
  refine TagRun.ok (fun n hn p ch F v m Q hq => ?_) ho (mem1 hk)
  simp only [List.length_append, List.append_assoc, List.cons_append, List.nil_append, List.length_cons] at hn ⊢
  dispatch (mem1 hk)
  refine fun s h => .bind (.bind (h.bump_ fun s h => .bind (h.expect ht fun s h => .bind (h.ifT (Sees.atSet _).not ?_ fun s h =>
    .bind (hx.run n (by omega) h (.of (mem_sub hc)) fun c s h => .pure (.bind (h.expectAny_ hc fun s h => .bind (h.complete fun s h => .bind (h.precede fun m' s h => .bind ?_)))))))))
  · rw [(hx.starts.append _).no]; rfl
  exact h.whenF (.pure false) rfl fun s h => h.complete fun s h => .pure (hq _ _ (by simpa using h))

theorem macroTag_ok {o k t cl o' e' cl' : Token} (ho : o.kind ∈ tagOpens) (hk : k.kind = T!"macro") (ht : t.kind = T!"word")
    (ha : ArgsShape toks u x)
    (hc : cl.kind ∈ tagCloses) (hb : BodyOk toks c b xs)
    (ho' : o'.kind ∈ tagOpens) (he : e'.kind = T!"endmacro") (hu : OptTok T!"word" w ys) (hut : ∀ t' ∈ w, t'.text = t.text)
    (hc' : cl'.kind ∈ tagCloses) :
    TagOk toks c (o :: k :: t :: (u ++ cl :: (b ++ o' :: e' :: (w ++ [cl']))))
        (.node .TWIG_MACRO [.node .TWIG_MACRO_STARTING_BLOCK [o.tree, k.tree, t.tree, x, cl.tree], .node .BODY xs,
          .node .TWIG_MACRO_ENDING_BLOCK (o'.tree :: e'.tree :: (ys ++ [cl'.tree]))]) := by
  refine TagRun.ok (fun n hn p ch F v m Q hq => ?_) ho (mem1 hk)
  obtain ⟨l, j, z, as, r, hl, hw, hr, rfl, rfl⟩ := ha
  simp only [List.length_append, List.append_assoc, List.cons_append, List.nil_append, List.length_cons] at hn ⊢
  dispatch (mem1 hk)
  refine fun s h => .bind (.bind (h.bump_ fun s h => .bind (h.expect ht fun s h => .bind (h.start fun m2 s h =>
    .bind (h.expect_ hl fun s h => .bind ?_)))))
  refine arguments_loop (Sees.atSet _) (by simp) (by decide +kernel) hw (by omega) hr h fun s h => ?_
  refine .bind (h.expect_ hr fun s h => .bind (h.complete_ fun s h => .bind (h.expectAny_ hc fun s h => .bind (h.complete fun s h =>
    .bind (h.precede fun m' s h => .bind ?_)))))
  refine hb.body (by omega) (Sees.tag _) ho' (mem1 he) (by rw [he]; exact .inl (by decide)) h fun s h => .bind ?_
  exact namedEndBlock ho' he hu hut hc' h fun s h => h.complete fun s h => .pure (hq _ _ (by simpa using h))

/-! ## Conditions -/

/-- The branches of an `if` are taken, with the bodies behind them. -/
structure BranchesOk (toks : List Token) (c : Ctx) (w : List Token) (ys : List Tree) : Prop where
  starts : w = [] ∨ ∃ o k r, w = o :: k :: r ∧ o.kind ∈ tagOpens ∧ k.kind ∈ [T!"elseif", T!"else"]
  run : ∀ n, w.length < n → ∀ {fuel s p ch F o e v} {Q : Unit → PState → Prop},
    At toks s ((p, ch) :: F) (w ++ o :: e :: v) → o.kind ∈ tagOpens → e.kind = T!"endif" → w.length + v.length + 2 ≤ fuel →
    (∀ s', At toks s' ((p, ch ++ anon ys) :: F) (o :: e :: v) → Q () s') →
    Run (parseIfBranch (knot n)) s (fun r s => Run (if r then loopP (parseIfStep (knot n) (childOf c n)) fuel () else pure ()) s Q)

theorem BranchesOk.head (h : BranchesOk toks c w ys) {o e' : Token} (ho : o.kind ∈ tagOpens) (he : e'.kind = T!"endif") :
    ∃ o' k r, w ++ o :: e' :: v = o' :: k :: r ∧ o'.kind ∈ tagOpens ∧ k.kind ∈ [T!"endif", T!"elseif", T!"else"] := by
  rcases h.starts with rfl | ⟨o', k, r, rfl, h1, h2⟩
  · exact ⟨o, e', v, rfl, ho, by simp [he]⟩
  · exact ⟨o', k, _, rfl, h1, List.mem_cons_of_mem _ h2⟩

theorem atTag_yes {E : List SyntaxKind} {o k : Token} (ho : o.kind ∈ tagOpens) (hk : k.kind ∈ E) : atTag E (o :: k :: v) = true := by
  simp only [atTag, secondK_cons, atS_mem ho, List.contains_iff_mem.2 hk, Bool.and_self]

theorem atTag_no {E : List SyntaxKind} {o k : Token} (hk : k.kind ∉ E) : atTag E (o :: k :: v) = false := by
  have : E.contains k.kind = false := by
    cases h' : E.contains k.kind with
    | false => rfl
    | true => exact absurd (List.contains_iff_mem.1 h') hk
  simp only [atTag, secondK_cons, this, Bool.and_false]

theorem noBranch_ok : BranchesOk toks c [] [] := by
  refine ⟨.inl rfl, fun n hn fuel s p ch F o e v Q h ho he hf hq => ?_⟩
  exact h.ifT (Sees.tag _) (atTag_yes ho (mem1 he)) fun s h => .pure (.pure (hq _ (by simpa using h)))

/-- A body and the branches behind it. -/
theorem BranchesOk.step (hw : BranchesOk toks c w ys) (hb : BodyOk toks c b xs) (hn : b.length + w.length < n) {fuel : Nat}
    {o e' : Token} (h : At toks s ((p, ch) :: F) (b ++ (w ++ o :: e' :: v))) (ho : o.kind ∈ tagOpens) (he : e'.kind = T!"endif")
    (hf : b.length + w.length + v.length + 2 < fuel) {Q : Unit → PState → Prop}
    (hq : ∀ s', At toks s' ((p, ch ++ anon (.node .BODY xs :: ys)) :: F) (o :: e' :: v) → Q () s') :
    Run (loopP (parseIfStep (knot n) (childOf c n)) fuel ()) s Q := by
  cases fuel with
  | zero => omega
  | succ fuel =>
    obtain ⟨o', k, r, e1, h1, h2⟩ := hw.head (v := v) ho he
    rw [e1] at h
    refine .bind (.bind (hb.body (by omega) ((Sees.tag _).orTag ((Sees.tag _).orTag (Sees.tag _))) h1 h2 (.inl (mem_sub h2)) h
      fun s1 h3 => .bind ?_))
    rw [← e1] at h3
    exact (hw.run n (by omega) h3 ho he (fuel := fuel) (by omega) (fun s h => hq s (by simpa using h))).mono fun r s h => .pure h

theorem elseIf_ok {o k cl : Token} (ho : o.kind ∈ tagOpens) (hk : k.kind = T!"elseif") (hx : AnyExpr toks u x)
    (hc : cl.kind ∈ tagCloses) (hb : BodyOk toks c b xs) (ih : BranchesOk toks c w ys) :
    BranchesOk toks c (o :: k :: (u ++ cl :: (b ++ w)))
      (.node .TWIG_ELSE_IF_BLOCK [o.tree, k.tree, x, cl.tree] :: .node .BODY xs :: ys) := by
  refine ⟨.inr ⟨o, k, _, rfl, ho, by simp [hk]⟩, fun n hn fuel s p ch F o' e v Q h ho' he hf hq => ?_⟩
  simp only [List.length_append, List.append_assoc, List.cons_append, List.length_cons] at hn hf h
  refine h.ifF (Sees.tag _) (atTag_no (by simp [hk])) fun s h => h.ifT (Sees.tag _) (atTag_yes ho (mem1 hk)) fun s h =>
    .bind (h.start fun m s h => .bind (h.bump_ fun s h => .bind (h.bump_ fun s h => .bind (hx.recover (by omega) h (.of (mem_sub hc)) fun s h =>
    .bind (h.expectAny_ hc fun s h => .bind (h.complete_ fun s h => .pure ?_))))))
  exact ih.step hb (by omega) h ho' he (by omega) fun s h => hq s (by simpa using h)

theorem else_ok {o k cl : Token} (ho : o.kind ∈ tagOpens) (hk : k.kind = T!"else")
    (hc : cl.kind ∈ tagCloses) (hb : BodyOk toks c b xs) (ih : BranchesOk toks c w ys) :
    BranchesOk toks c (o :: k :: cl :: (b ++ w))
      (.node .TWIG_ELSE_BLOCK [o.tree, k.tree, cl.tree] :: .node .BODY xs :: ys) := by
  refine ⟨.inr ⟨o, k, _, rfl, ho, by simp [hk]⟩, fun n hn fuel s p ch F o' e v Q h ho' he hf hq => ?_⟩
  simp only [List.length_append, List.append_assoc, List.cons_append, List.length_cons] at hn hf h
  refine h.ifF (Sees.tag _) (atTag_no (by simp [hk])) fun s h => h.ifF (Sees.tag _) (atTag_no (by simp [hk])) fun s h =>
    h.ifT (Sees.tag _) (atTag_yes ho (mem1 hk)) fun s h =>
    .bind (h.start fun m s h => .bind (h.bump_ fun s h => .bind (h.bump_ fun s h =>
    .bind (h.expectAny_ hc fun s h => .bind (h.complete_ fun s h => .pure ?_)))))
  exact ih.step hb (by omega) h ho' he (by omega) fun s h => hq s (by simpa using h)

theorem ifTag_ok {o k cl o' e' cl' : Token} (ho : o.kind ∈ tagOpens) (hk : k.kind = T!"if") (hx : AnyExpr toks u x)
    (hc : cl.kind ∈ tagCloses) (hb : BodyOk toks c b xs) (hw : BranchesOk toks c w ys) (ho' : o'.kind ∈ tagOpens)
    (he : e'.kind = T!"endif") (hc' : cl'.kind ∈ tagCloses) :
    TagOk toks c (o :: k :: (u ++ cl :: (b ++ (w ++ [o', e', cl']))))
        (.node .TWIG_IF (.node .TWIG_IF_BLOCK [o.tree, k.tree, x, cl.tree] :: .node .BODY xs ::
          (ys ++ [.node .TWIG_ENDIF_BLOCK [o'.tree, e'.tree, cl'.tree]]))) := by
  refine TagRun.ok (fun n hn p ch F v m Q hq => ?_) ho (mem1 hk)
  simp only [List.length_append, List.append_assoc, List.cons_append, List.nil_append, List.length_cons] at hn ⊢
  dispatch (mem1 hk)
  refine fun s h => .bind (.bind (h.bump_ fun s h => .bind (hx.recover (by omega) h (.of (mem_sub hc)) fun s h =>
    .bind (h.expectAny_ hc fun s h => .bind (h.complete fun s h => .bind (h.precede fun m' s h => .bind ?_))))))
  refine .bind ⟨_, _, rfl, ?_⟩
  have hl := h.length_le
  simp only [List.length_append, List.length_cons] at hl
  refine hw.step hb (by omega) h ho' he (by simp only [List.length_cons]; omega) fun s h => .bind (endBlock ho' he hc' h fun s h =>
    h.complete fun s h => .pure (hq _ _ (by simpa using h)))

/-! ## Loops -/

/-- The variables of a loop. -/
def ForShape (u : List Token) (xs : List Tree) : Prop :=
  ∃ t, IsName t ∧ ((u = [t] ∧ xs = [nameTree t]) ∨
    ∃ d t', d.kind = T!"," ∧ IsName t' ∧ u = [t, d, t'] ∧ xs = [nameTree t, d.tree, nameTree t'])

theorem ForShape.run (hu : ForShape u xs) : GivesU toks parseForVariables u xs (HeadIn [T!"in"]) := by
  intro s p ch F v Q h hf hk
  obtain ⟨t, ht, ⟨rfl, rfl⟩ | ⟨d, t', hd, ht', rfl, rfl⟩⟩ := hu
  · exact .bind (Gives.orRecover (name_gives (.inl ht.text)) h trivial fun s h => h.whenF (Sees.at1 _) hf.no fun s h => hk s h)
  · refine .bind (Gives.orRecover (name_gives (.inl ht.text)) (u := [t]) (v := d :: t' :: v) h trivial fun s h => ?_)
    refine h.whenT (Sees.at1 _) (atS_yes (mem1 hd)) fun s h => .bind (h.bump_ fun s h => ?_)
    exact Gives.orRecover (name_gives (.inl ht'.text)) (u := [t']) (v := v) h trivial fun s h => hk s (by simpa using h)

/-- The `else` of a loop. -/
def ElseShape (toks : List Token) (c : Ctx) (u : List Token) (xs : List Tree) : Prop :=
  (u = [] ∧ xs = []) ∨ ∃ o k cl b bs, o.kind ∈ tagOpens ∧ k.kind = T!"else" ∧ cl.kind ∈ tagCloses ∧ BodyOk toks c b bs ∧
    u = o :: k :: cl :: b ∧ xs = [.node .TWIG_FOR_ELSE_BLOCK [o.tree, k.tree, cl.tree], .node .BODY bs]

theorem ElseShape.head (hu : ElseShape toks c u xs) {o e' : Token} (ho : o.kind ∈ tagOpens) (he : e'.kind = T!"endfor") :
    ∃ o' k r, u ++ o :: e' :: v = o' :: k :: r ∧ o'.kind ∈ tagOpens ∧ k.kind ∈ [T!"endfor", T!"else"] := by
  rcases hu with ⟨rfl, rfl⟩ | ⟨o', k, cl, b, bs, h1, h2, h3, h4, rfl, rfl⟩
  · exact ⟨o, e', v, rfl, ho, by simp [he]⟩
  · exact ⟨o', k, _, rfl, h1, by simp [h2]⟩

theorem ElseShape.run (hu : ElseShape toks c u xs) (hn : u.length ≤ n) {o e' : Token} (ho : o.kind ∈ tagOpens) (he : e'.kind = T!"endfor")
    (h : At toks s ((p, ch) :: F) (u ++ o :: e' :: v)) {Q : Unit → PState → Prop}
    (hq : ∀ s', At toks s' ((p, ch ++ anon xs) :: F) (o :: e' :: v) → Q () s') : Run (parseForElse (childOf c n)) s Q := by
  rcases hu with ⟨rfl, rfl⟩ | ⟨o', k, cl, b, bs, h1, h2, h3, h4, rfl, rfl⟩
  · exact h.whenF (Sees.tag _) (atTag_no (by simp [he])) fun s h => hq s (by simpa using h)
  · simp only [List.length_cons] at hn
    refine h.whenT (Sees.tag _) (atTag_yes h1 (mem1 h2)) fun s h => .bind (h.start fun m s h => .bind (h.bump_ fun s h => .bind (h.bump_ fun s h =>
      .bind (h.expectAny_ h3 fun s h => .bind (h.complete_ fun s h => ?_)))))
    exact h4.body (by omega) (Sees.tag _) ho (mem1 he) (by rw [he]; exact .inl (by decide)) h fun s h => hq s (by simpa using h)

theorem forTag_ok {o k i cl o' e' cl' : Token} {z : List Token} (ho : o.kind ∈ tagOpens) (hk : k.kind = T!"for") (hu : ForShape u xs)
    (hi : i.kind = T!"in") (hx : AnyExpr toks w x) (hc : cl.kind ∈ tagCloses) (hb : BodyOk toks c b ys) (hz : ElseShape toks c z zs)
    (ho' : o'.kind ∈ tagOpens) (he : e'.kind = T!"endfor") (hc' : cl'.kind ∈ tagCloses) :
    TagOk toks c (o :: k :: (u ++ i :: (w ++ cl :: (b ++ (z ++ [o', e', cl'])))))
        (.node .TWIG_FOR (.node .TWIG_FOR_BLOCK (o.tree :: k.tree :: (xs ++ [i.tree, x, cl.tree])) :: .node .BODY ys ::
          (zs ++ [.node .TWIG_ENDFOR_BLOCK [o'.tree, e'.tree, cl'.tree]]))) := by
  refine TagRun.ok (fun n hn p ch F v m Q hq => ?_) ho (mem1 hk)
  simp only [List.length_append, List.append_assoc, List.cons_append, List.nil_append, List.length_cons] at hn ⊢
  dispatch (mem1 hk)
  refine fun s h => .bind (.bind (h.bump_ fun s h => .bind (hu.run h (.of (mem1 hi)) fun s h => .bind (h.expect_ hi fun s h =>
    .bind (hx.recover (by omega) h (.of (mem_sub hc)) fun s h =>
    .bind (h.expectAny_ hc fun s h => .bind (h.complete fun s h => .bind (h.precede fun m' s h => .bind ?_))))))))
  obtain ⟨o2, k2, r, e1, h1, h2⟩ := hz.head (v := cl' :: v) ho' he
  rw [e1] at h
  refine hb.body (by omega) ((Sees.tag _).orTag (Sees.tag _)) h1 h2 (.inl (mem_sub h2)) h fun s h => .bind ?_
  rw [← e1] at h
  exact hz.run (by omega) ho' he h fun s h => .bind (endBlock ho' he hc' h fun s h =>
    h.complete fun s h => .pure (hq _ _ (by simpa using h)))

/-! ## Assignments -/

theorem counted_run {R : List Token → Tree → Prop} {le : P Bool} {L Z : List SyntaxKind} {item : P (Option CompletedMarker)}
    {N : Nat} {msg : String} (hle : Sees le (atS L))
    (hZ : Z.all (fun k => L.contains k && L.contains k && k != T!"," && k != .TK_UNKNOWN) = true)
    (hstart : ∀ {u x}, R u x → ∃ t w, u = t :: w ∧ t.kind ∉ L ∧ t.kind ≠ .TK_UNKNOWN)
    (hitem : ∀ {u x}, R u x → u.length ≤ N → Gives toks item u x (HeadIn (T!"," :: Z)))
    (hl : ListOk R m u xs) (hN : u.length ≤ N) (h : At toks s ((p, ch) :: F) (u ++ t :: v)) (ht : t.kind ∈ Z)
    {Q : Nat → PState → Prop} (hq : ∀ s', At toks s' ((p, ch ++ anon xs) :: F) (t :: v) → Q m s') :
    Run (parseCounted le item msg) s Q := by
  refine Loops.run (list_loop (f := (· + 1)) (L := L) (E := L) (Z := Z) (N := N) (.of hle) hle hZ hstart ?_ hl hN h ht ?_)
  · intro u x hP hN s p ch F v a Q h hf hq
    exact .bind (hitem hP hN h hf fun c s h => .bind ((hq s h.anon1).mono fun _ _ h => .pure h))
  · intro s h
    rw [iter_add, Nat.zero_add]
    exact hq s h

/-- A name in a list. -/
def NameElem (u : List Token) (x : Tree) : Prop := ∃ t, IsName t ∧ u = [t] ∧ x = nameTree t

theorem not_mem {L set : List SyntaxKind} (h : t.kind ∈ L)
    (hd : L.all (fun k => !set.contains k) = true := by decide +kernel) : t.kind ∉ set := fun h' => by
  have := List.contains_iff_mem.2 h'
  rw [contains_no h hd] at this
  cases this

theorem names_run {msg : String} (hl : ListOk NameElem m u xs) (h : At toks s ((p, ch) :: F) (u ++ t :: v))
    (ht : t.kind ∈ T!"=" :: tagCloses) {Q : Nat → PState → Prop}
    (hq : ∀ s', At toks s' ((p, ch ++ anon xs) :: F) (t :: v) → Q m s') :
    Run (parseCounted atDeclarationsEnd parseTwigName msg) s Q := by
  refine counted_run (R := NameElem) (Z := T!"=" :: tagCloses) (L := [T!"=", T!"%}", T!"-%}", T!"~%}"]) (Sees.atSet _) (by decide +kernel) ?_ ?_ hl (Nat.le_refl _) h ht hq
  · rintro u x ⟨t, ht, rfl, rfl⟩
    exact ⟨t, [], rfl, not_mem ht.1, kind_ne ht.1⟩
  · rintro u x ⟨t, ht, rfl, rfl⟩ _ s p ch F v Q h _ hq
    exact name_gives (.inl ht.text) h trivial hq

theorem exprs_run {msg : String} (hl : ListOk (AnyExpr toks) m u xs) (hn : u.length < n) (h : At toks s ((p, ch) :: F) (u ++ t :: v))
    (ht : t.kind ∈ tagCloses) {Q : Nat → PState → Prop}
    (hq : ∀ s', At toks s' ((p, ch ++ anon xs) :: F) (t :: v) → Q m s') :
    Run (parseCounted atTwigBlockClose (knot n).expr msg) s Q := by
  refine counted_run (R := AnyExpr toks) (Z := tagCloses) (L := tagCloses) (Sees.atSet _) (by decide +kernel) ?_ ?_ hl (Nat.le_refl _) h ht hq
  · intro u x hx
    obtain ⟨t, w, rfl, ht⟩ := hx.starts
    exact ⟨t, w, rfl, not_mem ht, kind_ne ht⟩
  · intro u x hx hN s p ch F v Q h hf hq
    exact hx.run n (by omega) h hf.sub hq

theorem assign_ok {o k e' cl : Token} (ho : o.kind ∈ tagOpens) (hk : k.kind = T!"set") (hu : ListOk NameElem m u xs) (hm : 1 ≤ m)
    (he : e'.kind = T!"=") (hw : ListOk (AnyExpr toks) m w ys) (hc : cl.kind ∈ tagCloses) :
    TagOk toks c (o :: k :: (u ++ e' :: (w ++ [cl])))
        (.node .TWIG_SET [.node .TWIG_SET_BLOCK [o.tree, k.tree, .node .TWIG_ASSIGNMENT (xs ++ e'.tree :: ys), cl.tree]]) := by
  refine TagRun.ok (fun n hn p ch F v m' Q hq => ?_) ho (mem1 hk)
  simp only [List.length_append, List.append_assoc, List.cons_append, List.nil_append, List.length_cons] at hn ⊢
  dispatch (mem1 hk)
  refine fun s h => .bind (.bind (h.bump_ fun s h => .bind (h.start fun m2 s h => .bind (names_run hu h (by simp [he]) fun s h => .bind ?_))))
  refine h.whenF (.pure _) (by simp; omega) fun s h => .bind (h.ifT (Sees.at1 _) (atS_yes (mem1 he)) fun s h => .bind (h.bump_ fun s h => .bind ?_))
  refine exprs_run hw (by omega) h hc fun s h => .bind (h.whenF (.pure _) (by simp) fun s h => .pure (.bind (h.complete_ fun s h =>
    .bind (h.expectAny_ hc fun s h => .bind (h.complete fun s h => .bind (h.precede fun m' s h => .bind ?_))))))
  exact h.whenF (.pure _) rfl fun s h => h.complete fun s h => .pure (hq _ _ (by simpa using h))

theorem capture_ok {o k cl o' e' cl' : Token} (ho : o.kind ∈ tagOpens) (hk : k.kind = T!"set") (hu : ListOk NameElem 1 u xs)
    (hc : cl.kind ∈ tagCloses) (hb : BodyOk toks c b ys) (ho' : o'.kind ∈ tagOpens) (he : e'.kind = T!"endset")
    (hc' : cl'.kind ∈ tagCloses) :
    TagOk toks c (o :: k :: (u ++ cl :: (b ++ [o', e', cl'])))
        (.node .TWIG_SET [.node .TWIG_SET_BLOCK [o.tree, k.tree, .node .TWIG_ASSIGNMENT xs, cl.tree], .node .BODY ys,
          .node .TWIG_ENDSET_BLOCK [o'.tree, e'.tree, cl'.tree]]) := by
  refine TagRun.ok (fun n hn p ch F v m' Q hq => ?_) ho (mem1 hk)
  simp only [List.length_append, List.append_assoc, List.cons_append, List.nil_append, List.length_cons] at hn ⊢
  dispatch (mem1 hk)
  refine fun s h => .bind (.bind (h.bump_ fun s h => .bind (h.start fun m2 s h => .bind (names_run hu h (by simp [hc]) fun s h => .bind ?_))))
  refine h.whenF (.pure _) rfl fun s h => .bind (h.ifF (Sees.at1 _) (atS_no hc) fun s h => .bind (h.whenF (.pure _) rfl fun s h => .pure ?_))
  refine .bind (h.complete_ fun s h => .bind (h.expectAny_ hc fun s h => .bind (h.complete fun s h => .bind (h.precede fun m' s h => .bind ?_))))
  refine h.whenT (.pure _) rfl fun s h => .bind (hb.body (by omega) (Sees.tag _) ho' (mem1 he) (by rw [he]; exact .inl (by decide)) h fun s h => ?_)
  exact endBlock ho' he hc' h fun s h => h.complete fun s h => .pure (hq _ _ (by simpa using h))

/-! ## Imports -/

/-- A name with another name. -/
def OverrideElem (u : List Token) (x : Tree) : Prop :=
  ∃ t, IsName t ∧ ((u = [t] ∧ x = .node .TWIG_OVERRIDE [nameTree t]) ∨
    ∃ a t', a.kind = T!"as" ∧ IsName t' ∧ u = [t, a, t'] ∧ x = .node .TWIG_OVERRIDE [nameTree t, a.tree, nameTree t'])

theorem OverrideElem.run {msg : String} (hx : OverrideElem u x) : Gives1 toks (parseNameAsNameOverride msg) u x (HeadIn (T!"," :: tagCloses)) := by
  intro s p ch F v Q h hf hk
  obtain ⟨t, ht, ⟨rfl, rfl⟩ | ⟨a, t', ha, ht', rfl, rfl⟩⟩ := hx
  · exact .bind (h.start fun m s h => .bind (Gives.orRecover (name_gives (.inl ht.text)) h trivial fun s h => .bind (h.whenF (Sees.at1 _) hf.no fun s h =>
      h.complete fun s h => hk _ s (by simpa using h))))
  · refine .bind (h.start fun m s h => .bind (Gives.orRecover (name_gives (.inl ht.text)) (u := [t]) (v := a :: t' :: v) h trivial fun s h => .bind ?_))
    refine h.whenT (Sees.at1 _) (atS_yes (mem1 ha)) fun s h => .bind (h.bump_ fun s h => ?_)
    exact Gives.orRecover (name_gives (.inl ht'.text)) (u := [t']) (v := v) h trivial fun s h => h.complete fun s h => hk _ s (by simpa using h)

theorem overrides_run {msg msg' : String} (hl : ListOk OverrideElem m u xs) (hm : 1 ≤ m) (h : At toks s ((p, ch) :: F) (u ++ t :: v))
    (ht : t.kind ∈ tagCloses) {Q : Unit → PState → Prop}
    (hq : ∀ s', At toks s' ((p, ch ++ anon xs) :: F) (t :: v) → Q () s') :
    Run (parseOverrides msg msg') s Q := by
  refine .bind (Loops.run (list_loop (P := OverrideElem) (f := (· + 1)) (L := tagCloses) (E := tagCloses) (Z := tagCloses) (N := u.length) (.of (Sees.atSet _)) (Sees.atSet _)
    (by decide +kernel) ?_ ?_ hl (Nat.le_refl _) h ht ?_))
  · rintro u x ⟨t, ht, ⟨rfl, rfl⟩ | ⟨a, t', ha, ht', rfl, rfl⟩⟩
    · exact ⟨t, _, rfl, not_mem ht.1, kind_ne ht.1⟩
    · exact ⟨t, _, rfl, not_mem ht.1, kind_ne ht.1⟩
  · intro u x hP hN s p ch F v a Q h hf hq
    exact .bind (Gives1.discard hP.run h hf fun s h => .bind ((hq s h).mono fun _ _ h => .pure h))
  · intro s h
    rw [iter_add, Nat.zero_add]
    exact h.whenF (.pure _) (by simp; omega) fun s h => hq s h

theorem useTag_ok {o k cl : Token} (ho : o.kind ∈ tagOpens) (hk : k.kind ∈ [T!"use", T!"sw_use"]) (hx : StringOk toks false u x)
    (hc : cl.kind ∈ tagCloses) : TagOk toks c (o :: k :: (u ++ [cl])) (.node .TWIG_USE [o.tree, k.tree, x, cl.tree]) := by
  refine TagRun.ok (fun n hn p ch F v m' Q hq => ?_) ho hk
  simp only [List.length_append, List.append_assoc, List.cons_append, List.nil_append, List.length_cons] at hn ⊢
  dispatch hk
  exact fun s h => .bind (.bind (h.bump_ fun s h => .bind (hx.or (by omega) h trivial fun s h => .bind (h.whenF (Sees.at1 _) (atS_no hc) fun s h =>
    .bind (h.expectAny_ hc fun s h => h.complete fun s h => .pure (hq _ _ (by simpa using h)))))))

theorem useWithTag_ok {o k i cl : Token} (ho : o.kind ∈ tagOpens) (hk : k.kind ∈ [T!"use", T!"sw_use"]) (hx : StringOk toks false u x)
    (hi : i.kind = T!"with") (hw : ListOk OverrideElem m w ys) (hm : 1 ≤ m)
    (hc : cl.kind ∈ tagCloses) :
    TagOk toks c (o :: k :: (u ++ i :: (w ++ [cl]))) (.node .TWIG_USE (o.tree :: k.tree :: x :: i.tree :: (ys ++ [cl.tree]))) := by
  refine TagRun.ok (fun n hn p ch F v m' Q hq => ?_) ho hk
  simp only [List.length_append, List.append_assoc, List.cons_append, List.nil_append, List.length_cons] at hn ⊢
  dispatch hk
  exact fun s h => .bind (.bind (h.bump_ fun s h => .bind (hx.or (by omega) h trivial fun s h => .bind (h.whenT (Sees.at1 _) (atS_yes (mem1 hi)) fun s h =>
    .bind (h.bump_ fun s h => overrides_run hw hm h hc fun s h =>
    .bind (h.expectAny_ hc fun s h => h.complete fun s h => .pure (hq _ _ (by simpa using h))))))))

theorem fromTag_ok {o k i cl : Token} (ho : o.kind ∈ tagOpens) (hk : k.kind ∈ [T!"from", T!"sw_from"]) (hx : AnyExpr toks u x)
    (hi : i.kind ∈ [T!"import", T!"sw_import"]) (hw : ListOk OverrideElem m w ys) (hm : 1 ≤ m)
    (hc : cl.kind ∈ tagCloses) :
    TagOk toks c (o :: k :: (u ++ i :: (w ++ [cl]))) (.node .TWIG_FROM (o.tree :: k.tree :: x :: i.tree :: (ys ++ [cl.tree]))) := by
  refine TagRun.ok (fun n hn p ch F v m' Q hq => ?_) ho hk
  simp only [List.length_append, List.append_assoc, List.cons_append, List.nil_append, List.length_cons] at hn ⊢
  dispatch hk
  exact fun s h => .bind (.bind (h.bump_ fun s h => .bind (hx.recover (by omega) h (.of (mem_sub hi)) fun s h => .bind (h.ifT (Sees.atSet _) (atS_yes hi) fun s h =>
    h.bump_ fun s h => .bind (overrides_run hw hm h hc fun s h =>
    .bind (h.expectAny_ hc fun s h => h.complete fun s h => .pure (hq _ _ (by simpa using h))))))))

/-! ## Properties -/

/-- The declaration of a property. -/
def PropElem (toks : List Token) (u : List Token) (x : Tree) : Prop :=
  ∃ t, IsName t ∧ ((u = [t] ∧ x = .node .TWIG_PROP_DECLARATION [nameTree t]) ∨
    ∃ e w y, e.kind = T!"=" ∧ AnyExpr toks w y ∧ u = t :: e :: w ∧ x = .node .TWIG_PROP_DECLARATION [nameTree t, e.tree, y])

theorem propsTag_ok {o k cl : Token} (ho : o.kind ∈ tagOpens) (hk : k.kind = T!"props") (hu : ListOk (PropElem toks) m u xs)
    (hc : cl.kind ∈ tagCloses) :
    TagOk toks c (o :: k :: (u ++ [cl])) (.node .TWIG_PROPS (o.tree :: k.tree :: (xs ++ [cl.tree]))) := by
  refine TagRun.ok (fun n hn p ch F v m' Q hq => ?_) ho (mem1 hk)
  simp only [List.length_append, List.append_assoc, List.cons_append, List.nil_append, List.length_cons] at hn ⊢
  dispatch (mem1 hk)
  refine fun s h => .bind (.bind (h.bump_ fun s h => .bind (Loops.many (list_loop (P := PropElem toks) (f := id) (L := tagCloses)
    (E := [T!"%}", T!"-%}", T!"~%}", T!",", T!"=", T!"</"]) (Z := tagCloses) (N := u.length) (seesUnit (Sees.atSet _)) (Sees.atSet _)
    (by decide +kernel) ?_ ?_ hu (Nat.le_refl _) h hc ?_))))
  · rintro u x ⟨t, ht, ⟨rfl, rfl⟩ | ⟨a, t', _, ha, ht', rfl, rfl⟩⟩
    · exact ⟨t, _, rfl, not_mem ht.1, kind_ne ht.1⟩
    · exact ⟨t, _, rfl, not_mem ht.1, kind_ne ht.1⟩
  · rintro u x ⟨t, ht, ⟨rfl, rfl⟩ | ⟨e, w, y, he, hy, rfl, rfl⟩⟩ hN s p ch F v a Q h hf hq
    · exact .bind (h.start fun m s h => .bind (Gives.ifNone (name_gives (.inl ht.text)) h trivial fun s h => .bind (h.whenF (Sees.at1 _) hf.no fun s h =>
        .bind (h.complete_ fun s h => hq s (by simpa using h)))))
    · simp only [List.length_cons] at hN
      refine .bind (h.start fun m s h => .bind (Gives.ifNone (name_gives (.inl ht.text)) (u := [t]) (v := e :: (w ++ v)) h trivial fun s h => .bind ?_))
      refine h.whenT (Sees.at1 _) (atS_yes (mem1 he)) fun s h => .bind (h.bump_ fun s h => ?_)
      exact Gives.ifNone (hy.run n (by omega)) h hf.sub fun s h => .bind (h.complete_ fun s h => hq s (by simpa using h))
  · exact fun s h => .bind (h.expectAny_ hc fun s h => h.complete fun s h => .pure (hq _ _ (by simpa using h)))

/-! ## Filters -/

/-- The further filters of `apply` are taken. -/
structure AppliedOk (toks : List Token) (xs : List Tree) (w : List Token) (ys : List Tree) : Prop where
  starts : w = [] ∨ HeadIn [T!"|"] w
  run : ∀ n, w.length ≤ n → ∀ {s p ch F c x0 ys0 cl v} {Q : CompletedMarker → PState → Prop}, xs = x0 :: ys0 →
    At toks s ((p, ch ++ (some c, x0) :: anon ys0) :: F) (w ++ cl :: v) → cl.kind ∈ tagCloses →
    (∀ c' s', At toks s' ((p, ch ++ anon ys) :: F) (cl :: v) → Q c' s') →
    Loops (fun node => do return ((← atTwigBlockClose), node))
      (fun node => ifP (at' T!"|") (parseTwigFilter (knot n) node) (pure node)) c s Q

theorem appliedAll_ok : AppliedOk toks xs [] xs := by
  refine ⟨.inl rfl, fun n hn s p ch F c x0 ys0 cl v Q hxs h hc hk => ?_⟩
  refine Loops.stop (.of (Sees.atSet _)) h (kind_ne hc) (atS_yes hc) fun s h => hk _ _ ?_
  subst hxs
  have := At.forget h
  simpa [anon, Function.comp_def] using this

theorem appliedMore_ok {p' : Token} (hp : p'.kind = T!"|") (hu : FilterShape toks u ys)
    (ih : AppliedOk toks [.node .TWIG_FILTER [.node .TWIG_OPERAND xs, p'.tree, .node .TWIG_OPERAND ys]] w zs) :
    AppliedOk toks xs (p' :: (u ++ w)) zs := by
  refine ⟨.inr (.of (mem1 hp)), fun n hn s p ch F c x0 ys0 cl v Q hxs h hc hk => ?_⟩
  subst hxs
  simp only [List.length_append, List.append_assoc, List.cons_append, List.length_cons] at hn h
  refine Loops.step (.of (Sees.atSet _)) h (kind_ne (mem1 hp)) (atS_no (mem1 hp)) fun s h => h.ifT (Sees.at1 _) (atS_yes (mem1 hp)) fun s h => ?_
  refine filter_run hu (by omega) ?_ h fun c' s h => ⟨_, _, h, by simp, ?_⟩
  · rcases ih.starts with rfl | hw
    · exact atS_no hc
    · exact (hw.append _).no
  · exact ih.run n (by omega) rfl (by simpa using h) hc hk

theorem applyTag_ok {o k cl o' e' cl' : Token} (ho : o.kind ∈ tagOpens) (hk : k.kind = T!"apply") (hu : FilterShape toks u xs)
    (hw : AppliedOk toks xs w ys) (hc : cl.kind ∈ tagCloses) (hb : BodyOk toks c b zs) (ho' : o'.kind ∈ tagOpens) (he : e'.kind = T!"endapply")
    (hc' : cl'.kind ∈ tagCloses) :
    TagOk toks c (o :: k :: (u ++ (w ++ cl :: (b ++ [o', e', cl']))))
        (.node .TWIG_APPLY [.node .TWIG_APPLY_STARTING_BLOCK (o.tree :: k.tree :: (ys ++ [cl.tree])), .node .BODY zs,
          .node .TWIG_APPLY_ENDING_BLOCK [o'.tree, e'.tree, cl'.tree]]) := by
  refine TagRun.ok (fun n hn p ch F v m' Q hq => ?_) ho (mem1 hk)
  simp only [List.length_append, List.append_assoc, List.cons_append, List.nil_append, List.length_cons] at hn ⊢
  have hno : atS [T!"("] (w ++ cl :: (b ++ o' :: e' :: cl' :: v)) = false := by
    rcases hw.starts with rfl | hw
    · exact atS_no hc
    · exact (hw.append _).no
  have rest : ∀ {s}, At toks s ((m', [(none, o.tree), (none, k.tree)] ++ anon ys) :: (p, ch) :: F) (cl :: (b ++ o' :: e' :: cl' :: v)) → _ :=
    fun {s} h => h.expectAny_ (rec := [T!"endapply", T!"</"]) hc (Q := fun _ s => Run (do
      let wrapper ← complete m' .TWIG_APPLY_STARTING_BLOCK
      let wrapper ← precede wrapper
      parseBody (childOf c n) (atTwigTag T!"endapply")
      parseEndBlock T!"endapply" (T!"endapply" :: closeRecovery) closeRecovery [T!"</"]
        .TWIG_APPLY_ENDING_BLOCK
      complete wrapper .TWIG_APPLY) s (fun a s => Run (pure (some a)) s Q)) fun s h =>
        blockRest hb (by omega) (Sees.tag _) ho' he (by simp) (.inl (by decide)) hc' h (fun c s h => .pure (hq _ _ (by simpa using h)))
  dispatch (mem1 hk)
  refine fun s h => .bind (.bind (h.bump_ fun s h => .bind ?_))
  obtain ⟨t, ht, ⟨rfl, rfl⟩ | ⟨z, a, ha, rfl, rfl⟩⟩ := hu
  · refine .bind (h.parseName (.inl ht.text) fun m s h => .bind (h.whenF (Sees.at1 _) hno fun s h => .discard (Loops.run ?_)))
    exact hw.run n (by omega) rfl (ch := [(none, o.tree), (none, k.tree)]) (ys0 := []) (by simpa using h) hc fun c s h => .bind (rest (by simpa using h))
  · simp only [List.length_cons] at hn
    obtain ⟨l, j, z, as, r, hl, hlist, hr, rfl, rfl⟩ := ha
    simp only [List.length_append, List.append_assoc, List.cons_append, List.nil_append, List.length_cons] at hn h
    refine .bind (h.parseName (.inl ht.text) fun m s h => .bind (h.whenT (Sees.at1 _) (atS_yes (mem1 hl)) fun s h => ?_))
    refine .bind (h.start fun m2 s h => .bind (h.bump_ fun s h => .bind ?_))
    refine arguments_loop (Sees.atSet _) (by simp) (by decide +kernel) hlist (by omega) hr h fun s h => ?_
    refine .bind (h.expect_ hr fun s h => h.complete_ fun s h => .discard (Loops.run ?_))
    exact hw.run n (by omega) rfl (ch := [(none, o.tree), (none, k.tree)]) (by simpa using h) hc fun c s h => .bind (rest (by simpa using h))

end Ludtwig.Template
