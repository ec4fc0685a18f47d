import Verif.Template.Operands

/-!
# Expressions in parentheses (proof device for C73)

Behind `(` the code takes a name before it knows whether an arrow function follows, and then goes on
with the same steps that an expression starting with this name takes.
-/

namespace Ludtwig.Template

variable {toks : List Token} {s s' : PState} {p q c : Nat} {ch dh : List Child}
  {F : List (Nat × List Child)} {t : Token} {v w u : List Token} {x y : Tree} {xs : List Tree} {k : SyntaxKind}
  {n m : Nat} {d i : Bool} {e : Tail} {K : Knot}

/-- The state behind the trivia. -/
def norm (s : PState) : PState := { s with rest := dropTrivia s.rest }

theorem norm_rest (s : PState) : dropTrivia (norm s).rest = (norm s).rest := dropTrivia_idem _

theorem peekToken_norm (s : PState) : peekToken (norm s) = peekToken s := by
  unfold peekToken norm
  dsimp only
  rw [dropTrivia_idem]

theorem bind_norm {f : P α} {g : α → P β} (h : f (norm s) = f s) : (f >>= g) (norm s) = (f >>= g) s := by
  show P.bind f g _ = P.bind f g _
  unfold P.bind
  rw [h]

theorem at_norm (s : PState) (k : SyntaxKind) : at' k (norm s) = at' k s := bind_norm (bind_norm (peekToken_norm s))

theorem ifAt_norm {a b : P α} (s : PState) : ifP (at' k) a b (norm s) = ifP (at' k) a b s := bind_norm (at_norm s k)

theorem Run.congr {f g : P α} {Q : α → PState → Prop} (h : f s = g s') (hr : Run f s Q) : Run g s' Q := by
  obtain ⟨a, s2, h1, h2⟩ := hr
  exact ⟨a, s2, by rw [← h]; exact h1, h2⟩

theorem Run.and {f : P α} {Q R : α → PState → Prop} (h : Run f s Q) (h' : Run f s R) :
    Run f s (fun a s => Q a s ∧ R a s) := by
  obtain ⟨a, s2, h1, h2⟩ := h
  obtain ⟨b, s3, h3, h4⟩ := h'
  rw [h1] at h3
  cases h3
  exact ⟨a, s2, h1, h2, h4⟩

theorem Sees.eq {f : P α} {φ : List Token → α} (hf : Sees f φ) (hn : dropTrivia s.rest = s.rest) :
    f s = .ok (φ (significant s.rest), s) := by
  obtain ⟨r, h1, h2⟩ := hf s
  have : r = s.rest := by rcases h2 with rfl | rfl; rfl; exact hn
  rw [h1, this]

theorem Sees.unbind {f : P α} {φ : List Token → α} (hf : Sees f φ) {g : α → P β} {Q : β → PState → Prop}
    (hn : dropTrivia s.rest = s.rest) (h : Run (f >>= g) s Q) : Run (g (φ (significant s.rest))) s Q := by
  obtain ⟨a, s2, h1, h2⟩ := h.unbind
  rw [hf.eq hn] at h1
  cases h1
  exact h2

theorem Sees.rebind {f : P α} {φ : List Token → α} (hf : Sees f φ) {g : α → P β} {Q : β → PState → Prop}
    (hn : dropTrivia s.rest = s.rest) (h : Run (g (φ (significant s.rest))) s Q) : Run (f >>= g) s Q :=
  .bind ⟨_, _, hf.eq hn, h⟩

/-- A check of a run that was false. -/
theorem Sees.other {c : P Bool} {φ : List Token → Bool} (hc : Sees c φ) {a b : P α} {Q : α → PState → Prop}
    (hn : dropTrivia s.rest = s.rest) (hs : significant s.rest = v) (hv : φ v = false) (h : Run (ifP c a b) s Q) :
    Run b s Q := by
  have := hc.unbind hn h
  rw [hs, hv, if_neg (by simp)] at this
  exact this

/-- The steps behind a name. -/
def parenRest (K : Knot) (name : CompletedMarker) : P CompletedMarker := do
  let node ← ifP (at' T!"(") (parseTwigFunction K name) (pure name)
  let node ← parsePostfixOperators K node
  let lhs ← wrap node .TWIG_EXPRESSION
  parseBindingPowerRhs K 0 lhs

theorem name_back (h : At toks s ((p, ch) :: F) (t :: w)) (hn : dropTrivia s.rest = s.rest) (ht : IsVariable t)
    (hw : atS [T!"=>"] w = false) {Q : Option CompletedMarker → PState → Prop} (hr : Run (parseExpressionBp K 0) s Q) :
    Run parseTwigName s (fun o s3 => ∃ m, o = some m ∧ At toks s3 ((p, ch ++ [(some m, nameTree t)]) :: F) w ∧
      Run (parenRest K m) (norm s3) (fun c => Q (some c))) := by
  have hv := h.view
  have ho := ht.operand
  have h1 := Sees.other (Sees.at1 _) hn hv (atS_no ho) hr.unbind
  have h1 := (Sees.other (Sees.atSet _) hn hv (atS_no ho) h1).unbind
  have h1 := Sees.other (Sees.at1 _) hn hv (atS_no ho) h1
  have h1 := Sees.other (Sees.atSet _) hn hv (atS_no ho) h1
  have h1 := Sees.other (Sees.at1 _) hn hv (atS_no ho) h1
  have h1 := Sees.other (Sees.at1 _) hn hv (atS_no ho) h1
  have h1 := Sees.other (Sees.atSet _) hn hv (atS_no ho) h1
  have h1 := Sees.other (Sees.at1 _) hn hv (atS_no ho) h1
  have h1 := (Sees.peek.unbind hn h1).unbind
  rw [hv] at h1
  refine (h1.and (h.parseName (.inl ht.1.text)
    (Q := fun o s => ∃ m, o = some m ∧ At toks s ((p, ch ++ [(some m, nameTree t)]) :: F) w)
    fun m s h => ⟨m, rfl, h⟩)).mono ?_
  rintro o s3 ⟨h2, m, rfl, h3⟩
  refine ⟨m, rfl, h3, ?_⟩
  have h4 := h2.unbind
  have h4 := Run.congr (ifAt_norm s3).symm h4
  have hs : significant (norm s3).rest = w := (significant_dropTrivia _).trans h3.view
  have h5 : Run (ifP (at' T!"(") (parseTwigFunction K m) (pure m)) (norm s3) (fun a s' =>
      Run (Pure.pure (some a) : P (Option CompletedMarker)) s' (fun o s' => Run (match o with
        | none => return none
        | some node => return some (← parsePostfixOperators K node)) s' (fun o s' => Run (match o with
          | none => return none
          | some lhs => do
            let lhs ← wrap lhs .TWIG_EXPRESSION
            return some (← parseBindingPowerRhs K 0 lhs)) s' Q))) := by
    refine (Sees.at' T!"(").rebind (norm_rest _) ?_
    have h5 := (Sees.at' T!"(").unbind (norm_rest _) h4
    split
    · rename_i hc
      rw [hc, if_pos rfl] at h5
      exact h5
    · rename_i hc
      rw [if_neg hc] at h5
      have h6 := Sees.other (Sees.at1 _) (norm_rest _) hs hw h5
      split at h6
      · rename_i hc
        exact absurd hc (name_not_test ht)
      · exact h6
  refine .bind (h5.mono fun a s' h => ?_)
  obtain ⟨_, _, h6, h7⟩ := h
  cases h6
  refine .bind (h7.unbind.mono fun a s' h => ?_)
  obtain ⟨_, _, h6, h7⟩ := h
  cases h6
  refine .bind (h7.unbind.mono fun a s' h => ?_)
  refine h.unbind.mono fun a s' h => ?_
  obtain ⟨_, _, h6, h7⟩ := h
  cases h6
  exact h7

theorem parens_ok {l r : Token} (hl : l.kind = T!"(") (hx : AnyExpr toks u x) (hu : ParenStart u) (hr : r.kind = T!")") :
    PrimaryOk toks (l :: (u ++ [r])) (.node .TWIG_PARENTHESES_EXPRESSION [l.tree, x, r.tree]) := by
  refine ⟨.of (mem_sub (mem1 hl)), fun n hn s p ch F v Q h hf hk => ?_⟩
  simp only [List.length_cons, List.length_append, List.length_nil] at hn
  simp only [List.cons_append, List.append_assoc, List.nil_append] at h
  have hend : HeadIn anyEnds (r :: v) := .of (mem_sub (mem1 hr))
  refine h.ifT (Sees.at1 _) (atS_yes (mem1 hl)) fun s h => .bind (.bind (h.start fun m s h => .bind (h.bump_ fun s h => .bind ?_)))
  -- the part between the parentheses
  suffices hi : Run (parseParenInner (knot n)) s (fun b s => b = false ∧
      At toks s ((m, [(none, l.tree), (none, x)]) :: (p, ch) :: F) (r :: v)) by
    refine hi.mono ?_
    rintro _ s ⟨rfl, h⟩
    rw [if_neg (by simp)]
    refine .bind (h.expect_ hr fun s h => .pure ?_)
    rw [if_pos rfl]
    refine .bind (h.complete fun s h => .bind ((hk _ _ (by simpa using h)).mono fun _ _ h => .pure h))
  obtain ⟨t, w, rfl, ht⟩ := hx.starts
  have other : ∀ s, At toks s ((m, [(none, l.tree)]) :: (p, ch) :: F) (t :: w ++ r :: v) →
      Run (do discard' ((knot n).exprBp 0); return false) s (fun b s => b = false ∧
      At toks s ((m, [(none, l.tree), (none, x)]) :: (p, ch) :: F) (r :: v)) := fun s h =>
    .bind (Gives.discard (hx.run n (by omega)) h hend fun s h => .pure ⟨rfl, by simpa using h⟩)
  -- the state behind the blanks
  have hp : peek s = peek (norm s) := (bind_norm (peekToken_norm s)).symm
  suffices hi : Run (parseParenInner (knot n)) (norm s) (fun b s => b = false ∧
      At toks s ((m, [(none, l.tree), (none, x)]) :: (p, ch) :: F) (r :: v)) from
    Run.congr (bind_norm hp.symm) hi
  have h : At toks (norm s) ((m, [(none, l.tree)]) :: (p, ch) :: F) (t :: w ++ r :: v) := h.skip (.inr rfl)
  have hn' := norm_rest s
  generalize norm s = s at h hn'
  by_cases hpre : t.kind ∈ prefixKinds
  · refine Sees.peek.rebind hn' ?_
    rw [h.view]
    have : unaryBindingPower t.kind ≠ none := by
      have key : ∀ k ∈ prefixKinds, unaryBindingPower k ≠ none := by decide +kernel
      exact key _ hpre
    simp only [List.cons_append, List.head?_cons, Option.map_some]
    cases hb : unaryBindingPower t.kind with
    | none => exact absurd hb this
    | some b => exact other s h
  have hun : unaryBindingPower t.kind = none := by
    have key : ∀ k ∈ exprStarts, k ∉ prefixKinds → unaryBindingPower k = none := by decide +kernel
    exact key _ ht hpre
  cases hname : isTwigName t.text with
  | false =>
    refine Sees.peek.rebind hn' ?_
    rw [h.view]
    simp only [List.cons_append, List.head?_cons, Option.map_some, hun]
    refine .bind (h.noName ?_ fun s h => other s h)
    intro t' ht'
    cases ht'
    exact ⟨hname, hu.1⟩
  | true =>
    obtain ⟨hvar, hnext⟩ := (hu.2 (twigName_iff.2 hname)).resolve_left hpre
    have hw : atS [T!"=>"] (w ++ r :: v) = false ∧ (atS [T!","] (w ++ r :: v) || follows [T!")", T!"=>"] (w ++ r :: v)) = false := by
      cases w with
      | nil =>
        refine ⟨atS_no (mem1 hr), ?_⟩
        rw [List.nil_append, atS_no (mem1 hr), Bool.false_or]
        refine follows_second fun t' ht' h' => ?_
        cases v with
        | nil => cases ht'
        | cons t1 v =>
          cases ht'
          simp [h'] at hf
      | cons t' w =>
        have h1 := hnext t' rfl
        simp only [List.mem_cons, List.not_mem_nil, or_false, not_or] at h1
        refine ⟨by simpa using h1.1, ?_⟩
        rw [List.cons_append, follows_first h1.2.2, Bool.or_false]
        simpa using h1.2.1
    have hrun : Run ((knot (n + 1)).exprBp 0) s (fun o s => ∃ c, o = some c ∧
        At toks s ((m, [(none, l.tree), (some c, x)]) :: (p, ch) :: F) (r :: v)) :=
      hx.run (n + 1) (by omega) h hend fun c s h => ⟨c, rfl, by simpa using h⟩
    have hb := name_back h hn' hvar hw.1 (K := knot n) hrun
    refine Sees.peek.rebind hn' ?_
    rw [h.view]
    simp only [List.cons_append, List.head?_cons, Option.map_some, hun]
    refine .bind (hb.mono ?_)
    rintro _ s3 ⟨m', rfl, h3, h4⟩
    have hs : significant (norm s3).rest = w ++ r :: v := (significant_dropTrivia _).trans h3.view
    refine Run.congr (s := norm s3) (bind_norm (bind_norm (at_norm s3 T!","))) ?_
    refine ((Sees.at1 T!",").or (Sees.atFollowing _)).rebind (norm_rest _) ?_
    rw [hs, hw.2, if_neg (by simp)]
    refine .bind (h4.unbind.mono fun _ s h => .bind (h.unbind.mono fun _ s h => .bind (h.unbind.mono fun _ s h => .bind
      (.discard (h.mono ?_)))))
    rintro _ s ⟨c, _, h⟩
    exact .pure ⟨rfl, At.anon1 (ch := [(none, l.tree)]) h⟩

end Ludtwig.Template
