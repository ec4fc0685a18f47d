import Verif.Template.Tags

/-!
# Bodies, attributes and elements (proof device for C73)
-/

namespace Ludtwig.Template

variable {toks : List Token} {s s' : PState} {p q : Nat} {ch dh : List Child}
  {F : List (Nat × List Child)} {t : Token} {v w u b : List Token} {x y : Tree} {xs ys zs bs : List Tree} {k : SyntaxKind}
  {n m : Nat} {d i : Bool} {e : Tail} {K : Knot} {c : Ctx}

/-! ## Sequences of items -/

/-- The function for one item. -/
def itemOf : Ctx → Nat → P Bool
  | .element, n => do return (← parseAnyElement (knot n)).isSome
  | .attribute, n => do discard' (parseHtmlAttributeOrTwig (knot n)); return true
  | .double, n => do parseAttributeValuePart (knot n) (knot n).innerDouble; return true
  | .single, n => do parseAttributeValuePart (knot n) (knot n).innerSingle; return true
  | .raw, n => do parseRawTextPart (knot n); return true

/-- The child function of a loop takes one item and does not change the captured variable. -/
def TakesItem {σ : Type} (c : Ctx) (n : Nat) (child : σ → P σ) : Prop :=
  ∀ a s (Q : σ → PState → Prop), Run (itemOf c n) s (fun b s => b = true ∧ Q a s) → Run (child a) s Q

/-- The tokens that do not start an item. -/
def stopKinds : Ctx → List SyntaxKind
  | .element => [T!"</"]
  | .attribute => [T!">", T!"/>", T!"=", T!"\"", T!"'"]
  | .double => [T!"\""]
  | .single => [T!"'"]
  | .raw => []

/-- An item starts here. -/
def Start (toks : List Token) (c : Ctx) (v : List Token) : Prop :=
  ∃ t w, v = t :: w ∧ t.kind ∉ .TK_UNKNOWN :: stopKinds c ∧
    (t.kind ∈ tagOpens → ∃ k w', w = k :: w' ∧ k.kind ∉ endKeywords) ∧
    (c = .element → t.kind = T!"<" → IsText (BlankAt toks) t w ∨
      ∃ t' w', w = t' :: w' ∧ Adjacent t t' ∧ noTagStart t'.kind = false)

theorem IsText.append {B : Nat → Prop} (h : IsText B t u) (v : List Token) : IsText B t (u ++ v) := by
  rcases h with h | ⟨h1, h | ⟨n, hn, h2⟩⟩
  · exact .inl h
  · exact .inr ⟨h1, .inl h⟩
  · refine .inr ⟨h1, .inr ⟨n, ?_, h2⟩⟩
    cases u with
    | nil => cases hn
    | cons a u => exact hn

theorem Start.append (h : Start toks c u) (v : List Token) : Start toks c (u ++ v) := by
  obtain ⟨t, w, rfl, h1, h2, h3⟩ := h
  refine ⟨t, w ++ v, rfl, h1, fun h => ?_, fun h h' => ?_⟩
  · obtain ⟨k, w', rfl, h4⟩ := h2 h
    exact ⟨k, w' ++ v, rfl, h4⟩
  · rcases h3 h h' with h4 | ⟨t', w', rfl, h4⟩
    · exact .inl (h4.append v)
    · exact .inr ⟨t', w' ++ v, rfl, h4⟩

theorem Start.not_tag (h : Start toks c v) {E : List SyntaxKind} (hE : E.all (fun k => endKeywords.contains k) = true) :
    atTag E v = false := by
  obtain ⟨t, w, rfl, h1, h2, h3⟩ := h
  by_cases ht : t.kind ∈ tagOpens
  · obtain ⟨k, w', rfl, h4⟩ := h2 ht
    exact atTag_no fun h => h4 (List.contains_iff_mem.1 (List.all_eq_true.1 hE _ h))
  · simp only [atTag, atS_notMem ht, Bool.false_and]

/-- What stands behind the last item. -/
def EndOf : Ctx → List Token → Prop
  | .element, v => v = [] ∨ HeadIn (T!"</" :: tagOpens) v
  | .attribute, v => HeadIn (T!">" :: T!"/>" :: tagOpens) v
  | _, _ => True

/-- The loop ends here. -/
def Stops (φ : List Token → Bool) (v : List Token) : Prop :=
  v = [] ∨ ∃ t w, v = t :: w ∧ t.kind ≠ .TK_UNKNOWN ∧ φ v = true

/-- The items are taken. -/
structure LoopOk (toks : List Token) (c : Ctx) (u : List Token) (xs : List Tree) : Prop where
  nil : u = [] → xs = []
  starts : u = [] ∨ Start toks c u ∨ (c ≠ .attribute ∧ HeadIn [.TK_UNKNOWN] u)
  run : ∀ n, u.length ≤ n → ∀ {σ : Type} {early : σ → P (Bool × σ)} {φ ρ} {child : σ → P σ}, Early early φ ρ →
    TakesItem c n child → ∀ {s p ch F v a} {Q : σ → PState → Prop},
    (∀ pre post, u = pre ++ post → post ≠ [] → Start toks c (post ++ v) → φ (post ++ v) = false) →
    At toks s ((p, ch) :: F) (u ++ v) → EndOf c v → Stops φ v →
    (∀ s', At toks s' ((p, ch ++ anon xs) :: F) v → Q (if v.isEmpty then a else ρ a v) s') → Loops early child a s Q

/-- One item is taken. -/
def ItemOk (toks : List Token) (c : Ctx) (u : List Token) (x : Tree) (fol : List Token → Prop) : Prop :=
  ∀ n, u.length ≤ n → ∀ {s p ch F v} {Q : Bool → PState → Prop}, At toks s ((p, ch) :: F) (u ++ v) → fol v →
    (∀ s', At toks s' ((p, ch ++ [(none, x)]) :: F) v → Q true s') → Run (itemOf c n) s Q

theorem loopEnd_ok : LoopOk toks c [] [] := by
  refine ⟨fun _ => rfl, .inl rfl, fun n _ σ early φ ρ child he hc s p ch F v a Q hgo h hend hstop hq => ?_⟩
  rw [List.nil_append] at h
  rcases hstop with rfl | ⟨t, w, rfl, h1, h2⟩
  · exact Loops.end_ h fun s h => hq s (by simpa using h)
  · exact Loops.stop he h h1 h2 fun s h => hq s (by simpa using h)

theorem loopItem_ok' {fol : List Token → Prop} (hs : Start toks c (u ++ w)) (hne : u ≠ []) (hx : ItemOk toks c u x fol) (ih : LoopOk toks c w xs)
    (hfol : ∀ v, EndOf c v → fol (w ++ v)) : LoopOk toks c (u ++ w) (x :: xs) := by
  refine ⟨fun h => ?_, .inr (.inl hs), fun n hn σ early φ ρ child he hc s p ch F v a Q hgo h hend hstop hq => ?_⟩
  · rw [List.append_eq_nil_iff] at h
    exact absurd h.1 hne
  · have hgo' := hgo [] (u ++ w) rfl (by simp [hne]) (hs.append v)
    rw [List.append_assoc] at h hgo'
    cases u with
    | nil => exact absurd rfl hne
    | cons t u =>
      obtain ⟨t', w', e, h1, _⟩ := hs
      cases e
      simp only [List.length_append, List.length_cons] at hn
      refine Loops.step he h (fun h => h1 (by simp [h])) hgo' fun s h => hc _ _ _ ?_
      refine hx n (by simp; omega) h (hfol v hend) fun s h => ⟨rfl, _, _, h, by simp, ?_⟩
      exact ih.run n (by omega) he hc (fun pre post e => hgo (t :: u ++ pre) post (by rw [e, List.append_assoc])) h hend hstop fun s h =>
        hq s (by simpa using h)

theorem loopItem_ok {fol : List Token → Prop} (hs : Start toks c u) (hx : ItemOk toks c u x fol) (ih : LoopOk toks c w xs)
    (hfol : ∀ v, EndOf c v → fol (w ++ v)) : LoopOk toks c (u ++ w) (x :: xs) :=
  loopItem_ok' (hs.append w) (by obtain ⟨t, w, rfl, _⟩ := hs; simp) hx ih hfol

theorem loopUnknown_ok (hc : c ≠ .attribute) (ht : t.kind = .TK_UNKNOWN) (ih : LoopOk toks c w xs) :
    LoopOk toks c (t :: w) (t.tree :: xs) := by
  refine ⟨fun h => (by cases h), .inr (.inr ⟨hc, .of (mem1 ht)⟩), fun n hn σ early φ ρ child he hc s p ch F v a Q hgo h hend hstop hq => ?_⟩
  simp only [List.length_cons] at hn
  exact Loops.unknown h ht fun s h => ih.run n (by omega) he hc (fun pre post e => hgo (t :: pre) post (by rw [e]; rfl)) h hend hstop fun s h => hq s (by simpa using h)

/-! ## Bodies of tags -/

theorem Run.ofPure {α : Type} {a : α} {Q : α → PState → Prop} (h : Run (Pure.pure a) s Q) : Q a s := by
  obtain ⟨b, s', h1, h2⟩ := h
  cases h1
  exact h2

theorem endOf_tag {o : Token} (ho : o.kind ∈ tagOpens) : EndOf c (o :: v) := by
  cases c
  · exact .inr (.of (List.mem_cons_of_mem _ ho))
  · exact .of (List.mem_cons_of_mem _ (List.mem_cons_of_mem _ ho))
  all_goals trivial

theorem tagStops {E : List SyntaxKind} {o e' : Token} (ho : o.kind ∈ tagOpens) (he : e'.kind ∈ E) : Stops (atTag E) (o :: e' :: v) :=
  .inr ⟨_, _, rfl, kind_ne ho, atTag_yes ho he⟩

theorem bodyEnd_ok : BodyOk toks c [] [] := by
  intro n hn early E he hE s p ch F o e' v Q h ho hk hE' hq
  exact Loops.stop (seesUnit he) h (kind_ne ho) (atTag_yes ho hk) fun s h => hq s (by simpa using h)

theorem element_body (h : LoopOk toks .element b xs) : BodyOk toks .element b xs := by
  intro n hn early E he hE s p ch F o e' v Q h0 ho hk hE' hq
  obtain ⟨n, rfl⟩ : ∃ m, n = m + 1 := ⟨n - 1, by omega⟩
  refine h.run n (by omega) (seesUnit he) ?_ (fun _ _ _ _ hv => hv.not_tag hE) h0 (endOf_tag ho) (tagStops ho hk) fun s h => hq s h
  intro a s Q hr
  exact .discard ((Run.unbind hr).mono fun o s h => (Run.ofPure h).2)

theorem attribute_body (h : LoopOk toks .attribute b xs) : BodyOk toks .attribute b xs := by
  intro n hn early E he hE s p ch F o e' v Q h0 ho hk hE' hq
  obtain ⟨n, rfl⟩ : ∃ m, n = m + 1 := ⟨n - 1, by omega⟩
  refine h.run n (by omega) (seesUnit he) ?_ (fun _ _ _ _ hv => hv.not_tag hE) h0 (endOf_tag ho) (tagStops ho hk) fun s h => hq s h
  intro a s Q hr
  exact (Run.unbind hr).mono fun o s h => (Run.ofPure h).2

theorem EndsIn.termination (h : EndsIn c k) (hc : c ≠ .element) (hc' : c ≠ .attribute) : k ∈ terminationKeywords := by
  rcases h with h | ⟨h | h, _⟩
  · exact h
  · exact absurd h hc
  · exact absurd h hc'

/-- One call of the function for the content of a body takes all of it. -/
theorem once_body {b : List Token} (hb : ∀ t ∈ b.head?, t.kind ≠ .TK_UNKNOWN) (hx : b = [] → xs = [])
    (hs : b = [] ∨ Start toks c b ∨ (c ≠ .attribute ∧ HeadIn [.TK_UNKNOWN] b))
    (hrun : b ≠ [] → ∀ n, b.length < n → ∀ {s p ch F o e v} {Q : Unit → PState → Prop}, At toks s ((p, ch) :: F) (b ++ o :: e :: v) →
      o.kind ∈ tagOpens → EndsIn c e.kind →
      (∀ s', At toks s' ((p, ch ++ anon xs) :: F) (o :: e :: v) → Q () s') → Run (discard' (childOf c n)) s Q) :
    BodyOk toks c b xs := by
  by_cases hnil : b = []
  · rw [hx hnil, hnil]; exact bodyEnd_ok
  · intro n hn early E he hE s p ch F o e' v Q h ho hk hE' hq
    have hstart : Start toks c b := by
      rcases hs with h | h | ⟨_, t, w, rfl, ht⟩
      · exact absurd h hnil
      · exact h
      · exact absurd (by simpa using ht) (hb t rfl)
    have hs' := hstart
    obtain ⟨t, w, rfl, h1, _⟩ := hstart
    refine Loops.step (seesUnit he) h (fun h => h1 (by simp [h])) ((hs'.append _).not_tag hE) fun s h => ?_
    refine hrun hnil n hn h ho hE' fun s h => ⟨_, _, h, by simp, ?_⟩
    exact Loops.stop (seesUnit he) h (kind_ne ho) (atTag_yes ho hk) fun s h => hq s h

theorem Sees.termination : Sees Ludtwig.atTwigTerminationTag (atTag terminationKeywords) := Sees.atTwigTerminationTag

theorem termination_ends : terminationKeywords.all (fun k => endKeywords.contains k) = true := by decide +kernel

theorem quote_go {c : Ctx} {q : SyntaxKind} (hq : q ∈ stopKinds c) (hv : Start toks c v) :
    (atS [q] v || atTag terminationKeywords v) = false := by
  rw [hv.not_tag termination_ends, Bool.or_false]
  obtain ⟨t, w, rfl, h1, _⟩ := hv
  refine atS_notMem fun h => h1 ?_
  rw [List.mem_singleton.1 h]
  exact List.mem_cons_of_mem _ hq

theorem double_takes : TakesItem (σ := Unit) .double n (fun _ => parseAttributeValuePart (knot n) (knot n).innerDouble) := by
  intro a s Q hr
  exact (Run.unbind hr).mono fun o s h => (Run.ofPure h).2

theorem single_takes : TakesItem (σ := Unit) .single n (fun _ => parseAttributeValuePart (knot n) (knot n).innerSingle) := by
  intro a s Q hr
  exact (Run.unbind hr).mono fun o s h => (Run.ofPure h).2

theorem raw_takes : TakesItem (σ := Unit) .raw n (fun _ => parseRawTextPart (knot n)) := by
  intro a s Q hr
  exact (Run.unbind hr).mono fun o s h => (Run.ofPure h).2

theorem double_run (h : LoopOk toks .double u xs) (hn : u.length ≤ n) (h0 : At toks s ((p, ch) :: F) (u ++ v))
    (hv : Stops (fun v => atS [T!"\""] v || atTag terminationKeywords v) v) {Q : Unit → PState → Prop}
    (hq : ∀ s', At toks s' ((p, ch ++ anon xs) :: F) v → Q () s') :
    Run (discard' (parseInnerQuote (knot n) T!"\"" (knot n).innerDouble)) s Q :=
  .discard (.bind (Loops.many (h.run n hn (seesUnit ((Sees.at1 _).or Sees.termination)) double_takes (fun _ _ _ _ hv => quote_go (by decide) hv) h0 trivial hv
    fun s h => .pure (hq s h))))

theorem single_run (h : LoopOk toks .single u xs) (hn : u.length ≤ n) (h0 : At toks s ((p, ch) :: F) (u ++ v))
    (hv : Stops (fun v => atS [T!"'"] v || atTag terminationKeywords v) v) {Q : Unit → PState → Prop}
    (hq : ∀ s', At toks s' ((p, ch ++ anon xs) :: F) v → Q () s') :
    Run (discard' (parseInnerQuote (knot n) T!"'" (knot n).innerSingle)) s Q :=
  .discard (.bind (Loops.many (h.run n hn (seesUnit ((Sees.at1 _).or Sees.termination)) single_takes (fun _ _ _ _ hv => quote_go (by decide) hv) h0 trivial hv
    fun s h => .pure (hq s h))))

theorem orStops {φ ψ : List Token → Bool} (h : Stops ψ v) : Stops (fun v => φ v || ψ v) v := by
  rcases h with h | ⟨t, w, h1, h2, h3⟩
  · exact .inl h
  · exact .inr ⟨t, w, h1, h2, by simp [h3]⟩

theorem bodyDouble_ok (h : LoopOk toks .double b xs) (hb : ∀ t ∈ b.head?, t.kind ≠ .TK_UNKNOWN) : BodyOk toks .double b xs := by
  refine once_body hb h.nil h.starts fun _ n hn s p ch F o e' v Q h0 ho he hq => ?_
  obtain ⟨n, rfl⟩ : ∃ m, n = m + 1 := ⟨n - 1, by omega⟩
  exact double_run h (by omega) h0 (orStops (tagStops ho (he.termination (by decide) (by decide)))) hq

theorem bodySingle_ok (h : LoopOk toks .single b xs) (hb : ∀ t ∈ b.head?, t.kind ≠ .TK_UNKNOWN) : BodyOk toks .single b xs := by
  refine once_body hb h.nil h.starts fun _ n hn s p ch F o e' v Q h0 ho he hq => ?_
  obtain ⟨n, rfl⟩ : ∃ m, n = m + 1 := ⟨n - 1, by omega⟩
  exact single_run h (by omega) h0 (orStops (tagStops ho (he.termination (by decide) (by decide)))) hq

theorem bodyRaw_ok (h : LoopOk toks .raw b xs) (hb : ∀ t ∈ b.head?, t.kind ≠ .TK_UNKNOWN) (hne : b ≠ []) :
    BodyOk toks .raw b [.node .HTML_RAW_TEXT xs] := by
  refine once_body hb (fun h => absurd h hne) h.starts fun _ n hn s p ch F o e' v Q h0 ho he hq => ?_
  obtain ⟨n, rfl⟩ : ∃ m, n = m + 1 := ⟨n - 1, by omega⟩
  refine .discard (.bind (h0.start fun m s h0 => .bind (Loops.many ?_)))
  refine h.run n (by omega) (seesUnit Sees.termination) raw_takes (fun _ _ _ _ hv => hv.not_tag termination_ends) h0 trivial
    (tagStops ho (he.termination (by decide) (by decide))) fun s h => .bind (h.complete fun s h => .pure (hq s ?_))
  simpa using h.anon1

/-! ## Twig as items -/

theorem VarOk.any (hx : VarOk toks u x) (hn : u.length ≤ n) {child : P (Option CompletedMarker)} :
    Gives toks (parseAnyTwig (knot n) child) u x Any := by
  intro s p ch F v Q h _ hq
  have hs := hx.starts.append v
  exact h.ifF (Sees.atSet _) hs.no fun s h => h.ifT (Sees.atSet _) hs.yes fun s h =>
    .bind (hx.run n hn h trivial fun m s h => .pure (hq _ _ h))

theorem At.noTwig {child : P (Option CompletedMarker)} (h : At toks s F (t :: v)) (ht : t.kind ∉ tagOpens ++ varOpens ++ commentOpens)
    {Q : Option CompletedMarker → PState → Prop} (hq : ∀ s', At toks s' F (t :: v) → Q none s') : Run (parseAnyTwig K child) s Q := by
  simp only [List.mem_append, not_or] at ht
  exact h.ifF (Sees.atSet _) (atS_notMem ht.1.1) fun s h => h.ifF (Sees.atSet _) (atS_notMem ht.1.2) fun s h =>
    h.ifF (Sees.atSet _) (atS_notMem ht.2) fun s h => .pure (hq s h)

theorem twig_item (hc : c ≠ .attribute) (hx : ∀ n, u.length ≤ n → Gives toks (parseAnyTwig (knot n) (childOf c n)) u x Any) :
    ItemOk toks c u x Any := by
  intro n hn s p ch F v Q h _ hq
  cases c with
  | «attribute» => exact absurd rfl hc
  | element => exact .bind (.bind (hx n hn h trivial fun m s h => .pure (.pure (hq s h.anon1))))
  | double => exact .bind (Gives.ifNone (hx n hn) h trivial fun s h => .pure (hq s h))
  | single => exact .bind (Gives.ifNone (hx n hn) h trivial fun s h => .pure (hq s h))
  | raw => exact .bind (Gives.ifNone (hx n hn) h trivial fun s h => .pure (hq s h))

theorem VarOk.start (hx : VarOk toks u x) : Start toks c u := by
  obtain ⟨t, w, rfl, ht⟩ := hx.starts
  refine ⟨t, w, rfl, ?_, fun h => absurd h (not_mem ht), fun _ h => ?_⟩
  · cases c <;> exact not_mem ht
  · exact absurd h (kind_ne ht)

theorem TagOk.start (hx : TagOk toks c u x) : Start toks c u := by
  rcases hx.starts with ⟨t, w, rfl, ht⟩ | ⟨t, k, w, rfl, ht, hk⟩
  · refine ⟨t, w, rfl, ?_, fun h => absurd h (not_mem ht), fun _ h => ?_⟩
    · cases c <;> exact not_mem ht
    · exact absurd h (kind_ne ht)
  · refine ⟨t, k :: w, rfl, ?_, fun h => ⟨k, w, rfl, hk⟩, fun _ h => ?_⟩
    · cases c <;> exact not_mem ht
    · exact absurd h (kind_ne ht)

theorem varItem_ok (hc : c ≠ .attribute) (hx : VarOk toks u x) (ih : LoopOk toks c w xs) : LoopOk toks c (u ++ w) (x :: xs) :=
  loopItem_ok hx.start (twig_item hc fun _ hn => hx.any hn) ih fun _ _ => trivial

theorem tagItem_ok (hc : c ≠ .attribute) (hx : TagOk toks c u x) (ih : LoopOk toks c w xs) : LoopOk toks c (u ++ w) (x :: xs) :=
  loopItem_ok hx.start (twig_item hc fun n hn => hx.run n hn) ih fun _ _ => trivial

/-! ## Parts of quoted values and raw text -/

theorem quoted_bump {inner : P (Option CompletedMarker)} (h : At toks s ((p, ch) :: F) (t :: v))
    (ht : t.kind ∉ T!">" :: T!"/>" :: markupStarts) {Q : Unit → PState → Prop}
    (hq : ∀ s', At toks s' ((p, ch ++ [(none, t.tree)]) :: F) v → Q () s') : Run (parseAttributeValuePart K inner) s Q := by
  have sub : ∀ {L : List SyntaxKind}, L.all (fun k => (T!">" :: T!"/>" :: markupStarts).contains k) = true → t.kind ∉ L :=
    fun hL h => ht (List.contains_iff_mem.1 (List.all_eq_true.1 hL _ h))
  refine .bind (h.noTwig (sub (by decide +kernel)) fun s h => ?_)
  refine h.ifF ((Sees.atSet _).or ((Sees.atSet _).or Sees.atEnd)) ?_ fun s h => h.bump_ hq
  rw [atS_notMem (sub (by decide +kernel)), atS_notMem (sub (by decide +kernel))]
  rfl

theorem partToken_ok (ht : IsPart c t.kind) (ih : LoopOk toks c w xs) : LoopOk toks c (t :: w) (t.tree :: xs) := by
  have hc : c ≠ .attribute := by rintro rfl; exact ht
  by_cases hu : t.kind = .TK_UNKNOWN
  · exact loopUnknown_ok hc hu ih
  · refine loopItem_ok (u := [t]) (fol := Any) ?_ ?_ ih fun _ _ => trivial
    · refine ⟨t, [], rfl, ?_, ?_, ?_⟩
      · intro h
        rcases List.mem_cons.1 h with h | h
        · exact hu h
        · cases c
          · exact ht
          · exact ht
          · exact ht (by rw [List.mem_singleton.1 h]; exact List.mem_cons_self)
          · exact ht (by rw [List.mem_singleton.1 h]; exact List.mem_cons_self)
          · cases h
      · intro h
        exfalso
        cases c
        · exact ht
        · exact ht
        · exact ht (mem_sub h)
        · exact ht (mem_sub h)
        · exact ht (mem_sub h)
      · rintro rfl
        exact ht.elim
    · intro n hn s p ch F v Q h _ hq
      cases c with
      | element => exact ht.elim
      | «attribute» => exact ht.elim
      | double => exact .bind (quoted_bump h (fun h => ht (List.mem_cons_of_mem _ h)) fun s h => .pure (hq s h))
      | single => exact .bind (quoted_bump h (fun h => ht (List.mem_cons_of_mem _ h)) fun s h => .pure (hq s h))
      | raw =>
        refine .bind (.bind (At.noTwig h ht fun s h => ?_))
        exact h.bump_ fun s h => .pure (hq s h)

/-! ## Text -/

/-- What stands behind text. -/
def TextFol (v : List Token) : Prop :=
  v = [] ∨ HeadIn (T!"</" :: (tagOpens ++ varOpens ++ commentOpens ++ [T!"<!--", T!"<!"])) v ∨
    ∃ l t w, v = l :: t :: w ∧ l.kind = T!"<" ∧ Adjacent l t ∧ noTagStart t.kind = false

theorem P.orT {a b : P Bool} {Q : Bool → PState → Prop} (h : Run a s (fun r s => r = true ∧ Q true s)) : Run (P.or a b) s Q :=
  .bind (h.mono fun r s h => by rw [h.1, if_pos rfl]; exact .pure h.2)

theorem P.orF {a b : P Bool} {Q : Bool → PState → Prop} (h : Run a s (fun r s => r = false ∧ Run b s Q)) : Run (P.or a b) s Q :=
  .bind (h.mono fun r s h => by rw [h.1, if_neg (by simp)]; exact h.2)

theorem P.andT {a b : P Bool} {Q : Bool → PState → Prop} (h : Run a s (fun r s => r = true ∧ Run b s Q)) : Run (P.and a b) s Q :=
  .bind (h.mono fun r s h => by rw [h.1, if_pos rfl]; exact h.2)

theorem P.andF {a b : P Bool} {Q : Bool → PState → Prop} (h : Run a s (fun r s => r = false ∧ Q false s)) : Run (P.and a b) s Q :=
  .bind (h.mono fun r s h => by rw [h.1, if_neg (by simp)]; exact .pure h.2)

/-- What stands behind a `<` that is text. -/
theorem noWord {B : Nat → Prop} (h : B t.range.stop ∨ ∃ n ∈ v.head?, Adjacent t n ∧ n.kind ∈ T!"number" :: markupStarts) :
    B t.range.stop ∨ ∃ n r, v = n :: r ∧ Adjacent t n ∧ noTagStart n.kind = true := by
  have key : ∀ k ∈ T!"number" :: markupStarts, noTagStart k = true := by decide +kernel
  rcases h with h | ⟨n, hn, ha, hk⟩
  · exact .inl h
  · cases v with
    | nil => cases hn
    | cons a v => cases hn; exact .inr ⟨_, _, rfl, ha, key _ hk⟩

/-- No end of the text. -/
theorem At.inText (G : Good toks) (h : At toks s F (t :: v)) (ht : IsText (BlankAt toks) t v) {Q : Bool → PState → Prop}
    (hq : ∀ s', At toks s' F (t :: v) → Q false s') : Run atTextEnd s Q := by
  rcases ht with ht | ⟨hl, ht⟩
  · have sub : ∀ {L : List SyntaxKind}, L.all (fun k => (T!"</" :: markupStarts).contains k) = true → t.kind ∉ L :=
      fun hL h => ht (List.contains_iff_mem.1 (List.all_eq_true.1 hL _ h))
    refine P.orF ((Sees.atSet _).run h fun s h => ⟨atS_notMem (sub (by decide +kernel)), P.andF ((Sees.atSet _).run h fun s h =>
      ⟨atS_notMem (sub (by decide +kernel)), hq s h⟩)⟩)
  · refine P.orF ((Sees.atSet _).run h fun s h => ⟨atS_no (mem1 hl), P.andT ((Sees.atSet _).run h fun s h => ⟨atS_yes (mem1 hl), ?_⟩)⟩)
    refine .bind (P.andT ((Sees.at1 _).run h fun s h => ⟨atS_yes (mem1 hl), .bind ?_⟩))
    rcases noWord ht with ht | ⟨n, r, rfl, ha, ht⟩
    · refine h.nthBlank G ht fun b s hb h => ?_
      dsimp only
      rw [hb]
      exact .pure (.pure (hq s h))
    · refine h.nth G ha fun s h => ?_
      dsimp only
      rw [ht]
      exact .pure (.pure (hq s h))

/-- A `<` that is text starts no element. -/
theorem noElementText (G : Good toks) {α : Type} {a b : P α} {Q : α → PState → Prop} (h : At toks s F (t :: v)) (ht : IsText (BlankAt toks) t v)
    (hq : ∀ s', At toks s' F (t :: v) → Run b s' Q) : Run (ifP atElementStart a b) s Q := by
  by_cases hl : t.kind = T!"<"
  · refine .bind (P.andT ((Sees.at1 _).run h fun s h => ⟨atS_yes (mem1 hl), .bind ?_⟩))
    rcases ht with ht | ⟨_, ht⟩
    · exact absurd (by rw [hl]; decide +kernel) ht
    · rcases noWord ht with ht | ⟨n, r, rfl, ha, ht⟩
      · refine h.nthBlank G ht fun b s hb h => ?_
        dsimp only
        rw [hb]
        exact .pure (hq s h)
      · refine h.nth G ha fun s h => ?_
        dsimp only
        rw [ht]
        exact .pure (hq s h)
  · exact .bind (P.andF ((Sees.at' _).run h fun s h => ⟨by rw [atK_cons]; exact beq_ne hl, hq s h⟩))

/-- The end of the text. -/
theorem At.textEnd (G : Good toks) (h : At toks s F v) (hv : TextFol v) (hne : v ≠ []) {Q : Bool → PState → Prop}
    (hq : ∀ s', At toks s' F v → Q true s') : Run atTextEnd s Q := by
  rcases hv with rfl | ⟨t, w, rfl, ht⟩ | ⟨l, t, w, rfl, hl, ha, ht⟩
  · exact absurd rfl hne
  · rcases List.mem_cons.1 ht with ht | ht
    · exact P.orT ((Sees.atSet _).run h fun s h => ⟨atS_yes (mem1 ht), hq s h⟩)
    · refine P.orF ((Sees.atSet _).run h fun s h => ⟨atS_no ht, P.andT ((Sees.atSet _).run h fun s h => ⟨atS_yes ht, ?_⟩)⟩)
      refine .bind (P.andF ((Sees.at1 _).run h fun s h => ⟨atS_no ht, .pure (hq s h)⟩))
  · refine P.orF ((Sees.atSet _).run h fun s h => ⟨atS_no (mem1 hl), P.andT ((Sees.atSet _).run h fun s h => ⟨atS_yes (mem1 hl), ?_⟩)⟩)
    refine .bind (P.andT ((Sees.at1 _).run h fun s h => ⟨atS_yes (mem1 hl), .bind (h.nth G ha fun s h => ?_)⟩))
    dsimp only
    rw [ht]
    exact .pure (.pure (hq s h))

theorem IsText.kind {B : Nat → Prop} (h : IsText B t v) :
    t.kind ∉ T!"</" :: (tagOpens ++ varOpens ++ commentOpens ++ [T!"<!--", T!"<!"]) := by
  rcases h with h | ⟨h, _⟩
  · exact fun h' => h (mem_sub h')
  · rw [h]; decide +kernel

theorem allText_append {B : Nat → Prop} {ts : List Token} (h : AllText B ts w) (v : List Token) : AllText B ts (w ++ v) := by
  induction ts with
  | nil => trivial
  | cons t ts ih =>
    refine ⟨?_, ih h.2⟩
    have := h.1.append v
    rwa [List.append_assoc] at this

/-- The tokens of the text. -/
theorem text_loop (G : Good toks) {ts : List Token} (hts : AllText (BlankAt toks) ts v) {Q : Unit → PState → Prop}
    (hend : ∀ s, At toks s ((p, dh) :: F) v → Loops (fun _ => do return (← atTextEnd, ())) (fun _ => bump_) () s Q)
    (h : At toks s ((p, ch) :: F) (ts ++ v)) (hd : dh = ch ++ anon (ts.map Token.tree)) :
    Loops (fun _ => do return (← atTextEnd, ())) (fun _ => bump_) () s Q := by
  induction ts generalizing s ch with
  | nil => exact hend s (by simpa [hd] using h)
  | cons t ts ih =>
    have ih' : ∀ s, At toks s ((p, ch ++ [(none, t.tree)]) :: F) (ts ++ v) →
        Loops (fun _ => do return (← atTextEnd, ())) (fun _ => bump_) () s Q := fun s h => ih hts.2 h (by simpa using hd)
    by_cases hu : t.kind = .TK_UNKNOWN
    · exact Loops.unknown h hu fun s h => ih' s h
    · exact Loops.step' h hu (fun s Q h hq => .bind (h.inText G hts.1 fun s h => .pure (hq s h))) fun s h => h.bump_ fun s h =>
        ⟨_, _, h, by simp, ih' s h⟩

/-- What follows lets the text end. -/
def TextItemFol (toks : List Token) (t : Token) (ts v : List Token) : Prop := AllText (BlankAt toks) (t :: ts) v ∧ TextFol v

theorem text_item (G : Good toks) {ts : List Token} :
    ItemOk toks .element (t :: ts) (.node .HTML_TEXT (t.tree :: ts.map Token.tree)) (TextItemFol toks t ts) := by
  intro n hn s p ch F v Q h ⟨hts, hf⟩ hq
  have ht := hts.1
  have sub : ∀ {L : List SyntaxKind}, L.all (fun k => (T!"</" :: (tagOpens ++ varOpens ++ commentOpens ++ [T!"<!--", T!"<!"])).contains k) = true → t.kind ∉ L :=
    fun hL h => ht.kind (List.contains_iff_mem.1 (List.all_eq_true.1 hL _ h))
  refine .bind (.bind (At.noTwig h (sub (by decide +kernel)) fun s h => ?_))
  refine noElementText G h ht fun s h => ?_
  refine h.ifF (Sees.at1 _) (atS_notMem (sub (by decide +kernel))) fun s h => h.ifF (Sees.at1 _) (atS_notMem (sub (by decide +kernel))) fun s h => ?_
  refine .bind (P.orF (Sees.atEnd.run h fun s h => ⟨rfl, h.inText G ht fun s h => ?_⟩))
  rw [if_neg (by simp)]
  refine .bind (h.start fun m s h => .bind (Loops.many ?_))
  refine text_loop G (ts := t :: ts) (v := v) (dh := anon ((t :: ts).map Token.tree)) hts ?_ h rfl
  intro s h
  have fin : ∀ s, At toks s ((m, anon ((t :: ts).map Token.tree)) :: (p, ch) :: F) v →
      Run (do return some (← complete m .HTML_TEXT)) s (fun a s => Run (pure a.isSome) s Q) := fun s h =>
    .bind (h.complete fun s h => .pure (.pure (hq s (by simpa [Function.comp_def] using h.anon1))))
  cases v with
  | nil => exact Loops.end_ h fun s h => fin s h
  | cons t' v =>
    refine Loops.stop' h ?_ (fun s Q h hq => .bind (h.textEnd G hf (by simp) fun s h => .pure (hq s h))) fun s h => fin s h
    rcases hf with hf | ⟨t, w, e, ht⟩ | ⟨l, t, w, e, hl, _⟩
    · cases hf
    · cases e; exact kind_ne ht
    · cases e; exact kind_ne (mem1 hl)

theorem text_ok (G : Good toks) {ts : List Token} (hu : t.kind ≠ .TK_UNKNOWN) (hts : AllText (BlankAt toks) (t :: ts) w)
    (hw : ∀ t' r, w = t' :: r → t'.kind ∈ markupStarts ∧ ¬ IsText (BlankAt toks) t' r) (ih : LoopOk toks .element w xs) :
    LoopOk toks .element (t :: (ts ++ w)) (.node .HTML_TEXT (t.tree :: ts.map Token.tree) :: xs) := by
  have sub : ∀ {L : List SyntaxKind}, L.all (fun k => (T!"</" :: (tagOpens ++ varOpens ++ commentOpens ++ [T!"<!--", T!"<!"])).contains k) = true → t.kind ∉ L :=
    fun hL h => hts.1.kind (List.contains_iff_mem.1 (List.all_eq_true.1 hL _ h))
  refine loopItem_ok' (u := t :: ts) ⟨t, ts ++ w, rfl, ?_, fun h => absurd h (sub (by decide +kernel)), fun _ h => .inl hts.1⟩
    (by simp) (text_item G) ih fun v hv => ⟨allText_append hts v, ?_⟩
  · intro h
    rcases List.mem_cons.1 h with h | h
    · exact hu h
    · exact sub (L := [T!"</"]) (by decide +kernel) h
  · cases w with
    | nil =>
      rcases hv with rfl | ⟨t', w, rfl, h⟩
      · exact .inl rfl
      · refine .inr (.inl (.of ?_))
        rcases List.mem_cons.1 h with h | h
        · rw [h]; exact List.mem_cons_self
        · exact mem_sub h
    | cons t' w =>
      obtain ⟨hk, hno⟩ := hw t' w rfl
      have hs : Start toks .element (t' :: w) := by
        rcases ih.starts with h | h | ⟨_, t2, w2, e, h⟩
        · cases h
        · exact h
        · cases e
          exact absurd (List.mem_singleton.1 h) (kind_ne hk)
      obtain ⟨t2, w2, e, h1, h2, h3⟩ := hs
      cases e
      by_cases hl : t'.kind = T!"<"
      · rcases h3 rfl hl with h | ⟨t3, w3, rfl, h4, h5⟩
        · exact absurd h hno
        · exact .inr (.inr ⟨t', t3, w3 ++ v, rfl, hl, h4, h5⟩)
      · refine .inr (.inl (.of (List.mem_cons_of_mem _ ?_)))
        simp only [markupStarts, List.mem_append, List.mem_cons, List.not_mem_nil, or_false] at hk ⊢
        rcases hk with hk | hk | hk
        · exact .inl hk
        · exact absurd hk hl
        · exact .inr hk

/-! ## Attributes -/

/-- What stands behind an attribute. -/
def AttrFol (v : List Token) : Prop := atS [T!"=", T!"\"", T!"'"] v = false

/-- The name of an attribute is taken. -/
structure AttrNameOk (toks : List Token) (u : List Token) (x : Tree) : Prop where
  starts : Start toks .attribute u
  run : ∀ n, u.length ≤ n → ∀ {s p ch F v} {Q : Option CompletedMarker → PState → Prop}, At toks s ((p, ch) :: F) (u ++ v) →
    (∀ m s', At toks s' ((m, [(none, x)]) :: (p, ch) :: F) v → Run (parseAttributeRest (knot n) m) s' Q) →
    Run (parseHtmlAttributeOrTwig (knot n)) s Q

theorem plainName_ok (ht : t.kind ∈ nameKinds) (hx : isHtmlAttributeName t.text = true) : AttrNameOk toks [t] (wordTree t) := by
  refine ⟨⟨t, [], rfl, not_mem ht, fun h => absurd h (not_mem ht), fun h => (by cases h)⟩, fun n hn s p ch F v Q h hq => ?_⟩
  refine .bind (h.ifF (Sees.at1 _) (atS_no ht) fun s h => .bind (Sees.peekToken.run h fun s h => .pure ?_))
  simp only [List.cons_append, List.nil_append, List.head?_cons, Option.map_some, hx, if_true] at h ⊢
  refine .bind (h.start fun m s h => .bind (h.ifF (Sees.at1 _) (atS_no ht) fun s h => .discard (h.bumpAs rfl fun s h => ?_)))
  exact hq m s (by simpa [wordTree] using h)

theorem colonName_ok (G : Good toks) {d : Token} (hd : d.kind = T!":") (hx : isHtmlAttributeName (':' :: t.text) = true)
    (ha : Adjacent d t) : AttrNameOk toks [d, t] (.token T!"word" (d.text ++ t.text)) := by
  refine ⟨⟨d, [t], rfl, not_mem (mem1 hd), fun h => absurd h (not_mem (mem1 hd)), fun h => (by cases h)⟩, fun n hn s p ch F v Q h hq => ?_⟩
  refine .bind (h.ifT (Sees.at1 _) (atS_yes (mem1 hd)) fun s h => .bind (h.nth G ha fun s h => .pure ?_))
  simp only [Option.map_some, hx, if_true]
  refine .bind (h.start fun m s h => .bind (h.ifT (Sees.at1 _) (atS_yes (mem1 hd)) fun s h => h.bump2 G ha rfl fun s h => ?_))
  exact hq m s (by simpa using h)

theorem varName_ok (G : Good toks) (hx : VarOk toks u x) : AttrNameOk toks u x := by
  refine ⟨hx.start, fun n hn s p ch F v Q h hq => ?_⟩
  obtain ⟨t, w, rfl, ht⟩ := hx.starts
  have hs := (G.sym h.mem (mem_sub ht)).2
  refine .bind (h.ifF (Sees.at1 _) (atS_no ht) fun s h => .bind (Sees.peekToken.run h fun s h => .pure ?_))
  simp only [List.cons_append, List.head?_cons, Option.map_some, hs, Bool.false_eq_true, if_false]
  refine h.ifT (Sees.atSet _) (atS_yes ht) fun s h => .bind (h.start fun m s h => .bind (Gives1.discard (hx.run n hn) h trivial fun s h => ?_))
  exact hq m s (by simpa using h)

/-- The value of an attribute is taken. -/
def AttrValueOk (toks : List Token) (u : List Token) (x : Tree) : Prop :=
  ∀ n, u.length ≤ n → Gives1 toks (parseHtmlAttributeValueString (knot n)) u x AttrFol

theorem quoteStops {r : Token} {q : SyntaxKind} (hr : r.kind = q) (hq : q ≠ .TK_UNKNOWN) :
    Stops (fun v => atS [q] v || atTag terminationKeywords v) (r :: v) :=
  .inr ⟨_, _, rfl, by rw [hr]; exact hq, by simp [atS, hr]⟩

theorem doubleQuoted_ok {l r : Token} (hl : l.kind = T!"\"") (hu : LoopOk toks .double u xs) (hr : r.kind = T!"\"") :
    AttrValueOk toks (l :: (u ++ [r])) (.node .HTML_STRING [l.tree, .node .HTML_STRING_INNER xs, r.tree]) := by
  intro n hn s p ch F v Q h _ hq
  simp only [List.length_append, List.append_assoc, List.cons_append, List.nil_append, List.length_cons] at hn h
  refine .bind (h.start fun m s h => .bind (h.ifT (Sees.atSet _) (atS_yes (mem1 hl)) fun s h => .bind (h.bump fun s h => .pure ?_)))
  rw [hl]
  refine .bind (h.start fun m' s h => .bind ?_)
  refine double_run hu (by omega) h (quoteStops hr (by decide)) fun s h => .bind (h.whenT (.pure _) rfl fun s h => h.consumeTrivia fun s h => ?_)
  exact .bind (h.complete_ fun s h => .bind (h.expect_ hr fun s h => h.complete fun s h => hq _ _ (by simpa using h)))

theorem singleQuoted_ok {l r : Token} (hl : l.kind = T!"'") (hu : LoopOk toks .single u xs) (hr : r.kind = T!"'") :
    AttrValueOk toks (l :: (u ++ [r])) (.node .HTML_STRING [l.tree, .node .HTML_STRING_INNER xs, r.tree]) := by
  intro n hn s p ch F v Q h _ hq
  simp only [List.length_append, List.append_assoc, List.cons_append, List.nil_append, List.length_cons] at hn h
  refine .bind (h.start fun m s h => .bind (h.ifT (Sees.atSet _) (atS_yes (mem1 hl)) fun s h => .bind (h.bump fun s h => .pure ?_)))
  rw [hl]
  refine .bind (h.start fun m' s h => .bind ?_)
  refine single_run hu (by omega) h (quoteStops hr (by decide)) fun s h => .bind (h.whenT (.pure _) rfl fun s h => h.consumeTrivia fun s h => ?_)
  exact .bind (h.complete_ fun s h => .bind (h.expect_ hr fun s h => h.complete fun s h => hq _ _ (by simpa using h)))

theorem AttrFol.quotes (h : AttrFol v) : atS [T!"\"", T!"'"] v = false := by
  cases v with
  | nil => rfl
  | cons t v =>
    refine atS_notMem fun h' => ?_
    have : atS [T!"=", T!"\"", T!"'"] (t :: v) = true := atS_mem (List.mem_cons_of_mem _ h')
    rw [h] at this
    cases this

theorem AttrFol.noValue (h : AttrFol v) : atS [T!"="] v = false := by
  cases v with
  | nil => rfl
  | cons t v =>
    refine atS_notMem fun h' => ?_
    have : atS [T!"=", T!"\"", T!"'"] (t :: v) = true := atS_mem (by rw [List.mem_singleton.1 h']; exact List.mem_cons_self)
    rw [h] at this
    cases this

theorem unquotedWord_ok (ht : t.kind = T!"word") :
    AttrValueOk toks [t] (.node .HTML_STRING [.node .HTML_STRING_INNER [t.tree]]) := by
  intro n hn s p ch F v Q h hf hq
  refine .bind (h.start fun m s h => .bind (h.ifF (Sees.atSet _) (atS_no (mem1 ht)) fun s h => .pure (.bind (h.start fun m' s h => .bind ?_))))
  refine h.ifT (Sees.at1 _) (atS_yes (mem1 ht)) fun s h => h.bump_ fun s h => .bind (h.whenF (.pure _) rfl fun s h => ?_)
  exact .bind (h.complete_ fun s h => .bind (h.whenF (Sees.atSet _) hf.quotes fun s h => h.complete fun s h => hq _ _ (by simpa using h)))

theorem unquotedVar_ok (hx : VarOk toks u x) : AttrValueOk toks u (.node .HTML_STRING [.node .HTML_STRING_INNER [x]]) := by
  intro n hn s p ch F v Q h hf hq
  have hs := hx.starts.append v
  refine .bind (h.start fun m s h => .bind (h.ifF (Sees.atSet _) hs.no fun s h => .pure (.bind (h.start fun m' s h => .bind ?_))))
  refine h.ifF (Sees.at1 _) hs.no fun s h => h.ifT (Sees.atSet _) hs.yes fun s h => Gives1.discard (hx.run n hn) h trivial fun s h =>
    .bind (h.whenF (.pure _) rfl fun s h => ?_)
  exact .bind (h.complete_ fun s h => .bind (h.whenF (Sees.atSet _) hf.quotes fun s h => h.complete fun s h => hq _ _ (by simpa using h)))

/-- An attribute is taken. -/
structure AttrOk (toks : List Token) (u : List Token) (x : Tree) : Prop where
  starts : Start toks .attribute u
  run : ItemOk toks .attribute u x AttrFol

theorem attrPlain_ok (hx : AttrNameOk toks u x) : AttrOk toks u (.node .HTML_ATTRIBUTE [x]) := by
  refine ⟨hx.starts, fun n hn s p ch F v Q h hf hq => ?_⟩
  refine .bind (.discard (hx.run n hn h fun m s h => .bind (h.whenF (Sees.at1 _) hf.noValue fun s h => .bind (h.complete fun s h => .pure (.pure ?_)))))
  exact hq s (by simpa using h.anon1)

theorem attrValued_ok {e' : Token} (hx : AttrNameOk toks u x) (he : e'.kind = T!"=") (hy : AttrValueOk toks w y) :
    AttrOk toks (u ++ e' :: w) (.node .HTML_ATTRIBUTE [x, e'.tree, y]) := by
  refine ⟨hx.starts.append _, fun n hn s p ch F v Q h hf hq => ?_⟩
  simp only [List.length_append, List.append_assoc, List.cons_append, List.length_cons] at hn h
  refine .bind (.discard (hx.run n (by omega) h fun m s h => .bind (h.whenT (Sees.at1 _) (atS_yes (mem1 he)) fun s h => .bind (h.bump_ fun s h => ?_))))
  refine Gives1.discard (hy n (by omega)) h hf fun s h => .bind (h.complete fun s h => .pure (.pure ?_))
  exact hq s (by simpa using h.anon1)

theorem attrTag_ok (G : Good toks) (hx : TagOk toks .attribute u x) : AttrOk toks u x := by
  refine ⟨hx.start, fun n hn s p ch F v Q h hf hq => ?_⟩
  obtain ⟨t, w, rfl, ht⟩ : HeadIn (tagOpens ++ commentOpens) u := by
    rcases hx.starts with h | ⟨t, k, w, rfl, ht, hk⟩
    · exact h.sub
    · exact .of (mem_sub ht)
  have hs := (G.sym h.mem (mem_sub ht)).2
  refine .bind (.discard (.bind (h.ifF (Sees.at1 _) (atS_no ht) fun s h => .bind (Sees.peekToken.run h fun s h => .pure ?_))))
  simp only [List.cons_append, List.head?_cons, Option.map_some, hs, Bool.false_eq_true, if_false]
  exact h.ifF (Sees.atSet _) (atS_no ht) fun s h => hx.run n hn h trivial fun c s h => .pure (hq s h.anon1)

theorem bodyAttr_ok (hx : AttrOk toks u x) (ih : LoopOk toks .attribute w xs) : LoopOk toks .attribute (u ++ w) (x :: xs) := by
  refine loopItem_ok hx.starts hx.run ih fun v hv => ?_
  rcases ih.starts with rfl | h | ⟨h, _⟩
  · exact HeadIn.no hv
  · obtain ⟨t, w', e, h1, _⟩ := h.append v
    rw [e]
    refine atS_notMem fun h => h1 (mem_sub h)
  · exact absurd rfl h

/-! ## Elements -/

/-- An html element, comment or doctype is taken. -/
structure HtmlOk (toks : List Token) (u : List Token) (x : Tree) : Prop where
  starts : Start toks .element u
  first : HeadIn [T!"<", T!"<!--", T!"<!"] u
  run : ∀ n, u.length ≤ n → Gives toks (parseAnyHtml (knot n)) u x Any

theorem bodyHtml_ok (hx : HtmlOk toks u x) (ih : LoopOk toks .element w xs) : LoopOk toks .element (u ++ w) (x :: xs) := by
  refine loopItem_ok (fol := Any) hx.starts ?_ ih fun _ _ => trivial
  intro n hn s p ch F v Q h _ hq
  obtain ⟨t, r, rfl, ht⟩ := hx.first
  refine .bind (.bind (At.noTwig h (not_mem ht) fun s h => ?_))
  exact hx.run n hn h trivial fun c s h => .pure (hq s h.anon1)

theorem noElement {a b : P α} {Q : α → PState → Prop} (h : At toks s F (t :: v)) (ht : t.kind ≠ T!"<") (hq : ∀ s', At toks s' F (t :: v) → Run b s' Q) :
    Run (ifP atElementStart a b) s Q :=
  .bind (P.andF ((Sees.at' _).run h fun s h => ⟨by rw [atK_cons]; exact beq_ne ht, hq s h⟩))

theorem htmlComment_ok {o d : Token} {ts : List Token} (ho : o.kind = T!"<!--") (hts : ∀ t ∈ ts, t.kind ≠ T!"-->")
    (hd : ∀ t ∈ ts.head?, t.kind ∉ directives.map (·.1)) (hc : d.kind = T!"-->") :
    HtmlOk toks (o :: (ts ++ [d])) (.node .HTML_COMMENT (o.tree :: (ts.map Token.tree ++ [d.tree]))) := by
  refine ⟨⟨o, _, rfl, not_mem (mem1 ho), fun h => absurd h (not_mem (mem1 ho)), fun _ h => absurd h (kind_ne (mem1 ho))⟩,
    .of (mem_sub (mem1 ho)), fun n hn s p ch F v Q h _ hq => ?_⟩
  simp only [List.append_assoc, List.cons_append, List.nil_append] at h
  refine noElement h (kind_ne (mem1 ho)) fun s h => h.ifT (Sees.at1 _) (atS_yes (mem1 ho)) fun s h => .bind (.bind (h.start fun m s h => .bind (h.bump_ fun s h => ?_)))
  refine h.ifF (Sees.atSet _) (comment_first hd (mem1 hc) (by decide +kernel)) fun s h => .bind ?_
  exact until_run (E := [T!"-->"]) (Sees.at1 _) (fun t ht => by simpa using hts t ht) (mem1 hc) (kind_ne (mem1 hc)) h fun s h => .bind (h.expect_ hc fun s h =>
    h.complete fun s h => .pure (hq _ _ (by simpa using h)))

theorem htmlDirective_ok {o d r : Token} {nk : SyntaxKind} (ho : o.kind = T!"<!--") (hd : (d.kind, nk) ∈ directives) (hu : RulesOk toks u xs)
    (hr : r.kind = T!"-->") :
    HtmlOk toks (o :: d :: (u ++ [r])) (.node nk [o.tree, d.tree, .node .LUDTWIG_DIRECTIVE_RULE_LIST xs, r.tree]) := by
  refine ⟨⟨o, _, rfl, not_mem (mem1 ho), fun h => absurd h (not_mem (mem1 ho)), fun _ h => absurd h (kind_ne (mem1 ho))⟩,
    .of (mem_sub (mem1 ho)), fun n hn s p ch F v Q h _ hq => ?_⟩
  simp only [List.append_assoc, List.cons_append, List.nil_append] at h
  refine noElement h (kind_ne (mem1 ho)) fun s h => h.ifT (Sees.at1 _) (atS_yes (mem1 ho)) fun s h => .bind (.bind (h.start fun m s h => .bind (h.bump_ fun s h => ?_)))
  exact h.ifT (Sees.atSet _) (atS_yes (directive_kind hd)) fun s h => directive_run hd hu (by decide) (mem1 hr) h fun m s h => .pure (hq _ _ h)

theorem doctype_ok {o d r : Token} (ho : o.kind = T!"<!") (hd : d.kind = T!"DOCTYPE") (ht : t.kind = T!"word") (hr : r.kind = T!">") :
    HtmlOk toks [o, d, t, r] (.node .HTML_DOCTYPE [o.tree, d.tree, t.tree, r.tree]) := by
  refine ⟨⟨o, _, rfl, not_mem (mem1 ho), fun h => absurd h (not_mem (mem1 ho)), fun _ h => absurd h (kind_ne (mem1 ho))⟩,
    .of (mem_sub (mem1 ho)), fun n hn s p ch F v Q h _ hq => ?_⟩
  refine noElement h (kind_ne (mem1 ho)) fun s h => h.ifF (Sees.at1 _) (atS_no (mem1 ho)) fun s h => h.ifT (Sees.at1 _) (atS_yes (mem1 ho)) fun s h => ?_
  exact .bind (.bind (h.start fun m s h => .bind (h.bump_ fun s h => .bind (h.expect_ hd fun s h => .bind (h.expect_ ht fun s h => .bind (h.expect_ hr fun s h =>
    h.complete fun s h => .pure (hq _ _ (by simpa using h))))))))

theorem tagName_start (ht : IsTagName t) : noTagStart t.kind = false := by
  have key : ∀ k ∈ T!"twig component name" :: nameKinds, noTagStart k = false := by decide +kernel
  rcases ht with ht | ⟨ht, _⟩
  · exact key _ (by rw [ht]; exact List.mem_cons_self)
  · exact key _ (List.mem_cons_of_mem _ ht)

theorem At.tagName (h : At toks s ((p, ch) :: F) (t :: v)) (ht : IsTagName t) {Q : Unit → PState → Prop}
    (hq : ∀ s', At toks s' ((p, ch ++ [(none, tagNameTree t)]) :: F) v → Q () s') : Run (parseTagName t.kind t.text) s Q := by
  unfold parseTagName
  by_cases hk : t.kind = T!"twig component name"
  · rw [if_pos hk]
    exact h.bump_ fun s h => hq s (by simpa [tagNameTree, hk] using h)
  · rw [if_neg hk]
    rcases ht with ht | ⟨_, ht⟩
    · exact absurd ht hk
    · rw [if_pos (elementName_iff.1 ht)]
      exact .discard (h.bumpAs rfl fun s h => hq s (by simpa [tagNameTree, hk, wordTree] using h))

/-- The starting tag. -/
theorem startingTag {l g : Token} {a : List Token} {as : List Tree} (ht : IsTagName t) (ha : LoopOk toks .attribute a as) (hn : a.length ≤ n)
    (hg : g.kind ∈ [T!">", T!"/>"]) (h : At toks s ((p, ch) :: F) (l :: t :: (a ++ g :: v))) {Q : SyntaxKind × Text × Bool → PState → Prop}
    (hq : ∀ s', At toks s' ((p, ch ++ [(none, .node .HTML_STARTING_TAG [l.tree, tagNameTree t, .node .HTML_ATTRIBUTE_LIST as, g.tree])]) :: F) v →
      Q (t.kind, t.text, (g.kind == T!"/>") || htmlVoidElements.contains (t.text.map asciiLower)) s') :
    Run (parseStartingTag (knot n)) s Q := by
  refine .bind (h.start fun m s h => .bind (h.bump_ fun s h => .bind (Sees.peekToken.run h fun s h => ?_)))
  simp only [List.head?_cons, Option.map_some, Option.getD_some]
  refine .bind (h.tagName ht fun s h => .bind (h.start fun m' s h => .bind (Loops.many ?_)))
  refine ha.run n hn (seesUnit ((Sees.at1 _).or (Sees.at1 _))) ?_ ?_ h (.of (mem_sub hg)) (.inr ⟨_, _, rfl, kind_ne hg, ?_⟩) fun s h => .bind (h.complete_ fun s h => .bind ?_)
  rotate_left
  · rintro _ post _ _ ⟨t, w, e, h1, _⟩
    rw [e]
    have sub : ∀ {L : List SyntaxKind}, L.all (fun k => (.TK_UNKNOWN :: stopKinds .attribute).contains k) = true → t.kind ∉ L :=
      fun hL h => h1 (List.contains_iff_mem.1 (List.all_eq_true.1 hL _ h))
    rw [atS_notMem (sub (by decide +kernel)), atS_notMem (sub (by decide +kernel))]
    rfl
  · simp only [List.mem_cons, List.not_mem_nil, or_false] at hg
    rcases hg with hg | hg <;> simp [atS, hg]
  rotate_right
  · intro a s Q hr
    exact (Run.unbind hr).mono fun o s h => (Run.ofPure h).2
  · simp only [List.mem_cons, List.not_mem_nil, or_false] at hg
    rcases hg with hg | hg
    · refine h.ifF (Sees.at1 _) (atS_no (mem1 hg)) fun s h => .bind (h.expect_ hg fun s h => .pure (.bind (h.complete_ fun s h => .pure ?_)))
      rw [hg] at hq
      exact hq s (by simpa using h)
    · refine h.ifT (Sees.at1 _) (atS_yes (mem1 hg)) fun s h => .bind (h.bump_ fun s h => .pure (.bind (h.complete_ fun s h => .pure ?_)))
      rw [hg] at hq
      exact hq s (by simpa using h)

theorem isElement (G : Good toks) {l : Token} {a b : P α} {Q : α → PState → Prop} (h : At toks s F (l :: t :: v)) (hl : l.kind = T!"<") (ht : IsTagName t)
    (ha : Adjacent l t) (hq : ∀ s', At toks s' F (l :: t :: v) → Run a s' Q) :
    Run (ifP atElementStart a b) s Q := by
  refine .bind (P.andT ((Sees.at1 _).run h fun s h => ⟨atS_yes (mem1 hl), .bind (h.nth G ha fun s h => ?_)⟩))
  dsimp only
  rw [tagName_start ht]
  exact .pure (hq s h)

theorem emptyElement_ok (G : Good toks) {l g : Token} {a : List Token} {as : List Tree} (hl : l.kind = T!"<") (ht : IsTagName t) (hadj : Adjacent l t)
    (ha : LoopOk toks .attribute a as) (hg : g.kind ∈ [T!">", T!"/>"]) (hvoid : g.kind = T!"/>" ∨ IsVoid t) :
    HtmlOk toks (l :: t :: (a ++ [g]))
      (.node .HTML_TAG [.node .HTML_STARTING_TAG [l.tree, tagNameTree t, .node .HTML_ATTRIBUTE_LIST as, g.tree]]) := by
  refine ⟨⟨l, _, rfl, not_mem (mem1 hl), fun h => absurd h (not_mem (mem1 hl)), fun _ h => .inr ⟨t, _, rfl, hadj, tagName_start ht⟩⟩,
    .of (mem_sub (mem1 hl)), fun n hn s p ch F v Q h _ hq => ?_⟩
  simp only [List.length_append, List.append_assoc, List.cons_append, List.nil_append, List.length_cons] at hn h
  refine isElement G h hl ht hadj fun s h => .bind (.bind (h.start fun m s h => .bind (startingTag ht ha (by omega) hg h fun s h => ?_)))
  have : ((g.kind == T!"/>") || htmlVoidElements.contains (t.text.map asciiLower)) = true := by
    rcases hvoid with h | h
    · rw [h]; rfl
    · have : htmlVoidElements.contains (t.text.map asciiLower) = true := List.contains_iff_mem.2 (isVoid_iff.1 h)
      rw [this, Bool.or_true]
  dsimp only
  rw [this, if_pos rfl]
  exact h.complete fun s h => .pure (hq _ _ (by simpa using h))

/-- The check for the ending tag of an element. -/
theorem early_bodyEnd {tk : SyntaxKind} {tn : Text} : Early (atBodyEnd tk tn)
    (fun v => (if v.isEmpty then false else followContent v [(T!"</", none), (tk, some tn)]) || atTag terminationKeywords v)
    (fun a v => if (if v.isEmpty then false else followContent v [(T!"</", none), (tk, some tn)]) then true else a) := by
  refine ⟨fun a => ?_, fun a v h => ?_⟩
  · refine ((Sees.atFollowingContent _).bind (ψ := fun b v => if b then (true, true) else (atTag terminationKeywords v, a)) (fun b => ?_)).congr fun v => ?_
    · cases b
      · exact Sees.termination.bind (fun _ => .pure _)
      · exact .pure _
    · cases (if v.isEmpty = true then false else followContent v [(T!"</", none), (tk, some tn)]) <;> rfl
  · simp only [Bool.or_eq_false_iff] at h
    simp only [h.1, Bool.false_eq_true, if_false]

theorem bodyEnd_go {tk : SyntaxKind} {tn : Text} (hc : T!"</" ∈ stopKinds c) (hv : Start toks c v) :
    ((if v.isEmpty then false else followContent v [(T!"</", none), (tk, some tn)]) || atTag terminationKeywords v) = false := by
  rw [hv.not_tag termination_ends, Bool.or_false]
  obtain ⟨t, w, rfl, h1, _⟩ := hv
  have : t.kind ≠ T!"</" := fun h => h1 (by rw [h]; exact List.mem_cons_of_mem _ hc)
  simp [followContent, this]

theorem firstEnd_go {l' t' : Token} {pre post : List Token} (hf : FirstEnd b l' t') (e : b = pre ++ post) (hne : post ≠ []) (hl : l'.kind = T!"</")
    (hv : Start toks c (post ++ l' :: t' :: v)) :
    ((if (post ++ l' :: t' :: v).isEmpty then false else followContent (post ++ l' :: t' :: v) [(T!"</", none), (t'.kind, some t'.text)]) ||
      atTag terminationKeywords (post ++ l' :: t' :: v)) = false := by
  rw [hv.not_tag termination_ends, Bool.or_false]
  have key : ∀ a c r, post ++ l' :: t' :: v = a :: c :: r → (∃ r', r' ≠ [] ∧ post ++ [l', t'] = a :: c :: r') →
      followContent (post ++ l' :: t' :: v) [(T!"</", none), (t'.kind, some t'.text)] = false := by
    intro a c r e1 ⟨r', hr', e2⟩
    rw [e1, Bool.eq_false_iff]
    intro h
    simp only [followContent, Bool.and_eq_true, beq_iff_eq] at h
    refine hr' (hf pre a c r' ?_ ?_ ?_ ?_)
    · rw [e, List.append_assoc, e2]
    · simp_all
    · simp_all
    · simp_all
  cases post with
  | nil => exact absurd rfl hne
  | cons a post =>
    rw [List.cons_append, List.isEmpty_cons, if_neg (by simp)]
    cases post with
    | nil => exact key a l' (t' :: v) rfl ⟨[t'], by simp, rfl⟩
    | cons c post => exact key a c (post ++ l' :: t' :: v) rfl ⟨post ++ [l', t'], by simp, rfl⟩

theorem bodyEnd_at {l' t' : Token} (hl : l'.kind = T!"</") : (if (l' :: t' :: v).isEmpty then false else
    followContent (l' :: t' :: v) [(T!"</", none), (t'.kind, some t'.text)]) = true := by
  simp [followContent, hl]

theorem At.endingTag {l' t' g' : Token} (hl : l'.kind = T!"</") (ht : IsTagName t') (hg : g'.kind = T!">")
    (h : At toks s ((p, ch) :: F) (l' :: t' :: g' :: v)) {Q : Unit → PState → Prop}
    (hq : ∀ s', At toks s' ((p, ch ++ [(none, .node .HTML_ENDING_TAG [l'.tree, tagNameTree t', g'.tree])]) :: F) v → Q () s') :
    Run (parseEndingTag t'.kind t'.text true) s Q := by
  refine .bind (h.start fun m s h => ?_)
  rw [if_pos rfl]
  refine .bind (h.expect_ hl fun s h => .bind ?_)
  by_cases hk : t'.kind = T!"twig component name"
  · exact h.ifT (Sees.at1 _) (atS_yes (mem1 hk)) fun s h => h.bump_ fun s h => .bind (h.expect_ hg fun s h => h.complete_ fun s h => hq s (by simpa [tagNameTree, hk] using h))
  · refine h.ifF (Sees.at1 _) (atS_notMem (by simpa using hk)) fun s h => h.ifT (Sees.at1 _) (atS_mem (mem1 rfl)) fun s h => .discard (h.bumpAs rfl fun s h => ?_)
    exact .bind (h.expect_ hg fun s h => h.complete_ fun s h => hq s (by simpa [tagNameTree, hk, wordTree] using h))

theorem fullElement_ok (G : Good toks) {l g l' t' g' : Token} {a : List Token} {as ys : List Tree} (hl : l.kind = T!"<") (ht : IsTagName t) (hadj : Adjacent l t)
    (hvoid : ¬ IsVoid t) (ha : LoopOk toks .attribute a as) (hg : g.kind = T!">")
    (hb : ∀ n, b.length < n → ∀ {s p ch F v} {Q : Bool → PState → Prop}, At toks s ((p, ch) :: F) (b ++ l' :: t' :: g' :: v) →
      (∀ s', At toks s' ((p, ch ++ anon ys) :: F) (l' :: t' :: g' :: v) → Q true s') → Run (parseElementBody (knot n) t'.kind t'.text) s Q)
    (hl' : l'.kind = T!"</") (hk : t'.kind = t.kind) (htx : t'.text = t.text) (hg' : g'.kind = T!">") :
    HtmlOk toks (l :: t :: (a ++ g :: (b ++ [l', t', g'])))
      (.node .HTML_TAG [.node .HTML_STARTING_TAG [l.tree, tagNameTree t, .node .HTML_ATTRIBUTE_LIST as, g.tree],
          .node .BODY ys, .node .HTML_ENDING_TAG [l'.tree, tagNameTree t', g'.tree]]) := by
  refine ⟨⟨l, _, rfl, not_mem (mem1 hl), fun h => absurd h (not_mem (mem1 hl)), fun _ h => .inr ⟨t, _, rfl, hadj, tagName_start ht⟩⟩,
    .of (mem_sub (mem1 hl)), fun n hn s p ch F v Q h _ hq => ?_⟩
  simp only [List.length_append, List.append_assoc, List.cons_append, List.nil_append, List.length_cons] at hn h
  refine isElement G h hl ht hadj fun s h => .bind (.bind (h.start fun m s h => .bind (startingTag ht ha (by omega) (mem_sub (mem1 hg)) h fun s h => ?_)))
  have : ((g.kind == T!"/>") || htmlVoidElements.contains (t.text.map asciiLower)) = false := by
    have h1 : htmlVoidElements.contains (t.text.map asciiLower) = false := by
      cases h' : htmlVoidElements.contains (t.text.map asciiLower) with
      | false => rfl
      | true => exact absurd (isVoid_iff.2 (List.contains_iff_mem.1 h')) hvoid
    rw [h1, hg]
    rfl
  dsimp only
  rw [this, if_neg (by simp), ← hk, ← htx]
  refine .bind (h.start fun m' s h => .bind (hb n (by omega) h fun s h => .bind (h.complete_ fun s h => .bind ?_)))
  have ht' : IsTagName t' := by
    unfold IsTagName
    rw [hk, htx]
    exact ht
  exact h.endingTag hl' ht' hg' fun s h => h.complete fun s h => .pure (hq _ _ (by simpa using h))

theorem element_ok (G : Good toks) {l g l' t' g' : Token} {a : List Token} {as : List Tree} (hl : l.kind = T!"<") (ht : IsTagName t) (hadj : Adjacent l t)
    (hvoid : ¬ IsVoid t) (hraw : ¬ IsRaw t) (ha : LoopOk toks .attribute a as) (hg : g.kind = T!">") (hb : LoopOk toks .element b xs)
    (hl' : l'.kind = T!"</") (hk : t'.kind = t.kind) (htx : t'.text = t.text) (hg' : g'.kind = T!">") :
    HtmlOk toks (l :: t :: (a ++ g :: (b ++ [l', t', g'])))
      (.node .HTML_TAG [.node .HTML_STARTING_TAG [l.tree, tagNameTree t, .node .HTML_ATTRIBUTE_LIST as, g.tree],
          .node .BODY xs, .node .HTML_ENDING_TAG [l'.tree, tagNameTree t', g'.tree]]) := by
  refine fullElement_ok G hl ht hadj hvoid ha hg (fun n hn s p ch F v Q h hq => ?_) hl' hk htx hg'
  unfold parseElementBody
  have h1 : htmlRawTextElements.contains (t'.text.map asciiLower) = false := by
    cases h' : htmlRawTextElements.contains (t'.text.map asciiLower) with
    | false => rfl
    | true => rw [htx] at h'; exact absurd (isRaw_iff.2 (List.contains_iff_mem.1 h')) hraw
  rw [h1, if_neg (by simp)]
  obtain ⟨n, rfl⟩ : ∃ m, n = m + 1 := ⟨n - 1, by omega⟩
  refine Loops.run (hb.run n (by omega) early_bodyEnd ?_ (fun _ _ _ _ hv => bodyEnd_go (by decide) hv) h (.inr (.of (by rw [hl']; exact List.mem_cons_self)))
    (.inr ⟨_, _, rfl, kind_ne (mem1 hl'), by dsimp only; rw [bodyEnd_at hl']; rfl⟩) fun s h => ?_)
  · intro a s Q hr
    exact .bind (.discard ((Run.unbind hr).mono fun o s h => .pure (Run.ofPure h).2))
  · rw [if_neg (by simp), if_pos (bodyEnd_at hl')]
    exact hq s h

theorem rawElement_ok (G : Good toks) {l g l' t' g' : Token} {a : List Token} {as : List Tree} (hl : l.kind = T!"<") (ht : IsTagName t) (hadj : Adjacent l t)
    (hvoid : ¬ IsVoid t) (hraw : IsRaw t) (ha : LoopOk toks .attribute a as) (hg : g.kind = T!">") (hb : LoopOk toks .raw b xs)
    (hl' : l'.kind = T!"</") (hk : t'.kind = t.kind) (htx : t'.text = t.text) (hfirst : FirstEnd b l' t') (hg' : g'.kind = T!">") :
    HtmlOk toks (l :: t :: (a ++ g :: (b ++ [l', t', g'])))
      (.node .HTML_TAG [.node .HTML_STARTING_TAG [l.tree, tagNameTree t, .node .HTML_ATTRIBUTE_LIST as, g.tree],
          .node .BODY [.node .HTML_RAW_TEXT xs], .node .HTML_ENDING_TAG [l'.tree, tagNameTree t', g'.tree]]) := by
  refine fullElement_ok G hl ht hadj hvoid ha hg (fun n hn s p ch F v Q h hq => ?_) hl' hk htx hg'
  unfold parseElementBody
  have h1 : htmlRawTextElements.contains (t'.text.map asciiLower) = true := by
    rw [htx]; exact List.contains_iff_mem.2 (isRaw_iff.1 hraw)
  rw [h1, if_pos rfl]
  refine .bind (h.start fun m s h => .bind (Loops.run (hb.run n (by omega) early_bodyEnd ?_ (fun pre post e hne hv => firstEnd_go hfirst e hne hl' hv) h trivial
    (.inr ⟨_, _, rfl, kind_ne (mem1 hl'), by dsimp only; rw [bodyEnd_at hl']; rfl⟩) fun s h => ?_)))
  · intro a s Q hr
    exact .bind ((Run.unbind hr).mono fun o s h => .pure (Run.ofPure h).2)
  · rw [if_neg (by simp), if_pos (bodyEnd_at hl')]
    exact .bind (h.complete_ fun s h => .pure (hq s (by simpa using h)))

end Ludtwig.Template
