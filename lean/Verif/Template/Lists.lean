import Verif.Template.Terms

/-!
# Expressions behind each other, and lists (proof device for C73)
-/

namespace Ludtwig.Template

variable {toks : List Token} {s s' : PState} {p q c : Nat} {ch dh : List Child}
  {F : List (Nat × List Child)} {t : Token} {v w u : List Token} {x : Tree} {xs : List Tree} {k : SyntaxKind}
  {n m : Nat} {d : Bool}

/-! ## Sets of kinds -/

theorem contains_no {L set : List SyntaxKind} (h : k ∈ L)
    (hd : L.all (fun k => !set.contains k) = true := by decide +kernel) : set.contains k = false := by
  have := List.all_eq_true.1 hd k h
  simpa using this

theorem contains_yes {L set : List SyntaxKind} (h : k ∈ L)
    (hd : L.all (fun k => set.contains k) = true := by decide +kernel) : set.contains k = true :=
  List.all_eq_true.1 hd k h

theorem atS_no {L set : List SyntaxKind} (h : t.kind ∈ L)
    (hd : L.all (fun k => !set.contains k) = true := by decide +kernel) : atS set (t :: v) = false :=
  contains_no h hd

theorem atS_yes {L set : List SyntaxKind} (h : t.kind ∈ L)
    (hd : L.all (fun k => set.contains k) = true := by decide +kernel) : atS set (t :: v) = true :=
  contains_yes h hd

theorem kind_ne {L : List SyntaxKind} (h : t.kind ∈ L)
    (hd : L.all (fun k' => !([k].contains k')) = true := by decide +kernel) : t.kind ≠ k := by
  have := List.all_eq_true.1 hd _ h
  simpa using this

theorem mem1 (h : t.kind = k) : t.kind ∈ [k] := by rw [h]; exact List.mem_singleton_self _

theorem mem_sub {L M : List SyntaxKind} (h : k ∈ L) (hd : L.all (fun k => M.contains k) = true := by decide +kernel) :
    k ∈ M := List.contains_iff_mem.1 (contains_yes h hd)

/-- The next token is one of these. -/
def HeadIn (L : List SyntaxKind) (v : List Token) : Prop := ∃ t w, v = t :: w ∧ t.kind ∈ L

theorem HeadIn.sub {L M : List SyntaxKind} (h : HeadIn L v)
    (hd : L.all (fun k => M.contains k) = true := by decide +kernel) : HeadIn M v := by
  obtain ⟨t, w, rfl, h⟩ := h
  exact ⟨t, w, rfl, mem_sub h hd⟩

theorem HeadIn.append {L : List SyntaxKind} (h : HeadIn L u) (v : List Token) : HeadIn L (u ++ v) := by
  obtain ⟨t, w, rfl, h⟩ := h
  exact ⟨t, w ++ v, rfl, h⟩

theorem HeadIn.no {L set : List SyntaxKind} (h : HeadIn L v)
    (hd : L.all (fun k => !set.contains k) = true := by decide +kernel) : atS set v = false := by
  obtain ⟨t, w, rfl, h⟩ := h
  exact atS_no h hd

theorem HeadIn.yes {L set : List SyntaxKind} (h : HeadIn L v)
    (hd : L.all (fun k => set.contains k) = true := by decide +kernel) : atS set v = true := by
  obtain ⟨t, w, rfl, h⟩ := h
  exact atS_yes h hd

theorem HeadIn.of {L : List SyntaxKind} (h : t.kind ∈ L) : HeadIn L (t :: v) := ⟨t, v, rfl, h⟩

/-! ## Expressions -/

/-- The kinds of the tokens that expressions start with. -/
def exprStarts : List SyntaxKind :=
  [T!"number", T!"\"", T!"'", T!"[", T!"{", T!"(", T!"null"] ++ prefixKinds ++ testKinds ++ nameKinds

/-- What stands behind any expression. -/
def anyEnds : List SyntaxKind := exprEnds.filter (· != T!":")

theorem anyEnd (h : HeadIn anyEnds v) : ExprEnd d v := by
  obtain ⟨t, w, rfl, h⟩ := h
  obtain ⟨h1, h2⟩ := List.mem_filter.1 h
  exact ⟨t, w, rfl, h1, fun _ => by simpa using h2⟩

/-- An expression is taken. -/
structure ExprOk (toks : List Token) (d : Bool) (u : List Token) (x : Tree) : Prop where
  starts : HeadIn exprStarts u
  run : ∀ n, u.length ≤ n → Gives toks (parseExpressionBp (knot n) 0) u x (ExprEnd d)

/-- An expression is taken, if no `:` follows. -/
structure AnyExpr (toks : List Token) (u : List Token) (x : Tree) : Prop where
  starts : HeadIn exprStarts u
  run : ∀ n, u.length < n → Gives toks ((knot n).exprBp 0) u x (HeadIn anyEnds)

theorem ExprOk.knot (h : ExprOk toks d u x) (hn : u.length < n) : Gives toks ((knot n).exprBp 0) u x (ExprEnd d) := by
  cases n with
  | zero => omega
  | succ n => exact h.run n (by omega)

theorem ExprOk.any (h : ExprOk toks d u x) : AnyExpr toks u x :=
  ⟨h.starts, fun _ hn _ _ _ _ _ _ ha hf hq => h.knot hn ha (anyEnd hf) hq⟩

/-- The tokens with which no expression starts. -/
def noStarts : List SyntaxKind := tagCloses ++ [T!":", T!"]"]

theorem At.noExpr (G : Good toks) (h : At toks s F (t :: v)) (ht : t.kind ∈ noStarts) (hn : 0 < n)
    {Q : Option CompletedMarker → PState → Prop} (hq : ∀ s', At toks s' F (t :: v) → Q none s') :
    Run ((knot n).exprBp 0) s Q := by
  obtain ⟨n, rfl⟩ : ∃ m, n = m + 1 := ⟨n - 1, by omega⟩
  have hname := (G.sym h.mem (mem_sub ht)).1
  have htest : t.kind ∉ testKinds := fun h' => by
    have := List.contains_iff_mem.2 h'
    rw [contains_no ht] at this
    cases this
  refine .bind (h.ifF (Sees.at1 _) (atS_no ht) fun s h => h.ifF (Sees.atSet _) (atS_no ht) fun s h => ?_)
  refine .bind (h.ifF (Sees.at1 _) (atS_no ht) fun s h => ?_)
  refine h.ifF (Sees.atSet _) (atS_no ht) fun s h => ?_
  refine h.ifF (Sees.at1 _) (atS_no ht) fun s h => ?_
  refine h.ifF (Sees.at1 _) (atS_no ht) fun s h => ?_
  refine h.ifF (Sees.atSet _) (atS_no ht) fun s h => ?_
  refine h.ifF (Sees.at1 _) (atS_no ht) fun s h => ?_
  refine .bind (Sees.peek.run h fun s h => .bind (h.noName ?_ fun s h => ?_))
  · intro t' ht'
    cases ht'
    exact ⟨hname, htest⟩
  · exact .pure (.pure (.pure (hq _ h)))

/-! ## Lists -/

/-- A comma separated list with `n` elements. -/
inductive ListOk (P : List Token → Tree → Prop) : Nat → List Token → List Tree → Prop
  | nil : ListOk P 0 [] []
  | last {u : List Token} {x : Tree} : P u x → ListOk P 1 u [x]
  | more {n : Nat} {u : List Token} {x : Tree} {c : Token} {w : List Token} {xs : List Tree} : P u x → c.kind = T!"," → ListOk P n w xs → ListOk P (n + 1) (u ++ c :: w) (x :: c.tree :: xs)

/-- `f` applied again and again. -/
def iter (f : σ → σ) : Nat → σ → σ
  | 0, a => a
  | n + 1, a => iter f n (f a)

theorem iter_add (n a : Nat) : iter (· + 1) n a = a + n := by
  induction n generalizing a with
  | zero => rfl
  | succ n ih => rw [iter, ih]; omega

theorem iter_id {a : σ} (n : Nat) : iter id n a = a := by
  induction n with
  | zero => rfl
  | succ n ih => exact ih

theorem At.comma {le : P Bool} (h : At toks s ((p, ch) :: F) (t :: v)) (ht : t.kind = T!",")
    {Q : Unit → PState → Prop} (hq : ∀ s', At toks s' ((p, ch ++ [(none, t.tree)]) :: F) v → Q () s') :
    Run (commaOrEnd le) s Q :=
  h.ifT (Sees.at1 _) (atS_yes (mem1 ht)) fun _ h => h.bump_ hq

theorem At.listEnd {le : P Bool} {L : List SyntaxKind} (hle : Sees le (atS L)) (h : At toks s ((p, ch) :: F) (t :: v))
    (hc : t.kind ≠ T!",") (ht : t.kind ∈ L) {Q : Unit → PState → Prop} (hq : ∀ s', At toks s' ((p, ch) :: F) (t :: v) → Q () s') :
    Run (commaOrEnd le) s Q :=
  h.ifF (Sees.at' _) (by rw [atK_cons]; exact beq_ne hc) fun _ h =>
    h.whenF hle.not (by simp only [atS_cons, List.contains_iff_mem.2 ht, Bool.not_true]) hq

/-- The loop over a list: `Z` are the kinds of the tokens behind the list. -/
theorem list_loop {σ : Type} {early : σ → P (Bool × σ)} {child : σ → P σ} {le : P Bool} {E L Z : List SyntaxKind}
    {f : σ → σ} {N : Nat} {P : List Token → Tree → Prop}
    (he : Early early (atS E) (fun a _ => a)) (hle : Sees le (atS L))
    (hZ : Z.all (fun k => E.contains k && L.contains k && k != T!"," && k != .TK_UNKNOWN) = true)
    (hstart : ∀ {u x}, P u x → ∃ t w, u = t :: w ∧ t.kind ∉ E ∧ t.kind ≠ .TK_UNKNOWN)
    (hitem : ∀ {u x}, P u x → u.length ≤ N → ∀ {s p ch F v a} {Q : σ → PState → Prop},
      At toks s ((p, ch) :: F) (u ++ v) → HeadIn (T!"," :: Z) v →
      (∀ s', At toks s' ((p, ch ++ [(none, x)]) :: F) v → Run (commaOrEnd le) s' (fun _ => Q (f a))) → Run (child a) s Q)
    (hl : ListOk P m u xs) (hN : u.length ≤ N) : ∀ {s p ch F t v a} {Q : σ → PState → Prop},
      At toks s ((p, ch) :: F) (u ++ t :: v) → t.kind ∈ Z →
      (∀ s', At toks s' ((p, ch ++ anon xs) :: F) (t :: v) → Q (iter f m a) s') → Loops early child a s Q := by
  have hz : ∀ {k}, k ∈ Z → k ∈ E ∧ k ∈ L ∧ k ≠ T!"," ∧ k ≠ .TK_UNKNOWN := by
    intro k hk
    have := List.all_eq_true.1 hZ k hk
    simp only [Bool.and_eq_true, List.contains_iff_mem, bne_iff_ne] at this
    exact ⟨this.1.1.1, this.1.1.2, this.1.2, this.2⟩
  induction hl with
  | nil =>
    intro s p ch F t v a Q h ht hq
    obtain ⟨h1, _, _, h4⟩ := hz ht
    exact Loops.stop he h h4 (by rw [atS_cons]; exact List.contains_iff_mem.2 h1) fun s h => hq s (by simpa using h)
  | last hP =>
    intro s p ch F t v a Q h ht hq
    obtain ⟨h1, h2, h3, h4⟩ := hz ht
    obtain ⟨t1, w1, rfl, h5, h6⟩ := hstart hP
    refine Loops.step he h h6 (by rw [atS_cons]; simpa using h5) fun s h => ?_
    refine hitem hP hN h (HeadIn.of (List.mem_cons_of_mem _ ht)) fun s h => ?_
    refine h.listEnd hle h3 h2 fun s h => ⟨_, _, h, by simp, ?_⟩
    exact Loops.stop he h h4 (by rw [atS_cons]; exact List.contains_iff_mem.2 h1) fun s h => hq s (by simpa using h)
  | @more n u x c w xs hP hc _ ih =>
    intro s p ch F t v a Q h ht hq
    obtain ⟨t1, w1, rfl, h5, h6⟩ := hstart hP
    simp only [List.length_append, List.length_cons] at hN
    rw [List.append_assoc, List.cons_append] at h
    refine Loops.step he h h6 (by rw [atS_cons]; simpa using h5) fun s h => ?_
    refine hitem hP (by simp; omega) h (HeadIn.of (by rw [hc]; exact List.mem_cons_self)) fun s h => ?_
    refine h.comma hc fun s h => ⟨_, _, h, by simp; omega, ?_⟩
    exact ih (by omega) h ht fun s h => hq s (by simpa using h)

end Ludtwig.Template
