import Verif.Rules.RunLemmas

/-!
# Traversals whose state follows the nesting

A traversal state that splits into an accumulator and a part that depends on the place only: the
traversal folds the accumulator over the elements that are not inside of a skipped element.
-/

namespace Ludtwig

/-- No element around an element is closed. -/
def OpenBy (closed : Elem → Bool) (e : Elem) : Prop := ∀ a ∈ e.ancestors, closed a = false

/-- The elements in an element that are in no closed element, in document order. -/
def Elem.reached (closed : Elem → Bool) (e : Elem) : List Elem :=
  e.descendants.filter (fun c => c.chain.all (fun a => !closed a))

/-- A traversal with an accumulator `A` and a part `F` that depends on the place: `before e` is its
value before `e`, `tr e` is what walking over `e` does with it. -/
structure Scope {ε σ A F : Type} (V : Visitor ε σ) (mk : A → F → σ) (closed : Elem → Bool)
    (before : Elem → F) (enterF tr : Elem → F → F) (step : Elem → A → A) (root : Tree) : Prop where
  skip : ∀ e a, Elem.In root e → OpenBy closed e → closed e = true → e.isNode = true ∧
    ∃ s, V.enter e (mk a (before e)) = .ok (s, true) ∧ V.leave e s = .ok (mk a (tr e (before e)))
  enter : ∀ e a, Elem.In root e → OpenBy closed e → closed e = false →
    V.enter e (mk a (before e)) = .ok (mk (step e a) (enterF e (before e)), false)
  leave : ∀ e a, Elem.In root e → OpenBy closed e → closed e = false →
    V.leave e (mk a (e.childrenWithTokens.foldl (fun f c => tr c f) (enterF e (before e)))) =
      .ok (mk a (tr e (before e)))
  child : ∀ e l c r, Elem.In root e → OpenBy closed e → closed e = false →
    e.childrenWithTokens = l ++ c :: r →
      before c = l.foldl (fun f c => tr c f) (enterF e (before e))

theorem reached_closed {closed : Elem → Bool} {e : Elem} (h : closed e = true) :
    e.reached closed = [] := by
  unfold Elem.reached
  rw [List.filter_eq_nil_iff]
  intro c hc hall
  have := elemsAt_chain e.tree e.start e.path c hc
  rw [List.all_eq_true] at hall
  have := hall e this
  simp [h] at this

theorem chain_open {closed : Elem → Bool} {e : Elem} (ho : OpenBy closed e) (h : closed e = false) :
    e.chain.all (fun a => !closed a) = true := by
  rw [List.all_eq_true]
  intro a ha
  rcases List.mem_cons.mp ha with rfl | ha
  · simp [h]
  · simp [ho a ha]

theorem child_openBy {closed : Elem → Bool} {e c : Elem} (ho : OpenBy closed e)
    (h : closed e = false) (hc : c ∈ e.childrenWithTokens) : OpenBy closed c := by
  obtain ⟨t, pos, path⟩ := e
  cases t with
  | token k t => simp [Elem.childrenWithTokens] at hc
  | node k cs =>
    intro a ha
    rw [Rules.child_ancestors path k pos cs [] pos c (by simpa [Elem.childrenWithTokens] using hc)] at ha
    rcases List.mem_cons.mp ha with rfl | ha
    · exact h
    · exact ho a ha

section
variable {ε σ A F : Type} {V : Visitor ε σ} {mk : A → F → σ} {closed : Elem → Bool}
  {before : Elem → F} {enterF tr : Elem → F → F} {step : Elem → A → A} {root : Tree}

mutual
theorem walkTree_scope (S : Scope V mk closed before enterF tr step root) :
    ∀ (t : Tree) (pos : Nat) (path : List Frame) (a : A), Elem.In root ⟨t, pos, path⟩ →
      OpenBy closed ⟨t, pos, path⟩ →
      walkTree V t pos path (mk a (before ⟨t, pos, path⟩)) =
        .ok (mk ((Elem.reached closed ⟨t, pos, path⟩).foldl (fun a c => step c a) a)
          (tr ⟨t, pos, path⟩ (before ⟨t, pos, path⟩)))
  | .token k t, pos, path, a, hin, ho => by
    have hc : closed ⟨.token k t, pos, path⟩ = false := by
      cases hc : closed ⟨.token k t, pos, path⟩ with
      | false => rfl
      | true => exact absurd (S.skip _ a hin ho hc).1 (by simp [Elem.isNode, Tree.isNode])
    have h₁ := S.enter _ a hin ho hc
    have h₂ := S.leave _ (step ⟨.token k t, pos, path⟩ a) hin ho hc
    simp only [walkTree, h₁]
    have hr : Elem.reached closed ⟨.token k t, pos, path⟩ = [⟨.token k t, pos, path⟩] := by
      unfold Elem.reached
      have : Elem.descendants ⟨.token k t, pos, path⟩ = [⟨.token k t, pos, path⟩] := rfl
      rw [this, List.filter_cons_of_pos (by exact chain_open ho hc)]; rfl
    rw [hr]
    simpa [Elem.childrenWithTokens] using h₂
  | .node k cs, pos, path, a, hin, ho => by
    cases hc : closed ⟨.node k cs, pos, path⟩ with
    | true =>
      obtain ⟨_, s, h₁, h₂⟩ := S.skip _ a hin ho hc
      simp only [walkTree, h₁, if_true, h₂]
      rw [reached_closed hc]; rfl
    | false =>
      have h₁ := S.enter _ a hin ho hc
      have h₂ := walkTrees_scope S cs k pos [] pos path
        (step ⟨.node k cs, pos, path⟩ a) hin ho hc (by simp)
      have h₃ := S.leave _ ((elemsIn cs k pos [] pos path).filter
        (fun c => c.chain.all (fun a => !closed a)) |>.foldl (fun a c => step c a)
          (step ⟨.node k cs, pos, path⟩ a)) hin ho hc
      simp only [List.nil_append, List.length_nil, List.take_zero, List.foldl_nil] at h₂
      simp only [walkTree, h₁, Bool.false_eq_true, if_false, h₂]
      have hd : Elem.reached closed ⟨.node k cs, pos, path⟩ = ⟨.node k cs, pos, path⟩ ::
          (elemsIn cs k pos [] pos path).filter (fun c => c.chain.all (fun a => !closed a)) := by
        unfold Elem.reached
        have : Elem.descendants ⟨.node k cs, pos, path⟩ =
          ⟨.node k cs, pos, path⟩ :: elemsIn cs k pos [] pos path := rfl
        rw [this, List.filter_cons_of_pos (by exact chain_open ho hc)]
      rw [hd]
      exact h₃
theorem walkTrees_scope (S : Scope V mk closed before enterF tr step root) :
    ∀ (ts : List Tree) (k : SyntaxKind) (start : Nat) (bef : List Tree) (pos : Nat)
      (path : List Frame) (a : A), Elem.In root ⟨.node k (bef ++ ts), start, path⟩ →
      OpenBy closed ⟨.node k (bef ++ ts), start, path⟩ →
      closed ⟨.node k (bef ++ ts), start, path⟩ = false →
      pos = start + byteLen (bef.flatMap (·.text)) →
      walkTrees V ts k start bef pos path
        (mk a (((childElems path k start [] start (bef ++ ts)).take bef.length).foldl
          (fun f c => tr c f) (enterF ⟨.node k (bef ++ ts), start, path⟩
            (before ⟨.node k (bef ++ ts), start, path⟩)))) =
        .ok (mk (((elemsIn ts k start bef pos path).filter
            (fun c => c.chain.all (fun a => !closed a))).foldl (fun a c => step c a) a)
          ((childElems path k start [] start (bef ++ ts)).foldl
            (fun f c => tr c f) (enterF ⟨.node k (bef ++ ts), start, path⟩
              (before ⟨.node k (bef ++ ts), start, path⟩))))
  | [], k, start, bef, pos, path, a, _, _, _, _ => by
    simp only [walkTrees, elemsIn, List.filter_nil, List.foldl_nil, List.append_nil]
    rw [List.take_of_length_le (by rw [childElems_length]; exact Nat.le_refl _)]
  | t :: ts, k, start, bef, pos, path, a, hin, ho, hc, hpos => by
    have htake := Rules.take_child path k start bef t ts
    have happ : (⟨.node k (bef ++ t :: ts), start, path⟩ : Elem).childrenWithTokens =
        (childElems path k start [] start (bef ++ t :: ts)).take bef.length ++
          ⟨t, pos, ⟨k, start, bef, ts⟩ :: path⟩ ::
          childElems path k start (bef ++ [t]) (pos + byteLen t.text) ts := by
      show childElems path k start [] start (bef ++ t :: ts) = _
      conv => lhs; rw [childElems_append path k start bef (t :: ts) [] start]
      simp only [childElems, List.nil_append]
      rw [hpos]
    have hmem : (⟨t, pos, ⟨k, start, bef, ts⟩ :: path⟩ : Elem) ∈
        (⟨.node k (bef ++ t :: ts), start, path⟩ : Elem).childrenWithTokens := by
      rw [happ]; simp
    have hbef := S.child _ _ _ _ hin ho hc happ
    have h₁ := walkTree_scope S t pos (⟨k, start, bef, ts⟩ :: path) a (.child hin hmem)
      (child_openBy ho hc hmem)
    rw [hbef] at h₁
    have hassoc : bef ++ t :: ts = (bef ++ [t]) ++ ts := by simp
    have h₂ := walkTrees_scope S ts k start (bef ++ [t]) (pos + byteLen t.text) path
      ((Elem.reached closed ⟨t, pos, ⟨k, start, bef, ts⟩ :: path⟩).foldl (fun a c => step c a) a)
      (by rw [← hassoc]; exact hin) (by rw [← hassoc]; exact ho) (by rw [← hassoc]; exact hc)
      (by rw [hpos]; simp [byteLen_append, Nat.add_assoc])
    rw [← hassoc] at h₂
    have hlen : (bef ++ [t]).length = bef.length + 1 := by simp
    rw [hlen, htake, ← hpos, List.foldl_append] at h₂
    simp only [List.foldl_cons, List.foldl_nil] at h₂
    simp only [walkTrees, h₁, h₂, elemsIn, List.filter_append, List.foldl_append]
    rfl
end

/-- The accumulator is folded over the elements that are in no closed element. -/
theorem walk_scope (S : Scope V mk closed before enterF tr step root) (a : A) :
    (Elem.root root).walk V (mk a (before (Elem.root root))) =
      .ok (mk (((Elem.root root).reached closed).foldl (fun a c => step c a) a)
        (tr (Elem.root root) (before (Elem.root root)))) :=
  walkTree_scope S root 0 [] a .root (fun a ha => by simp [Elem.ancestors, ancestorsFrom] at ha)

end

/-! ## A flag that is switched on and off -/

/-- Is there an element with a mark in the subtree (not counting what is inside of closed elements)? -/
def touchesBy (closed p : Elem → Bool) (e : Elem) : Bool :=
  e.descendants.any (fun c => p c && c.ancestors.all (fun a => !closed a))

/-- A flag that is switched on when an element with a mark is entered and off when such an element is
left: it is on in the element itself, and where it is on in the parent if no earlier sibling touches
an element with a mark. -/
def flagFrom (closed p : Elem → Bool) : Tree → Nat → List Frame → Bool
  | t, pos, [] => p ⟨t, pos, []⟩
  | t, pos, f :: fs =>
    p ⟨t, pos, f :: fs⟩ ||
      (flagFrom closed p (.node f.kind (f.before ++ t :: f.after)) f.start fs &&
        (Elem.siblingsBefore ⟨t, pos, f :: fs⟩).all (fun b => !touchesBy closed p b))

/-- The flag on an element. -/
def flagAt (closed p : Elem → Bool) (e : Elem) : Bool := flagFrom closed p e.tree e.start e.path

/-- The flag before an element. -/
def flagBefore (closed p : Elem → Bool) (e : Elem) : Bool :=
  match e.path with
  | [] => false
  | f :: fs => flagFrom closed p (.node f.kind (f.before ++ e.tree :: f.after)) f.start fs &&
      e.siblingsBefore.all (fun b => !touchesBy closed p b)

theorem flagAt_eq (closed p : Elem → Bool) (e : Elem) :
    flagAt closed p e = (p e || flagBefore closed p e) := by
  obtain ⟨t, pos, path⟩ := e
  cases path with
  | nil => simp [flagAt, flagFrom, flagBefore]
  | cons f fs => simp [flagAt, flagFrom, flagBefore]

theorem touchesBy_eq {closed p : Elem → Bool} (e : Elem) (h : OpenBy closed e) :
    touchesBy closed p e =
      (p e || (!closed e && e.childrenWithTokens.any (touchesBy closed p))) := by
  unfold touchesBy
  rw [descendants_eq, List.any_cons]
  have h' : (e.ancestors.all fun a => !closed a) = true := by
    rw [List.all_eq_true]; intro a ha; simp [h a ha]
  rw [h', Bool.and_true]
  congr 1
  rw [List.any_flatMap]
  cases hc : closed e with
  | false => rfl
  | true =>
    simp only [Bool.not_true, Bool.false_and]
    rw [List.any_eq_false]
    intro c hcm
    simp only [List.any_eq_true, not_exists, not_and]
    intro d hd hh
    simp only [Bool.and_eq_true, List.all_eq_true] at hh
    obtain ⟨k, cs, hk⟩ : ∃ k cs, e.tree = .node k cs := by
      cases ht : e.tree with
      | token k t => simp [Elem.childrenWithTokens, ht] at hcm
      | node k cs => exact ⟨k, cs, rfl⟩
    have hca : c.ancestors = e.chain := by
      obtain ⟨t, pos, path⟩ := e
      simp only at hk; subst hk
      have := Rules.child_ancestors path k pos cs [] pos c
        (by simpa [Elem.childrenWithTokens] using hcm)
      simpa using this
    have hcd : c ∈ d.chain := elemsAt_chain c.tree c.start c.path d hd
    have hed : e ∈ d.ancestors := by
      rcases List.mem_cons.mp hcd with h | h
      · subst h; rw [hca]; exact List.mem_cons_self
      · exact ancestors_trans (by rw [hca]; exact List.mem_cons_self) h
    have := hh.2 e hed
    simp [hc] at this

theorem foldl_flag (q : Elem → Bool) : ∀ (l : List Elem) (b : Bool),
    l.foldl (fun f c => f && !q c) b = (b && l.all (fun c => !q c))
  | [], b => by simp
  | c :: l, b => by simp [foldl_flag q l, Bool.and_assoc]

/-- The state of the flag before a child. -/
theorem flagBefore_child {closed p : Elem → Bool} {e c : Elem} {l r : List Elem}
    (h : e.childrenWithTokens = l ++ c :: r) :
    flagBefore closed p c =
      l.foldl (fun f c => f && !touchesBy closed p c) (p e || flagBefore closed p e) := by
  rw [foldl_flag, ← flagAt_eq]
  obtain ⟨t, pos, path⟩ := e
  cases t with
  | token k t => simp [Elem.childrenWithTokens] at h
  | node k cs =>
    have htrees := congrArg (List.map (·.tree)) h
    rw [childrenWithTokens_trees] at htrees
    simp only [Tree.subtrees, List.map_append, List.map_cons] at htrees
    have hlen : l.length = (l.map (·.tree)).length := by simp
    have h' := childElems_append path k pos (l.map (·.tree)) (c.tree :: r.map (·.tree)) [] pos
    rw [← htrees] at h'
    have hh : childElems path k pos [] pos cs = l ++ c :: r := h
    rw [hh] at h'
    rw [← hlen, List.take_left'  rfl] at h'
    have h'' := List.append_cancel_left h'
    simp only [childElems, List.nil_append, List.cons.injEq] at h''
    have hc := h''.1
    rw [hc]
    simp only [flagBefore]
    have e1 : l.map (·.tree) ++ c.tree :: r.map (·.tree) = cs := htrees.symm
    rw [e1]
    have e2 : Elem.siblingsBefore ⟨c.tree, pos + byteLen ((l.map (·.tree)).flatMap (·.text)),
        ⟨k, pos, l.map (·.tree), r.map (·.tree)⟩ :: path⟩ = l := by
      simp only [Elem.siblingsBefore]
      rw [e1, hh, ← hlen, List.take_left' rfl]
    rw [e2]
    rfl

/-- The state of the flag after an open element. -/
theorem flag_leave {closed p : Elem → Bool} {e : Elem} (ho : OpenBy closed e)
    (hc : closed e = false) (b : Bool) :
    (if p e then false else
      e.childrenWithTokens.foldl (fun f c => f && !touchesBy closed p c) (p e || b)) =
      (b && !touchesBy closed p e) := by
  rw [touchesBy_eq e ho, hc, foldl_flag]
  cases p e
  · simp only [Bool.false_eq_true, if_false, Bool.false_or, Bool.not_false, Bool.true_and]
    congr 1
    rw [Bool.eq_iff_iff]; simp
  · simp

/-- The state of the flag after a closed element. -/
theorem flag_skip {closed p : Elem → Bool} {e : Elem} (ho : OpenBy closed e)
    (hc : closed e = true) (b : Bool) :
    (if p e then false else b) = (b && !touchesBy closed p e) := by
  rw [touchesBy_eq e ho, hc]
  cases p e <;> simp

/-- Where the flag is on there is a mark on the element or around it. -/
theorem flagAt_chain (closed p : Elem → Bool) : ∀ (path : List Frame) (t : Tree) (pos : Nat),
    flagFrom closed p t pos path = true → (⟨t, pos, path⟩ : Elem).chain.any p = true
  | [], t, pos, h => by
    simp only [flagFrom] at h
    simp [Elem.chain, h]
  | f :: fs, t, pos, h => by
    simp only [flagFrom, Bool.or_eq_true, Bool.and_eq_true] at h
    rw [Elem.chain, List.any_cons, ancestors_cons]
    rcases h with h | ⟨h, _⟩
    · rw [h]; rfl
    · have := flagAt_chain closed p fs _ _ h
      rw [Elem.chain] at this
      rw [this, Bool.or_true]

end Ludtwig
