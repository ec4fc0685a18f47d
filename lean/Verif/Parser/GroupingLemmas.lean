import Verif.Parser.PrattSpec
import Verif.Grammar.Expression

/-!
# Facts about groupings (helper lemmas for C11)
-/

namespace Ludtwig

/-! ## The operator table -/

/-- All binary operators. -/
def binaryOperators : List SyntaxKind := operatorTable.flatMap (·.2)

theorem mem_binaryOperators {k : SyntaxKind} : k ∈ binaryOperators ↔ (rowOf k).isSome := by
  unfold rowOf binaryOperators
  rw [Option.isSome_map, List.find?_isSome]
  constructor
  · intro h
    obtain ⟨r, hr, hk⟩ := List.mem_flatMap.1 h
    obtain ⟨i, hi⟩ := List.getElem?_of_mem hr
    exact ⟨(r, i), List.mem_zipIdx_iff_getElem?.2 hi, by simpa using hk⟩
  · rintro ⟨r, hr, hk⟩
    exact List.mem_flatMap.2 ⟨r.1, List.mem_of_getElem? (List.mem_zipIdx_iff_getElem?.1 hr), by simpa using hk⟩

/-- The operators of the code are those of the table. -/
theorem power_isSome (k : SyntaxKind) : (binaryBindingPower k).isSome ↔ (rowOf k).isSome := by
  have : ∀ k ∈ SyntaxKind.all, (binaryBindingPower k).isSome = (rowOf k).isSome := by decide +kernel
  have hk : k ∈ SyntaxKind.all := List.mem_of_getElem? (i := k.ctorIdx) (by cases k <;> rfl)
  rw [this k hk]

/-- The left power of an operator is smaller than the right power of another one exactly if the
other one binds tighter or equally tight to the left. -/
theorem power_left {a b : SyntaxKind} {l r l' r'} (ha : binaryBindingPower a = some (l, r))
    (hb : binaryBindingPower b = some (l', r')) (h : l' < r) : BindsTighter .left a b := by
  have key : ∀ a ∈ binaryOperators, ∀ b ∈ binaryOperators,
      (match binaryBindingPower a, binaryBindingPower b, rowOf a, rowOf b with
      | some (_, r), some (l', _), some (i, s), some (j, _) =>
        decide (l' < r → (j < i ∨ (i = j ∧ s = .left)))
      | _, _, _, _ => true) = true := by decide +kernel
  have ha' : (rowOf a).isSome := (power_isSome a).1 (by rw [ha]; rfl)
  have hb' : (rowOf b).isSome := (power_isSome b).1 (by rw [hb]; rfl)
  have := key a (mem_binaryOperators.2 ha') b (mem_binaryOperators.2 hb')
  obtain ⟨⟨i, s⟩, hi⟩ := Option.isSome_iff_exists.1 ha'
  obtain ⟨⟨j, t⟩, hj⟩ := Option.isSome_iff_exists.1 hb'
  rw [ha, hb, hi, hj] at this
  exact ⟨i, s, j, t, hi, hj, of_decide_eq_true this h⟩

/-- The same on the right. -/
theorem power_right {a b : SyntaxKind} {l r l' r'} (ha : binaryBindingPower a = some (l, r))
    (hb : binaryBindingPower b = some (l', r')) (h : r' ≤ l) : BindsTighter .right a b := by
  have key : ∀ a ∈ binaryOperators, ∀ b ∈ binaryOperators,
      (match binaryBindingPower a, binaryBindingPower b, rowOf a, rowOf b with
      | some (l, _), some (_, r'), some (i, s), some (j, _) =>
        decide (r' ≤ l → (j < i ∨ (i = j ∧ s = .right)))
      | _, _, _, _ => true) = true := by decide +kernel
  have ha' : (rowOf a).isSome := (power_isSome a).1 (by rw [ha]; rfl)
  have hb' : (rowOf b).isSome := (power_isSome b).1 (by rw [hb]; rfl)
  have := key a (mem_binaryOperators.2 ha') b (mem_binaryOperators.2 hb')
  obtain ⟨⟨i, s⟩, hi⟩ := Option.isSome_iff_exists.1 ha'
  obtain ⟨⟨j, t⟩, hj⟩ := Option.isSome_iff_exists.1 hb'
  rw [ha, hb, hi, hj] at this
  exact ⟨i, s, j, t, hi, hj, of_decide_eq_true this h⟩

/-- All operators of a row are grouped alike. -/
theorem row_assoc {a b : SyntaxKind} {i s t} (ha : rowOf a = some (i, s)) (hb : rowOf b = some (i, t)) :
    s = t := by
  have key : ∀ a ∈ binaryOperators, ∀ b ∈ binaryOperators,
      (match rowOf a, rowOf b with
      | some (i, s), some (j, t) => decide (i = j → s = t)
      | _, _ => true) = true := by decide +kernel
  have := key a (mem_binaryOperators.2 (by rw [ha]; rfl)) b (mem_binaryOperators.2 (by rw [hb]; rfl))
  rw [ha, hb] at this
  exact of_decide_eq_true this rfl

/-! ## Uniqueness -/

/-- The operators of a flat sequence. -/
def opsOf (is : List Item) : List SyntaxKind :=
  is.filterMap (fun | .op t => some t.kind | .operand _ _ => none)

@[simp] theorem opsOf_append (a b : List Item) : opsOf (a ++ b) = opsOf a ++ opsOf b := by
  simp [opsOf]

theorem BindsTighter.trans_left {a b c : SyntaxKind} {side : Assoc} (h1 : BindsTighter .left b c)
    (h2 : BindsTighter side a b) : BindsTighter .left a c := by
  obtain ⟨i, s, j, t, e1, e2, h⟩ := h1
  obtain ⟨i', s', j', t', e1', e2', h'⟩ := h2
  rw [e1] at e2'
  cases e2'
  refine ⟨i', s', j, t, e1', e2, ?_⟩
  rcases h with h | ⟨h, hs⟩ <;> rcases h' with h' | ⟨h', hs'⟩
  · left; omega
  · left; omega
  · left; omega
  · right
    subst h' h
    exact ⟨rfl, (row_assoc e1' e1).trans hs⟩

theorem BindsTighter.trans_right {a b c : SyntaxKind} {side : Assoc} (h1 : BindsTighter .right b c)
    (h2 : BindsTighter side a b) : BindsTighter .right a c := by
  obtain ⟨i, s, j, t, e1, e2, h⟩ := h1
  obtain ⟨i', s', j', t', e1', e2', h'⟩ := h2
  rw [e1] at e2'
  cases e2'
  refine ⟨i', s', j, t, e1', e2, ?_⟩
  rcases h with h | ⟨h, hs⟩ <;> rcases h' with h' | ⟨h', hs'⟩
  · left; omega
  · left; omega
  · left; omega
  · right
    subst h' h
    exact ⟨rfl, (row_assoc e1' e1).trans hs⟩

/-- Every operator of an operand binds tighter, not only the outermost one. -/
theorem WellGrouped.all_ops {g : Grouping} (h : WellGrouped g) {c : SyntaxKind} :
    ((∀ k ∈ g.top?, BindsTighter .left k c) → ∀ k ∈ opsOf g.items, BindsTighter .left k c) ∧
    ((∀ k ∈ g.top?, BindsTighter .right k c) → ∀ k ∈ opsOf g.items, BindsTighter .right k c) := by
  induction h generalizing c with
  | operand toks tree => simp [Grouping.items, opsOf]
  | @binary l op r _ _ hop hl hr ihl ihr =>
    have hl' := (ihl (c := op.kind)).1 hl
    have hr' := (ihr (c := op.kind)).2 hr
    have hmem : ∀ k, k ∈ opsOf (Grouping.binary l op r).items ↔
        k ∈ opsOf l.items ∨ k = op.kind ∨ k ∈ opsOf r.items := by
      intro k
      simp [Grouping.items, opsOf]
    constructor <;> intro ht k hk <;>
      (simp only [Grouping.top?, Option.mem_some_iff, forall_eq'] at ht
       rcases (hmem k).1 hk with h | rfl | h)
    · exact ht.trans_left (hl' k h)
    · exact ht
    · exact ht.trans_left (hr' k h)
    · exact ht.trans_right (hl' k h)
    · exact ht
    · exact ht.trans_right (hr' k h)

theorem BindsTighter.absurd {a b : SyntaxKind} (h1 : BindsTighter .left a b) (h2 : BindsTighter .right b a) :
    False := by
  obtain ⟨i, s, j, t, e1, e2, h⟩ := h1
  obtain ⟨i', s', j', t', e1', e2', h'⟩ := h2
  rw [e1] at e2'
  cases e2'
  rw [e2] at e1'
  cases e1'
  rcases h with h | ⟨h, hs⟩ <;> rcases h' with h' | ⟨h', hs'⟩
  · omega
  · omega
  · omega
  · subst h
    have := row_assoc e1 e2
    rw [hs, hs'] at this
    cases this

theorem items_ne (g : Grouping) : g.items ≠ [] := by
  cases g <;> simp [Grouping.items]

/-- Two groupings of the same sequence split at the same operator. -/
theorem split_unique {l r l' r' : Grouping} {op op' : Token} (h : WellGrouped (.binary l op r))
    (h' : WellGrouped (.binary l' op' r'))
    (he : l.items ++ .op op :: r.items = l'.items ++ .op op' :: r'.items) :
    l.items = l'.items ∧ op = op' ∧ r.items = r'.items := by
  rcases List.append_eq_append_iff.1 he with ⟨x, h1, h2⟩ | ⟨x, h1, h2⟩
  · cases x with
    | nil =>
      simp only [List.append_nil, List.nil_append, List.cons.injEq, Item.op.injEq] at h1 h2
      exact ⟨h1.symm, h2.1, h2.2⟩
    | cons y x =>
      simp only [List.cons_append, List.cons.injEq] at h2
      obtain ⟨rfl, h2⟩ := h2
      exfalso
      cases h with
      | binary w1 w2 _ _ hr =>
        cases h' with
        | binary w1' w2' _ hl' _ =>
          have a := w1'.all_ops.1 hl' op.kind (by rw [h1]; simp [opsOf])
          have b := w2.all_ops.2 hr op'.kind (by rw [h2]; simp [opsOf])
          exact a.absurd b
  · cases x with
    | nil =>
      simp only [List.append_nil, List.nil_append, List.cons.injEq, Item.op.injEq] at h1 h2
      exact ⟨h1, h2.1.symm, h2.2.symm⟩
    | cons y x =>
      simp only [List.cons_append, List.cons.injEq] at h2
      obtain ⟨rfl, h2⟩ := h2
      exfalso
      cases h with
      | binary w1 w2 _ hl _ =>
        cases h' with
        | binary w1' w2' _ _ hr' =>
          have a := w1.all_ops.1 hl op'.kind (by rw [h1]; simp [opsOf])
          have b := w2'.all_ops.2 hr' op.kind (by rw [h2]; simp [opsOf])
          exact a.absurd b

theorem wellGrouped_unique {g : Grouping} (h : WellGrouped g) : ∀ {g' : Grouping}, WellGrouped g' →
    g.items = g'.items → g = g' := by
  induction h with
  | operand toks tree =>
    intro g' h' he
    cases g' with
    | operand => simp only [Grouping.items, List.cons.injEq, Item.operand.injEq, and_true] at he; rw [he.1, he.2]
    | binary l op r =>
      simp only [Grouping.items] at he
      have := congrArg List.length he
      have h1 := List.length_pos_iff.2 (items_ne l)
      have h2 := List.length_pos_iff.2 (items_ne r)
      simp at this
      omega
  | @binary l op r hl hr h1 h2 h3 ihl ihr =>
    intro g' h' he
    cases g' with
    | operand =>
      simp only [Grouping.items] at he
      have := congrArg List.length he
      have h1 := List.length_pos_iff.2 (items_ne l)
      have h2 := List.length_pos_iff.2 (items_ne r)
      simp at this
      omega
    | binary l' op' r' =>
      obtain ⟨e1, rfl, e2⟩ := split_unique (.binary hl hr h1 h2 h3) h' he
      cases h' with
      | binary hl' hr' _ _ _ => rw [ihl hl' e1, ihr hr' e2]

/-! ## The algorithm on flat sequences -/

/-- What the loop of the parser does with an operand and the rest of a flat sequence: the grouping it
arrives at, and the part of the rest that it leaves. -/
inductive Pratt : Nat → Grouping → List (Token × (List Token × Tree)) → Grouping →
    List (Token × (List Token × Tree)) → Prop
  | stop {min g rest} : (∀ x ∈ rest.head?, ∀ l r, binaryBindingPower x.1.kind = some (l, r) → l < min) →
      Pratt min g rest g rest
  | step {min g op x rest g1 rest1 g2 rest2 l r} : binaryBindingPower op.kind = some (l, r) → min ≤ l →
      Pratt r (.operand x.1 x.2) rest g1 rest1 → Pratt min (.binary g op g1) rest1 g2 rest2 →
      Pratt min g ((op, x) :: rest) g2 rest2

/-- The rest of a flat sequence as items. -/
def restItems (rest : List (Token × (List Token × Tree))) : List Item :=
  rest.flatMap (fun r => [.op r.1, .operand r.2.1 r.2.2])

theorem Pratt.items {min g rest g' rest'} (h : Pratt min g rest g' rest') :
    g'.items ++ restItems rest' = g.items ++ restItems rest := by
  induction h with
  | stop => rfl
  | step _ _ _ _ ih1 ih2 =>
    rw [ih2]
    simp only [Grouping.items, List.append_assoc, List.cons_append]
    rw [ih1]
    simp [restItems, Grouping.items]

theorem Pratt.suffix {min g rest g' rest'} (h : Pratt min g rest g' rest') : rest' <:+ rest := by
  induction h with
  | stop => exact List.suffix_rfl
  | step _ _ _ _ ih1 ih2 => exact (ih2.trans ih1).trans (List.suffix_cons _ _)

theorem Pratt.wellGrouped {min g rest g' rest'} (h : Pratt min g rest g' rest')
    (hops : ∀ x ∈ rest, (rowOf x.1.kind).isSome) (hg : WellGrouped g)
    (htop : ∀ k ∈ g.top?, ∀ l r, binaryBindingPower k = some (l, r) → min ≤ l)
    (hnext : ∀ x ∈ rest.head?, ∀ k ∈ g.top?, ∀ l r l' r', binaryBindingPower x.1.kind = some (l, r) →
      binaryBindingPower k = some (l', r') → l < r') :
    WellGrouped g' ∧ (∀ k ∈ g'.top?, ∀ l r, binaryBindingPower k = some (l, r) → min ≤ l) ∧
    (∀ x ∈ rest'.head?, ∀ l r, binaryBindingPower x.1.kind = some (l, r) → l < min) := by
  induction h with
  | stop h => exact ⟨hg, htop, h⟩
  | @step min g op x rest g1 rest1 g2 rest2 l r hp hmin h1 h2 ih1 ih2 =>
    have hrest : ∀ y ∈ rest, (rowOf y.1.kind).isSome := fun y hy => hops y (by simp [hy])
    obtain ⟨w1, t1, n1⟩ := ih1 hrest (.operand _ _) (by simp [Grouping.top?]) (by simp [Grouping.top?])
    refine ih2 (fun y hy => hrest y (h1.suffix.subset hy)) (.binary hg w1 (hops (op, x) (by simp)) ?_ ?_) ?_ ?_
    · intro k hk
      have hsome : (rowOf k).isSome := by
        cases g with
        | operand => simp [Grouping.top?] at hk
        | binary a o b =>
          simp only [Grouping.top?, Option.mem_some_iff] at hk
          subst hk
          cases hg with
          | binary _ _ h _ _ => exact h
      obtain ⟨⟨l', r'⟩, hk'⟩ := Option.isSome_iff_exists.1 ((power_isSome k).2 hsome)
      exact power_left hk' hp (hnext (op, x) (by simp) k hk l r l' r' hp hk')
    · intro k hk
      have hsome : (rowOf k).isSome := by
        cases g1 with
        | operand => simp [Grouping.top?] at hk
        | binary a o b =>
          simp only [Grouping.top?, Option.mem_some_iff] at hk
          subst hk
          cases w1 with
          | binary _ _ h _ _ => exact h
      obtain ⟨⟨l', r'⟩, hk'⟩ := Option.isSome_iff_exists.1 ((power_isSome k).2 hsome)
      exact power_right hk' hp (t1 k hk l' r' hk')
    · intro k hk l' r' hk'
      simp only [Grouping.top?, Option.mem_some_iff] at hk
      subst hk
      rw [hp] at hk'
      cases hk'
      exact hmin
    · intro y hy k hk ly ry l' r' hy' hk'
      simp only [Grouping.top?, Option.mem_some_iff] at hk
      subst hk
      rw [hp] at hk'
      cases hk'
      exact n1 y hy ly ry hy'

end Ludtwig
